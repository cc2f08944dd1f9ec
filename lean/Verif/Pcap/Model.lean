/-!
# The PCAP reader

Models the reader in `plugins/pcap/main.cpp`: taking a captured frame apart, the flow table with its cutoff,
expiry and size limit, and the loop over the packets of a trace.

A read of memory beyond the captured bytes is the outcome `oob`, a failed assertion `abort`, a `format_error`
`fatal`.  Not modelled: opening the trace, statistics, the pseudo-realtime delay, and the Community ID column
(a function of the flow, see component `CommunityId`).
-/
namespace Verif.Pcap

/-- What `pcap_next_ex` hands out: the captured bytes, the original length of the frame (`header->len`), and
the seconds of its timestamp. -/
structure Packet where
  data : List UInt8
  len : Nat
  time : UInt64

/-- Why a frame does not become an event. -/
inductive Bad where
  | oob
  | abort
  | fatal
  | skip
deriving DecidableEq, Repr

/-- The protocol of the ports (libvast/vast/port.hpp:19-26). -/
inductive Proto where
  | icmp
  | tcp
  | udp
  | unknown
deriving DecidableEq, Repr

/-- The flow of a packet: four-byte addresses, as the reader builds them, ports and protocol. -/
structure Conn where
  src : List UInt8
  dst : List UInt8
  sport : Nat
  dport : Nat
  proto : Proto
deriving DecidableEq, Repr

/-- A frame taken apart: the flow, the size of the payload as computed, and layer 3. -/
structure Parsed where
  conn : Conn
  payload : Nat
  layer3 : List UInt8
deriving DecidableEq, Repr

/-- Reading one byte of the frame. -/
def rd (p : Packet) (i : Nat) : Except Bad UInt8 :=
  match p.data[i]? with
  | some b => .ok b
  | none => .error .oob

/-- Reading two bytes in network order. -/
def rd16 (p : Packet) (i : Nat) : Except Bad Nat :=
  match rd p i, rd p (i + 1) with
  | .ok a, .ok b => .ok (a.toNat * 256 + b.toNat)
  | _, _ => .error .oob

/-- Reading four bytes. -/
def rd4 (p : Packet) (i : Nat) : Except Bad (List UInt8) :=
  if i + 4 ≤ p.data.length then .ok ((p.data.drop i).take 4) else .error .oob

/-- Subtraction on 64-bit unsigned integers. -/
def sub64 (a b : Nat) : Nat := (a + 2 ^ 64 - b) % 2 ^ 64

/-- Parsing layer 4 (plugins/pcap/main.cpp:393-427): starts at byte `base` and has `size` bytes. -/
def layer4 (p : Packet) (src dst : List UInt8) (proto : UInt8) (base size : Nat) : Except Bad (Conn × Nat) :=
  if proto = 6 then
    if size = 0 then .error .abort
    else
      match rd16 p base, rd16 p (base + 2), rd p (base + 12) with
      | .ok a, .ok b, .ok o => .ok (⟨src, dst, a, b, .tcp⟩, sub64 size ((o >>> 4).toNat * 4))
      | _, _, _ => .error .oob
  else if proto = 17 then
    if size = 0 then .error .abort
    else
      match rd16 p base, rd16 p (base + 2) with
      | .ok a, .ok b => .ok (⟨src, dst, a, b, .udp⟩, sub64 size 8)
      | _, _ => .error .oob
  else if proto = 1 then
    if size = 0 then .error .abort
    else
      match rd p base, rd p (base + 1) with
      | .ok a, .ok b => .ok (⟨src, dst, a.toNat, b.toNat, .icmp⟩, sub64 size 8)
      | _, _ => .error .oob
  else .ok (⟨src, dst, 0, 0, .unknown⟩, size)

/-- Layers 3 and 4 (plugins/pcap/main.cpp:346-427), with `size` bytes of the frame left from byte `off` on.
Both kinds of addresses are read as four bytes (main.cpp:373-374, 386-387).  A `subspan` beyond the end is
undefined behaviour. -/
def layer3 (p : Packet) (off size : Nat) : Except Bad (Conn × Nat) :=
  if size < 14 then .error .oob
  else
    let base := off + 14
    let n := size - 14
    match rd16 p (off + 12) with
    | .error e => .error e
    | .ok ty =>
      if ty = 0x0800 then
        if p.len < 14 + 20 then .error .fatal
        else
          match rd p base with
          | .error e => .error e
          | .ok b0 =>
            let h := (b0 &&& 0x0f).toNat * 4
            if h < 20 then .error .fatal
            else
              match rd4 p (base + 12), rd4 p (base + 16), rd p (base + 9) with
              | .ok src, .ok dst, .ok proto =>
                if n < h then .error .oob else layer4 p src dst proto (base + h) (n - h)
              | _, _, _ => .error .oob
      else if ty = 0x86dd then
        if p.len < 14 + 40 then .error .fatal
        else
          match rd4 p (base + 8), rd4 p (base + 24), rd p (base + 6) with
          | .ok src, .ok dst, .ok proto =>
            if n < 40 then .error .oob else layer4 p src dst proto (base + 40) (n - 40)
          | _, _, _ => .error .oob
      else .error .skip

/-- `decapsulate` (plugins/pcap/main.cpp:136-155): the number of bytes to strip. -/
def decapsulate (p : Packet) : Except Bad Nat :=
  if p.len < 14 then .error .fatal
  else
    match rd16 p 12 with
    | .error e => .error e
    | .ok ty => .ok (if ty = 0x8100 then 4 else if ty = 0x9100 then 2 * 4 else 0)

/-- A frame taken apart (plugins/pcap/main.cpp:342-427), with the bytes of layer 3 that go into the event
(main.cpp:449-450, 457). -/
def parse (p : Packet) : Except Bad Parsed :=
  match decapsulate p with
  | .error e => .error e
  | .ok off =>
    match layer3 p off (p.len - off) with
    | .error e => .error e
    | .ok (c, n) =>
      .ok ⟨c, n, (p.data.drop (off + 14)).take (p.len - off - 14)⟩

/-! ## The flow table -/

/-- `flow_state` (plugins/pcap/main.cpp:483-487) with its key. -/
structure Entry where
  conn : Conn
  bytes : Nat
  last : UInt64
deriving DecidableEq, Repr

/-- The options (plugins/pcap/main.cpp:171-177). -/
structure Cfg where
  cutoff : Nat
  maxFlows : Nat
  maxAge : UInt64
  expiry : UInt64

/-- `state` (plugins/pcap/main.cpp:491-498): inserts the flow if it is not there.  The table is a list of
entries with distinct keys.  Simplification: the keys of the hash table are compared structurally. -/
def ensure (c : Conn) (fs : List Entry) : List Entry :=
  if fs.any (·.conn == c) then fs else fs ++ [⟨c, 0, 0⟩]

/-- The entry of a flow. -/
def entryOf (c : Conn) (fs : List Entry) : Option Entry := fs.find? (·.conn == c)

/-- Replaces the entry of a flow. -/
def setEntry (e : Entry) (fs : List Entry) : List Entry := fs.map fun x => if x.conn == e.conn then e else x

/-- `update_flow` (plugins/pcap/main.cpp:502-512): the table, and whether the packet is kept; `none` if the
assertion fails. -/
def updateFlow (cfg : Cfg) (c : Conn) (time : UInt64) (payload : Nat) (fs : List Entry) : Option (List Entry × Bool) :=
  let fs := ensure c fs
  match entryOf c fs with
  | none => none
  | some e =>
    if e.bytes = cfg.cutoff then some (setEntry ⟨c, e.bytes, time⟩ fs, false)
    else if e.bytes < cfg.cutoff then
      some (setEntry ⟨c, e.bytes + min payload (cfg.cutoff - e.bytes), time⟩ fs, true)
    else none

/-- `evict_inactive` (plugins/pcap/main.cpp:515-525): the table and `last_expire_`. -/
def evictInactive (cfg : Cfg) (time : UInt64) (fs : List Entry) (lastExpire : UInt64) : List Entry × UInt64 :=
  if time - lastExpire ≤ cfg.expiry then (fs, lastExpire)
  else (fs.filter fun e => !(decide (time - e.last > cfg.maxAge)), time)

/-- `shrink_to_max_size` (plugins/pcap/main.cpp:528-546): removes entries until there are fewer than
`maxFlows`; which ones is up to the random numbers `pick`.  `none`: it does not terminate. -/
def shrink (cfg : Cfg) (pick : Nat → Nat) : Nat → List Entry → Option (List Entry)
  | 0, fs => if fs.length < cfg.maxFlows then some fs else none
  | f + 1, fs =>
    if fs.length < cfg.maxFlows then some fs
    else if fs.length = 0 then none
    else shrink cfg pick f (fs.eraseIdx (pick f % fs.length))

/-- The reader: flow table, `last_expire_`, the rows in the builder, the slices delivered. -/
structure State where
  flows : List Entry
  lastExpire : UInt64
  rows : List Parsed
  out : List (List Parsed)

/-- Initially. -/
def State.init : State := ⟨[], 0, [], []⟩

/-- How a step ends. -/
inductive End where
  | go
  | bad (b : Bad)
  | hang
deriving DecidableEq, Repr

/-- `finish` (libvast/src/format/single_layout_reader.cpp:30-41). -/
def State.finish (s : State) : State := if s.rows = [] then s else { s with rows := [], out := s.out ++ [s.rows] }

/-- One packet (plugins/pcap/main.cpp:342-477).  Copying layer 3 into the event reads up to the original length
of the frame. -/
def packet (cfg : Cfg) (maxSlice : Nat) (pick : Nat → Nat) (s : State) (p : Packet) : State × End :=
  match parse p with
  | .error .skip => (s, .go)
  | .error e => (s, .bad e)
  | .ok q =>
    let le := if s.lastExpire = 0 then p.time else s.lastExpire
    match updateFlow cfg q.conn p.time q.payload s.flows with
    | none => (s, .bad .abort)
    | some (fs, false) => ({ s with flows := fs, lastExpire := le }, .go)
    | some (fs, true) =>
      let (fs, le) := evictInactive cfg p.time fs le
      match shrink cfg pick fs.length fs with
      | none => (s, .hang)
      | some fs =>
        if p.data.length < p.len then (s, .bad .oob)
        else
        let s := { s with flows := ensure q.conn fs, lastExpire := le, rows := s.rows ++ [q] }
        (if s.rows.length = maxSlice then s.finish else s, .go)

/-- A whole trace, read by one call without limit (plugins/pcap/main.cpp:318-480): at its end, the rows left are
delivered.  An error leaves them in the builder.  Simplification: limits and batch timeouts, which only move
the cuts between slices, are left out. -/
def trace (cfg : Cfg) (maxSlice : Nat) : List (Packet × (Nat → Nat)) → State → State × End
  | [], s => (s.finish, .go)
  | (p, pick) :: ps, s =>
    match packet cfg maxSlice pick s p with
    | (s, .go) => trace cfg maxSlice ps s
    | r => r

end Verif.Pcap
