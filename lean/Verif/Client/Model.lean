import Verif.DataText.Model
import Verif.Bitmap.Ewah
import Verif.Bitmap.Algo
/-!
# Client commands

How a client finds a node, where it takes a query from, and what `vast get`, `vast export` and
`vast pivot` do.
-/
namespace Verif.Client
open Verif.Data Verif.DataText

/-! ## Endpoints -/

/-- `port_type` (libvast/vast/port.hpp:20-28). -/
inductive Proto where
  | unknown | icmp | tcp | udp | icmp6 | sctp
  deriving DecidableEq

/-- `port` (libvast/src/port.cpp:19-44), as the number and the type that it was constructed with. -/
structure Port where
  number : Nat
  proto : Proto
  deriving DecidableEq

/-- `endpoint` (libvast/vast/endpoint.hpp:19-22). -/
structure Endpoint where
  host : Str
  port : Option Port
  deriving DecidableEq

/-- `port_type_parser` (libvast/vast/concept/parseable/vast/port.hpp:37-53). -/
def protoP : P Proto := fun s =>
  match kw ['?'] s with
  | some r => some (.unknown, r)
  | none => match kw ['i', 'c', 'm', 'p', '6'] s with
    | some r => some (.icmp6, r)
    | none => match kw ['i', 'c', 'm', 'p'] s with
      | some r => some (.icmp, r)
      | none => match kw ['t', 'c', 'p'] s with
        | some r => some (.tcp, r)
        | none => match kw ['u', 'd', 'p'] s with
          | some r => some (.udp, r)
          | none => match kw ['s', 'c', 't', 'p'] s with
            | some r => some (.sctp, r)
            | none => none

/-- `port_parser` (libvast/vast/concept/parseable/vast/port.hpp:70-86): `u16 >> '/' >> port_type`. -/
def portP : P Port := fun s =>
  match uintP 16 5 1 s with
  | none => none
  | some (n, r) => match eat '/' r with
    | none => none
    | some r => match protoP r with
      | none => none
      | some (t, r) => some (⟨n, t⟩, r)

/-- The `port` of `endpoint_parser` (libvast/vast/concept/parseable/vast/endpoint.hpp:31-32). -/
def anyPortP : P Port := fun s =>
  match portP s with
  | some x => some x
  | none => match uintP 16 5 1 s with
    | some (n, r) => some (⟨n, .unknown⟩, r)
    | none => none

/-- The `port_part` of `endpoint_parser` (libvast/vast/concept/parseable/vast/endpoint.hpp:33). -/
def portPart : P Port := fun s =>
  match eat ':' s with
  | none => none
  | some r => anyPortP r

/-- A character of a host name (libvast/vast/concept/parseable/vast/endpoint.hpp:29). -/
def hostChar (b : UInt8) : Bool := isAlnum b || b == ch '-' || b == ch '_' || b == ch '.'

/-- `endpoint_parser` (libvast/vast/concept/parseable/vast/endpoint.hpp:25-36), called with a range: all of the text must be
used (libvast/vast/concept/parseable/core/parser.hpp:61-67). -/
def parseEndpoint (s : Str) : Option Endpoint :=
  let host := s.takeWhile hostChar
  let rest := s.dropWhile hostChar
  if host ≠ [] then
    match portPart rest with
    | some (p, []) => some ⟨host, some p⟩
    | some _ => none
    | none => if rest = [] then some ⟨host, none⟩ else none
  else
    match portPart s with
    | some (p, []) => some ⟨[], some p⟩
    | _ => none

/-- `defaults::system::endpoint` and `endpoint_port` (libvast/vast/defaults.hpp:187-190). -/
def defaultEndpoint : Str := str "localhost:42000/tcp"

/-- The default port. -/
def defaultPort : Nat := 42000

/-- Why there is no connection. -/
inductive Err where
  | parse | protocol
  deriving DecidableEq

/-- `start_command`, up to the call of `publish` (libvast/src/system/start_command.cpp:53-84): host and TCP port at which the
node listens. -/
def listenAt (opt : Option Str) : Except Err (Str × Nat) :=
  match parseEndpoint (opt.getD defaultEndpoint) with
  | none => .error .parse
  | some e =>
    let p := e.port.getD ⟨defaultPort, .tcp⟩
    .ok (if e.host = [] then str "localhost" else e.host, p.number)

/-- `connect_to_node`, up to the call of `remote_actor` (libvast/src/system/connect_to_node.cpp:40-73): host and TCP port to
which the client connects. -/
def connectTo (opt : Option Str) : Except Err (Str × Nat) :=
  match parseEndpoint (opt.getD defaultEndpoint) with
  | none => .error .parse
  | some e =>
    let p := e.port.getD ⟨defaultPort, .tcp⟩
    let p := if p.proto = .unknown then { p with proto := .tcp } else p
    if p.proto ≠ .tcp then .error .protocol
    else .ok (if e.host = [] then str "localhost" else e.host, p.number)

/-! ## Queries -/

/-- What `read_query` returns or fails with. -/
inductive QErr where
  | conflict | noSuchFile | invalid
  deriving DecidableEq

/-- `read_query` (libvast/src/system/read_query.cpp:35-77). `read` is the value of the option, `args` are the
arguments, `stdin` and `files` the contents that can be read. -/
def readQuery (read : Option Str) (args : List Str) (offset : Nat) (stdin : Str) (files : Str → Option Str) : Except QErr Str :=
  let check (result : Str) : Except QErr Str := if result = [] then .error .invalid else .ok result
  match read with
  | some fname =>
    if args ≠ [] then .error .conflict
    else if fname = str "-" then check stdin
    else match files fname with
      | none => .error .noSuchFile
      | some t => check t
  | none =>
    if args = [] then check stdin
    else if args.length = offset + 1 then check (args.getD offset [])
    else check []

/-- What `pivot_command` asks the node for: the target and the query, undefined behaviour, or an error. -/
inductive Pivot where
  | run (target query : Str)
  | undefined
  | failed (e : QErr)
  deriving DecidableEq

/-- `pivot_command` as far as its arguments go (libvast/src/system/pivot_command.cpp:36-45, 76-78): `inv.arguments[0]` is undefined
without arguments. -/
def pivotArgs (read : Option Str) (args : List Str) (stdin : Str) (files : Str → Option Str) : Pivot :=
  match readQuery read args 1 stdin files with
  | .error e => .failed e
  | .ok q => match args with
    | [] => .undefined
    | t :: _ => .run t q

/-! ## `vast get` -/

/-- `to_ids` (libvast/src/system/get_command.cpp:39-44). -/
def toIds (x : Nat) : Option Bitmap.EwahBitmap := do
  let s ← Bitmap.EwahBitmap.appendBits {} false x
  s.appendBit true

/-- The answer of an archive to a request for some ids: its events with these ids, in order. Simplification: that the archive
answers so is the subject of other properties. -/
def answer {E : Type} (db : List (Nat × E)) (ids : Bitmap.EwahBitmap) : List E :=
  (db.filter fun p => ids.get? p.1 == some true).map (·.2)

/-- `to<count>` for an argument (libvast/vast/concept/parseable/to.hpp:32-43, numeric/integral.hpp). -/
def readId (s : Str) : Option Nat :=
  match uintP 64 20 1 s with
  | some (n, []) => some n
  | _ => none

/-- The loop of `vast get` (libvast/src/system/get_command.cpp:46-75): what is written, and whether it succeeds.
Simplification: the archive lives and answers. -/
def getLoop {E : Type} (db : List (Nat × E)) : List Str → List E × Bool
  | [] => ([], true)
  | c :: cs => match readId c with
    | none => ([], false)
    | some i => match toIds i with
      | none => ([], false)
      | some ids =>
        let r := getLoop db cs
        (answer db ids ++ r.1, r.2)

/-! ## `vast export` -/

/-- The two actors that the command monitors. -/
inductive Who where
  | exporter | sink
  deriving DecidableEq

/-- Why an actor went down: normally, because of a shutdown by the user, or with an error. -/
inductive Reason where
  | normal | userShutdown | failure (code : Nat)
  deriving DecidableEq

/-- Messages to the command (libvast/src/system/sink_command.cpp:129-197). -/
inductive Msg where
  | timeout
  | down (who : Who) (reason : Reason)
  | performance
  | status
  | signal (interrupt : Bool)
  deriving DecidableEq

/-- The error of the command. -/
inductive CmdErr where
  | timeout
  | failure (code : Nat)
  deriving DecidableEq

/-- The variables of the loop, and the actors that were told to exit (libvast/src/system/sink_command.cpp:124-127). -/
structure Loop where
  err : Option CmdErr
  waiting : Bool
  stop : Bool
  exits : List Who
  deriving DecidableEq

/-- One message (libvast/src/system/sink_command.cpp:129-197). Nobody else is monitored: the branch for the node is not modelled. -/
def handle (s : Loop) : Msg → Loop
  | .timeout => { s with exits := s.exits ++ [.exporter, .sink], waiting := true, err := some .timeout }
  | .down who reason =>
    let s := match who with
      | .exporter => { s with stop := true, exits := s.exits ++ [.sink] }
      | .sink => { s with stop := false, exits := s.exits ++ [.exporter], waiting := true }
    match reason with
    | .failure c => { s with err := some (.failure c) }
    | _ => s
  | .performance => s
  | .status => if s.waiting then { s with stop := true } else s
  | .signal interrupt => if interrupt then { s with exits := s.exits ++ [.exporter, .sink] } else s

/-- `do_receive(...).until(stop)` (libvast/src/system/sink_command.cpp:127-200): the state when the loop ends, with the
messages that it handled, or `none` if it still waits. -/
def loop : Loop → List Msg → Option (Loop × List Msg)
  | _, [] => none
  | s, m :: ms =>
    let s := handle s m
    if s.stop then some (s, [m])
    else (loop s ms).map fun (t, seen) => (t, m :: seen)

/-- The beginning of the loop. -/
def Loop.start : Loop := { err := none, waiting := false, stop := false, exits := [] }

end Verif.Client
