import Verif.Reader.Source
/-!
# The datagram source

Models the handler for a datagram in `libvast/src/system/datagram_source.cpp`, with the JSON reader.
-/
namespace Verif.Reader

variable {L R : Type} [DecidableEq L]

/-- A datagram: its bytes, the capacity of the outgoing stream when it arrives, and the clock while it is
being read. -/
structure Datagram where
  payload : List UInt8
  capacity : Nat
  clock : Nat → Bool

/-- The state of the datagram source (libvast/vast/system/datagram_source.hpp:23-38).  Simplification: a
limit on the number of events is not modelled. -/
structure Udp (L R : Type) where
  reader : State L R
  count : Nat
  sent : List (Frame L R)
  droppedPackets : Nat
  abort : Bool

/-- A fresh datagram source. -/
def Udp.init : Udp L R := ⟨.init [], 0, [], 0, false⟩

/-- The handler for `new_datagram_msg` (libvast/src/system/datagram_source.cpp:97-131): drops the datagram if
there is no capacity, else gives its bytes to the reader, which keeps its builders and counters but forgets
the rest of the previous input (`reader::reset`, libvast/vast/format/json.hpp:114-119). -/
def receive (cfg : Cfg L R) (s : Udp L R) (d : Datagram) : Udp L R :=
  if s.abort then s
  else if d.capacity = 0 then { s with droppedPackets := s.droppedPackets + 1 }
  else
    let events := d.capacity * cfg.sliceSize % 2 ^ 64
    if events = 0 then { s with abort := true }
    else
      let r0 := { s.reader with lines := .init (d.payload.map .byte) }
      let r := (readImpl cfg.classify (jsonEvent cfg.sliceSize) events d.clock r0).1
      let fresh := r.out.drop s.reader.out.length
      { s with reader := r, count := s.count + total fresh, sent := s.sent ++ fresh.flatMap (push cfg) }

/-- A history of datagrams. -/
def receiveAll (cfg : Cfg L R) (ds : List Datagram) : Udp L R := ds.foldl (receive cfg) .init

end Verif.Reader
