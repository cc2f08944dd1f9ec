import Verif.Recovery.Model

/-! # What the properties of the saved state speak about -/

namespace Verif.Recovery.Spec

open Verif.Recovery

/-- How many events of layout `l` the partitions have. -/
def total (contents : Nat → Nat → Nat) (ids : List Nat) (l : Nat) : Nat := (ids.map (fun i => contents i l)).sum

/-- How many events of layout `l` were ingested. -/
def ingested (es : List Ev) (l : Nat) : Nat :=
  (es.map (fun e => match e with | .slice k n _ _ => if k = l then n else 0 | _ => 0)).sum

/-- The partitions the index knows: the one being filled, those being written, and those written. -/
def known (s : State) : List Nat := s.active.toList ++ (s.persisted ++ s.unpersisted)

/-- What may happen for the counts to be exact: no write or removal of a file fails, only partitions that are written, and not already
    being erased, are erased, and the index is started again only after it was asked to exit and all is written. -/
def Regular (s : State) : Ev → Prop
  | .slice _ _ _ id => s.running = true ∧ id ∉ s.used
  | .write _ ok => ok = true
  | .save ok => ok = true
  | .unlink _ ok => ok = true
  | .erase id => s.running = true ∧ id ∈ s.persisted ∧ id ∉ s.asked.map (·.1)
  | .restart => s.running = false ∧ s.writes = [] ∧ s.saves = [] ∧ s.mapping = [] ∧ s.mapped = [] ∧ s.unlinking = []
  | _ => True

/-- A history in which all that happens is regular. -/
def RegularRun (s : State) : List Ev → Prop
  | [] => True
  | e :: es => Regular s e ∧ RegularRun (step s e) es

/-- A history in which partitions are erased only once their writing was confirmed to the index. Crashes and failures may occur. -/
def Confirmed (s : State) : List Ev → Prop
  | [] => True
  | e :: es => (∀ id, e = .erase id → id ∈ s.persisted) ∧ Confirmed (step s e) es

end Verif.Recovery.Spec
