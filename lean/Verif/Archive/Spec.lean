import Verif.Archive.Model
import Verif.Bitmap.AlgoSpec

/-!
# What a segment store means

A store holds events: rows with their IDs. Those of the segments on disk (`flushed`) survive a restart,
those of the builder (`pending`) do not.
-/

namespace Verif.Archive.Spec

open Verif.Slice Verif.Bitmap.Spec

variable {R : Type}

/-- The contents of a store. -/
structure Contents (R : Type) where
  flushed : List (R × Nat)
  pending : List (R × Nat)

/-- The rows of a slice with their IDs. -/
def events (s : Slice R) : List (R × Nat) := s.rows.zipIdx s.offset

/-- All events. -/
def Contents.all (c : Contents R) : List (R × Nat) := c.flushed ++ c.pending

/-- The calls a user makes; sets of IDs come from bitmap expressions. `full` says whether the slice fills the segment,
`release` is the end of the last reference to a segment that was erased. -/
inductive Call (R : Type) where
  | put (s : Slice R) (full : Bool)
  | flush
  | erase (e : Expr)
  | get (e : Expr)
  | release (id : Nat)

/-- Slices are not empty and come with ever larger IDs. -/
def Call.allowed (c : Contents R) : Call R → Prop
  | .put s _ => s.rows ≠ [] ∧ s.offset + s.rows.length < 2 ^ 64 ∧ ∀ x ∈ c.all, x.2 < s.offset
  | .erase e => e.valid
  | .get e => e.valid
  | _ => True

/-- Whether a set of IDs has the ID of an event. -/
def selected (e : Expr) (x : R × Nat) : Bool := e.bits[x.2]? == some true

/-- What a call does. -/
def Call.apply (c : Contents R) : Call R → Contents R
  | .put s false => { c with pending := c.pending ++ events s }
  | .put s true => ⟨c.flushed ++ c.pending ++ events s, []⟩
  | .flush => ⟨c.flushed ++ c.pending, []⟩
  | .erase e => ⟨c.flushed.filter fun x => !selected e x, c.pending.filter fun x => !selected e x⟩
  | _ => c

/-- What a call returns: `get` returns slices that have all selected events exactly once, and otherwise only events
of the store; no event is returned twice, and every slice has a selected event. -/
def Call.answer (c : Contents R) : Call R → Out R → Prop
  | .get e, out => ∃ r : List (Slice R), out = .slices (some r) ∧
      ((r.flatMap events).filter (selected e)).Perm (c.all.filter (selected e)) ∧
      (∀ x ∈ r.flatMap events, x ∈ c.all) ∧ ((r.flatMap events).map (·.2)).Nodup ∧
      ∀ s ∈ r, ∃ x ∈ events s, selected e x = true
  | _, out => out = .status true

/-- The call in the model. -/
def Call.op : Call R → Option (Op R)
  | .put s full => some (.put s full)
  | .flush => some .flush
  | .erase e => e.eval.map .erase
  | .get e => e.eval.map .get
  | .release id => some (.release id)

/-- A history of calls, each of them allowed when it is made. -/
def Allowed : Contents R → List (Call R) → Prop
  | _, [] => True
  | c, call :: calls => call.allowed c ∧ Allowed (call.apply c) calls

/-- The contents after a history. -/
def applyAll (c : Contents R) (calls : List (Call R)) : Contents R := calls.foldl Call.apply c

/-- Every call returns what it should. -/
def Answers : Contents R → List (Call R) → List (Out R) → Prop
  | _, [], outs => outs = []
  | _, _ :: _, [] => False
  | c, call :: calls, out :: outs => call.answer c out ∧ Answers (call.apply c) calls outs

/-- A history in the model. -/
def run (st : Store R) (calls : List (Call R)) : Option (List (Out R) × Store R) := do
  let ops ← calls.mapM Call.op
  st.run true ops

/-! ## Sessions -/

/-- Steps while a session is open: calls other than `erase`, or `next`. -/
inductive Turn (R : Type) where
  | put (s : Slice R) (full : Bool)
  | flush
  | get (e : Expr)
  | release (id : Nat)
  | next

/-- The call of a step. -/
def Turn.call : Turn R → Option (Call R)
  | .put s full => some (.put s full)
  | .flush => some .flush
  | .get e => some (.get e)
  | .release id => some (.release id)
  | .next => none

/-- The calls among some steps. -/
def calls (ts : List (Turn R)) : List (Call R) := ts.filterMap Turn.call

/-- The step in the model. -/
def Turn.turn (t : Turn R) : Option (Archive.Turn R) :=
  match t.call with
  | some call => call.op.map .call
  | none => some .next

/-- Steps in the model, after a session is opened: what `next` returned. -/
def session (st : Store R) (e : Expr) (ts : List (Turn R)) : Option (List (Next R)) := do
  let xs ← e.eval
  let r ← st.extract xs
  let turns ← ts.mapM Turn.turn
  let rs ← Store.turns r.2 r.1 turns
  some rs.1

/-- The slices that were delivered. -/
def delivered (outs : List (Next R)) : List (Slice R) :=
  outs.filterMap fun o => match o with
    | .slice s => some s
    | _ => none

end Verif.Archive.Spec
