import Verif.LocalStore.Model
import Verif.Bitmap.AlgoSpec

/-!
# What a partition-local store means

A store holds events: rows with their IDs, in the order of the IDs.
-/

namespace Verif.LocalStore.Spec

open Verif.Slice Verif.Bitmap.Spec

variable {L V : Type}

/-- A row with its ID. -/
abbrev Event (L V : Type) := (L × V) × Nat

/-- The rows of a slice with their IDs. -/
def events (s : Slice (L × V)) : List (Event L V) := s.rows.zipIdx s.offset

/-- Whether a set of IDs has the ID of an event. -/
def selected (e : Expr) (x : Event L V) : Bool := e.bits[x.2]? == some true

/-- Whether a query asks for a row. An expression from which nothing is left once its predicates about metadata are
gone holds for every row of the layout. -/
def matching (q : Query L V) (r : L × V) : Bool :=
  if q.given then
    match q.checker r.1 with
    | none => false
    | some none => true
    | some (some c) => c r
  else true

/-- The events that a query with a set of IDs asks for. -/
def wanted (c : List (Event L V)) (q : Query L V) (e : Expr) : List (Event L V) :=
  c.filter fun x => selected e x && matching q x.1

/-- Count or extract. -/
def IsLookup (q : Query L V) : Prop := q.cmd = .count false ∨ ∃ p, q.cmd = .extract p

/-- The expression can be tailored to the layouts of the events. To extract with IDs it must not consist only of
predicates about metadata. -/
def Answerable (c : List (Event L V)) (q : Query L V) : Prop :=
  q.given = true → ∀ x ∈ c, q.checker x.1.1 ≠ none ∧ (q.cmd = .extract true → q.checker x.1.1 ≠ some none)

/-- The right answer: the sink gets all events that are asked for and no others, in their order, then the
query is done. -/
def Answer (c : List (Event L V)) (q : Query L V) (e : Expr) (out : Reply × List (Sent L V)) : Prop :=
  out.1 = .done ∧ match q.cmd with
    | .count _ => ∃ ns : List Nat, out.2 = ns.map .count ∧ ns.sum = (wanted c q e).length
    | .extract true => ∃ ss : List (Slice (L × V)), out.2 = ss.map .slice ∧ ss.flatMap events = wanted c q e
    | .extract false => ∃ ss : List (Slice (L × V)), out.2 = ss.map .slice ∧ ss.flatMap (·.rows) = (wanted c q e).map (·.1)
    | .erase => False

/-- Slices as the importer makes them: not empty, of one layout each, with ascending IDs below 2^64. -/
structure Proper (ss : List (Slice (L × V))) : Prop where
  nonempty : ∀ s ∈ ss, s.rows ≠ []
  oneLayout : ∀ s ∈ ss, ∀ r ∈ s.rows, ∀ r' ∈ s.rows, r.1 = r'.1
  bound : ∀ s ∈ ss, s.offset + s.rows.length < 2 ^ 64
  ascending : (ss.flatMap events).Pairwise fun x y => x.2 < y.2

/-! ## Histories of an active store -/

/-- What happens to an active store until its stream ends: slices arrive, queries, erasures, and the
messages that the store sent to itself. -/
inductive Call (L V : Type) where
  | batch (ss : List (Slice (L × V)))
  | query (q : Query L V) (e : Expr)
  | erase (e : Expr)
  | delegated

/-- The events of a store and the erasures under way. -/
structure Contents (L V : Type) where
  events : List (Event L V) := []
  erasing : List Expr := []

/-- The events that remain. -/
def without (c : List (Event L V)) (e : Expr) : List (Event L V) := c.filter fun x => !selected e x

/-- What a call does. -/
def Call.apply (c : Contents L V) : Call L V → Contents L V
  | .batch ss => { c with events := c.events ++ ss.flatMap Spec.events }
  | .query q e => if q.cmd = .erase then { c with erasing := c.erasing ++ [e] } else c
  | .erase e => { c with events := without c.events e }
  | .delegated => match c.erasing with
    | [] => c
    | e :: rest => ⟨without c.events e, rest⟩

/-- Slices come with ever larger IDs. -/
def Call.allowed (c : Contents L V) : Call L V → Prop
  | .batch ss => Proper ss ∧ ∀ x ∈ c.events, ∀ y ∈ ss.flatMap Spec.events, x.2 < y.2
  | .query q e => e.valid ∧ (q.cmd = .erase ∨ IsLookup q ∧ Answerable c.events q)
  | .erase e => e.valid
  | .delegated => True

/-- Every query for events gets the right answer. -/
def Call.answer (c : Contents L V) : Call L V → Reply × List (Sent L V) → Prop
  | .query q e, out => if q.cmd = .erase then out = (.later, []) else Answer c.events q e out
  | .erase _, out => out = (.done, [])
  | .batch _, out => out = (.later, [])
  | .delegated, out => out = (if c.erasing = [] then .later else .done, [])

/-- The message. -/
def Call.msg : Call L V → Option (ActiveMsg L V)
  | .batch ss => some (.batch ss)
  | .query q e => e.eval.map (.query q)
  | .erase e => e.eval.map .erase
  | .delegated => some .delegated

/-- A history, each call allowed when it is made. -/
def Allowed : Contents L V → List (Call L V) → Prop
  | _, [] => True
  | c, call :: calls => call.allowed c ∧ Allowed (call.apply c) calls

/-- The contents after a history. -/
def applyAll (c : Contents L V) (calls : List (Call L V)) : Contents L V := calls.foldl Call.apply c

/-- Every call is answered as it should. -/
def Answers : Contents L V → List (Call L V) → List (Reply × List (Sent L V)) → Prop
  | _, [], outs => outs = []
  | _, _ :: _, [] => False
  | c, call :: calls, out :: outs => call.answer c out ∧ Answers (call.apply c) calls outs

/-- A history in the model. -/
def run (st : Active L V) (calls : List (Call L V)) : Option (Active L V × List (Reply × List (Sent L V))) :=
  (calls.mapM Call.msg).bind st.run

/-! ## Histories of a passive store -/

/-- Whether a bitmap is the result of bitmap operations. -/
def IsIdSet (ids : Verif.Bitmap.EwahBitmap) : Prop := ∃ e : Expr, e.valid ∧ e.eval = some ids

/-- Requests with sets of IDs; nobody asks a store for an estimate. -/
def Possible : PassiveMsg L V → Prop
  | .request (.query q ids) => IsIdSet ids ∧ q.cmd ≠ .count true
  | .request (.erase ids) => IsIdSet ids
  | _ => True

end Verif.LocalStore.Spec
