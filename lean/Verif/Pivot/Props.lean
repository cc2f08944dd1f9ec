import Verif.Pivot.RunLemmas
import Verif.DataText.Props
/-!
# C112: what a pivot asks for
-/
namespace Verif.Pivot
open Verif.Types Verif.Types.Spec Verif.Data
open Spec (Batch)

variable {τ : Type} [DecidableEq τ]

/-- **C112.**  An event is found by one of the queries of a pivot if and only if it has the type that was asked for and shares
a value of the link field with one of the results of the first query.  Missing: results whose types have different link fields,
and types with a second field whose name ends with that of the link field, or where that is a record. -/
theorem C112_shared_partial (target f : Name) (ms : List (Msg τ)) (hn : NoLate ms)
    (hlink : ∀ b, .slice b ∈ ms → Spec.Link target b.name f) (hclear : ∀ b, .slice b ∈ ms → Spec.Clear b f) :
    ∃ s out, run target {} ms = some (s, out) ∧ ∀ e : Spec.Event,
      (∃ q ∈ out, Spec.Finds target q.field q.ids e)
        ↔ e.type = target ∧ ∃ b v, .slice b ∈ ms ∧ Spec.Has b f v ∧ .string v ∈ e.values f := by
  have hc : CacheOk target ({} : State τ).cache := by simp [CacheOk]
  have he : ∀ b, .slice b ∈ ms → edge target b.name = f := fun b hb => (link_edge (hlink b hb)).symm
  obtain ⟨s, out, hr⟩ := run_ok ms (fun b hb g hg => by rw [link_edge hg, he b hb]; exact hclear b hb) hc
  refine ⟨s, out, hr, fun e => ?_⟩
  obtain ⟨r1, _, _, r4⟩ := run_adds ms hc hr
  have hf : ∀ b, .slice b ∈ ms → 46 ∉ f := fun b hb => he b hb ▸ edge_nodot target b.name
  constructor
  · rintro ⟨q, hq, ht, v, hv, hve⟩
    obtain ⟨_, b, k, hb, hcomp, hk, hx⟩ := r4 q hq
    obtain ⟨e1, e2⟩ := computed_some hcomp
    rw [he b hb] at e1
    rw [e1] at hk e2 hve
    exact ⟨ht, b, v, hb, (has_of_cells (hf b hb) (hclear b hb) e2 hk v).mp (hx v hv), hve⟩
  · rintro ⟨ht, b, v, hb, hv, hve⟩
    have htop := has_top hv
    obtain ⟨k, hk, _⟩ := column_clear b f (hf b hb) (hclear b hb) htop
    have hcomp : computed target b.name b.fields = some f := by
      cases hcc : computed target b.name b.fields with
      | none =>
        obtain ⟨t, htop⟩ := htop
        exact absurd (he b hb ▸ htop) (computed_none hcc t)
      | some g => rw [(computed_some hcc).1, he b hb]
    have hreq := run_covers ms hc (by simp) (by simp) hn hr b hb f k hcomp hk v
      ((has_of_cells (hf b hb) (hclear b hb) htop hk v).mpr hv)
    rw [r1] at hreq
    simp only [List.not_mem_nil, false_or, List.mem_flatMap] at hreq
    obtain ⟨q, hq, hqv⟩ := hreq
    obtain ⟨_, b', k', hb', hcomp', _⟩ := r4 q hq
    have e1 : q.field = f := by rw [(computed_some hcomp').1, he b' hb']
    exact ⟨q, hq, ht, v, hqv, e1 ▸ hve⟩

/-- Whatever the types and the course of events: each query is for at least one value, and each of its values comes from a
column of a result whose name ends with that of the link field. -/
theorem C112_sound (target : Name) (ms : List (Msg τ)) (s : State τ) (out : List Query) (h : run target {} ms = some (s, out))
    (q : Query) (hq : q ∈ out) :
    q.ids ≠ [] ∧ ∃ b, .slice b ∈ ms ∧ Spec.Link target b.name q.field ∧ Spec.HasTop b q.field
      ∧ ∀ v ∈ q.ids, Spec.HasNested b q.field v := by
  obtain ⟨_, _, _, r4⟩ := run_adds ms (by simp [CacheOk]) h
  obtain ⟨h1, b, k, hb, hcomp, hk, hx⟩ := r4 q hq
  obtain ⟨e1, e2⟩ := computed_some hcomp
  have hnd : 46 ∉ q.field := by rw [e1]; exact edge_nodot _ _
  obtain ⟨l, hl, hs⟩ := column_some b q.field hnd k hk
  refine ⟨h1, b, hb, by rw [e1]; exact edge_link _ _, e2, fun v hv => ?_⟩
  obtain ⟨row, h2, h3⟩ := mem_cells (hx v hv)
  exact ⟨k, l, hl, hs, row, h2, h3⟩

/-- No value is asked for twice. -/
theorem C112_once (target : Name) (ms : List (Msg τ)) (s : State τ) (out : List Query) (h : run target {} ms = some (s, out)) :
    (out.flatMap (·.ids)).Nodup := (run_adds ms (by simp [CacheOk]) h).2.1

/-- The text of the list of values in a query (pivoter.cpp:139) is read by the exporter as the same list.  Missing: values
with control characters, or with backslashes in front of quotes or at the end. -/
theorem C112_text_partial (env : DataText.Env) (q : Query) (h : ∀ v ∈ q.ids, DataText.Spec.StringOk v) :
    (DataText.print env (.list (q.ids.map .string))).bind (DataText.toData env) = some (.list (q.ids.map .string)) := by
  have : ∀ xs : List Str, (∀ v ∈ xs, DataText.Spec.StringOk v) → DataText.Spec.AllOk (xs.map .string) := by
    intro xs
    induction xs with
    | nil => intro _; simp [DataText.Spec.AllOk]
    | cons x xs ih =>
      intro h
      rw [List.map_cons, DataText.Spec.AllOk]
      exact ⟨by rw [DataText.Spec.Ok]; exact h x (by simp), ih fun v hv => h v (by simp [hv])⟩
  obtain ⟨t, h1, h2⟩ := DataText.C69_print_parse_partial env (.list (q.ids.map .string)) (by rw [DataText.Spec.Ok]; exact this q.ids h)
  rw [h1]
  exact h2

/-! ## Examples -/

/-- Connections: an address, a UID and a community ID. -/
def connFields : Fields Nat :=
  .cons (str "id") (.record {} (.cons (str "orig_h") (.leaf 1) .nil)) (.cons (str "uid") (.leaf 0) (.cons (str "community_id") (.leaf 0) .nil))

def conns (rows : List (List Data)) : Batch Nat := ⟨str "zeek.conn", connFields, rows⟩

def row (a u c : String) : List Data := [.string (str a), .string (str u), .string (str c)]

def someMsgs : List (Msg Nat) :=
  [.slice (conns [row "x" "u1" "c1", row "x" "u2" "c1"]), .spawned, .slice (conns [row "y" "u1" "c2", [.none, .none, .none]]), .status, .down]

example : (run (str "zeek.http") {} someMsgs).map (·.2) = some [⟨str "uid", [str "u1", str "u2"]⟩] := by decide +kernel
example : (run (str "suricata.http") {} someMsgs).map (·.2)
    = some [⟨str "community_id", [str "c1"]⟩, ⟨str "community_id", [str "c2"]⟩] := by decide +kernel

theorem mem_conn {n : Name} {t : Ty Nat} {x : Nat} (h : connFields.toList[x]? = some (n, t)) :
    (x = 0 ∧ n = str "id" ∧ t = .record {} (.cons (str "orig_h") (.leaf 1) .nil)) ∨ (x = 1 ∧ n = str "uid" ∧ t = .leaf 0)
      ∨ (x = 2 ∧ n = str "community_id" ∧ t = .leaf 0) := by
  match x, h with
  | 0, h => simp [connFields, Fields.toList] at h; exact .inl ⟨rfl, h.1.symm, h.2.symm⟩
  | 1, h => simp [connFields, Fields.toList] at h; exact .inr (.inl ⟨rfl, h.1.symm, h.2.symm⟩)
  | 2, h => simp [connFields, Fields.toList] at h; exact .inr (.inr ⟨rfl, h.1.symm, h.2.symm⟩)
  | x + 3, h => simp [connFields, Fields.toList] at h

theorem mem_id {n : Name} {t : Ty Nat} {x : Nat} (h : (Fields.cons (str "orig_h") (.leaf 1) .nil).toList[x]? = some (n, t)) :
    n = str "orig_h" ∧ t = .leaf 1 := by
  match x, h with
  | 0, h => simp [Fields.toList] at h; exact ⟨h.1.symm, h.2.symm⟩
  | x + 1, h => simp [Fields.toList] at h

theorem conns_clear (rows : List (List Data)) : Spec.Clear (conns rows) (str "uid") := by
  constructor
  · intro o p t h hs
    have hs : (46 :: str "uid") <:+ dotted (str "zeek.conn" :: p) := hs
    have h : HasField connFields o p t := h
    cases h with
    | here hx =>
      rcases mem_conn hx with ⟨_, rfl, rfl⟩ | ⟨_, rfl, rfl⟩ | ⟨_, rfl, rfl⟩
      · exact absurd hs (by decide +kernel)
      · exact ⟨rfl, by simp⟩
      · exact absurd hs (by decide +kernel)
    | there hx hy =>
      rcases mem_conn hx with ⟨_, rfl, e⟩ | ⟨_, rfl, e⟩ | ⟨_, rfl, e⟩
      · cases e
        cases hy with
        | here hz =>
          obtain ⟨rfl, rfl⟩ := mem_id hz
          exact absurd hs (by decide +kernel)
        | there hz _ => cases (mem_id hz).2
      · cases e
      · cases e
  · intro x y t u hx hy
    have key : ∀ (x : Nat) (t : Ty Nat), connFields.toList[x]? = some (str "uid", t) → x = 1 := by
      intro x t hx
      rcases mem_conn hx with ⟨_, e, _⟩ | ⟨e, _, _⟩ | ⟨_, e, _⟩
      · exact absurd e (by decide +kernel)
      · exact e
      · exact absurd e (by decide +kernel)
    rw [key x t hx, key y u hy]

theorem someMsgs_conns {b : Batch Nat} (h : .slice b ∈ someMsgs) : ∃ rows, b = conns rows := by
  simp [someMsgs] at h
  rcases h with rfl | rfl <;> exact ⟨_, rfl⟩

theorem someMsgs_noLate : NoLate someMsgs := by
  intro pre b post e hs
  have : ∀ n, .status ∈ someMsgs.take n → ∀ b post, someMsgs.drop n ≠ .slice b :: post := by
    intro n h b post
    match n with
    | 0 | 1 | 2 | 3 => simp [someMsgs] at h
    | 4 => simp [someMsgs]
    | n + 5 => simp [someMsgs]
  refine this pre.length (by rw [e]; simpa using hs) b post (by rw [e]; simp)

/-- A connection with the UID `u2`. -/
example : ∃ s out, run (str "zeek.http") {} someMsgs = some (s, out)
    ∧ ∀ e : Spec.Event, (∃ q ∈ out, Spec.Finds (str "zeek.http") q.field q.ids e)
        ↔ e.type = str "zeek.http" ∧ ∃ b v, .slice b ∈ someMsgs ∧ Spec.Has b (str "uid") v ∧ .string v ∈ e.values (str "uid") :=
  C112_shared_partial (str "zeek.http") (str "uid") someMsgs someMsgs_noLate
    (fun b hb => by obtain ⟨rows, rfl⟩ := someMsgs_conns hb; exact .inl ⟨by decide +kernel, (by show _ <+: str "zeek.conn"; decide +kernel), rfl⟩)
    (fun b hb => by obtain ⟨rows, rfl⟩ := someMsgs_conns hb; exact conns_clear rows)

example : Spec.Has (conns [row "x" "u1" "c1", row "x" "u2" "c1"]) (str "uid") (str "u2") :=
  ⟨1, ⟨[1], [str "uid"], .leaf 0⟩, rfl, rfl, row "x" "u2" "c1", by simp [conns], rfl⟩

example (env : DataText.Env) : (DataText.print env (.list ([str "u1", str "u2"].map .string))).bind (DataText.toData env)
    = some (.list ([str "u1", str "u2"].map .string)) :=
  C112_text_partial env ⟨str "uid", [str "u1", str "u2"]⟩ fun v hv => by
    have : v = str "u1" ∨ v = str "u2" := by simpa using hv
    rcases this with rfl | rfl <;>
      exact DataText.stringOk_plain _ (by unfold DataText.Spec.Visible; decide +kernel) (by decide +kernel)

/-! ## What goes wrong -/

/-- Flows of another source, with a community ID only. -/
def flowFields : Fields Nat := .cons (str "community_id") (.leaf 0) .nil
def flow (c : String) : Batch Nat := ⟨str "suricata.flow", flowFields, [[.string (str c)]]⟩

/-- The values are remembered without the field: with two link fields, a value that was a UID is not asked for as a community
ID. -/
theorem C112_two_fields_refuted : ∃ ms : List (Msg Nat), NoLate ms ∧ .slice (flow "a") ∈ ms ∧ Spec.Has (flow "a") (str "community_id") (str "a")
    ∧ Spec.Link (str "zeek.http") (flow "a").name (str "community_id")
    ∧ (run (str "zeek.http") {} ms).map (·.2) = some [⟨str "uid", [str "a"]⟩] := by
  refine ⟨[.slice (conns [row "x" "a" "c"]), .slice (flow "a")], ?_, by simp,
    ⟨0, ⟨[0], [str "community_id"], .leaf 0⟩, rfl, rfl, _, List.mem_singleton.mpr rfl, rfl⟩,
    .inr ⟨(by show ¬ (_ ∧ str "zeek" <+: str "suricata.flow"); decide +kernel), rfl⟩, by decide +kernel⟩
  intro pre b post e hs
  have : (Msg.status : Msg Nat) ∈ ([.slice (conns [row "x" "a" "c"]), .slice (flow "a")] : List (Msg Nat)) := by rw [e]; simp [hs]
  simp at this

/-- A field in front whose name ends with that of the link field is taken instead of it. -/
theorem C112_column_refuted : ∃ b : Batch Nat, Spec.Has b (str "community_id") (str "right")
    ∧ ¬ Spec.Has b (str "community_id") (str "wrong")
    ∧ (run (str "suricata.http") {} [.slice b]).map (·.2) = some [⟨str "community_id", [str "wrong"]⟩] := by
  refine ⟨⟨str "x", .cons (str "tunnel") (.record {} (.cons (str "community_id") (.leaf 0) .nil)) flowFields,
    [[.string (str "wrong"), .string (str "right")]]⟩,
    ⟨1, ⟨[1], [str "community_id"], .leaf 0⟩, rfl, rfl, _, List.mem_singleton.mpr rfl, rfl⟩, ?_, by decide +kernel⟩
  rintro ⟨i, l, h1, h2, r, h3, h4⟩
  simp at h3
  subst h3
  match i with
  | 0 =>
    have : l = ⟨[0, 0], [str "tunnel", str "community_id"], .leaf 0⟩ := by
      have : some (⟨[0, 0], [str "tunnel", str "community_id"], .leaf 0⟩ : Leaf Nat) = some l := h1
      cases this; rfl
    rw [this] at h2
    simp at h2
  | 1 => exact absurd h4 (by simp; decide +kernel)
  | i + 2 => simp at h4

/-- A record with the name of the link field makes an assertion fail. -/
theorem C112_record_refuted : ∃ b : Batch Nat, run (str "suricata.http") {} [.slice b] = none :=
  ⟨⟨str "x", .cons (str "community_id") (.record {} (.cons (str "v") (.leaf 0) .nil)) .nil, [[.string (str "a")]]⟩, by decide +kernel⟩

/-- The values of a query for which no exporter could be started are not asked for again. -/
theorem C112_lost_refuted : (run (str "zeek.http") {} [.slice (conns [row "x" "a" "c"]), .failed, .slice (conns [row "x" "a" "c"])]).map (·.2)
    = some [⟨str "uid", [str "a"]⟩] := by decide +kernel

end Verif.Pivot
