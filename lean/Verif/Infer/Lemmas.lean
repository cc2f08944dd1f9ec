import Verif.Infer.Texts
import Verif.Json.ReadProps
/-!
Helper lemmas: an inferred type takes everything of the same shape.
-/
namespace Verif.Infer
open Verif.Data Verif.DataText Verif.DataText.Spec Verif.Calendar Verif.Json Verif.Json.Spec Verif.Infer.Spec Verif.Number Verif.Number.Spec

theorem alike_means (env : Env) {v w : Value} (h : Alike v w) :
    ∃ d, Means w (deduce (withNumbers env) v) d ∧ (w ≠ .null → d ≠ .none) := by
  refine Alike.rec (motive_1 := fun v w _ => ∃ d, Means w (deduce (withNumbers env) v) d ∧ (w ≠ .null → d ≠ .none))
    (motive_2 := fun x ys _ => ∃ ds, MeansAll ys (deduce (withNumbers env) x) ds)
    (motive_3 := fun ns vs ws _ => ∃ ds, MeansFields (deduceFields (withNumbers env) ns vs) ns ws ds)
    ?_ ?_ ?_ ?_ ?_ ?_ ?_ ?_ ?_ ?_ ?_ ?_ ?_ ?_ ?_ ?_ ?_ h
  · intro v; exact ⟨.none, .null _, by simp⟩
  · intro a b; exact ⟨.bool b, by rw [deduce]; exact .bool b, by simp⟩
  · intro n m h1 h2 h3 h4 h5 h6
    obtain ⟨i, hi⟩ := integral_int h1
    obtain ⟨j, hj⟩ := integral_int h4
    have r1 := value_range (a := -(2 ^ 63)) (b := 2 ^ 63) hi (by push_cast; exact h2) (by push_cast; exact h3)
    have r2 := value_range (a := -(2 ^ 63)) (b := 2 ^ 63) hj (by push_cast; exact h5) (by push_cast; exact h6)
    refine ⟨.int j, ?_, by simp⟩
    rcases classify_integral h1 i hi r1.1 (by omega) with ⟨_, e⟩ | ⟨h, _⟩
    · rw [deduce, e]; exact .int m j h4 hj r2.1 r2.2
    · omega
  · intro n m h1 h2 h3 h4 h5 h6
    obtain ⟨i, hi⟩ := integral_int h1
    obtain ⟨j, hj⟩ := integral_int h4
    have r1 := value_range (a := 2 ^ 63) (b := 2 ^ 64) hi (by push_cast; exact h2) (by push_cast; exact h3)
    have r2 := value_range (a := 0) (b := 2 ^ 64) hj (by push_cast; exact h5) (by push_cast; exact h6)
    refine ⟨.count j.toNat, ?_, by simp⟩
    rcases classify_integral h1 i hi (by omega) r1.2 with ⟨h, _⟩ | ⟨_, e⟩
    · omega
    · rw [deduce, e]
      refine .count m j.toNat h4 ?_ (by omega)
      rw [hj, ← Int.cast_natCast, Int.toNat_of_nonneg r2.1]
  · intro n m h1 h2 h3
    simp only [Fits] at h2 h3
    exact ⟨.real (.fin (rnd m.value)), by rw [deduce, classify_double h1 (h2.2 h1)]; exact .real m h3.1 h3.2, by simp⟩
  · intro s t h
    exact ⟨.string t, by rw [deduce, deduce_word _ h]; exact .string t, by simp⟩
  · intro a b
    exact ⟨.address b, by rw [deduce, deduce_address]; exact .address b, by simp⟩
  · intro a b j k hj hk
    exact ⟨.subnet _, by rw [deduce, deduce_subnet env a j hj]; exact .subnet _ ⟨b, k, hk, rfl⟩, by simp⟩
  · intro s t a1 a2 a3 b1 b2 b3
    exact ⟨.time t, by rw [deduce, deduce_time env s a1 a2 a3]; exact .time t b1 b2 b3, by simp⟩
  · intro d e name name' u u' s t a1 a2 a3 a4 a5 b1 b2 b3 b4 b5
    exact ⟨.duration e, by rw [deduce, deduce_duration env a1 a2 a3 a4 a5]; exact .duration e name' u' t b1 b2 b3 b4 b5, by simp⟩
  · exact ⟨.list [], by rw [deduce]; exact .list _ _ _ (.nil _), by simp⟩
  · intro x xs ys _ ih
    obtain ⟨ds, hd⟩ := ih
    exact ⟨.list ds, by rw [deduce]; exact .list _ _ _ hd, by simp⟩
  · intro ns vs ws hne hnd _ _ ih
    obtain ⟨ds, hd⟩ := ih
    refine ⟨.record ns ds, ?_, by simp⟩
    cases hf : deduceFields (withNumbers env) ns vs with
    | nil =>
      rw [hf] at hd
      cases hd
      exact absurd rfl hne
    | cons n t fs =>
      rw [deduce, hf]
      rw [hf] at hd
      exact .record _ ns ws ds hd hnd
  · intro x; exact ⟨[], .nil _⟩
  · intro x y ys _ _ ih1 ih2
    obtain ⟨d, h1, _⟩ := ih1
    obtain ⟨ds, h2⟩ := ih2
    exact ⟨d :: ds, .cons _ _ _ _ _ h1 h2⟩
  · exact ⟨[], by rw [deduceFields]; exact .nil⟩
  · intro n v w ns vs ws _ _ ih1 ih2
    obtain ⟨d, h1, _⟩ := ih1
    obtain ⟨ds, h2⟩ := ih2
    exact ⟨d :: ds, by rw [deduceFields]; exact .cons _ _ _ _ _ _ _ _ h1 h2⟩

/-- Only objects have records as types. -/
theorem deduce_leaf (env : Env) {v : Value} (h : ∀ ns vs, v ≠ .obj ns vs) : ∀ fs, deduce env v ≠ .record fs := by
  intro fs
  cases v with
  | obj ns vs => exact absurd rfl (h ns vs)
  | arr xs => cases xs <;> simp [deduce]
  | num n => rw [deduce]; unfold deduceNumber; split <;> simp
  | str s => rw [deduce]; unfold deduceText; repeat' split
             all_goals simp
  | bool b => simp [deduce]
  | null => simp [deduce]

theorem deduce_object (env : Env) {ns : List Str} {vs : List Value} (hn : ns ≠ []) (hl : ns.length = vs.length) :
    deduce env (.obj ns vs) = .record (deduceFields env ns vs) := by
  cases ns with
  | nil => exact absurd rfl hn
  | cons n ns => cases vs with
    | nil => simp at hl
    | cons v vs => simp [deduce, deduceFields]

theorem members_length : ∀ {ns : List Str} {vs ws : List Value}, AlikeMembers ns vs ws → ns.length = vs.length ∧ ns.length = ws.length
  | _, _, _, .nil => by simp
  | _, _, _, .cons _ _ _ _ _ _ _ h => by
    obtain ⟨a, b⟩ := members_length h
    exact ⟨by simp [a], by simp [b]⟩

theorem fields_top (env : Env) : ∀ (ns : List Str) (vs : List Value), ns.length = vs.length → topNames (deduceFields env ns vs) = ns
  | [], [], _ => by simp [deduceFields, topNames]
  | n :: ns, v :: vs, h => by simp [deduceFields, topNames, fields_top env ns vs (by simpa using h)]
  | [], _ :: _, h => by simp at h
  | _ :: _, [], h => by simp at h

mutual
/-- Nothing along the way has a name with a dot. -/
def Dotless : Value → Prop
  | .obj ns vs => (∀ n ∈ ns, (46 : UInt8) ∉ n) ∧ DotlessAll vs
  | _ => True
/-- The same for several values. -/
def DotlessAll : List Value → Prop
  | [] => True
  | v :: vs => Dotless v ∧ DotlessAll vs
end

theorem dotless_mem : ∀ {vs : List Value}, DotlessAll vs → ∀ v ∈ vs, Dotless v
  | [], _, _, h => by simp at h
  | w :: vs, h, v, hv => by
    rw [DotlessAll] at h
    rcases List.mem_cons.mp hv with rfl | hv
    · exact h.1
    · exact dotless_mem h.2 v hv

theorem member_some {n : Str} : ∀ {ns : List Str} {vs : List Value} {v : Value}, member n ns vs = some v → (n, v) ∈ ns.zip vs
  | [], _, _, h => by simp [member] at h
  | _ :: _, [], _, h => by simp [member] at h
  | m :: ns, w :: vs, v, h => by
    rw [member] at h
    split at h
    · rename_i e
      simp only [Option.some.injEq] at h
      simp [e, h]
    · have := member_some h
      simp [this]

theorem member_spec (n : Str) : ∀ (ns : List Str) (vs : List Value), Member n ns vs (member n ns vs)
  | [], _ => by simp [member, Member]
  | _ :: _, [] => by simp [member, Member]
  | m :: ns, w :: vs => by
    rw [member]
    split
    · rename_i e
      subst e
      exact member_head _ _ _ _
    · rename_i e
      exact member_skip e (member_spec n ns vs)

theorem finds_along : ∀ (p : List Str) (ns : List Str) (vs : List Value), p ≠ [] → Dotless (.obj ns vs) → Finds p ns vs (along p (.obj ns vs))
  | [], _, _, h, _ => absurd rfl h
  | [n], ns, vs, _, _ => by
    have : along [n] (.obj ns vs) = member n ns vs := by
      rw [along]
      cases member n ns vs with
      | none => rfl
      | some v => simp [along]
    rw [this]
    exact .last n ns vs _ (member_spec n ns vs)
  | n :: m :: p, ns, vs, _, hd => by
    rw [along]
    have hm := member_spec n ns vs
    rw [Dotless] at hd
    cases h : member n ns vs with
    | none =>
      rw [h] at hm
      refine .whole n m p ns vs _ hm ?_
      show Member _ _ _ none
      intro w hw
      exact hd.1 _ (List.of_mem_zip hw).1 (dotted_dot n m p)
    | some v =>
      rw [h] at hm
      simp only [Option.bind_some]
      cases v with
      | obj ns' vs' =>
        exact .inside n m p ns ns' vs vs' _ hm (finds_along (m :: p) ns' vs' (by simp) (dotless_mem hd.2 _ (List.of_mem_zip (member_some h)).2))
      | _ => exact .blocked n m p ns vs _ hm (by simp)

theorem alike_dotless {v w : Value} (h : Alike v w) : Dotless w := by
  refine Alike.rec (motive_1 := fun v w _ => Dotless w) (motive_2 := fun _ _ _ => True)
    (motive_3 := fun ns vs ws _ => DotlessAll ws)
    ?_ ?_ ?_ ?_ ?_ ?_ ?_ ?_ ?_ ?_ ?_ ?_ ?_ ?_ ?_ ?_ ?_ h
  all_goals first | (intros; simp [Dotless]; done) | skip
  · intro ns vs ws _ _ h3 _ ih
    rw [Dotless]
    exact ⟨h3, ih⟩
  · simp [DotlessAll]
  · intro n v w ns vs ws _ _ ih1 ih2
    rw [DotlessAll]
    exact ⟨ih1, ih2⟩

/-- What a column finds has the shape of what it comes from. -/
theorem alike_along (env : Env) {v w : Value} (h : Alike v w) : ∀ p ∈ pathsOf (deduce env v), ∀ u, along p.1 w = some u →
    ∃ v', Alike v' u ∧ p.2 = deduce env v' := by
  refine Alike.rec (motive_1 := fun v w _ => ∀ p ∈ pathsOf (deduce env v), ∀ u, along p.1 w = some u → ∃ v', Alike v' u ∧ p.2 = deduce env v')
    (motive_2 := fun _ _ _ => True)
    (motive_3 := fun ns vs ws _ => ns.Nodup → ∀ p ∈ paths (deduceFields env ns vs), ∀ u, along p.1 (.obj ns ws) = some u →
      ∃ v', Alike v' u ∧ p.2 = deduce env v')
    ?_ ?_ ?_ ?_ ?_ ?_ ?_ ?_ ?_ ?_ ?_ ?_ ?_ ?_ ?_ ?_ ?_ h
  · intro v p hp u hu
    cases hp1 : p.1 with
    | cons a q => rw [hp1] at hu; simp [along] at hu
    | nil =>
      rw [hp1] at hu
      simp only [along, Option.some.injEq] at hu
      subst hu
      cases v with
      | obj ns vs =>
        cases hf : deduceFields env ns vs with
        | nil =>
          rw [deduce, hf] at hp
          simp only [pathsOf, List.mem_singleton] at hp
          exact ⟨.null, .null _, by rw [hp, deduce]⟩
        | cons n t fs =>
          rw [deduce, hf] at hp
          simp only [pathsOf] at hp
          exact absurd hp1 (paths_ne _ p hp)
      | _ =>
        rw [pathsOf_leaf (deduce_leaf env (by simp))] at hp
        simp only [List.mem_singleton] at hp
        exact ⟨_, .null _, by rw [hp]⟩
  case refine_13 =>
    intro ns vs ws h1 h2 h3 h4 ih p hp u hu
    obtain ⟨l1, l2⟩ := members_length h4
    rw [deduce_object env h1 l1, pathsOf] at hp
    exact ih h2 p hp u hu
  case refine_17 =>
    intro n v w ns vs ws h1 h2 ih1 ih2 hnd p hp u hu
    obtain ⟨l1, l2⟩ := members_length h2
    rw [deduceFields, paths, List.mem_append] at hp
    rw [List.nodup_cons] at hnd
    rcases hp with hp | hp
    · obtain ⟨q, hq, rfl⟩ := List.mem_map.mp hp
      simp only [along, member, if_true, Option.bind_some] at hu
      exact ih1 q hq u hu
    · apply ih2 hnd.2 p hp u
      obtain ⟨m, q, e, hm⟩ := paths_head _ p hp
      rw [fields_top env ns vs l1] at hm
      have hne : n ≠ m := fun e => hnd.1 (e ▸ hm)
      rw [e] at hu ⊢
      simpa [along, member, hne] using hu
  all_goals first
    | (intros; exact trivial)
    | (intros; simp_all [deduceFields, paths]; done)
    | skip
  all_goals
    intros
    rename_i p hp u hu
    rw [pathsOf_leaf (deduce_leaf env (by simp))] at hp
    simp only [List.mem_singleton] at hp
    subst hp
    simp only [along, Option.some.injEq] at hu
    subst hu
    refine ⟨_, ?_, rfl⟩
  · exact .bool _ _
  · exact .int _ _ ‹_› ‹_› ‹_› ‹_› ‹_› ‹_›
  · exact .count _ _ ‹_› ‹_› ‹_› ‹_› ‹_› ‹_›
  · exact .real _ _ ‹_› ‹_› ‹_›
  · exact .word _ _ ‹_›
  · exact .address _ _
  · exact .subnet _ _ _ _ ‹_› ‹_›
  · exact .time _ _ ‹_› ‹_› ‹_› ‹_› ‹_› ‹_›
  · rename_i a1 a2 a3 a4 a5 b1 b2 b3 b4 b5
    exact .duration _ _ _ _ _ _ _ _ a1 a2 a3 a4 a5 b1 b2 b3 b4 b5
  · exact .empty
  · exact .list _ _ _ ‹_›

end Verif.Infer
