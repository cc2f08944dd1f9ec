import Verif.SchemaText.ResolveLemmas
import Verif.Schema.Props

/-! # C98: the definitions of schemas are replaced by their meanings -/

namespace Verif.SchemaText

open Verif.Types (Name Meta)
open Spec

variable {globals symbols : List (Name × T)}

theorem resolve_ok {r : List T × List (Name × T)} (h : resolve globals symbols = .ok r) :
    ∃ st, resolveLoop globals symbols.length ⟨symbols, [], []⟩ = .ok st ∧ r = (st.sch, st.resolved) := by
  obtain ⟨st, h1, h2⟩ := R.bind_ok h
  cases h2
  exact ⟨st, h1, rfl⟩

theorem inv_end (hp : Parsed symbols) {st : St} (hi : Inv globals symbols [] st) (hu : st.unresolved = [])
    (hg : (globals.map (·.1)).Nodup) :
    (∀ n t, (n, t) ∈ st.resolved ↔ ∃ d, (n, d) ∈ symbols ∧ Means globals symbols n d t) := by
  intro n t
  constructor
  · intro h; exact (hi.res n t h).2.2
  · rintro ⟨d, hd, hm⟩
    rcases hi.cov n d hd with h | h | h
    · rw [hu] at h; simp at h
    · obtain ⟨⟨k, u⟩, hk, rfl⟩ := List.mem_map.mp h
      obtain ⟨_, _, e, he, hme⟩ := hi.res k u hk
      rw [keys_unique hp.distinct he hd] at hme
      rw [← means_unique hg hp.distinct hm u hme]
      exact hk
    · simp at h

/-- The names of the schema are those of the symbols. -/
theorem inv_names (hp : Parsed symbols) {stack : List Name} {st : St} (hi : Inv globals symbols stack st) :
    st.sch.map T.name = st.resolved.map (·.1) := by
  rw [hi.sch, List.map_map]
  refine List.map_congr_left fun x hx => ?_
  obtain ⟨n, t⟩ := x
  obtain ⟨_, _, d, hd, hm⟩ := hi.res n t hx
  exact ((means_named hm (hp.named n d hd).2.2).1).trans (hp.named n d hd).2.1

/-- C98: if every symbol has a meaning, the resolution succeeds, in whatever order the symbols come: the schema has
    exactly the meanings of the symbols, each once, and so has the table of symbols. -/
theorem C98_meaning (hg : (globals.map (·.1)).Nodup) (hp : Parsed symbols)
    (hm : ∀ n d, (n, d) ∈ symbols → ∃ t, Means globals symbols n d t) :
    ∃ sch resolved, resolve globals symbols = .ok (sch, resolved) ∧
      (sch.map T.name).Nodup ∧ (∀ t, t ∈ sch ↔ ∃ n d, (n, d) ∈ symbols ∧ Means globals symbols n d t) ∧
      (resolved.map (·.1)).Nodup ∧
      ∀ n t, (n, t) ∈ resolved ↔ ∃ d, (n, d) ∈ symbols ∧ Means globals symbols n d t := by
  obtain ⟨st, hst⟩ := means_resolveLoop hg hp hm symbols.length _ (inv_start hp) (Nat.le_refl _)
  have hc : ∀ n, Reaches symbols n n → n ∉ globals.map (·.1) := by
    intro n hr
    obtain ⟨b, ⟨d, hd, _⟩, _⟩ := reaches_first hr
    obtain ⟨t, ht⟩ := hm n d hd
    refine absurd hr (acc_not_reaches (Acc.intro _ ?_))
    rintro y ⟨d', hd', hy, hyb, e, he⟩
    rw [keys_unique hp.distinct hd' hd] at hy
    exact means_acc hp.distinct ht y hy hyb ⟨e, he⟩
  obtain ⟨hi, hu⟩ := resolveLoop_sound hg hp hc _ _ _ (inv_start hp) hst
  have hres := inv_end hp hi hu hg
  refine ⟨st.sch, st.resolved, by rw [resolve, hst]; rfl, by rw [inv_names hp hi]; exact hi.nodup, ?_, hi.nodup, hres⟩
  intro t
  rw [hi.sch, List.mem_map]
  constructor
  · rintro ⟨⟨n, u⟩, h, rfl⟩
    obtain ⟨d, h⟩ := (hres n u).mp h
    exact ⟨n, d, h⟩
  · rintro ⟨n, d, h⟩
    exact ⟨(n, t), (hres n t).mpr ⟨d, h⟩, rfl⟩

/-- C98: a symbol has at most one meaning. -/
theorem C98_unique (hg : (globals.map (·.1)).Nodup) (hp : Parsed symbols) (n : Name) (d t u : T)
    (ht : Means globals symbols n d t) (hu : Means globals symbols n d u) : t = u :=
  means_unique hg hp.distinct hu t ht

theorem means_perm {symbols' : List (Name × T)} (hs : symbols.Perm symbols') {self : Name} {e t : T}
    (h : Means globals symbols self e t) : Means globals symbols' self e t := by
  refine Means.rec (motive_1 := fun self e t _ => Means globals symbols' self e t)
    (motive_2 := fun self fs gs _ => MeansAll globals symbols' self fs gs) ?_ ?_ ?_ ?_ ?_ ?_ ?_ ?_ ?_ ?_ ?_ h
  · intro _ _ _ _ _ h1 h2 h3 _ ih; exact .symbol h1 h2 (hs.mem_iff.mp h3) ih
  · intro _ _ _ _ h1 h2 h3
    exact .global h1 (h2.imp id fun h d hd => h d (hs.mem_iff.mpr hd)) h3
  · intros; exact .basic
  · intros; exact .enum
  · intro _ _ _ _ _ ih; exact .list ih
  · intro _ _ _ _ _ _ _ _ ih1 ih2; exact .map ih1 ih2
  · intro _ _ _ _ _ ih; exact .alias ih
  · intro _ _ _ _ h1 _ ih; exact .record h1 ih
  · intro _ _ _ _ _ _ h1 _ h2 ih; exact .algebra h1 ih h2
  · intros; exact .nil
  · intro _ _ _ _ _ _ _ _ ih1 ih2; exact .cons ih1 ih2

theorem parsed_perm {symbols' : List (Name × T)} (hs : symbols.Perm symbols') (hp : Parsed symbols) : Parsed symbols' :=
  ⟨((hs.map _).nodup_iff).mp hp.distinct, fun n d h => hp.named n d (hs.mem_iff.mpr h)⟩

/-- C98: the order of the symbols in the hash table does not matter, except for the order of the types in the schema. -/
theorem C98_order (hg : (globals.map (·.1)).Nodup) (hp : Parsed symbols) (symbols' : List (Name × T))
    (hs : symbols.Perm symbols') (hm : ∀ n d, (n, d) ∈ symbols → ∃ t, Means globals symbols n d t) :
    ∃ sch resolved sch' resolved', resolve globals symbols = .ok (sch, resolved) ∧
      resolve globals symbols' = .ok (sch', resolved') ∧ sch.Perm sch' ∧ resolved.Perm resolved' := by
  obtain ⟨sch, res, h1, h2, h3, h4, h5⟩ := C98_meaning hg hp hm
  obtain ⟨sch', res', h1', h2', h3', h4', h5'⟩ := C98_meaning hg (parsed_perm hs hp) (fun n d hd => by
    obtain ⟨t, ht⟩ := hm n d (hs.mem_iff.mpr hd)
    exact ⟨t, means_perm hs ht⟩)
  refine ⟨sch, res, sch', res', h1, h1', ?_, ?_⟩
  · refine (List.perm_ext_iff_of_nodup (h2.of_map _ fun _ _ h e => h (congrArg _ e)) (h2'.of_map _ fun _ _ h e => h (congrArg _ e))).mpr fun t => ?_
    rw [h3, h3']
    constructor
    · rintro ⟨n, d, h, h'⟩; exact ⟨n, d, hs.mem_iff.mp h, means_perm hs h'⟩
    · rintro ⟨n, d, h, h'⟩; exact ⟨n, d, hs.mem_iff.mpr h, means_perm hs.symm h'⟩
  · refine (List.perm_ext_iff_of_nodup (h4.of_map _ fun _ _ h e => h (congrArg _ e)) (h4'.of_map _ fun _ _ h e => h (congrArg _ e))).mpr fun x => ?_
    obtain ⟨n, t⟩ := x
    rw [h5, h5']
    constructor
    · rintro ⟨d, h, h'⟩; exact ⟨d, hs.mem_iff.mp h, means_perm hs h'⟩
    · rintro ⟨d, h, h'⟩; exact ⟨d, hs.mem_iff.mpr h, means_perm hs.symm h'⟩

/-- C98: if a symbol has no meaning (an undefined reference, a cycle, a conflict in an expression), the resolution
    does not succeed. Missing: symbols on a cycle that are also global (`C98_cycle_refuted`). -/
theorem C98_rejects_partial (hg : (globals.map (·.1)).Nodup) (hp : Parsed symbols)
    (hc : ∀ n, Reaches symbols n n → n ∉ globals.map (·.1)) (n : Name) (d : T) (hd : (n, d) ∈ symbols)
    (hm : ∀ t, ¬ Means globals symbols n d t) (r : List T × List (Name × T)) : resolve globals symbols ≠ .ok r := by
  intro h
  obtain ⟨st, h1, _⟩ := resolve_ok h
  obtain ⟨hi, hu⟩ := resolveLoop_sound hg hp hc _ _ _ (inv_start hp) h1
  rcases hi.cov n d hd with h | h | h
  · rw [hu] at h; simp at h
  · obtain ⟨⟨k, u⟩, hk, rfl⟩ := List.mem_map.mp h
    obtain ⟨_, _, e, he, hme⟩ := hi.res k u hk
    rw [keys_unique hp.distinct he hd] at hme
    exact hm u hme
  · simp at h

/-! ### Outcomes -/

mutual
/-- No expression in a type, and no reference without a name. -/
inductive Plain : T → Prop
  | none {m : Meta} : m.name ≠ [] → Plain (.none m)
  | basic {b : Basic} {m : Meta} : Plain (.basic b m)
  | enum {l : List Name} {m : Meta} : Plain (.enum l m)
  | list {t : T} {m : Meta} : Plain t → Plain (.list t m)
  | map {k v : T} {m : Meta} : Plain k → Plain v → Plain (.map k v m)
  | alias {t : T} {m : Meta} : Plain t → Plain (.alias t m)
  | record {fs : Fs} {m : Meta} : (∀ v, (algebraKey, v) ∉ m.attrs) → PlainAll fs → Plain (.record fs m)

@[inherit_doc Plain] inductive PlainAll : Fs → Prop
  | nil : PlainAll .nil
  | cons {n : Name} {t : T} {rest : Fs} : Plain t → PlainAll rest → PlainAll (.cons n t rest)
end

/-- At most `len` unresolved symbols, without expressions if `plain`. -/
def Few (plain : Prop) (len : Nat) (st : St) : Prop :=
  st.unresolved.length ≤ len ∧ (plain → ∀ x ∈ st.unresolved, Plain x.2)

/-- An outcome that is not for lack of fuel, and not a violated assertion if `plain`. -/
def Fine {α : Type} (plain : Prop) (len : Nat) (r : R (α × St)) : Prop :=
  (∀ a st', r = .ok (a, st') → Few plain len st') ∧ r ≠ .stuck ∧ (plain → r ≠ .abort)

theorem Fine.bind {α β : Type} {plain : Prop} {len : Nat} {r : R (α × St)} {f : α × St → R (β × St)}
    (h : Fine plain len r) (hf : ∀ a st', Few plain len st' → Fine plain len (f (a, st'))) :
    Fine plain len (r.bind f) := by
  cases hr : r with
  | ok x => exact hf x.1 x.2 (h.1 x.1 x.2 hr)
  | error => exact ⟨fun _ _ h => by simp [R.bind] at h, by simp [R.bind], fun _ => by simp [R.bind]⟩
  | abort =>
    refine ⟨fun _ _ h => by simp [R.bind] at h, by simp [R.bind], fun hp => ?_⟩
    exact absurd hr (h.2.2 hp)
  | stuck => exact absurd hr h.2.1

theorem Fine.ret {α : Type} {plain : Prop} {len : Nat} {a : α} {st : St} (h : Few plain len st) :
    Fine plain len (.ok (a, st)) := by
  refine ⟨fun _ _ he => ?_, by simp, fun _ => by simp⟩
  cases he
  exact h

theorem Fine.err {α : Type} {plain : Prop} {len : Nat} : Fine plain len (.error : R (α × St)) :=
  ⟨(fun _ _ he => by cases he), by simp, fun _ => by simp⟩

theorem applyOp_stuck (op : Name) (l : Meta × Types.Fields T) (m : Meta) (r : Types.Fields T) :
    applyOp op l m r ≠ .stuck := by
  unfold applyOp
  split
  · cases Types.merge l.1 l.2 r <;> simp [R.ofOption]
  · split
    · simp
    · split
      · simp
      · split
        · split
          · simp
          · cases Types.removePath (r.toList.map (·.1)) l.2 <;> simp [R.ofOption]
        · simp

theorem applyOps_stuck (fs : Fs) (l : Meta × Types.Fields T) : applyOps l fs ≠ .stuck := by
  match fs with
  | .nil => simp [applyOps]
  | .cons op (.record gs m) rest =>
    rw [applyOps]
    cases h : applyOp op l m gs.toFields with
    | stuck => exact absurd h (applyOp_stuck _ _ _ _)
    | ok v => exact applyOps_stuck rest v
    | _ => simp [R.bind]
  | .cons _ (.none _) _ | .cons _ (.basic _ _) _ | .cons _ (.enum _ _) _ | .cons _ (.list _ _) _ |
    .cons _ (.map _ _ _) _ | .cons _ (.alias _ _) _ => simp [applyOps]

theorem algebra_stuck (n : Name) (fs : Fs) : algebra n fs ≠ .stuck := by
  unfold algebra
  split
  · rename_i op t rest
    cases h : applyOps (_, _) (.cons op t rest) with
    | stuck => exact absurd h (applyOps_stuck _ _)
    | ok v =>
      simp only [R.bind]
      split
      · simp
      · split <;> simp
    | _ => simp [R.bind]
  · simp

mutual
theorem visit_fine {plain : Prop} {len : Nat} {look : Name → St → R (T × St)}
    (hl : ∀ n st, Few plain len st → Fine plain len (look n st)) : (e : T) → (plain → Plain e) → ∀ st,
    Few plain len st → Fine plain len (visit look e st)
  | .none ⟨n, as⟩, hp, st, h => by
    rw [visit]
    split
    · rename_i he
      refine ⟨(fun _ _ h => by cases h), by simp, fun h => ?_⟩
      cases hp h with
      | none hn => exact absurd (List.isEmpty_iff.mp he) hn
    · exact (hl n st h).bind fun a st' h' => .ret h'
  | .basic _ _, _, st, h => by rw [visit]; exact .ret h
  | .enum _ _, _, st, h => by rw [visit]; exact .ret h
  | .list t m, hp, st, h => by
    rw [visit]
    exact (visit_fine hl t (fun h => by cases hp h; assumption) st h).bind fun a st' h' => .ret h'
  | .alias t m, hp, st, h => by
    rw [visit]
    exact (visit_fine hl t (fun h => by cases hp h; assumption) st h).bind fun a st' h' => .ret h'
  | .map k v m, hp, st, h => by
    rw [visit]
    exact (visit_fine hl v (fun h => by cases hp h; assumption) st h).bind fun a st' h' =>
      (visit_fine hl k (fun h => by cases hp h; assumption) st' h').bind fun a st' h' => .ret h'
  | .record fs m, hp, st, h => by
    rw [visit]
    refine (visitFields_fine hl fs (fun h => by cases hp h; assumption) st h).bind fun a st' h' => ?_
    simp only
    split
    · rename_i ha
      cases hal : algebra m.name a with
      | ok t => exact .ret h'
      | error => exact .err
      | stuck => exact absurd hal (algebra_stuck _ _)
      | abort =>
        refine ⟨fun _ _ h => by simp [R.bind] at h, by simp [R.bind], fun h => ?_⟩
        obtain ⟨v, hv⟩ := (isAlgebra_iff m).mp ha
        cases hp h with
        | record hn => exact absurd hv (hn v)
    · exact .ret h'

theorem visitFields_fine {plain : Prop} {len : Nat} {look : Name → St → R (T × St)}
    (hl : ∀ n st, Few plain len st → Fine plain len (look n st)) : (fs : Fs) → (plain → PlainAll fs) → ∀ st,
    Few plain len st → Fine plain len (visitFields look fs st)
  | .nil, _, st, h => by rw [visitFields]; exact .ret h
  | .cons n t rest, hp, st, h => by
    rw [visitFields]
    exact (visit_fine hl t (fun h => by cases hp h; assumption) st h).bind fun a st' h' =>
      (visitFields_fine hl rest (fun h => by cases hp h; assumption) st' h').bind fun a st' h' => .ret h'
end

theorem remove_few {plain : Prop} {len : Nat} {n : Name} {st : St} (h : Few plain (len + 1) st)
    (hn : n ∈ st.unresolved.map (·.1)) : Few plain len { st with unresolved := remove n st.unresolved } := by
  have := remove_length hn
  refine ⟨?_, fun hp x hx => h.2 hp x ((remove_sublist n _).subset hx)⟩
  have := h.1
  simp only
  omega

theorem resolveSymbol_fine {plain : Prop} {len : Nat} {look : Name → St → R (T × St)} {n : Name} {d : T}
    (hl : ∀ n st, Few plain len st → Fine plain len (look n st)) (hp : plain → Plain d) {st : St}
    (h : Few plain (len + 1) st) (hn : n ∈ st.unresolved.map (·.1)) : Fine plain len (resolveSymbol look n d st) := by
  rw [resolveSymbol]
  split
  · exact .err
  · refine (visit_fine hl d hp _ (remove_few h hn)).bind fun t st' h' => ?_
    simp only
    split
    · exact .err
    · split
      · exact .ret h'
      · exact .err

theorem Fine.mono {α : Type} {plain : Prop} {len : Nat} {r : R (α × St)} (h : Fine plain len r) : Fine plain (len + 1) r :=
  ⟨fun a st he => ⟨Nat.le_succ_of_le (h.1 a st he).1, (h.1 a st he).2⟩, h.2⟩

theorem lookup_fine {plain : Prop} : ∀ (fuel len : Nat), len ≤ fuel → ∀ (n : Name) (st : St), Few plain len st →
    Fine plain len (lookup globals fuel n st)
  | fuel, len, hle, n, st, h => by
    unfold lookup
    split
    · exact .ret h
    · split
      · rename_i d hd
        have hmem := assoc_mem hd
        have hk : n ∈ st.unresolved.map (·.1) := List.mem_map.mpr ⟨_, hmem, rfl⟩
        have h1 := remove_length hk
        have h2 := h.1
        cases len with
        | zero => omega
        | succ len =>
          cases fuel with
          | zero => omega
          | succ fuel =>
            simp only
            exact (resolveSymbol_fine (lookup_fine fuel len (by omega)) (fun hp => h.2 hp _ hmem) h hk).mono
      · split
        · exact .ret h
        · exact .err

theorem resolveLoop_fine {plain : Prop} : ∀ (len : Nat) (st : St), Few plain len st →
    resolveLoop globals len st ≠ .stuck ∧ (plain → resolveLoop globals len st ≠ .abort)
  | len, st, h => by
    unfold resolveLoop
    cases hu : st.unresolved with
    | nil => simp
    | cons x rest =>
      obtain ⟨n, d⟩ := x
      have hmem : (n, d) ∈ st.unresolved := by rw [hu]; exact List.mem_cons_self ..
      have hlen : st.unresolved.length = rest.length + 1 := by rw [hu]; rfl
      cases len with
      | zero => have := h.1; omega
      | succ len =>
        simp only
        have hf : Fine plain len (resolveSymbol (lookup globals st.unresolved.length) n d st) := by
          have := resolveSymbol_fine (len := rest.length) (lookup_fine (globals := globals) (plain := plain)
            st.unresolved.length rest.length (by omega)) (fun hp => h.2 hp _ hmem) (st := st) ⟨by omega, h.2⟩
            (List.mem_map.mpr ⟨_, hmem, rfl⟩)
          refine ⟨fun a st' he => ?_, this.2⟩
          have h' := this.1 a st' he
          have := h.1
          exact ⟨by have := h'.1; omega, h'.2⟩
        rw [← hu]
        cases hr : resolveSymbol (lookup globals st.unresolved.length) n d st with
        | ok x => exact resolveLoop_fine len x.2 (hf.1 x.1 x.2 hr)
        | error => exact ⟨by simp [R.bind], fun _ => by simp [R.bind]⟩
        | abort => exact ⟨by simp [R.bind], fun hp => absurd hr (hf.2.2 hp)⟩
        | stuck => exact absurd hr hf.2.1

/-- C98: the resolution ends: with a result, an error or a violated assertion. -/
theorem C98_terminates (globals symbols : List (Name × T)) : resolve globals symbols ≠ .stuck := by
  have := (resolveLoop_fine (globals := globals) (plain := False) symbols.length ⟨symbols, [], []⟩
    ⟨Nat.le_refl _, fun h => h.elim⟩).1
  rw [resolve]
  cases h : resolveLoop globals symbols.length ⟨symbols, [], []⟩ with
  | stuck => exact absurd h this
  | _ => simp [R.bind]

/-- C98: without expressions, it ends with a result or an error. Missing: expressions, where an operand that is not a
    record violates an assertion (`C98_operand_refuted`). -/
theorem C98_errors_partial (hp : ∀ x ∈ symbols, Plain x.2) : resolve globals symbols ≠ .abort := by
  have := (resolveLoop_fine (globals := globals) (plain := True) symbols.length ⟨symbols, [], []⟩
    ⟨Nat.le_refl _, fun _ => hp⟩).2 trivial
  rw [resolve]
  cases h : resolveLoop globals symbols.length ⟨symbols, [], []⟩ with
  | abort => exact absurd h this
  | _ => simp [R.bind]

end Verif.SchemaText
