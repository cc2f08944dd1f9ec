import Verif.SchemaText.Lemmas

/-! # The resolver finds the meanings -/

namespace Verif.SchemaText

open Verif.Types (Name Meta)
open Spec

variable {globals symbols : List (Name × T)}

/-- The state of the resolver while the symbols `stack` are being resolved. -/
structure Inv (globals symbols : List (Name × T)) (stack : List Name) (st : St) : Prop where
  sub : st.unresolved.Sublist symbols
  res : ∀ n t, (n, t) ∈ st.resolved → n ∉ st.unresolved.map (·.1) ∧ n ∉ stack ∧
    ∃ d, (n, d) ∈ symbols ∧ Means globals symbols n d t
  stk : ∀ n ∈ stack, n ∉ st.unresolved.map (·.1)
  cov : ∀ n d, (n, d) ∈ symbols → n ∈ st.unresolved.map (·.1) ∨ n ∈ st.resolved.map (·.1) ∨ n ∈ stack
  sch : st.sch = st.resolved.map (·.2)
  nodup : (st.resolved.map (·.1)).Nodup

theorem Inv.keys (hp : Parsed symbols) {stack : List Name} {st : St} (hi : Inv globals symbols stack st) :
    (st.unresolved.map (·.1)).Nodup := hp.distinct.sublist (hi.sub.map _)

theorem find_none {n : Name} {l : List T} (h : ∀ t ∈ l, t.name ≠ n) : Schema.find n l = none := by
  induction l with
  | nil => rfl
  | cons t l ih =>
    rw [Schema.find, if_neg (show Schema.Types.name t ≠ n from h t (List.mem_cons_self ..))]
    exact ih fun u hu => h u (List.mem_cons_of_mem _ hu)

/-- A symbol is pushed. -/
theorem Inv.push (hp : Parsed symbols) {stack : List Name} {st : St} (hi : Inv globals symbols stack st) {n : Name} {d : T}
    (hn : (n, d) ∈ st.unresolved) :
    Inv globals symbols (n :: stack) { st with unresolved := remove n st.unresolved } := by
  have hk := hi.keys hp
  refine ⟨(remove_sublist n _).trans hi.sub, ?_, ?_, ?_, hi.sch, hi.nodup⟩
  · intro k t h
    obtain ⟨h1, h2, h3⟩ := hi.res k t h
    refine ⟨fun h => h1 ((mem_remove hk).mp h).1, ?_, h3⟩
    rw [List.mem_cons, not_or]
    exact ⟨fun e => h1 (e ▸ List.mem_map.mpr ⟨_, hn, rfl⟩), h2⟩
  · intro k h
    rw [List.mem_cons] at h
    intro h'
    obtain ⟨h1, h2⟩ := (mem_remove hk).mp h'
    rcases h with h | h
    · exact h2 h
    · exact hi.stk k h h1
  · intro k e h
    rcases hi.cov k e h with h | h | h
    · by_cases hkn : k = n
      · exact .inr (.inr (by rw [hkn]; exact List.mem_cons_self ..))
      · exact .inl ((mem_remove hk).mpr ⟨h, hkn⟩)
    · exact .inr (.inl h)
    · exact .inr (.inr (List.mem_cons_of_mem _ h))

/-- A symbol is popped. -/
theorem Inv.pop (hp : Parsed symbols) {stack : List Name} {st : St} {n : Name} {d t : T}
    (hi : Inv globals symbols (n :: stack) st) (hns : n ∉ stack) (hd : (n, d) ∈ symbols) (hm : Means globals symbols n d t) :
    assoc n st.resolved = none ∧ Schema.add t st.sch = (st.sch ++ [t], true) ∧
      Inv globals symbols stack { st with resolved := st.resolved ++ [(n, t)], sch := st.sch ++ [t] } := by
  have hn : n ∉ st.resolved.map (·.1) := by
    intro h
    obtain ⟨⟨k, u⟩, hku, rfl⟩ := List.mem_map.mp h
    exact (hi.res _ _ hku).2.1 (List.mem_cons_self ..)
  have hnu : n ∉ st.unresolved.map (·.1) := hi.stk n (List.mem_cons_self ..)
  obtain ⟨hne, hname, hnone⟩ := hp.named n d hd
  obtain ⟨htn, htnone⟩ := means_named hm hnone
  refine ⟨assoc_eq_none hn, ?_, hi.sub, ?_, ?_, ?_, ?_, ?_⟩
  · rw [Schema.add, if_neg]
    rintro (h | h | h)
    · cases t with
      | none m => exact htnone m rfl
      | _ => cases h
    · exact hne (hname ▸ htn ▸ h)
    · have hf : Schema.find (Schema.Types.name t) st.sch = none := by
        refine find_none ?_
        intro u hu
        rw [hi.sch] at hu
        obtain ⟨⟨k, u'⟩, hku, rfl⟩ := List.mem_map.mp hu
        obtain ⟨_, _, e, he, hme⟩ := hi.res k u' hku
        have := (means_named hme (hp.named k e he).2.2).1
        show u'.name ≠ t.name
        rw [this, (hp.named k e he).2.1, htn, hname]
        intro h; subst h
        exact hn (List.mem_map.mpr ⟨_, hku, rfl⟩)
      rw [hf] at h; cases h
  · intro k u h
    rw [List.mem_append, List.mem_singleton] at h
    rcases h with h | h
    · obtain ⟨h1, h2, h3⟩ := hi.res k u h
      exact ⟨h1, fun h => h2 (List.mem_cons_of_mem _ h), h3⟩
    · cases h
      exact ⟨hnu, hns, d, hd, hm⟩
  · exact fun k h => hi.stk k (List.mem_cons_of_mem _ h)
  · intro k e h
    rcases hi.cov k e h with h | h | h
    · exact .inl h
    · exact .inr (.inl (by rw [List.map_append, List.mem_append]; exact .inl h))
    · rw [List.mem_cons] at h
      rcases h with h | h
      · exact .inr (.inl (by rw [List.map_append, List.mem_append, h]; exact .inr (List.mem_cons_self ..)))
      · exact .inr (.inr h)
  · show st.sch ++ [t] = _
    rw [hi.sch, List.map_append]; rfl
  · rw [List.map_append, List.nodup_append]
    refine ⟨hi.nodup, by simp, ?_⟩
    intro a ha b hb e
    rw [List.map_singleton, List.mem_singleton] at hb
    simp only at hb
    subst hb; subst e
    exact hn ha

/-! ### Soundness -/

/-- What is known when looking up a symbol from a definition gives a result. -/
def LookSound (globals symbols : List (Name × T)) (self : Name) (stack : List Name) (look : Name → St → R (T × St))
    (rs : List Name) : Prop :=
  ∀ n ∈ rs, n ≠ [] → ∀ st t st' as, Inv globals symbols stack st → look n st = .ok (t, st') →
    Means globals symbols self (.none ⟨n, as⟩) (t.update as) ∧ Inv globals symbols stack st'

theorem LookSound.mono {self : Name} {stack : List Name} {look : Name → St → R (T × St)} {rs rs' : List Name}
    (h : LookSound globals symbols self stack look rs) (hsub : ∀ x ∈ rs', x ∈ rs) :
    LookSound globals symbols self stack look rs' := fun n hn => h n (hsub n hn)

mutual
theorem visit_sound {self : Name} {stack : List Name} {look : Name → St → R (T × St)} :
    (e : T) → (hl : LookSound globals symbols self stack look (refs e)) → ∀ st t st', Inv globals symbols stack st →
    visit look e st = .ok (t, st') → Means globals symbols self e t ∧ Inv globals symbols stack st'
  | .none ⟨n, as⟩, hl, st, t, st', hi, h => by
    rw [visit] at h
    split at h
    · cases h
    · rename_i hne
      obtain ⟨⟨u, st1⟩, h1, h2⟩ := R.bind_ok h
      cases h2
      exact hl n (by rw [refs]; exact List.mem_cons_self ..) (by simpa [List.isEmpty_iff] using hne) st u _ as hi h1
  | .basic b m, _, st, t, st', hi, h => by rw [visit] at h; cases h; exact ⟨.basic, hi⟩
  | .enum l m, _, st, t, st', hi, h => by rw [visit] at h; cases h; exact ⟨.enum, hi⟩
  | .list e m, hl, st, t, st', hi, h => by
    rw [visit] at h
    obtain ⟨⟨u, st1⟩, h1, h2⟩ := R.bind_ok h
    cases h2
    obtain ⟨h3, h4⟩ := visit_sound e hl st u _ hi h1
    exact ⟨.list h3, h4⟩
  | .alias e m, hl, st, t, st', hi, h => by
    rw [visit] at h
    obtain ⟨⟨u, st1⟩, h1, h2⟩ := R.bind_ok h
    cases h2
    obtain ⟨h3, h4⟩ := visit_sound e hl st u _ hi h1
    exact ⟨.alias h3, h4⟩
  | .map k v m, hl, st, t, st', hi, h => by
    rw [visit] at h
    obtain ⟨⟨u, st1⟩, h1, h2⟩ := R.bind_ok h
    obtain ⟨⟨w, st2⟩, h3, h4⟩ := R.bind_ok h2
    cases h4
    obtain ⟨h5, h6⟩ := visit_sound v (hl.mono fun x hx => by rw [refs]; exact List.mem_append_right _ hx) st u _ hi h1
    obtain ⟨h7, h8⟩ := visit_sound k (hl.mono fun x hx => by rw [refs]; exact List.mem_append_left _ hx) _ w _ h6 h3
    exact ⟨.map h7 h5, h8⟩
  | .record fs m, hl, st, t, st', hi, h => by
    rw [visit] at h
    obtain ⟨⟨gs, st1⟩, h1, h2⟩ := R.bind_ok h
    obtain ⟨h3, h4⟩ := visitFields_sound fs hl st gs _ hi h1
    simp only at h2
    split at h2
    · rename_i ha
      obtain ⟨v, hv⟩ := (isAlgebra_iff m).mp ha
      obtain ⟨u, h5, h6⟩ := R.bind_ok h2
      cases h6
      exact ⟨.algebra hv h3 ((algebra_iff ..).mp h5), h4⟩
    · rename_i ha
      cases h2
      exact ⟨.record (fun v hv => ha ((isAlgebra_iff m).mpr ⟨v, hv⟩)) h3, h4⟩

theorem visitFields_sound {self : Name} {stack : List Name} {look : Name → St → R (T × St)} :
    (fs : Fs) → (hl : LookSound globals symbols self stack look (refsAll fs)) → ∀ st gs st',
    Inv globals symbols stack st → visitFields look fs st = .ok (gs, st') →
    MeansAll globals symbols self fs gs ∧ Inv globals symbols stack st'
  | .nil, _, st, gs, st', hi, h => by rw [visitFields] at h; cases h; exact ⟨.nil, hi⟩
  | .cons n t rest, hl, st, gs, st', hi, h => by
    rw [visitFields] at h
    obtain ⟨⟨u, st1⟩, h1, h2⟩ := R.bind_ok h
    obtain ⟨⟨w, st2⟩, h3, h4⟩ := R.bind_ok h2
    cases h4
    obtain ⟨h5, h6⟩ := visit_sound t (hl.mono fun x hx => by rw [refsAll]; exact List.mem_append_left _ hx) st u _ hi h1
    obtain ⟨h7, h8⟩ := visitFields_sound rest (hl.mono fun x hx => by rw [refsAll]; exact List.mem_append_right _ hx)
      _ w _ h6 h3
    exact ⟨.cons h5 h7, h8⟩
end

/-- `self` is on the top of the stack, and the symbols below lead to it. -/
def Chain (symbols : List (Name × T)) (self : Name) (stack : List Name) : Prop :=
  ∀ s ∈ stack, s = self ∨ Reaches symbols s self

theorem resolveSymbol_sound (hp : Parsed symbols) {stack : List Name} {look : Name → St → R (T × St)} {n : Name} {d : T}
    (hl : LookSound globals symbols n (n :: stack) look (refs d)) {st st' : St} {t : T} (hi : Inv globals symbols stack st)
    (hn : (n, d) ∈ st.unresolved) (h : resolveSymbol look n d st = .ok (t, st')) :
    Means globals symbols n d t ∧ Inv globals symbols stack st' := by
  rw [resolveSymbol] at h
  split at h
  · cases h
  · obtain ⟨⟨u, st1⟩, h1, h2⟩ := R.bind_ok h
    obtain ⟨hm, hi1⟩ := visit_sound d hl _ _ _ (hi.push hp hn) h1
    have hns : n ∉ stack := fun h => hi.stk n h (List.mem_map.mpr ⟨_, hn, rfl⟩)
    obtain ⟨h3, h4, h5⟩ := hi1.pop hp hns (hi.sub.subset hn) hm
    simp only [h3, h4] at h2
    cases h2
    exact ⟨hm, h5⟩

theorem lookup_sound (hg : (globals.map (·.1)).Nodup) (hp : Parsed symbols)
    (hc : ∀ n, Reaches symbols n n → n ∉ globals.map (·.1)) : ∀ (fuel : Nat) (self : Name) (stack : List Name) (d : T),
    (self, d) ∈ symbols → self ∈ stack → Chain symbols self stack →
    LookSound globals symbols self stack (lookup globals fuel) (refs d) := by
  intro fuel
  induction fuel with
  | zero =>
    intro self stack d hd hself hch n hn hne st t st' as hi h
    unfold lookup at h
    split at h
    · rename_i u hu
      cases h
      obtain ⟨_, h2, e, he, hm⟩ := hi.res n _ (assoc_mem hu)
      exact ⟨.symbol hne (fun e => h2 (e ▸ hself)) he hm, hi⟩
    · split at h
      · cases h
      · rename_i _ hr _ hu
        split at h
        · rename_i v hv
          cases h
          refine ⟨.global hne ?_ (assoc_mem hv), hi⟩
          by_cases hns : n = self
          · exact .inl hns
          · refine .inr fun e he => ?_
            rcases hi.cov n e he with h | h | h
            · exact assoc_none hu h
            · exact assoc_none hr h
            · have hu' : Uses symbols self n := ⟨d, hd, hn, hns, e, he⟩
              rcases hch n h with h | h
              · exact hns h
              · exact hc n (.step h hu') (List.mem_map.mpr ⟨_, assoc_mem hv, rfl⟩)
        · cases h
  | succ fuel ih =>
    intro self stack d hd hself hch n hn hne st t st' as hi h
    unfold lookup at h
    split at h
    · rename_i u hu
      cases h
      obtain ⟨_, h2, e, he, hm⟩ := hi.res n _ (assoc_mem hu)
      exact ⟨.symbol hne (fun e => h2 (e ▸ hself)) he hm, hi⟩
    · split at h
      · rename_i e he
        simp only at h
        have hmem := assoc_mem he
        have hsym := hi.sub.subset hmem
        have hns : n ≠ self := fun e => hi.stk self hself (e ▸ List.mem_map.mpr ⟨_, hmem, rfl⟩)
        have hu' : Uses symbols self n := ⟨d, hd, hn, hns, e, hsym⟩
        obtain ⟨h1, h2⟩ := resolveSymbol_sound hp (ih n (n :: stack) e hsym (List.mem_cons_self ..) (by
          intro s hs
          rw [List.mem_cons] at hs
          rcases hs with hs | hs
          · exact .inl hs
          · rcases hch s hs with h | h
            · exact .inr (.single (h ▸ hu'))
            · exact .inr (.step h hu'))) hi hmem h
        exact ⟨.symbol hne hns hsym h1, h2⟩
      · rename_i _ hr _ hu
        split at h
        · rename_i v hv
          cases h
          refine ⟨.global hne ?_ (assoc_mem hv), hi⟩
          by_cases hns : n = self
          · exact .inl hns
          · refine .inr fun e he => ?_
            rcases hi.cov n e he with h | h | h
            · exact assoc_none hu h
            · exact assoc_none hr h
            · have hu' : Uses symbols self n := ⟨d, hd, hn, hns, e, he⟩
              rcases hch n h with h | h
              · exact hns h
              · exact hc n (.step h hu') (List.mem_map.mpr ⟨_, assoc_mem hv, rfl⟩)
        · cases h

theorem resolveLoop_sound (hg : (globals.map (·.1)).Nodup) (hp : Parsed symbols)
    (hc : ∀ n, Reaches symbols n n → n ∉ globals.map (·.1)) : ∀ (fuel : Nat) (st st' : St),
    Inv globals symbols [] st → resolveLoop globals fuel st = .ok st' → Inv globals symbols [] st' ∧ st'.unresolved = [] := by
  intro fuel
  induction fuel with
  | zero =>
    intro st st' hi h
    unfold resolveLoop at h
    split at h
    · rename_i hu; cases h; exact ⟨hi, hu⟩
    · cases h
  | succ fuel ih =>
    intro st st' hi h
    unfold resolveLoop at h
    split at h
    · rename_i hu; cases h; exact ⟨hi, hu⟩
    · rename_i n d rest hu
      simp only at h
      obtain ⟨⟨t, st1⟩, h1, h2⟩ := R.bind_ok h
      have hmem : (n, d) ∈ st.unresolved := by rw [hu]; exact List.mem_cons_self ..
      obtain ⟨_, h4⟩ := resolveSymbol_sound hp (lookup_sound hg hp hc _ n [n] d (hi.sub.subset hmem)
        (List.mem_cons_self ..) (fun s hs => .inl (List.mem_singleton.mp hs))) hi hmem h1
      exact ih _ _ h4 h2

/-! ### Completeness -/

/-- Looking up a symbol from a definition gives its meaning. -/
def LookFinds (globals symbols : List (Name × T)) (stack : List Name) (look : Name → St → R (T × St)) (bound : Nat) (n : Name)
    (t : T) : Prop :=
  ∀ st, Inv globals symbols stack st → st.unresolved.length ≤ bound →
    ∃ st', look n st = .ok (t, st') ∧ Inv globals symbols stack st' ∧ st'.unresolved.length ≤ st.unresolved.length

theorem means_visit (hg : (globals.map (·.1)).Nodup) (hp : Parsed symbols) {self : Name} {e t : T}
    (h : Means globals symbols self e t) : ∀ (fuel : Nat) (stack : List Name) (st : St), self ∈ stack →
    (∀ b ∈ refs e, b ≠ self → (∃ d, (b, d) ∈ symbols) → b ∉ stack ∧ ∀ s ∈ stack, Reaches symbols s b) →
    Inv globals symbols stack st → st.unresolved.length ≤ fuel →
    ∃ st', visit (lookup globals fuel) e st = .ok (t, st') ∧ Inv globals symbols stack st' ∧
      st'.unresolved.length ≤ st.unresolved.length := by
  refine Means.rec (motive_1 := fun self e t _ => ∀ (fuel : Nat) (stack : List Name) (st : St), self ∈ stack →
      (∀ b ∈ refs e, b ≠ self → (∃ d, (b, d) ∈ symbols) → b ∉ stack ∧ ∀ s ∈ stack, Reaches symbols s b) →
      Inv globals symbols stack st → st.unresolved.length ≤ fuel →
      ∃ st', visit (lookup globals fuel) e st = .ok (t, st') ∧ Inv globals symbols stack st' ∧
        st'.unresolved.length ≤ st.unresolved.length)
    (motive_2 := fun self fs gs _ => ∀ (fuel : Nat) (stack : List Name) (st : St), self ∈ stack →
      (∀ b ∈ refsAll fs, b ≠ self → (∃ d, (b, d) ∈ symbols) → b ∉ stack ∧ ∀ s ∈ stack, Reaches symbols s b) →
      Inv globals symbols stack st → st.unresolved.length ≤ fuel →
      ∃ st', visitFields (lookup globals fuel) fs st = .ok (gs, st') ∧ Inv globals symbols stack st' ∧
        st'.unresolved.length ≤ st.unresolved.length)
    ?_ ?_ ?_ ?_ ?_ ?_ ?_ ?_ ?_ ?_ ?_ h
  · -- a symbol
    intro self n as d t hne hns hd hm ih fuel stack st hself hfree hi hf
    obtain ⟨hnot, hreach⟩ := hfree n (by rw [refs]; exact List.mem_cons_self ..) hns ⟨d, hd⟩
    have key : ∃ st', lookup globals fuel n st = .ok (t, st') ∧ Inv globals symbols stack st' ∧
        st'.unresolved.length ≤ st.unresolved.length := by
      unfold lookup
      cases hr : assoc n st.resolved with
      | some u =>
        obtain ⟨_, _, e, he, hm'⟩ := hi.res n u (assoc_mem hr)
        rw [keys_unique hp.distinct he hd] at hm'
        rw [means_unique hg hp.distinct hm u hm']
        exact ⟨st, rfl, hi, Nat.le_refl _⟩
      | none =>
        have hu : n ∈ st.unresolved.map (·.1) := by
          rcases hi.cov n d hd with h | h | h
          · exact h
          · exact absurd h (assoc_none hr)
          · exact absurd h hnot
        obtain ⟨⟨k, d'⟩, hmem, hk⟩ := List.mem_map.mp hu
        simp only at hk
        subst hk
        have hdd := keys_unique hp.distinct (hi.sub.subset hmem) hd
        subst hdd
        rw [assoc_eq (hi.keys hp) hmem]
        have hlen := remove_length hu
        cases fuel with
        | zero => omega
        | succ fuel =>
          simp only
          have hacc : ¬ Reaches symbols k k := by
            refine acc_not_reaches (Acc.intro _ ?_)
            rintro y ⟨d', hd', hy, hyb, e, he⟩
            rw [keys_unique hp.distinct hd' hd] at hy
            exact means_acc hp.distinct hm y hy hyb ⟨e, he⟩
          obtain ⟨st1, h1, h2, h3⟩ := ih fuel (k :: stack) _ (List.mem_cons_self ..) (by
            intro b hb hbk hbd
            obtain ⟨e, he⟩ := hbd
            have hus : Uses symbols k b := ⟨d', hd, hb, hbk, e, he⟩
            have hr' : ∀ s ∈ k :: stack, Reaches symbols s b := by
              intro s hs
              rw [List.mem_cons] at hs
              rcases hs with hs | hs
              · exact hs ▸ .single hus
              · exact .step (hreach s hs) hus
            refine ⟨fun hbs => ?_, hr'⟩
            have hbb := hr' b hbs
            have hab : Acc (fun x y => Uses symbols y x) b := means_acc hp.distinct hm b hb hbk ⟨e, he⟩
            exact acc_not_reaches hab hbb) (hi.push hp hmem) (by simp only; omega)
          obtain ⟨h4, h5, h6⟩ := h2.pop hp hnot hd hm
          rw [resolveSymbol, hr, if_neg (by simp), h1]
          simp only [R.bind, h4, h5]
          refine ⟨_, rfl, h6, ?_⟩
          simp only at h3 ⊢
          omega
    obtain ⟨st', h1, h2, h3⟩ := key
    rw [visit, if_neg (by simpa [List.isEmpty_iff] using hne)]
    simp only [h1, R.bind]
    exact ⟨st', rfl, h2, h3⟩
  · -- a global symbol
    intro self n as t hne ho ht fuel stack st hself hfree hi hf
    have hno : n ∉ st.unresolved.map (·.1) ∧ n ∉ st.resolved.map (·.1) := by
      rcases ho with ho | ho
      · subst ho
        refine ⟨hi.stk n hself, ?_⟩
        intro h
        obtain ⟨⟨k, u⟩, hku, rfl⟩ := List.mem_map.mp h
        exact (hi.res _ _ hku).2.1 hself
      · constructor
        · intro h
          obtain ⟨⟨k, u⟩, hku, rfl⟩ := List.mem_map.mp h
          exact ho _ (hi.sub.subset hku)
        · intro h
          obtain ⟨⟨k, u⟩, hku, rfl⟩ := List.mem_map.mp h
          obtain ⟨_, _, d, hd, _⟩ := hi.res _ _ hku
          exact ho _ hd
    have : lookup globals fuel n st = .ok (t, st) := by
      unfold lookup
      rw [assoc_eq_none hno.2, assoc_eq_none hno.1, assoc_eq hg ht]
    rw [visit, if_neg (by simpa [List.isEmpty_iff] using hne)]
    simp only [this, R.bind]
    exact ⟨st, rfl, hi, Nat.le_refl _⟩
  · intro _ b m fuel stack st _ _ hi _; exact ⟨st, by rw [visit], hi, Nat.le_refl _⟩
  · intro _ b m fuel stack st _ _ hi _; exact ⟨st, by rw [visit], hi, Nat.le_refl _⟩
  · intro self t t' m _ ih fuel stack st h1 h2 hi hf
    obtain ⟨st', h3, h4, h5⟩ := ih fuel stack st h1 h2 hi hf
    exact ⟨st', by rw [visit, h3]; rfl, h4, h5⟩
  · intro self k v k' v' m _ _ ih1 ih2 fuel stack st h1 h2 hi hf
    obtain ⟨st1, h3, h4, h5⟩ := ih2 fuel stack st h1
      (fun b hb => h2 b (by rw [refs]; exact List.mem_append_right _ hb)) hi hf
    obtain ⟨st2, h6, h7, h8⟩ := ih1 fuel stack st1 h1
      (fun b hb => h2 b (by rw [refs]; exact List.mem_append_left _ hb)) h4 (by omega)
    refine ⟨st2, ?_, h7, by omega⟩
    rw [visit, h3]
    simp only [R.bind, h6]
  · intro self t t' m _ ih fuel stack st h1 h2 hi hf
    obtain ⟨st', h3, h4, h5⟩ := ih fuel stack st h1 h2 hi hf
    exact ⟨st', by rw [visit, h3]; rfl, h4, h5⟩
  · intro self fs fs' m ha _ ih fuel stack st h1 h2 hi hf
    obtain ⟨st', h3, h4, h5⟩ := ih fuel stack st h1 h2 hi hf
    refine ⟨st', ?_, h4, h5⟩
    rw [visit, h3]
    simp only [R.bind]
    rw [if_neg]
    intro h
    obtain ⟨v, hv⟩ := (isAlgebra_iff m).mp h
    exact ha v hv
  · intro self fs fs' m v t ha _ hv ih fuel stack st h1 h2 hi hf
    obtain ⟨st', h3, h4, h5⟩ := ih fuel stack st h1 h2 hi hf
    refine ⟨st', ?_, h4, h5⟩
    rw [visit, h3]
    simp only [R.bind]
    rw [if_pos ((isAlgebra_iff m).mpr ⟨v, ha⟩), (algebra_iff ..).mpr hv]
  · intro _ fuel stack st _ _ hi _; exact ⟨st, by rw [visitFields], hi, Nat.le_refl _⟩
  · intro self n t t' rest rest' _ _ ih1 ih2 fuel stack st h1 h2 hi hf
    obtain ⟨st1, h3, h4, h5⟩ := ih1 fuel stack st h1
      (fun b hb => h2 b (by rw [refsAll]; exact List.mem_append_left _ hb)) hi hf
    obtain ⟨st2, h6, h7, h8⟩ := ih2 fuel stack st1 h1
      (fun b hb => h2 b (by rw [refsAll]; exact List.mem_append_right _ hb)) h4 (by omega)
    refine ⟨st2, ?_, h7, by omega⟩
    rw [visitFields, h3]
    simp only [R.bind, h6]

theorem means_resolveLoop (hg : (globals.map (·.1)).Nodup) (hp : Parsed symbols)
    (hm : ∀ n d, (n, d) ∈ symbols → ∃ t, Means globals symbols n d t) : ∀ (fuel : Nat) (st : St),
    Inv globals symbols [] st → st.unresolved.length ≤ fuel → ∃ st', resolveLoop globals fuel st = .ok st' := by
  intro fuel
  induction fuel with
  | zero =>
    intro st hi hf
    have : st.unresolved = [] := List.eq_nil_of_length_eq_zero (by omega)
    unfold resolveLoop
    rw [this]
    exact ⟨st, rfl⟩
  | succ fuel ih =>
    intro st hi hf
    unfold resolveLoop
    cases hu : st.unresolved with
    | nil => exact ⟨st, rfl⟩
    | cons x rest =>
      obtain ⟨n, d⟩ := x
      simp only
      have hmem : (n, d) ∈ st.unresolved := by rw [hu]; exact List.mem_cons_self ..
      have hlen := remove_length (n := n) (l := st.unresolved) (List.mem_map.mpr ⟨_, hmem, rfl⟩)
      have hd := hi.sub.subset hmem
      obtain ⟨t, ht⟩ := hm n d hd
      obtain ⟨st1, h1, h2, h3⟩ := means_visit hg hp ht st.unresolved.length [n] _ (List.mem_cons_self ..) (by
        intro b hb hbn hbd
        refine ⟨by simpa using hbn, fun s hs => ?_⟩
        rw [List.mem_singleton.mp hs]
        obtain ⟨e, he⟩ := hbd
        exact .single ⟨d, hd, hb, hbn, e, he⟩) (hi.push hp hmem) (by simp only; omega)
      obtain ⟨h4, h5, h6⟩ := h2.pop hp (by simp) hd ht
      have hr : assoc n st.resolved = none := by
        refine assoc_eq_none fun h => ?_
        obtain ⟨⟨k, u⟩, hku, rfl⟩ := List.mem_map.mp h
        exact (hi.res _ _ hku).1 (List.mem_map.mpr ⟨_, hmem, rfl⟩)
      rw [hu] at h1 hlen
      simp only [resolveSymbol, hr, hu, h1, R.bind, h4, h5]
      simp only at h3
      refine ih _ h6 ?_
      simp only
      rw [hu] at hf h3
      omega

theorem inv_start (hp : Parsed symbols) : Inv globals symbols [] ⟨symbols, [], []⟩ :=
  { sub := .refl _
    res := fun _ _ h => by simp at h
    stk := fun _ h => by simp at h
    cov := fun n d h => .inl (List.mem_map.mpr ⟨_, h, rfl⟩)
    sch := rfl
    nodup := List.nodup_nil }

end Verif.SchemaText
