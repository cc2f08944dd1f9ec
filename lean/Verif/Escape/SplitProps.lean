import Verif.Escape.SplitModel

/-! # C60: splitting loses nothing. C61: replacing replaces every occurrence. -/

namespace Verif.Escape

theorem isPrefixOf_iff {a b : List UInt8} : a.isPrefixOf b = true ↔ a <+: b := List.isPrefixOf_iff_prefix

theorem take_sep {sep rest : List UInt8} (h : sep.isPrefixOf rest = true) :
    sep ++ rest.drop sep.length = rest := by
  obtain ⟨t, ht⟩ := isPrefixOf_iff.1 h
  rw [← ht]; simp

theorem splitLoop_incl (sep esc : List UInt8) (max : Nat) :
    ∀ (n : Nat) (seen cur rest : List UInt8) (k : Nat),
      (splitLoop sep esc max true n seen cur rest k).flatten = cur ++ rest := by
  intro n
  induction n with
  | zero =>
    intro seen cur rest k
    cases rest with
    | nil => simp only [splitLoop]; split <;> simp [*]
    | cons c r => simp [splitLoop]
  | succ n ih =>
    intro seen cur rest k
    cases rest with
    | nil => simp only [splitLoop]; split <;> simp [*]
    | cons c r =>
      simp only [splitLoop]
      split
      · rename_i h
        split
        · simp
        · have := take_sep h.1
          simp only [List.flatten_cons, if_true, List.singleton_append, ih, List.nil_append, this]
      · rw [ih]; simp

/-- C60: if the separators are included, the parts that `split` returns make up the string, for every
    string, separator, escape string and limit. -/
theorem C60_split_include (s sep esc : List UInt8) (max : Nat) :
    (split s sep esc max true).flatten = s := by
  rw [split, splitLoop_incl]; simp

example : split [97, 44, 98, 44] [44] [] 9 true = [[97], [44], [98], [44]] := by decide

theorem join_cons {x : List UInt8} {xs : List (List UInt8)} (sep : List UInt8) (h : xs ≠ []) :
    join (x :: xs) sep = x ++ sep ++ join xs sep := by
  cases xs with
  | nil => exact absurd rfl h
  | cons y ys => rfl

theorem splitLoop_join (sep esc : List UInt8) (max : Nat) :
    ∀ (n : Nat) (seen cur rest : List UInt8) (k : Nat),
      (join (splitLoop sep esc max false n seen cur rest k) sep = cur ++ rest
        ∧ (splitLoop sep esc max false n seen cur rest k = [] → cur ++ rest = []))
      ∨ (join (splitLoop sep esc max false n seen cur rest k) sep ++ sep = cur ++ rest
        ∧ splitLoop sep esc max false n seen cur rest k ≠ []) := by
  intro n
  induction n with
  | zero =>
    intro seen cur rest k
    cases rest with
    | nil => simp only [splitLoop]; split <;> simp [join, *]
    | cons c r => simp [splitLoop, join]
  | succ n ih =>
    intro seen cur rest k
    cases rest with
    | nil => simp only [splitLoop]; split <;> simp [join, *]
    | cons c r =>
      simp only [splitLoop]
      split
      · rename_i h
        split
        · simp [join]
        · have hs := take_sep h.1
          simp only [Bool.false_eq_true, if_false, List.nil_append]
          have hi := ih (seen ++ sep) [] ((c :: r).drop sep.length) (k + 1)
          generalize splitLoop sep esc max false n (seen ++ sep) [] ((c :: r).drop sep.length) (k + 1)
            = parts at hi ⊢
          simp only [List.nil_append] at hi
          by_cases hp : parts = []
          · subst hp
            have h2 : (c :: r).drop sep.length = [] := by simpa [join] using hi
            rw [h2, List.append_nil] at hs
            right
            simp [join, hs]
          · rw [join_cons sep hp]
            rcases hi with hi | hi
            · left
              rw [hi.1]
              exact ⟨by rw [List.append_assoc, hs], by simp⟩
            · right
              refine ⟨?_, by simp⟩
              rw [List.append_assoc, hi.1, List.append_assoc, hs]
      · have := ih (seen ++ [c]) (cur ++ [c]) r k
        simpa using this

/-- C60: joining the parts gives the string, or the string without the separator at its end. -/
theorem C60_split_join (s sep esc : List UInt8) (max : Nat) :
    join (split s sep esc max false) sep = s ∨ join (split s sep esc max false) sep ++ sep = s := by
  rcases splitLoop_join sep esc max s.length [] [] s 0 with h | h
  · exact .inl h.1
  · exact .inr h.1

example : split [97, 44, 98, 44] [44] [] 9 false = [[97], [98]] ∧ split [44] [44] [] 9 false = [[]] := by decide

theorem splitLoop_count (sep esc : List UInt8) (max : Nat) :
    ∀ (n : Nat) (seen cur rest : List UInt8) (k : Nat), k ≤ max →
      (splitLoop sep esc max false n seen cur rest k).length + k ≤ max + 1 := by
  intro n
  induction n with
  | zero =>
    intro seen cur rest k hk
    cases rest with
    | nil => simp only [splitLoop]; split <;> simp <;> omega
    | cons c r => simp [splitLoop]; omega
  | succ n ih =>
    intro seen cur rest k hk
    cases rest with
    | nil => simp only [splitLoop]; split <;> simp <;> omega
    | cons c r =>
      simp only [splitLoop]
      split
      · split
        · simp; omega
        · have := ih (seen ++ sep) [] ((c :: r).drop sep.length) (k + 1) (by omega)
          simp only [Bool.false_eq_true, if_false, List.nil_append, List.length_cons]
          omega
      · exact ih _ _ _ _ hk

/-- C60: `split` splits at most `max` times. -/
theorem C60_split_max (s sep esc : List UInt8) (max : Nat) :
    (split s sep esc max false).length ≤ max + 1 :=
  splitLoop_count sep esc max _ _ _ _ 0 (Nat.zero_le _)

example : split [97, 44, 98, 44, 99] [44] [] 1 false = [[97], [98, 44, 99]] := by decide

theorem escaped_nil (seen : List UInt8) : escaped [] seen = false := by simp [escaped]

/-- `sep` does not start within the first characters of `cur ++ rest`. -/
def Clean (sep cur rest : List UInt8) : Prop :=
  ∀ (a b : List UInt8), cur ++ rest = a ++ sep ++ b → cur.length ≤ a.length

theorem splitLoop_clean {sep : List UInt8} (hsep : sep ≠ []) (max : Nat) :
    ∀ (n : Nat) (seen cur rest : List UInt8) (k : Nat), rest.length ≤ n → rest.length + k ≤ max →
      Clean sep cur rest →
      ∀ p ∈ splitLoop sep [] max false n seen cur rest k, ¬ sep <:+: p := by
  have hend : ∀ cur : List UInt8, Clean sep cur [] → ¬ sep <:+: cur := by
    rintro cur hc ⟨a, b, hab⟩
    have := hc a b (by simpa using hab.symm)
    have hl := congrArg List.length hab
    have := List.length_pos_iff.2 hsep
    simp at hl; omega
  intro n
  induction n with
  | zero =>
    intro seen cur rest k hn _ hc p hp
    cases rest with
    | nil =>
      simp only [splitLoop] at hp
      split at hp
      · simp at hp
      · rw [List.mem_singleton] at hp; subst hp; exact hend _ hc
    | cons c r => simp at hn
  | succ n ih =>
    intro seen cur rest k hn hk hc p hp
    cases rest with
    | nil =>
      simp only [splitLoop] at hp
      split at hp
      · simp at hp
      · rw [List.mem_singleton] at hp; subst hp; exact hend _ hc
    | cons c r =>
      simp only [splitLoop, escaped_nil, and_true] at hp
      simp only [List.length_cons] at hn hk
      split at hp
      · rename_i h
        rw [if_neg (by omega)] at hp
        simp only [Bool.false_eq_true, if_false, List.nil_append, List.mem_cons] at hp
        rcases hp with hp | hp
        · rw [hp]
          rintro ⟨a, b, hab⟩
          have := hc a (b ++ c :: r) (by rw [← hab]; simp)
          have hl := congrArg List.length hab
          have := List.length_pos_iff.2 hsep
          simp at hl; omega
        · have hpos := List.length_pos_iff.2 hsep
          refine ih _ _ _ _ ?_ ?_ ?_ p hp
          · simp only [List.length_drop, List.length_cons]; omega
          · simp only [List.length_drop, List.length_cons]; omega
          · intro a b _; simp
      · rename_i h
        refine ih _ _ _ _ (by omega) (by omega) ?_ p hp
        intro a b hab
        have h1 := hc a b (by rw [← hab]; simp)
        rcases Nat.lt_or_ge cur.length a.length with hlt | hge
        · simp; omega
        · exfalso
          have hlen : cur.length = a.length := by omega
          have : cur ++ (c :: r) = a ++ (sep ++ b) := by rw [← List.append_assoc, ← hab]; simp
          have := (List.append_inj this hlen).2
          exact h (isPrefixOf_iff.2 ⟨b, this.symm⟩)

/-- C60: without escape string and with a limit that is large enough, no part has the separator in
    it. -/
theorem C60_split_parts (s sep : List UInt8) (max : Nat) (hsep : sep ≠ []) (hmax : s.length ≤ max) :
    ∀ p ∈ split s sep [] max false, ¬ sep <:+: p :=
  splitLoop_clean hsep max s.length [] [] s 0 (Nat.le_refl _) (by omega) (by intro a b _; simp)

example : split [97, 44, 44, 44, 98] [44, 44] [] 9 false = [[97], [44, 98]] := by decide

theorem splitLoop_escape {sep esc : List UInt8} (max : Nat) :
    ∀ (n : Nat) (seen cur rest : List UInt8) (k : Nat), ∀ before, seen = before ++ cur →
      ∀ a b : List (List UInt8), splitLoop sep esc max false n seen cur rest k = a ++ b → a ≠ [] → b ≠ [] →
        escaped esc (before ++ join a sep) = false := by
  intro n
  have hone : ∀ (x : List UInt8) (a b : List (List UInt8)), [x] = a ++ b → a ≠ [] → b ≠ [] → False := by
    intro x a b h ha hb
    have := congrArg List.length h
    have := List.length_pos_iff.2 ha
    have := List.length_pos_iff.2 hb
    simp at *; omega
  have hnil : ∀ (a b : List (List UInt8)), [] = a ++ b → a ≠ [] → False := by
    intro a b h ha
    cases a with
    | nil => exact ha rfl
    | cons => simp at h
  induction n with
  | zero =>
    intro seen cur rest k before hs a b hab ha hb
    exfalso
    cases rest with
    | nil =>
      simp only [splitLoop] at hab
      split at hab
      · exact hnil a b hab ha
      · exact hone _ a b hab ha hb
    | cons c r => exact hone _ a b (by simpa [splitLoop] using hab) ha hb
  | succ n ih =>
    intro seen cur rest k before hs a b hab ha hb
    cases rest with
    | nil =>
      exfalso
      simp only [splitLoop] at hab
      split at hab
      · exact hnil a b hab ha
      · exact hone _ a b hab ha hb
    | cons c r =>
      simp only [splitLoop] at hab
      split at hab
      · rename_i h
        split at hab
        · exact (hone _ a b hab ha hb).elim
        · simp only [Bool.false_eq_true, if_false, List.nil_append] at hab
          cases a with
          | nil => exact absurd rfl ha
          | cons x xs =>
            simp only [List.cons_append, List.cons.injEq] at hab
            obtain ⟨hx, hxs⟩ := hab
            subst hx
            by_cases hne : xs = []
            · subst hne
              simpa [join, ← hs] using h.2
            · rw [join_cons sep hne]
              have := ih (seen ++ sep) [] _ (k + 1) (before ++ cur ++ sep) (by simp [hs]) xs b hxs hne hb
              simpa using this
      · have := ih (seen ++ [c]) (cur ++ [c]) r k before (by simp [hs]) a b hab ha hb
        exact this

/-- C60, escape strings, restricted: where `split` splits, the text before the separator does not end
    with the escape string, unless that text is the escape string. Missing: that exception
    (`C60_escape_refuted`). -/
theorem C60_escape_partial (s sep esc : List UInt8) (max : Nat) (hesc : esc ≠ [])
    (a b : List (List UInt8)) (h : split s sep esc max false = a ++ b) (ha : a ≠ []) (hb : b ≠ []) :
    esc <:+ join a sep → join a sep = esc := by
  have := splitLoop_escape max s.length [] [] s 0 [] rfl a b h ha hb
  simp only [List.nil_append, escaped, Bool.and_eq_false_iff, decide_eq_false_iff_not,
    Bool.not_eq_false', List.isEmpty_iff] at this
  intro hsuf
  rcases this with (h1 | h1) | h1
  · exact absurd h1 hesc
  · have hl := hsuf.length_le
    exact (List.IsSuffix.eq_of_length hsuf (by omega)).symm
  · exact absurd (List.isSuffixOf_iff_suffix.2 hsuf) (by simp [h1])

example : split [97, 92, 44, 98, 44, 99] [44] [92] 9 false = [[97, 92, 44, 98], [99]] := by decide

/-- C60 refuted for an escaped separator at the start of the string: `\,a` is split at its comma. -/
theorem C60_escape_refuted : split [92, 44, 97] [44] [92] 9 false = [[92], [97]] := by decide

/-! ### C61 -/

namespace Spec

/-- `Replaced x y s t`: `t` is `s` with `y` for the occurrences of `x`, found from left to right. -/
inductive Replaced (x y : List UInt8) : List UInt8 → List UInt8 → Prop
  | none (s : List UInt8) : ¬ x <:+: s → Replaced x y s s
  | step (a s t : List UInt8) :
      (∀ b c : List UInt8, a ++ x ++ s = b ++ x ++ c → a.length ≤ b.length) → Replaced x y s t →
      Replaced x y (a ++ x ++ s) (a ++ y ++ t)

end Spec

theorem find_none {x : List UInt8} (hx : x ≠ []) : ∀ {s : List UInt8}, find x s = none → ¬ x <:+: s
  | [], _ => by simpa using hx
  | c :: rest, h => by
    simp only [find] at h
    split at h
    · cases h
    · rename_i hp
      have := find_none hx (s := rest) (by simpa using h)
      rw [List.infix_cons_iff, not_or]
      exact ⟨fun h' => hp (isPrefixOf_iff.2 h'), this⟩

theorem find_some {x : List UInt8} : ∀ {s a b : List UInt8}, find x s = some (a, b) →
    s = a ++ x ++ b ∧ ∀ b' c : List UInt8, s = b' ++ x ++ c → a.length ≤ b'.length
  | [], a, b, h => by
    simp only [find] at h
    split at h
    · rename_i hx
      simp only [Option.some.injEq, Prod.mk.injEq] at h
      obtain ⟨h1, h2⟩ := h
      subst h1; subst h2; subst hx
      exact ⟨rfl, by simp⟩
    · cases h
  | c :: rest, a, b, h => by
    simp only [find] at h
    split at h
    · rename_i hp
      simp only [Option.some.injEq, Prod.mk.injEq] at h
      obtain ⟨h1, h2⟩ := h
      subst h1; subst h2
      exact ⟨(take_sep hp).symm, by simp⟩
    · rename_i hp
      simp only [Option.map_eq_some_iff] at h
      obtain ⟨⟨a', b'⟩, hf, he⟩ := h
      simp only [Prod.mk.injEq] at he
      obtain ⟨h1, h2⟩ := he
      subst h1; subst h2
      obtain ⟨i1, i2⟩ := find_some hf
      refine ⟨by rw [i1]; simp, ?_⟩
      intro d e hde
      cases d with
      | nil => exact absurd (isPrefixOf_iff.2 ⟨e, by simpa using hde.symm⟩) hp
      | cons d0 ds =>
        simp only [List.cons_append, List.cons.injEq] at hde
        have := i2 ds e hde.2
        simp; exact this

theorem replaceLoop_spec {x y : List UInt8} (hx : x ≠ []) : ∀ (n : Nat) (done s : List UInt8),
    s.length < n → ∃ t, replaceLoop x y n done s = some (done ++ t) ∧ Spec.Replaced x y s t := by
  intro n
  induction n with
  | zero => intro _ _ h; omega
  | succ n ih =>
    intro done s hn
    simp only [replaceLoop]
    cases hf : find x s with
    | none => exact ⟨s, rfl, .none s (find_none hx hf)⟩
    | some r =>
      obtain ⟨a, b⟩ := r
      obtain ⟨h1, h2⟩ := find_some hf
      have := List.length_pos_iff.2 hx
      obtain ⟨t, ht, hr⟩ := ih (done ++ a ++ y) b (by
        have := congrArg List.length h1; simp at this; omega)
      refine ⟨a ++ y ++ t, ?_, ?_⟩
      · simpa using ht
      · rw [h1] at h2 ⊢
        exact .step a b t h2 hr

/-- C61: for a search string that is not empty, `replace_all` ends and replaces every occurrence from
    left to right. -/
theorem C61_replace_all_partial (s search replace : List UInt8) (h : search ≠ []) :
    ∃ (n : Nat) (t : List UInt8), replaceLoop search replace n [] s = some t ∧ Spec.Replaced search replace s t := by
  obtain ⟨t, h1, h2⟩ := replaceLoop_spec (y := replace) h (s.length + 1) [] s (by omega)
  exact ⟨_, t, by simpa using h1, h2⟩

example : replaceLoop [97, 97] [98] 9 [] [97, 97, 97, 99, 97, 97] = some [98, 97, 99, 98] := by decide

/-- C61 refuted for an empty search string: `replace_all` does not end, whatever the strings. -/
theorem C61_replace_empty_refuted (s replace : List UInt8) :
    ∀ n, replaceLoop [] replace n [] s = none := by
  have : ∀ (n : Nat) (done s : List UInt8), replaceLoop [] replace n done s = none := by
    intro n
    induction n with
    | zero => intros; rfl
    | succ n ih =>
      intro done s
      have hf : find [] s = some ([], s) := by cases s <;> simp [find]
      simp only [replaceLoop, hf, ih]
  intro n
  exact this n [] s

end Verif.Escape
