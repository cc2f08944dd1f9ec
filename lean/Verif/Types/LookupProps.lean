import Verif.Types.Lemmas
import Verif.Types.LookupSpec

/-! # C62: Looking up fields of record types by offset and by key -/

namespace Verif.Types
open Spec

variable {τ : Type}

/-! ### Lemmas -/

theorem fieldAt_iff : ∀ (o : List Nat) (fs : Fields τ) (n : Name) (t : Ty τ),
    fieldAt o fs = some (n, t) ↔ ∃ p, HasField fs o (p ++ [n]) t
  | [], fs, n, t => by
    rw [fieldAt]
    refine ⟨nofun, ?_⟩
    rintro ⟨p, h⟩
    cases h
  | [x], fs, n, t => by
    rw [fieldAt]
    constructor
    · intro h; exact ⟨[], .here h⟩
    · rintro ⟨p, h⟩
      generalize hq : p ++ [n] = q at h
      cases h with
      | here h =>
        cases p with
        | nil => simp at hq; rw [Fields.get?, h, hq]
        | cons a p => simp at hq
      | there h h' => cases h'
  | x :: y :: o, fs, n, t => by
    rw [fieldAt]
    constructor
    · intro h
      cases hg : fs.get? x with
      | none => rw [hg] at h; cases h
      | some f =>
        obtain ⟨n', t'⟩ := f
        rw [hg] at h
        cases t' with
        | leaf _ => cases h
        | alias _ => cases h
        | record m gs =>
          obtain ⟨p, hp⟩ := (fieldAt_iff (y :: o) gs n t).1 h
          exact ⟨n' :: p, .there hg hp⟩
    · rintro ⟨p, h⟩
      generalize hq : p ++ [n] = q at h
      cases h with
      | @there _ gs _ n' m _ p' _ h h' =>
        cases p with
        | nil =>
          simp at hq
          rw [hq.2] at h'
          cases h'
        | cons a p =>
          simp at hq
          rw [Fields.get?, h]
          exact (fieldAt_iff (y :: o) gs n t).2 ⟨p, hq.2 ▸ h'⟩

theorem hasField_path_ne {fs : Fields τ} {o : List Nat} {p : List Name} {t : Ty τ} (h : HasField fs o p t) : p ≠ [] := by
  cases h <;> simp

theorem dotted_cons_ne {n : Name} {p : List Name} (h : p ≠ []) : dotted (n :: p) = n ++ 46 :: dotted p := by
  cases p with
  | nil => exact absurd rfl h
  | cons m p => exact dotted_cons n m p

/-- The separator in front of a name. -/
def sep (acc : Name) : Name := if acc.isEmpty then acc else acc ++ [46]

theorem resolveOffset_iff : ∀ (o : List Nat) (acc : Name) (fs : Fields τ) (key : Name),
    AllNames NonEmptyNames fs →
    (resolveOffset o acc fs = some key ↔ ∃ p t, HasField fs o p t ∧ key = sep acc ++ dotted p)
  | [], acc, fs, key, _ => by
    rw [resolveOffset]
    refine ⟨nofun, ?_⟩
    rintro ⟨p, t, h, _⟩
    cases h
  | [x], acc, fs, key, _ => by
    rw [resolveOffset]
    constructor
    · intro h
      cases hg : fs.get? x with
      | none => rw [hg] at h; cases h
      | some f =>
        obtain ⟨n, t⟩ := f
        rw [hg] at h
        cases h
        exact ⟨[n], t, .here hg, rfl⟩
    · rintro ⟨p, t, h, rfl⟩
      cases h with
      | here h => rw [Fields.get?, h]; rfl
      | there h h' => cases h'
  | x :: y :: o, acc, fs, key, hn => by
    obtain ⟨hn1, hn2⟩ := hn
    rw [resolveOffset]
    have hne : ∀ {n : Name} {t : Ty τ}, fs.toList[x]? = some (n, t) → (sep acc ++ n).isEmpty = false := by
      intro n t hg
      have : n ≠ [] := hn1 n (List.mem_map.2 ⟨(n, t), List.mem_of_getElem? hg, rfl⟩)
      simp [this]
    constructor
    · intro h
      cases hg : fs.get? x with
      | none => rw [hg] at h; cases h
      | some f =>
        obtain ⟨n, t'⟩ := f
        rw [hg] at h
        cases t' with
        | leaf _ => cases h
        | alias _ => cases h
        | record m gs =>
          obtain ⟨p, t, hp, hk⟩ := (resolveOffset_iff (y :: o) (sep acc ++ n) gs key (hn2 x n m gs hg)).1 h
          refine ⟨n :: p, t, .there hg hp, ?_⟩
          rw [hk, dotted_cons_ne (hasField_path_ne hp)]
          rw [sep, hne hg]
          simp
    · rintro ⟨p, t, h, rfl⟩
      cases h with
      | @there _ gs _ n m _ p' _ h h' =>
        rw [Fields.get?, h]
        refine (resolveOffset_iff (y :: o) (sep acc ++ n) gs _ (hn2 x n m gs h)).2 ⟨p', t, h', ?_⟩
        rw [dotted_cons_ne (hasField_path_ne h'), sep, sep, ← sep, hne h]
        simp

/-- A name without a dot at the start of a key. -/
theorem prefix_of_dotted {a n r : Name} (ha : 46 ∉ a) (h : a <+: n ++ 46 :: r) : a <+: n := by
  rcases List.prefix_or_prefix_of_prefix h (List.prefix_append n (46 :: r)) with h1 | h1
  · exact h1
  · obtain ⟨s, rfl⟩ := h1
    obtain ⟨u, hu⟩ := h
    rw [List.append_assoc] at hu
    have hu := List.append_cancel_left hu
    cases s with
    | nil => simp
    | cons c s => simp at hu; simp [hu.1] at ha

/-- Fields whose names have nothing to do with the key are passed. -/
theorem resolveFields_skip {key : Name} : ∀ (fs : Fields τ) (i x : Nat) (n : Name) (t : Ty τ), fs.toList[x]? = some (n, t) →
    (∀ (y : Nat) (a : Name) (s : Ty τ), y < x → fs.toList[y]? = some (a, s) → ¬ a <+: key ∧ ¬ key <+: a) → n <+: key →
    resolveFields key i fs = if n.length = key.length then some (some [i + x])
      else resolveSub (key.drop (1 + n.length)) (i + x) t
  | .nil, i, x, n, t, h, _, _ => by simp [Fields.toList] at h
  | .cons n' t' rest, i, 0, n, t, h, _, hk => by
    simp [Fields.toList] at h
    obtain ⟨rfl, rfl⟩ := h
    rw [resolveFields, if_pos (List.isPrefixOf_iff_prefix.2 hk)]
    rfl
  | .cons n' t' rest, i, x + 1, n, t, h, hs, hk => by
    have h0 := hs 0 n' t' (by omega) rfl
    rw [resolveFields, if_neg (by rw [List.isPrefixOf_iff_prefix]; exact h0.1),
      if_neg (by rw [List.isPrefixOf_iff_prefix]; exact h0.2)]
    rw [resolveFields_skip rest (i + 1) x n t (by simpa [Fields.toList] using h) (by
      intro y a s hy ha
      exact hs (y + 1) a s (by omega) (by simpa [Fields.toList] using ha)) hk]
    rw [show i + 1 + x = i + (x + 1) by omega]

theorem resolveFields_complete {fs : Fields τ} {o : List Nat} {p : List Name} {t : Ty τ} (h : HasField fs o p t) :
    AllNames PlainNames fs → ∀ i, resolveFields (dotted p) i fs = some (some ((i + o.headD 0) :: o.tail)) := by
  have clash : ∀ {fs : Fields τ} {x : Nat} {n : Name} {t : Ty τ} (key : Name), (key = n ∨ ∃ r, key = n ++ 46 :: r) →
      PlainNames (fs.toList.map (·.1)) → fs.toList[x]? = some (n, t) →
      ∀ (y : Nat) (a : Name) (s : Ty τ), y < x → fs.toList[y]? = some (a, s) → ¬ a <+: key ∧ ¬ key <+: a := by
    intro fs x n t key hkey hp hx y a s hy ha
    have hlx : x < fs.toList.length := (List.getElem?_eq_some_iff.1 hx).1
    have hly : y < fs.toList.length := by omega
    have hpw := List.pairwise_iff_getElem.1 hp.2 y x (by simpa using hly) (by simpa using hlx) hy
    have e1 : fs.toList[y] = (a, s) := (List.getElem?_eq_some_iff.1 ha).2
    have e2 : fs.toList[x] = (n, t) := (List.getElem?_eq_some_iff.1 hx).2
    simp only [List.getElem_map, e1, e2] at hpw
    have hdot := (hp.1 a (List.mem_map.2 ⟨(a, s), List.mem_of_getElem? ha, rfl⟩)).2
    rcases hkey with rfl | ⟨r, rfl⟩
    · exact hpw
    · exact ⟨fun h => hpw.1 (prefix_of_dotted hdot h),
        fun h => hpw.2 ((List.prefix_append n (46 :: r)).trans h)⟩
  induction h with
  | @here fs x n t h =>
    intro hn i
    obtain ⟨hp, _⟩ := hn
    rw [show dotted [n] = n from rfl, resolveFields_skip fs i x n t h (clash n (.inl rfl) hp h) (List.prefix_refl n),
      if_pos rfl]
    rfl
  | @there fs gs x n m o p t h h' ih =>
    intro hn i
    obtain ⟨hp, hn2⟩ := hn
    have hpne := hasField_path_ne h'
    rw [dotted_cons_ne hpne]
    rw [resolveFields_skip fs i x n _ h (clash _ (.inr ⟨dotted p, rfl⟩) hp h) (List.prefix_append _ _),
      if_neg (by simp), resolveSub]
    have hd : (n ++ 46 :: dotted p).drop (1 + n.length) = dotted p := by
      rw [show n ++ 46 :: dotted p = (n ++ [46]) ++ dotted p by simp]
      exact List.drop_left' (by simp; omega)
    rw [hd, ih (hn2 x n m gs h) 0]
    have hne : (dotted p).isEmpty = false := by
      obtain ⟨hq, _⟩ := hn2 x n m gs h
      cases h' with
      | here hx =>
        have := (hq.1 _ (List.mem_map.2 ⟨_, List.mem_of_getElem? hx, rfl⟩)).1
        simpa [dotted] using this
      | there hx hy => rw [dotted_cons_ne (hasField_path_ne hy)]; simp
    have ho : ((0 + o.headD 0) :: o.tail) = o := by cases h' <;> simp
    rw [hne, ho]
    simp

mutual
theorem resolveFields_sound {key : Name} : ∀ (fs : Fields τ) (i : Nat) (o : List Nat),
    resolveFields key i fs = some (some o) →
    ∃ x o' p t, o = (i + x) :: o' ∧ HasField fs (x :: o') p t ∧ KeyLike key p
  | .nil, i, o, h => by rw [resolveFields] at h; simp at h
  | .cons n t rest, i, o, h => by
    rw [resolveFields] at h
    by_cases h1 : n.isPrefixOf key
    · rw [if_pos h1] at h
      have h1 := List.isPrefixOf_iff_prefix.1 h1
      by_cases h2 : n.length = key.length
      · rw [if_pos h2] at h
        simp at h; subst h
        refine ⟨0, [], [n], t, rfl, .here (by simp [Fields.toList]), ?_⟩
        exact (h1.eq_of_length h2).symm
      · rw [if_neg h2] at h
        obtain ⟨s, rfl⟩ := h1
        cases s with
        | nil => simp at h2
        | cons c s =>
          have hd : (n ++ c :: s).drop (1 + n.length) = s := by
            rw [show n ++ c :: s = (n ++ [c]) ++ s by simp]
            exact List.drop_left' (by simp; omega)
          rw [hd] at h
          obtain ⟨gs, m, o', p, t', rfl, rfl, hf, hk⟩ := resolveSub_sound t i o h
          refine ⟨0, o', n :: p, t', rfl, .there (m := m) (gs := gs) (by simp [Fields.toList]) hf, ?_⟩
          cases p with
          | nil => exact absurd rfl (hasField_path_ne hf)
          | cons a p => exact ⟨c, s, rfl, hk⟩
    · rw [if_neg h1] at h
      by_cases h2 : key.isPrefixOf n
      · rw [if_pos h2] at h; cases h
      · rw [if_neg h2] at h
        obtain ⟨x, o', p, t', rfl, hf, hk⟩ := resolveFields_sound rest (i + 1) o h
        refine ⟨x + 1, o', p, t', by rw [show i + 1 + x = i + (x + 1) by omega], ?_, hk⟩
        cases hf with
        | here hx => exact .here (by simpa [Fields.toList] using hx)
        | there hx hy => exact .there (by simpa [Fields.toList] using hx) hy

theorem resolveSub_sound {key : Name} : ∀ (t : Ty τ) (i : Nat) (o : List Nat), resolveSub key i t = some (some o) →
    ∃ gs m o' p t', t = .record m gs ∧ o = i :: o' ∧ HasField gs o' p t' ∧ KeyLike key p
  | .leaf _, i, o, h => by rw [resolveSub] at h; simp at h
  | .alias _, i, o, h => by rw [resolveSub] at h; simp at h
  | .record m gs, i, o, h => by
    rw [resolveSub] at h
    by_cases hk : key.isEmpty
    · rw [if_pos hk] at h; simp at h
    · rw [if_neg hk] at h
      cases hr : resolveFields key 0 gs with
      | none => rw [hr] at h; cases h
      | some r =>
        rw [hr] at h
        cases r with
        | none => simp at h
        | some o' =>
          simp at h
          obtain ⟨x, o'', p, t', rfl, hf, hk⟩ := resolveFields_sound gs 0 o' hr
          rw [Nat.zero_add] at h
          exact ⟨gs, m, x :: o'', p, t', rfl, h.symm, hf, hk⟩
end

mutual
theorem mem_offsetMap : ∀ (fs : Fields τ) (off : List Nat) (trace : Name) (i : Nat) (o : List Nat) (name : Name),
    (o, name) ∈ offsetMap off trace i fs ↔ ∃ x o' p t, HasField fs (x :: o') p t ∧ o = off ++ (i + x) :: o' ∧
      name = trace ++ 46 :: dotted p
  | .nil, off, trace, i, o, name => by
    rw [offsetMap]
    refine ⟨nofun, ?_⟩
    rintro ⟨x, o', p, t, h, _⟩
    cases h with
    | here h => simp [Fields.toList] at h
    | there h => simp [Fields.toList] at h
  | .cons n t rest, off, trace, i, o, name => by
    rw [offsetMap, List.mem_cons, List.mem_append, mem_offsetMapField t, mem_offsetMap rest]
    constructor
    · rintro (h | ⟨m, gs, o', p, t', rfl, hf, rfl, rfl⟩ | ⟨x, o', p, t', hf, rfl, rfl⟩)
      · simp at h
        exact ⟨0, [], [n], t, .here (by simp [Fields.toList]), by simp [h.1], h.2⟩
      · exact ⟨0, o', n :: p, t', .there (m := m) (gs := gs) (by simp [Fields.toList]) hf, by simp, by
          rw [dotted_cons_ne (hasField_path_ne hf)]; simp⟩
      · refine ⟨x + 1, o', p, t', ?_, by rw [show i + 1 + x = i + (x + 1) by omega], rfl⟩
        cases hf with
        | here hx => exact .here (by simpa [Fields.toList] using hx)
        | there hx hy => exact .there (by simpa [Fields.toList] using hx) hy
    · rintro ⟨x, o', p, t', hf, rfl, rfl⟩
      cases x with
      | zero =>
        cases hf with
        | here hx => simp [Fields.toList] at hx; left; simp [dotted, hx.1]
        | @there _ gs _ n' m _ p' _ hx hy =>
          simp [Fields.toList] at hx
          right; left
          refine ⟨m, gs, o', p', t', hx.2, hy, by simp, ?_⟩
          rw [dotted_cons_ne (hasField_path_ne hy), hx.1]; simp
      | succ x =>
        right; right
        refine ⟨x, o', p, t', ?_, by rw [show i + 1 + x = i + (x + 1) by omega], rfl⟩
        cases hf with
        | here hx => exact .here (by simpa [Fields.toList] using hx)
        | there hx hy => exact .there (by simpa [Fields.toList] using hx) hy

theorem mem_offsetMapField : ∀ (t : Ty τ) (off : List Nat) (trace : Name) (o : List Nat) (name : Name),
    (o, name) ∈ offsetMapField off trace t ↔ ∃ m gs o' p t', t = .record m gs ∧ HasField gs o' p t' ∧ o = off ++ o' ∧
      name = trace ++ 46 :: dotted p
  | .leaf _, off, trace, o, name => by
    rw [offsetMapField]
    exact ⟨nofun, by rintro ⟨m, gs, o', p, t', h, _⟩; cases h⟩
  | .alias _, off, trace, o, name => by
    rw [offsetMapField]
    exact ⟨nofun, by rintro ⟨m, gs, o', p, t', h, _⟩; cases h⟩
  | .record m gs, off, trace, o, name => by
    rw [offsetMapField, mem_offsetMap gs]
    constructor
    · rintro ⟨x, o', p, t, h, rfl, rfl⟩
      exact ⟨m, gs, x :: o', p, t, rfl, h, by simp, rfl⟩
    · rintro ⟨m', gs', o', p, t, he, h, rfl, rfl⟩
      cases he
      cases o' with
      | nil => cases h
      | cons x o' => exact ⟨x, o', p, t, h, by simp, rfl⟩
end

theorem flatFieldAt_of {fs : Fields τ} {o : List Nat} {p : List Name} {t : Ty τ} (h : HasField fs o p t) :
    ∀ acc, flatFieldAt o acc fs = some (some (acc ++ dotted p ++ [46], t)) := by
  induction h with
  | here h => intro acc; rw [flatFieldAt, Fields.get?, h]; rfl
  | @there fs gs x n m o p t h h' ih =>
    intro acc
    cases o with
    | nil => cases h'
    | cons y o =>
      rw [flatFieldAt, Fields.get?, h]
      simp only
      rw [ih, dotted_cons_ne (hasField_path_ne h')]
      simp

/-! ### Properties -/

/-- a record with a nested record -/
def lookupSample : Fields Nat :=
  .cons [120] (.record {} (.cons [97] (.leaf 1) (.cons [98] (.record {} (.cons [99] (.leaf 2) .nil)) .nil)))
    (.cons [121] (.leaf 3) .nil)

example : HasField lookupSample [0, 1, 0] [[120], [98], [99]] (.leaf 2) :=
  .there rfl (.there rfl (.here rfl))

/-- `at` finds the field at an offset, and only fields that are there. -/
theorem C62_at_offset (fs : Fields τ) (o : List Nat) (n : Name) (t : Ty τ) :
    fieldAt o fs = some (n, t) ↔ ∃ p, HasField fs o (p ++ [n]) t := fieldAt_iff o fs n t

/-- `resolve` for offsets gives the dotted path of the field at an offset, and nothing if there is none. -/
theorem C62_resolve_offset (fs : Fields τ) (hn : AllNames NonEmptyNames fs) (o : List Nat) (key : Name) :
    resolveOffset o [] fs = some key ↔ ∃ p t, HasField fs o p t ∧ key = dotted p := by
  rw [resolveOffset_iff o [] fs key hn]
  rfl

theorem lookupSample_names : AllNames PlainNames lookupSample := by
  have h3 : AllNames PlainNames (Fields.cons [99] (.leaf 2) .nil : Fields Nat) := by
    refine ⟨by simp [Fields.toList, PlainNames], ?_⟩
    intro x n m gs h
    match x with
    | 0 => simp [Fields.toList] at h
    | x + 1 => simp [Fields.toList] at h
  have h2 : AllNames PlainNames
      (.cons [97] (.leaf 1) (.cons [98] (.record {} (.cons [99] (.leaf 2) .nil)) .nil) : Fields Nat) := by
    refine ⟨by simp [Fields.toList, PlainNames], ?_⟩
    intro x n m gs h
    match x with
    | 0 => simp [Fields.toList] at h
    | 1 => simp [Fields.toList] at h; exact h.2.2 ▸ h3
    | x + 2 => simp [Fields.toList] at h
  refine ⟨by simp [lookupSample, Fields.toList, PlainNames], ?_⟩
  intro x n m gs h
  match x with
  | 0 => simp [lookupSample, Fields.toList] at h; exact h.2.2 ▸ h2
  | 1 => simp [lookupSample, Fields.toList] at h
  | x + 2 => simp [lookupSample, Fields.toList] at h

/-- `resolve` for keys finds every field by its dotted path, if no field's name is a prefix of another's. -/
theorem C62_resolve_key_partial (fs : Fields τ) (hn : AllNames PlainNames fs) (o : List Nat) (p : List Name) (t : Ty τ)
    (h : HasField fs o p t) : resolveKey (dotted p) fs = some (some o) := by
  have hc := resolveFields_complete h hn 0
  have hne : (dotted p).isEmpty = false := by
    obtain ⟨hq, _⟩ := hn
    cases h with
    | here hx =>
      have := (hq.1 _ (List.mem_map.2 ⟨_, List.mem_of_getElem? hx, rfl⟩)).1
      simpa [dotted] using this
    | there hx hy => rw [dotted_cons_ne (hasField_path_ne hy)]; simp
  have ho : ((0 + o.headD 0) :: o.tail) = o := by cases h <;> simp
  rw [resolveKey, hne, hc, ho]
  rfl

example : resolveKey [120, 46, 98, 46, 99] lookupSample = some (some [0, 1, 0]) :=
  C62_resolve_key_partial _ lookupSample_names _ [[120], [98], [99]] _ (.there rfl (.there rfl (.here rfl)))

/-- A field is not found if the name of a field in front of it is a prefix of its name. -/
theorem C62_resolve_key_prefix_refuted : ∃ (fs : Fields Nat) (n : Name), HasField fs [1] [n] (.leaf 2) ∧
    46 ∉ n ∧ resolveKey n fs = some none :=
  ⟨.cons [120] (.leaf 1) (.cons [120, 121] (.leaf 2) .nil), [120, 121], .here rfl, by decide, by decide⟩

/-- If the name of a field in front continues the key, `resolve` reads behind the end of the key. -/
theorem C62_resolve_key_ub_refuted : ∃ (fs : Fields Nat) (n : Name), HasField fs [1] [n] (.leaf 2) ∧
    resolveKey n fs = none :=
  ⟨.cons [120, 121] (.leaf 1) (.cons [120] (.leaf 2) .nil), [120], .here rfl, by decide⟩

/-- Whatever `resolve` finds has the key as its path, up to the bytes in the place of the dots. -/
theorem C62_resolve_key_sound_partial (fs : Fields τ) (key : Name) (o : List Nat)
    (h : resolveKey key fs = some (some o)) : ∃ p t, HasField fs o p t ∧ KeyLike key p := by
  rw [resolveKey] at h
  by_cases hk : key.isEmpty
  · rw [if_pos hk] at h; simp at h
  · rw [if_neg hk] at h
    obtain ⟨x, o', p, t, rfl, hf, hk⟩ := resolveFields_sound fs 0 o h
    rw [Nat.zero_add]
    exact ⟨p, t, hf, hk⟩

/-- The separator of a key is not checked: `x_a` is found as `x.a`. -/
theorem C62_separator_refuted : ∃ (fs : Fields Nat) (key : Name), resolveKey key fs = some (some [0, 0]) ∧ 46 ∉ key :=
  ⟨lookupSample, [120, 95, 97], by decide, by decide⟩

/-- `find_suffix` tries exactly the dotted paths of all fields, also of nested records, with the name of the
    record in front, and gives the offsets of those that match. -/
theorem C62_find_suffix (m : Meta) (hit : Name → Bool) (fs : Fields τ) (o : List Nat) :
    o ∈ findSuffix m hit fs ↔ ∃ p t, HasField fs o p t ∧ hit (dotted (m.name :: p)) = true := by
  rw [findSuffix]
  simp only [List.mem_map, List.mem_filter]
  constructor
  · rintro ⟨⟨o', n⟩, ⟨h1, h2⟩, rfl⟩
    obtain ⟨x, o'', p, t, hf, rfl, rfl⟩ := (mem_offsetMap fs [] m.name 0 o' n).1 h1
    refine ⟨p, t, by simpa using hf, ?_⟩
    rw [dotted_cons_ne (hasField_path_ne hf)]
    exact h2
  · rintro ⟨p, t, hf, hh⟩
    cases o with
    | nil => cases hf
    | cons x o =>
      refine ⟨(x :: o, m.name ++ 46 :: dotted p), ⟨(mem_offsetMap fs [] m.name 0 _ _).2 ⟨x, o, p, t, hf, by simp, rfl⟩, ?_⟩, rfl⟩
      rw [dotted_cons_ne (hasField_path_ne hf)] at hh
      exact hh

example : findSuffix { name := [114] } (fun n => [98, 46, 99].isSuffixOf n) lookupSample = [[0, 1, 0]] := by decide

/-- `at` for keys gives a field whose dotted path matches, and finds one if there is one. -/
theorem C62_at_key (m : Meta) (hit : Name → Bool) (fs : Fields τ) :
    (∀ n t, fieldAtKey m hit fs = some (n, t) →
      ∃ o p, HasField fs o (p ++ [n]) t ∧ hit (dotted (m.name :: (p ++ [n]))) = true) ∧
    (fieldAtKey m hit fs = none → ∀ o p t, HasField fs o p t → hit (dotted (m.name :: p)) = false) := by
  have uniq : ∀ {fs : Fields τ} {o : List Nat} {p q : List Name} {t s : Ty τ}, HasField fs o p t → HasField fs o q s →
      p = q ∧ t = s := by
    intro fs o p q t s h1
    induction h1 generalizing q s with
    | here h =>
      intro h2
      cases h2 with
      | here h' => rw [h] at h'; simp at h'; exact ⟨by rw [h'.1], h'.2⟩
      | there h' h'' => cases h''
    | there h h' ih =>
      intro h2
      cases h2 with
      | here h3 => cases h'
      | there h3 h4 =>
        rw [h] at h3; simp at h3
        obtain ⟨rfl, rfl, rfl⟩ := h3
        obtain ⟨rfl, rfl⟩ := ih h4
        exact ⟨rfl, rfl⟩
  constructor
  · intro n t h
    rw [fieldAtKey] at h
    obtain ⟨⟨o, name⟩, hm, he⟩ := List.exists_of_findSome?_eq_some h
    simp only at he
    by_cases hh : hit name = true
    · rw [if_pos hh] at he
      obtain ⟨p, hp⟩ := (fieldAt_iff o fs n t).1 he
      obtain ⟨x, o', q, s, hq, rfl, rfl⟩ := (mem_offsetMap fs [] m.name 0 o name).1 hm
      simp only [Nat.zero_add, List.nil_append] at hp
      obtain ⟨rfl, _⟩ := uniq hp hq
      refine ⟨_, p, hp, ?_⟩
      rw [dotted_cons_ne (by simp)]
      exact hh
    · rw [if_neg hh] at he; cases he
  · intro h o p t hf
    rw [fieldAtKey, List.findSome?_eq_none_iff] at h
    have hm : (o, m.name ++ 46 :: dotted p) ∈ offsetMap [] m.name 0 fs := by
      cases o with
      | nil => cases hf
      | cons x o => exact (mem_offsetMap fs [] m.name 0 _ _).2 ⟨x, o, p, t, hf, by simp, rfl⟩
    have := h _ hm
    simp only at this
    rw [dotted_cons_ne (hasField_path_ne hf)]
    by_cases hh : hit (m.name ++ 46 :: dotted p) = true
    · rw [if_pos hh] at this
      obtain ⟨q, n, rfl⟩ : ∃ q n, p = q ++ [n] :=
        ⟨p.dropLast, p.getLast (hasField_path_ne hf), (List.dropLast_concat_getLast (hasField_path_ne hf)).symm⟩
      rw [(fieldAt_iff o fs n t).2 ⟨q, hf⟩] at this
      cases this
    · simpa using hh

/-- `flat_field_at` gives the field at an offset with its dotted path and one more dot. -/
theorem C62_flat_field_at_partial (fs : Fields τ) (o : List Nat) (p : List Name) (t : Ty τ) (h : HasField fs o p t) :
    flatFieldAt o [] fs = some (some (dotted p ++ [46], t)) := flatFieldAt_of h []

/-- The name that `flat_field_at` gives is not that of the flattened record, contrary to its
    documentation. -/
theorem C62_flat_field_at_refuted : ∃ (fs : Fields Nat) (o : List Nat) (p : List Name) (t : Ty Nat),
    HasField fs o p t ∧ flatFieldAt o [] fs ≠ some (some (dotted p, t)) := by
  refine ⟨lookupSample, [0, 0], [[120], [97]], .leaf 1, .there rfl (.here rfl), ?_⟩
  rw [C62_flat_field_at_partial lookupSample [0, 0] [[120], [97]] (.leaf 1) (.there rfl (.here rfl))]
  simp

end Verif.Types
