import Verif.Plugins.Spec

namespace Verif.Plugins

open Verif.Data (Str str)
open Spec

/-! ### Sets that keep the order -/

theorem mem_add {xs : List Str} {x y : Str} : y ∈ add xs x ↔ y ∈ xs ∨ y = x := by
  rw [add]
  split
  · constructor
    · exact .inl
    · rintro (h | rfl) <;> assumption
  · simp

theorem mem_addAll {y : Str} : ∀ {l acc : List Str}, y ∈ l.foldl add acc ↔ y ∈ acc ∨ y ∈ l
  | [], acc => by simp
  | x :: l, acc => by rw [List.foldl_cons, mem_addAll, mem_add, List.mem_cons, or_assoc]

theorem nodup_add {xs : List Str} {x : Str} (h : xs.Nodup) : (add xs x).Nodup := by
  rw [add]
  split
  · exact h
  · next hx =>
    rw [List.nodup_append]
    exact ⟨h, by simp, fun a ha b hb => by rw [List.mem_singleton] at hb; subst hb; intro e; exact hx (e ▸ ha)⟩

theorem nodup_addAll : ∀ {l acc : List Str}, acc.Nodup → (l.foldl add acc).Nodup
  | [], _, h => h
  | x :: l, acc, h => by rw [List.foldl_cons]; exact nodup_addAll (nodup_add h)

theorem find_add (p : Str → Bool) (xs ys : List Str) (x : Str) : (add xs x ++ ys).find? p = (xs ++ x :: ys).find? p := by
  rw [add]
  split
  · next hx =>
    rw [List.find?_append, List.find?_append, List.find?_cons]
    cases hp : p x with
    | false => rfl
    | true =>
      have : (xs.find? p).isSome := by rw [List.find?_isSome]; exact ⟨x, hx, hp⟩
      cases hf : xs.find? p with
      | none => rw [hf] at this; cases this
      | some y => rfl
  · rw [List.append_assoc]; rfl

theorem find_addAll (p : Str → Bool) : ∀ (l acc : List Str), (l.foldl add acc).find? p = (acc ++ l).find? p
  | [], acc => by simp
  | x :: l, acc => by rw [List.foldl_cons, find_addAll p l, find_add]

/-! ### Directories -/

theorem find_dirs (h : Host) (p : Str → Bool) : (dirs h).find? p = (searchPath h).find? p := by
  have hl : ∀ xs : List Str, (add xs h.installDir).find? p = (xs ++ [h.installDir]).find? p := by
    intro xs
    have := find_add p xs [] h.installDir
    rwa [List.append_nil] at this
  rw [dirs, hl, searchPath]
  rw [List.find?_append, List.find?_append]
  congr 1
  cases hb : h.bare with
  | true =>
    simp only [if_true, List.append_nil]
    rw [find_addAll p]; rfl
  | false =>
    cases hh : h.home with
    | none =>
      simp only [Option.map_none, Option.toList_none, ite_self, List.append_nil]
      rw [find_addAll p]; rfl
    | some x =>
      simp only [Bool.false_eq_true, if_false, Option.map_some, Option.toList_some]
      have := find_add p (h.pluginDirs.foldl add []) [] (x ++ str "/.local/lib/vast/plugins")
      rw [List.append_nil] at this
      rw [this, List.find?_append, find_addAll p, List.nil_append, ← List.find?_append]

theorem mem_dirs (h : Host) (d : Str) : d ∈ dirs h ↔ d ∈ searchPath h := by
  rw [dirs, mem_add, searchPath, List.mem_append, List.mem_singleton]
  refine or_congr ?_ Iff.rfl
  cases hb : h.bare with
  | true => simp [mem_addAll]
  | false =>
    cases hh : h.home with
    | none => simp [mem_addAll]
    | some x => simp [mem_add, mem_addAll]

theorem fileOf_eq (name dir : Str) : fileOf name dir = soFile name dir := by
  rw [fileOf, soFile, join]
  have : str "/libvast-plugin-" = str "/" ++ str "libvast-plugin-" := by decide
  rw [this]
  simp only [List.append_assoc]

theorem resolve_iff (h : Host) (name path : Str) : resolve h name = some path ↔ Resolves h name path := by
  rw [resolve, List.find?_map, find_dirs, Option.map_eq_some_iff]
  constructor
  · rintro ⟨d, hf, rfl⟩
    rw [List.find?_eq_some_iff_append] at hf
    obtain ⟨h1, as, bs, h2, h3⟩ := hf
    refine ⟨as, d, bs, h2, fileOf_eq _ _, ?_, fun x hx => ?_⟩
    · exact h1
    · have := h3 x hx
      rw [← fileOf_eq]
      simpa using this
  · rintro ⟨as, d, bs, h1, h2, h3, h4⟩
    refine ⟨d, ?_, by rw [h2, fileOf_eq]⟩
    rw [List.find?_eq_some_iff_append]
    refine ⟨?_, as, bs, h1, fun x hx => ?_⟩
    · show h.isFile (fileOf name d) = true
      rw [fileOf_eq, ← h2]; exact h3
    · show (!h.isFile (fileOf name x)) = true
      rw [fileOf_eq, h4 x hx]; rfl

theorem isAbsolute_iff (x : Str) : isAbsolute x = true ↔ IsPath x := by
  have e : str "/" = [47] := rfl
  rw [isAbsolute, IsPath, e]
  cases x with
  | nil => simp [List.isPrefixOf]
  | cons a x =>
    simp only [List.isPrefixOf, Bool.and_true, beq_iff_eq, List.head?_cons, Option.some.injEq]
    exact eq_comm

/-! ### The steps -/

theorem mem_scan {dir : Str} {x : Str} : ∀ {es : List (Str × Bool)}, x ∈ scan dir es →
    ∃ file, (file, true) ∈ es ∧ str "libvast-plugin-" <+: file ∧ x = dir ++ str "/" ++ file
  | [], h => by cases h
  | (f, true) :: es, h => by
    rw [scan, if_pos rfl] at h
    by_cases hp : (str "libvast-plugin-").isPrefixOf f = true
    · rw [if_pos hp, List.mem_cons] at h
      rcases h with h | h
      · exact ⟨f, by simp, List.isPrefixOf_iff_prefix.1 hp, h⟩
      · obtain ⟨g, h1, h2⟩ := mem_scan h
        exact ⟨g, by simp [h1], h2⟩
    · rw [if_neg hp] at h
      obtain ⟨g, h1, h2⟩ := mem_scan h
      exact ⟨g, by simp [h1], h2⟩
  | (f, false) :: es, h => by
    rw [scan, if_neg (by simp)] at h; cases h

theorem scan_all {dir : Str} : ∀ {es : List (Str × Bool)}, (∀ e ∈ es, e.2 = true) → ∀ file, (file, true) ∈ es →
    str "libvast-plugin-" <+: file → dir ++ str "/" ++ file ∈ scan dir es
  | [], _, _, h, _ => by cases h
  | (f, b) :: es, hr, file, hm, hp => by
    have hb : b = true := hr (f, b) (by simp)
    subst hb
    rw [scan, if_pos rfl]
    rcases List.mem_cons.1 hm with e | hm
    · cases e
      rw [if_pos (List.isPrefixOf_iff_prefix.2 hp)]
      exact List.mem_cons_self
    · have := scan_all (dir := dir) (fun e he => hr e (by simp [he])) file hm hp
      split
      · exact List.mem_cons_of_mem _ this
      · exact this

theorem mem_expandAll {h : Host} {names : List Str} {x : Str} : x ∈ expandAll h names ↔
    (x ∈ names ∧ x ≠ str "all") ∨ (str "all" ∈ names ∧ ∃ d ∈ searchPath h, x ∈ scan d (h.entries d)) := by
  rw [expandAll]
  split
  · next ha =>
    rw [List.mem_append, List.mem_filter, List.mem_flatMap]
    refine or_congr (by simp) ?_
    constructor
    · rintro ⟨d, h1, h2⟩; exact ⟨ha, d, (mem_dirs h d).1 h1, h2⟩
    · rintro ⟨_, d, h1, h2⟩; exact ⟨d, (mem_dirs h d).2 h1, h2⟩
  · next ha =>
    constructor
    · intro hx; exact .inl ⟨hx, fun e => ha (e ▸ hx)⟩
    · rintro (⟨h1, _⟩ | ⟨h1, _⟩)
      · exact h1
      · exact absurd h1 ha

theorem scan_ne_bundled {d : Str} {es : List (Str × Bool)} : str "bundled" ∉ scan d es := by
  intro hm
  obtain ⟨f, _, _, h3⟩ := mem_scan hm
  have h47 : (47 : UInt8) ∈ d ++ str "/" ++ f := by simp [str]
  rw [← h3] at h47
  exact absurd h47 (by decide)

theorem mem_expand {h : Host} {bundled names : List Str} {x : Str} : x ∈ expandBundled bundled (expandAll h names) ↔
    (x ∈ names ∧ x ≠ str "all" ∧ x ≠ str "bundled") ∨ (str "bundled" ∈ names ∧ x ∈ bundled) ∨
    (str "all" ∈ names ∧ ∃ d ∈ searchPath h, x ∈ scan d (h.entries d)) := by
  have hb : str "bundled" ∈ expandAll h names ↔ str "bundled" ∈ names := by
    rw [mem_expandAll]
    constructor
    · rintro (⟨h1, _⟩ | ⟨_, d, _, h1⟩)
      · exact h1
      · exact absurd h1 scan_ne_bundled
    · intro h1; exact .inl ⟨h1, by decide⟩
  rw [expandBundled]
  split
  · next ha =>
    rw [hb] at ha
    rw [List.mem_append, List.mem_filter, mem_expandAll]
    constructor
    · rintro (⟨⟨h1, h2⟩ | h1, h3⟩ | h1)
      · exact .inl ⟨h1, h2, by simpa using h3⟩
      · exact .inr (.inr h1)
      · exact .inr (.inl ⟨ha, h1⟩)
    · rintro (⟨h1, h2, h3⟩ | ⟨_, h1⟩ | h1)
      · exact .inl ⟨.inl ⟨h1, h2⟩, by simpa using h3⟩
      · exact .inr h1
      · refine .inl ⟨.inr h1, ?_⟩
        obtain ⟨_, d, _, h1⟩ := h1
        simp only [ne_eq, decide_not, Bool.not_eq_true', decide_eq_false_iff_not]
        intro e
        rw [e] at h1
        exact scan_ne_bundled h1
  · next ha =>
    rw [hb] at ha
    rw [mem_expandAll]
    constructor
    · rintro (⟨h1, h2⟩ | h1)
      · exact .inl ⟨h1, h2, fun e => ha (e ▸ h1)⟩
      · exact .inr (.inr h1)
    · rintro (⟨h1, h2, h3⟩ | ⟨h1, _⟩ | h1)
      · exact .inl ⟨h1, h2⟩
      · exact absurd h1 ha
      · exact .inr h1

theorem dropStatic_rest : ∀ (ps : List (Str × Kind)) (b : List Str) (x : Str),
    x ∈ (dropStatic ps b).2 ↔ x ∈ b ∧ (x, Kind.static) ∉ ps
  | [], b, x => by simp [dropStatic]
  | (n, .native) :: ps, b, x => by
    rw [dropStatic]
    simp only [dropStatic_rest ps b x, List.mem_cons, Prod.mk.injEq, reduceCtorEq, and_false, false_or]
  | (n, .static) :: ps, b, x => by
    rw [dropStatic]
    split
    · simp only [dropStatic_rest ps _ x, List.mem_filter, List.mem_cons, Prod.mk.injEq, and_true, ne_eq, decide_not,
        Bool.not_eq_true', decide_eq_false_iff_not, not_or, and_assoc]
    · next hn =>
      rw [dropStatic_rest ps b x]
      simp only [List.mem_cons, Prod.mk.injEq, and_true, not_or]
      constructor
      · rintro ⟨h1, h2⟩; exact ⟨h1, fun e => hn (e ▸ h1), h2⟩
      · rintro ⟨h1, _, h2⟩; exact ⟨h1, h2⟩

theorem dropStatic_names : ∀ (ps : List (Str × Kind)) (b : List Str) (x : Str), (ps.map (·.1)).Nodup →
    (x ∈ (dropStatic ps b).1 ↔ (x, Kind.native) ∈ ps ∨ ((x, Kind.static) ∈ ps ∧ x ∈ b))
  | [], b, x, _ => by simp [dropStatic]
  | (n, .native) :: ps, b, x, hn => by
    rw [List.map_cons, List.nodup_cons] at hn
    rw [dropStatic]
    simp only [List.mem_cons, dropStatic_names ps b x hn.2, Prod.mk.injEq, reduceCtorEq, and_false, false_or, and_true, or_assoc]
  | (n, .static) :: ps, b, x, hn => by
    rw [List.map_cons, List.nodup_cons] at hn
    have hne : ∀ k, (x, k) ∈ ps → x ≠ n := by
      intro k hk e
      exact hn.1 (List.mem_map.2 ⟨(x, k), hk, e⟩)
    rw [dropStatic]
    split
    · next hb =>
      simp only [List.mem_cons, dropStatic_names ps _ x hn.2, Prod.mk.injEq, reduceCtorEq, and_false, false_or, and_true,
        List.mem_filter, ne_eq, decide_not, Bool.not_eq_true', decide_eq_false_iff_not]
      constructor
      · rintro (rfl | h1 | ⟨h1, h2, _⟩)
        · exact .inr ⟨.inl rfl, hb⟩
        · exact .inl h1
        · exact .inr ⟨.inr h1, h2⟩
      · rintro (h1 | ⟨rfl | h1, h2⟩)
        · exact .inr (.inl h1)
        · exact .inl rfl
        · exact .inr (.inr ⟨h1, h2, hne _ h1⟩)
    · next hb =>
      rw [dropStatic_names ps b x hn.2]
      simp only [List.mem_cons, Prod.mk.injEq, reduceCtorEq, and_false, false_or, and_true]
      constructor
      · rintro (h1 | ⟨h1, h2⟩)
        · exact .inl h1
        · exact .inr ⟨.inr h1, h2⟩
      · rintro (h1 | ⟨rfl | h1, h2⟩)
        · exact .inl h1
        · exact absurd h2 hb
        · exact .inr ⟨h1, h2⟩

theorem dropStatic_sublist : ∀ (ps : List (Str × Kind)) (b : List Str), (dropStatic ps b).1.Sublist (ps.map (·.1))
  | [], b => .slnil
  | (n, .native) :: ps, b => by rw [dropStatic]; exact .cons_cons _ (dropStatic_sublist ps b)
  | (n, .static) :: ps, b => by
    rw [dropStatic]
    split
    · exact .cons_cons _ (dropStatic_sublist ps _)
    · exact .cons _ (dropStatic_sublist ps _)

theorem resolveAll_mem {h : Host} : ∀ {xs ys : List Str}, resolveAll h xs = .ok ys →
    (∀ x ∈ xs, ∃ y ∈ ys, Meant h x y) ∧ (∀ y ∈ ys, ∃ x ∈ xs, Meant h x y)
  | [], ys, hr => by cases hr; exact ⟨fun x hx => by (cases hx), fun x hx => by (cases hx)⟩
  | x :: xs, ys, hr => by
    rw [resolveAll] at hr
    have key : ∀ y ys', Meant h x y → resolveAll h xs = .ok ys' → ys = y :: ys' →
        (∀ x' ∈ x :: xs, ∃ y ∈ ys, Meant h x' y) ∧ (∀ y ∈ ys, ∃ x' ∈ x :: xs, Meant h x' y) := by
      intro y ys' hm hr' e
      obtain ⟨h1, h2⟩ := resolveAll_mem hr'
      subst e
      constructor
      · intro x' hx
        rcases List.mem_cons.1 hx with rfl | hx
        · exact ⟨y, by simp, hm⟩
        · obtain ⟨z, hz, hm'⟩ := h1 x' hx
          exact ⟨z, by simp [hz], hm'⟩
      · intro z hz
        rcases List.mem_cons.1 hz with rfl | hz
        · exact ⟨x, by simp, hm⟩
        · obtain ⟨x', hx', hm'⟩ := h2 z hz
          exact ⟨x', by simp [hx'], hm'⟩
    by_cases ha : isAbsolute x = true
    · rw [if_pos ha] at hr
      cases hrr : resolveAll h xs with
      | error e => rw [hrr] at hr; cases hr
      | ok ys' => rw [hrr] at hr; cases hr; exact key x ys' (.inl ⟨(isAbsolute_iff x).1 ha, rfl⟩) hrr rfl
    · rw [if_neg ha] at hr
      cases hres : resolve h x with
      | none => rw [hres] at hr; cases hr
      | some y =>
        rw [hres] at hr
        simp only at hr
        cases hrr : resolveAll h xs with
        | error e => rw [hrr] at hr; cases hr
        | ok ys' =>
          rw [hrr] at hr; cases hr
          exact key y ys' (.inr ⟨fun hp => ha ((isAbsolute_iff x).2 hp), (resolve_iff h x y).1 hres⟩) hrr rfl

theorem loadAll_ok {h : Host} : ∀ {paths names loaded names' loaded' : List Str},
    loadAll h paths names loaded = .ok (names', loaded') →
    loaded' = loaded ++ paths ∧ (names.Nodup → names'.Nodup) ∧
    (∀ n, n ∈ names' ↔ n ∈ names ∨ ∃ p ∈ paths, h.open' p = some n) ∧ ∀ p ∈ paths, h.open' p ≠ none
  | [], names, loaded, names', loaded', hl => by
    cases hl
    exact ⟨by simp, id, by simp, fun p hp => by cases hp⟩
  | path :: paths, names, loaded, names', loaded', hl => by
    rw [loadAll] at hl
    cases ho : h.open' path with
    | none => rw [ho] at hl; cases hl
    | some n =>
      rw [ho] at hl
      simp only at hl
      by_cases hn : n ∈ names
      · rw [if_pos hn] at hl; cases hl
      · rw [if_neg hn] at hl
        obtain ⟨h1, h2, h3, h4⟩ := loadAll_ok hl
        refine ⟨by rw [h1, List.append_assoc]; rfl, fun hnd => h2 ?_, fun m => ?_, fun p hp => ?_⟩
        · rw [List.nodup_append]
          exact ⟨hnd, by simp, fun a ha b hb => by rw [List.mem_singleton] at hb; subst hb; intro e; exact hn (e ▸ ha)⟩
        · rw [h3 m]
          rw [List.mem_append, List.mem_singleton, or_assoc]
          refine or_congr Iff.rfl ?_
          constructor
          · rintro (rfl | ⟨p, hp, he⟩)
            · exact ⟨path, by simp, ho⟩
            · exact ⟨p, by simp [hp], he⟩
          · rintro ⟨p, hp, he⟩
            rcases List.mem_cons.1 hp with rfl | hp
            · rw [ho] at he; cases he; exact .inl rfl
            · exact .inr ⟨p, hp, he⟩
        · rcases List.mem_cons.1 hp with rfl | hp
          · rw [ho]; simp
          · exact h4 p hp

/-! ### The order of names -/

theorem le_total : ∀ a b : Str, (le a b || le b a) = true
  | [], b => by simp [le]
  | _ :: _, [] => by simp [le]
  | a :: as, b :: bs => by
    rw [le, le]
    by_cases h1 : a < b
    · simp [h1]
    · by_cases h2 : b < a
      · simp [h2]
      · simp only [h1, h2, if_false]; exact le_total as bs

theorem le_trans : ∀ a b c : Str, le a b = true → le b c = true → le a c = true
  | [], _, _, _, _ => rfl
  | _ :: _, [], _, h, _ => by simp [le] at h
  | _ :: _, _ :: _, [], _, h => by simp [le] at h
  | a :: as, b :: bs, c :: cs, h1, h2 => by
    rw [le] at h1 h2 ⊢
    by_cases hab : a < b
    · by_cases hbc : b < c
      · rw [if_pos (UInt8.lt_trans hab hbc)]
      · rw [if_neg hbc] at h2
        by_cases hcb : c < b
        · rw [if_pos hcb] at h2; cases h2
        · have : b = c := UInt8.le_antisymm (UInt8.not_lt.1 hcb) (UInt8.not_lt.1 hbc)
          rw [← this, if_pos hab]
    · rw [if_neg hab] at h1
      by_cases hba : b < a
      · rw [if_pos hba] at h1; cases h1
      · rw [if_neg hba] at h1
        have : a = b := UInt8.le_antisymm (UInt8.not_lt.1 hba) (UInt8.not_lt.1 hab)
        subst this
        by_cases hac : a < c
        · rw [if_pos hac]
        · rw [if_neg hac] at h2 ⊢
          by_cases hca : c < a
          · rw [if_pos hca] at h2; cases h2
          · rw [if_neg hca] at h2 ⊢
            exact le_trans as bs cs h1 h2

theorem insert_perm (x : Str) : ∀ ys : List Str, (insert x ys).Perm (x :: ys)
  | [] => .refl _
  | y :: ys => by
    rw [insert]
    split
    · exact .refl _
    · exact ((insert_perm x ys).cons y).trans (.swap x y ys)

theorem sort_perm : ∀ xs : List Str, (sort xs).Perm xs
  | [] => .refl _
  | x :: xs => (insert_perm x (sort xs)).trans ((sort_perm xs).cons x)

theorem insert_sorted (x : Str) : ∀ ys : List Str, ys.Pairwise (fun a b => le a b = true) →
    (insert x ys).Pairwise fun a b => le a b = true
  | [], _ => by simp [insert]
  | y :: ys, h => by
    rw [List.pairwise_cons] at h
    rw [insert]
    by_cases hxy : le x y = true
    · rw [if_pos hxy, List.pairwise_cons]
      refine ⟨fun z hz => ?_, List.pairwise_cons.2 h⟩
      rcases List.mem_cons.1 hz with rfl | hz
      · exact hxy
      · exact le_trans _ _ _ hxy (h.1 z hz)
    · rw [if_neg hxy, List.pairwise_cons]
      refine ⟨fun z hz => ?_, insert_sorted x ys h.2⟩
      rcases List.mem_cons.1 ((insert_perm x ys).mem_iff.1 hz) with rfl | hz
      · have := le_total z y
        rw [Bool.or_eq_true] at this
        rcases this with h | h
        · exact absurd h hxy
        · exact h
      · exact h.1 z hz

theorem sort_sorted : ∀ xs : List Str, (sort xs).Pairwise fun a b => le a b = true
  | [] => .nil
  | x :: xs => insert_sorted x _ (sort_sorted xs)

end Verif.Plugins
