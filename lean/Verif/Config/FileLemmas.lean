import Verif.Config.Lemmas

namespace Verif.Config

open Verif.Data (Str str)
open Verif.Record (Name D L R nestedOf toList_ofList ofList_toList get_set_self get_set_ne at_nestedOf)
open Verif.Record.Spec
open Spec

variable {α : Type}

/-! ### Merging the files -/

/-- The record that results from merging in order. -/
def mergeAll (rs : List (R α)) (acc : R α) : R α := rs.foldl (fun acc r => Record.merge true r acc) acc

theorem mergeAll_unique : ∀ (rs : List (R α)) (acc : R α), UniqueKeys acc → UniqueKeys (mergeAll rs acc)
  | [], _, h => h
  | r :: rs, acc, h => by
    rw [mergeAll, List.foldl_cons]
    refine mergeAll_unique rs _ ?_
    rw [Record.merge]
    exact uniqueKeys_mergeLoop _ _ _ _ (by rw [ofList_toList]; exact h)

theorem mergeAll_records : ∀ (rs : List (R α)) (acc : R α), records (mergeAll rs acc) ≤ records acc + sections rs
  | [], _ => Nat.le_add_right _ _
  | r :: rs, acc => by
    rw [mergeAll, List.foldl_cons]
    have h1 := mergeAll_records rs (Record.merge true r acc)
    have h2 := records_mergeLoop true r Record.maxRecursion acc.toList
    rw [ofList_toList] at h2
    rw [mergeAll] at h1
    simp only [sections, List.map_cons, List.sum_cons] at *
    rw [Record.merge] at h1 ⊢
    omega

theorem sections_mem {rs : List (R α)} {r : R α} (h : r ∈ rs) : records r ≤ sections rs := by
  induction rs with
  | nil => cases h
  | cons a rs ih =>
    simp only [sections, List.map_cons, List.sum_cons]
    rcases List.mem_cons.1 h with rfl | h
    · omega
    · have := ih h; simp only [sections] at this; omega

/-- How a file changes the value of an option. -/
def step (old : Option (D α)) : Option (D α) → Option (D α)
  | some d => some (combined true old d)
  | none => old

theorem not_defines_value {p : List Name} {r : R α} (h : ¬ Defines r p) : valueAt p r = none := by
  cases hv : valueAt p r with
  | none => rfl
  | some d => exact absurd (.inl ⟨d, hv⟩) h

theorem merge_step {p : List Name} {r : R α} (acc : R α) (hu : UniqueKeys r) (hr : records r < 100) (hc : Clean p r) :
    valueAt p (Record.merge true r acc) = step (valueAt p acc) (valueAt p r) := by
  rcases hc with ⟨d, h1, h2⟩ | h
  · rw [h1]; exact Record.C51_merge_src_partial true r acc hu hr p d h1 h2
  · rw [not_defines_value h]; exact Record.C51_merge_dst_partial true r acc hu hr p h

theorem mergeAll_value {p : List Name} : ∀ (rs : List (R α)) (acc : R α), (∀ r ∈ rs, UniqueKeys r ∧ Clean p r ∧ records r < 100) →
    valueAt p (mergeAll rs acc) = (rs.map (valueAt p)).foldl step (valueAt p acc)
  | [], _, _ => rfl
  | r :: rs, acc, h => by
    rw [mergeAll, List.foldl_cons, List.map_cons, List.foldl_cons]
    obtain ⟨h1, h2, h3⟩ := h r (by simp)
    rw [← merge_step acc h1 h3 h2]
    exact mergeAll_value rs _ (fun x hx => h x (by simp [hx]))

/-- A value of the merged record that is not a record comes from a file. -/
theorem mergeAll_only {q : List Name} {d : D α} (hd : isRec d = false) : ∀ (rs : List (R α)) (acc : R α),
    (∀ r ∈ rs, UniqueKeys r ∧ records r < 100) → valueAt q (mergeAll rs acc) = some d →
    (∃ r ∈ rs, ∃ e, valueAt q r = some e ∧ isRec e = false) ∨ ∃ e, valueAt q acc = some e ∧ isRec e = false
  | [], _, _, h => .inr ⟨d, h, hd⟩
  | r :: rs, acc, h, hv => by
    rw [mergeAll, List.foldl_cons] at hv
    rcases mergeAll_only hd rs _ (fun x hx => h x (by simp [hx])) hv with ⟨x, hx, e⟩ | ⟨e, he, hr⟩
    · exact .inl ⟨x, by simp [hx], e⟩
    · obtain ⟨h1, h2⟩ := h r (by simp)
      rcases Record.C51_merge_only_partial true r acc h1 h2 q e he hr with ⟨d', h3, h4, _⟩ | ⟨_, h3⟩
      · exact .inl ⟨r, by simp, d', h3, h4⟩
      · exact .inr ⟨e, h3, hr⟩

theorem readAll_eq {w : World α} : ∀ {paths : List Str} {acc m : R α}, readAll w paths acc = .ok m →
    m = mergeAll (paths.filterMap fun x => mapOf (w.files x)) acc
  | [], acc, m, h => by cases h; rfl
  | x :: paths, acc, m, h => by
    rw [readAll] at h
    cases hf : w.files x with
    | none =>
      rw [hf] at h
      rw [List.filterMap_cons_none (by rw [hf]; rfl)]
      exact readAll_eq h
    | some f =>
      rw [hf] at h
      cases f with
      | unreadable => cases h
      | malformed => cases h
      | yaml d =>
        cases d with
        | null => rw [List.filterMap_cons_none (by rw [hf]; rfl)]; exact readAll_eq h
        | scalar a => cases h
        | list xs => cases h
        | record r =>
          rw [List.filterMap_cons_some (b := r) (by rw [hf]; rfl), mergeAll, List.foldl_cons]
          exact readAll_eq h

/-! ### The flat settings -/

theorem mem_emplaceAll {x : Name × D α} : ∀ {xs l : List (Name × D α)}, x ∈ xs.foldl Record.emplace l → x ∈ l ∨ x ∈ xs
  | [], _, h => .inl h
  | y :: xs, l, h => by
    rw [List.foldl_cons] at h
    rcases mem_emplaceAll h with h | h
    · rw [Record.emplace] at h
      split at h
      · exact .inl h
      · rcases List.mem_append.1 h with h | h
        · exact .inl h
        · rw [List.mem_singleton] at h; exact .inr (by simp [h])
    · exact .inr (List.mem_cons_of_mem _ h)

theorem mem_get {k : Name} {d : D α} : ∀ {l : List (Name × D α)}, Record.get k l = some d → (k, d) ∈ l
  | [], h => by cases h
  | (k', d') :: l, h => by
    rw [Record.get] at h
    by_cases e : k' = k
    · rw [if_pos e] at h; cases h; subst e; simp
    · rw [if_neg e] at h; exact List.mem_cons_of_mem _ (mem_get h)

theorem mem_flatten {m : R α} (hr : records m < 100) {x : Name × D α} (h : x ∈ Record.flatten m) :
    ∃ q d, (q, d) ∈ leaves m ∧ x = (dotted q, d) := by
  rw [Record.flatten, Record.flattenLoop_eq m Record.maxRecursion [] hr (by rw [Record.maxRecursion]; omega)] at h
  rcases mem_emplaceAll h with h | h
  · cases h
  · obtain ⟨⟨q, d⟩, h1, h2⟩ := List.mem_map.1 h
    exact ⟨q, d, h1, h2.symm⟩

theorem isPrefixOf_caf (k : Name) (hk : (46 : UInt8) ∉ k) (s : Name) :
    (str "caf.").isPrefixOf (k ++ 46 :: s) = decide (k = str "caf") := by
  have e : str "caf." = [99, 97, 102, 46] := rfl
  have e' : str "caf" = [99, 97, 102] := rfl
  rw [e, e']
  match k, hk with
  | [], _ => rfl
  | [a], _ => by_cases ha : a = 99 <;> simp [ha, List.isPrefixOf]
  | [a, b], _ => by_cases ha : a = 99 <;> by_cases hb : b = 97 <;> simp [ha, hb, List.isPrefixOf]
  | [a, b, c], _ =>
    by_cases ha : a = 99 <;> by_cases hb : b = 97 <;> by_cases hc : c = 102 <;> simp [List.isPrefixOf, ha, hb, hc] <;>
      (intro h; subst h; simp_all)
  | a :: b :: c :: d :: k, hk =>
    have hd : ¬ (46 = d) := fun e => hk (by simp [e])
    simp [List.isPrefixOf, hd]

theorem not_prefix_caf (k : Name) (hk : (46 : UInt8) ∉ k) : (str "caf.").isPrefixOf k = false := by
  rw [Bool.eq_false_iff]
  intro h
  rw [List.isPrefixOf_iff_prefix] at h
  obtain ⟨t, ht⟩ := h
  exact hk (by rw [← ht]; simp [str])

theorem stripCaf_dotted (q : List Name) (hq : q ≠ []) (hd : ∀ k ∈ q, (46 : UInt8) ∉ k) (d : D α) :
    stripCaf (dotted q, d) = (dotted (optionOf q), d) := by
  match q, hq, hd with
  | [k], _, hd =>
    rw [stripCaf, dotted, not_prefix_caf k (hd k (by simp))]; rfl
  | k :: k' :: p, _, hd =>
    rw [stripCaf]
    simp only [dotted, isPrefixOf_caf k (hd k (by simp)), optionOf]
    by_cases h : k = str "caf"
    · subst h; simp; rfl
    · simp only [h, decide_false, if_false]; rfl

theorem mem_dictSet {k : Name} {d : D α} {x : Name × D α} : ∀ {l : List (Name × D α)}, x ∈ dictSet k d l → x = (k, d) ∨ x ∈ l
  | [], h => by rw [dictSet, List.mem_singleton] at h; exact .inl h
  | (k', d') :: l, h => by
    rw [dictSet] at h
    by_cases e : k' = k
    · rw [if_pos e, List.mem_cons] at h
      rcases h with h | h
      · exact .inl (by rw [h, e])
      · exact .inr (List.mem_cons_of_mem _ h)
    · rw [if_neg e] at h
      by_cases e' : less k k' = true
      · rw [if_pos e', List.mem_cons] at h; exact h
      · rw [if_neg e', List.mem_cons] at h
        rcases h with h | h
        · exact .inr (by simp [h])
        · rcases mem_dictSet h with h | h
          · exact .inl h
          · exact .inr (List.mem_cons_of_mem _ h)

theorem keys_dictSet {k j : Name} {d : D α} : ∀ {l : List (Name × D α)}, j = k ∨ j ∈ l.map (·.1) → j ∈ (dictSet k d l).map (·.1)
  | [], h => by
    rcases h with rfl | h
    · simp [dictSet]
    · cases h
  | (k', d') :: l, h => by
    rw [dictSet]
    by_cases e : k' = k
    · rw [if_pos e]; rw [List.map_cons, List.mem_cons] at *; subst e
      rcases h with h | h | h
      · exact .inl h
      · exact .inl h
      · exact .inr h
    · rw [if_neg e]
      by_cases e' : less k k' = true
      · rw [if_pos e', List.map_cons, List.mem_cons]; exact h
      · rw [if_neg e', List.map_cons, List.mem_cons]
        rw [List.map_cons, List.mem_cons] at h
        rcases h with h | h | h
        · exact .inr (keys_dictSet (.inl h))
        · exact .inl h
        · exact .inr (keys_dictSet (.inr h))

theorem mem_toSettings_aux {x : Name × D α} : ∀ {l acc : List (Name × D α)},
    x ∈ l.foldl (fun acc x => dictSet x.1 x.2 acc) acc → x ∈ acc ∨ x ∈ l
  | [], _, h => .inl h
  | y :: l, acc, h => by
    rw [List.foldl_cons] at h
    rcases mem_toSettings_aux h with h | h
    · rcases mem_dictSet h with h | h
      · exact .inr (by simp [h])
      · exact .inl h
    · exact .inr (List.mem_cons_of_mem _ h)

theorem keys_toSettings_aux {j : Name} : ∀ {l acc : List (Name × D α)}, j ∈ acc.map (·.1) ∨ j ∈ l.map (·.1) →
    j ∈ (l.foldl (fun acc x => dictSet x.1 x.2 acc) acc).map (·.1)
  | [], _, h => by
    rcases h with h | h
    · exact h
    · cases h
  | y :: l, acc, h => by
    rw [List.foldl_cons]
    rw [List.map_cons, List.mem_cons] at h
    apply keys_toSettings_aux
    rcases h with h | h | h
    · exact .inl (keys_dictSet (.inr h))
    · exact .inl (keys_dictSet (.inl h))
    · exact .inr h

theorem putAll_other {w : World α} {p : List Name} : ∀ {l c c' : List (Name × D α)}, putAll w l c = .ok c' →
    (∀ x ∈ l, Unrelated p (splitDots x.1)) → at' p c' = at' p c
  | [], _, _, h, _ => by cases h; rfl
  | (k, d) :: l, c, c', h, hu => by
    rw [putAll] at h
    cases ht : w.typed k d with
    | none => rw [ht] at h; cases h
    | some d' =>
      rw [ht] at h
      rw [putAll_other h (fun x hx => hu x (by simp [hx])), put, at_putAt_unrelated _ _ _ _ (hu (k, d) (by simp))]

theorem putAll_same {w : World α} {p : List Name} {v : D α} : ∀ {l c c' : List (Name × D α)}, putAll w l c = .ok c' →
    (∀ x ∈ l, splitDots x.1 = p ∧ w.typed x.1 x.2 = some v ∨ Unrelated p (splitDots x.1)) →
    at' p c = some v ∨ (∃ x ∈ l, splitDots x.1 = p) → at' p c' = some v
  | [], _, _, h, _, hv => by
    cases h
    rcases hv with hv | ⟨x, hx, _⟩
    · exact hv
    · cases hx
  | (k, d) :: l, c, c', h, hu, hv => by
    rw [putAll] at h
    cases ht : w.typed k d with
    | none => rw [ht] at h; cases h
    | some d' =>
      rw [ht] at h
      refine putAll_same h (fun x hx => hu x (by simp [hx])) ?_
      rcases hu (k, d) (by simp) with ⟨h1, h2⟩ | h1
      · left
        rw [ht] at h2
        cases h2
        rw [put, ← h1]
        exact at_putAt_self _ _ _ (splitDots_ne_nil _)
      · rcases hv with hv | ⟨x, hx, he⟩
        · exact .inl (by rw [put, at_putAt_unrelated _ _ _ _ h1]; exact hv)
        · rcases List.mem_cons.1 hx with rfl | hx
          · rw [he] at h1; exact absurd (List.prefix_refl p) h1.1
          · exact .inr ⟨x, hx, he⟩

theorem optionOf_ne_nil : ∀ {q : List Name}, q ≠ [] → optionOf q ≠ []
  | [], h => absurd rfl h
  | [_], _ => by simp [optionOf]
  | k :: k' :: p, _ => by rw [optionOf]; split <;> simp

theorem optionOf_noDots {q : List Name} (h : ∀ k ∈ q, (46 : UInt8) ∉ k) : ∀ k ∈ optionOf q, (46 : UInt8) ∉ k := by
  match q, h with
  | [], h => exact h
  | [_], h => exact h
  | k :: k' :: p, h =>
    rw [optionOf]
    split
    · intro x hx; exact h x (List.mem_cons_of_mem _ hx)
    · exact h

theorem optionOf_self {p : List Name} (h : p.head? ≠ some (str "caf")) : optionOf p = p := by
  match p, h with
  | [], _ => rfl
  | [_], _ => rfl
  | k :: k' :: p, h =>
    rw [optionOf, if_neg]
    intro e
    exact h (by simp [e])

/-- What the files make of an option. -/
theorem applyFiles_value {w : World α} {p : List Name} {rs : List (R α)} {c c' : List (Name × D α)}
    (hs : ∀ r ∈ rs, Separate p r) (hn : sections rs < 100) (hp : OptionName p) (ht : ∀ d, w.typed (dotted p) d = some d)
    (h : applyFiles w (mergeAll rs .nil) c = .ok c') :
    at' p c' = match (rs.map (valueAt p)).foldl step none with
      | none => at' p c
      | some .null => at' p c
      | some v => some v := by
  have hrec : ∀ r ∈ rs, records r < 100 := fun r hr => Nat.lt_of_le_of_lt (sections_mem hr) hn
  have hval : valueAt p (mergeAll rs .nil) = (rs.map (valueAt p)).foldl step none := by
    have hnil : valueAt p (.nil : R α) = none := by
      rw [valueAt, R.toList]
      match p with
      | [] => rfl
      | [_] => rfl
      | _ :: _ :: _ => rfl
    rw [mergeAll_value rs .nil (fun r hr => ⟨(hs r hr).unique, (hs r hr).clean, hrec r hr⟩), hnil]
  have hun : UniqueKeys (mergeAll rs .nil) := mergeAll_unique rs .nil .nil
  have hmr : records (mergeAll rs .nil) < 100 := by
    have := mergeAll_records rs .nil
    simp only [records] at this
    omega
  -- leaves of the merged record
  have hl : ∀ q d, (q, d) ∈ leaves (mergeAll rs .nil) → (∀ k ∈ q, (46 : UInt8) ∉ k) ∧ q ≠ [] ∧ (q = p ∨ Unrelated p (optionOf q)) := by
    intro q d hm
    obtain ⟨h1, h2⟩ := (mem_leaves _ hun q d).1 hm
    rcases mergeAll_only h2 rs .nil (fun r hr => ⟨(hs r hr).unique, hrec r hr⟩) h1 with ⟨r, hr, e, h3, h4⟩ | ⟨e, h3, _⟩
    · have hm' := (mem_leaves r (hs r hr).unique q e).2 ⟨h3, h4⟩
      exact ⟨(hs r hr).noDots _ hm', Record.leaves_ne_nil _ _ hm, (hs r hr).others _ hm'⟩
    · exfalso
      rw [valueAt, R.toList] at h3
      match q with
      | [] => cases h3
      | [_] => cases h3
      | _ :: _ :: _ => cases h3
  -- the entries of the settings
  have hmem : ∀ x ∈ toSettings (((Record.flatten (mergeAll rs .nil)).map stripCaf).filter notNull),
      ∃ q d, (q, d) ∈ leaves (mergeAll rs .nil) ∧ x = (dotted (optionOf q), d) ∧ notNull x = true ∧ splitDots x.1 = optionOf q := by
    intro x hx
    rcases mem_toSettings_aux hx with hx | hx
    · cases hx
    · obtain ⟨hx1, hx2⟩ := List.mem_filter.1 hx
      obtain ⟨y, hy, rfl⟩ := List.mem_map.1 hx1
      obtain ⟨q, d, hq, rfl⟩ := mem_flatten hmr hy
      obtain ⟨h1, h2, _⟩ := hl q d hq
      rw [stripCaf_dotted q h2 h1] at hx2 ⊢
      exact ⟨q, d, hq, rfl, hx2, splitDots_dotted _ (optionOf_ne_nil h2) (optionOf_noDots h1)⟩
  have hpp : p ≠ [] := hp.nonempty
  have hnone : (∀ v, valueAt p (mergeAll rs .nil) = some v → v = .null) → at' p c' = at' p c := by
    intro hno
    refine putAll_other h ?_
    intro x hx
    obtain ⟨q, d, h1, h2, h3, h4⟩ := hmem x hx
    rw [h4]
    rcases (hl q d h1).2.2 with rfl | hu
    · exfalso
      have := hno d ((mem_leaves _ hun _ d).1 h1).1
      rw [h2, this] at h3
      simp [notNull] at h3
    · exact hu
  rw [← hval]
  cases hv : valueAt p (mergeAll rs .nil) with
  | none => exact hnone (fun v h => by rw [hv] at h; cases h)
  | some v =>
    by_cases hvn : v = .null
    · subst hvn
      exact hnone (fun v h => by rw [hv] at h; cases h; rfl)
    · have hgoal : at' p c' = some v := by
        have hrv : isRec v = false := by
          rcases Record.rec_cases v with ⟨s, rfl⟩ | h
          · exfalso
            -- a record at the path comes from no file
            rw [hval] at hv
            have : ∀ (vs : List (Option (D α))) (old : Option (D α)), (∀ x, old = some x → isRec x = false) →
                (∀ x, some x ∈ vs → isRec x = false) → ∀ x, vs.foldl step old = some x → isRec x = false := by
              intro vs
              induction vs with
              | nil => intro old h1 _ x h; exact h1 x h
              | cons a vs ih =>
                intro old h1 h2 x h
                rw [List.foldl_cons] at h
                refine ih _ ?_ (fun x hx => h2 x (by simp [hx])) x h
                intro y hy
                cases a with
                | none => exact h1 y hy
                | some z => cases hy; exact isRec_combined _ _ (h2 z (by simp))
            have := this _ none (by simp) (by
              intro x hx
              obtain ⟨r, hr, hrx⟩ := List.mem_map.1 hx
              rcases (hs r hr).clean with ⟨d, h1, h2⟩ | hnd
              · rw [hrx] at h1; cases h1; exact h2
              · rw [not_defines_value hnd] at hrx; cases hrx) _ hv
            simp [isRec] at this
          · exact h
        refine putAll_same h ?_ (.inr ?_)
        · intro x hx
          obtain ⟨q, d, h1, h2, h3, h4⟩ := hmem x hx
          rw [h4]
          rcases (hl q d h1).2.2 with rfl | hu
          · left
            have h5 := ((mem_leaves _ hun _ d).1 h1).1
            rw [hv] at h5
            cases h5
            rw [optionOf_self hp.noCaf] at h2 ⊢
            rw [h2]
            exact ⟨rfl, ht _⟩
          · exact .inr hu
        · have hm : (p, v) ∈ leaves (mergeAll rs .nil) := (mem_leaves _ hun p v).2 ⟨hv, hrv⟩
          have hg : Record.get (dotted p) (Record.flatten (mergeAll rs .nil)) = some v := by
            rw [Record.C51_flatten_first_partial _ hmr]
            cases hf : (leaves (mergeAll rs .nil)).find? fun x => dotted x.1 = dotted p with
            | none =>
              have := List.find?_eq_none.1 hf _ hm
              simp at this
            | some x =>
              have h1 := List.find?_some hf
              have h2 := List.mem_of_find?_eq_some hf
              obtain ⟨q, e⟩ := x
              have h1 : dotted q = dotted p := by simpa using h1
              have h3 : q = p := by
                have := congrArg splitDots h1
                rwa [splitDots_dotted _ (hl q e h2).2.1 (hl q e h2).1, splitDots_dotted _ hpp hp.noDots] at this
              subst h3
              have := ((mem_leaves _ hun _ e).1 h2).1
              rw [hv] at this
              cases this
              rfl
          have h1 := mem_get hg
          have h2 : (dotted p, v) ∈ ((Record.flatten (mergeAll rs .nil)).map stripCaf).filter notNull := by
            rw [List.mem_filter]
            refine ⟨List.mem_map.2 ⟨_, h1, ?_⟩, ?_⟩
            · rw [stripCaf_dotted p hpp hp.noDots, optionOf_self hp.noCaf]
            · cases v <;> first | rfl | exact absurd rfl hvn
          have h3 : dotted p ∈ (toSettings (((Record.flatten (mergeAll rs .nil)).map stripCaf).filter notNull)).map (·.1) :=
            keys_toSettings_aux (.inr (List.mem_map.2 ⟨_, h2, rfl⟩))
          obtain ⟨x, hx, he⟩ := List.mem_map.1 h3
          exact ⟨x, hx, by rw [he, splitDots_dotted _ hpp hp.noDots]⟩
      rw [hgoal]
      cases v <;> first | rfl | exact absurd rfl hvn

end Verif.Config
