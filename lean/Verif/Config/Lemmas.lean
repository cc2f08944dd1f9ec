import Verif.Config.Spec
import Verif.Record.Lemmas
import Verif.Record.Props

namespace Verif.Config

open Verif.Data (Str str)
open Verif.Record (Name D L R nestedOf toList_ofList ofList_toList get_set_self get_set_ne at_nestedOf)
open Verif.Record.Spec
open Spec

variable {α : Type}

/-! ### Paths -/

theorem at_putAt_self (d : D α) : ∀ (q : List Name) (l : List (Name × D α)), q ≠ [] → at' q (putAt q d l) = some d
  | [], _, h => absurd rfl h
  | [k], l, _ => get_set_self k d l
  | k :: k' :: p, l, _ => by
    rw [putAt, at', get_set_self]
    simp only [toList_ofList]
    exact at_putAt_self d (k' :: p) _ (by simp)

theorem at_putAt_unrelated (d : D α) : ∀ (p q : List Name) (l : List (Name × D α)), Unrelated p q →
    at' p (putAt q d l) = at' p l
  | [], q, _, h => absurd List.nil_prefix h.1
  | _ :: _, [], _, h => absurd List.nil_prefix h.2
  | k :: p, j :: q, l, h => by
    by_cases hk : k = j
    · subst hk
      have hu : Unrelated p q := ⟨fun x => h.1 (List.cons_prefix_cons.2 ⟨rfl, x⟩), fun x => h.2 (List.cons_prefix_cons.2 ⟨rfl, x⟩)⟩
      cases p with
      | nil => exact absurd List.nil_prefix hu.1
      | cons k' p =>
        cases q with
        | nil => exact absurd List.nil_prefix hu.2
        | cons j' q =>
          rw [at_nestedOf, at_nestedOf, putAt, get_set_self, nestedOf, toList_ofList]
          exact at_putAt_unrelated d (k' :: p) (j' :: q) _ hu
    · have hg : Record.get k (putAt (j :: q) d l) = Record.get k l := by
        cases q with
        | nil => exact get_set_ne hk _ _
        | cons j' q => exact get_set_ne hk _ _
      cases p with
      | nil => exact hg
      | cons k' p => rw [at_nestedOf, at_nestedOf, hg]

theorem splitDots_ne_nil : ∀ s : Name, splitDots s ≠ []
  | [] => by simp [splitDots]
  | c :: s => by
    rw [splitDots]
    by_cases h : c = 46
    · simp [h]
    · rw [if_neg h]; split <;> simp

theorem splitDots_noDot : ∀ k : Name, (46 : UInt8) ∉ k → splitDots k = [k]
  | [], _ => rfl
  | c :: k, h => by
    have hc : c ≠ 46 := fun e => h (by simp [e])
    rw [splitDots, if_neg hc, splitDots_noDot k (fun x => h (List.mem_cons_of_mem _ x))]

theorem splitDots_append (s : Name) : ∀ k : Name, (46 : UInt8) ∉ k → splitDots (k ++ 46 :: s) = k :: splitDots s
  | [], _ => by rw [List.nil_append, splitDots, if_pos rfl]
  | c :: k, h => by
    have hc : c ≠ 46 := fun e => h (by simp [e])
    rw [List.cons_append, splitDots, if_neg hc, splitDots_append s k (fun x => h (List.mem_cons_of_mem _ x))]

theorem splitDots_dotted : ∀ p : List Name, p ≠ [] → (∀ k ∈ p, (46 : UInt8) ∉ k) → splitDots (dotted p) = p
  | [], h, _ => absurd rfl h
  | [k], _, h => splitDots_noDot k (h k (by simp))
  | k :: k' :: p, _, h => by
    rw [dotted, splitDots_append _ _ (h k (by simp)), splitDots_dotted (k' :: p) (by simp) (fun x hx => h x (by simp [hx]))]

/-! ### Merging -/

theorem records_set_nested (k : Name) (x : List (Name × D α)) : ∀ dst : List (Name × D α),
    records (.ofList (Record.set k (.record (.ofList x)) dst)) + records (.ofList (nestedOf (Record.get k dst))) ≤
      records (.ofList dst) + records (.ofList x) + 1
  | [] => by
    simp only [Record.set, R.ofList, records, Record.get, nestedOf]; omega
  | (k', d) :: l => by
    rw [Record.set, Record.get]
    by_cases h : k' = k
    · rw [if_pos h, if_pos h, R.ofList, R.ofList, records]
      rcases Record.rec_cases d with ⟨s, rfl⟩ | hd
      · simp only [nestedOf, ofList_toList, records]; omega
      · rw [Record.records_other hd]
        have : nestedOf (some d) = [] := by cases d <;> first | rfl | simp [isRec] at hd
        simp only [this, R.ofList, records]; omega
    · rw [if_neg h, if_neg h, R.ofList, R.ofList]
      have := records_set_nested k x l
      rcases Record.rec_cases d with ⟨s, rfl⟩ | hd
      · simp only [records]; omega
      · rw [Record.records_other hd, Record.records_other hd]; omega

theorem records_set_other {k : Name} {d : D α} (hd : isRec d = false) : ∀ dst : List (Name × D α),
    records (.ofList (Record.set k d dst)) ≤ records (.ofList dst)
  | [] => by
    show records (.cons k d .nil) ≤ _
    rw [Record.records_other hd]; exact Nat.le_refl _
  | (k', d') :: l => by
    rw [Record.set]
    by_cases h : k' = k
    · rw [if_pos h, R.ofList, R.ofList, Record.records_other hd]
      rcases Record.rec_cases d' with ⟨s, rfl⟩ | hd'
      · simp only [records]; omega
      · rw [Record.records_other hd']; exact Nat.le_refl _
    · rw [if_neg h, R.ofList, R.ofList]
      have := records_set_other (k := k) hd l
      rcases Record.rec_cases d' with ⟨s, rfl⟩ | hd'
      · simp only [records]; omega
      · rw [Record.records_other hd', Record.records_other hd']; omega

theorem isRec_combined (lists : Bool) (old : Option (D α)) {d : D α} (hd : isRec d = false) :
    isRec (combined lists old d) = false := by
  cases d with
  | record s => simp [isRec] at hd
  | null => rfl
  | scalar a => rfl
  | list xs =>
    cases lists with
    | false => rfl
    | true =>
      cases old with
      | none => rfl
      | some o => cases o <;> rfl

theorem records_mergeLoop (lists : Bool) : ∀ (src : R α) (n : Nat) (dst : List (Name × D α)),
    records (.ofList (Record.mergeLoop lists n dst src)) ≤ records (.ofList dst) + records src := by
  intro src
  induction src using Record.R.induct with
  | hn => intro n dst; simp [Record.mergeLoop, records]
  | hr k s rest ihs ihr =>
    intro n dst
    rw [Record.mergeLoop]
    refine Nat.le_trans (ihr _ _) ?_
    rw [Record.records_nested]
    generalize hx : (if Record.dec n = 0 then nestedOf (Record.get k dst) else Record.mergeLoop lists (Record.dec n) (nestedOf (Record.get k dst)) s) = x
    have h1 := records_set_nested k x dst
    have h2 : records (.ofList x) ≤ records (.ofList (nestedOf (Record.get k dst))) + records s := by
      rw [← hx]
      split
      · omega
      · exact ihs _ _
    omega
  | ho k d rest hd ihr =>
    intro n dst
    rw [Record.mergeLoop_other hd, Record.records_other hd]
    have := records_set_other (k := k) (isRec_combined lists (Record.get k dst) hd) dst
    have := ihr n (Record.set k (combined lists (Record.get k dst) d) dst)
    omega

theorem keys_set {k j : Name} {d : D α} : ∀ {l : List (Name × D α)}, j ∈ (Record.set k d l).map (·.1) → j = k ∨ j ∈ l.map (·.1)
  | [], h => by simp [Record.set] at h; exact .inl h
  | (k', d') :: l, h => by
    rw [Record.set] at h
    by_cases e : k' = k
    · rw [if_pos e] at h; simp at h ⊢; rcases h with h | h
      · exact .inl (h.trans e)
      · exact .inr (.inr h)
    · rw [if_neg e, List.map_cons, List.mem_cons] at h
      rcases h with h | h
      · exact .inr (by simp [h])
      · rcases keys_set h with h | h
        · exact .inl h
        · exact .inr (List.mem_cons_of_mem _ h)

theorem uniqueKeys_set {k : Name} {d : D α} (hd : ∀ s, d = .record s → UniqueKeys s) : ∀ {l : List (Name × D α)},
    UniqueKeys (.ofList l) → UniqueKeys (.ofList (Record.set k d l))
  | [], _ => .cons .nil (by simp [R.toList, R.ofList]) hd
  | (k', d') :: l, h => by
    rw [R.ofList] at h
    cases h with
    | cons hr hk hs =>
      rw [Record.set]
      by_cases e : k' = k
      · rw [if_pos e]; exact .cons hr hk hd
      · rw [if_neg e]
        refine .cons (uniqueKeys_set hd hr) ?_ hs
        rw [toList_ofList] at hk ⊢
        intro hm
        rcases keys_set hm with h | h
        · exact e h
        · exact hk h

theorem uniqueKeys_get {k : Name} {s : R α} : ∀ {l : List (Name × D α)}, UniqueKeys (.ofList l) → Record.get k l = some (.record s) →
    UniqueKeys s
  | [], _, h => by cases h
  | (k', d') :: l, hu, h => by
    rw [R.ofList] at hu
    cases hu with
    | cons hr hk hs =>
      rw [Record.get] at h
      by_cases e : k' = k
      · rw [if_pos e] at h; cases h; exact hs _ rfl
      · rw [if_neg e] at h; exact uniqueKeys_get hr h

theorem uniqueKeys_nestedOf {k : Name} {l : List (Name × D α)} (hu : UniqueKeys (.ofList l)) :
    UniqueKeys (.ofList (nestedOf (Record.get k l))) := by
  cases h : Record.get k l with
  | none => exact .nil
  | some d =>
    rcases Record.rec_cases d with ⟨s, rfl⟩ | hd
    · rw [nestedOf, ofList_toList]; exact uniqueKeys_get hu h
    · have : nestedOf (some d) = [] := by cases d <;> first | rfl | simp [isRec] at hd
      rw [this]; exact .nil

theorem uniqueKeys_mergeLoop (lists : Bool) : ∀ (src : R α) (n : Nat) (dst : List (Name × D α)), UniqueKeys (.ofList dst) →
    UniqueKeys (.ofList (Record.mergeLoop lists n dst src)) := by
  intro src
  induction src using Record.R.induct with
  | hn => intro n dst h; exact h
  | hr k s rest ihs ihr =>
    intro n dst h
    rw [Record.mergeLoop]
    refine ihr _ _ (uniqueKeys_set ?_ h)
    intro s' hs
    cases hs
    split
    · exact uniqueKeys_nestedOf h
    · exact ihs _ _ (uniqueKeys_nestedOf h)
  | ho k d rest hd ihr =>
    intro n dst h
    rw [Record.mergeLoop_other hd]
    refine ihr _ _ (uniqueKeys_set ?_ h)
    intro s' hs
    have := isRec_combined lists (Record.get k dst) hd
    rw [hs] at this
    simp [isRec] at this

/-! ### The leaves of a record -/

theorem mem_leaves : ∀ (r : R α), UniqueKeys r → ∀ (q : List Name) (d : D α),
    (q, d) ∈ leaves r ↔ valueAt q r = some d ∧ isRec d = false := by
  intro r
  induction r using Record.R.induct with
  | hn =>
    intro _ q d
    simp only [leaves, List.not_mem_nil, valueAt, R.toList, false_iff, not_and]
    intro h
    cases q with
    | nil => cases h
    | cons k q => cases q <;> cases h
  | hr k s rest ihs ihr =>
    intro hu q d
    cases hu with
    | cons hr hk hs =>
      rw [leaves, List.mem_append, ihr hr, List.mem_map]
      have hrest : ∀ k' q', k' = k → ∀ e, valueAt (k' :: q') rest = some e → False := by
        intro k' q' e x h
        subst e
        have hg : Record.get k' rest.toList = none := Record.get_none.2 hk
        cases q' with
        | nil => rw [valueAt, at', hg] at h; cases h
        | cons b q' => rw [valueAt, at', hg] at h; cases h
      constructor
      · rintro (⟨⟨q', d'⟩, hm, he⟩ | ⟨h1, h2⟩)
        · cases he
          obtain ⟨h1, h2⟩ := (ihs (hs s rfl) q' d').1 hm
          refine ⟨?_, h2⟩
          cases q' with
          | nil => cases h1
          | cons b q' => rw [valueAt, R.toList, at', Record.get, if_pos rfl]; exact h1
        · refine ⟨?_, h2⟩
          cases q with
          | nil => cases h1
          | cons b q =>
            by_cases hb : b = k
            · exact absurd h1 (fun h => hrest b q hb _ h)
            · cases q with
              | nil => rw [valueAt, R.toList, at', Record.get, if_neg (Ne.symm hb)]; exact h1
              | cons c q => rw [valueAt, R.toList, at', Record.get, if_neg (Ne.symm hb)]; exact h1
      · rintro ⟨h1, h2⟩
        cases q with
        | nil => cases h1
        | cons b q =>
          by_cases hb : b = k
          · subst hb
            cases q with
            | nil =>
              rw [valueAt, R.toList, at', Record.get, if_pos rfl] at h1
              cases h1
              simp [isRec] at h2
            | cons c q =>
              rw [valueAt, R.toList, at', Record.get, if_pos rfl] at h1
              exact .inl ⟨(c :: q, d), (ihs (hs s rfl) _ _).2 ⟨h1, h2⟩, rfl⟩
          · refine .inr ⟨?_, h2⟩
            cases q with
            | nil => rw [valueAt, R.toList, at', Record.get, if_neg (Ne.symm hb)] at h1; exact h1
            | cons c q => rw [valueAt, R.toList, at', Record.get, if_neg (Ne.symm hb)] at h1; exact h1
  | ho k d0 rest hd0 ihr =>
    intro hu q d
    cases hu with
    | cons hr hk hs =>
      rw [Record.leaves_other hd0, List.mem_cons, ihr hr]
      have hg : Record.get k rest.toList = none := Record.get_none.2 hk
      constructor
      · rintro (h | ⟨h1, h2⟩)
        · cases h
          refine ⟨?_, hd0⟩
          rw [valueAt, R.toList, at', Record.get, if_pos rfl]
        · refine ⟨?_, h2⟩
          cases q with
          | nil => cases h1
          | cons b q =>
            by_cases hb : b = k
            · subst hb
              exfalso
              cases q with
              | nil => rw [valueAt, at', hg] at h1; cases h1
              | cons c q => rw [valueAt, at', hg] at h1; cases h1
            · cases q with
              | nil => rw [valueAt, R.toList, at', Record.get, if_neg (Ne.symm hb)]; exact h1
              | cons c q => rw [valueAt, R.toList, at', Record.get, if_neg (Ne.symm hb)]; exact h1
      · rintro ⟨h1, h2⟩
        cases q with
        | nil => cases h1
        | cons b q =>
          by_cases hb : b = k
          · subst hb
            cases q with
            | nil =>
              rw [valueAt, R.toList, at', Record.get, if_pos rfl] at h1
              cases h1
              exact .inl rfl
            | cons c q =>
              rw [valueAt, R.toList, at', Record.get, if_pos rfl] at h1
              cases d0 <;> first | cases h1 | simp [isRec] at hd0
          · refine .inr ⟨?_, h2⟩
            cases q with
            | nil => rw [valueAt, R.toList, at', Record.get, if_neg (Ne.symm hb)] at h1; exact h1
            | cons c q => rw [valueAt, R.toList, at', Record.get, if_neg (Ne.symm hb)] at h1; exact h1

end Verif.Config
