import Verif.Registry.TypesModel
import Verif.Registry.LoadLemmas
/-! Helper lemmas about the type registry. -/
namespace Verif.Registry
open Verif.Taxonomy (Name Seen find)

variable {T : Type} [DecidableEq T]

theorem insertLayout_eq (bucket : List (List (Name × T))) (l : List (Name × T)) : insertLayout bucket l = l :: bucket.erase l := by
  rw [insertLayout, insertSet]
  by_cases h : l ∈ bucket
  · have hlt := List.idxOf_lt_length_of_mem h
    rw [if_neg (by omega)]
    simp only [rotate]
    rw [List.erase_eq_eraseIdx_of_idxOf rfl, List.eraseIdx_eq_take_drop_succ, List.drop_eq_getElem_cons hlt]
    simp
  · rw [if_pos (List.idxOf_eq_length h), List.erase_of_not_mem h]
    simp [rotate]

theorem find_insert (data : Seen T) (n k : Name) (l : List (Name × T)) :
    find (insert data n l) k = if k = n then some (l :: ((find data n).getD []).erase l) else find data k := by
  have : insert data n l = update data n [] fun b => insertLayout b l := by
    induction data with
    | nil => rfl
    | cons e m ih => rw [insert, update, ih]
  rw [this, find_update, insertLayout_eq]

theorem eraseDups_filter {α : Type} [BEq α] [LawfulBEq α] (p : α → Bool) : ∀ (n : Nat) (xs : List α), xs.length ≤ n →
    (xs.filter p).eraseDups = xs.eraseDups.filter p
  | _, [], _ => by simp
  | 0, _ :: _, h => by simp at h
  | n + 1, x :: xs, h => by
    have hl : (xs.filter fun b => !b == x).length ≤ n := by
      have := List.length_filter_le (fun b => !b == x) xs
      simp at h; omega
    rw [List.eraseDups_cons, List.filter_cons, List.filter_cons]
    by_cases hp : p x = true
    · rw [if_pos hp, if_pos hp, List.eraseDups_cons, ← eraseDups_filter p n _ hl]
      congr 2
      rw [List.filter_filter, List.filter_filter]
      congr 1
      funext a
      exact Bool.and_comm _ _
    · rw [if_neg hp, if_neg hp, ← eraseDups_filter p n _ hl, List.filter_filter]
      congr 1
      apply List.filter_congr
      intro a _
      by_cases ha : a = x
      · subst ha; simp at hp; simp [hp]
      · simp [ha]

theorem nodup_eraseDups {α : Type} [BEq α] [LawfulBEq α] : ∀ (n : Nat) (xs : List α), xs.length ≤ n → xs.eraseDups.Nodup
  | _, [], _ => by simp
  | 0, _ :: _, h => by simp at h
  | n + 1, x :: xs, h => by
    have hl : (xs.filter fun b => !b == x).length ≤ n := by
      have := List.length_filter_le (fun b => !b == x) xs
      simp at h; omega
    rw [List.eraseDups_cons, List.nodup_cons]
    refine ⟨?_, nodup_eraseDups n _ hl⟩
    rw [List.mem_eraseDups]
    simp

theorem eraseDups_erase {α : Type} [BEq α] [LawfulBEq α] (x : α) (xs : List α) :
    (x :: xs).eraseDups = x :: xs.eraseDups.erase x := by
  rw [List.eraseDups_cons, eraseDups_filter _ _ xs (Nat.le_refl _), (nodup_eraseDups _ xs (Nat.le_refl _)).erase_eq_filter]
  congr 1

/-- What is kept of a list of layouts: every layout once, the last one first. -/
def recent (xs : List (List (Name × T))) : List (List (Name × T)) := xs.reverse.eraseDups

theorem recent_append (xs : List (List (Name × T))) (l : List (Name × T)) : recent (xs ++ [l]) = l :: (recent xs).erase l := by
  rw [recent, List.reverse_append, List.reverse_singleton, List.singleton_append, eraseDups_erase, recent]

/-- The data of a registry is what came. -/
def Holds (d : Seen T) (h : Name → List (List (Name × T))) : Prop :=
  ∀ n, find d n = if h n = [] then none else some (recent (h n))

theorem Holds.insert {d : Seen T} {h : Name → List (List (Name × T))} (hd : Holds d h) (m : Name) (l : List (Name × T)) :
    Holds (insert d m l) fun n => if n = m then h n ++ [l] else h n := by
  intro n
  rw [find_insert]
  by_cases hn : n = m
  · subst hn
    simp only [if_true]
    rw [if_neg (by simp), hd n, recent_append]
    by_cases he : h n = []
    · rw [if_pos he, he]; simp [recent]
    · rw [if_neg he]; rfl
  · simp only [if_neg hn]; exact hd n

/-- The registry, or its file if the registry is not there, has what came. -/
structure Inv (s : State T) (running : Bool) (h : Name → List (List (Name × T))) : Prop where
  up : running = true → ∃ d, s.data = some d ∧ Holds d h
  down : running = false → s.data = none ∧ ∃ d, s.file = some d ∧ Holds d h

theorem run_inv : ∀ (es : List (Event T)) (s : State T) (running : Bool) (h : Name → List (List (Name × T))), Spec.Fine es →
    Inv s running h → Inv (es.foldl step s) (Spec.Running running es) fun n => h n ++ Spec.came n running es
  | [], s, running, h, _, hi => by simpa [Spec.Running, Spec.came] using hi
  | e :: es, s, running, h, hf, hi => by
    have hf' : Spec.Fine es := fun e he => hf e (List.mem_cons_of_mem _ he)
    have he := hf e (by simp)
    rw [List.foldl_cons]
    cases e with
    | slice m l =>
      cases running with
      | true =>
        obtain ⟨d, h1, h2⟩ := hi.up rfl
        have := run_inv es (step s (.slice m l)) true (fun n => if n = m then h n ++ [l] else h n) hf'
          ⟨fun _ => ⟨insert d m l, by simp [step, h1], h2.insert m l⟩, fun h => (by cases h)⟩
        rw [Spec.Running]
        have e : (fun n => (if n = m then h n ++ [l] else h n) ++ Spec.came n true es)
            = fun n => h n ++ Spec.came n true (.slice m l :: es) := by
          funext n
          rw [Spec.came]
          by_cases hn : n = m
          · rw [if_pos hn, if_pos ⟨rfl, hn.symm⟩]; simp
          · rw [if_neg hn, if_neg (fun h => hn h.2.symm)]
        rw [← e]; exact this
      | false =>
        obtain ⟨h1, h2⟩ := hi.down rfl
        have := run_inv es (step s (.slice m l)) false h hf' ⟨(fun h => by cases h), fun _ => ⟨by simp [step, h1], h2⟩⟩
        rw [Spec.Running]
        simpa [Spec.came] using this
    | stop saved =>
      have hs : saved = true := by cases saved with
        | true => rfl
        | false => exact absurd rfl he.2.1
      subst hs
      rw [Spec.Running]
      simp only [Spec.came]
      apply run_inv es _ false h hf'
      refine ⟨(fun h => by cases h), fun _ => ?_⟩
      cases running with
      | true =>
        obtain ⟨d, h1, h2⟩ := hi.up rfl
        simp only [step, h1]
        exact ⟨trivial, d, rfl, h2⟩
      | false =>
        obtain ⟨h1, h2⟩ := hi.down rfl
        simp only [step, h1]
        exact ⟨trivial, h2⟩
    | crash => exact absurd rfl he.1
    | start loaded =>
      have hs : loaded = true := by cases loaded with
        | true => rfl
        | false => exact absurd rfl he.2.2
      subst hs
      rw [Spec.Running]
      simp only [Spec.came, Bool.or_true]
      apply run_inv es _ true h hf'
      refine ⟨fun _ => ?_, fun h => (by cases h)⟩
      cases running with
      | true =>
        obtain ⟨d, h1, h2⟩ := hi.up rfl
        exact ⟨d, by simp only [step, h1], h2⟩
      | false =>
        obtain ⟨h1, d, h2, h3⟩ := hi.down rfl
        exact ⟨d, by simp only [step, h1, h2]; rfl, h3⟩

end Verif.Registry
