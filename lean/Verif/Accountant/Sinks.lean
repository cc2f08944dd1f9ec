import Verif.Accountant.Lemmas
/-!
# Slices and sinks of the accountant
-/
namespace Verif.Accountant
open Verif.Data Verif.Accountant.Spec

variable {R : Type}

/-- Whether a message has metrics. -/
abbrev HasMetrics (e : Ev R) : Prop :=
  (∃ a ts k v, e = .metric a ts k v) ∨ (∃ a ts ps, e = .report a ts ps) ∨ (∃ a ts ps, e = .performance a ts ps)

/-- The configurations in some messages. -/
def later (es : List (Ev R)) : List Cfg := es.filterMap fun | .config c' => some c' | _ => none

theorem few_step (D : Dbl R) (W : World) (n : Nat) (h1 : 1 ≤ n) (h2 : n < 2 ^ 64) (s : State R) (hs : s.cfg.sliceSize = n) (e : Ev R)
    (he : ∀ c', e = .config c' → c'.sliceSize = n) (h : s.Few n) :
    (step D W s e).Few n ∧ (step D W s e).cfg.sliceSize = n := by
  by_cases ha : s.alive = true
  · by_cases hm : HasMetrics e
    · have A := metrics_adds D W s ha e hm
      exact ⟨A.few n hs h1 h2 h, by rw [A.cfg]; exact hs⟩
    · cases e
      case metric => exact absurd (by simp [HasMetrics]) hm
      case report => exact absurd (by simp [HasMetrics]) hm
      case performance => exact absurd (by simp [HasMetrics]) hm
      all_goals simp only [step, ha, Bool.not_true, Bool.false_eq_true, if_false]
      case announce => exact ⟨h, hs⟩
      case down => exact ⟨h, hs⟩
      case pull k =>
        refine ⟨⟨h.1, ?_⟩, hs⟩
        simp only [pullLoop_eq]
        intro sl hsl
        rw [List.append_assoc, List.take_append_drop] at hsl
        exact h.2 sl hsl
      case config c' => exact ⟨h, he c' rfl⟩
      case exit =>
        unfold State.finish
        split
        · exact ⟨h, hs⟩
        · rename_i h0
          refine ⟨⟨by simp only [List.length_nil]; omega, ?_⟩, hs⟩
          intro sl hsl
          simp only [List.mem_append, List.mem_singleton] at hsl
          have := h.1
          rcases hsl with hsl | hsl | hsl
          · exact h.2 sl (by simp [hsl])
          · exact h.2 sl (by simp [hsl])
          · subst hsl; omega
  · have : step D W s e = s := by simp [step, ha]
    rw [this]; exact ⟨h, hs⟩

theorem run_few (D : Dbl R) (W : World) (n : Nat) (h1 : 1 ≤ n) (h2 : n < 2 ^ 64) (es : List (Ev R)) :
    ∀ s : State R, s.cfg.sliceSize = n → (∀ c' ∈ later es, c'.sliceSize = n) → s.Few n → (es.foldl (step D W) s).Few n := by
  induction es with
  | nil => intro s _ _ h; exact h
  | cons e es ih =>
    intro s hs hc h
    rw [List.foldl_cons]
    have := few_step D W n h1 h2 s hs e (fun c' hc' => by subst hc'; exact hc c' (by simp [later])) h
    refine ih _ this.2 (fun c' h' => hc c' ?_) this.1
    simp only [later, List.filterMap_cons]
    split
    · exact h'
    · exact List.mem_cons_of_mem _ h'

/-- What is written, for a sink whose state follows from the configuration. -/
theorem run_sink {α : Type} (D : Dbl R) (W : World) (c : Cfg)
    (proj : List (Chan × Row R × Bool) → List α) (adds : State R → List (Nat × Int × Str × R) → List α)
    (hproj : ∀ s s' ms, Adds D s s' ms → proj s'.out = proj s.out ++ adds s ms)
    (I : Cfg → Option (Str × Bool) → Option Str → Option Str → Prop) (P : Cfg → Cfg → Prop)
    (sel : Cfg × Row R → Option α)
    (hI : ∀ old new f u d, P old new → I old f u d → I new (applyFile W old new f) (applyUds W old new u) (applyDgram old new d))
    (hsel : ∀ s ms, I s.cfg s.file s.uds s.dgram → adds s ms = ms.filterMap fun m => sel (s.cfg, s.rowOf m))
    (es : List (Ev R)) :
    ∀ (past : List (Ev R)) (s : State R), Good c past s → I s.cfg s.file s.uds s.dgram → Successive P (s.cfg :: later es) →
      proj (es.foldl (step D W) s).out = proj s.out ++ (reported D c past es).filterMap sel := by
  induction es with
  | nil => intro past s _ _ _; simp [reported]
  | cons e es ih =>
    intro past s h hi hP
    rw [List.foldl_cons]
    by_cases hex : e = .exit
    · subst hex
      have ha : (step D W s .exit).alive = false := by simp [step, h.alive]
      rw [dead D W es _ ha, (other_contents D W s .exit (by simp)).2]
      simp [reported]
    · rw [reported_cons D c past e hex, List.filterMap_append, ← List.append_assoc]
      by_cases hm : HasMetrics e
      · have A := metrics_adds D W s h.alive e hm
        have hl : later (e :: es) = later es := by
          rcases hm with ⟨_, _, _, _, rfl⟩ | ⟨_, _, _, rfl⟩ | ⟨_, _, _, rfl⟩ <;> rfl
        rw [ih _ _ (h.step e hex) (by rw [A.cfg, A.file, A.uds, A.dgram]; exact hi) (by rw [A.cfg, ← hl]; exact hP)]
        congr 1
        rw [hproj _ _ _ A, hsel _ _ hi]
        congr 1
        rw [List.filterMap_map]
        have : item c past = fun m => (s.cfg, s.rowOf m) := funext fun m => h.item m
        rw [this]; rfl
      · rw [nil_of_other D e hm]
        simp only [List.map_nil, List.filterMap_nil, List.append_nil]
        rw [← (other_contents D W s e hm).2]
        cases e
        case metric => exact absurd (by simp [HasMetrics]) hm
        case report => exact absurd (by simp [HasMetrics]) hm
        case performance => exact absurd (by simp [HasMetrics]) hm
        case exit => exact absurd rfl hex
        case config c' =>
          have e1 : step D W s (.config c') = s.apply W c' := by simp [step, h.alive]
          have hP' : P s.cfg c' ∧ Successive P (c' :: later es) := hP
          exact ih _ _ (h.step _ hex) (by rw [e1]; exact hI _ _ _ _ _ hP'.1 hi) (by rw [e1]; exact hP'.2)
        case announce a n =>
          have e1 : step D W s (.announce a n) = { s with names := fun i => if i = a then some n else s.names i } := by
            simp [step, h.alive]
          exact ih _ _ (h.step _ hex) (by rw [e1]; exact hi) (by rw [e1]; exact hP)
        case down a =>
          have e1 : step D W s (.down a) = { s with names := fun i => if i = a then none else s.names i } := by
            simp [step, h.alive]
          exact ih _ _ (h.step _ hex) (by rw [e1]; exact hi) (by rw [e1]; exact hP)
        case pull n =>
          have e1 : step D W s (.pull n) = { s with buffer := (pullLoop n s.buffer s.sent).1, sent := (pullLoop n s.buffer s.sent).2 } := by
            simp [step, h.alive]
          exact ih _ _ (h.step _ hex) (by rw [e1]; exact hi) (by rw [e1]; exact hP)

theorem configs_eq (c : Cfg) (es : List (Ev R)) : configs c es = c :: later es := rfl

theorem Successive.mono {P Q : Cfg → Cfg → Prop} (h : ∀ a b, P a b → Q a b) : ∀ l, Successive P l → Successive Q l
  | [], _ => trivial
  | [_], _ => trivial
  | a :: b :: rest, hl => ⟨h a b hl.1, Successive.mono h (b :: rest) hl.2⟩

/-- A property of all configurations holds of successive ones. -/
theorem Successive.of_all {P : Cfg → Cfg → Prop} {p : Cfg → Prop} : ∀ l, Successive P l → (∀ c ∈ l, p c) →
    Successive (fun a b => P a b ∧ p a ∧ p b) l
  | [], _, _ => trivial
  | [_], _, _ => trivial
  | a :: b :: rest, hl, h =>
    ⟨⟨hl.1, h a (by simp), h b (by simp)⟩, Successive.of_all (b :: rest) hl.2 fun c hc => h c (List.mem_cons_of_mem _ hc)⟩

theorem map_filter_eq {α β : Type} (p : α → Bool) (f : α → β) (l : List α) :
    (l.filter p).map f = l.filterMap fun x => if p x then some (f x) else none := by
  induction l with
  | nil => rfl
  | cons a l ih =>
    rw [List.filterMap_cons, List.filter_cons]
    cases h : p a
    · simp [ih]
    · simp [ih]

theorem filterMap_cond {α β : Type} (b : Bool) (f : α → β) (l : List α) :
    (l.filterMap fun x => if b then some (f x) else none) = if b then l.map f else [] := by
  cases b
  · simp
  · simp [List.filterMap_eq_map']

end Verif.Accountant
