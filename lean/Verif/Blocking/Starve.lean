import Verif.Blocking.Own
/-! # A client that waits for others -/
namespace Verif.Blocking

/-- All slices but the last are done, and the index waits for the acknowledgement of the last. -/
def Starving (s : State) (k : Nat) : Prop :=
  s.sub = .waiting ∧ ∃ xs x, s.slices = xs ++ [x] ∧ xs.length = k ∧ (∀ y ∈ xs, y.pos = .indexed ∧ y.ackIndex = true ∧ y.ackPart = true) ∧
    x.pos = .partition ∧ x.ackIndex = false ∧ (s.slices.head?.map Slice.own = some true)

/-- A new slice is under way to the partition before the last one is acknowledged. -/
def cycle (k : Nat) : List Event :=
  [.push false 1, .move (k + 1), .move (k + 1), .move (k + 1), .move (k + 1), .move k, .move k, .ackIndex k, .ackPart k]

theorem step_hop (cap : Nat) (s : State) (i : Nat) (x : Slice) (n : Nat) (hx : s.slices[i]? = some x) (hp : x.pos = .hop n) (hn : n < 3) :
    ∃ b, step cap s (.move i) = { s with slices := s.slices.set i { x with pos := .hop (n + 1), sent := b } } := by
  refine ⟨x.sent || decide (n = 2), ?_⟩
  simp only [step, hx, State.move, hp, if_pos hn]

theorem step_index (cap : Nat) (s : State) (i : Nat) (x : Slice) (hx : s.slices[i]? = some x) (hp : x.pos = .hop 3) :
    ∃ q a r n, step cap s (.move i) =
      { s with slices := s.slices.set i { x with pos := .partition, part := q }, active := a, room := r, parts := n } := by
  simp only [step, hx, State.move, hp, State.toPartition]
  rw [if_neg (by omega)]
  split
  · split
    · exact ⟨_, _, _, _, rfl⟩
    · exact ⟨_, s.active, _, s.parts, rfl⟩
  · exact ⟨_, _, _, _, rfl⟩

theorem starving_cycle (cap : Nat) (s : State) (k : Nat) (h : Starving s k) : Starving (runFrom cap s (cycle k)) (k + 1) := by
  obtain ⟨hw, xs, x, hs, hk, hxs, hp, ha, ho⟩ := h
  have hne : xs ++ [x] ≠ [] := by simp
  -- the new slice
  have g0 : ∀ (y z : Slice), (xs ++ [y, z])[k]? = some y := by intro y z; simp [← hk]
  have g1 : ∀ (y z : Slice), (xs ++ [y, z])[k + 1]? = some z := by
    intro y z
    rw [List.getElem?_append_right (by omega), show k + 1 - xs.length = 1 by omega]
    rfl
  have s0 : ∀ (y z w : Slice), (xs ++ [y, z]).set k w = xs ++ [w, z] := by
    intro y z w
    rw [List.set_append_right _ _ (by omega), show k - xs.length = 0 by omega]
    rfl
  have s1 : ∀ (y z w : Slice), (xs ++ [y, z]).set (k + 1) w = xs ++ [y, w] := by
    intro y z w
    rw [List.set_append_right _ _ (by omega), show k + 1 - xs.length = 1 by omega]
    rfl
  have e1 : step cap s (.push false 1) = { s with slices := xs ++ [x, { own := false, rows := 1 }] } := by
    simp only [step, hs]
    simp
  simp only [cycle, runFrom, List.foldl_cons, List.foldl_nil, e1]
  obtain ⟨b2, e2⟩ := step_hop cap { s with slices := xs ++ [x, { own := false, rows := 1 }] } (k + 1) _ 0 (g1 _ _) rfl (by omega)
  rw [e2]; simp only [s1]
  obtain ⟨b3, e3⟩ := step_hop cap { s with slices := xs ++ [x, { own := false, rows := 1, pos := .hop (0 + 1), sent := b2 }] } (k + 1) _ 1
    (g1 _ _) rfl (by omega)
  rw [e3]; simp only [s1]
  obtain ⟨b4, e4⟩ := step_hop cap { s with slices := xs ++ [x, { own := false, rows := 1, pos := .hop (1 + 1), sent := b3 }] } (k + 1) _ 2
    (g1 _ _) rfl (by omega)
  rw [e4]; simp only [s1]
  obtain ⟨q, a, r, n, e5⟩ := step_index cap { s with slices := xs ++ [x, { own := false, rows := 1, pos := .hop (2 + 1), sent := b4 }] } (k + 1) _
    (g1 _ _) rfl
  rw [e5]; simp only [s1]
  -- the old one
  have e6 : ∀ (t : State) (y z : Slice), t.slices = xs ++ [y, z] → y.pos = .partition →
      step cap t (.move k) = { t with slices := xs ++ [{ y with pos := .indexers }, z] } := by
    intro t y z ht hy
    simp only [step, ht, g0, State.move, hy, s0]
  have e7 : ∀ (t : State) (y z : Slice), t.slices = xs ++ [y, z] → y.pos = .indexers →
      step cap t (.move k) = { t with slices := xs ++ [{ y with pos := .indexed }, z] } := by
    intro t y z ht hy
    simp only [step, ht, g0, State.move, hy, s0]
  have e8 : ∀ (t : State) (y z : Slice), t.slices = xs ++ [y, z] → y.pos = .indexed → z.pos = .partition → z.ackIndex = false →
      step cap t (.ackIndex k) = { t with slices := xs ++ [{ y with ackIndex := true }, z] } := by
    intro t y z ht hy hz hz'
    have hh : y.handled = true := by unfold Slice.handled; rw [hy]; rfl
    have hl : z.left = true := by unfold Slice.left; rw [hz]
    simp only [step, ht, g0, hh, if_true, s0, State.checkIndex]
    rw [if_neg]
    rintro ⟨_, hc⟩
    have := List.all_eq_true.mp hc z (by simp)
    rw [hl, hz'] at this
    cases this
  have e9 : ∀ (t : State) (y z : Slice), t.slices = xs ++ [y, z] → y.pos = .indexed → t.sub = .waiting →
      step cap t (.ackPart k) = { t with slices := xs ++ [{ y with ackPart := true }, z] } := by
    intro t y z ht hy hsub
    simp only [step, ht, g0, hy, if_true, s0, State.checkPart, hsub]
    rw [if_neg]
    rintro ⟨hc, _⟩
    cases hc
  rw [e6 ⟨xs ++ [x, { own := false, rows := 1, pos := .partition, part := q, sent := b4 }], a, r, n, s.sub⟩ _ _ rfl hp,
    e7 ⟨xs ++ [{ x with pos := .indexers }, { own := false, rows := 1, pos := .partition, part := q, sent := b4 }], a, r, n, s.sub⟩ _ _ rfl rfl,
    e8 ⟨xs ++ [{ x with pos := .indexed }, { own := false, rows := 1, pos := .partition, part := q, sent := b4 }], a, r, n, s.sub⟩ _ _ rfl rfl
      rfl rfl, e9 ⟨xs ++ [{ x with pos := .indexed, ackIndex := true },
        { own := false, rows := 1, pos := .partition, part := q, sent := b4 }], a, r, n, s.sub⟩ _ _ rfl rfl hw]
  refine ⟨hw, xs ++ [{ x with pos := .indexed, ackIndex := true, ackPart := true }],
    { own := false, rows := 1, pos := .partition, part := q, sent := b4 }, ?_, ?_, ?_, rfl, rfl, ?_⟩
  · simp
  · simp [hk]
  · intro y hy
    rcases List.mem_append.mp hy with hy | hy
    · exact hxs y hy
    · rw [List.mem_singleton] at hy
      subst hy
      exact ⟨rfl, rfl, rfl⟩
  · rw [hs] at ho
    cases xs with
    | nil => simpa using ho
    | cons y ys => simpa using ho

/-- Cycles, one after the other. -/
def cycles : Nat → List Event
  | 0 => [.push true 1, .move 0, .move 0, .move 0, .move 0, .ended, .forward, .subscribe]
  | n + 1 => cycles n ++ cycle n

theorem starving_run (cap n : Nat) : Starving (run cap (cycles n)) n := by
  induction n with
  | zero =>
    refine ⟨rfl, [], _, rfl, rfl, (fun _ h => by cases h), rfl, rfl, rfl⟩
  | succ n ih =>
    rw [cycles, run_append]
    exact starving_cycle cap _ n ih

end Verif.Blocking
