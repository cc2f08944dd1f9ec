import Verif.Broker.Stream
/-!
What is read does not depend on what comes after it; and what holds of the slices whatever the messages are.
-/
namespace Verif.Broker
open Verif.Data Verif.Calendar Spec

/-- A function that does not look at what it leaves. -/
def Ext {α : Type} (f g : Bytes → Out α) : Prop := ∀ bs x r z, f bs = .ok x r → g (bs ++ z) = .ok x (r ++ z)

theorem ext_bind {α β : Type} {f g : Bytes → Out α} {f' g' : α → Bytes → Out β} (h1 : Ext f g) (h2 : ∀ x, Ext (f' x) (g' x)) :
    Ext (fun bs => (f bs).bind (f' ·)) (fun bs => (g bs).bind (g' ·)) := by
  intro bs y r z h
  obtain ⟨x, r1, h3, h4⟩ := Out.bind_ok h
  show (g (bs ++ z)).bind _ = _
  rw [h1 bs x r1 z h3, Out.bind]
  exact h2 x r1 y r z h4

theorem ext_ok {α : Type} (x : α) : Ext (fun bs => .ok x bs) (fun bs => .ok x bs) := by
  intro bs y r z h
  cases h
  rfl

theorem ext_uint (k : Nat) : Ext (uintE k) (uintE k) := by
  intro bs y r z h
  rw [uintE] at h ⊢
  split at h
  · cases h
  · rename_i hl
    cases h
    rw [if_neg (by simp; omega), List.take_append_of_le_length (by omega), List.drop_append_of_le_length (by omega)]

theorem ext_char : Ext charE charE := by
  intro bs y r z h
  cases bs with
  | nil => cases h
  | cons b bs => cases h; rfl

theorem ext_int : Ext intE intE := ext_bind (ext_uint 4) fun _ => ext_ok _
theorem ext_long : Ext longE longE := ext_bind (ext_uint 8) fun _ => ext_ok _
theorem ext_bool : Ext boolE boolE := ext_bind ext_char fun _ => ext_ok _
theorem ext_double : Ext doubleE doubleE := ext_bind (ext_uint 8) fun _ => ext_ok _

theorem ext_string : Ext stringE stringE := by
  refine ext_bind (ext_uint 4) fun n => ?_
  intro bs y r z h
  simp only [] at h ⊢
  split at h
  · cases h
  · rename_i hl
    cases h
    rw [if_neg (by simp; omega), List.take_append_of_le_length (by omega), List.drop_append_of_le_length (by omega)]

theorem ext_addr : Ext addrE addrE := by
  refine ext_bind ext_char fun c => ?_
  intro bs y r z h
  simp only [] at h ⊢
  split at h
  · rename_i hc
    rw [if_pos hc]
    split at h
    · cases h; rfl
    · cases h
  · rename_i hc
    rw [if_neg hc]
    split at h
    · rename_i hc'
      rw [if_pos hc']
      split at h
      · cases h
      · rename_i hl
        cases h
        rw [dif_neg (by simp; omega)]
        congr 1
        · simp only [List.take_append_of_le_length (show 16 ≤ bs.length by omega)]
        · exact List.drop_append_of_le_length (by omega)
    · cases h

theorem ext_timed (f : Int → Data) (x : Real) : Ext (timed f x) (timed f x) := by
  intro bs y r z h
  rw [timed] at h ⊢
  split at h
  · cases h
  · cases h; rfl

theorem ext_loop {f g : Bytes → Out Data} (h : Ext f g) (n : Nat) : Ext (loop f n) (loop g n) := by
  induction n with
  | zero => exact ext_ok []
  | succ n ih => exact ext_bind h fun x => ext_bind ih fun xs => ext_ok _

theorem ext_list {limit : Nat} {f g : Bytes → Out Data} (h : Ext f g) (k : Int) :
    Ext (fun bs => if k < 0 ∨ limit < k.toNat then .thrown else (loop f k.toNat bs).bind fun xs bs => .ok (.list xs) bs)
      (fun bs => if k < 0 ∨ limit < k.toNat then .thrown else (loop g k.toNat bs).bind fun xs bs => .ok (Data.list xs) bs) := by
  split
  · intro bs y r z h; cases h
  · exact ext_bind (ext_loop h _) fun xs => ext_ok _

theorem ext_payload {limit : Nat} {f g : Bytes → Out Data} (h : Ext f g) (tag : Option Tag) : Ext (payload limit f tag) (payload limit g tag) := by
  unfold payload
  split
  · exact ext_bind ext_long fun _ => ext_ok _
  · exact ext_bind ext_long fun _ => ext_ok _
  · exact ext_bind (ext_uint 8) fun _ => ext_ok _
  · exact ext_bind (ext_uint 8) fun _ => ext_ok _
  · exact ext_bind (ext_uint 8) fun _ => ext_bind ext_int fun _ => ext_ok _
  · exact ext_bind ext_addr fun _ => ext_ok _
  · exact ext_bind (ext_uint 1) fun _ => ext_bind ext_addr fun _ => ext_ok _
  · exact ext_bind ext_double fun _ => ext_ok _
  · exact ext_bind ext_double fun _ => ext_timed _ _
  · exact ext_bind ext_double fun _ => ext_timed _ _
  · exact ext_bind ext_string fun _ => ext_ok _
  · exact ext_bind ext_string fun _ => ext_ok _
  · exact ext_bind ext_string fun _ => ext_ok _
  · exact ext_bind ext_string fun _ => ext_ok _
  · exact ext_bind ext_long fun k => ext_list h k
  · exact ext_bind ext_long fun k => ext_list h k
  · intro bs y r z h; cases h

theorem ext_value (limit : Nat) : ∀ n m, n ≤ m → Ext (value limit n) (value limit m) := by
  intro n
  induction n with
  | zero => intro m _ bs y r z h; cases h
  | succ n ih =>
    intro m hm
    obtain ⟨m, rfl⟩ : ∃ k, m = k + 1 := ⟨m - 1, by omega⟩
    refine ext_bind ext_int fun type => ext_bind ext_int fun _ => ext_bind ext_bool fun present => ?_
    cases present with
    | true => exact ext_payload (ih m (by omega)) _
    | false => exact ext_ok _

theorem row_ext {limit : Nat} {bs r z : Bytes} {xs : List Data} (h : row limit bs = .ok xs r) : row limit (bs ++ z) = .ok xs (r ++ z) := by
  rw [row] at h ⊢
  obtain ⟨n, r1, h1, h2⟩ := Out.bind_ok h
  rw [ext_uint 4 bs n r1 z h1, Out.bind]
  exact ext_loop (ext_value limit _ _ (by simp)) n _ _ _ _ h2

theorem row_only {limit : Nat} {bs r : Bytes} {xs : List Data} (h : row limit bs = .ok xs r) : ∃ b, bs = b ++ r ∧ ShowsRow True b xs := by
  rw [row] at h
  obtain ⟨n, r1, h1, h2⟩ := Out.bind_ok h
  obtain ⟨e, hn⟩ := uintE_ok h1
  obtain ⟨hl, b, hb, hs⟩ := loop_showsAll (fun bs d r => value_shows _ bs d r) n _ _ _ h2
  subst hl
  refine ⟨big 4 xs.length ++ b, by rw [e, hb, List.append_assoc], by simpa using hn, b, hs, rfl⟩

/-! ### Slices, whatever the messages are -/

/-- The row has a value for every column, and every value fits. -/
def Good (l : Layout) (xs : List Data) : Prop := List.Forall₂ (fun c x => accepts c.2 x = true) l.2 xs

structure Weak (m : Nat) (s : State) : Prop where
  room : ∀ l, (Reader.rowsOf s.builders l).length < m
  size : ∀ x ∈ s.out, 1 ≤ x.2.length ∧ x.2.length ≤ m
  good : ∀ l, ∀ xs ∈ Reader.rowsOf s.builders l, Good l xs
  goodOut : ∀ x ∈ s.out, ∀ xs ∈ x.2, Good x.1 xs
  nodup : (s.builders.map Prod.fst).Nodup

theorem finishOne_out (s : State) (l : Layout) : ∀ x ∈ (finishOne s l).out, x ∈ s.out ∨ x = (l, Reader.rowsOf s.builders l) := by
  intro x hx
  rw [finishOne] at hx
  split at hx
  · exact .inl hx
  · rcases List.mem_append.mp hx with h | h
    · exact .inl h
    · exact .inr (by simpa using h)

theorem finishOne_weak {m : Nat} {s : State} {l : Layout} (hm : 0 < m) (room : ∀ k, k ≠ l → (Reader.rowsOf s.builders k).length < m)
    (full : (Reader.rowsOf s.builders l).length ≤ m) (size : ∀ x ∈ s.out, 1 ≤ x.2.length ∧ x.2.length ≤ m)
    (good : ∀ l, ∀ xs ∈ Reader.rowsOf s.builders l, Good l xs) (goodOut : ∀ x ∈ s.out, ∀ xs ∈ x.2, Good x.1 xs)
    (nodup : (s.builders.map Prod.fst).Nodup) : Weak m (finishOne s l) := by
  obtain ⟨_, _, h3, h4, h5⟩ := finishOne_spec s l
  refine ⟨fun k => ?_, fun x hx => ?_, fun k xs hx => ?_, fun x hx => ?_, by rw [h3]; exact nodup⟩
  · rw [h4]
    split
    · exact hm
    · rename_i hk; exact room k hk
  · rcases h5 x hx with hx | ⟨a, b⟩
    · exact size x hx
    · exact ⟨a, by omega⟩
  · rw [h4] at hx
    split at hx
    · cases hx
    · exact good k xs hx
  · rcases finishOne_out s l x hx with hx | rfl
    · exact goodOut x hx
    · exact good l

theorem weak_finish {m : Nat} {s : State} (l : Layout) (hm : 0 < m) (h : Weak m s) : Weak m (finishOne s l) :=
  finishOne_weak hm (fun k _ => h.room k) (Nat.le_of_lt (h.room l)) h.size h.good h.goodOut h.nodup

theorem weak_fold {m : Nat} (hm : 0 < m) (ls : List Layout) : ∀ s, Weak m s → Weak m (ls.foldl finishOne s) := by
  induction ls with
  | nil => exact fun s h => h
  | cons l ls ih => exact fun s h => ih _ (weak_finish l hm h)

/-- The state after a message, if there is one. -/
def Step.Holds (P : State → Prop) : Step → Prop
  | .ok s => P s
  | .error s => P s
  | _ => True

theorem weak_create {m : Nat} {s : State} (hm : 0 < m) (h : Weak m s) (valid : Bool) (k : Str) (w f : BData) :
    (onCreate s valid k w f).Holds (Weak m) := by
  have base : ∀ (s : State) (ss : List (Str × Layout)) (l : Layout), Weak m s → Weak m { s with streams := ss, builders := ensure s.builders l } := by
    intro s ss l h
    obtain ⟨e1, e2⟩ := ensure_spec s.builders l h.nodup
    exact ⟨fun k => by rw [e2]; exact h.room k, h.size, fun k xs hx => h.good k xs (by rw [← e2]; exact hx), h.goodOut, e1⟩
  rw [onCreate]
  split
  · exact h
  · split
    · split
      · exact h
      · exact base _ _ _ (weak_finish _ hm h)
    · exact base _ _ _ h

theorem good_of_all {cs : List (Str × Ty)} {xs : List Data} (hl : xs.length = cs.length)
    (h : (List.zipWith (fun c x => accepts c.2 x) cs xs).all id = true) : List.Forall₂ (fun c x => accepts c.2 x = true) cs xs := by
  induction cs generalizing xs with
  | nil => cases xs with
    | nil => exact .nil
    | cons => simp at hl
  | cons c cs ih => cases xs with
    | nil => simp at hl
    | cons x xs =>
      simp only [List.zipWith_cons_cons, List.all_cons, Bool.and_eq_true, id] at h
      exact .cons h.1 (ih (by simpa using hl) h.2)

theorem weak_write {limit m : Nat} {s : State} (hm : 0 < m) (h : Weak m s) (k : Str) (d : BData) : (onWrite limit m s k d).Holds (Weak m) := by
  rw [onWrite.eq_def]
  split
  · split
    · exact h
    · trivial
    · trivial
    · rename_i xs _ _
      split
      · exact h
      · rename_i l _
        split
        · trivial
        · rename_i hl
          split
          · rename_i hall
            have hgood : ∀ j, ∀ ys ∈ Reader.rowsOf (Reader.addRow s.builders l xs) j, Good j ys := by
              intro j ys hy
              rw [Reader.rowsOf_addRow] at hy
              rcases List.mem_append.mp hy with hy | hz
              · exact h.good j ys hy
              · clear hy
                split at hz
                · rename_i hj
                  subst hj
                  rw [List.mem_singleton.mp hz]
                  exact good_of_all (by simpa using hl) hall
                · cases hz
            have hroom : ∀ j, j ≠ l → (Reader.rowsOf (Reader.addRow s.builders l xs) j).length < m := by
              intro j hj
              rw [Reader.rowsOf_addRow, if_neg hj, List.append_nil]
              exact h.room j
            have hfull : (Reader.rowsOf (Reader.addRow s.builders l xs) l).length ≤ m := by
              rw [Reader.rowsOf_addRow, if_pos rfl, List.length_append]
              exact h.room l
            simp only []
            split
            · exact finishOne_weak (s := { s with builders := Reader.addRow s.builders l xs }) hm hroom hfull h.size hgood h.goodOut (Reader.nodup_addRow h.nodup _ _)
            · rename_i hlt
              refine ⟨fun j => ?_, h.size, hgood, h.goodOut, Reader.nodup_addRow h.nodup _ _⟩
              by_cases hj : j = l
              · subst hj; exact Nat.lt_of_not_le hlt
              · exact hroom j hj
          · split
            · exact weak_finish l hm h
            · trivial
  · exact h

mutual
theorem weak_dispatch {limit m : Nat} (hm : 0 < m) : ∀ (x : Msg) (s : State), Weak m s → (dispatch limit m x s).Holds (Weak m)
  | .create valid k w f, s, h => by rw [dispatch]; exact weak_create hm h valid k w f
  | .write k d, s, h => by rw [dispatch]; exact weak_write hm h k d
  | .batch xs, s, h => by rw [dispatch]; exact weak_dispatchAll hm xs s h
  | .other, s, h => by rw [dispatch]; exact h
theorem weak_dispatchAll {limit m : Nat} (hm : 0 < m) : ∀ (xs : List Msg) (s : State), Weak m s → (dispatchAll limit m xs s).Holds (Weak m)
  | [], s, h => by rw [dispatchAll]; exact h
  | x :: xs, s, h => by
    rw [dispatchAll]
    have h1 := weak_dispatch (limit := limit) hm x s h
    split
    · rename_i s' hs
      rw [hs] at h1
      exact weak_dispatchAll hm xs s' h1
    · exact h1
end

theorem weak_read {limit maxEvents m : Nat} (hm : 0 < m) {xs : List Msg} {s s' : State} {r : Result} (h : Weak m s)
    (hr : read limit maxEvents m s xs = .done s' r) : Weak m s' := by
  have h1 := weak_dispatchAll (limit := limit) hm xs s h
  rw [read] at hr
  split at hr
  · rename_i hs
    rw [hs] at h1
    cases hr
    exact weak_fold hm _ _ h1
  · rename_i hs
    rw [hs] at h1
    cases hr
    exact weak_fold hm _ _ h1
  all_goals cases hr

theorem weak_reads {limit maxEvents m : Nat} (hm : 0 < m) {xss : List (List Msg)} {s s' : State} {r : Result} (h : Weak m s)
    (hr : reads limit maxEvents m xss s = .done s' r) : Weak m s' := by
  induction xss generalizing s with
  | nil => cases hr; exact h
  | cons xs xss ih =>
    rw [reads] at hr
    split at hr
    · rename_i hs
      cases hr
      exact weak_read hm h hs
    · rename_i hs
      exact ih (weak_read hm h hs) hr
    · rename_i hn hn'
      exact absurd hr (hn' _ _)

end Verif.Broker
