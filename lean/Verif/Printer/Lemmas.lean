import Verif.Printer.Spec
namespace Verif.Printer
open Spec

theorem both_fst (x y : Out) : (both x y).1 = (x.1 && y.1) := by
  unfold both; cases h : x.1 <;> simp [h]

theorem both_nil {x y : Out} (hx : x.2 = []) (hy : y.2 = []) : (both x y).2 = [] := by
  unfold both; split <;> simp [hx, hy]

theorem both_true {x y : Out} {u v : List Char} (hx : x = (true, u)) (hy : y = (true, v)) : both x y = (true, u ++ v) := by
  rw [hx, hy]; rfl

theorem each_fst {α : Type} (f : α → Out) : ∀ xs, (each f xs).1 = xs.all fun x => (f x).1
  | [] => rfl
  | x :: xs => by rw [each, both_fst, each_fst f xs]; rfl

theorem each_nil {α : Type} (f : α → Out) (h : ∀ x, (f x).2 = []) : ∀ xs, (each f xs).2 = []
  | [] => rfl
  | x :: xs => by rw [each]; exact both_nil (h x) (each_nil f h xs)

theorem mapM_isSome {α : Type} (g : α → Option (List Char)) : ∀ xs : List α, (xs.mapM g).isSome = xs.all fun x => (g x).isSome
  | [] => rfl
  | x :: xs => by
    rw [List.mapM_cons, List.all_cons, ← mapM_isSome g xs]
    cases g x with
    | none => rfl
    | some u => cases List.mapM g xs <;> rfl

theorem each_text {α : Type} (f : α → Out) (g : α → Option (List Char)) (h : ∀ x t, g x = some t → f x = (true, t)) : ∀ (xs : List α) (ts : List (List Char)),
    xs.mapM g = some ts → each f xs = (true, ts.flatten)
  | [], ts, e => by cases e; rfl
  | x :: xs, ts, e => by
    rw [List.mapM_cons] at e
    cases hx : g x with
    | none => rw [hx] at e; cases e
    | some u =>
      cases hxs : List.mapM g xs with
      | none => rw [hx, hxs] at e; cases e
      | some us =>
        rw [hx, hxs] at e
        cases e
        rw [each]
        exact both_true (h x u hx) (each_text f g h xs us hxs)

theorem intercalate_cons (w u : List Char) : ∀ us : List (List Char), w.intercalate (u :: us) = u ++ (us.map (w ++ ·)).flatten := by
  intro us
  induction us generalizing u with
  | nil => simp [List.intercalate]
  | cons v vs ih =>
    have := ih v
    simp only [List.intercalate, List.intersperse, List.flatten_cons, List.map_cons] at this ⊢
    rw [this]; simp

theorem mapM_sep {α : Type} (g : α → Option (List Char)) (w : List Char) : ∀ (xs : List α) (ts : List (List Char)), xs.mapM g = some ts →
    xs.mapM (fun x => (g x).map (w ++ ·)) = some (ts.map (w ++ ·))
  | [], ts, e => by cases e; rfl
  | x :: xs, ts, e => by
    rw [List.mapM_cons] at e ⊢
    cases hx : g x with
    | none => rw [hx] at e; cases e
    | some u =>
      cases hxs : List.mapM g xs with
      | none => rw [hx, hxs] at e; cases e
      | some us =>
        rw [hx, hxs] at e
        cases e
        rw [mapM_sep g w xs us hxs]
        rfl

theorem total_print : {α : Type} → (p : Printer α) → total p = true → ∀ x, (p.print x).1 = true
  | _, .lit _, _, _ => rfl
  | _, .any, _, _ => rfl
  | _, .str, _, _ => rfl
  | _, .seq p q, h, x => by
    simp only [total, Bool.and_eq_true] at h
    rw [Printer.print, both_fst, total_print p h.1, total_print q h.2]; rfl
  | _, .before p q, h, x => by
    simp only [total, Bool.and_eq_true] at h
    rw [Printer.print, both_fst, total_print p h.1, total_print q h.2]; rfl
  | _, .after p q, h, x => by
    simp only [total, Bool.and_eq_true] at h
    rw [Printer.print, both_fst, total_print p h.1, total_print q h.2]; rfl
  | _, .choice p q, h, .inl x => by
    simp only [total, Bool.and_eq_true] at h
    rw [Printer.print, total_print p h.1]
  | _, .choice p q, h, .inr x => by
    simp only [total, Bool.and_eq_true] at h
    rw [Printer.print, total_print q h.2]
  | _, .either p q, h, x => by
    simp only [total, Bool.or_eq_true] at h
    rw [Printer.print]
    rcases h with h | h
    · rw [if_pos (total_print p h _)]; exact total_print p h _
    · split
      · assumption
      · exact total_print q h _
  | _, .kleene p, h, xs => by
    rw [Printer.print, each_fst, List.all_eq_true]
    exact fun x _ => total_print p h x
  | _, .list p q, h, [] => rfl
  | _, .list p q, h, x :: xs => by
    simp only [total, Bool.and_eq_true] at h
    rw [Printer.print, both_fst, total_print p h.1, each_fst, Bool.true_and, List.all_eq_true]
    intro y _
    rw [both_fst, total_print p h.1, total_print q h.2]; rfl
  | _, .opt _, _, none => rfl
  | _, .opt p, h, some x => total_print p h x
  | _, .maybe _, _, _ => rfl
  | _, .conj p, h, x => total_print p h ()
  | _, .act f p, h, x => total_print p h (f x)

theorem silent_print : {α : Type} → (p : Printer α) → silent p = true → ∀ x, (p.print x).2 = []
  | _, .lit w, h, _ => by rw [Printer.print]; simpa [silent] using h
  | _, .seq p q, h, x => by
    simp only [silent, Bool.and_eq_true] at h
    rw [Printer.print]; exact both_nil (silent_print p h.1 _) (silent_print q h.2 _)
  | _, .before p q, h, x => by
    simp only [silent, Bool.and_eq_true] at h
    rw [Printer.print]; exact both_nil (silent_print p h.1 _) (silent_print q h.2 _)
  | _, .after p q, h, x => by
    simp only [silent, Bool.and_eq_true] at h
    rw [Printer.print]; exact both_nil (silent_print p h.1 _) (silent_print q h.2 _)
  | _, .choice p q, h, .inl x => by
    simp only [silent, Bool.and_eq_true] at h
    exact silent_print p h.1 x
  | _, .choice p q, h, .inr x => by
    simp only [silent, Bool.and_eq_true] at h
    exact silent_print q h.2 x
  | _, .either p q, h, x => by
    simp only [silent, Bool.and_eq_true] at h
    rw [Printer.print]
    split
    · exact silent_print p h.1 x
    · rw [silent_print p h.1, silent_print q h.2]; rfl
  | _, .kleene p, h, xs => by rw [Printer.print]; exact each_nil _ (silent_print p h) xs
  | _, .plus p, h, xs => by
    rw [Printer.print]
    split
    · rfl
    · exact each_nil _ (silent_print p h) xs
  | _, .list p q, h, [] => rfl
  | _, .list p q, h, x :: xs => by
    simp only [silent, Bool.and_eq_true] at h
    rw [Printer.print]
    exact both_nil (silent_print p h.1 _) (each_nil _ (fun y => both_nil (silent_print q h.2 _) (silent_print p h.1 _)) xs)
  | _, .opt _, _, none => rfl
  | _, .opt p, h, some x => silent_print p h x
  | _, .maybe p, h, x => silent_print p h x
  | _, .conj p, h, x => silent_print p h ()
  | _, .neg p, h, x => silent_print p h ()
  | _, .guard g p, h, x => by
    rw [Printer.print]
    split
    · exact silent_print p h x
    · rfl
  | _, .act f p, h, x => silent_print p h (f x)

theorem clean_both {x y : Out} (hx : x.1 = false → x.2 = []) (h : y.1 = true ∨ (x.2 = [] ∧ (y.1 = false → y.2 = []))) (hf : (both x y).1 = false) : (both x y).2 = [] := by
  unfold both at hf ⊢
  split
  · rename_i hx1
    rw [if_pos hx1] at hf
    rcases h with h | ⟨h1, h2⟩
    · rw [h] at hf; cases hf
    · simp [h1, h2 hf]
  · rename_i hx1
    exact hx (by simpa using hx1)

theorem clean_print : {α : Type} → (p : Printer α) → clean p = true → ∀ x, (p.print x).1 = false → (p.print x).2 = []
  | _, .lit _, _, _ => fun h => by cases h
  | _, .any, _, _ => fun h => by cases h
  | _, .str, _, _ => fun h => by cases h
  | _, .seq p q, h, x => by
    simp only [clean, Bool.and_eq_true, Bool.or_eq_true] at h
    rw [Printer.print]
    exact clean_both (clean_print p h.1 _) (h.2.imp (fun h => total_print q h _) fun h => ⟨silent_print p h.1 _, clean_print q h.2 _⟩)
  | _, .before p q, h, x => by
    simp only [clean, Bool.and_eq_true, Bool.or_eq_true] at h
    rw [Printer.print]
    exact clean_both (clean_print p h.1 _) (h.2.imp (fun h => total_print q h _) fun h => ⟨silent_print p h.1 _, clean_print q h.2 _⟩)
  | _, .after p q, h, x => by
    simp only [clean, Bool.and_eq_true, Bool.or_eq_true] at h
    rw [Printer.print]
    exact clean_both (clean_print p h.1 _) (h.2.imp (fun h => total_print q h _) fun h => ⟨silent_print p h.1 _, clean_print q h.2 _⟩)
  | _, .choice p q, h, .inl x => by
    simp only [clean, Bool.and_eq_true] at h
    exact clean_print p h.1 x
  | _, .choice p q, h, .inr x => by
    simp only [clean, Bool.and_eq_true] at h
    exact clean_print q h.2 x
  | _, .either p q, h, x => by
    simp only [clean, Bool.and_eq_true] at h
    rw [Printer.print]
    split
    · exact clean_print p h.1 x
    · rename_i hp
      intro hq
      rw [clean_print p h.1 x (by simpa using hp), clean_print q h.2 x hq]; rfl
  | _, .kleene p, h, xs => fun hf => by
    rw [total_print (.kleene p) h xs] at hf; cases hf
  | _, .plus p, h, xs => by
    rw [Printer.print]
    split
    · exact fun _ => rfl
    · intro hf
      have := total_print (.kleene p) h xs
      rw [Printer.print] at this
      rw [this] at hf; cases hf
  | _, .list p q, h, xs => fun hf => by
    rw [total_print (.list p q) h xs] at hf; cases hf
  | _, .opt _, _, none => fun _ => rfl
  | _, .opt p, h, some x => clean_print p h x
  | _, .maybe _, _, _ => fun h => by cases h
  | _, .conj p, h, x => clean_print p h ()
  | _, .neg p, h, x => fun _ => silent_print p h ()
  | _, .guard g p, h, x => by
    rw [Printer.print]
    split
    · exact clean_print p h x
    · exact fun _ => rfl
  | _, .act f p, h, x => clean_print p h (f x)

/-- A printer succeeds exactly if the value has a text. -/
theorem print_fst : {α : Type} → (p : Printer α) → ∀ x, (p.print x).1 = (text p x).isSome
  | _, .lit _, _ => rfl
  | _, .any, _ => rfl
  | _, .str, _ => rfl
  | _, .seq p q, (x, y) => by
    rw [Printer.print, both_fst, print_fst p, print_fst q, text]
    cases text p x <;> cases text q y <;> rfl
  | _, .before p q, x => by
    rw [Printer.print, both_fst, print_fst p, print_fst q, text]
    cases text p () <;> cases text q x <;> rfl
  | _, .after p q, x => by
    rw [Printer.print, both_fst, print_fst p, print_fst q, text]
    cases text p x <;> cases text q () <;> rfl
  | _, .choice p q, .inl x => print_fst p x
  | _, .choice p q, .inr x => print_fst q x
  | _, .either p q, () => by
    have hp := print_fst p ()
    have hq := print_fst q ()
    rw [Printer.print, text]
    cases h : text p () with
    | some u =>
      rw [h] at hp
      have hp : (p.print ()).1 = true := hp
      rw [if_pos hp, hp]; rfl
    | none => rw [h] at hp; rw [if_neg (by rw [hp]; simp), hq]; simp
  | _, .kleene p, xs => by
    rw [Printer.print, each_fst, text, Option.isSome_map, mapM_isSome]
    congr 1; funext x; exact print_fst p x
  | _, .plus p, xs => by
    rw [Printer.print, text]
    cases xs with
    | nil => rfl
    | cons x xs =>
      simp only [List.isEmpty_cons, Bool.false_eq_true, if_false, reduceCtorEq]
      rw [each_fst, Option.isSome_map, mapM_isSome]
      congr 1; funext x; exact print_fst p x
  | _, .list p q, [] => rfl
  | _, .list p q, [x] => by
    rw [Printer.print, both_fst, each, text, print_fst p]; simp
  | _, .list p q, x :: y :: xs => by
    have e : text (.list p q) (x :: y :: xs) = (do return (← text q ()).intercalate (← (x :: y :: xs).mapM (text p))) := rfl
    rw [Printer.print, both_fst, each_fst, e, print_fst p]
    have hall : ((y :: xs).all fun z => (both (q.print ()) (p.print z)).1) = ((text q ()).isSome && (y :: xs).all fun z => (text p z).isSome) := by
      have : (fun z => (both (q.print ()) (p.print z)).1) = fun z => ((text q ()).isSome && (text p z).isSome) := by
        funext z; rw [both_fst, print_fst p, print_fst q]
      rw [this]
      cases (text q ()).isSome
      · simp
      · simp
    rw [hall]
    have hm := mapM_isSome (text p) (x :: y :: xs)
    rw [List.all_cons] at hm
    cases hq : text q () with
    | none => simp
    | some w =>
      cases hms : List.mapM (text p) (x :: y :: xs) with
      | none => rw [hms] at hm; simpa using hm.symm
      | some ts => rw [hms] at hm; simpa using hm.symm
  | _, .opt _, none => rfl
  | _, .opt p, some x => print_fst p x
  | _, .maybe _, _ => rfl
  | _, .conj p, x => by rw [Printer.print, text, Option.isSome_map]; exact print_fst p ()
  | _, .neg p, x => by
    rw [Printer.print, text]
    simp only [print_fst p ()]
    cases text p () <;> simp
  | _, .guard g p, x => by
    rw [Printer.print, text]
    split
    · exact print_fst p x
    · rfl
  | _, .act f p, x => print_fst p (f x)

/-- A proper printer writes the text. -/
theorem print_text : {α : Type} → (p : Printer α) → proper p = true → ∀ x t, text p x = some t → p.print x = (true, t)
  | _, .lit _, _, _, _, e => by cases e; rfl
  | _, .any, _, _, _, e => by cases e; rfl
  | _, .str, _, _, _, e => by cases e; rfl
  | _, .seq p q, h, (x, y), t, e => by
    simp only [proper, Bool.and_eq_true] at h
    rw [text] at e
    cases hp : text p x with
    | none => rw [hp] at e; cases e
    | some u =>
      cases hq : text q y with
      | none => rw [hp, hq] at e; cases e
      | some v =>
        rw [hp, hq] at e; cases e
        exact both_true (print_text p h.1 _ _ hp) (print_text q h.2 _ _ hq)
  | _, .before p q, h, y, t, e => by
    simp only [proper, Bool.and_eq_true] at h
    rw [text] at e
    cases hp : text p () with
    | none => rw [hp] at e; cases e
    | some u =>
      cases hq : text q y with
      | none => rw [hp, hq] at e; cases e
      | some v =>
        rw [hp, hq] at e; cases e
        exact both_true (print_text p h.1 _ _ hp) (print_text q h.2 _ _ hq)
  | _, .after p q, h, x, t, e => by
    simp only [proper, Bool.and_eq_true] at h
    rw [text] at e
    cases hp : text p x with
    | none => rw [hp] at e; cases e
    | some u =>
      cases hq : text q () with
      | none => rw [hp, hq] at e; cases e
      | some v =>
        rw [hp, hq] at e; cases e
        exact both_true (print_text p h.1 _ _ hp) (print_text q h.2 _ _ hq)
  | _, .choice p q, h, .inl x, t, e => by
    simp only [proper, Bool.and_eq_true] at h
    exact print_text p h.1 x t e
  | _, .choice p q, h, .inr x, t, e => by
    simp only [proper, Bool.and_eq_true] at h
    exact print_text q h.2 x t e
  | _, .either p q, h, (), t, e => by
    simp only [proper, Bool.and_eq_true] at h
    rw [text] at e
    rw [Printer.print]
    cases hp : text p () with
    | some u =>
      rw [hp] at e; cases e
      rw [print_text p h.1.1 _ _ hp]; rfl
    | none =>
      rw [hp] at e
      have hf : (p.print ()).1 = false := by rw [print_fst p, hp]; rfl
      rw [if_neg (by rw [hf]; simp), clean_print p h.2 () hf, print_text q h.1.2 () t e]; rfl
  | _, .kleene p, h, xs, t, e => by
    rw [text] at e
    cases hm : List.mapM (text p) xs with
    | none => rw [hm] at e; cases e
    | some ts => rw [hm] at e; cases e; exact each_text _ _ (print_text p h) xs ts hm
  | _, .plus p, h, xs, t, e => by
    rw [text] at e
    split at e
    · cases e
    · rename_i hx
      cases hm : List.mapM (text p) xs with
      | none => rw [hm] at e; cases e
      | some ts =>
        rw [hm] at e; cases e
        rw [Printer.print, if_neg (by simpa using hx)]
        exact each_text _ _ (print_text p h) xs ts hm
  | _, .list p q, h, [], t, e => by cases e; rfl
  | _, .list p q, h, [x], t, e => by
    simp only [proper, Bool.and_eq_true] at h
    have e : text p x = some t := e
    rw [Printer.print, each, both_true (print_text p h.1 x t e) (v := []) rfl, List.append_nil]
  | _, .list p q, h, x :: y :: xs, t, e => by
    simp only [proper, Bool.and_eq_true] at h
    have e : (do return (← text q ()).intercalate (← (x :: y :: xs).mapM (text p))) = some t := e
    cases hq : text q () with
    | none => rw [hq] at e; cases e
    | some w =>
      cases hm : List.mapM (text p) (x :: y :: xs) with
      | none => rw [hq, hm] at e; cases e
      | some ts =>
        rw [hq, hm] at e; cases e
        rw [List.mapM_cons] at hm
        cases hx : text p x with
        | none => rw [hx] at hm; cases hm
        | some u =>
          cases hm' : List.mapM (text p) (y :: xs) with
          | none => rw [hx, hm'] at hm; cases hm
          | some us =>
            rw [hx, hm'] at hm; cases hm
            rw [Printer.print, intercalate_cons]
            refine both_true (print_text p h.1 x u hx) ?_
            refine each_text _ (fun z => (text p z).map (w ++ ·)) ?_ _ _ (mapM_sep _ w _ _ hm')
            intro z v hz
            cases hz' : text p z with
            | none => rw [hz'] at hz; cases hz
            | some v' =>
              rw [hz'] at hz; cases hz
              exact both_true (print_text q h.2 () w hq) (print_text p h.1 z v' hz')
  | _, .opt _, _, none, _, e => by cases e; rfl
  | _, .opt p, h, some x, t, e => print_text p h x t e
  | _, .maybe p, h, x, t, e => by
    simp only [proper, Bool.and_eq_true] at h
    rw [Printer.print]
    cases hp : text p x with
    | some u => rw [text, hp] at e; cases e; rw [print_text p h.1 x u hp]; rfl
    | none =>
      rw [text, hp] at e; cases e
      rw [clean_print p h.2 x (by rw [print_fst p, hp]; rfl)]; rfl
  | _, .conj p, h, x, t, e => by
    rw [text] at e
    cases hp : text p () with
    | none => rw [hp] at e; cases e
    | some u =>
      rw [hp] at e; cases e
      exact Prod.ext (by rw [Printer.print, print_fst p, hp]; rfl) (silent_print p h ())
  | _, .neg p, h, x, t, e => by
    rw [text] at e
    split at e
    · rename_i hp
      cases e
      exact Prod.ext (by rw [Printer.print]; simp only [print_fst p, hp]; rfl) (silent_print p h ())
    · cases e
  | _, .guard g p, h, x, t, e => by
    rw [text] at e
    rw [Printer.print]
    split at e
    · rename_i hg; rw [if_pos hg]; exact print_text p h x t e
    · cases e
  | _, .act f p, h, x, t, e => print_text p h (f x) t e

end Verif.Printer
