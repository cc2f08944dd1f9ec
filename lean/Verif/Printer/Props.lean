import Verif.Printer.Lemmas
/-! # C185: combined printers write what their expression says. -/
namespace Verif.Printer
open Spec

/-- **C185.**  A printer succeeds exactly if the value has a text. -/
theorem C185_succeeds {α : Type} (p : Printer α) (x : α) : (p.print x).1 = true ↔ ∃ t, text p x = some t := by
  rw [print_fst p x, Option.isSome_iff_exists]

/-- **C185 (partial).**  A printer that succeeds has written exactly the text of the value.
Missing: printers in which something that failed has written before another alternative, or nothing, takes its place, and `&` and `!` of printers that write, for which this fails. -/
theorem C185_text_partial {α : Type} (p : Printer α) (hp : proper p = true) (x : α) (t : List Char) : p.print x = (true, t) ↔ text p x = some t := by
  refine ⟨fun h => ?_, print_text p hp x t⟩
  obtain ⟨u, hu⟩ := (C185_succeeds p x).mp (by rw [h])
  rw [print_text p hp x u hu] at h
  cases h; exact hu

/-- **C185 (partial).**  A printer of values that all have texts, such as a list in brackets with separators, writes the texts of the elements with the separators between them. -/
theorem C185_list_partial {α : Type} (p : Printer α) (hp : proper p = true) (left sep right : List Char) (xs : List α) (ts : List (List Char)) (h : xs.map (text p) = ts.map some) :
    (Printer.before (.lit left) (.after (.list p (.lit sep)) (.lit right))).print xs = (true, left ++ (sep.intercalate ts ++ right)) := by
  have hm : xs.mapM (text p) = some ts := by
    induction xs generalizing ts with
    | nil => cases ts with
      | nil => rfl
      | cons t ts => cases h
    | cons x xs ih => cases ts with
      | nil => cases h
      | cons t ts =>
        simp only [List.map_cons, List.cons.injEq] at h
        rw [List.mapM_cons, h.1, ih ts h.2]; rfl
  refine print_text _ (by simp [proper, hp]) xs _ ?_
  have hl : text (.list p (.lit sep)) xs = some (sep.intercalate ts) := by
    match xs, ts, h, hm with
    | [], [], _, _ => rfl
    | [x], [t], h, _ =>
      simp only [List.map_cons, List.map_nil, List.cons.injEq, and_true] at h
      show text p x = _
      rw [h]; simp [List.intercalate]
    | [_], _ :: _ :: _, h, _ => simp at h
    | x :: y :: xs, ts, _, hm =>
      show (do return (← text (.lit sep) ()).intercalate (← (x :: y :: xs).mapM (text p))) = _
      rw [hm]; rfl
  show (do return (← text (.lit left) ()) ++ (← (do return (← text (.list p (.lit sep)) xs) ++ (← text (.lit right) ())))) = _
  rw [hl]; rfl

/-- Lists of letters, of which some are in quotes, or `nil`. -/
def demo : Printer (List (Char ⊕ Option (List Char))) :=
  .before (.lit ['[']) (.after (.list (.choice (.guard Char.isAlpha .any) (.before (.either (.guard (fun _ => false) (.lit ['?'])) (.lit ['"'])) (.after (.opt .str) (.lit ['"'])))) (.lit [',', ' '])) (.lit [']']))

example : proper demo = true ∧ text demo [.inl 'a', .inr none, .inr (some ['x', 'y'])] = some "[a, \"\", \"xy\"]".toList ∧ text demo [.inl '1'] = none := by decide +kernel

example : demo.print [.inl 'a', .inr none, .inr (some ['x', 'y'])] = (true, "[a, \"\", \"xy\"]".toList) ∧ (demo.print [.inl 'a', .inl '1']).1 = false := by decide +kernel

example : [1, 12].map (text (.act (fun n : Nat => (Nat.repr n).toList) .str)) = ["1".toList, "12".toList].map some := by decide +kernel

/-- **C185 (refuted).**  What an alternative wrote before it failed stays in front of the text of the next one; so it does for an option. -/
theorem C185_residue_refuted :
    let p : Printer Unit := .before (.lit ['a']) (.guard (fun _ => false) (.lit ['b']))
    ((Printer.either p (.lit ['c'])).print () = (true, ['a', 'c']) ∧ text (.either p (.lit ['c'])) () = some ['c']) ∧
    ((Printer.maybe p).print () = (true, ['a']) ∧ text (.maybe p) () = some []) := by decide +kernel

/-- **C185 (refuted).**  `&` writes the text that it should only try; `!` writes it too if it fails. -/
theorem C185_lookahead_refuted (w : List Char) :
    ((Printer.conj (.lit w)).print () = (true, w) ∧ text (.conj (.lit w)) () = some []) ∧
    (∀ x : Unit, (Printer.either (.neg (.lit w)) (.lit [])).print x = (true, w) ∧ text (.either (.neg (.lit w)) (.lit [])) x = some []) := by
  refine ⟨⟨rfl, rfl⟩, fun x => ⟨?_, ?_⟩⟩
  · simp [Printer.print]
  · simp [text]

end Verif.Printer
