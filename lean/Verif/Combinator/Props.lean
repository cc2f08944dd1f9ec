import Verif.Combinator.Total
/-! # C180: combined parsers accept what their expression says.  C181: they end. -/
namespace Verif.Combinator
open Spec
variable {α : Type} [DecidableEq α]

/-- **C180 (partial).**  If a parser ends, it succeeds exactly if its expression says so, and stops where it says; if it fails, it has not moved, unless it passes on the failure of a guard.
Missing: parsers that skip characters, and loops, options, differences and the like directly about guards, for which this fails; recursive grammars. -/
theorem C180_result_partial (p : Parser α) (hp : proper p = true) (fuel : Nat) (s t : List α) (b : Bool) (h : p.run fuel s = some (b, t)) :
    (∀ r, Accepts p s r ↔ r = if b then some t else none) ∧ (b = false → restores p = true → t = s) := by
  obtain ⟨h1, h2⟩ := good fuel p hp s b t h
  have ha : Accepts p s (if b then some t else none) := by
    cases b with
    | true => exact h1 rfl
    | false => exact (h2 rfl).1
  exact ⟨fun r => ⟨fun hr => det p s _ _ hr ha, fun hr => hr ▸ ha⟩, fun hb hr => (h2 hb).2 hr⟩

/-- **C181 (partial).**  If every loop is about a parser that cannot succeed without consuming anything, parsing ends for every input; no loop runs more often than the input has characters, plus once.
Missing: other loops, for which this fails; recursive grammars. -/
theorem C181_ends_partial (p : Parser α) (hb : bounded p = true) (s : List α) (fuel : Nat) (hf : s.length < fuel) : ∃ b t, p.run fuel s = some (b, t) ∧ t <:+ s := by
  obtain ⟨⟨b, t⟩, h⟩ := total fuel p hb s hf
  exact ⟨b, t, h, rest fuel p s b t h⟩

/-- Digits. -/
def digit : Parser Char := .sat Char.isDigit

/-- Numbers up to 255 with periods between them, and something behind them; the guard is below a list. -/
def demo : Parser Char :=
  .seq (.list (.guard (.rep digit 1 3) fun u => u.length < 3 || u ≤ ['2', '5', '5']) (.sat (· == '.')))
    (.choice (.seq (.sat (· == '/')) (.plus digit)) (.choice (.symbols [['!'], ['!', '=']]) (.diff .eps (.kleene (.lit ['x'])))))

example : proper demo = true ∧ bounded demo = true ∧
    demo.run 20 "10.0.255.1/8 ".toList = some (true, " ".toList) ∧ demo.run 20 "10.256!=".toList = some (false, "10.256!=".toList) ∧
    demo.run 20 "10!=0".toList = some (true, "0".toList) ∧ demo.run 20 "10x".toList = some (false, "10x".toList) := by
  decide +kernel

/-- **C180 (refuted).**  A guard that rejects has consumed what it rejects; a loop, an option and a difference go on behind it. -/
theorem C180_guard_refuted (c : α) :
    let p : Parser α := .guard (.sat fun _ => true) fun _ => false
    p.run 2 [c] = some (false, []) ∧
    ((Parser.kleene p).run 2 [c] = some (true, []) ∧ Accepts (.kleene p) [c] (some [c])) ∧
    ((Parser.opt p).run 2 [c] = some (true, []) ∧ Accepts (.opt p) [c] (some [c])) ∧
    ((Parser.diff (.sat fun _ => true) p).run 2 [c] = some (false, []) ∧ Accepts (.diff (.sat fun _ => true) p) [c] (some [])) := by
  have h : Accepts (.guard (.sat fun _ : α => true) fun _ => false) [c] none :=
    .inl ⟨[c], [], rfl, .inl ⟨c, [], rfl, rfl, rfl⟩, .inr ⟨rfl, rfl⟩⟩
  exact ⟨rfl, ⟨rfl, 0, [c], rfl, h, rfl⟩, ⟨rfl, .inr ⟨h, rfl⟩⟩, ⟨rfl, .inr ⟨h, .inl ⟨c, [], rfl, rfl, rfl⟩⟩⟩⟩

/-- **C180 (refuted).**  As many characters as are left cannot be skipped. -/
theorem C180_skip_refuted (fuel : Nat) (s : List α) : (Parser.skip s.length).run fuel s = some (false, s) ∧ Accepts (.skip s.length) s (some []) := by
  refine ⟨?_, .inl ⟨s, [], by simp, rfl, rfl⟩⟩
  rw [Parser.run, if_pos (Nat.le_refl _)]

theorem iter_forever (step : List α → Res α) (s : List α) (h : step s = some (true, s)) : ∀ k, iter step k s = none
  | 0 => rfl
  | k + 1 => by rw [iter, h]; exact iter_forever step s h k

/-- **C181 (refuted).**  A loop about an option never ends if the option is not there. -/
theorem C181_forever_refuted (s : List Char) (h : ∀ c t, s = c :: t → c.isDigit = false) (fuel : Nat) : (Parser.kleene (.opt digit)).run fuel s = none := by
  have e : (Parser.opt digit).run fuel s = some (true, s) := by
    cases s with
    | nil => rfl
    | cons c t => simp [Parser.run, digit, h c t rfl]
  rw [Parser.run, iter_forever _ s e]; rfl

end Verif.Combinator
