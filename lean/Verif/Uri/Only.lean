import Verif.Uri.TextSpec
import Verif.Uri.Props
import Verif.Options.Lemmas
/-!
Nothing but the texts of identifiers is read as one.
-/
namespace Verif.Uri
open Verif.Data Verif.DataText Spec

/-! ### Escapes -/

theorem hex_of (a : UInt8) : Escape.isXdigit a = true → Hex a (Escape.hexVal a) := by
  intro h
  simp only [Escape.isXdigit, decide_eq_true_eq] at h
  have back : ∀ n, a.toNat = n → a = UInt8.ofNat n := by
    intro n hn; subst hn; simp
  rcases h with h | h | h
  · have h1 : Escape.hexVal a = a.toNat - 48 := by unfold Escape.hexVal; rw [if_pos h]
    have := Hex.digit (a.toNat - 48) (by omega)
    rw [← back _ (by omega)] at this
    rw [h1]; exact this
  · have h1 : Escape.hexVal a = 10 + (a.toNat - 65) := by
      unfold Escape.hexVal; rw [if_neg (by omega), if_pos h]; omega
    have := Hex.upper (a.toNat - 65) (by omega)
    rw [← back _ (by omega)] at this
    rw [h1]; exact this
  · have h1 : Escape.hexVal a = 10 + (a.toNat - 97) := by
      unfold Escape.hexVal; rw [if_neg (by omega), if_neg (by omega), if_pos h]; omega
    have := Hex.lower (a.toNat - 97) (by omega)
    rw [← back _ (by omega)] at this
    rw [h1]; exact this

theorem hex_is {a : UInt8} {m : Nat} (h : Hex a m) : Escape.isXdigit a = true := by
  cases h with
  | digit _ hn =>
    have : (UInt8.ofNat (48 + m)).toNat = 48 + m := by simp; omega
    simp only [Escape.isXdigit, this, decide_eq_true_eq]; omega
  | upper n hn =>
    have : (UInt8.ofNat (65 + n)).toNat = 65 + n := by simp; omega
    simp only [Escape.isXdigit, this, decide_eq_true_eq]; omega
  | lower n hn =>
    have : (UInt8.ofNat (97 + n)).toNat = 97 + n := by simp; omega
    simp only [Escape.isXdigit, this, decide_eq_true_eq]; omega

theorem hexVal_lt (a : UInt8) : Escape.hexVal a < 16 := by
  unfold Escape.hexVal
  split
  · omega
  · split
    · omega
    · split <;> omega

theorem nibbles : ∀ m n : Fin 16, (m.val <<< 4) ||| n.val = 16 * m.val + n.val := by decide +kernel

theorem hexByte_eq (a b : UInt8) : Escape.hexByte a b = UInt8.ofNat (16 * Escape.hexVal a + Escape.hexVal b) := by
  unfold Escape.hexByte
  rw [nibbles ⟨_, hexVal_lt a⟩ ⟨_, hexVal_lt b⟩]

theorem run_means : ∀ (n : Nat) (res s : Str), s.length ≤ n →
    (∃ x, Decoded s x ∧ Escape.run Escape.percentUnescaper n res s = some (res ++ x)) ∨
    ((∀ y, ¬ Decoded s y) ∧ Escape.run Escape.percentUnescaper n res s = some [])
  | n, res, [], _ => .inl ⟨[], .nil, by cases n <;> simp [Escape.run]⟩
  | 0, _, _ :: _, h => by simp at h
  | n + 1, res, c :: rest, h => by
    simp only [List.length_cons, Nat.add_le_add_iff_right] at h
    by_cases hc : c = 37
    · subst hc
      match rest, h with
      | [], _ => exact .inr ⟨fun y hy => by cases hy with | plain h => exact h rfl, by simp [Escape.run, Escape.percentUnescaper, Escape.percent]⟩
      | [_], _ => exact .inr ⟨fun y hy => by cases hy with | plain h => exact h rfl, by simp [Escape.run, Escape.percentUnescaper, Escape.percent]⟩
      | a :: b :: r, h =>
        by_cases hx : Escape.isXdigit a = true ∧ Escape.isXdigit b = true
        · have hstep : Escape.percentUnescaper 37 (a :: b :: r) = .ok [Escape.hexByte a b] r := by
            simp [Escape.percentUnescaper, Escape.percent, Escape.hexUnescaper, hx.1, hx.2]
          simp only [Escape.run, hstep]
          rcases run_means n (res ++ [Escape.hexByte a b]) r (by simp at h; omega) with ⟨x, hx1, hx2⟩ | ⟨hx1, hx2⟩
          · refine .inl ⟨Escape.hexByte a b :: x, ?_, by rw [hx2]; simp⟩
            rw [hexByte_eq]
            exact .escape (hex_of a hx.1) (hex_of b hx.2) hx1
          · refine .inr ⟨fun y hy => ?_, hx2⟩
            cases hy with
            | plain h => exact h rfl
            | escape _ _ h => exact hx1 _ h
        · have hstep : Escape.percentUnescaper 37 (a :: b :: r) = .fail := by
            simp only [Escape.percentUnescaper, Escape.percent, Escape.hexUnescaper, ne_eq, not_true, if_false, List.length_cons]
            rw [if_neg (by omega), if_neg (by simpa using hx)]
          refine .inr ⟨fun y hy => ?_, by simp only [Escape.run, hstep]⟩
          cases hy with
          | plain h => exact h rfl
          | escape h1 h2 _ => exact hx ⟨hex_is h1, hex_is h2⟩
    · have hstep : Escape.percentUnescaper c rest = .ok [c] rest := by simp [Escape.percentUnescaper, Escape.percent, hc]
      simp only [Escape.run, hstep]
      rcases run_means n (res ++ [c]) rest h with ⟨x, hx1, hx2⟩ | ⟨hx1, hx2⟩
      · exact .inl ⟨c :: x, .plain hc hx1, by rw [hx2]; simp⟩
      · refine .inr ⟨fun y hy => ?_, hx2⟩
        cases hy with
        | plain _ h => exact hx1 _ h
        | escape => exact hc rfl

theorem unescape_means (t : Str) : Means t (unescape t) := by
  unfold unescape Escape.percentUnescape Escape.unescape
  rcases run_means t.length [] t (Nat.le_refl _) with ⟨x, h1, h2⟩ | ⟨h1, h2⟩
  · rw [h2]; exact .inl h1
  · rw [h2]; exact .inr ⟨h1, rfl⟩

theorem queryUnescape_means (t : Str) : PlusMeans t (queryUnescape t) := unescape_means _

/-! ### Parts -/

theorem takeWhile_mem {p : UInt8 → Bool} : ∀ {s : Str} {b : UInt8}, b ∈ s.takeWhile p → p b = true
  | [], b, h => by cases h
  | c :: s, b, h => by
    rw [List.takeWhile_cons] at h
    split at h
    · rename_i hc
      rcases List.mem_cons.mp h with rfl | h
      · exact hc
      · exact takeWhile_mem h
    · cases h

theorem schemeP_only {s : Str} : ∃ a, s = a ++ (schemeP s).2 ∧ SchemeText a (schemeP s).1 := by
  unfold schemeP
  split
  · rename_i r h
    refine ⟨s.takeWhile schemeChar ++ [58], ?_, .inr ⟨rfl, fun b hb => ?_⟩⟩
    · rw [List.append_assoc]; exact (List.takeWhile_append_dropWhile (p := schemeChar) (l := s)).symm.trans (by rw [h]; rfl)
    · have := takeWhile_mem hb
      simp only [schemeChar, Bool.and_eq_true, decide_eq_true_eq, printable_iff] at this
      exact ⟨this.1.1, by simp [this.1.2, this.2]⟩
  · exact ⟨[], rfl, .inl ⟨rfl, rfl⟩⟩

theorem hostP_only {s : Str} : ∃ a, s = a ++ (hostP s).2 ∧ HostText a (hostP s).1 := by
  unfold hostP
  split
  · rename_i r
    refine ⟨[47, 47] ++ r.takeWhile schemeChar, ?_, .inr ⟨rfl, fun b hb => ?_⟩⟩
    · rw [List.append_assoc, List.takeWhile_append_dropWhile]; rfl
    · have := takeWhile_mem hb
      simp only [schemeChar, Bool.and_eq_true, decide_eq_true_eq, printable_iff] at this
      exact ⟨this.1.1, by simp [this.1.2, this.2]⟩
  · exact ⟨[], rfl, .inl ⟨rfl, rfl⟩⟩

theorem decimal_foldl (ds : List Nat) : ∀ a : Nat, ds.foldl (fun a d => a * 10 + d) a = a * 10 ^ ds.length + decimal ds := by
  induction ds with
  | nil => intro a; simp [decimal]
  | cons d ds ih =>
    intro a
    rw [List.foldl_cons, ih, decimal, List.length_cons, Nat.pow_succ, Nat.add_mul, Nat.mul_assoc, Nat.mul_comm 10, Nat.add_assoc]

theorem portP_only {s : Str} : ∃ a, s = a ++ (portP s).2 ∧ PortText a (portP s).1 := by
  unfold portP
  split
  · rename_i r
    split
    · rename_i n r' h
      unfold uintP at h
      split at h
      · rename_i hl
        simp only [Option.some.injEq, Prod.mk.injEq] at h
        obtain ⟨rfl, rfl⟩ := h
        obtain ⟨d1, d2, d3⟩ := Options.takeDigits_split 5 r
        refine ⟨58 :: txt (takeDigits 5 r).1, ?_, .inr ⟨(takeDigits 5 r).1, rfl, ?_, d3, d2, ?_⟩⟩
        · rw [List.cons_append, ← d1]
        · intro e; rw [e] at hl; simp at hl
        · unfold value; rw [decimal_foldl]; simp
      · cases h
    · exact ⟨[], rfl, .inl ⟨rfl, rfl⟩⟩
  · exact ⟨[], rfl, .inl ⟨rfl, rfl⟩⟩

theorem pathP_only : ∀ (fuel : Nat) (s : Str), s.length < fuel → ∃ a, 47 :: s = a ++ (pathP fuel s).2 ∧ PathText a (pathP fuel s).1
  | 0, s, h => by simp at h
  | fuel + 1, s, h => by
    have hs := (List.takeWhile_append_dropWhile (p := pathChar) (l := s)).symm
    have hc : Only [47, 63, 35, 32] (s.takeWhile pathChar) := by
      intro b hb
      have := takeWhile_mem hb
      simp only [pathChar, Bool.and_eq_true, decide_eq_true_eq, printable_iff] at this
      exact ⟨this.1.1.1.1, by simp [this.1.1.1.2, this.1.1.2, this.1.2, this.2]⟩
    rw [pathP]
    split
    · rename_i r hr
      rw [hr] at hs
      have hl : s.length = (s.takeWhile pathChar).length + (r.length + 1) := by
        rw [← List.length_cons (a := (47 : UInt8)), ← List.length_append, ← hs]
      obtain ⟨a, ha, ts, h1, h2, h3⟩ := pathP_only fuel r (by omega)
      refine ⟨47 :: s.takeWhile pathChar ++ a, ?_, s.takeWhile pathChar :: ts, by simp, by simp [h2], .cons ⟨hc, unescape_means _⟩ h3⟩
      rw [List.append_assoc, ← ha, List.cons_append, ← hs]
    · refine ⟨47 :: s.takeWhile pathChar, ?_, [s.takeWhile pathChar], by simp, by simp, .cons ⟨hc, unescape_means _⟩ .nil⟩
      rw [List.cons_append, ← hs]

theorem pairP_only {s : Str} {kv : Str × Str} {r : Str} (h : pairP s = some (kv, r)) : ∃ t, s = t ++ r ∧ PairText t kv := by
  unfold pairP at h
  split at h
  · cases h
  · rename_i h1
    split at h
    · rename_i q hq
      split at h
      · cases h
      · rename_i h2
        simp only [Option.some.injEq, Prod.mk.injEq] at h
        obtain ⟨rfl, rfl⟩ := h
        refine ⟨s.takeWhile keyChar ++ 61 :: q.takeWhile valueChar, ?_, _, _, rfl, h1, h2, ?_, ?_, unescape_means _, queryUnescape_means _⟩
        · rw [List.append_assoc, List.cons_append, List.takeWhile_append_dropWhile, ← hq, List.takeWhile_append_dropWhile]
        · intro b hb
          have := takeWhile_mem hb
          simp only [keyChar, Bool.and_eq_true, decide_eq_true_eq, printable_iff] at this
          exact ⟨this.1, by simp [this.2]⟩
        · intro b hb
          have := takeWhile_mem hb
          simp only [valueChar, Bool.and_eq_true, decide_eq_true_eq, printable_iff] at this
          exact ⟨this.1.1.1, by simp [this.1.1.2, this.1.2, this.2]⟩
    · cases h

/-- The keys ascend, and each has the first value that was given. -/
def Firsts (q kvs : List (Str × Str)) : Prop := q.Pairwise (fun a b => a.1 < b.1) ∧ ∀ k v, (k, v) ∈ q ↔ FirstOf k v kvs

theorem str_eq {a b : Str} (h1 : ¬ a < b) (h2 : ¬ b < a) : a = b := List.le_antisymm (List.not_lt.1 h2) (List.not_lt.1 h1)

theorem mem_insert (x : Str × Str) : ∀ {q : List (Str × Str)}, q.Pairwise (fun a b => a.1 < b.1) → ∀ y, y ∈ insert x q ↔
    y ∈ q ∨ y = x ∧ ∀ w, (x.1, w) ∉ q
  | [], _, y => by simp [insert]
  | z :: q, h, y => by
    obtain ⟨hz, hq⟩ := List.pairwise_cons.mp h
    rw [insert]
    split
    · rename_i hlt
      constructor
      · intro hy
        rcases List.mem_cons.mp hy with rfl | hy
        · refine .inr ⟨rfl, fun w hw => ?_⟩
          rcases List.mem_cons.mp hw with rfl | hw
          · exact List.lt_irrefl _ hlt
          · exact List.lt_irrefl _ (List.lt_trans hlt (hz (y.1, w) hw))
        · exact .inl hy
      · rintro (hy | ⟨rfl, _⟩)
        · exact List.mem_cons_of_mem _ hy
        · exact List.mem_cons_self
    · rename_i h1
      split
      · rename_i h2
        rw [List.mem_cons, mem_insert x hq y, List.mem_cons]
        constructor
        · rintro (hy | hy | ⟨hy, hw⟩)
          · exact .inl (.inl hy)
          · exact .inl (.inr hy)
          · refine .inr ⟨hy, fun w hw' => ?_⟩
            rcases List.mem_cons.mp hw' with rfl | hw'
            · exact List.lt_irrefl _ h2
            · exact hw w hw'
        · rintro ((hy | hy) | ⟨hy, hw⟩)
          · exact .inl hy
          · exact .inr (.inl hy)
          · exact .inr (.inr ⟨hy, fun w hw' => hw w (List.mem_cons_of_mem _ hw')⟩)
      · rename_i h2
        have e := str_eq h1 h2
        constructor
        · exact .inl
        · rintro (hy | ⟨_, hw⟩)
          · exact hy
          · exact absurd (by rw [e]; exact List.mem_cons_self) (hw z.2)

theorem insert_sorted (x : Str × Str) : ∀ {q : List (Str × Str)}, q.Pairwise (fun a b => a.1 < b.1) →
    (insert x q).Pairwise fun a b => a.1 < b.1
  | [], _ => by simp [insert]
  | z :: q, h => by
    obtain ⟨hz, hq⟩ := List.pairwise_cons.mp h
    rw [insert]
    split
    · rename_i hlt
      refine List.pairwise_cons.mpr ⟨fun y hy => ?_, h⟩
      rcases List.mem_cons.mp hy with rfl | hy
      · exact hlt
      · exact List.lt_trans hlt (hz _ hy)
    · split
      · rename_i h2
        refine List.pairwise_cons.mpr ⟨fun y hy => ?_, insert_sorted x hq⟩
        rcases (mem_insert x hq y).mp hy with hy | ⟨rfl, _⟩
        · exact hz _ hy
        · exact h2
      · exact h

theorem firstOf_snoc {k v : Str} {kvs : List (Str × Str)} {x : Str × Str} : FirstOf k v (kvs ++ [x]) ↔
    FirstOf k v kvs ∨ (k, v) = x ∧ ∀ w, (k, w) ∉ kvs := by
  constructor
  · rintro ⟨before, after, e, hb⟩
    rcases List.eq_nil_or_concat after with rfl | ⟨after', y, rfl⟩
    · rw [List.append_inj_left' e rfl]
      have := List.append_inj_right' e rfl
      simp only [List.cons.injEq, and_true] at this
      exact .inr ⟨this.symm, hb⟩
    · rw [List.concat_eq_append, show before ++ (k, v) :: (after' ++ [y]) = (before ++ (k, v) :: after') ++ [y] by simp] at e
      exact .inl ⟨before, after', List.append_inj_left' e rfl, hb⟩
  · rintro (⟨before, after, rfl, hb⟩ | ⟨rfl, hw⟩)
    · exact ⟨before, after ++ [x], by simp, hb⟩
    · exact ⟨kvs, [], rfl, hw⟩

theorem first_exists {k w : Str} : ∀ {kvs : List (Str × Str)}, (k, w) ∈ kvs → ∃ v, FirstOf k v kvs
  | [], h => by cases h
  | (k', v') :: kvs, h => by
    by_cases e : k' = k
    · subst e; exact ⟨v', [], kvs, rfl, by simp⟩
    · rcases List.mem_cons.mp h with h | h
      · cases h; exact absurd rfl e
      · obtain ⟨v, before, after, rfl, hb⟩ := first_exists h
        refine ⟨v, (k', v') :: before, after, rfl, fun w hw => ?_⟩
        rcases List.mem_cons.mp hw with hw | hw
        · cases hw; exact e rfl
        · exact hb w hw

theorem firsts_insert {q kvs : List (Str × Str)} (h : Firsts q kvs) (x : Str × Str) : Firsts (insert x q) (kvs ++ [x]) := by
  refine ⟨insert_sorted x h.1, fun k v => ?_⟩
  rw [mem_insert x h.1, firstOf_snoc, h.2]
  have hiff : (∀ w, (x.1, w) ∉ q) ↔ ∀ w, (x.1, w) ∉ kvs := by
    constructor
    · intro hq w hw
      obtain ⟨v, hv⟩ := first_exists hw
      exact hq v ((h.2 _ _).mpr hv)
    · intro hk w hw
      obtain ⟨before, after, e, _⟩ := (h.2 _ _).mp hw
      exact hk w (by rw [e]; simp)
  constructor
  · rintro (h | ⟨rfl, hw⟩)
    · exact .inl h
    · exact .inr ⟨rfl, hiff.mp hw⟩
  · rintro (h | ⟨rfl, hw⟩)
    · exact .inl h
    · exact .inr ⟨rfl, hiff.mpr hw⟩

theorem pairsP_only : ∀ (fuel : Nat) (q kvs : List (Str × Str)) (s : Str), Firsts q kvs → ∃ (ps : List Str) (more : List (Str × Str)),
    s = ps.flatMap (38 :: ·) ++ (pairsP fuel q s).2 ∧ List.Forall₂ PairText ps more ∧ Firsts (pairsP fuel q s).1 (kvs ++ more)
  | 0, q, kvs, s, h => ⟨[], [], rfl, .nil, by simpa [pairsP] using h⟩
  | fuel + 1, q, kvs, s, h => by
    have stop : ∃ (ps : List Str) (more : List (Str × Str)), s = ps.flatMap (38 :: ·) ++ (q, s).2 ∧ List.Forall₂ PairText ps more ∧
        Firsts (q, s).1 (kvs ++ more) := ⟨[], [], rfl, .nil, by simpa using h⟩
    rw [pairsP.eq_def]
    dsimp only
    split
    · rename_i r
      split
      · rename_i kv r' hp
        obtain ⟨t, rfl, ht⟩ := pairP_only hp
        obtain ⟨ps, more, h1, h2, h3⟩ := pairsP_only fuel (insert kv q) (kvs ++ [kv]) r' (firsts_insert h kv)
        refine ⟨t :: ps, kv :: more, ?_, .cons ht h2, by simpa using h3⟩
        rw [List.flatMap_cons, List.append_assoc, ← h1]; rfl
      · exact stop
    · exact stop

theorem queryP_only {s : Str} : ∃ a, s = a ++ (queryP s).2 ∧ QueryText a (queryP s).1 := by
  unfold queryP
  split
  · rename_i r
    split
    · rename_i kv r' hp
      obtain ⟨t, rfl, ht⟩ := pairP_only hp
      have h0 : Firsts [] [] := ⟨.nil, fun k v => ⟨fun h => by simp at h, fun ⟨before, after, e, _⟩ => by simp at e⟩⟩
      obtain ⟨ps, more, h1, h2, h3⟩ := pairsP_only r'.length (insert kv []) [kv] r' (firsts_insert h0 kv)
      refine ⟨63 :: t ++ ps.flatMap (38 :: ·), ?_, .inr ⟨t, ps, kv :: more, rfl, .cons ht h2, h3⟩⟩
      rw [List.append_assoc, ← h1]; rfl
    · exact ⟨[], rfl, .inl ⟨rfl, rfl⟩⟩
  · exact ⟨[], rfl, .inl ⟨rfl, rfl⟩⟩

theorem fragmentP_only {s : Str} : ∃ a, s = a ++ (fragmentP s).2 ∧ FragmentText a (fragmentP s).1 := by
  unfold fragmentP
  split
  · rename_i r
    refine ⟨35 :: r.takeWhile fragmentChar, ?_, .inr ⟨rfl, fun b hb => ?_⟩⟩
    · rw [List.cons_append, List.takeWhile_append_dropWhile]
    · have := takeWhile_mem hb
      simp only [fragmentChar, Bool.and_eq_true, decide_eq_true_eq, printable_iff] at this
      exact ⟨this.1, by simp [this.2]⟩
  · exact ⟨[], rfl, .inl ⟨rfl, rfl⟩⟩

/-- **C171.**  Whatever is read as an identifier is the text of one: a scheme, a host, a port, a path, a query and a fragment in this order, all
but the path optional; and the parts of the identifier are what those of the text mean. -/
theorem C171_only (s : Str) (u : Uri) (h : parse s = some u) : Text s u := by
  unfold parse at h
  dsimp only at h
  split at h
  · rename_i r hr
    split at h
    · rename_i hf
      cases h
      obtain ⟨a, e1, h1⟩ := schemeP_only (s := s)
      obtain ⟨b, e2, h2⟩ := hostP_only (s := (schemeP s).2)
      obtain ⟨c, e3, h3⟩ := portP_only (s := (hostP (schemeP s).2).2)
      obtain ⟨d, e4, h4⟩ := pathP_only (r.length + 1) r (Nat.lt_succ_self _)
      obtain ⟨e, e5, h5⟩ := queryP_only (s := (pathP (r.length + 1) r).2)
      obtain ⟨f, e6, h6⟩ := fragmentP_only (s := (queryP (pathP (r.length + 1) r).2).2)
      refine ⟨a, b, c, d, e, f, ?_, h1, h2, h3, h4, h5, h6⟩
      rw [hf, List.append_nil] at e6
      rw [e6] at e5
      rw [e5] at e4
      rw [hr, e4] at e3
      rw [e3] at e2
      rw [e2] at e1
      simpa using e1
    · cases h
  · cases h

/-- Repeated keys, a `+`, and a wrong escape. -/
example : parse (str "x:/a%2fb/%zz?k=1+2&k=3&b=%41") =
    some ⟨str "x", [], 0, [str "a/b", []], [(str "b", str "A"), (str "k", str "1 2")], []⟩ := by decide +kernel

/-- Nothing may follow. -/
example : parse (str "x:/a#b c") = none := by decide +kernel

/-- **C171 (refuted).**  The key of a pair may contain `&` and `#`: what is written as a parameter without a value becomes part of the key of the
next one. -/
theorem C171_key_refuted : parse (str "/?a&b=c") = some { path := [[]], query := [(str "a&b", str "c")] } := by decide +kernel

end Verif.Uri
