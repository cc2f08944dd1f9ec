import Verif.Infer.Lemmas
import Verif.SchemaText.PrintProps
/-!
Helper lemmas: which schema the command finds, and its text.
-/
namespace Verif.Infer
open Verif.Data Verif.DataText Verif.DataText.Spec Verif.Calendar Verif.Json Verif.Json.Spec Verif.Infer.Spec Verif.Number Verif.Number.Spec

/-! ### Lines -/

theorem lines_cur : ∀ (s cur : Str), cur ≠ [] → ∃ l rest, Reader.linesFrom cur s = l :: rest ∧ l.head? = cur.head?
  | [], cur, h => ⟨cur, [], by simp [Reader.linesFrom, Reader.nonEmpty, h], rfl⟩
  | c :: r, cur, h => by
    rw [Reader.linesFrom]
    split
    · exact ⟨cur, _, by simp [Reader.nonEmpty, h]; rfl, rfl⟩
    · obtain ⟨l, rest, e, hh⟩ := lines_cur r (cur ++ [c]) (by simp)
      refine ⟨l, rest, e, ?_⟩
      rw [hh]
      cases cur with
      | nil => exact absurd rfl h
      | cons a b => simp

/-- The first line begins with the first character that ends no line. -/
theorem lines_first : ∀ (s : Str) (l : Str) (rest : List Str), Reader.linesFrom [] s = l :: rest →
    l.head? = (s.dropWhile fun b => b = 10 ∨ b = 13).head?
  | [], l, rest, h => by simp [Reader.linesFrom, Reader.nonEmpty] at h
  | c :: r, l, rest, h => by
    rw [Reader.linesFrom] at h
    split at h
    · rename_i hc
      simp only [Reader.nonEmpty, if_true, List.nil_append] at h
      rw [lines_first r l rest h]
      simp [hc]
    · rename_i hc
      obtain ⟨l', rest', e, hh⟩ := lines_cur r ([] ++ [c]) (by simp)
      rw [e] at h
      simp only [List.cons.injEq] at h
      rw [← h.1, hh]
      simp [hc]

theorem zeek_stopped (env : Env) (m : Nat) (s : Zeek.State) (e : Zeek.Stop) (h : s.mode = .stopped e) : ∀ ls : List Str,
    (ls.map Zeek.Item.line).foldl (Zeek.step env m) s = s
  | [] => rfl
  | l :: ls => by
    have : Zeek.step env m s (.line l) = s := by simp [Zeek.step, Zeek.line, h]
    simp only [List.map_cons, List.foldl_cons, this]
    exact zeek_stopped env m s e h ls

theorem zeek_none (env : Env) (input : Str) (h : (input.dropWhile fun b => b = 10 ∨ b = 13).head? ≠ some 35) : inferZeek env input = none := by
  unfold inferZeek Reader.linesOf Zeek.run
  cases hl : Reader.linesFrom [] input with
  | nil => rfl
  | cons l ls =>
    have hh := lines_first input l ls hl
    have hp : (str "#separator ").isPrefixOf l = false := by
      cases l with
      | nil => rfl
      | cons b r =>
        have : b ≠ 35 := by
          intro e
          rw [← hh, e] at h
          simp at h
        have e : str "#separator " = 35 :: (str "separator ") := by rfl
        rw [e]
        simp [List.isPrefixOf, Ne.symm this]
    have hs : Zeek.step env 1 ⟨.start, [], []⟩ (.line l) = ⟨.stopped .error, [], []⟩ := by
      simp only [Zeek.step, Zeek.line, Zeek.startHeader]
      rw [if_neg (by rw [hp]; simp)]
    simp only [List.map_cons, List.foldl_cons, hs, zeek_stopped env 1 ⟨.stopped .error, [], []⟩ .error rfl ls]
    rfl

theorem ws_brace : ∀ (a : Str), Ws a → ∀ r, ((a ++ 123 :: r).dropWhile fun b => b = 10 ∨ b = 13).head? ≠ some 35
  | [], _, r => by simp
  | c :: a, h, r => by
    have hc := h c (by simp)
    have ha : Ws a := fun b hb => h b (by simp [hb])
    rw [List.cons_append, List.dropWhile_cons]
    split
    · exact ws_brace a ha r
    · simp only [List.head?_cons, ne_eq, Option.some.injEq]
      rcases hc with rfl | rfl | rfl | rfl <;> decide

theorem document_first {line : Str} {ns : List Str} {vs : List Value} (h : Document line (.obj ns vs)) (rest : Str) :
    ((line ++ rest).dropWhile fun b => b = 10 ∨ b = 13).head? ≠ some 35 := by
  obtain ⟨_, a, t, b, rfl, ha, ht, _⟩ := h
  have : ∃ r, t = 123 :: r := by
    cases ht with
    | obj0 w _ => exact ⟨_, rfl⟩
    | obj t _ _ _ => exact ⟨_, rfl⟩
  obtain ⟨r, rfl⟩ := this
  have := ws_brace a ha (r ++ (b ++ rest))
  simpa using this

theorem split_first (max : Nat) (hm : 0 < max) : ∀ (line cur seen : Str) (tail : Str) (n : Nat), (13 : UInt8) ∉ line → line.length < n →
    (tail = [] ∨ ∃ rest, tail = 13 :: 10 :: rest) → cur ++ line ≠ [] →
    ∃ more, Escape.splitLoop [13, 10] [] max false n seen cur (line ++ tail) 0 = (cur ++ line) :: more
  | [], cur, seen, tail, n + 1, _, _, ht, hne => by
    rcases ht with rfl | ⟨rest, rfl⟩
    · exact ⟨[], by rw [List.append_nil] at hne; simp [Escape.splitLoop, hne]⟩
    · have hm' : ¬ (0 = max) := by omega
      refine ⟨Escape.splitLoop [13, 10] [] max false n (seen ++ [13, 10]) [] rest 1, ?_⟩
      rw [List.nil_append, Escape.splitLoop, if_pos ⟨by simp, by simp [Escape.escaped]⟩, if_neg hm', List.append_nil]
      rfl
  | c :: line, cur, seen, tail, n + 1, h, hl, ht, hne => by
    simp only [List.mem_cons, not_or] at h
    obtain ⟨more, e⟩ := split_first max hm line (cur ++ [c]) (seen ++ [c]) tail n h.2 (by simpa using hl) ht (by simp)
    refine ⟨more, ?_⟩
    have : ¬ (List.isPrefixOf [13, 10] (c :: (line ++ tail)) = true ∧ Escape.escaped [] seen = false) := by
      simp [List.isPrefixOf, h.1]
    rw [List.cons_append, Escape.splitLoop, if_neg this, e]
    simp

theorem split_begins {text line : Str} (h : Begins text line) (hne : line ≠ []) : ∃ more, Zeek.splitAll text [13, 10] = line :: more := by
  obtain ⟨h1, h2⟩ := h
  unfold Zeek.splitAll Escape.split
  rcases h2 with rfl | ⟨rest, rfl⟩
  · have key : ∀ (l cur seen : Str) (n : Nat), (13 : UInt8) ∉ l → l.length ≤ n → cur ++ l ≠ [] →
        Escape.splitLoop [13, 10] [] (2 ^ 64 - 1) false n seen cur l 0 = [cur ++ l] := by
      intro l
      induction l with
      | nil => intro cur seen n _ _ hne; rw [List.append_nil] at hne; simp [Escape.splitLoop, hne]
      | cons c l ih =>
        intro cur seen n hn hl _
        simp only [List.mem_cons, not_or] at hn
        cases n with
        | zero => simp at hl
        | succ n =>
          have : ¬ (List.isPrefixOf [13, 10] (c :: l) = true ∧ Escape.escaped [] seen = false) := by simp [List.isPrefixOf, hn.1]
          rw [Escape.splitLoop, if_neg this, ih _ _ n hn.2 (by simpa using hl) (by simp)]
          simp
    exact ⟨[], key text [] [] _ h1 (Nat.le_refl _) (by simpa using hne)⟩
  · obtain ⟨more, e⟩ := split_first (2 ^ 64 - 1) (by omega) line [] [] (13 :: 10 :: rest) _ h1 (by simp : line.length < (line ++ 13 :: 10 :: rest).length)
      (.inr ⟨rest, rfl⟩) (by simpa using hne)
    exact ⟨more, by simpa using e⟩

theorem begins_append {text line : Str} (h : Begins text line) : ∃ rest, text = line ++ rest := by
  rcases h.2 with rfl | ⟨r, rfl⟩
  · exact ⟨[], by simp⟩
  · exact ⟨_, rfl⟩

/-- What the command finds in an input that begins with an object. -/
theorem infer_object (env : Env) {size : Nat} {input line : Str} {ns : List Str} {vs : List Value} (hb : Begins (input.take size) line)
    (hd : Document line (.obj ns vs)) (hf : FitsAll vs) : infer env size input =
      match deduce env (.obj ns vs) with
      | .record fs => .json fs
      | _ => .nothing := by
  have hne : line ≠ [] := by
    rintro rfl
    obtain ⟨_, a, t, b, e, _, ht, _⟩ := hd
    cases ht <;> simp at e
  obtain ⟨rest, e⟩ := begins_append hb
  have hz : inferZeek env (input.take size) = none := by
    apply zeek_none
    rw [e]
    exact document_first hd rest
  obtain ⟨more, hs⟩ := split_begins hb hne
  have hsj : simdjson line = some (.obj ns vs) := by
    unfold simdjson
    rw [document_reads hd]
    have : fits (.obj ns vs) = true := fits_of _ (by simpa [Fits] using hf)
    simp [this]
  unfold infer inferJson
  simp only [hz, hs, hsj]
  cases deduce env (.obj ns vs) <;> rfl

/-! ### Kinds -/

theorem kind_deduce (env : Env) {v : Value} {t : Ty} (h : Kind v t) : deduce (withNumbers env) v = t := by
  refine Kind.rec (motive_1 := fun v t _ => deduce (withNumbers env) v = t)
    (motive_2 := fun ns vs fs _ => deduceFields (withNumbers env) ns vs = fs)
    ?_ ?_ ?_ ?_ ?_ ?_ ?_ ?_ ?_ ?_ ?_ ?_ ?_ h
  · intro b; rw [deduce]
  · intro n h1 h2 h3
    obtain ⟨i, hi⟩ := integral_int h1
    have r1 := value_range (a := -(2 ^ 63)) (b := 2 ^ 63) hi (by push_cast; exact h2) (by push_cast; exact h3)
    rcases classify_integral h1 i hi r1.1 (by omega) with ⟨_, e⟩ | ⟨h, _⟩
    · rw [deduce, e]; rfl
    · omega
  · intro n h1 h2 h3
    obtain ⟨i, hi⟩ := integral_int h1
    have r1 := value_range (a := 2 ^ 63) (b := 2 ^ 64) hi (by push_cast; exact h2) (by push_cast; exact h3)
    rcases classify_integral h1 i hi (by omega) r1.2 with ⟨h, _⟩ | ⟨_, e⟩
    · omega
    · rw [deduce, e]; rfl
  · intro n h1 h2
    simp only [Fits] at h2
    rw [deduce, classify_double h1 (h2.2 h1)]; rfl
  · intro s h; rw [deduce, deduce_word _ h]
  · intro a; rw [deduce, deduce_address]
  · intro a k hk; rw [deduce, deduce_subnet env a k hk]
  · intro t h1 h2 h3; rw [deduce, deduce_time env t h1 h2 h3]
  · intro d name u s h1 h2 h3 h4 h5; rw [deduce, deduce_duration env h1 h2 h3 h4 h5]
  · intro x xs t _ ih; rw [deduce, ih]
  · intro ns vs fs hne h ih
    rw [deduce, ih]
    cases fs with
    | nil => cases h; exact absurd rfl hne
    | cons n t fs => rfl
  · rw [deduceFields]
  · intro n v t ns vs fs _ _ ih1 ih2; rw [deduceFields, ih1, ih2]

/-! ### Ways -/

theorem alike_ways (env : Env) {v w : Value} (h : Alike v w) : v = w → (pathsOf (deduce env v)).map (·.1) = waysOf v := by
  refine Alike.rec (motive_1 := fun v w _ => v = w → (pathsOf (deduce env v)).map (·.1) = waysOf v)
    (motive_2 := fun _ _ _ => True)
    (motive_3 := fun ns vs ws _ => vs = ws → (paths (deduceFields env ns vs)).map (·.1) = ways ns vs)
    ?_ ?_ ?_ ?_ ?_ ?_ ?_ ?_ ?_ ?_ ?_ ?_ ?_ ?_ ?_ ?_ ?_ h
  case refine_1 => intro v e; subst e; rfl
  case refine_13 =>
    intro ns vs ws h1 h2 h3 h4 ih e
    rw [deduce_object env h1 (members_length h4).1, pathsOf, waysOf]
    exact ih (by simpa using e)
  case refine_17 =>
    intro n v w ns vs ws h1 h2 ih1 ih2 e
    simp only [List.cons.injEq] at e
    have e1 := ih1 e.1
    have e2 := ih2 e.2
    simp only [deduceFields, paths, ways, List.map_append, List.map_map, ← e1, ← e2]
    rfl
  all_goals first
    | (intros; exact trivial)
    | (intros; simp_all [deduceFields, paths, ways]; done)
    | skip
  all_goals
    intros
    rw [pathsOf_leaf (deduce_leaf env (by simp)), waysOf]
    · rfl
    · simp

/-- Every way leads somewhere. -/
theorem ways_along : ∀ (ns : List Str) (vs : List Value), ∀ p ∈ ways ns vs, p ≠ []
  | [], _, p, hp => by simp [ways] at hp
  | _ :: _, [], p, hp => by simp [ways] at hp
  | n :: ns, v :: vs, p, hp => by
    rw [ways, List.mem_append] at hp
    rcases hp with hp | hp
    · obtain ⟨q, _, rfl⟩ := List.mem_map.mp hp
      simp
    · exact ways_along ns vs p hp

theorem ways_head : ∀ (ns : List Str) (vs : List Value), ∀ p ∈ ways ns vs, ∃ n q, p = n :: q ∧ n ∈ ns
  | [], _, p, hp => by simp [ways] at hp
  | _ :: _, [], p, hp => by simp [ways] at hp
  | n :: ns, v :: vs, p, hp => by
    rw [ways, List.mem_append] at hp
    rcases hp with hp | hp
    · obtain ⟨q, _, rfl⟩ := List.mem_map.mp hp
      exact ⟨n, q, rfl, by simp⟩
    · obtain ⟨m, q, e, hm⟩ := ways_head ns vs p hp
      exact ⟨m, q, e, by simp [hm]⟩

theorem ways_free (v : Value) : Dotless v → ∀ p ∈ waysOf v, ∀ n ∈ p, (46 : UInt8) ∉ n := by
  refine Value.rec (motive_1 := fun v => Dotless v → ∀ p ∈ waysOf v, ∀ n ∈ p, (46 : UInt8) ∉ n)
    (motive_2 := fun vs => DotlessAll vs → ∀ ns : List Str, (∀ n ∈ ns, (46 : UInt8) ∉ n) → ∀ p ∈ ways ns vs, ∀ n ∈ p, (46 : UInt8) ∉ n)
    ?_ ?_ ?_ ?_ ?_ ?_ ?_ ?_ v
  case refine_6 =>
    intro ns vs ih h p hp
    rw [Dotless] at h
    exact ih h.2 ns h.1 p (by simpa [waysOf] using hp)
  case refine_8 =>
    intro v vs ih1 ih2 h ns hn p hp
    rw [DotlessAll] at h
    cases ns with
    | nil => simp [ways] at hp
    | cons n ns =>
      rw [ways, List.mem_append] at hp
      rcases hp with hp | hp
      · obtain ⟨q, hq, rfl⟩ := List.mem_map.mp hp
        intro m hm
        rcases List.mem_cons.mp hm with rfl | hm
        · exact hn _ (by simp)
        · exact ih1 h.1 q hq m hm
      · exact ih2 h.2 ns (fun m hm => hn m (by simp [hm])) p hp
  all_goals
    intros
    first
      | (rename_i hp n hn; simp [waysOf] at hp; subst hp; simp at hn; done)
      | (rename_i hp n hn; simp [ways] at hp; done)

theorem ways_dotless {ns : List Str} {vs : List Value} (h : Dotless (.obj ns vs)) : ∀ p ∈ ways ns vs, ∀ n ∈ p, (46 : UInt8) ∉ n :=
  fun p hp => ways_free _ h p (by simpa [waysOf] using hp)

theorem alike_own {v w : Value} (h : Alike v w) : v = w → ∀ p ∈ waysOf v, ∃ u, along p v = some u := by
  refine Alike.rec (motive_1 := fun v w _ => v = w → ∀ p ∈ waysOf v, ∃ u, along p v = some u)
    (motive_2 := fun _ _ _ => True)
    (motive_3 := fun ns vs ws _ => ns.Nodup → vs = ws → ∀ p ∈ ways ns vs, ∃ u, along p (.obj ns vs) = some u)
    ?_ ?_ ?_ ?_ ?_ ?_ ?_ ?_ ?_ ?_ ?_ ?_ ?_ ?_ ?_ ?_ ?_ h
  case refine_1 => intro v e p hp; subst e; simp [waysOf] at hp; subst hp; exact ⟨_, rfl⟩
  case refine_13 =>
    intro ns vs ws h1 h2 h3 h4 ih e p hp
    exact ih h2 (by simpa using e) p (by simpa [waysOf] using hp)
  case refine_17 =>
    intro n v w ns vs ws h1 h2 ih1 ih2 hnd e p hp
    simp only [List.cons.injEq] at e
    rw [List.nodup_cons] at hnd
    rw [ways, List.mem_append] at hp
    rcases hp with hp | hp
    · obtain ⟨q, hq, rfl⟩ := List.mem_map.mp hp
      obtain ⟨u, hu⟩ := ih1 e.1 q hq
      exact ⟨u, by simpa [along, member] using hu⟩
    · obtain ⟨u, hu⟩ := ih2 hnd.2 e.2 p hp
      obtain ⟨m, q, rfl, hm⟩ := ways_head ns vs p hp
      have hne : n ≠ m := fun e => hnd.1 (e ▸ hm)
      exact ⟨u, by simpa [along, member, hne] using hu⟩
  all_goals first
    | (intros; exact trivial)
    | (intros; simp_all [ways]; done)
    | skip
  all_goals
    intros
    rename_i p hp
    simp [waysOf] at hp
    subst hp
    exact ⟨_, rfl⟩

/-! ### Texts of schemas -/

theorem plain_none : SchemaText.Spec.PlainAttrs ({} : Types.Meta).attrs := ⟨by simp, by simp⟩

theorem described_writable (env : Env) (sch : List SchemaText.T) {v : Value} (h : Described v) :
    SchemaText.Spec.Inner sch (toT (deduce env v)) := by
  refine Described.rec (motive_1 := fun v _ => SchemaText.Spec.Inner sch (toT (deduce env v)))
    (motive_2 := fun ns vs _ => SchemaText.Spec.InnerAll sch (toFs (deduceFields env ns vs)) ∧ (ns ≠ [] → deduceFields env ns vs ≠ .nil))
    ?_ ?_ ?_ ?_ ?_ ?_ ?_ h
  · intro b; rw [deduce]; exact .unnamed rfl (.basic plain_none)
  · intro n h
    have hb : ∀ m, classify n = m → m ≠ .big := by
      intro m hm e
      subst e
      simp only [Fits] at h
      by_cases hi : n.Integral
      · obtain ⟨i, hv⟩ := integral_int hi
        have := h.1 hi
        rw [hv] at this
        have h0 : -(2 ^ 63) ≤ i := by exact_mod_cast this.1
        have h1 : i < 2 ^ 64 := by exact_mod_cast this.2
        rcases classify_integral hi i hv h0 h1 with ⟨_, e⟩ | ⟨_, e⟩ <;> rw [e] at hm <;> simp at hm
      · rw [classify_double hi (h.2 hi)] at hm
        simp at hm
    rw [deduce]
    cases hc : classify n with
    | big => exact absurd rfl (hb _ hc)
    | int i => exact .unnamed rfl (.basic plain_none)
    | uint k => exact .unnamed rfl (.basic plain_none)
    | double x => exact .unnamed rfl (.basic plain_none)
  · intro s
    rw [deduce]
    unfold deduceText
    repeat' split
    all_goals exact .unnamed rfl (.basic plain_none)
  · intro x xs _ ih
    rw [deduce]
    exact .unnamed rfl (.list ih plain_none)
  · intro ns vs hne _ ih
    cases hf : deduceFields env ns vs with
    | nil => exact absurd hf (ih.2 hne)
    | cons n t fs =>
      rw [deduce, hf]
      rw [hf] at ih
      exact .unnamed rfl (.record (by simp [toFs]) ih.1 plain_none)
  · rw [deduceFields]; exact ⟨.nil, by simp⟩
  · intro n v ns vs hn _ _ ih1 ih2
    rw [deduceFields]
    exact ⟨.cons hn ih1 ih2.1, by simp⟩

theorem layout_faithful (env : Env) {ns : List Str} {vs : List Value} (h : Described (.obj ns vs)) {fs : Fields}
    (hf : deduce env (.obj ns vs) = .record fs) : SchemaText.Spec.Faithful [layout fs] := by
  have hi := described_writable env [layout fs] h
  rw [hf] at hi
  refine ⟨by simp, ?_, ?_⟩
  · intro t ht
    simp only [List.mem_singleton] at ht
    subst ht
    have e : (layout fs).name = str "json" := rfl
    rw [e]
    exact ⟨SchemaText.name_of (by decide +kernel), by intro b; cases b <;> decide +kernel⟩
  · intro t ht
    simp only [List.mem_singleton] at ht
    subst ht
    cases hi with
    | named hn _ => exact absurd rfl hn
    | unnamed _ hw =>
      rw [toT] at hw
      cases hw with
      | record h1 h2 _ => exact .inl (.record h1 h2 ⟨by simp, by simp⟩)

end Verif.Infer
