import Verif.DataText.AddrText
import Verif.DataText.Quoted

/-!
Nested values: the round trip by induction on the depth.
-/
namespace Verif.DataText
open Verif.Data Verif.Address Spec

mutual
/-- The nesting depth of a value. -/
def depth : Data → Nat
  | .list xs => depthAll xs + 1
  | .map ks vs => max (depthAll ks) (depthAll vs) + 1
  | .record _ vs => depthAll vs + 1
  | _ => 1

def depthAll : List Data → Nat
  | [] => 0
  | x :: xs => max (depth x) (depthAll xs)
end

theorem skipWs_cons {b : UInt8} (h : isSpace b = false) (s : Str) : skipWs (b :: s) = b :: s := by simp [skipWs, h]
theorem skipWs_clean {t : Str} (h : headNot isSpace t = true) : skipWs t = t := by
  cases t with
  | nil => rfl
  | cons b t => exact skipWs_cons (by simpa using h) t
theorem skipWs_space (s : Str) : skipWs (ch ' ' :: s) = skipWs s := rfl
theorem headNot_append {p : UInt8 → Bool} {t : Str} (h : headNot p t = true) (hne : t ≠ []) (s : Str) : headNot p (t ++ s) = true := by
  cases t with
  | nil => exact absurd rfl hne
  | cons b t => simpa using h

/-- An element of a container is read up to the next separator or closing bracket, with or without a space in front. -/
def Elem (q : P α) (c : Char) (v : α) (t : Str) : Prop :=
  ∀ s, (∃ u, s = ch ',' :: u) ∨ (∃ u, s = ch c :: u) → q (t ++ s) = some (v, s) ∧ q (ch ' ' :: (t ++ s)) = some (v, s)

/-- The texts of the elements after the first. -/
def rest (ts : List Str) (close : Str) : Str :=
  match ts with
  | [] => close
  | t :: ts => ch ',' :: ch ' ' :: (t ++ rest ts close)

theorem join_rest (t : Str) (ts : List Str) (close : Str) : join comma (t :: ts) ++ close = t ++ rest ts close := by
  induction ts generalizing t with
  | nil => rfl
  | cons u ts ih =>
    have := ih u
    simp only [join, rest, comma, List.append_assoc, List.cons_append, List.nil_append] at *
    rw [this]

theorem rest_stop (ts : List Str) (c : Char) (r : Str) : (∃ u, rest ts (ch c :: r) = ch ',' :: u) ∨ (∃ u, rest ts (ch c :: r) = ch c :: u) := by
  cases ts with
  | nil => exact .inr ⟨r, rfl⟩
  | cons t ts => exact .inl ⟨_, rfl⟩

theorem sepLoop_elems (q : P α) (c : Char) (hc : c ≠ ',' ∧ ch c ≠ ch ',') (es : List (α × Str)) (he : ∀ e ∈ es, Elem q c e.1 e.2) (r : Str) (n : Nat)
    (hn : es.length ≤ n) (acc : List α) :
    sepLoop q n acc (rest (es.map Prod.snd) (ch c :: r)) = (acc ++ es.map Prod.fst, ch c :: r) := by
  induction es generalizing n acc with
  | nil =>
    cases n with
    | zero => simp [sepLoop, rest]
    | succ n => simp [sepLoop, rest, eat, hc.2]
  | cons e es ih =>
    cases n with
    | zero => simp at hn
    | succ n =>
      have h1 := (he e (by simp) (rest (es.map Prod.snd) (ch c :: r)) (rest_stop _ c r)).2
      simp only [List.map_cons, rest, sepLoop, eat_cons, Option.bind_some, h1]
      rw [ih (fun x hx => he x (by simp [hx])) n (by simpa using hn)]
      simp

theorem rest_length (ts : List Str) (s : Str) : ts.length ≤ (rest ts s).length := by
  induction ts with
  | nil => simp
  | cons t ts ih => simp [rest]; omega

theorem maybeSep_elems (q : P α) (c : Char) (hc : c ≠ ',' ∧ ch c ≠ ch ',') (es : List (α × Str)) (he : ∀ e ∈ es, Elem q c e.1 e.2) (r : Str)
    (h0 : q (ch c :: r) = none) :
    maybeSep q (join comma (es.map Prod.snd) ++ ch c :: r) = (es.map Prod.fst, ch c :: r) := by
  cases es with
  | nil => simp [maybeSep, sepP, join, h0]
  | cons e es =>
    have h1 := (he e (by simp) (rest (es.map Prod.snd) (ch c :: r)) (rest_stop _ c r)).1
    have h2 := rest_length (es.map Prod.snd) (ch c :: r)
    rw [List.length_map] at h2
    rw [List.map_cons, join_rest]
    simp only [maybeSep, sepP, h1, Option.getD_some]
    rw [sepLoop_elems q c hc es (fun x hx => he x (by simp [hx])) r _ h2]
    simp

theorem trailing_close (c : Char) (hc : ch c ≠ ch ',') (r : Str) : trailing (ch c :: r) = ch c :: r := by
  simp [trailing, eat, hc]

/-! Values -/

/-- A value whose text `t` the parser of depth `n` reads. -/
structure Item (env : Env) (n : Nat) (x : Data) (t : Str) : Prop where
  ne : t ≠ []
  clean : headNot isSpace t = true
  reads : ∀ r, Delim r → dataP env n (t ++ r) = some (x, r)

theorem Item.spaced {env : Env} {n : Nat} {x : Data} {t : Str} (h : Item env n x t) (s : Str) (hs : Delim s) :
    spaced (dataP env n) (t ++ s) = some (x, skipWs s) ∧ spaced (dataP env n) (ch ' ' :: (t ++ s)) = some (x, skipWs s) := by
  have h1 := skipWs_clean (headNot_append h.clean h.ne s)
  simp [DataText.spaced, skipWs_space, h1, h.reads s hs]

theorem Item.elem {env : Env} {n : Nat} {x : Data} {t : Str} (h : Item env n x t) (c : Char) (hs : ∀ r, Delim (ch c :: r))
    (hw : isSpace (ch c) = false) : Elem (DataText.spaced (dataP env n)) c x t := by
  intro s hs'
  rcases hs' with ⟨u, rfl⟩ | ⟨u, rfl⟩
  · have := h.spaced _ (Delim.comma u)
    exact this
  · have := h.spaced _ (hs u)
    rwa [skipWs_cons hw] at this

theorem Item.entry {env : Env} {n : Nat} {x y : Data} {t u : Str} (h : Item env n x t) (h' : Item env n y u) :
    Elem (kvP (dataP env n)) '}' (x, y) (printEntry t u) := by
  intro s hs
  have hd : Delim s := by
    rcases hs with ⟨v, rfl⟩ | ⟨v, rfl⟩
    · exact .comma v
    · exact .map v
  have hw : skipWs s = s := by
    rcases hs with ⟨v, rfl⟩ | ⟨v, rfl⟩ <;> rfl
  have h1 := h.spaced (ch ' ' :: ch '-' :: ch '>' :: ch ' ' :: (u ++ s)) (Delim.arrow _)
  have h2 := (h'.spaced s hd).2
  have e : printEntry t u ++ s = t ++ ch ' ' :: ch '-' :: ch '>' :: ch ' ' :: (u ++ s) := by simp [printEntry]
  have h3 : skipWs (ch ' ' :: ch '-' :: ch '>' :: ch ' ' :: (u ++ s)) = ch '-' :: ch '>' :: ch ' ' :: (u ++ s) := rfl
  have h4 : kw ['-', '>'] (ch '-' :: ch '>' :: ch ' ' :: (u ++ s)) = some (ch ' ' :: (u ++ s)) := rfl
  rw [e]
  rw [h3] at h1
  rw [hw] at h2
  constructor
  · simp only [kvP, h1.1, h4, Option.bind_some, h2]
  · simp only [kvP, h1.2, h4, Option.bind_some, h2]

theorem nameChar_ident {b : UInt8} (h : NameChar b) : isIdent b = true ∧ isSpace b = false := by
  have e1 : (ch '_').toNat = 95 := by decide
  have e2 : (ch '.').toNat = 46 := by decide
  have hb : ∀ c, (b == c) = decide (b.toNat = c.toNat) := by
    intro c
    rw [Bool.eq_iff_iff]
    simp [UInt8.toNat_inj]
  have f1 := hb (ch '_')
  have f2 := hb (ch '.')
  rw [e1] at f1
  rw [e2] at f2
  unfold NameChar at h
  simp only [isIdent, isAlnum, isDigit, isSpace, f1, f2, Bool.or_eq_true, Bool.and_eq_true, decide_eq_true_eq, Bool.or_eq_false_iff,
    beq_eq_false_iff_ne, Bool.and_eq_false_iff, decide_eq_false_iff_not]
  omega

theorem takeIdent_name (s : Str) (h : ∀ b ∈ s, NameChar b) (r : Str) : takeIdent (s ++ ch ':' :: r) = (s, ch ':' :: r) := by
  induction s with
  | nil => rfl
  | cons b s ih => simp [takeIdent, (nameChar_ident (h b (by simp))).1, ih fun x hx => h x (by simp [hx])]

theorem Item.field {env : Env} {n : Nat} {y : Data} {u : Str} (h' : Item env n y u) (name : Str) (hn : NameOk name) :
    Elem (namedP (dataP env n)) '>' (name, y) (printField name u) := by
  intro s hs
  have hd : Delim s := by
    rcases hs with ⟨v, rfl⟩ | ⟨v, rfl⟩
    · exact .comma v
    · exact .record v
  have hw : skipWs s = s := by
    rcases hs with ⟨v, rfl⟩ | ⟨v, rfl⟩ <;> rfl
  have h2 := (h'.spaced s hd).2
  rw [hw] at h2
  have e : printField name u ++ s = name ++ ch ':' :: ch ' ' :: (u ++ s) := by simp [printField]
  have h3 : skipWs (name ++ ch ':' :: ch ' ' :: (u ++ s)) = name ++ ch ':' :: ch ' ' :: (u ++ s) := by
    cases name with
    | nil => exact absurd rfl hn.1
    | cons b name => exact skipWs_cons (nameChar_ident (hn.2 b (by simp))).2 _
  have h4 := takeIdent_name name hn.2 (ch ' ' :: (u ++ s))
  rw [e]
  constructor
  · simp only [namedP, h3, h4, if_neg hn.1, eat_cons, Option.bind_some, h2]
  · simp only [namedP, skipWs_space, h3, h4, if_neg hn.1, eat_cons, Option.bind_some, h2]

/-! Maps and records out of their entries -/

theorem mapAdd_last (k v : Data) (xs : List (Data × Data)) (h : ∀ e ∈ xs, e.1.lt k = true) : mapAdd k v xs = xs ++ [(k, v)] := by
  induction xs with
  | nil => rfl
  | cons e xs ih =>
    obtain ⟨k', v'⟩ := e
    have h1 : k'.lt k = true := h (k', v') (by simp)
    simp [mapAdd, h1, ih fun x hx => h x (by simp [hx])]

theorem foldl_mapAdd (xs acc : List (Data × Data)) (h : (acc ++ xs).Pairwise fun a b => a.1.lt b.1 = true) :
    xs.foldl (fun m e => mapAdd e.1 e.2 m) acc = acc ++ xs := by
  induction xs generalizing acc with
  | nil => simp
  | cons e xs ih =>
    have h1 : ∀ a ∈ acc, a.1.lt e.1 = true := fun a ha => (List.pairwise_append.mp h).2.2 a ha e (by simp)
    simp only [List.foldl_cons, mapAdd_last e.1 e.2 acc h1]
    rw [ih (acc ++ [(e.1, e.2)]) (by simpa using h)]
    simp

theorem foldl_recordAdd (xs acc : List (Str × Data)) (h : ((acc ++ xs).map Prod.fst).Nodup) :
    xs.foldl (fun m f => recordAdd f m) acc = acc ++ xs := by
  induction xs generalizing acc with
  | nil => simp
  | cons e xs ih =>
    have h1 : (acc.any fun g => g.1 == e.1) = false := by
      rw [List.any_eq_false]
      intro a ha
      rw [List.map_append] at h
      have := (List.nodup_append.mp h).2.2 a.1 (List.mem_map_of_mem ha) e.1 (by simp)
      simpa using this
    have h2 : recordAdd e acc = acc ++ [e] := by simp [recordAdd, h1]
    rw [List.foldl_cons, h2, ih (acc ++ [e]) (by simpa using h)]
    simp

theorem mkMap_zip (ks vs : List Data) (hl : ks.length = vs.length) (h : ks.Pairwise fun a b => a.lt b = true) :
    mkMap (ks.zip vs) = .map ks vs := by
  have h1 : (ks.zip vs).map Prod.fst = ks := List.map_fst_zip (by omega)
  have h2 : (ks.zip vs).map Prod.snd = vs := List.map_snd_zip (by omega)
  have h3 : (ks.zip vs).Pairwise fun a b => a.1.lt b.1 = true := by
    rw [← h1] at h
    exact (List.pairwise_map.mp h)
  simp only [mkMap, foldl_mapAdd (ks.zip vs) [] h3, List.nil_append, h1, h2]

theorem mkRecord_zip (ns : List Str) (vs : List Data) (hl : ns.length = vs.length) (h : ns.Nodup) :
    mkRecord (ns.zip vs) = .record ns vs := by
  have h1 : (ns.zip vs).map Prod.fst = ns := List.map_fst_zip (by omega)
  have h2 : (ns.zip vs).map Prod.snd = vs := List.map_snd_zip (by omega)
  simp only [mkRecord, foldl_recordAdd (ns.zip vs) [] (by simpa [h1] using h), List.nil_append, h1, h2]

/-! The alternatives -/

theorem alternatives_nil (env : Env) (p : P Data) (r : Str) : alternatives env p ([ch 'n', ch 'i', ch 'l'] ++ r) = some (.none, r) := rfl

theorem alternatives_true (env : Env) (p : P Data) (r : Str) : alternatives env p (ch 'T' :: r) = some (.bool true, r) := rfl

theorem alternatives_false (env : Env) (p : P Data) (r : Str) (hr : Delim r) : alternatives env p (ch 'F' :: r) = some (.bool false, r) := by
  have hs := stickyA_of hr.headNot_sticky
  have h1 : h16c (ch 'F' :: r) = none := by
    have : h16 (ch 'F' :: r) = some r := h16_group (g := [ch 'F']) ⟨by simp, by simp, by intro b hb; simp at hb; rw [hb]; decide⟩ r (stickyA_x hs)
    rw [h16c, this]; exact stickyA_colon hs
  have h2 : addrP (ch 'F' :: r) = none := addrP_none rfl h1 (v4P_other rfl)
  have h3 := netP_none h2
  have h4 : timeP env (ch 'F' :: r) = none := rfl
  have h5 : durationP env (ch 'F' :: r) = none := rfl
  simp only [alternatives, h2, h3, h4, h5]
  rfl

theorem alternatives_string (env : Env) (p : P Data) (s : Str) (h : StringOk s) (r : Str) :
    alternatives env p (printString s ++ r) = some (.string s, r) := by
  have h1 := quotedP_string s h r
  have e : printString s ++ r = ch '"' :: (s.flatMap escapeByte ++ [ch '"'] ++ r) := rfl
  have hb : firstOf ([as .time (timeP env (ch '"' :: (s.flatMap escapeByte ++ [ch '"'] ++ r)))]) = none := rfl
  unfold alternatives
  rw [h1, e]
  rfl

theorem alternatives_pattern (env : Env) (p : P Data) (s : Str) (h : PatternOk s) (r : Str) :
    alternatives env p (printPattern s ++ r) = some (.pattern s, r) := by
  have h1 := quotedP_pattern s h r
  have e : printPattern s ++ r = ch '/' :: (s ++ [ch '/'] ++ r) := rfl
  unfold alternatives
  rw [h1, e]
  rfl

theorem alternatives_list (env : Env) (p : P Data) (s : Str) (v : Data × Str) (h : listP p (ch '[' :: s) = some v) :
    alternatives env p (ch '[' :: s) = some v := by
  unfold alternatives
  rw [h]
  rfl

theorem alternatives_map (env : Env) (p : P Data) (s : Str) (v : Data × Str) (h : mapP p (ch '{' :: s) = some v) :
    alternatives env p (ch '{' :: s) = some v := by
  unfold alternatives
  rw [h]
  rfl

theorem alternatives_record (env : Env) (p : P Data) (s : Str) (v : Data × Str) (h : namedRecordP p (ch '<' :: s) = some v) :
    alternatives env p (ch '<' :: s) = some v := by
  unfold alternatives
  rw [h]
  rfl

theorem alternatives_close (env : Env) (p : P Data) (r : Str) :
    alternatives env p (ch ']' :: r) = none ∧ alternatives env p (ch '}' :: r) = none := ⟨rfl, rfl⟩

theorem dataP_close (env : Env) (n : Nat) (r : Str) : dataP env n (ch ']' :: r) = none ∧ dataP env n (ch '}' :: r) = none := by
  cases n with
  | zero => exact ⟨rfl, rfl⟩
  | succ n => exact alternatives_close env _ r

theorem listP_elems (env : Env) (n : Nat) (es : List (Data × Str)) (he : ∀ e ∈ es, Item env n e.1 e.2) (r : Str) :
    listP (dataP env n) (ch '[' :: (join comma (es.map Prod.snd) ++ ch ']' :: r)) = some (.list (es.map Prod.fst), r) := by
  have h0 : spaced (dataP env n) (ch ']' :: r) = none := by
    simp [spaced, skipWs_cons (b := ch ']') (by decide) r, (dataP_close env n r).1]
  have h := maybeSep_elems (spaced (dataP env n)) ']' (by decide) es (fun e h => (he e h).elem ']' Delim.list (by decide)) r h0
  simp only [listP, eat_cons, h, trailing_close ']' (by decide)]

theorem mem_zipWith {f : α → β → γ} {xs : List α} {ys : List β} {z : γ} (h : z ∈ List.zipWith f xs ys) :
    ∃ x ∈ xs, ∃ y ∈ ys, z = f x y := by
  induction xs generalizing ys with
  | nil => simp at h
  | cons x xs ih =>
    cases ys with
    | nil => simp at h
    | cons y ys =>
      simp only [List.zipWith_cons_cons, List.mem_cons] at h
      rcases h with rfl | h
      · exact ⟨x, by simp, y, by simp, rfl⟩
      · obtain ⟨a, ha, b, hb, e⟩ := ih h
        exact ⟨a, by simp [ha], b, by simp [hb], e⟩

theorem mapP_elems (env : Env) (n : Nat) (ks vs : List (Data × Str)) (hk : ∀ e ∈ ks, Item env n e.1 e.2) (hv : ∀ e ∈ vs, Item env n e.1 e.2)
    (r : Str) :
    mapP (dataP env n) (ch '{' :: (join comma (List.zipWith printEntry (ks.map Prod.snd) (vs.map Prod.snd)) ++ ch '}' :: r)) =
      some (mkMap ((ks.map Prod.fst).zip (vs.map Prod.fst)), r) := by
  have h0 : kvP (dataP env n) (ch '}' :: r) = none := by
    simp [kvP, spaced, skipWs_cons (b := ch '}') (by decide) r, (dataP_close env n r).2]
  have he : ∀ e ∈ List.zipWith (fun (a b : Data × Str) => ((a.1, b.1), printEntry a.2 b.2)) ks vs, Elem (kvP (dataP env n)) '}' e.1 e.2 := by
    intro e h
    obtain ⟨a, ha, b, hb, rfl⟩ := mem_zipWith h
    exact (hk a ha).entry (hv b hb)
  have h := maybeSep_elems (kvP (dataP env n)) '}' (by decide) _ he r h0
  have e1 : (List.zipWith (fun (a b : Data × Str) => ((a.1, b.1), printEntry a.2 b.2)) ks vs).map Prod.snd =
      List.zipWith printEntry (ks.map Prod.snd) (vs.map Prod.snd) := by
    rw [List.map_zipWith, List.zipWith_map]
  have e2 : (List.zipWith (fun (a b : Data × Str) => ((a.1, b.1), printEntry a.2 b.2)) ks vs).map Prod.fst =
      (ks.map Prod.fst).zip (vs.map Prod.fst) := by
    rw [List.map_zipWith, List.zip, List.zipWith_map]
  rw [e1, e2] at h
  simp only [mapP, eat_cons, h, trailing_close '}' (by decide)]

theorem recordP_elems (env : Env) (n : Nat) (ns : List Str) (vs : List (Data × Str)) (hn : ∀ s ∈ ns, NameOk s)
    (hv : ∀ e ∈ vs, Item env n e.1 e.2) (r : Str) :
    namedRecordP (dataP env n) (ch '<' :: (join comma (List.zipWith printField ns (vs.map Prod.snd)) ++ ch '>' :: r)) =
      some (mkRecord (ns.zip (vs.map Prod.fst)), r) := by
  have h0 : namedP (dataP env n) (ch '>' :: r) = none := rfl
  have he : ∀ e ∈ List.zipWith (fun (a : Str) (b : Data × Str) => ((a, b.1), printField a b.2)) ns vs, Elem (namedP (dataP env n)) '>' e.1 e.2 := by
    intro e h
    obtain ⟨a, ha, b, hb, rfl⟩ := mem_zipWith h
    exact (hv b hb).field a (hn a ha)
  have h := maybeSep_elems (namedP (dataP env n)) '>' (by decide) _ he r h0
  have e1 : (List.zipWith (fun (a : Str) (b : Data × Str) => ((a, b.1), printField a b.2)) ns vs).map Prod.snd =
      List.zipWith printField ns (vs.map Prod.snd) := by
    rw [List.map_zipWith, List.zipWith_map_right]
  have e2 : (List.zipWith (fun (a : Str) (b : Data × Str) => ((a, b.1), printField a b.2)) ns vs).map Prod.fst =
      ns.zip (vs.map Prod.fst) := by
    rw [List.map_zipWith, List.zip, List.zipWith_map_right]
  rw [e1, e2] at h
  simp only [namedRecordP, eat_cons, h, trailing_close '>' (by decide)]

/-! The first characters -/

theorem isDigit_clean {b : UInt8} (h : isDigit b = true) : isSpace b = false := by
  simp [isDigit, isSpace] at *; omega

theorem isXDigit_clean {b : UInt8} (h : isXDigit b = true) : isSpace b = false := by
  have := forall_byte (fun b => !isXDigit b || !isSpace b) (by decide +kernel) b
  simpa [h] using this

theorem printNat_clean (n : Nat) : printNat n ≠ [] ∧ ∀ s, headNot isSpace (printNat n ++ s) = true := by
  rw [printNat_eq]
  cases h : digits n with
  | nil => exact absurd h (digits_ne_nil n)
  | cons d ds =>
    refine ⟨by simp [txt], fun s => ?_⟩
    have := isDigit_clean (digitChar_isDigit d (digits_lt n d (by simp [h])))
    simp [txt, this]

theorem printHex_clean (w : Nat) (hw : w < 65536) (s : Str) : headNot isSpace (printHex w ++ s) = true := by
  have hg := printHex_group w hw
  cases h : printHex w with
  | nil => exact absurd h hg.pos
  | cons b g => simpa using isXDigit_clean (hg.hex b (by simp [h]))

theorem wordsOf_lt (bs : List Nat) (hb : ∀ b ∈ bs, b < 256) : ∀ w ∈ wordsOf bs, w < 65536 := by
  match bs, hb with
  | [], _ => simp [wordsOf]
  | [_], _ => simp [wordsOf]
  | a :: b :: r, hb =>
    intro w hw
    simp only [wordsOf, List.mem_cons] at hw
    have ha := hb a (by simp)
    have hb' := hb b (by simp)
    rcases hw with rfl | hw
    · omega
    · exact wordsOf_lt r (fun x hx => hb x (by simp [hx])) w hw

theorem printAddr_clean (a : Address) (s : Str) : headNot isSpace (printAddr a ++ s) = true := by
  have hwlt : ∀ w ∈ wordsOf (addrBytes a), w < 65536 := by
    apply wordsOf_lt
    intro b hb
    obtain ⟨x, _, rfl⟩ := List.mem_map.mp hb
    exact x.isLt
  unfold printAddr
  split
  · rename_i h
    obtain ⟨w, x, y, z, rfl⟩ := v4_form a h
    have e : (addrBytes (.v4 w x y z)).drop 12 = [w.toNat, x.toNat, y.toNat, z.toNat] := by simp [addrBytes, Address.v4, v4MappedPrefix]
    rw [e, ntop4_head]
    exact (printNat_clean _).2 _
  · have hj : ∀ ws : List Nat, (∀ w ∈ ws, w < 65536) → ∀ s, headNot isSpace s = true →
        headNot isSpace (join [ch ':'] (ws.map printHex) ++ s) = true := by
      intro ws h s hs
      match ws with
      | [] => exact hs
      | [w] => exact printHex_clean w (h w (by simp)) s
      | w :: v :: ws => simp only [List.map_cons, join, List.append_assoc]; exact printHex_clean w (h w (by simp)) _
    unfold ntop6
    split
    · rename_i h1
      have : (wordsOf (addrBytes a)) ≠ [] := by
        obtain ⟨bs, hl⟩ := a
        match bs, hl with
        | b :: c :: bs, _ => simp [addrBytes, wordsOf]
      match hws : wordsOf (addrBytes a), this with
      | [w], _ => exact printHex_clean w (hwlt w (by simp [hws])) s
      | w :: v :: ws, _ => simp only [List.map_cons, join, List.append_assoc]; exact printHex_clean w (hwlt w (by simp [hws])) _
    split
    · rfl
    split
    · rfl
    · rw [List.append_assoc, List.append_assoc]
      exact hj _ (fun w hw => hwlt w (List.mem_of_mem_take hw)) _ rfl

/-! The induction -/

/-- What the theorem says about a value. -/
def Reads (env : Env) (n : Nat) (d : Data) : Prop := ∃ t, print env d = some t ∧ Item env n d t

theorem reads_all (env : Env) (n : Nat) (xs : List Data) (h : ∀ x ∈ xs, Reads env n x) :
    ∃ es : List (Data × Str), printAll env xs = some (es.map Prod.snd) ∧ es.map Prod.fst = xs ∧ ∀ e ∈ es, Item env n e.1 e.2 := by
  induction xs with
  | nil => exact ⟨[], by simp [printAll], rfl, by simp⟩
  | cons x xs ih =>
    obtain ⟨t, ht, hi⟩ := h x (by simp)
    obtain ⟨es, h1, h2, h3⟩ := ih fun y hy => h y (by simp [hy])
    refine ⟨(x, t) :: es, by simp [printAll, ht, h1], by simp [h2], ?_⟩
    intro e he
    rcases List.mem_cons.mp he with rfl | he
    · exact hi
    · exact h3 e he

theorem allOk_mem (xs : List Data) (h : AllOk xs) : ∀ x ∈ xs, Ok x := by
  induction xs with
  | nil => simp
  | cons y xs ih =>
    simp only [AllOk] at h
    intro x hx
    rcases List.mem_cons.mp hx with rfl | hx
    · exact h.1
    · exact ih h.2 x hx

theorem depthAll_mem (xs : List Data) : ∀ x ∈ xs, depth x ≤ depthAll xs := by
  induction xs with
  | nil => simp
  | cons y xs ih =>
    intro x hx
    simp only [depthAll]
    rcases List.mem_cons.mp hx with rfl | hx
    · omega
    · have := ih x hx; omega

theorem depth_pos (d : Data) : 0 < depth d := by
  cases d <;> simp [depth]

theorem reads_data (env : Env) (n : Nat) (d : Data) (hd : depth d ≤ n) (h : Ok d) : Reads env n d := by
  induction n generalizing d with
  | zero => have := depth_pos d; omega
  | succ n ih =>
    cases d with
    | none => exact ⟨_, rfl, by simp, rfl, fun r _ => alternatives_nil env _ r⟩
    | bool b =>
      cases b with
      | true => exact ⟨_, rfl, by simp, rfl, fun r _ => alternatives_true env _ r⟩
      | false => exact ⟨_, rfl, by simp, rfl, fun r hr => alternatives_false env _ r hr⟩
    | int i =>
      simp only [Ok] at h
      obtain ⟨t, ht, _⟩ := alternatives_int env (dataP env n) i h.1 h.2 [] .nil
      refine ⟨t, by simpa only [print] using ht, ?_, ?_, fun r hr => ?_⟩
      · unfold printInt at ht; split at ht
        · cases ht
        · split at ht <;> (injection ht with ht; rw [← ht]; simp)
      · unfold printInt at ht; split at ht
        · cases ht
        · split at ht <;> (injection ht with ht; rw [← ht]; rfl)
      · obtain ⟨t', ht', hr'⟩ := alternatives_int env (dataP env n) i h.1 h.2 r hr
        rw [ht] at ht'
        injection ht' with ht'
        subst ht'; exact hr'
    | count k =>
      simp only [Ok] at h
      exact ⟨_, by simp only [print], (printNat_clean k).1, by simpa using (printNat_clean k).2 [], fun r hr => alternatives_count env _ k h r hr⟩
    | string s =>
      simp only [Ok] at h
      exact ⟨_, by simp only [print], by simp [printString], rfl, fun r _ => alternatives_string env _ s h r⟩
    | pattern s =>
      simp only [Ok] at h
      exact ⟨_, by simp only [print], by simp [printPattern], rfl, fun r _ => alternatives_pattern env _ s h r⟩
    | address a =>
      simp only [Ok] at h
      refine ⟨_, by simp only [print], ?_, by simpa using printAddr_clean a [], fun r hr => alternatives_addr env _ a h r hr⟩
      intro he
      have := (reads_addr env a h [] rfl).2.2
      rw [he] at this; cases this
    | subnet s =>
      simp only [Ok] at h
      refine ⟨_, by simp only [print], by simp [printNet], ?_, fun r hr => alternatives_net env _ s h.1 h.2 r hr⟩
      simp only [printNet, List.append_assoc]
      exact printAddr_clean _ _
    | list xs =>
      simp only [Ok] at h
      simp only [depth] at hd
      obtain ⟨es, h1, h2, h3⟩ := reads_all env n xs fun x hx =>
        ih x (by have := depthAll_mem xs x hx; omega) (allOk_mem xs h x hx)
      refine ⟨_, by simp only [print, h1, Option.map_some]; rfl, by simp, rfl, fun r _ => ?_⟩
      have h4 := listP_elems env n es h3 r
      rw [h2] at h4
      have := alternatives_list env (dataP env n) _ _ h4
      simpa [dataP] using this
    | map ks vs =>
      simp only [Ok] at h
      simp only [depth] at hd
      obtain ⟨hk, hv, hl, hp⟩ := h
      obtain ⟨es, h1, h2, h3⟩ := reads_all env n ks fun x hx =>
        ih x (by have := depthAll_mem ks x hx; omega) (allOk_mem ks hk x hx)
      obtain ⟨fs, g1, g2, g3⟩ := reads_all env n vs fun x hx =>
        ih x (by have := depthAll_mem vs x hx; omega) (allOk_mem vs hv x hx)
      refine ⟨_, by simp only [print, h1, g1]; rfl, by simp, rfl, fun r _ => ?_⟩
      have h4 := mapP_elems env n es fs h3 g3 r
      rw [h2, g2, mkMap_zip ks vs hl hp] at h4
      have := alternatives_map env (dataP env n) _ _ h4
      simpa [dataP] using this
    | record ns vs =>
      simp only [Ok] at h
      simp only [depth] at hd
      obtain ⟨hv, hl, hp, hn⟩ := h
      obtain ⟨fs, g1, g2, g3⟩ := reads_all env n vs fun x hx =>
        ih x (by have := depthAll_mem vs x hx; omega) (allOk_mem vs hv x hx)
      refine ⟨_, by simp only [print, g1, Option.map_some]; rfl, by simp, rfl, fun r _ => ?_⟩
      have h4 := recordP_elems env n ns fs hn g3 r
      rw [g2, mkRecord_zip ns vs hl hp] at h4
      have := alternatives_record env (dataP env n) _ _ h4
      simpa [dataP] using this
    | real _ => simp only [Ok] at h
    | duration _ => simp only [Ok] at h
    | time _ => simp only [Ok] at h
    | enum _ => simp only [Ok] at h

/-! The length of the text bounds the depth -/

theorem join_length (sep : Str) (ts : List Str) : ∀ t ∈ ts, t.length ≤ (join sep ts).length := by
  induction ts with
  | nil => simp
  | cons u ts ih =>
    intro t ht
    cases ts with
    | nil => simp at ht; subst ht; simp [join]
    | cons v ts =>
      simp only [join, List.length_append]
      rcases List.mem_cons.mp ht with rfl | ht
      · omega
      · have := ih t ht; omega

theorem printAll_length (env : Env) : ∀ (xs : List Data) (ts : List Str), printAll env xs = some ts → ts.length = xs.length
  | [], ts, h => by simp only [printAll] at h; injection h with h; subst h; rfl
  | x :: xs, ts, h => by
    simp only [printAll] at h
    split at h
    · rename_i t ts' h1 h2
      injection h with h
      subst h
      simp [printAll_length env xs ts' h2]
    · cases h

theorem zipWith_left {f : α → β → γ} {xs : List α} {ys : List β} (hl : xs.length = ys.length) : ∀ x ∈ xs, ∃ y, f x y ∈ List.zipWith f xs ys := by
  induction xs generalizing ys with
  | nil => simp
  | cons a xs ih =>
    cases ys with
    | nil => simp at hl
    | cons b ys =>
      intro x hx
      rcases List.mem_cons.mp hx with rfl | hx
      · exact ⟨b, by simp⟩
      · obtain ⟨y, hy⟩ := ih (by simpa using hl) x hx
        exact ⟨y, by simp [hy]⟩

theorem zipWith_right {f : α → β → γ} {xs : List α} {ys : List β} (hl : xs.length = ys.length) : ∀ y ∈ ys, ∃ x, f x y ∈ List.zipWith f xs ys := by
  induction xs generalizing ys with
  | nil => cases ys <;> simp at *
  | cons a xs ih =>
    cases ys with
    | nil => simp at hl
    | cons b ys =>
      intro y hy
      rcases List.mem_cons.mp hy with rfl | hy
      · exact ⟨a, by simp⟩
      · obtain ⟨x, hx⟩ := ih (by simpa using hl) y hy
        exact ⟨x, by simp [hx]⟩

mutual
theorem depth_le (env : Env) : ∀ (d : Data) (t : Str), Ok d → print env d = some t → depth d ≤ t.length + 1
  | .list xs, t, hok, h => by
    simp only [print] at h
    simp only [Ok] at hok
    obtain ⟨ts, h1, rfl⟩ := Option.map_eq_some_iff.mp h
    have := depthAll_le env xs ts hok h1 (join comma ts).length (join_length comma ts)
    simp only [depth, List.length_append, List.length_cons, List.length_nil]; omega
  | .map ks vs, t, hok, h => by
    simp only [print] at h
    simp only [Ok] at hok
    split at h
    · rename_i kt vt hk hv
      injection h with h
      subst h
      have l1 := printAll_length env ks kt hk
      have l2 := printAll_length env vs vt hv
      have hl : kt.length = vt.length := by rw [l1, l2]; exact hok.2.2.1
      have b1 := depthAll_le env ks kt hok.1 hk (join comma (List.zipWith printEntry kt vt)).length (by
        intro u hu
        obtain ⟨y, hy⟩ := zipWith_left (f := printEntry) hl u hu
        have := join_length comma _ _ hy
        simp only [printEntry, List.length_append] at this; omega)
      have b2 := depthAll_le env vs vt hok.2.1 hv (join comma (List.zipWith printEntry kt vt)).length (by
        intro u hu
        obtain ⟨y, hy⟩ := zipWith_right (f := printEntry) hl u hu
        have := join_length comma _ _ hy
        simp only [printEntry, List.length_append] at this; omega)
      simp only [depth, List.length_append, List.length_cons, List.length_nil]; omega
    · cases h
  | .record ns vs, t, hok, h => by
    simp only [print] at h
    simp only [Ok] at hok
    obtain ⟨vt, hv, rfl⟩ := Option.map_eq_some_iff.mp h
    have l2 := printAll_length env vs vt hv
    have hl : ns.length = vt.length := by rw [l2]; exact hok.2.1
    have b2 := depthAll_le env vs vt hok.1 hv (join comma (List.zipWith printField ns vt)).length (by
      intro u hu
      obtain ⟨y, hy⟩ := zipWith_right (f := printField) hl u hu
      have := join_length comma _ _ hy
      simp only [printField, List.length_append] at this; omega)
    simp only [depth, List.length_append, List.length_cons, List.length_nil]; omega
  | .none, _, _, _ => by simp [depth]
  | .bool _, _, _, _ => by simp [depth]
  | .int _, _, _, _ => by simp [depth]
  | .count _, _, _, _ => by simp [depth]
  | .real _, _, _, _ => by simp [depth]
  | .duration _, _, _, _ => by simp [depth]
  | .time _, _, _, _ => by simp [depth]
  | .string _, _, _, _ => by simp [depth]
  | .pattern _, _, _, _ => by simp [depth]
  | .address _, _, _, _ => by simp [depth]
  | .subnet _, _, _, _ => by simp [depth]
  | .enum _, _, _, _ => by simp [depth]

theorem depthAll_le (env : Env) : ∀ (xs : List Data) (ts : List Str), AllOk xs → printAll env xs = some ts →
    ∀ m, (∀ t ∈ ts, t.length ≤ m) → depthAll xs ≤ m + 1
  | [], _, _, _, m, _ => by simp [depthAll]
  | x :: xs, ts, hok, h, m, hm => by
    simp only [printAll] at h
    simp only [AllOk] at hok
    split at h
    · rename_i t ts' h1 h2
      injection h with h
      subst h
      have := depth_le env x t hok.1 h1
      have := hm t (by simp)
      have := depthAll_le env xs ts' hok.2 h2 m fun u hu => hm u (by simp [hu])
      simp only [depthAll]; omega
    · cases h
end

/-- The text of a value is read as that value. -/
theorem toData_print (env : Env) (d : Data) (h : Ok d) : ∃ t, print env d = some t ∧ toData env t = some d := by
  obtain ⟨t0, ht0, _⟩ := reads_data env (depth d) d (Nat.le_refl _) h
  have hb := depth_le env d t0 h ht0
  obtain ⟨t, ht, hi⟩ := reads_data env (t0.length + 1) d hb h
  rw [ht0] at ht
  injection ht with ht
  subst ht
  have := hi.reads [] .nil
  rw [List.append_nil] at this
  exact ⟨t0, ht0, by simp [toData, this]⟩

end Verif.DataText
