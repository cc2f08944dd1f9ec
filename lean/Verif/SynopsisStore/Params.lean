import Verif.SynopsisStore.ParamsSpec
import Verif.SynopsisStore.Props
import Verif.TestGen.Exact
/-! # C172–C173: attributes that say which synopsis a column gets; and synopses before they are written -/
namespace Verif.SynopsisStore
open Verif.Data Verif.DataText Verif.Calendar Verif.Synopsis Spec

theorem kw_back : ∀ {w : List Char} {s r : Str}, kw w s = some r → s = w.map ch ++ r
  | [], s, r, h => by cases h; rfl
  | c :: w, s, r, h => by
    rw [kw] at h
    split at h
    · cases h
    · rename_i q hq
      rw [TestGen.eat_back hq, kw_back h]; rfl

theorem value_foldl (ds : List Nat) : ∀ a : Nat, ds.foldl (fun a d => a * 10 + d) a = a * 10 ^ ds.length + decimal ds := by
  induction ds with
  | nil => intro a; simp [decimal]
  | cons d ds ih =>
    intro a
    rw [List.foldl_cons, ih, decimal, List.length_cons, Nat.pow_succ]
    ring

theorem value_decimal (ds : List Nat) : value ds = decimal ds := by
  unfold value; rw [value_foldl]; simp

theorem txt_bytes {ds : List Nat} : txt ds = ds.map fun d => UInt8.ofNat (48 + d) := rfl

theorem parseText_iff (s : Str) (n : Nat) (p : Rat) : parseText s = some (n, p) ↔ Says s n p := by
  constructor
  · intro h
    unfold parseText at h
    simp only [Option.bind_eq_some_iff] at h
    obtain ⟨s1, h1, ⟨n', s2⟩, h2, s3, h3, ⟨l, s4⟩, h4, s5, h5, h⟩ := h
    dsimp only at h3 h5 h
    split at h
    · rename_i hs5
      subst hs5
      simp only [Option.some.injEq, Prod.mk.injEq] at h
      obtain ⟨rfl, rfl⟩ := h
      obtain ⟨t, e4, ht⟩ := TestGen.realP_back h4
      unfold uintP at h2
      split at h2
      · rename_i hl
        simp only [Option.some.injEq, Prod.mk.injEq] at h2
        obtain ⟨e1, e2⟩ := h2
        obtain ⟨d1, d2, d3⟩ := Options.takeDigits_split 20 s1
        refine ⟨(takeDigits 20 s1).1, t, l, ?_, ?_, d3, d2, ?_, ht, rfl⟩
        · rw [e2, TestGen.eat_back h3, e4, TestGen.eat_back h5, txt_bytes] at d1
          rw [kw_back h1]
          generalize (takeDigits 20 s1).1 = ds at d1
          rw [d1]
          have a3 : "bloomfilter(".toList.map ch = str "bloomfilter(" := by decide
          have a4 : str "," = [ch ','] := by decide
          have a5 : str ")" = [ch ')'] := by decide
          rw [a3, a4, a5]
          simp
        · intro h; rw [h] at hl; simp at hl
        · rw [← e1, value_decimal]
      · cases h2
    · cases h
  · rintro ⟨ds, t, l, rfl, hne, hlen, hd, rfl, ht, rfl⟩
    have e : str "bloomfilter(" ++ ds.map (fun d => UInt8.ofNat (48 + d)) ++ str "," ++ t ++ str ")" =
        str "bloomfilter(" ++ (txt ds ++ (ch ',' :: (t ++ ch ')' :: []))) := by
      have a4 : str "," = [ch ','] := by decide
      have a5 : str ")" = [ch ')'] := by decide
      rw [← txt_bytes, a4, a5]; simp
    rw [e]
    unfold parseText
    rw [kw_append, Option.bind_some]
    have h1 : uintP 64 20 1 (txt ds ++ (ch ',' :: (t ++ ch ')' :: []))) = some (decimal ds % 2 ^ 64, ch ',' :: (t ++ ch ')' :: [])) := by
      unfold uintP
      rw [takeDigits_all 20 ds hd hlen _ rfl, value_decimal, if_pos]
      cases ds with
      | nil => exact absurd rfl hne
      | cons d ds => simp
    have h2 : eat ',' (ch ',' :: (t ++ ch ')' :: [])) = some (t ++ ch ')' :: []) := by simp [eat]
    have h3 : eat ')' (ch ')' :: ([] : Str)) = some [] := by simp [eat]
    simp only [h1, Option.bind_some, h2]
    rw [TestGen.realP_written ht _ (by simp only [headNot]; decide) (by simp only [headNot]; decide)]
    simp [h3]

theorem parameters_iff (t : Ty) (n : Nat) (p : Rat) : parameters t = some (n, p) ↔ ∃ s, FirstSynopsis t.attrs s ∧ Says s n p := by
  unfold parameters
  constructor
  · intro h
    rw [Option.bind_eq_some_iff] at h
    obtain ⟨⟨k, v⟩, hf, h⟩ := h
    rw [Option.bind_eq_some_iff] at h
    obtain ⟨s, hs, h⟩ := h
    dsimp only at hs
    subst hs
    rw [List.find?_eq_some_iff_append] at hf
    obtain ⟨hk, before, after, e, hb⟩ := hf
    simp only [Option.isSome_some, Bool.and_true, decide_eq_true_eq] at hk
    subst hk
    refine ⟨s, ⟨before, after, e, fun v hv => ?_⟩, (parseText_iff _ _ _).1 h⟩
    have := hb _ hv
    simp at this
  · rintro ⟨s, ⟨before, after, e, hb⟩, h⟩
    have hf : t.attrs.find? (fun a => a.1 = str "synopsis" && a.2.isSome) = some (str "synopsis", some s) := by
      rw [e, List.find?_append, List.find?_eq_none.2]
      · simp
      · rintro ⟨k, v⟩ hx
        cases v with
        | none => simp
        | some v =>
          simp only [Option.isSome_some, Bool.and_true, decide_eq_true_eq]
          rintro rfl
          exact hb v hx
    rw [hf]
    exact (parseText_iff _ _ _).2 h

/-- **C172.**  A column of strings or addresses whose first attribute `synopsis` with a value says `bloomfilter(n,p)` gets a Bloom filter
for `n` values and the rate `p`, whatever the options are; none if there is no such filter. -/
theorem C172_honoured (env : Env) (o : Opts) (t : Ty) (hk : t.kind = .string ∨ t.kind = .address) (ha : t.alias = false) (s : Str) (n : Nat)
    (p : Rat) (hs : FirstSynopsis t.attrs s) (h : Says s n p) :
    make env o t = (makeFilter env n p).bind fun f => .ok (f.map (Syn.bloom t)) := by
  have hp := (parameters_iff t n p).2 ⟨s, hs, h⟩
  rcases hk with hk | hk <;> simp [make, hk, makeBloomed, ha, hp, makeWith]

/-- **C172.**  No other attribute has an effect: without one that says `bloomfilter(n,p)`, the filter is that of the options. -/
theorem C172_otherwise (env : Env) (o : Opts) (t : Ty) (hk : t.kind = .string ∨ t.kind = .address) (ha : t.alias = false)
    (h : ∀ s n p, FirstSynopsis t.attrs s → ¬ Says s n p) (cap : Nat) (hc : o.cap = some cap) (hb : o.buffered = true) :
    make env o t = .ok (some (.buffered t ((if t.kind = .string then o.stringRate else o.addressRate).getD (rnd (1 / 100))) [])) := by
  have hp : parameters t = none := by
    cases e : parameters t with
    | none => rfl
    | some x =>
      obtain ⟨n, p⟩ := x
      obtain ⟨s, h1, h2⟩ := (parameters_iff t n p).1 e
      exact absurd h2 (h s n p h1)
  rcases hk with hk | hk <;> simp [make, hk, makeBloomed, ha, hp, hc, hb]

example : FirstSynopsis [(str "skip", none), (str "synopsis", some (str "bloomfilter(1000,.5)"))] (str "bloomfilter(1000,.5)") ∧
    Says (str "bloomfilter(1000,.5)") 1000 (litVal ⟨false, [], [5]⟩) :=
  ⟨⟨[(str "skip", none)], [], rfl, by intro v h; simp at h⟩,
    [1, 0, 0, 0], str ".5", _, by decide, by decide, by decide, by decide, by decide,
    .mk false [] (by simp) [] [5] (by simp) (by simp) (by simp) [46] (by simp), rfl⟩

/-- A text that says nothing, because something follows. -/
example : ∀ n p, ¬ Says (str "bloomfilter(1000,.5) ") n p := by
  intro n p h
  have := (parseText_iff _ _ _).2 h
  have e : parseText (str "bloomfilter(1000,.5) ") = none := by decide +kernel
  rw [e] at this
  cases this

/-- **C172 (refuted).**  A number of values that is too large is taken for another one, and a text with a blank in it has no effect,
without an error. -/
theorem C172_wrap_refuted (t : Ty) :
    parameters { t with attrs := [(str "synopsis", some (str "bloomfilter(18446744073709551617,0.5)"))] } = some (1, litVal ⟨false, [0], [5]⟩) ∧
    parameters { t with attrs := [(str "synopsis", some (str "bloomfilter(1000, 0.5)"))] } = none := by
  constructor
  · refine (parameters_iff _ _ _).2 ⟨_, ⟨[], [], rfl, by simp⟩, [1,8,4,4,6,7,4,4,0,7,3,7,0,9,5,5,1,6,1,7], str "0.5", _, by decide, by decide,
      by decide, by decide, by decide, .mk false [] (by simp) [0] [5] (by simp) (by simp) (by simp) [46] (by simp), rfl⟩
  · have e : parseText (str "bloomfilter(1000, 0.5)") = none := by decide +kernel
    simp [parameters, e]

/-! ### Skipped columns -/

/-- Has the attribute `skip`. -/
def Spec.Marked (t : Ty) : Prop := ∃ v, (str "skip", v) ∈ t.attrs

theorem skip_marked {t : Ty} (h : Marked t) : t.skip = true := by
  obtain ⟨v, h⟩ := h
  unfold Ty.skip
  exact List.any_eq_true.mpr ⟨_, h, by simp⟩

theorem skip_not_marked {t : Ty} (h : ¬ Marked t) : t.skip = false := by
  cases e : t.skip with
  | false => rfl
  | true =>
    obtain ⟨⟨k, v⟩, h1, h2⟩ := List.any_eq_true.mp e
    simp only [decide_eq_true_eq] at h2
    subst h2
    exact absurd ⟨v, h1⟩ h

/-- Fields that are marked and are not strings have no synopsis. -/
def Unsynopsized (x : PartSyn) : Prop :=
  ∀ (f : Field) (r : Option Syn), MetaIndex.find f x.fields = some r → Marked f.type → f.type.isString = false → r = none

theorem addColumn_unsynopsized {env : Env} {o : Opts} {layout : Str} {x y : PartSyn} {c : Column} (hx : Unsynopsized x)
    (h : x.addColumn env o layout c = .ok y) : Unsynopsized y := by
  unfold PartSyn.addColumn at h
  simp only at h
  intro f r hr hm hf
  split at h
  · obtain ⟨a, ha, h⟩ := Res.bind_ok h
    obtain ⟨b, hb, h⟩ := Res.bind_ok h
    cases h
    simp only at hr
    rw [MetaIndex.find_assign] at hr
    split at hr
    · cases hr; rfl
    · exact hx f r hr hm hf
  · obtain ⟨a, ha, h⟩ := Res.bind_ok h
    obtain ⟨b, hb, h⟩ := Res.bind_ok h
    cases h
    simp only at hr
    rw [MetaIndex.find_assign] at hr
    split at hr
    · rename_i hk
      cases hr
      subst hk
      have : a = none := by
        cases e : MetaIndex.find (⟨layout, c.name, c.type⟩ : Field) x.fields with
        | none =>
          rw [e, orMake, makeSynopsis, skip_marked hm] at ha
          cases ha; rfl
        | some q =>
          rw [e] at ha
          rw [orMake_found ha]
          exact hx _ _ e hm hf
      subst this
      cases hb
      rfl
    · exact hx f r hr hm hf

theorem foldRes_inv {α β : Type} {f : β → α → Res β} {P : β → Prop} (hf : ∀ b a b', P b → f b a = .ok b' → P b') :
    ∀ (l : List α) (b b' : β), P b → foldRes f b l = .ok b' → P b'
  | [], b, b', hb, h => by cases h; exact hb
  | a :: l, b, b', hb, h => by
    obtain ⟨c, hc, h⟩ := Res.bind_ok h
    exact foldRes_inv hf l c b' (hf _ _ _ hb hc) h

/-- **C173 (partial).**  No synopsis is made for a column that is marked with `skip`, of any type but that of strings, whatever else is
in the partition; so that it can hold the events of every query for it.  Missing: strings, for which this fails. -/
theorem C173_skipped_partial (env : Env) (o : Opts) (slices : List Slice) (full : PartSyn) (hf : filled env o slices = .ok full)
    (s : Slice) (hs : s ∈ slices) (c : Column) (hc : c ∈ s.columns) (hm : Marked c.type) (hk : c.type.kind ≠ .string ∨ c.type.alias = true) :
    known env full s.layout c = some none := by
  have hi : Unsynopsized full := by
    refine foldRes_inv (P := Unsynopsized) (fun b a b' hb h => ?_) slices _ _ ?_ hf
    · exact foldRes_inv (P := Unsynopsized) (fun b a b' hb h => addColumn_unsynopsized hb h) _ _ _ hb h
    · intro f r h; cases h
  have hns : ¬ (c.type.kind = .string ∧ c.type.alias = false) := by
    rintro ⟨h1, h2⟩
    rcases hk with h | h
    · exact h h1
    · rw [h2] at h; cases h
  obtain ⟨r, hr, _⟩ := filled_taken hf s hs c hc
  unfold entry at hr
  rw [if_neg hns] at hr
  have := hi _ r hr hm (by simpa [Ty.isString] using hns)
  subst this
  unfold known
  rw [if_neg hns, hr]
  rfl

/-- **C173.**  A column that is not marked, of the Booleans or times and not of an alias, has one. -/
theorem C173_kept (env : Env) (o : Opts) (layout name : Str) (t : Ty) (hm : ¬ Marked t) (hk : t.kind = .bool ∧ t.alias = false ∨ t.kind = .time)
    (full : PartSyn) (values : List Data) (hf : filled env o [⟨layout, [⟨name, t, values⟩]⟩] = .ok full) :
    ∃ ask, known env full layout ⟨name, t, values⟩ = some (some ask) := by
  have hns : ¬ (t.kind = .string ∧ t.alias = false) := by
    rintro ⟨h, _⟩
    rcases hk with ⟨hk, _⟩ | hk <;> rw [hk] at h <;> cases h
  obtain ⟨a, ha, h⟩ := Res.bind_ok hf
  cases h
  obtain ⟨b, hb, h⟩ := Res.bind_ok ha
  cases h
  unfold PartSyn.addColumn at hb
  simp only at hb
  rw [if_neg (by simpa [Ty.isString] using hns)] at hb
  obtain ⟨m, hm', hb⟩ := Res.bind_ok hb
  obtain ⟨r, hr, hb⟩ := Res.bind_ok hb
  cases hb
  have : ∃ s, m = some s := by
    simp only [MetaIndex.find, orMake, makeSynopsis, skip_not_marked hm] at hm'
    rcases hk with ⟨hk, hal⟩ | hk
    · simp [make, hk, hal] at hm'; exact ⟨_, hm'.symm⟩
    · simp [make, hk] at hm'; exact ⟨_, hm'.symm⟩
  obtain ⟨s, rfl⟩ := this
  obtain ⟨s', _, hr⟩ := Res.bind_ok hr
  cases hr
  refine ⟨s'.lookup env, ?_⟩
  unfold known
  rw [if_neg hns]
  simp only
  rw [MetaIndex.find_assign, if_pos rfl]
  rfl

/-- A time that is marked. -/
example : ∃ full, filled env0 (opts0 none) [⟨str "l", [⟨str "a", ⟨.time, false, [], [(str "skip", none)]⟩, [.time 1]⟩, ⟨str "b", ty .time, [.time 1]⟩]⟩] =
    .ok full ∧ (known env0 full (str "l") ⟨str "a", ⟨.time, false, [], [(str "skip", none)]⟩, [.time 1]⟩).isSome = true ∧
    ((known env0 full (str "l") ⟨str "b", ty .time, [.time 1]⟩).map Option.isSome) = some true := ⟨_, rfl, rfl, rfl⟩

/-- **C173 (refuted).**  Strings: the mark of the first column decides for all columns of the type.  If it is marked, the others have no synopsis
either; if it is not, the others have one in spite of the mark. -/
theorem C173_string_refuted (env : Env) (p : Rat) (cap : Nat) (v w : Str) :
    let marked : Column := ⟨str "a", ⟨.string, false, [], [(str "skip", none)]⟩, [.string v]⟩
    let plain : Column := ⟨str "b", ⟨.string, false, [], []⟩, [.string w]⟩
    let o : Opts := ⟨some cap, some p, none, true⟩
    (∃ full, filled env o [⟨str "l", [marked, plain]⟩] = .ok full ∧ known env full (str "l") plain = some none) ∧
    (∃ full ask, filled env o [⟨str "l", [plain, marked]⟩] = .ok full ∧ known env full (str "l") marked = some (some ask)) :=
  ⟨⟨_, rfl, rfl⟩, ⟨_, _, rfl, rfl⟩⟩

/-! ### Before writing -/

theorem bufferedIn_sound (t : Elem) (data : List Data) (d : Data) (hd : d ∈ data) (hT : t.holds d = true) : ∀ ys : List Data,
    (∃ y ∈ ys, Data.eq d y = true) → bufferedIn t data ys ≠ some (some false)
  | [], h => by obtain ⟨y, hy, _⟩ := h; cases hy
  | x :: ys, h => by
    rw [bufferedIn]
    split
    · simp
    · split
      · simp
      · rename_i hx hn
        apply bufferedIn_sound t data d hd hT ys
        obtain ⟨y, hy, he⟩ := h
        rcases List.mem_cons.mp hy with rfl | hy
        · exfalso
          have := holds_eq t hT he
          subst this
          exact hn (List.any_eq_true.mpr ⟨_, hd, he⟩)
        · exact ⟨y, hy, he⟩

/-- **C126 (partial).**  The same before the synopses are shrunk and written, for columns of any names and with any rates: what is known about
the active partition rules out none of its events. -/
theorem C126_active_partial (env : Env) (o : Opts) (slices : List Slice) (full : PartSyn) (hf : filled env o slices = .ok full) :
    ∀ s ∈ slices, ∀ c ∈ s.columns, ∃ r, known env full s.layout c = some r ∧
      ∀ ask, r = some ask → ∀ d ∈ c.values, d ≠ .none → ∀ R op rhs, op ≠ .notEqual → op ≠ .notIn → (∀ p, rhs ≠ .pattern p) →
        evaluate R d op rhs = true → ask op rhs ≠ some (some false) := by
  intro s hs c hc
  obtain ⟨r, hr, ht⟩ := filled_taken hf s hs c hc
  refine ⟨r.map fun s => s.lookup env, ?_, ?_⟩
  · show (entry full s.layout c).map _ = _
    rw [hr]; rfl
  · intro ask ha d hd hdn R op rhs n1 n2 n3 hm
    cases r with
    | none => cases ha
    | some syn =>
      cases ha
      have h := ht syn rfl d hd hdn
      by_cases hb : ∃ t p data, syn = .buffered t p data
      · obtain ⟨t, p, data, rfl⟩ := hb
        obtain ⟨hT, hdd⟩ := h
        show bufferedLookup t.elem data op rhs ≠ _
        generalize t.elem = t at hT
        cases op <;> simp only [bufferedLookup, ne_eq, Option.some.injEq, reduceCtorEq, not_false_eq_true]
        · cases rhs <;> simp only [ne_eq, Option.some.injEq, reduceCtorEq, not_false_eq_true]
          next ys =>
            apply bufferedIn_sound t data d hdd hT
            revert hm
            cases t <;> cases d <;> simp [Elem.holds] at hT <;>
              simp only [evaluate, evalIn, List.any_eq_true] <;>
              exact fun ⟨y, hy, he⟩ => ⟨y, hy, by first | exact he | exact Data.eq_comm _ _ ▸ he⟩
        · have he : d.eq rhs = true := by
            revert hm
            cases t <;> cases d <;> simp [Elem.holds] at hT <;> cases rhs <;>
              simp [evaluate, evalStringAndPattern] <;> simp at n3
          have := holds_eq t hT he
          subst this
          split
          · simp
          · have : data.any (Data.eq rhs) = true := List.any_eq_true.mpr ⟨_, hdd, he⟩
            simp [this]
      · exact contains_sound h (fun t p data e => hb ⟨t, p, data, e⟩) R op rhs n1 n2 n3 hm

/-- **C124 (refuted).**  If an entry in the file of a partition cannot be read, the separate file is written nevertheless, without that entry and
all those after it: the columns there are lost. -/
theorem C124_extract_refuted (env : Env) (f : Filter) :
    let a : Field := ⟨str "l", str "a", ty .bool⟩
    let b : Field := ⟨str "l", str "b", ty .address⟩
    let c : Field := ⟨str "l", str "c", ty .time⟩
    unpack env [(a, .bool true false), (b, .raw (some (ty .address, f))), (c, .time 1 2)] = .error ∧
    extract env [(a, .bool true false), (b, .raw (some (ty .address, f))), (c, .time 1 2)] = .ok [(a, .bool true false)] :=
  ⟨rfl, rfl⟩

end Verif.SynopsisStore
