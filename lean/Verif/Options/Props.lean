import Verif.Options.Lemmas
import Verif.DiskMonitor.Props
import Verif.Client.Props
/-!
# Options that turn into limits

Sizes in bytes (C153), the options of the disk monitor (C154), of `vast explore` (C155), and of sources (C156).
-/
namespace Verif.Options
open Verif.DataText Verif.Data Verif.DataText.Spec

/-! ## C153: sizes -/

/-- The text of a size is read as the number times its unit, modulo 2^64. -/
theorem C153_reads (t : Str) (ds : List Nat) (f : Nat) (h : Spec.Size t ds f) : bytesize t = some (numeral ds * f % 2 ^ 64) := by
  cases h with
  | mk ds spaces unit f b hd hl hs hu h0 hb =>
    have hws : ∀ x ∈ spaces, isSpace x = true := fun x hx => (isSpace_iff x).2 (hs x hx)
    -- the part after the spaces is a closed term
    have key : ∀ p ∈ Spec.factors, ∀ c ∈ ["", "B"], headNot isDigit (str p.1 ++ str c) = true ∧ headNot isSpace (str p.1 ++ str c) = true ∧
        (if p.1 = "" then unitFound units (str p.1 ++ str c) = none ∧ p.2 = 1
          else unitFound units (str p.1 ++ str c) = some (p.2, str c)) := by decide +kernel
    obtain ⟨k1, k2, k3⟩ := key (unit, f) hu b (by rcases hb with rfl | rfl <;> simp)
    simp only at k1 k2 k3
    have hsw := skipWs_append spaces (str unit ++ str b) hws k2
    have hr : headNot isDigit (spaces ++ (str unit ++ str b)) = true := by
      cases spaces with
      | nil => exact k1
      | cons x xs =>
        have := hws x (by simp)
        simp only [isSpace, Bool.or_eq_true, beq_iff_eq, Bool.and_eq_true, decide_eq_true_eq] at this
        simp only [List.cons_append, headNot, isDigit, Bool.not_eq_true', Bool.and_eq_false_iff, decide_eq_false_iff_not]
        omega
    rw [List.append_assoc, List.append_assoc, number_bytesize ds hd hl _ hr, value_numeral, unitP_eq, hsw]
    by_cases hun : unit = ""
    · subst hun
      rw [if_pos rfl] at k3
      rw [k3.1, h0 rfl, k3.2]
      rcases hb with rfl | rfl <;> simp [str, eat, ch]
    · rw [if_neg hun] at k3
      rw [k3]
      simp only [Nat.mod_mul_mod]
      rcases hb with rfl | rfl <;> simp [str, eat, ch]

/-- Whatever is read has that form, and its value is the number times its unit up to multiples of 2^64. -/
theorem C153_sound (t : Str) (n : Nat) (h : bytesize t = some n) : ∃ ds f, Spec.Size t ds f ∧ n = numeral ds * f % 2 ^ 64 := by
  obtain ⟨hs, hd, hl⟩ := takeDigits_split 20 t
  unfold bytesize countP uintP at h
  by_cases hm : 1 ≤ (takeDigits 20 t).1.length
  · rw [if_pos hm] at h
    simp only [Option.map_some, Option.bind_some] at h
    generalize hds : (takeDigits 20 t).1 = ds at *
    generalize hr : (takeDigits 20 t).2 = r at *
    rw [unitP_eq] at h
    have hdig : Digits ds := ⟨List.length_pos_iff.1 hm, hd⟩
    have hB : ∀ (x : Nat) (s : Str), (match eat 'B' s with | some r => if r = [] then some x else none | none => if s = [] then some x else none) = some n →
        n = x ∧ ∃ b, (b = "" ∨ b = "B") ∧ s = str b := by
      intro x s hx
      cases s with
      | nil =>
        simp [eat] at hx
        exact ⟨hx.symm, "", .inl rfl, rfl⟩
      | cons c s =>
        simp only [eat] at hx
        by_cases hc : c = ch 'B'
        · rw [if_pos hc] at hx
          simp only at hx
          split at hx
          · rename_i hs
            injection hx with hx
            subst hc; subst hs
            exact ⟨hx.symm, "B", .inr rfl, rfl⟩
          · cases hx
        · rw [if_neg hc] at hx
          simp at hx
    cases hu : unitFound units (skipWs r) with
    | none =>
      rw [hu] at h
      simp only [] at h
      obtain ⟨e1, b, hb, e2⟩ := hB _ _ h
      refine ⟨ds, 1, ?_, by rw [e1, value_numeral, Nat.mul_one]⟩
      have := Spec.Size.mk ds [] "" 1 b hdig hl (by simp) (by decide) (fun _ => rfl) hb
      rw [hs, e2]
      change Spec.Size (digitText ds ++ str b) ds 1
      simpa [str] using this
    | some p =>
      obtain ⟨f, q⟩ := p
      rw [hu] at h
      simp only [] at h
      obtain ⟨e1, b, hb, e2⟩ := hB _ _ h
      obtain ⟨u, hmem, e3⟩ := unitFound_sound units _ f q hu
      obtain ⟨ws, e4, hws⟩ := skipWs_split r
      have key : ∀ p ∈ units, ∃ v, v ≠ "" ∧ (v, p.2) ∈ Spec.factors ∧ str v = p.1.map ch := by
        intro p hp
        have : (String.ofList p.1 ≠ "" ∧ (String.ofList p.1, p.2) ∈ Spec.factors ∧ str (String.ofList p.1) = p.1.map ch) := by
          revert p; decide +kernel
        exact ⟨_, this⟩
      obtain ⟨v, v1, v2, v3⟩ := key (u, f) hmem
      refine ⟨ds, f, ?_, by rw [e1, value_numeral]; simp [Nat.mod_mul_mod]⟩
      have := Spec.Size.mk ds ws v f b hdig hl (fun x hx => (isSpace_iff x).1 (hws x hx)) v2 (fun h => (v1 h).elim) hb
      rw [hs, e4, e3, e2, ← v3]
      change Spec.Size (digitText ds ++ (ws ++ (str v ++ str b))) ds f
      simpa [List.append_assoc] using this
  · rw [if_neg hm] at h; cases h

/-- So a size whose product fits into 64 bits is read as the number times its unit. -/
theorem C153_fits_partial (t : Str) (ds : List Nat) (f : Nat) (h : Spec.Size t ds f) (h2 : numeral ds * f < 2 ^ 64) :
    bytesize t = some (numeral ds * f) := by
  rw [C153_reads t ds f h, Nat.mod_eq_of_lt h2]

/-- Larger sizes are not refused but taken modulo 2^64: 16 EiB are 0 bytes, and so is 2^64. -/
theorem C153_overflow_refuted : bytesize (str "16EiB") = some 0 ∧ bytesize (str "18446744073709551616") = some 0 ∧
    bytesize (str "20 EB") = some 1553255926290448384 := by decide +kernel

example : bytesize (str "1 TiB") = some 1099511627776 ∧ bytesize (str "500GB") = some 500000000000 ∧ bytesize (str "42") = some 42 ∧
    bytesize (str "1KB") = none ∧ bytesize (str "1 B") = none ∧ bytesize (str "-1") = none ∧ bytesize (str "1.5G") = none := by decide +kernel

example : Spec.Size (str "1 TiB") [1] (1024 ^ 4) :=
  .mk [1] (str " ") "Ti" _ "B" ⟨by decide, by decide⟩ (by decide) (by simp [str, Spec.Space]) (by decide) (by decide) (.inr rfl)

/-! ## C154: the disk monitor -/

theorem getBytesize_iff (v : Option Opt) (n : Nat) : getBytesize v 0 = some n ↔ Spec.Means v n := by
  have : ∀ t, bytesize t = some n ↔ ∃ ds f, Spec.Size t ds f ∧ n = numeral ds * f % 2 ^ 64 :=
    fun t => ⟨C153_sound t n, fun ⟨ds, f, h, e⟩ => by rw [e]; exact C153_reads t ds f h⟩
  unfold getBytesize Spec.Means
  cases v with
  | none => simp [eq_comm]
  | some v => cases v <;> simp [this]

theorem spawnDisk_eq (files : Str → Bool) (dir : Bool) (o : DiskOpts) (high low : Nat) (h1 : getBytesize o.high 0 = some high)
    (h2 : getBytesize o.low 0 = some low) : spawnDisk files dir o =
      (if !validate files ⟨high, if low = 0 then high else low, Spec.stepOf o.step, Spec.textOf o.binary, Spec.intervalOf o.interval⟩ then .error
      else if high = 0 then .disabled
      else if !dir then .error
      else .started ⟨high, if low = 0 then high else low, Spec.stepOf o.step, Spec.textOf o.binary, Spec.intervalOf o.interval⟩) := by
  unfold spawnDisk
  rw [h1, h2]
  rfl

/-- The monitor is started exactly if there is a high-water mark, the low-water mark is not above it, the size of a step is
positive, and the binary, if there is one, is an existing file with an absolute path; without a low-water mark, it is the
high-water mark. -/
theorem C154_started (files : Str → Bool) (o : DiskOpts) (c : DiskConfig) : spawnDisk files true o = .started c ↔
    Spec.Means o.high c.high ∧ 0 < c.high ∧ (∃ low, Spec.Means o.low low ∧ c.low = if low = 0 then c.high else low) ∧ c.low ≤ c.high ∧
    c.step = Spec.stepOf o.step ∧ 0 < c.step ∧ c.interval = Spec.intervalOf o.interval ∧ c.binary = Spec.textOf o.binary ∧
    (∀ p, c.binary = some p → p.head? = some 47 ∧ files p = true) := by
  have hval : ∀ c : DiskConfig, validate files c = true ↔ 0 < c.step ∧ c.low ≤ c.high ∧
      (∀ p, c.binary = some p → p.head? = some 47 ∧ files p = true) := by
    intro c
    unfold validate
    split
    · simp only [Bool.false_eq_true, false_iff]; omega
    · split
      · simp only [Bool.false_eq_true, false_iff]; omega
      · cases hb : c.binary with
        | none => simp; exact ⟨by omega, by omega⟩
        | some p =>
          cases p with
          | nil => simp
          | cons b p =>
            have : ch '/' = 47 := rfl
            simp only [this, Option.some.injEq, forall_eq', List.head?_cons]
            by_cases hb : b = 47
            · have h1 : 0 < c.step := by omega
              have h2 : c.low ≤ c.high := by omega
              simp [hb, h1, h2]
            · simp [hb]
  constructor
  · intro h
    cases h1 : getBytesize o.high 0 with
    | none => unfold spawnDisk at h; rw [h1] at h; cases h
    | some high =>
      cases h2 : getBytesize o.low 0 with
      | none => unfold spawnDisk at h; rw [h1, h2] at h; cases h
      | some low =>
        rw [spawnDisk_eq files true o high low h1 h2] at h
        generalize hl : (if low = 0 then high else low) = lw at h
        generalize hst : Spec.stepOf o.step = st at h
        generalize hbi : Spec.textOf o.binary = bi at h
        generalize hin : Spec.intervalOf o.interval = iv at h
        by_cases hv : validate files ⟨high, lw, st, bi, iv⟩ = true
        · rw [if_neg (by simp [hv])] at h
          by_cases hh : high = 0
          · rw [if_pos hh] at h; cases h
          · rw [if_neg hh] at h
            injection h with h
            subst h
            obtain ⟨v1, v2, v3⟩ := (hval _).1 hv
            exact ⟨(getBytesize_iff _ _).1 h1, Nat.pos_of_ne_zero hh, ⟨low, (getBytesize_iff _ _).1 h2, hl.symm⟩, v2, hst ▸ rfl, v1, hin ▸ rfl, hbi ▸ rfl, v3⟩
        · rw [if_pos (by simp [hv])] at h; cases h
  · rintro ⟨h1, h2, ⟨low, h3, h4⟩, h5, h6, h7, h8, h9, h10⟩
    rw [spawnDisk_eq files true o c.high low ((getBytesize_iff _ _).2 h1) ((getBytesize_iff _ _).2 h3), ← h4, ← h6, ← h8, ← h9,
      if_neg (by simp [(hval c).2 ⟨h7, h5, h10⟩]), if_neg (by omega)]
    rfl

/-- Without a high-water mark there is no monitor, if the other options are fine. -/
theorem C154_disabled (files : Str → Bool) (dir : Bool) (o : DiskOpts) (h : o.high = none) (hl : o.low = none)
    (hs : 0 < Spec.stepOf o.step) (hb : Spec.textOf o.binary = none) : spawnDisk files dir o = .disabled := by
  rw [spawnDisk_eq files dir o 0 0 (by rw [h]; rfl) (by rw [hl]; rfl), hb]
  have h2 : ¬ Spec.stepOf o.step < 1 := by omega
  simp [validate, h2]

/-- A high-water mark of 2^64 bytes or a multiple means no monitor and no error; a low-water mark alone is an error; a scan interval of
zero or less is accepted; a size of a step that is no number is ignored. -/
theorem C154_refuted : spawnDisk (fun _ => true) true { high := some (.text (str "16EiB")) } = .disabled ∧
    spawnDisk (fun _ => true) true { low := some (.text (str "1GB")) } = .error ∧
    spawnDisk (fun _ => true) true { high := some (.num 10), interval := some (.neg 5) } = .started ⟨10, 10, 1, none, -5⟩ ∧
    spawnDisk (fun _ => true) true { high := some (.num 10), step := some (.text (str "7")) } = .started ⟨10, 10, 1, none, 60⟩ := by
  decide +kernel

/-- The marks of a monitor that was started satisfy what the disk monitor requires (C42). -/
theorem C154_valid (files : Str → Bool) (o : DiskOpts) (c : DiskConfig) (h : spawnDisk files true o = .started c) :
    (⟨c.high, c.low, c.step⟩ : DiskMonitor.Config).valid = true := by
  obtain ⟨_, _, _, h1, _, h2, _⟩ := (C154_started files o c).1 h
  simp [DiskMonitor.Config.valid]; omega

example : spawnDisk (fun p => p = str "/bin/du") true { high := some (.text (str "1TiB")), low := some (.text (str "900 GiB")), binary := some (.text (str "/bin/du")) } =
    .started ⟨1099511627776, 966367641600, 1, some (str "/bin/du"), 60⟩ := by decide +kernel

/-! ## C155: exploring -/

/-- If all options are texts, an explorer is spawned exactly if there is a field or a positive time before or after, and each time
that is given is a duration; it gets the values of the options. -/
theorem C155_options_partial (dur : Str → Option Int) (before after field : Option Str) (x : Option Int × Option Int × Option Str) :
    spawnExplorer dur ⟨before.map .text, after.map .text, field.map .text⟩ = some x ↔
      x = (before.bind dur, after.bind dur, field) ∧ (∀ t, before = some t → dur t ≠ none) ∧ (∀ t, after = some t → dur t ≠ none) ∧
      (field ≠ none ∨ (∃ t d, before = some t ∧ dur t = some d ∧ 0 < d) ∨ (∃ t d, after = some t ∧ dur t = some d ∧ 0 < d)) := by
  have ht : ∀ v : Option Str, text (v.map .text) = v := by intro v; cases v <;> rfl
  have hn : ∀ v : Option Str, v.map Opt.text = none ↔ v = none := by intro v; cases v <;> simp
  have hv : exploreValid dur ⟨before.map .text, after.map .text, field.map .text⟩ = true ↔
      (∀ t, before = some t → dur t ≠ none) ∧ (∀ t, after = some t → dur t ≠ none) ∧
      (field ≠ none ∨ (∃ t d, before = some t ∧ dur t = some d ∧ 0 < d) ∨ (∃ t d, after = some t ∧ dur t = some d ∧ 0 < d)) := by
    unfold exploreValid
    simp only [ht, hn]
    cases hb : before with
    | none =>
      cases ha : after with
      | none => cases field <;> simp
      | some a =>
        cases hda : dur a with
        | none => simp [hda]
        | some d => cases field <;> simp [hda]
    | some b =>
      cases hdb : dur b with
      | none => simp [hdb]
      | some e =>
        cases ha : after with
        | none => cases field <;> simp [hdb]
        | some a =>
          cases hda : dur a with
          | none => cases field <;> simp [hdb, hda]
          | some d =>
            cases field <;> simp [hdb, hda]
  unfold spawnExplorer
  simp only [ht]
  by_cases h : exploreValid dur ⟨before.map .text, after.map .text, field.map .text⟩ = true
  · rw [if_pos h]
    have := hv.1 h
    simp only [Option.some.injEq]
    exact ⟨fun e => ⟨e.symm, this⟩, fun e => e.1.symm⟩
  · rw [if_neg h]
    simp only [reduceCtorEq, false_iff, not_and]
    exact fun _ h1 h2 h3 => h (hv.2 ⟨h1, h2, h3⟩)

/-- A field that is no text is accepted and then ignored: the explorer has no constraint at all.  A negative time is accepted if
there is a field or the other time is positive. -/
theorem C155_refuted (dur : Str → Option Int) : spawnExplorer dur { by' := some (.num 1) } = some (none, none, none) ∧
    (dur (str "-5s") = some (-5000000000) → spawnExplorer dur { before := some (.text (str "-5s")), by' := some (.text (str "uid")) } =
      some (some (-5000000000), none, some (str "uid"))) := by
  refine ⟨by simp [spawnExplorer, exploreValid, text], fun h => by simp [spawnExplorer, exploreValid, text, h]⟩

example : spawnExplorer (fun t => if t = str "5s" then some 5000000000 else none) { before := some (.text (str "5s")) } = some (some 5000000000, none, none) ∧
    spawnExplorer (fun _ => some 0) { before := some (.text (str "0s")) } = none := by decide +kernel

/-! ## C156: sources -/

theorem makeSource_eq (o : ImportOpts) : makeSource o = match text o.listen with
    | none => some ⟨none, Spec.sliceOf o.batchSize, Spec.numberOf o.maxEvents⟩
    | some uri =>
      if (text o.read).isSome then none
      else match Client.parseEndpoint uri with
        | none => none
        | some e => match e.port with
          | none => none
          | some p =>
            let p := if p.proto = .unknown then { p with proto := .tcp } else p
            if p.proto = .udp then some ⟨some p.number, Spec.sliceOf o.batchSize, Spec.numberOf o.maxEvents⟩ else none := by
  have h1 : ∀ v, Spec.numberOf v = number v := by
    intro v
    cases v with
    | none => rfl
    | some v => cases v <;> rfl
  have h2 : (if (number o.batchSize).getD defaultSlice = 0 then 2 ^ 64 - 1 else (number o.batchSize).getD defaultSlice) =
      Spec.sliceOf o.batchSize := by
    unfold Spec.sliceOf
    rw [h1]
    cases number o.batchSize with
    | none => simp [defaultSlice]
    | some n => simp
  unfold makeSource
  simp only [h2, h1]
  rfl

/-- A source listens exactly on the UDP port of the endpoint that was given, and there must be one and no input file. -/
theorem C156_listen (o : ImportOpts) (uri : Str) (h : o.listen = some (.text uri)) (s : Source) :
    makeSource o = some s ↔ (∃ host n, Client.parseEndpoint uri = some ⟨host, some ⟨n, .udp⟩⟩ ∧ s.udp = some n) ∧ (∀ f, o.read ≠ some (.text f)) ∧
      s.slice = Spec.sliceOf o.batchSize ∧ s.requested = Spec.numberOf o.maxEvents := by
  have hrd : (text o.read).isSome = true ↔ ∃ f, o.read = some (.text f) := by
    cases o.read with
    | none => simp [text]
    | some v => cases v <;> simp [text]
  rw [makeSource_eq, h]
  simp only [show text (some (Opt.text uri)) = some uri from rfl]
  generalize Spec.sliceOf o.batchSize = sl
  generalize Spec.numberOf o.maxEvents = rq
  by_cases hr : (text o.read).isSome = true
  · rw [if_pos hr]
    obtain ⟨f, hf⟩ := hrd.1 hr
    simp only [reduceCtorEq, false_iff, not_and]
    intro _ h2
    exact (h2 f hf).elim
  · rw [if_neg hr]
    have hr' : ∀ f, o.read ≠ some (.text f) := fun f hf => hr (hrd.2 ⟨f, hf⟩)
    cases hp : Client.parseEndpoint uri with
    | none => simp
    | some e =>
      obtain ⟨host, port⟩ := e
      cases port with
      | none => simp
      | some p =>
        obtain ⟨n, proto⟩ := p
        obtain ⟨u, sl', rq'⟩ := s
        cases proto <;> simp [hr', eq_comm]

/-- Without an endpoint, input comes from a file or from standard input; nothing is refused. -/
theorem C156_file (o : ImportOpts) (h : ∀ uri, o.listen ≠ some (.text uri)) :
    makeSource o = some ⟨none, Spec.sliceOf o.batchSize, Spec.numberOf o.maxEvents⟩ := by
  have : text o.listen = none := by
    cases hl : o.listen with
    | none => rfl
    | some v =>
      cases v with
      | text s => exact (h s hl).elim
      | _ => rfl
  rw [makeSource_eq, this]

/-- An endpoint without a protocol is taken for TCP, which is not supported. -/
theorem C156_protocol_refuted : makeSource { listen := some (.text (str "localhost:5000")) } = none ∧
    makeSource { listen := some (.text (str "localhost:5000/udp")) } = some ⟨some 5000, 1024, none⟩ := by decide +kernel

/-- A source with some credit that has not read all it was asked for asks its reader for at least one event and at most for those
missing, if the product of credit and size of a slice fits into 64 bits or slices are unlimited. -/
theorem C156_reads_partial (s : Source) (credit count : Nat) (hc : 0 < credit) (hs : 0 < s.slice)
    (hfit : credit * s.slice < 2 ^ 64 ∨ (s.slice = 2 ^ 64 - 1 ∧ credit < 2 ^ 64)) (hr : ∀ r, s.requested = some r → count < r) :
    ∃ n, toRead s credit count = some n ∧ 0 < n ∧ (∀ r, s.requested = some r → n ≤ r - count) := by
  have hpos : 0 < credit * s.slice % 18446744073709551616 := by
    rcases hfit with h | ⟨h, h'⟩
    · rw [Nat.mod_eq_of_lt (by simpa using h)]; exact Nat.mul_pos hc hs
    · rw [h]
      have : credit * (2 ^ 64 - 1) = (credit - 1) * 18446744073709551616 + (18446744073709551616 - credit) := by omega
      rw [this, Nat.mul_comm, Nat.mul_add_mod]
      omega
  have e : toRead s credit count = (let events := match s.requested with
      | some r => min (credit * s.slice % 18446744073709551616) (r - count)
      | none => credit * s.slice % 18446744073709551616
    if events = 0 then none else some events) := rfl
  rw [e]
  generalize credit * s.slice % 18446744073709551616 = m at hpos
  cases hq : s.requested with
  | none => exact ⟨m, if_neg (Nat.pos_iff_ne_zero.1 hpos), hpos, by simp⟩
  | some r =>
    have := hr r hq
    have h0 : 0 < min m (r - count) := by omega
    refine ⟨min m (r - count), if_neg (Nat.pos_iff_ne_zero.1 h0), h0, ?_⟩
    intro r' h'
    injection h' with h'
    subst h'
    omega

/-- `vast import -n 0` fails an assertion, and so does a batch size of 2^63 as soon as there is credit for two slices. -/
theorem C156_zero_refuted : (makeSource { maxEvents := some (.num 0) }).bind (fun s => toRead s 5 0) = none ∧
    (makeSource { batchSize := some (.num (2 ^ 63)) }).bind (fun s => toRead s 2 0) = none := by decide +kernel

example : (makeSource { maxEvents := some (.num 100), batchSize := some (.num 0) }).bind (fun s => toRead s 5 40) = some 60 := by decide +kernel

end Verif.Options
