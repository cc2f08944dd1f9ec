import Verif.DataText.Pton
import Verif.Address.Props

/-!
Addresses and subnets survive the round trip.
-/
namespace Verif.DataText
open Verif.Data Verif.Address Spec

theorem hexDigits_small (w : Nat) (h : w < 16) : hexDigits w = [w] := by rw [hexDigits, if_pos h]
theorem hexDigits_big (w : Nat) (h : ¬ w < 16) : hexDigits w = hexDigits (w / 16) ++ [w % 16] := by
  conv => lhs; rw [hexDigits, if_neg h]

theorem printHex_eq (w : Nat) (hw : w < 65536) : printHex w = (hexDigits w).map hexLower := by
  unfold printHex
  split
  · rw [hexDigits_small w ‹_›]; rfl
  split
  · rw [hexDigits_big w ‹_›, hexDigits_small _ (by omega)]; rfl
  split
  · rw [hexDigits_big w ‹_›, hexDigits_big _ (by omega), hexDigits_small _ (by omega)]
    simp; congr 1; omega
  · rw [hexDigits_big w ‹_›, hexDigits_big _ (by omega), hexDigits_big _ (by omega), hexDigits_small _ (by omega)]
    have e1 : w / 16 / 16 / 16 = w / 4096 := by omega
    have e2 : w / 16 / 16 % 16 = w / 256 % 16 := by omega
    simp [e1, e2]

theorem hexDigits_lt (w : Nat) : ∀ d ∈ hexDigits w, d < 16 := by
  induction w using Nat.strongRecOn with
  | _ w ih =>
    by_cases h : w < 16
    · rw [hexDigits_small w h]; simpa using h
    · rw [hexDigits_big w h]
      intro d hd
      rcases List.mem_append.mp hd with hd | hd
      · exact ih (w / 16) (by omega) d hd
      · simp at hd; omega

theorem hexDigits_ne (w : Nat) : hexDigits w ≠ [] := by
  by_cases h : w < 16
  · rw [hexDigits_small w h]; simp
  · rw [hexDigits_big w h]; simp

theorem hexLower_dec : ∀ d, d < 16 → isDigit (hexLower d) = decide (d ≤ 9) ∧ (d ≤ 9 → (hexLower d).toNat - 48 = d) := by decide

theorem takeDigits_hexl (m : Nat) (xs : List Nat) (hx : ∀ d ∈ xs, d < 16) (hl : xs.length ≤ m) (r : Str) (hr : headNot isDigit r = true) :
    takeDigits m (xs.map hexLower ++ r) = (xs.takeWhile (fun d => decide (d ≤ 9)), (xs.dropWhile fun d => decide (d ≤ 9)).map hexLower ++ r) := by
  induction xs generalizing m with
  | nil => simpa using takeDigits_stop m r hr
  | cons d xs ih =>
    cases m with
    | zero => simp at hl
    | succ m =>
      obtain ⟨h1, h2⟩ := hexLower_dec d (hx d (by simp))
      simp only [List.map_cons, List.cons_append, takeDigits, h1]
      by_cases h : d ≤ 9
      · simp [h, h2 h, ih m (fun x hx' => hx x (by simp [hx'])) (by simpa using hl)]
      · simp [h]

/-- No unit of durations begins with a hexadecimal digit other than `d`. -/
theorem units_hex : ∀ d, d < 16 → d ≠ 13 → begins units (hexLower d) = false ∧ isSpace (hexLower d) = false ∧
    hexLower d ≠ ch '.' := by decide

theorem takeSign_hex {b : UInt8} (h : isXDigit b = true) (s : Str) : takeSign (b :: s) = (false, b :: s) := by
  simp [takeSign, xdigit_ne h '-' (by decide), xdigit_ne h '+' (by decide)]

theorem durationP_hex (env : Env) (w : Nat) (hw : w < 65536) (hd : ¬ LikeDays w) (s : Str) :
    durationP env (printHex w ++ ch ':' :: s) = none := by
  obtain ⟨b, t, e, hb⟩ : ∃ b t, printHex w ++ ch ':' :: s = b :: t ∧ isXDigit b = true := by
    have h := printHex_group w hw
    cases hp : printHex w with
    | nil => exact absurd hp h.pos
    | cons b g => exact ⟨b, _, rfl, h.hex b (by simp [hp])⟩
  have hl : (hexDigits w).length ≤ 20 := by
    have := (printHex_group w hw).len
    rw [printHex_eq w hw, List.length_map] at this; omega
  have h1 := takeDigits_hexl 20 (hexDigits w) (hexDigits_lt w) hl (ch ':' :: s) rfl
  rw [← printHex_eq w hw] at h1
  have hs : takeSign (printHex w ++ ch ':' :: s) = (false, printHex w ++ ch ':' :: s) := by rw [e]; exact takeSign_hex hb t
  have hne : printHex w ++ ch ':' :: s ≠ [] := by simp
  generalize hds : (hexDigits w).takeWhile (fun d => decide (d ≤ 9)) = ds at *
  generalize hes : (hexDigits w).dropWhile (fun d => decide (d ≤ 9)) = es at *
  have hcat : hexDigits w = ds ++ es := by rw [← hds, ← hes, List.takeWhile_append_dropWhile]
  have hds' : ∀ d ∈ ds, d ≤ 9 := by
    intro d hd'
    have := List.all_takeWhile (l := hexDigits w) (p := fun d => decide (d ≤ 9))
    rw [hds, List.all_eq_true] at this
    simpa using this d hd'
  by_cases hz : ds = []
  · have hr : realP false (printHex w ++ ch ':' :: s) = none := by
      have hdot : eat '.' (es.map hexLower ++ ch ':' :: s) = none := by
        cases es with
        | nil => rfl
        | cons d es =>
          have := (hexLower_ok d (hexDigits_lt w d (by simp [hcat]))).1
          simp [eat, xdigit_ne this '.' (by decide)]
      simp only [realP, if_neg hne, hs, h1, hdot]
      simp [hz]
    simp [durationP, durOneP, hr]
  · have hstop : headNot isDigit (es.map hexLower ++ ch ':' :: s) = true := by
      cases he : es with
      | nil => rfl
      | cons d es' =>
        have h2 := List.head?_dropWhile_not (p := fun d => decide (d ≤ 9)) (l := hexDigits w)
        rw [hes, he] at h2
        have h3 := (hexLower_dec d (hexDigits_lt w d (by simp [hcat, he]))).1
        simp only [List.map_cons, List.cons_append, headNot_cons, h3]
        simpa using h2
    have hdot : eat '.' (es.map hexLower ++ ch ':' :: s) = none ∧ lookup units (skipWs (es.map hexLower ++ ch ':' :: s)) = none := by
      cases he : es with
      | nil => exact ⟨rfl, lookup_none _ _ units_names rfl⟩
      | cons d es' =>
        have h2 : d ≠ 13 := by
          intro h3
          refine hd ⟨ds, es', by rw [hcat, he, h3], hz, hds'⟩
        obtain ⟨a1, a2, a3⟩ := units_hex d (hexDigits_lt w d (by simp [hcat, he])) h2
        refine ⟨by simp [eat, a3], ?_⟩
        have : skipWs ((d :: es').map hexLower ++ ch ':' :: s) = (d :: es').map hexLower ++ ch ':' :: s := by simp [skipWs, a2]
        rw [this]
        exact lookup_none _ _ units_names (by simp [a1])
    have h2 := takeDigits_stop 20 _ hstop
    have hr : realP false (printHex w ++ ch ':' :: s) = some (⟨false, ds, []⟩, es.map hexLower ++ ch ':' :: s) := by
      simp only [realP, if_neg hne, hs, h1, hdot.1, h2, hz]; rfl
    simp [durationP, durOneP, hr, hdot.2]

theorem timeP_hex (env : Env) (w : Nat) (hw : w < 65536) (hd : ¬ LikeDays w) (s : Str) :
    timeP env (printHex w ++ ch ':' :: s) = none := by
  have hdur := durationP_hex env w hw hd s
  have hg := printHex_group w hw
  obtain ⟨b, t, e, hb⟩ : ∃ b t, printHex w ++ ch ':' :: s = b :: t ∧ isXDigit b = true := by
    cases hp : printHex w with
    | nil => exact absurd hp hg.pos
    | cons b g => exact ⟨b, _, rfl, hg.hex b (by simp [hp])⟩
  have hs : takeSign (printHex w ++ ch ':' :: s) = (false, printHex w ++ ch ':' :: s) := by rw [e]; exact takeSign_hex hb t
  have hh : ∀ c, isXDigit (ch c) = false → eat c (printHex w ++ ch ':' :: s) = none := by
    intro c hc; rw [e]; simp [eat, xdigit_ne hb c hc]
  obtain ⟨k, hk⟩ := takeDigits_hex 4 (printHex w) hg.hex (ch ':' :: s) rfl
  have hm : eat '-' ((printHex w).drop k ++ ch ':' :: s) = none := by
    cases hp : (printHex w).drop k with
    | nil => rfl
    | cons c g =>
      have := hg.hex c (List.mem_of_mem_drop (i := k) (by simp [hp]))
      simp [eat, xdigit_ne this '-' (by decide)]
  have h3 : ∀ v x, guarded 4 1900 9999 (printHex w ++ ch ':' :: s) = some (v, x) → eat '-' x = none := by
    intro v x hx
    unfold guarded at hx
    split at hx
    · cases hx
    · rename_i v' x' hx'
      unfold fixedP at hx'
      rw [hs, hk] at hx'
      split at hx'
      · cases hx'
      · split at hx'
        · injection hx' with hx'
          injection hx' with _ hx'
          split at hx
          · injection hx with hx
            injection hx with _ hx
            rw [← hx, ← hx']; exact hm
          · cases hx
        · cases hx'
  have hy : ymdhmsP env (printHex w ++ ch ':' :: s) = none := by
    unfold ymdhmsP
    split
    · rfl
    · rename_i y x hx
      simp [h3 y x hx]
  simp [timeP, hy, unixP, hh '@' (by decide), nowShiftP, kw_none (hh 'n' (by decide)), inP, kw_none (hh 'i' (by decide)), agoP, hdur]

/-! Whole addresses -/

theorem v4_form (a : Address) (h : a.isV4 = true) : ∃ w x y z, a = .v4 w x y z := by
  obtain ⟨bs, hl⟩ := a
  simp only [Address.isV4, beq_iff_eq] at h
  have h1 : (bs.drop 12).length = 4 := by simp [hl]
  match hd : bs.drop 12, h1 with
  | [w, x, y, z], _ =>
    refine ⟨w, x, y, z, ?_⟩
    have : bs = v4MappedPrefix ++ [w, x, y, z] := by rw [← h, ← hd, List.take_append_drop]
    subst this; rfl

theorem ofNat_toNat (bs : List (BitVec 8)) : (bs.map BitVec.toNat).map (BitVec.ofNat 8) = bs := by
  induction bs with
  | nil => rfl
  | cons b bs ih => simpa using ih

theorem ofBytes_addr (a : Address) : Address.ofBytes (addrBytes a) = some a := by
  have h : (addrBytes a).map (BitVec.ofNat 8) = a.bytes := ofNat_toNat a.bytes
  simp only [Address.ofBytes, h]
  simp [a.len]

/-- What the parsers of addresses say about a text in front of `r`. -/
def ReadsAs (env : Env) (t : Str) (a : Address) (r : Str) : Prop :=
  timeP env (t ++ r) = none ∧ durationP env (t ++ r) = none ∧ addrP (t ++ r) = some (a, r)

/-- The same for a text that may look like a duration unless `c` holds. -/
def ReadsIf (c : Prop) (env : Env) (t : Str) (a : Address) (r : Str) : Prop :=
  (c → timeP env (t ++ r) = none ∧ durationP env (t ++ r) = none) ∧ addrP (t ++ r) = some (a, r)

theorem reads_v4 (env : Env) (a : Address) (h : a.isV4 = true) (r : Str) (hr : headNot stickyA r = true) :
    ReadsAs env (printAddr a) a r := by
  obtain ⟨w, x, y, z, rfl⟩ := v4_form a h
  have hp : printAddr (.v4 w x y z) = ntop4 [w.toNat, x.toNat, y.toNat, z.toNat] := by
    rw [printAddr, if_pos h]; simp [addrBytes, Address.v4, v4MappedPrefix]
  have := w.isLt
  have := x.isLt
  have := y.isLt
  have := z.isLt
  rw [ReadsAs, hp]
  refine ⟨timeP_v4 env _ _ _ _ (by omega) (by omega) r, durationP_v4 env _ _ _ _ (by omega) (by omega) r, ?_⟩
  simp only [addrP, v4P_ntop4 _ _ _ _ w.isLt x.isLt y.isLt z.isLt r (stickyA_d hr)]
  simp

theorem addrP_v6 (t : Str) (a : Address) (r : Str) (h4 : v4P (t ++ r) = none) (h6 : v6P (t ++ r) = some r)
    (hp : pton6 t = some (addrBytes a)) : addrP (t ++ r) = some (a, r) := by
  have : (t ++ r).take ((t ++ r).length - r.length) = t := by simp
  simp only [addrP, h4, h6, this, hp, Option.bind_some, ofBytes_addr]

theorem reads_colon (c : Prop) (env : Env) (t : Str) (a : Address) (r : Str) (h6 : v6P (ch ':' :: t ++ r) = some r)
    (hp : pton6 (ch ':' :: t) = some (addrBytes a)) : ReadsIf c env (ch ':' :: t) a r := by
  refine ⟨fun _ => ⟨timeP_other env rfl rfl rfl rfl, durationP_other env rfl⟩, addrP_v6 _ a r (v4P_other rfl) h6 hp⟩

theorem reads_hex (env : Env) (w : Nat) (hw : w < 65536) (t : Str) (a : Address) (r : Str)
    (h6 : v6P (printHex w ++ ch ':' :: t ++ r) = some r)
    (hp : pton6 (printHex w ++ ch ':' :: t) = some (addrBytes a)) : ReadsIf (¬ LikeDays w) env (printHex w ++ ch ':' :: t) a r := by
  refine ⟨fun hd => ⟨?_, ?_⟩, addrP_v6 _ a r ?_ h6 hp⟩
  · rw [List.append_assoc, List.cons_append]; exact timeP_hex env w hw hd _
  · rw [List.append_assoc, List.cons_append]; exact durationP_hex env w hw hd _
  · rw [List.append_assoc, List.cons_append]; exact v4P_group _ (printHex_group w hw).hex _ rfl rfl

theorem reads_v6 (env : Env) (a : Address) (h : a.isV4 = false) (r : Str)
    (hr : headNot stickyA r = true) : ReadsIf (¬ LikeDays (firstWord a)) env (printAddr a) a r := by
  have hlen : (addrBytes a).length = 2 * 8 := by simp [addrBytes, a.len]
  have hbs : ∀ b ∈ addrBytes a, b < 256 := by
    intro b hb
    obtain ⟨x, _, rfl⟩ := List.mem_map.mp hb
    exact x.isLt
  obtain ⟨hwb, hwl, hwlt⟩ := wbytes_words (addrBytes a) hbs 8 hlen
  have hfirst : (wordsOf (addrBytes a)).head? = some (firstWord a) := by
    obtain ⟨bs, hl⟩ := a
    match bs, hl with
    | b :: c :: bs, _ => rfl
  have hrun := bestRun_run (wordsOf (addrBytes a)) [] (wordsOf (addrBytes a)) rfl (0, 0) ⟨[], _, rfl, rfl⟩
  have hp : printAddr a = ntop6 (addrBytes a) := by simp [printAddr, h]
  rw [hp, ntop6]
  generalize hx : bestRun 0 (0, 0) (wordsOf (addrBytes a)) = x at *
  obtain ⟨p, q, hpq, hpl⟩ := hrun
  generalize hws : wordsOf (addrBytes a) = ws at *
  obtain ⟨b, l⟩ := x
  simp only at *
  split
  · -- eight groups
    have h6 := v6P_full (ws.map printHex) (words_group hwlt) (by simpa using hwl) r hr
    have h7 := pton6_full ws hwlt hwl
    rw [hwb] at h7
    match ws, hwl, hfirst with
    | w :: v :: ws', _, hfirst =>
      simp only [List.head?_cons, Option.some.injEq] at hfirst
      have hw := hwlt w (by simp)
      rw [← hfirst]
      have e : join [ch ':'] ((w :: v :: ws').map printHex) = printHex w ++ ch ':' :: wj (v :: ws') := wj_two w v ws'
      rw [e]
      exact reads_hex env w hw _ a r (by rw [← e]; exact h6) (by rw [← e]; exact h7)
  · have hplt : ∀ w ∈ p, w < 65536 := fun w hw => hwlt w (by simp [hpq, hw])
    have hqlt : ∀ w ∈ q, w < 65536 := fun w hw => hwlt w (by simp [hpq, hw])
    have hsum : p.length + l + q.length = 8 := by rw [← hwl, hpq]; simp; omega
    have hbytes : addrBytes a = wbytes p ++ List.replicate (2 * l) 0 ++ wbytes q := by
      rw [← hwb, hpq, wbytes_append, wbytes_append, wbytes_zeros]
    split
    · -- IPv4 after a double colon
      rename_i h1 h2
      injection h2 with h2 h3
      subst h2 h3
      have hp0 : p = [] := List.length_eq_zero_iff.mp hpl
      subst hp0
      have hq : q.length = 2 := by simp at hsum; omega
      match q, hq with
      | [u, v], _ =>
        have hu := hqlt u (by simp)
        have hv := hqlt v (by simp)
        have hdrop : (addrBytes a).drop 12 = [u / 256, u % 256, v / 256, v % 256] := by rw [hbytes]; rfl
        rw [hdrop]
        exact reads_colon _ env _ a r (v6P_compat _ _ _ _ (by omega) (by omega) (by omega) (by omega) r hr)
          (by
            have := pton6_compat (u / 256) (u % 256) (v / 256) (v % 256) (by omega) (by omega) (by omega) (by omega)
            rw [hbytes]; exact this)
    split
    · -- a mapped IPv4 address
      rename_i h1 h2 h3
      obtain ⟨h3, h4⟩ := h3
      injection h3 with h3 h5
      subst h3 h5
      have hp0 : p = [] := List.length_eq_zero_iff.mp hpl
      subst hp0
      have hq : q.length = 3 := by simp at hsum; omega
      match q, hq with
      | [u, v, w], _ =>
        rw [hpq] at h4
        have hu : u = 65535 := by simpa using h4
        subst hu
        have : a.bytes.take 12 = v4MappedPrefix := by
          have h5 := ofNat_toNat a.bytes
          rw [show a.bytes.map BitVec.toNat = addrBytes a from rfl, hbytes] at h5
          rw [← h5]; rfl
        simp [Address.isV4, this] at h
    · -- a double colon
      rename_i h1 h2 h3
      have e1 : ws.take b = p := by rw [hpq, ← hpl]; simp
      have e2 : ws.drop (b + l) = q := by
        rw [hpq, ← hpl]
        have : p.length + l = (p ++ List.replicate l 0).length := by simp
        rw [this, List.drop_left]
      rw [e1, e2]
      have h6 := v6P_gap (p.map printHex) (q.map printHex) (words_group hplt) (words_group hqlt) (by simp; omega) r hr
      have h7 := pton6_gap p q hplt hqlt (by omega)
      have e3 : 16 - 2 * (p.length + q.length) = 2 * l := by omega
      rw [e3, ← hbytes] at h7
      have e4 : join [ch ':'] (p.map printHex) ++ [ch ':', ch ':'] ++ join [ch ':'] (q.map printHex) =
          wj p ++ ch ':' :: ch ':' :: wj q := by simp
      rw [e4]
      cases p with
      | nil => exact reads_colon _ env _ a r h6 h7
      | cons w p =>
        have hw := hplt w (by simp)
        rw [hpq] at hfirst
        have hfirst : w = firstWord a := by simpa using hfirst
        rw [← hfirst]
        cases p with
        | nil => exact reads_hex env w hw _ a r (by simpa [cj, join] using h6) h7
        | cons v p =>
          have e5 : wj (w :: v :: p) ++ ch ':' :: ch ':' :: wj q =
            printHex w ++ ch ':' :: (wj (v :: p) ++ ch ':' :: ch ':' :: wj q) := by rw [wj_two]; simp
          have e6 : printHex w ++ ch ':' :: (wj (v :: p) ++ ch ':' :: ch ':' :: wj q) ++ r =
            cj ((w :: v :: p).map printHex) ++ ch ':' :: ch ':' :: (cj (q.map printHex) ++ r) := by
            rw [← e5, List.append_assoc, List.cons_append, List.cons_append]
          rw [e5] at h7 ⊢
          exact reads_hex env w hw _ a r (by rw [e6]; exact h6) h7

/-- The text of an address is read as that address and not as a duration or a point in time. -/
theorem reads_addr (env : Env) (a : Address) (h : AddrOk a) (r : Str) (hr : headNot stickyA r = true) :
    ReadsAs env (printAddr a) a r := by
  cases h4 : a.isV4 with
  | true => exact reads_v4 env a h4 r hr
  | false =>
    have := reads_v6 env a h4 r hr
    have h1 := this.1 (h.resolve_left (by simp [h4]))
    exact ⟨h1.1, h1.2, this.2⟩

/-- The parser of addresses reads the text of every address. -/
theorem addrP_print (a : Address) (r : Str) (hr : headNot stickyA r = true) : addrP (printAddr a ++ r) = some (a, r) := by
  let env : Env := ⟨fun _ => .nan, fun _ _ => 0, fun _ => false, fun _ _ _ _ _ _ _ => 0, fun _ => 0, 0, fun _ => 0, fun _ => [], fun _ => [], fun _ => []⟩
  cases h4 : a.isV4 with
  | true => exact (reads_v4 env a h4 r hr).2.2
  | false => exact (reads_v6 env a h4 r hr).2

theorem stickyA_of {r : Str} (h : headNot sticky r = true) : headNot stickyA r = true :=
  headNot_mono h fun b hb => by
    simp only [stickyA, sticky, Bool.or_eq_true] at *
    rcases hb with (hb | hb) | hb <;> simp [hb]

theorem alternatives_addr (env : Env) (p : P Data) (a : Address) (h : AddrOk a) (r : Str) (hr : Delim r) :
    alternatives env p (printAddr a ++ r) = some (.address a, r) := by
  obtain ⟨h1, h2, h3⟩ := reads_addr env a h r (stickyA_of hr.headNot_sticky)
  have h4 : netP (printAddr a ++ r) = none := by simp [netP, h3, eat_sticky (c := '/') hr.headNot_sticky (by decide)]
  simp [alternatives, h1, h2, h3, h4, as, firstOf]

theorem net_again (n : Subnet) (h : ∃ a k, k ≤ 128 ∧ n = Subnet.make a k) :
    Subnet.make n.network n.length = n ∧ n.length ≤ 128 := by
  obtain ⟨a, k, hk, rfl⟩ := h
  by_cases h : ValidPrefix a k
  · refine ⟨C48_idempotent a k h, ?_⟩
    rw [(C48_length_network a k h).1]; exact hk
  · rw [(C48_invalid_length a k h).1]; decide

theorem netP_print (n : Subnet) (h : ∃ a k, k ≤ 128 ∧ n = Subnet.make a k) (r : Str) (hr : headNot isDigit r = true) :
    netP (printNet n ++ r) = some (n, r) := by
  obtain ⟨h0, hl⟩ := net_again n h
  have h3 := addrP_print n.network (ch '/' :: (printNat n.length ++ r)) rfl
  have e : printNet n ++ r = printAddr n.network ++ ch '/' :: (printNat n.length ++ r) := by simp [printNet]
  have hu : uintP 8 3 1 (printNat n.length ++ r) = some (n.length, r) := by
    have g1 := takeDigits_all 3 (digits n.length) (digits_lt _) (digits_length 3 _ (by omega) (by omega)) r hr
    have g2 : 1 ≤ (digits n.length).length := List.length_pos_iff.mpr (digits_ne_nil _)
    have g3 : n.length % 2 ^ 8 = n.length := Nat.mod_eq_of_lt (by omega)
    rw [printNat_eq]
    simp only [uintP, g1, g2, if_true, value_digits, g3]
  rw [e]
  simp only [netP, h3, eat_cons, Option.bind_some, hu, hl, if_true, h0]

theorem alternatives_net (env : Env) (p : P Data) (n : Subnet) (h : ∃ a k, k ≤ 128 ∧ n = Subnet.make a k) (ha : AddrOk n.network)
    (r : Str) (hr : Delim r) : alternatives env p (printNet n ++ r) = some (.subnet n, r) := by
  obtain ⟨h1, h2, _⟩ := reads_addr env n.network ha (ch '/' :: (printNat n.length ++ r)) rfl
  have e : printNet n ++ r = printAddr n.network ++ ch '/' :: (printNat n.length ++ r) := by simp [printNet]
  have h4 := netP_print n h r (headNot_digit hr.headNot_sticky)
  rw [← e] at h1 h2
  simp [alternatives, h1, h2, h4, as, firstOf]

end Verif.DataText
