import Verif.Broker.Ext
/-!
# C143, C144, C145
-/
namespace Verif.Broker
open Verif.Data Verif.Calendar Spec

/-! ## C143: values are read as Zeek wrote them -/

/-- The bytes of a row are read as that row; times are those of the bytes. -/
theorem C143_row_partial (limit : Nat) (bs : Bytes) (xs : List Data) (h : ShowsRow False bs xs) (hl : bs.length ≤ limit) :
    ∃ ys, row limit bs = .ok ys [] ∧ ShowsRow False bs ys ∧ List.Forall₂ Near xs ys :=
  row_shows h hl

/-- What is read as a row is the bytes of that row, or `loose`ly so. -/
theorem C143_only_partial (limit : Nat) (bs r : Bytes) (xs : List Data) (h : row limit bs = .ok xs r) :
    ∃ b, bs = b ++ r ∧ ShowsRow True b xs :=
  row_only h

/-- A row that was cut off is not read. -/
theorem C143_truncated (limit : Nat) (bs a b : Bytes) (xs : List Data) (h : ShowsRow False bs xs) (hl : bs.length ≤ limit) (hb : bs = a ++ b)
    (hne : b ≠ []) : ∀ ys r, row limit a ≠ .ok ys r := by
  intro ys r hr
  obtain ⟨zs, h1, -, -⟩ := row_shows h hl
  have h2 := row_ext (z := b) hr
  rw [← hb, h1] at h2
  injection h2 with _ h3
  exact hne (List.append_eq_nil_iff.mp h3.symm).2

/-- A row with a string, a port, and a list of an address and nothing. -/
def sample : Bytes :=
  big 4 3 ++ ((header 8 25 1 ++ big 4 2 ++ [104, 105]) ++ ((header 12 25 1 ++ big 8 443 ++ big 4 1) ++
    ((header 22 13 1 ++ big 8 2 ++ ((header 13 25 1 ++ [4, 10, 0, 0, 1]) ++ (header 13 25 0 ++ []))) ++ [])))

example : ShowsRow False sample [.string [104, 105], .count 443, .list [.address (.v4 10 0 0 1), .none]] := by
  refine ⟨by decide, _, .cons _ _ _ _ (.text 8 25 [104, 105] (by decide) (by decide) (by decide)) (.cons _ _ _ _ (.port 25 443 1 (by decide) (by decide) (by decide))
    (.cons _ _ _ _ (.list 22 13 _ [_, _] (.inr rfl) (by decide) (by decide) (.cons _ _ _ _ (.addr 25 [4, 10, 0, 0, 1] _ (by decide) (.v4 10 0 0 1 _ rfl))
      (.cons _ _ _ _ (.absent 13 25 0 (by decide) (by decide) (by decide)) .nil))) .nil)), rfl⟩

set_option maxRecDepth 100000 in
example : sample.length ≤ 100 ∧ row 100 sample = .ok [.string [104, 105], .count 443, .list [.address (.v4 10 0 0 1), .none]] [] := by
  constructor
  · decide
  · rfl

/-- A list whose size is negative ends the process: nobody catches the exception of `reserve`. -/
theorem C143_negative_size_refuted : ∃ bs, ∀ limit, row limit bs = .thrown :=
  ⟨big 4 1 ++ header 22 13 1 ++ big 8 (2 ^ 64 - 1), fun _ => rfl⟩

/-- 10.0.0.1/33 is read as ::/0, the network of all addresses. -/
theorem C143_subnet_refuted : ∃ bs, (∀ limit, row limit bs = .ok [.subnet .default] []) ∧ ∀ xs, ¬ ShowsRow False bs xs := by
  refine ⟨big 4 1 ++ header 14 25 1 ++ [33, 4, 10, 0, 0, 1], fun _ => rfl, fun xs h => ?_⟩
  obtain ⟨ys, h1, h2, -⟩ := row_shows (limit := 100) h (by decide)
  have e : row 100 (big 4 1 ++ header 14 25 1 ++ [33, 4, 10, 0, 0, 1]) = .ok [.subnet .default] [] := rfl
  rw [e] at h1
  cases h1
  obtain ⟨-, bss, h3, h4⟩ := h2
  rw [List.append_assoc] at h4
  obtain ⟨-, h4⟩ := List.append_inj h4 rfl
  generalize hd : [Data.subnet .default] = ds at h3
  cases h3 with
  | nil => cases hd
  | cons b bs x xs h5 h6 =>
    cases hd
    cases h6
    rw [List.append_nil] at h4
    generalize hx : Data.subnet .default = d at h5
    cases h5 <;> first | (cases hx; done) | skip
    · rename_i hs ha hn _
      obtain ⟨-, h7⟩ := List.append_inj h4 rfl
      cases hx
      have := hn.2.1
      injection h7 with h7 _
      rw [← h7] at this
      have hd : (Address.Subnet.default).len = 0 := rfl
      have hk : (33 : UInt8).toNat = 33 := rfl
      omega
    · rename_i hf _ _ _ _
      exact hf.elim

/-- A time that is not a number makes the behaviour undefined. -/
theorem C143_time_refuted : ∃ bs, ∀ limit, row limit bs = .undefined :=
  ⟨big 4 1 ++ header 6 25 1 ++ big 8 (2047 * 2 ^ 52 + 1), fun _ => rfl⟩

/-! ## C144: the columns of a log -/

/-- A log whose columns have types gets the layout of the log, and there is only one. -/
theorem C144_layout_partial (log : Log) (ds : List BData) (x : BData) (hd : List.Forall₂ FieldMsg log.2 ds)
    (ht : ∀ f ∈ log.2, ∃ t, TypeOf f.2.1 f.2.2 t) :
    ∃ l, create true (.vector [.string log.1, .real, .real, .real, .table, x]) (.vector ds) = some l ∧ ∀ m, LayoutOf log m ↔ m = zeekify l := by
  obtain ⟨cs, h1, h2⟩ := columns_some hd ht
  refine ⟨(str "zeek." ++ log.1, cs), by simp [create, h1], fun m => ⟨fun h => layout_unique h (layout_columns h2), fun h => h ▸ layout_columns h2⟩⟩

/-- A log with a column that has no type is an error. -/
theorem C144_rejected (log : Log) (ds : List BData) (w : BData) (valid : Bool) (hd : List.Forall₂ FieldMsg log.2 ds)
    (hr : ∀ f ∈ log.2, f.2.1 < 2 ^ 32 ∧ f.2.2 < 2 ^ 32) (f : Field) (hf : f ∈ log.2) (ht : ∀ t, ¬ TypeOf f.2.1 f.2.2 t) :
    create valid w (.vector ds) = none := by
  have h1 : columnsOf ds = none := by
    cases hc : columnsOf ds with
    | none => rfl
    | some cs =>
      obtain ⟨t, h⟩ := columns_inv hd hr hc f hf
      exact absurd h (ht t)
  rw [create.eq_def]
  split
  · rfl
  · split
    · rename_i heq
      cases heq
      rw [h1]; rfl
    · rfl

/-- The columns take the values that the types of Zeek have, and null. -/
theorem C144_values (log : Log) (l : Layout) (row : List Data) (hl : LayoutOf log l) (hr : List.Forall₂ (fun f x => Fits f.2.1 f.2.2 x) log.2 row) :
    List.Forall₂ (fun c x => accepts c.2 x = true) l.2 row := by
  refine List.forall₂_iff_get.mpr ⟨hl.2.1.trans hr.length_eq, fun i h1 h2 => ?_⟩
  obtain ⟨f, hf, hx⟩ := (forall2_get hr i).1 _ (List.getElem?_eq_getElem h2)
  exact column_accepts (hl.2.2 i _ (List.getElem?_eq_getElem h1)) hf hx

/-- A log with a time stamp, an identifier, a port and a list of strings. -/
def sampleLog : Log := (str "conn", [(str "ts", 6, 25), (str "uid", 8, 25), (str "p", 12, 25), (str "tags", 16, 8)])

def sampleFields : List BData := sampleLog.2.map fun f => .vector [.string f.1, .other, .count f.2.1, .count f.2.2, .other]

theorem sampleFields_ok : List.Forall₂ FieldMsg sampleLog.2 sampleFields :=
  .cons ⟨_, _, rfl⟩ (.cons ⟨_, _, rfl⟩ (.cons ⟨_, _, rfl⟩ (.cons ⟨_, _, rfl⟩ .nil)))

theorem sampleLog_types : ∀ f ∈ sampleLog.2, ∃ t, TypeOf f.2.1 f.2.2 t := by
  intro f hf
  simp only [sampleLog, List.mem_cons, List.not_mem_nil, or_false] at hf
  rcases hf with rfl | rfl | rfl | rfl
  · exact ⟨.time, .plain _ _ _ (by decide)⟩
  · exact ⟨.string, .plain _ _ _ (by decide)⟩
  · exact ⟨.port, .plain _ _ _ (by decide)⟩
  · exact ⟨.list .string, .list _ _ _ (.inl rfl) (by decide)⟩

example : (create true (.vector [.string sampleLog.1, .real, .real, .real, .table, .other]) (.vector sampleFields)).map zeekify =
    some (str "zeek.conn", [(str "ts", .timestamp), (str "uid", .hashed), (str "p", .port), (str "tags", .list .string)]) := by decide +kernel

example : List.Forall₂ (fun f x => Fits f.2.1 f.2.2 x) sampleLog.2 [.time 5, .none, .count 80, .list [.string (str "a"), .none]] :=
  .cons (.plain _ _ _ (.time 5)) (.cons (.plain _ _ _ (.none _)) (.cons (.plain _ _ _ (.count _ 80 (by decide)))
    (.cons (.list _ _ _ (.inl rfl) (by
      intro x hx
      simp only [List.mem_cons, List.not_mem_nil, or_false] at hx
      rcases hx with rfl | rfl
      · exact .text _ _ (by decide)
      · exact .none _)) .nil)))

/-- Values of the type `func` can be read, but logs with such a column are rejected. -/
theorem C144_func_refuted : ∃ (f : Field) (bs : Bytes) (x : Data), ShowsRow False bs [x] ∧ Fits f.2.1 f.2.2 x ∧
    (∀ limit, row limit bs = .ok [x] []) ∧
    ∀ valid w d, FieldMsg f d → create valid w (.vector [d]) = none := by
  refine ⟨(str "f", 20, 25), big 4 1 ++ ((header 20 25 1 ++ big 4 1 ++ [97]) ++ []), .string [97], ?_, ?_, fun _ => rfl, ?_⟩
  · exact ⟨by decide, _, .cons _ _ _ _ (.text 20 25 [97] (by decide) (by decide) (by decide)) .nil, rfl⟩
  · exact .plain _ _ _ (.text _ _ (by decide))
  · intro valid w d hd
    refine C144_rejected (str "", [(str "f", 20, 25)]) [d] w valid (.cons hd .nil) (by simp) (str "f", 20, 25) (by simp) fun t ht => ?_
    cases ht with
    | plain _ h => simp [plainTypes] at h
    | list _ h _ => rcases h with h | h <;> cases h

/-- A set and a vector get the same type: the name `set` goes to the wrong level. -/
theorem C144_set_refuted (name : Str) (sub : Nat) (x y : BData) :
    columnsOf [.vector [.string name, x, .count 16, .count sub, y]] = columnsOf [.vector [.string name, x, .count 22, .count sub, y]] := rfl

/-! ## C145: every row arrives, once and in order -/

/-- If Zeek keeps to its protocol, then after any number of calls the slices of a layout have the rows that were written with this
layout, in their order.  Times are those of the bytes. -/
theorem C145_rows_partial (limit maxEvents maxSlice : Nat) (hs : 0 < maxSlice) (hl : 2 ^ 32 ≤ limit) (tss : List (List Tell))
    (mss : List (List Msg)) (h : List.Forall₂ SendsAll tss mss) (ho : Orderly (tss.map flatAll).flatten) :
    ∃ tss' s, List.Forall₂ SendsAll tss' mss ∧ List.Forall₂ NearE (tss.map flatAll).flatten (tss'.map flatAll).flatten ∧
      reads limit maxEvents maxSlice mss State.init = .done s .ok ∧
      ∀ l, Written l (tss'.map flatAll).flatten (Reader.rowsIn l s.out) := by
  obtain ⟨tss', s', a, b, c, d, e⟩ := reads_step (maxEvents := maxEvents) hs hl h [] [] State.init (by simpa using ho) .nil (inv_init _ hs) (fun _ => rfl)
  refine ⟨tss', s', a, by simpa using c, b, fun l => ?_⟩
  have := d.rows l
  rw [e l, List.append_nil] at this
  simpa using this

/-- Whatever the messages are, slices are not empty, have at most `maxSlice` rows, and the rows fit their layout. -/
theorem C145_slices (limit maxEvents maxSlice : Nat) (hs : 0 < maxSlice) (mss : List (List Msg)) (s : State) (r : Result)
    (h : reads limit maxEvents maxSlice mss State.init = .done s r) :
    ∀ x ∈ s.out, 1 ≤ x.2.length ∧ x.2.length ≤ maxSlice ∧ ∀ xs ∈ x.2, List.Forall₂ (fun c v => accepts c.2 v = true) x.1.2 xs := by
  have h0 : Weak maxSlice State.init := ⟨fun _ => hs, fun _ h => (by cases h), fun _ _ h => (by cases h), fun _ h => (by cases h), .nil⟩
  have hw := weak_reads hs h0 h
  exact fun x hx => ⟨(hw.size x hx).1, (hw.size x hx).2, hw.goodOut x hx⟩

/-- A log with one column of strings. -/
def small : Log := (str "x", [(str "a", 8, 25)])

def smallCreate : Msg := .create true (str "k") (.vector [.string (str "x"), .real, .real, .real, .table, .other])
  (.vector [.vector [.string (str "a"), .other, .count 8, .count 25, .other]])

def smallRow (b : UInt8) : Bytes := big 4 1 ++ ((header 8 25 1 ++ big 4 1 ++ [b]) ++ [])

def smallTells : List Tell := [.create (str "k") small, .batch [.write (str "k") [.string [97]], .write (str "k") [.string [98]]], .other]

def smallMsgs : List Msg := [smallCreate, .batch [.write (str "k") (.string (smallRow 97)), .write (str "k") (.string (smallRow 98))], .other]

theorem smallRow_shows (b : UInt8) : ShowsRow False (smallRow b) [.string [b]] :=
  ⟨by simp, _, .cons _ _ _ _ (.text 8 25 [b] (by decide) (by decide) (by simp)) .nil, rfl⟩

theorem smallRow_length (b : UInt8) : (smallRow b).length < 2 ^ 32 := by simp [smallRow, big]

example : List.Forall₂ SendsAll [smallTells] [smallMsgs] := by
  refine .cons (.cons _ _ _ _ (.create _ small _ _ (.cons ⟨_, _, rfl⟩ .nil)) (.cons _ _ _ _ (.batch _ _ (.cons _ _ _ _ ?_ (.cons _ _ _ _ ?_ .nil))) (.cons _ _ _ _ .other .nil))) .nil
  · exact .write _ _ _ (smallRow_shows 97) (smallRow_length 97)
  · exact .write _ _ _ (smallRow_shows 98) (smallRow_length 98)

example : Orderly ([smallTells].map flatAll).flatten := by
  have h1 : Orderly ([] ++ [Event.create (str "k") small]) := .create _ _ _ .nil fun f hf => by
    simp only [small, List.mem_singleton] at hf
    subst hf
    exact ⟨.string, .plain _ _ _ (by decide)⟩
  have hf : ∀ b, List.Forall₂ (fun f x => Fits f.2.1 f.2.2 x) small.2 [.string [b]] := fun b => .cons (.plain _ _ _ (.text _ _ (by decide))) .nil
  have h2 : Orderly (([] ++ [Event.create (str "k") small]) ++ [.write (str "k") [.string [97]]]) := .write _ _ _ h1 fun log hl => by
    cases hl; exact hf 97
  exact .write _ (str "k") [.string [98]] h2 fun log hl => by cases hl; exact hf 98

example : ∃ s, reads (2 ^ 32) 10 1 [smallMsgs] State.init = .done s .ok ∧
    s.out = [((str "zeek.x", [(str "a", .string)]), [[.string [97]]]), ((str "zeek.x", [(str "a", .string)]), [[.string [98]]])] :=
  ⟨_, rfl, rfl⟩

/-- A log with a column of a type that is not known is an error, and the messages behind it, also those of other logs, are lost. -/
theorem C145_error_refuted : ∃ bad s, reads (2 ^ 32) 10 100 [bad :: smallMsgs] State.init = .done s .error ∧ s.out = [] ∧ s.streams = [] :=
  ⟨.create true (str "other") (.vector [.string (str "y"), .real, .real, .real, .table, .other])
    (.vector [.vector [.string (str "f"), .other, .count 20, .count 25, .other]]), _, rfl, rfl, rfl⟩

set_option maxRecDepth 100000 in
/-- One call can produce more rows than it should: a batch counts as one event. -/
theorem C145_events_refuted : ∃ s, read (2 ^ 32) 3 100 State.init smallMsgs = .done s .ok ∧ ∃ s', read (2 ^ 32) 1 100 s [smallMsgs[1]] = .done s' .ok ∧
    s'.out.length = 2 ∧ (s'.out.flatMap (·.2)).length = 4 :=
  ⟨_, rfl, _, rfl, rfl, rfl⟩

/-- A row with too few columns fails an assertion, or leaves a part of a row in the builder. -/
theorem C145_columns_refuted : reads (2 ^ 32) 10 100 [[smallCreate, .write (str "k") (.string (big 4 0))]] State.init = .broken := rfl

end Verif.Broker
