import Verif.Http.Lemmas
/-! # C174–C175: HTTP requests are read, and responses written -/
namespace Verif.Http
open Verif.Data Verif.DataText Verif.Uri.Spec Spec

/-- **C174.**  Whatever is read as a request is one: a method, a URI, a protocol and a version in the first line; lines with headers, whose names
come out in upper case; an empty line; and the body. -/
theorem C174_only (s : Str) (r : Request) (h : parse s = some r) : ∃ target, RequestText s target r ∧ Uri.Spec.Text target r.uri := by
  unfold parse at h
  split at h
  · cases h
  · rename_i hm
    split at h
    · rename_i q hq
      simp only [Option.bind_eq_some_iff, Option.map_eq_some_iff] at h
      obtain ⟨⟨u, r1⟩, h1, ⟨⟨p, l⟩, r2⟩, h2, ⟨hs, b⟩, h3, rfl⟩ := h
      dsimp only at h2 h3
      obtain ⟨t, e1, ht⟩ := uriP_back h1
      obtain ⟨v, e2, hp, ha, hv⟩ := protoP_back h2
      obtain ⟨ts, e3, hts, hb⟩ := restP_back h3
      refine ⟨t, ⟨v, ts, ?_, hm, fun b hb => (wordChar_iff b).mp (Uri.takeWhile_mem hb), hp, ha, hv, hts, hb⟩, ht⟩
      have e0 := (List.takeWhile_append_dropWhile (p := wordChar) (l := s)).symm
      rw [hq, e1, e2, e3] at e0
      simpa using e0
    · cases h

/-- **C174 (partial).**  Every request is read, with the URIs that are read back from their text (C171). -/
theorem C174_read_partial (s : Str) (r : Request) (h : RequestText s (Uri.print r.uri) r) (hu : Uri.Spec.Readable r.uri) : parse s = some r := by
  obtain ⟨v, ts, rfl, h1, h2, h3, h4, h5, h6, h7⟩ := h
  have e : r.method ++ [32] ++ Uri.print r.uri ++ [32] ++ r.protocol ++ [47] ++ v ++ crlf ++ ts.flatten ++ crlf ++ r.body =
      r.method ++ (32 :: (Uri.print r.uri ++ ([32] ++ r.protocol ++ [47] ++ v ++ crlf ++ (ts.flatten ++ crlf ++ r.body)))) := by simp
  rw [e]
  obtain ⟨a1, a2⟩ := Uri.takeWhile_run (p := wordChar) (x := r.method)
    (r := 32 :: (Uri.print r.uri ++ ([32] ++ r.protocol ++ [47] ++ v ++ crlf ++ (ts.flatten ++ crlf ++ r.body))))
    (fun b hb => (wordChar_iff b).mpr (h2 b hb)) (by simp [headNot, wordChar])
  have b1 := Uri.uriP_print hu ([32] ++ r.protocol ++ [47] ++ v ++ crlf ++ (ts.flatten ++ crlf ++ r.body)) (.inr ⟨_, rfl⟩)
  have b2 := protoP_read (r := ts.flatten ++ crlf ++ r.body) h3 h4 h5
  unfold parse
  simp only [a1, a2, if_neg h1, b1, b2, restP_read h6 h7, Option.bind_some, Option.map_some]

/-- `POST http://vast.io:8080/a/b?k=%26%20x&q=1#top HTTP/1.1`. -/
def sample : Request :=
  { method := str "POST", uri := Uri.sample, protocol := str "HTTP", version := ⟨false, [1], [1]⟩,
    headers := [⟨str "CONTENT-TYPE", str "text/html"⟩, ⟨str "X", str "y: z "⟩], body := str "Body " }

def sampleText : Str := str "POST http://vast.io:8080/a/b?k=%26%20x&q=1#top HTTP/1.1\r\nContent-Type:text/html\r\nx:  y: z \r\n\r\nBody "

example : parse sampleText = some sample := by decide +kernel

/-- The hypotheses of `C174_read_partial` hold of it. -/
example : RequestText sampleText (Uri.print sample.uri) sample := by
  obtain ⟨t, h, _⟩ := C174_only sampleText sample (by decide +kernel)
  obtain ⟨v, hs, e, h1, h2, h3, h4, ⟨neg, sign, ds, fs, hl, hsign, rfl, hd⟩, h6, h7⟩ := h
  refine ⟨str "1.1", [str "Content-Type:text/html\r\n", str "x:  y: z \r\n"], by decide +kernel, h1, h2, h3, h4,
    ⟨false, [], [1], [1], rfl, by decide, by decide, by decide, by decide, by decide, by decide⟩, ?_, h7⟩
  refine .cons ⟨str "Content-Type", 0, by decide +kernel, by decide, by decide, ?_, ?_, by decide, (ups_iff _ _).mpr (by decide +kernel)⟩
    (.cons ⟨str "x", 2, by decide +kernel, by decide, by decide, ?_, ?_, by decide, (ups_iff _ _).mpr (by decide +kernel)⟩ .nil) <;>
  · unfold Only Printable; decide +kernel

/-- **C174.**  A header is looked up by its name in any case: the first one is found, and none if there is none. -/
theorem C174_header (name : Str) (hs : List Header) :
    (∀ h, header name hs = some h ↔ ∃ before after, hs = before ++ h :: after ∧ Same h.name name ∧ ∀ x ∈ before, ¬ Same x.name name) ∧
    (header name hs = none ↔ ∀ h ∈ hs, ¬ Same h.name name) := by
  unfold header
  constructor
  · intro h
    rw [List.find?_eq_some_iff_append]
    constructor
    · rintro ⟨h1, before, after, e, hb⟩
      exact ⟨before, after, e, (sameName_iff _ _).mp h1, fun x hx hc => by
        have := hb x hx; rw [(sameName_iff _ _).mpr hc] at this; cases this⟩
    · rintro ⟨before, after, e, h1, hb⟩
      refine ⟨(sameName_iff _ _).mpr h1, before, after, e, fun x hx => ?_⟩
      cases hc : sameName x.name name with
      | false => rfl
      | true => exact absurd ((sameName_iff _ _).mp hc) (hb x hx)
  · rw [List.find?_eq_none]
    constructor
    · exact fun h x hx hc => h x hx ((sameName_iff _ _).mpr hc)
    · exact fun h x hx hc => h x hx ((sameName_iff _ _).mp hc)

example : header (str "content-Type") sample.headers = some ⟨str "CONTENT-TYPE", str "text/html"⟩ := by decide +kernel

/-- **C174 (refuted).**  Requests that are not read: a header without a value, a parameter without a value, and a body of two lines. -/
theorem C174_rejected_refuted :
    parse (str "GET / HTTP/1.1\r\nX:\r\n\r\n") = none ∧ parse (str "GET /?a HTTP/1.1\r\n\r\n") = none ∧
    parse (str "GET / HTTP/1.1\r\n\r\na\r\nb") = none ∧ (parse (str "GET / HTTP/1.1\r\n\r\n")).isSome = true := by decide +kernel

/-- **C175 (partial).**  A response with at least one header and without line ends in its parts is written as a message that is read as the
status line, a line for each header, and the body. -/
theorem C175_message_partial (r : Response) (hne : r.headers ≠ []) (hp : ∀ b ∈ r.protocol ++ r.version ++ r.status, b ≠ 13)
    (hh : ∀ h ∈ r.headers, ∀ b ∈ h.name ++ h.value, b ≠ 13) :
    Message (print r) ((r.protocol ++ str "/" ++ r.version ++ str " " ++ printNat r.code ++ str " " ++ r.status) ::
      r.headers.map fun h => h.name ++ str ": " ++ h.value) r.body := by
  have lines : ∀ hs : List Header, hs ≠ [] → (∀ h ∈ hs, ∀ b ∈ h.name ++ h.value, b ≠ 13) →
      Message (join [13, 10] (hs.map printHeader) ++ [13, 10, 13, 10] ++ r.body) (hs.map fun h => h.name ++ str ": " ++ h.value) r.body := by
    intro hs
    induction hs with
    | nil => intro h; exact absurd rfl h
    | cons h hs ih =>
      intro _ hc
      have hl : ∀ b ∈ h.name ++ str ": " ++ h.value, b ≠ 13 := by
        intro b hb
        simp only [List.mem_append] at hb
        rcases hb with (hb | hb) | hb
        · exact hc h List.mem_cons_self b (by simp [hb])
        · revert b; decide
        · exact hc h List.mem_cons_self b (by simp [hb])
      have hn : h.name ++ str ": " ++ h.value ≠ [] := by
        have : str ": " ≠ [] := by decide
        simp [this]
      have e0 : str ": " = [58, 32] := by decide
      cases hs with
      | nil =>
        have : join [13, 10] ([h].map printHeader) ++ [13, 10, 13, 10] ++ r.body = (h.name ++ str ": " ++ h.value) ++ crlf ++ (crlf ++ r.body) := by
          rw [e0]; simp [join, printHeader, crlf]
        rw [this]
        exact .line hn hl (.empty _)
      | cons h' hs =>
        have : join [13, 10] ((h :: h' :: hs).map printHeader) ++ [13, 10, 13, 10] ++ r.body =
            (h.name ++ str ": " ++ h.value) ++ crlf ++ (join [13, 10] ((h' :: hs).map printHeader) ++ [13, 10, 13, 10] ++ r.body) := by
          rw [e0]; simp [join, printHeader, crlf]
        rw [this]
        exact .line hn hl (ih (by simp) fun x hx => hc x (List.mem_cons_of_mem _ hx))
  have e : print r = (r.protocol ++ str "/" ++ r.version ++ str " " ++ printNat r.code ++ str " " ++ r.status) ++ crlf ++
      (join [13, 10] (r.headers.map printHeader) ++ [13, 10, 13, 10] ++ r.body) := by
    have e1 : str "/" = [47] := by decide
    have e2 : str " " = [32] := by decide
    unfold print
    rw [e1, e2]; simp [crlf]
  rw [e]
  refine .line ?_ ?_ (lines _ hne hh)
  · have e2 : str " " = [32] := by decide
    rw [e2]; simp
  · intro b hb
    simp only [List.mem_append] at hb
    rcases hb with (((((hb | hb) | hb) | hb) | hb) | hb) | hb
    · exact hp b (by simp [hb])
    · revert b; decide
    · exact hp b (by simp [hb])
    · revert b; decide
    · exact printNat_no_cr r.code b hb
    · revert b; decide
    · exact hp b (by simp [hb])

/-- A message is read in one way only. -/
theorem message_unique {s : Str} {ls ls' : List Str} {b b' : Str} (h : Message s ls b) (h' : Message s ls' b') : ls = ls' ∧ b = b' := by
  induction h generalizing ls' b' with
  | empty body =>
    generalize e : crlf ++ body = s at h'
    cases h' with
    | empty body' => exact ⟨rfl, List.append_cancel_left e⟩
    | @line l s ls body' hn hl _ =>
      cases l with
      | nil => exact absurd rfl hn
      | cons c l =>
        simp only [crlf, List.cons_append, List.cons.injEq] at e
        exact absurd e.1.symm (hl c List.mem_cons_self)
  | @line l s ls body hn hl hm ih =>
    generalize e : l ++ crlf ++ s = z at h'
    cases h' with
    | empty body' =>
      cases l with
      | nil => exact absurd rfl hn
      | cons c l =>
        simp only [crlf, List.cons_append, List.cons.injEq] at e
        exact absurd e.1 (hl c List.mem_cons_self)
    | @line l' s' ls' body' hn' hl' hm' =>
      have key : ∀ (x y : Str), (∀ b ∈ x, b ≠ 13) → (∀ b ∈ y, b ≠ 13) → ∀ p q : Str, x ++ 13 :: p = y ++ 13 :: q → x = y ∧ p = q := by
        intro x
        induction x with
        | nil =>
          intro y _ hy p q e
          cases y with
          | nil => simp at e; exact ⟨rfl, e⟩
          | cons c y => simp only [List.nil_append, List.cons_append, List.cons.injEq] at e; exact absurd e.1.symm (hy c List.mem_cons_self)
        | cons a x ih =>
          intro y hx hy p q e
          cases y with
          | nil => simp only [List.nil_append, List.cons_append, List.cons.injEq] at e; exact absurd e.1 (hx a List.mem_cons_self)
          | cons c y =>
            simp only [List.cons_append, List.cons.injEq] at e
            obtain ⟨h1, h2⟩ := ih y (fun b hb => hx b (List.mem_cons_of_mem _ hb)) (fun b hb => hy b (List.mem_cons_of_mem _ hb)) p q e.2
            rw [e.1, h1]; exact ⟨rfl, h2⟩
      obtain ⟨h1, h2⟩ := key l l' hl hl' (10 :: s) (10 :: s') (by simpa [crlf] using e)
      simp only [List.cons.injEq, true_and] at h2
      subst h1 h2
      obtain ⟨h3, h4⟩ := ih hm'
      rw [h3]; exact ⟨rfl, h4⟩

example : Message (print ⟨str "HTTP", str "1.1", 200, str "OK", [⟨str "A", str "b"⟩, ⟨str "C", str "d"⟩], str "foo"⟩)
    [str "HTTP/1.1 200 OK", str "A: b", str "C: d"] (str "foo") := by
  have := C175_message_partial ⟨str "HTTP", str "1.1", 200, str "OK", [⟨str "A", str "b"⟩, ⟨str "C", str "d"⟩], str "foo"⟩ (by simp) (by decide)
    (by decide)
  have e : str "HTTP" ++ str "/" ++ str "1.1" ++ str " " ++ printNat 200 ++ str " " ++ str "OK" = str "HTTP/1.1 200 OK" := by decide +kernel
  have e1 : str "A" ++ str ": " ++ str "b" = str "A: b" := by decide
  have e2 : str "C" ++ str ": " ++ str "d" = str "C: d" := by decide
  simp only [e, e1, e2, List.map_cons, List.map_nil] at this
  exact this

/-- **C175 (refuted).**  Without headers, the body gets an empty line in front. -/
theorem C175_headers_refuted (b : Str) : ∃ r : Response, r.body = b ∧ ∀ ls body, Message (print r) ls body → body = [13, 10] ++ b := by
  refine ⟨⟨str "HTTP", str "1.1", 200, str "OK", [], b⟩, rfl, fun ls body h => ?_⟩
  have e : print ⟨str "HTTP", str "1.1", 200, str "OK", [], b⟩ = str "HTTP/1.1 200 OK" ++ crlf ++ (crlf ++ ([13, 10] ++ b)) := by
    have : str "HTTP" ++ [47] ++ str "1.1" ++ [32] ++ printNat 200 ++ [32] ++ str "OK" = str "HTTP/1.1 200 OK" := by decide +kernel
    unfold print
    dsimp only
    rw [this]
    simp [crlf, join]
  rw [e] at h
  exact (message_unique h (.line (by decide) (by decide) (.empty _))).2

/-- **C175 (refuted).**  Line ends in a value are not escaped: they add headers. -/
theorem C175_split_refuted : ∃ r : Response, r.headers.length = 1 ∧ ∃ ls, Message (print r) ls r.body ∧ ls.length = 3 := by
  refine ⟨⟨str "HTTP", str "1.1", 200, str "OK", [⟨str "A", str "b\r\nC: d"⟩], str "foo"⟩, rfl,
    [str "HTTP/1.1 200 OK", str "A: b", str "C: d"], ?_, rfl⟩
  have e : print ⟨str "HTTP", str "1.1", 200, str "OK", [⟨str "A", str "b\r\nC: d"⟩], str "foo"⟩ =
      str "HTTP/1.1 200 OK" ++ crlf ++ (str "A: b" ++ crlf ++ (str "C: d" ++ crlf ++ (crlf ++ str "foo"))) := by decide +kernel
  rw [e]
  exact .line (by decide) (by decide) (.line (by decide) (by decide) (.line (by decide) (by decide) (.empty _)))

end Verif.Http
