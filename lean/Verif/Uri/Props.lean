import Verif.Uri.Lemmas
/-!
Identifiers of resources are read back as they were written, if their parts need no escapes; and those that are not.
-/
namespace Verif.Uri
open Verif.Data Verif.DataText

/-- An identifier with a path, without characters in the scheme, the host, the path and the fragment that would need an escape, and with
any query of keys and values that are not empty, is read back from its text. -/
theorem C171_roundtrip_partial {u : Uri} (h : Spec.Readable u) : parse (print u) = some u := by
  obtain ⟨p, ps, hp⟩ : ∃ p ps, u.path = p :: ps := by
    cases e : u.path with
    | nil => exact absurd e h.path
    | cons p ps => exact ⟨p, ps, rfl⟩
  -- the text after the query
  generalize hF : (if u.fragment = [] then [] else 35 :: Escape.percentEscape u.fragment : Str) = F
  have hfrag : fragmentP F = (u.fragment, []) := by
    by_cases e : u.fragment = []
    · rw [if_pos e] at hF; subst hF; rw [e]; rfl
    · rw [if_neg e, escape_unreserved h.fragment] at hF
      subst hF
      have hc : ∀ b ∈ u.fragment, fragmentChar b = true := by
        intro b hb
        obtain ⟨h1, _, _, _, _, _, h7, _⟩ := unreserved_print (h.fragment b hb)
        simp [fragmentChar, h1, h7]
      obtain ⟨h1, h2⟩ := takeWhile_run (r := []) hc rfl
      rw [List.append_nil] at h1 h2
      unfold fragmentP
      simp only [h1, h2]
  have hFhead : F = [] ∨ ∃ r, F = 35 :: r := by
    rw [← hF]; split
    · exact .inl rfl
    · exact .inr ⟨_, rfl⟩
  have hFv : headNot valueChar F = true ∧ F.head? ≠ some 38 ∧ F.head? ≠ some 63 ∧ headNot pathChar F = true ∧ F.head? ≠ some 47 := by
    rcases hFhead with rfl | ⟨r, rfl⟩
    · simp
    · simp [headNot, valueChar, pathChar]
  -- the text after the path
  generalize hQ : (if u.query = [] then [] else 63 :: join [38] (u.query.map printPair) : Str) = Q
  have hquery : queryP (Q ++ F) = (u.query, F) := by
    cases e : u.query with
    | nil =>
      rw [if_pos e] at hQ; subst hQ
      rw [List.nil_append]
      unfold queryP
      split
      · exact absurd rfl hFv.2.2.1
      · rfl
    | cons kv kvs =>
      rw [if_neg (by rw [e]; simp), e, List.map_cons, join_cons] at hQ
      subst hQ
      have hk := h.pairs
      have hs := h.keys
      rw [e] at hk hs
      have hh : headNot valueChar ((kvs.map printPair).flatMap (38 :: ·) ++ F) = true := by
        cases kvs with
        | nil => simpa using hFv.1
        | cons a b => simp [headNot, valueChar]
      have hl : kvs.length ≤ ((kvs.map printPair).flatMap (38 :: ·) ++ F).length := by
        clear hh hs hk e
        induction kvs with
        | nil => simp
        | cons a b ih => simp only [List.map_cons, List.flatMap_cons, List.length_append, List.length_cons] at ih ⊢; omega
      have := pairsP_some kvs [kv] _ F hl (by simpa using hs) (fun x hx => hk x (List.mem_cons_of_mem _ hx)) hFv.1 hFv.2.1
      have e' : 63 :: (printPair kv ++ (kvs.map printPair).flatMap (38 :: ·)) ++ F
          = 63 :: (printPair kv ++ ((kvs.map printPair).flatMap (38 :: ·) ++ F)) := by simp
      rw [e']
      unfold queryP
      simp only [pairP_some (hk kv List.mem_cons_self) hh, insert]
      exact this
  have hQhead : headNot pathChar (Q ++ F) = true ∧ (Q ++ F).head? ≠ some 47 := by
    rw [← hQ]; split
    · simpa using hFv.2.2.2
    · simp [headNot, pathChar]
  -- the path
  have hpath : pathP ((join [47] u.path ++ (Q ++ F)).length + 1) (join [47] u.path ++ (Q ++ F)) = (u.path, Q ++ F) := by
    rw [hp, join_cons, List.append_assoc]
    apply pathP_segments
    · have : ∀ xs : List Str, xs.length ≤ (xs.flatMap (47 :: ·)).length := by
        intro xs
        induction xs with
        | nil => simp
        | cons a b ih => simp only [List.flatMap_cons, List.length_append, List.length_cons] at ih ⊢; omega
      have := this ps
      simp only [List.length_append]; omega
    · rw [← hp]; exact h.segments
    · exact hQhead.1
    · exact hQhead.2
  -- the text after the host
  generalize hP : (if u.port = 0 then [] else 58 :: printNat u.port : Str) = P
  have hport : portP (P ++ 47 :: (join [47] u.path ++ (Q ++ F))) = (u.port, 47 :: (join [47] u.path ++ (Q ++ F))) := by
    by_cases e : u.port = 0
    · rw [if_pos e] at hP; subst hP; rw [e]; exact portP_none _
    · rw [if_neg e] at hP; subst hP
      exact portP_some h.port _ (by simp [headNot, isDigit])
  have hPhead : headNot schemeChar (P ++ 47 :: (join [47] u.path ++ (Q ++ F))) = true := by
    rw [← hP]; split <;> simp [headNot, schemeChar]
  -- the text after the scheme
  generalize hH : (if u.host = [] then [] else 47 :: 47 :: Escape.percentEscape u.host : Str) = H
  have hhost : hostP (H ++ (P ++ 47 :: (join [47] u.path ++ (Q ++ F)))) = (u.host, P ++ 47 :: (join [47] u.path ++ (Q ++ F))) := by
    by_cases e : u.host = []
    · rw [if_pos e] at hH; subst hH
      rw [List.nil_append]
      by_cases e' : u.port = 0
      · rw [if_pos e'] at hP; subst hP
        rw [List.nil_append, e]
        apply hostP_none
        rw [hp, join_cons]
        cases p with
        | nil =>
          have := h.path_start e e' (by rw [hp]; rfl)
          have : ps = [] := by rw [hp] at this; simpa using this
          subst this
          simpa using hQhead.2
        | cons b p =>
          have := h.segments (b :: p) (by rw [hp]; exact List.mem_cons_self) b List.mem_cons_self
          simp [this.2.1]
      · rw [if_neg e'] at hP; subst hP; rw [e]; exact hostP_colon _
    · rw [if_neg e, escape_unreserved h.host] at hH; subst hH
      exact hostP_some h.host hPhead
  have hscheme : schemeP ((if u.scheme = [] then [] else u.scheme ++ [58]) ++ (H ++ (P ++ 47 :: (join [47] u.path ++ (Q ++ F)))))
      = (u.scheme, H ++ (P ++ 47 :: (join [47] u.path ++ (Q ++ F)))) := by
    by_cases e : u.scheme = []
    · rw [if_pos e, List.nil_append, e]
      by_cases e' : u.host = []
      · have e'' : u.port = 0 := by
          by_cases e'' : u.port = 0
          · exact e''
          · rcases h.port_after e'' with h | h
            · exact absurd e h
            · exact absurd e' h
        rw [if_pos e'] at hH; rw [if_pos e''] at hP; subst hH hP
        exact schemeP_none _
      · rw [if_neg e'] at hH; subst hH; exact schemeP_none _
    · rw [if_neg e, List.append_assoc]; exact schemeP_some h.scheme
  have ht : print u = (if u.scheme = [] then [] else u.scheme ++ [58]) ++ (H ++ (P ++ 47 :: (join [47] u.path ++ (Q ++ F)))) := by
    unfold print
    rw [hH, hP, hQ, hF]
    simp only [List.append_assoc, List.cons_append]
  rw [ht]
  unfold parse
  simp only [hscheme, hhost, hport, hpath, hquery, hfrag, if_true]

/-- `http://vast.io:8080/a/b?k=%26%20x&q=1#top`. -/
def sample : Uri :=
  { scheme := str "http", host := str "vast.io", port := 8080, path := [str "a", str "b"], query := [(str "k", str "& x"), (str "q", str "1")],
    fragment := str "top" }

example : Spec.Readable sample where
  scheme := by unfold Spec.Printable; decide
  host := by unfold Spec.Unreserved; decide
  port := by decide
  port_after := by decide
  path := by decide
  segments := by unfold Spec.Printable; decide
  path_start := by decide
  keys := by decide
  pairs := by decide
  fragment := by unfold Spec.Unreserved; decide

example : print sample = str "http://vast.io:8080/a/b?k=%26%20x&q=1#top" := by decide +kernel

/-- The host is written with escapes, but read without: the address `::1` comes back as something else. -/
theorem C171_host_refuted : ∃ u v : Uri, u.host = str "::1" ∧ parse (print u) = some v ∧ v.host = str "%3A%3A1" :=
  ⟨{ host := str "::1", path := [[]] }, _, rfl, rfl, by decide⟩

/-- And so is the fragment. -/
theorem C171_fragment_refuted : ∃ u v : Uri, u.fragment = str "a b" ∧ parse (print u) = some v ∧ v.fragment = str "a%20b" :=
  ⟨{ path := [[]], fragment := str "a b" }, _, rfl, rfl, by decide⟩

/-- The path is written without escapes, but read with them: the segment `%41` comes back as `A`, the segment `a/b` as two, and what is
written for the segment `a b` cannot be read. -/
theorem C171_path_refuted :
    (∃ u v : Uri, u.path = [str "%41"] ∧ parse (print u) = some v ∧ v.path = [str "A"])
    ∧ (∃ u v : Uri, u.path = [str "a/b"] ∧ parse (print u) = some v ∧ v.path = [str "a", str "b"])
    ∧ ∃ u : Uri, u.path = [str "a b"] ∧ parse (print u) = none :=
  ⟨⟨{ path := [str "%41"] }, _, rfl, rfl, by decide⟩, ⟨{ path := [str "a/b"] }, _, rfl, rfl, by decide⟩,
   ⟨{ path := [str "a b"] }, rfl, by decide⟩⟩

/-- No path comes back as one empty segment, and a path that begins with an empty segment becomes a host. -/
theorem C171_empty_refuted :
    (∃ v, parse (print {}) = some v ∧ v.path = [[]])
    ∧ ∃ u v : Uri, u.path = [[], str "a", str "b"] ∧ u.host = [] ∧ parse (print u) = some v ∧ v.host = str "a" ∧ v.path = [str "b"] :=
  ⟨⟨_, rfl, by decide⟩, ⟨{ path := [[], str "a", str "b"] }, _, rfl, rfl, rfl, by decide, by decide⟩⟩

/-- A query with an empty value cannot be read, nor a port after nothing. -/
theorem C171_unreadable_refuted :
    (∃ u : Uri, u.query = [(str "k", [])] ∧ parse (print u) = none) ∧ ∃ u : Uri, u.port = 80 ∧ parse (print u) = none :=
  ⟨⟨{ path := [[]], query := [(str "k", [])] }, rfl, by decide⟩, ⟨{ port := 80, path := [[]] }, rfl, by decide +kernel⟩⟩

/-- A port that is too large is read as another one. -/
theorem C171_port_refuted : ∃ v : Uri, parse (str "http://vast.io:70000/") = some v ∧ v.port = 4464 := ⟨_, rfl, by decide⟩

end Verif.Uri
