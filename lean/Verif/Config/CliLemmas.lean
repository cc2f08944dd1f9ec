import Verif.Config.FileLemmas

namespace Verif.Config

open Verif.Data (Str str)
open Verif.Record (Name D L R nestedOf toList_ofList ofList_toList get_set_self get_set_ne at_nestedOf)
open Verif.Record.Spec
open Spec

variable {α : Type}

/-! ### The command line -/

/-- The value of an option that the command line sets. -/
def cliValue (lists : Bool) (old : Option (D α)) : D α → D α
  | .list xs => joinSettings lists xs old
  | d => d

theorem mergeSettingsLoop_other {k : Name} {d : D α} {rest : R α} (h : isRec d = false) (lists : Bool) (n : Nat)
    (dst : List (Name × D α)) : mergeSettingsLoop lists n dst (.cons k d rest) =
      mergeSettingsLoop lists n (Record.set k (cliValue lists (Record.get k dst) d) dst) rest := by
  cases d <;> first | rfl | simp [isRec] at h

theorem mergeSettingsLoop_get (lists : Bool) (n : Nat) (k : Name) : ∀ (src : R α), UniqueKeys src → ∀ dst : List (Name × D α),
    (Record.get k src.toList = none → Record.get k (mergeSettingsLoop lists n dst src) = Record.get k dst) ∧
    (∀ s, Record.get k src.toList = some (.record s) → Record.get k (mergeSettingsLoop lists n dst src) =
      some (.record (.ofList (if n = 0 then nestedOf (Record.get k dst)
        else mergeSettingsLoop lists (n - 1) (nestedOf (Record.get k dst)) s)))) ∧
    (∀ d, Record.get k src.toList = some d → isRec d = false →
      Record.get k (mergeSettingsLoop lists n dst src) = some (cliValue lists (Record.get k dst) d)) := by
  intro src
  induction src using Record.R.induct with
  | hn => intro _ dst; exact ⟨fun _ => rfl, fun s h => by (cases h), fun d h => by cases h⟩
  | hr j s rest _ ihr =>
    intro hu dst
    cases hu with
    | cons hr hk hs =>
      rw [mergeSettingsLoop, R.toList, Record.get]
      generalize hx : R.ofList (if n = 0 then nestedOf (Record.get j dst)
        else mergeSettingsLoop lists (n - 1) (nestedOf (Record.get j dst)) s) = x
      have ih := ihr hr (Record.set j (.record x) dst)
      by_cases e : j = k
      · subst e
        rw [if_pos rfl]
        have hg : Record.get j rest.toList = none := Record.get_none.2 hk
        have h1 := ih.1 hg
        rw [get_set_self] at h1
        refine ⟨fun h => by (cases h), fun s' h => ?_, fun d h hd => ?_⟩
        · cases h; rw [h1, hx]
        · cases h; simp [isRec] at hd
      · rw [if_neg e]
        rw [get_set_ne (Ne.symm e)] at ih
        exact ih
  | ho j d0 rest hd0 ihr =>
    intro hu dst
    cases hu with
    | cons hr hk hs =>
      rw [mergeSettingsLoop_other hd0, R.toList, Record.get]
      have ih := ihr hr (Record.set j (cliValue lists (Record.get j dst) d0) dst)
      by_cases e : j = k
      · subst e
        rw [if_pos rfl]
        have hg : Record.get j rest.toList = none := Record.get_none.2 hk
        have h1 := ih.1 hg
        rw [get_set_self] at h1
        refine ⟨fun h => by (cases h), fun s' h => ?_, fun d h hd => ?_⟩
        · cases h; simp [isRec] at hd0
        · cases h; exact h1
      · rw [if_neg e]
        rw [get_set_ne (Ne.symm e)] at ih
        exact ih

theorem uniqueKeys_of_get {k : Name} {s r : R α} (hu : UniqueKeys r) (h : Record.get k r.toList = some (.record s)) :
    UniqueKeys s := uniqueKeys_get (by rw [ofList_toList]; exact hu) h

theorem mergeSettingsLoop_src (lists : Bool) : ∀ (p : List Name) (src : R α) (n : Nat) (dst : List (Name × D α)) (d : D α),
    UniqueKeys src → p.length ≤ n + 1 → at' p src.toList = some d → isRec d = false →
    at' p (mergeSettingsLoop lists n dst src) = some (cliValue lists (at' p dst) d)
  | [], _, _, _, _, _, _, h, _ => by rw [at'] at h; cases h
  | [k], src, n, dst, d, hu, _, h, hd => (mergeSettingsLoop_get lists n k src hu dst).2.2 d h hd
  | k :: k' :: p, src, n, dst, d, hu, hl, h, hd => by
    cases hg : Record.get k src.toList with
    | none => rw [at', hg] at h; cases h
    | some x =>
      rcases Record.rec_cases x with ⟨s, rfl⟩ | hx
      · rw [at', hg] at h
        have hn : n ≠ 0 := by intro e; rw [e] at hl; simp at hl
        have h1 := (mergeSettingsLoop_get lists n k src hu dst).2.1 s hg
        rw [if_neg hn] at h1
        rw [at_nestedOf, h1, nestedOf, toList_ofList, at_nestedOf k k' p dst]
        refine mergeSettingsLoop_src lists (k' :: p) s (n - 1) _ d (uniqueKeys_of_get hu hg) ?_ h hd
        simp at hl ⊢; omega
      · rw [at', hg] at h
        cases x <;> first | cases h | simp [isRec] at hx

theorem mergeSettingsLoop_dst (lists : Bool) : ∀ (p : List Name) (src : R α) (n : Nat) (dst : List (Name × D α)),
    UniqueKeys src → ¬ Defines src p → at' p (mergeSettingsLoop lists n dst src) = at' p dst
  | [], _, _, _, _, _ => rfl
  | [k], src, n, dst, hu, h => by
    refine (mergeSettingsLoop_get lists n k src hu dst).1 ?_
    exact not_defines_value h
  | k :: k' :: p, src, n, dst, hu, h => by
    cases hg : Record.get k src.toList with
    | none => rw [at_nestedOf, at_nestedOf, (mergeSettingsLoop_get lists n k src hu dst).1 hg]
    | some x =>
      rcases Record.rec_cases x with ⟨s, rfl⟩ | hx
      · rw [at_nestedOf, at_nestedOf, (mergeSettingsLoop_get lists n k src hu dst).2.1 s hg, nestedOf, toList_ofList]
        split
        · rfl
        · refine mergeSettingsLoop_dst lists (k' :: p) s (n - 1) _ (uniqueKeys_of_get hu hg) ?_
          rintro (⟨d, hd⟩ | ⟨q, d, hq, hd, hr⟩)
          · exact h (.inl ⟨d, by rw [valueAt, at', hg]; exact hd⟩)
          · refine h (.inr ⟨k :: q, d, List.cons_prefix_cons.2 ⟨rfl, hq⟩, ?_, hr⟩)
            cases q with
            | nil => cases hd
            | cons b q => rw [valueAt, at', hg]; exact hd
      · exact absurd (.inr ⟨[k], x, List.cons_prefix_cons.2 ⟨rfl, List.nil_prefix⟩, hg, hx⟩) h

/-! ### The files that are read -/

theorem addConfigs_eq {w : World α} {dir : Str} {acc paths : List Str} (h : addConfigs w dir acc = .ok paths) :
    ∃ more, paths = acc ++ more ∧ (more.filterMap fun x => mapOf (w.files x)) = (inDir w dir).toList := by
  have e1 : join dir (str "vast.yaml") = dir ++ str "/vast.yaml" := by
    rw [join, List.append_assoc]; rfl
  have e2 : join dir (str "vast.yml") = dir ++ str "/vast.yml" := by
    rw [join, List.append_assoc]; rfl
  rw [addConfigs] at h
  rw [inDir, ← e1, ← e2]
  cases h1 : w.files (join dir (str "vast.yaml")) with
  | some f =>
    rw [h1] at h
    cases h2 : w.files (join dir (str "vast.yml")) with
    | some g => rw [h2] at h; cases h
    | none =>
      rw [h2] at h
      cases h
      refine ⟨[join dir (str "vast.yaml")], rfl, ?_⟩
      simp only [List.filterMap_cons, List.filterMap_nil, h1, Option.some_or]
      cases mapOf (some f) <;> rfl
  | none =>
    rw [h1] at h
    cases h2 : w.files (join dir (str "vast.yml")) with
    | some g =>
      rw [h2] at h
      cases h
      refine ⟨[join dir (str "vast.yml")], rfl, ?_⟩
      simp only [List.filterMap_cons, List.filterMap_nil, h2, Option.none_or]
      cases mapOf (some g) <;> rfl
    | none =>
      rw [h2] at h
      cases h
      exact ⟨[], by simp, rfl⟩

theorem addAll_eq {w : World α} : ∀ {dirs acc paths : List Str}, addAll w dirs acc = .ok paths →
    ∃ more, paths = acc ++ more ∧ (more.filterMap fun x => mapOf (w.files x)) = dirs.flatMap fun x => (inDir w x).toList
  | [], acc, paths, h => by cases h; exact ⟨[], by simp, rfl⟩
  | dir :: dirs, acc, paths, h => by
    rw [addAll] at h
    cases ha : addConfigs w dir acc with
    | error e => rw [ha] at h; cases h
    | ok acc' =>
      rw [ha] at h
      obtain ⟨m1, h1, h2⟩ := addConfigs_eq ha
      obtain ⟨m2, h3, h4⟩ := addAll_eq h
      refine ⟨m1 ++ m2, by rw [h3, h1, List.append_assoc], ?_⟩
      rw [List.filterMap_append, h2, h4, List.flatMap_cons]

theorem addExplicit_eq {w : World α} : ∀ {args acc paths : List Str}, addExplicit w args acc = .ok paths →
    ∃ more, paths = acc ++ more ∧ (more.filterMap fun x => mapOf (w.files x)) = explicit w args
  | [], acc, paths, h => by cases h; exact ⟨[], by simp, rfl⟩
  | arg :: args, acc, paths, h => by
    rw [addExplicit] at h
    rw [explicit, List.filterMap_cons]
    by_cases hp : (str "--config=").isPrefixOf arg = true
    · rw [if_pos hp] at h
      cases hf : w.files (arg.drop 9) with
      | none => rw [hf] at h; cases h
      | some f =>
        rw [hf] at h
        obtain ⟨m, h1, h2⟩ := addExplicit_eq h
        refine ⟨arg.drop 9 :: m, by rw [h1]; simp, ?_⟩
        rw [List.filterMap_cons, h2, if_pos hp, hf]
        rfl
    · rw [if_neg hp] at h
      obtain ⟨m, h1, h2⟩ := addExplicit_eq h
      exact ⟨m, h1, by rw [h2, if_neg hp]; rfl⟩

theorem filterMap_filter_of {β γ : Type} {f : β → Option γ} {g : β → Bool} (h : ∀ x, g x = false → f x = none) :
    ∀ l : List β, (l.filter g).filterMap f = l.filterMap f
  | [] => rfl
  | x :: l => by
    cases hg : g x with
    | true => rw [List.filter_cons_of_pos hg, List.filterMap_cons, List.filterMap_cons, filterMap_filter_of h l]
    | false =>
      rw [List.filter_cons_of_neg (by simp [hg]), List.filterMap_cons, h x hg, filterMap_filter_of h l]

theorem filterMap_erase_of {γ : Type} {f : Str → Option γ} {a : Str} (h : f a = none) :
    ∀ l : List Str, (l.erase a).filterMap f = l.filterMap f
  | [] => rfl
  | x :: l => by
    rw [List.erase_cons]
    by_cases e : x = a
    · subst e; simp [h]
    · simp only [beq_iff_eq, e, if_false, List.filterMap_cons, filterMap_erase_of h l]

theorem two_prefixes {a b x : Str} (ha : a <+: x) (hb : b <+: x) (n : Nat) (h1 : n < a.length) (h2 : n < b.length) :
    a[n]? = b[n]? := by
  obtain ⟨s, rfl⟩ := ha
  obtain ⟨t, ht⟩ := hb
  have : (a ++ s)[n]? = (b ++ t)[n]? := by rw [ht]
  rwa [List.getElem?_append_left h1, List.getElem?_append_left h2] at this

theorem explicit_commandLine (w : World α) (args : List Str) : explicit w (commandLine args) = explicit w args := by
  have no : ∀ (b : Str), b.length = 7 ∨ 7 < b.length → b[3]? ≠ (str "--config=")[3]? ∨ b[2]? ≠ (str "--config=")[2]? ∨ b[4]? ≠ (str "--config=")[4]? → ∀ x : Str,
      b.isPrefixOf x = true → (str "--config=").isPrefixOf x = false := by
    intro b hb hne x hx
    rw [Bool.eq_false_iff]
    intro hc
    rw [List.isPrefixOf_iff_prefix] at hx hc
    have hl : (str "--config=").length = 9 := rfl
    rcases hne with h | h | h
    · exact h (two_prefixes hx hc 3 (by omega) (by omega))
    · exact h (two_prefixes hx hc 2 (by omega) (by omega))
    · exact h (two_prefixes hx hc 4 (by omega) (by omega))
  have hcaf : ∀ x : Str, (str "--caf.").isPrefixOf x = true → (str "--config=").isPrefixOf x = false := by
    intro x hx
    rw [Bool.eq_false_iff]
    intro hc
    rw [List.isPrefixOf_iff_prefix] at hx hc
    have := two_prefixes hx hc 3 (by decide) (by decide)
    revert this; decide
  rw [explicit, explicit, commandLine]
  rw [filterMap_filter_of, filterMap_filter_of, filterMap_erase_of]
  · rfl
  · intro x hx
    have hp : isPluginOpt x = true := by simpa using hx
    rw [isPluginOpt, Bool.or_eq_true] at hp
    rw [if_neg]
    rw [Bool.not_eq_true]
    rcases hp with hp | hp
    · exact no _ (by decide) (by decide) x hp
    · exact no _ (by decide) (by decide) x hp
  · intro x hx
    have hp : (str "--caf.").isPrefixOf x = true := by simpa using hx
    rw [if_neg]
    rw [Bool.not_eq_true]
    exact hcaf x hp

/-- The order in which the files are read: that of the user, that of the system, those on the command line. -/
def readOrder (w : World α) (args : List Str) : List (R α) :=
  (if str "--bare-mode" ∈ args then [] else (user w).toList ++ (system w).toList) ++ explicit w args

theorem configFiles_eq {w : World α} {args paths : List Str} (h : configFiles w args = .ok paths) :
    (paths.filterMap fun x => mapOf (w.files x)) = readOrder w args := by
  rw [configFiles] at h
  cases ha : addAll w (configDirs w (isBare args)) [] with
  | error e => rw [ha] at h; cases h
  | ok p1 =>
    rw [ha] at h
    obtain ⟨m1, h1, h2⟩ := addAll_eq ha
    obtain ⟨m2, h3, h4⟩ := addExplicit_eq h
    rw [h3, h1, List.nil_append, List.filterMap_append, h2, h4, explicit_commandLine, readOrder]
    congr 1
    rw [configDirs, isBare]
    by_cases hb : str "--bare-mode" ∈ args
    · rw [if_pos hb, if_pos (by simpa using hb)]; rfl
    · rw [if_neg hb, if_neg (by simpa using hb), List.flatMap_append]
      congr 1
      · rw [user, userDir]
        cases hx : w.xdg with
        | some x =>
          simp only [List.flatMap_cons, List.flatMap_nil, List.append_nil, Option.map_some, Option.some_or, Option.bind_some]
          rw [join, List.append_assoc]; rfl
        | none =>
          cases hh : w.home with
          | some x =>
            simp only [List.flatMap_cons, List.flatMap_nil, List.append_nil, Option.map_some, Option.map_none,
              Option.none_or, Option.bind_some]
            rw [join, join, List.append_assoc, List.append_assoc, List.append_assoc]; rfl
          | none => rfl
      · simp [system]

/-! ### Everything together -/

theorem at_put {key : Name} {p : List Name} (d : D α) (c : List (Name × D α)) (h : Unrelated p (splitDots key)) :
    at' p (put key d c) = at' p c := at_putAt_unrelated d p _ c h

theorem at_initial {w : World α} {args : List Str} {p : List Name} (hp : p ≠ []) (h : ∀ q ∈ early, Unrelated p q) :
    at' p (initial w args) = none := by
  have h1 : Unrelated p (splitDots (str "vast.bare-mode")) := h _ (by simp [early]; exact .inl (by decide))
  have h2 : Unrelated p (splitDots (str "vast.plugins")) := h _ (by simp [early]; exact .inr (.inl (by decide)))
  have h3 : Unrelated p (splitDots (str "vast.plugin-dirs")) := h _ (by simp [early]; exact .inr (.inr (by decide)))
  have hnil : at' p ([] : List (Name × D α)) = none := by
    match p with
    | [] => rfl
    | [_] => rfl
    | _ :: _ :: _ => rfl
  have hl : ∀ key (x : Option (L α)) c, Unrelated p (splitDots key) → at' p (putList key x c) = at' p c := by
    intro key x c hu
    cases x with
    | none => rfl
    | some xs => exact at_put _ _ hu
  rw [initial, hl _ _ _ h3, hl _ _ _ h2]
  split
  · rw [at_put _ _ h1]; exact hnil
  · exact hnil

/-- The value of an option after the files and the environment. -/
theorem parse_value {w : World α} {args : List Str} {p : List Name} {c : List (Name × D α)}
    (hs : ∀ r ∈ readOrder w args, Separate p r) (hn : sections (readOrder w args) < 100) (hp : OptionName p)
    (ht : ∀ d, w.typed (dotted p) d = some d) (hv : p = [str "vast", str "endpoint"] ∨ Unrelated p [str "vast", str "endpoint"])
    (h : parse w args = .ok c) :
    at' p c = match env w p with
      | some e => some e
      | none => match ((readOrder w args).map (valueAt p)).foldl step none with
        | none => at' p (initial w args)
        | some .null => at' p (initial w args)
        | some v => some v := by
  rw [parse] at h
  cases hf : configFiles w args with
  | error e => rw [hf] at h; cases h
  | ok paths =>
    rw [hf] at h
    simp only at h
    cases hr : readAll w paths .nil with
    | error e => rw [hr] at h; cases h
    | ok m =>
      rw [hr] at h
      simp only at h
      cases ha : applyFiles w m (initial w args) with
      | error e => rw [ha] at h; cases h
      | ok c1 =>
        rw [ha] at h
        simp only [Except.ok.injEq] at h
        have hm := readAll_eq hr
        rw [configFiles_eq hf] at hm
        subst hm
        have hval := applyFiles_value hs hn hp ht ha
        have hsp : splitDots (str "vast.endpoint") = [str "vast", str "endpoint"] := by decide
        rw [← h, applyEnv, env]
        cases he : w.endpoint with
        | none =>
          have : (if p = [str "vast", str "endpoint"] then Option.map D.scalar (none : Option α) else none) = none := by
            split <;> rfl
          rw [this]
          exact hval
        | some e =>
          rcases hv with rfl | hu
          · rw [if_pos rfl]
            simp only [Option.map_some]
            rw [put, hsp]
            exact at_putAt_self _ _ _ (by simp)
          · have hne : p ≠ [str "vast", str "endpoint"] := fun e => hu.1 (by rw [e]; exact List.prefix_refl _)
            rw [if_neg hne]
            simp only
            rw [at_put _ _ (by rw [hsp]; exact hu)]
            exact hval

theorem step_layer : ∀ (vs : List (Option (D α))) (old : Option (D α)),
    ((∀ d, old = some d → d = .null ∨ ∃ xs, d = .list xs) ∧ (∀ d, some d ∈ vs → d = .null ∨ ∃ xs, d = .list xs)) ∨
    ((∀ d, old = some d → ∀ xs, d ≠ .list xs) ∧ (∀ d, some d ∈ vs → ∀ xs, d ≠ .list xs)) →
    vs.foldl step old = vs.foldl layer old
  | [], _, _ => rfl
  | v :: vs, old, h => by
    rw [List.foldl_cons, List.foldl_cons]
    have he : step old v = layer old v := by
      cases v with
      | none => cases old with
        | none => rfl
        | some o => cases o <;> rfl
      | some d =>
        rcases h with ⟨h1, h2⟩ | ⟨h1, h2⟩
        · rcases h2 d (by simp) with rfl | ⟨xs, rfl⟩
          · cases old with
            | none => rfl
            | some o => cases o <;> rfl
          · cases old with
            | none => rfl
            | some o =>
              rcases h1 o rfl with rfl | ⟨ys, rfl⟩ <;> rfl
        · cases d with
          | list xs => exact absurd rfl (h2 _ (by simp) xs)
          | null => cases old with
            | none => rfl
            | some o => cases o <;> rfl
          | scalar a => cases old with
            | none => rfl
            | some o => cases o <;> rfl
          | record r => cases old with
            | none => rfl
            | some o => cases o <;> rfl
    rw [he]
    apply step_layer
    rcases h with ⟨h1, h2⟩ | ⟨h1, h2⟩
    · refine .inl ⟨?_, fun d hd => h2 d (by simp [hd])⟩
      intro d hd
      rw [← he] at hd
      cases v with
      | none => exact h1 d hd
      | some x =>
        rcases h2 x (by simp) with rfl | ⟨xs, rfl⟩
        · cases hd; exact .inl rfl
        · cases old with
          | none => cases hd; exact .inr ⟨_, rfl⟩
          | some o => rcases h1 o rfl with rfl | ⟨ys, rfl⟩ <;> (cases hd; exact .inr ⟨_, rfl⟩)
    · refine .inr ⟨?_, fun d hd => h2 d (by simp [hd])⟩
      intro d hd xs
      rw [← he] at hd
      cases v with
      | none => exact h1 d hd xs
      | some x =>
        have hx := h2 x (by simp)
        cases x with
        | list ys => exact absurd rfl (hx ys)
        | null => cases hd; simp [combined]
        | scalar a => cases hd; simp [combined]
        | record r => cases hd; simp [combined]

theorem layered_agree {vs : List (Option (D α))} (h : ListsAgree vs) : vs.foldl step none = layered vs := by
  rw [layered]
  apply step_layer
  rcases h with h | h
  · exact .inl ⟨by simp, h⟩
  · exact .inr ⟨by simp, h⟩

end Verif.Config
