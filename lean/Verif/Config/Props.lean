import Verif.Config.CliLemmas

/-! # C110: the value of an option comes from the most specific place -/

namespace Verif.Config

open Verif.Data (Str str)
open Verif.Record (Name D L R toList_ofList ofList_toList)
open Verif.Record.Spec (valueAt isRec UniqueKeys Defines leaves records dotted)
open Spec

variable {α : Type}

/-! ### Everything that can be said about an option -/

/-- C110: what the value of an option is in fact: the file of the user is read before that of the system. -/
theorem C110_read_order_partial (w : World α) (args : List Str) (c : List (Name × D α)) (o : R α) (p : List Name)
    (h : settings w args = .ok c) (ho : w.options (commandLine args) = some o) (hu : UniqueKeys o) (hc : Clean p o)
    (hp : OptionName p) (hl : p.length ≤ 101) (he : ∀ q ∈ early, Unrelated p q)
    (hv : p = [str "vast", str "endpoint"] ∨ Unrelated p [str "vast", str "endpoint"])
    (ht : ∀ d, w.typed (dotted p) d = some d)
    (hs : ∀ r ∈ documented w args, Separate p r) (hn : sections (documented w args) < 100)
    (ha : ListsAgree ((documented w args).map (valueAt p))) :
    valueAt p (.ofList c) = layered
      [orNothing (layered (((if str "--bare-mode" ∈ args then [] else (user w).toList ++ (system w).toList) ++
        explicit w args).map (valueAt p))), env w p, valueAt p o] := by
  have hmem : ∀ r, r ∈ readOrder w args ↔ r ∈ documented w args := by
    intro r
    rw [readOrder, documented]
    split
    · exact Iff.rfl
    · simp only [List.mem_append]
      constructor
      · rintro ((h | h) | h)
        · exact .inl (.inr h)
        · exact .inl (.inl h)
        · exact .inr h
      · rintro ((h | h) | h)
        · exact .inl (.inr h)
        · exact .inl (.inl h)
        · exact .inr h
  have hsec : sections (readOrder w args) = sections (documented w args) := by
    rw [readOrder, documented]
    split
    · rfl
    · simp only [sections, List.map_append, List.sum_append]; omega
  have ha' : ListsAgree ((readOrder w args).map (valueAt p)) := by
    have hm : ∀ d, some d ∈ (readOrder w args).map (valueAt p) → some d ∈ (documented w args).map (valueAt p) := by
      intro d hd
      obtain ⟨r, hr, e⟩ := List.mem_map.1 hd
      exact List.mem_map.2 ⟨r, (hmem r).1 hr, e⟩
    rcases ha with ha | ha
    · exact .inl fun d hd => ha d (hm d hd)
    · exact .inr fun d hd => ha d (hm d hd)
  rw [settings] at h
  cases hpa : parse w args with
  | error e => rw [hpa] at h; cases h
  | ok c0 =>
    rw [hpa, ho] at h
    simp only [Except.ok.injEq] at h
    have hval := parse_value (fun r hr => hs r ((hmem r).1 hr)) (by rw [hsec]; exact hn) hp ht hv hpa
    rw [at_initial hp.nonempty he, layered_agree ha'] at hval
    have hpv : Record.Spec.at' p c0 = layer (orNothing (layered ((readOrder w args).map (valueAt p)))) (env w p) := by
      rw [hval]
      cases hew : env w p with
      | some e =>
        cases layered ((readOrder w args).map (valueAt p)) with
        | none => rfl
        | some v =>
          rw [env] at hew
          split at hew
          · cases hwe : w.endpoint with
            | none => rw [hwe] at hew; cases hew
            | some a => rw [hwe] at hew; cases hew; cases v <;> rfl
          · cases hew
      | none =>
        cases layered ((readOrder w args).map (valueAt p)) with
        | none => rfl
        | some v => cases v <;> rfl
    rw [layered, List.foldl_cons, List.foldl_cons, List.foldl_cons, List.foldl_nil]
    have h0 : ∀ x : Option (D α), layer none x = x := by
      intro x; cases x <;> rfl
    rw [h0]
    change _ = layer (layer (orNothing (layered ((readOrder w args).map (valueAt p)))) (env w p)) (valueAt p o)
    rw [← hpv, ← h, valueAt, toList_ofList, mergeSettings]
    rcases hc with ⟨d, h1, h2⟩ | hnd
    · rw [mergeSettingsLoop_src true p o 100 c0 d hu hl h1 h2, h1]
      cases d with
      | record r => simp [isRec] at h2
      | null => cases Record.Spec.at' p c0 with
        | none => rfl
        | some x => cases x <;> rfl
      | scalar a => cases Record.Spec.at' p c0 with
        | none => rfl
        | some x => cases x <;> rfl
      | list xs => cases Record.Spec.at' p c0 with
        | none => rfl
        | some x => cases x <;> rfl
    · rw [mergeSettingsLoop_dst true p o 100 c0 hu hnd, not_defines_value hnd]
      cases Record.Spec.at' p c0 with
      | none => rfl
      | some x => cases x <;> rfl

/-- C110: provided that not both the file of the user and that of the system have the option, its value is the documented one:
    command line over environment over files given with `--config`, the later ones first, over the other two. Lists are
    concatenated; a null in a file revokes what less specific files say. -/
theorem C110_value_partial (w : World α) (args : List Str) (c : List (Name × D α)) (o : R α) (p : List Name)
    (h : settings w args = .ok c) (ho : w.options (commandLine args) = some o) (hu : UniqueKeys o) (hc : Clean p o)
    (hp : OptionName p) (hl : p.length ≤ 101) (he : ∀ q ∈ early, Unrelated p q)
    (hv : p = [str "vast", str "endpoint"] ∨ Unrelated p [str "vast", str "endpoint"])
    (ht : ∀ d, w.typed (dotted p) d = some d)
    (hs : ∀ r ∈ documented w args, Separate p r) (hn : sections (documented w args) < 100)
    (ha : ListsAgree ((documented w args).map (valueAt p)))
    (hone : str "--bare-mode" ∈ args ∨ (∀ r, user w = some r → valueAt p r = none) ∨
      (∀ r, system w = some r → valueAt p r = none)) :
    valueAt p (.ofList c) =
      layered [orNothing (layered ((documented w args).map (valueAt p))), env w p, valueAt p o] := by
  rw [C110_read_order_partial w args c o p h ho hu hc hp hl he hv ht hs hn ha]
  have hskip : ∀ (x : Option (R α)) (vs : List (Option (D α))) (old : Option (D α)), (∀ r, x = some r → valueAt p r = none) →
      ((x.toList.map (valueAt p)) ++ vs).foldl layer old = vs.foldl layer old := by
    intro x vs old hx
    cases x with
    | none => rfl
    | some r =>
      simp only [Option.toList_some, List.map_cons, List.map_nil, List.cons_append, List.nil_append, List.foldl_cons]
      rw [hx r rfl]
      cases old with
      | none => rfl
      | some d => cases d <;> rfl
  congr 3
  rw [documented]
  by_cases hb : str "--bare-mode" ∈ args
  · rw [if_pos hb, if_pos hb]
  · rw [if_neg hb, if_neg hb]
    simp only [List.map_append, layered, List.append_assoc]
    rcases hone with hb' | hx | hx
    · exact absurd hb' hb
    · rw [hskip _ _ _ hx, ← List.append_assoc, List.foldl_append, List.foldl_append,
        List.foldl_append]
      have := hskip (user w) [] ((List.map (valueAt p) (system w).toList).foldl layer none) hx
      rw [List.append_nil, List.foldl_nil] at this
      rw [this]
    · rw [hskip (system w) _ _ hx, List.foldl_append, List.foldl_append, List.foldl_append]
      rw [← List.foldl_append (l' := (system w).toList.map (valueAt p))]
      have := hskip (system w) [] ((List.map (valueAt p) (user w).toList).foldl layer none) hx
      rw [List.append_nil, List.foldl_nil] at this
      rw [List.foldl_append, this]

/-! ### The command line -/

/-- C110: an option on the command line that is not a list has that value, no matter what the files say. -/
theorem C110_cli_partial (w : World α) (args : List Str) (c : List (Name × D α)) (o : R α) (p : List Name) (d : D α)
    (h : settings w args = .ok c) (ho : w.options (commandLine args) = some o) (hu : UniqueKeys o) (hl : p.length ≤ 101)
    (hd : valueAt p o = some d) (hr : isRec d = false) (hx : ∀ xs, d ≠ .list xs) : valueAt p (.ofList c) = some d := by
  rw [settings] at h
  cases hpa : parse w args with
  | error e => rw [hpa] at h; cases h
  | ok c0 =>
    rw [hpa, ho] at h
    simp only [Except.ok.injEq] at h
    rw [← h, valueAt, toList_ofList, mergeSettings, mergeSettingsLoop_src true p o 100 c0 d hu hl hd hr]
    cases d with
    | list xs => exact absurd rfl (hx xs)
    | null => rfl
    | scalar a => rfl
    | record r => rfl

/-! ### Files that cannot be used are not ignored -/

theorem readAll_all {w : World α} : ∀ {paths : List Str} {acc m : R α}, readAll w paths acc = .ok m → ∀ x ∈ paths, ∀ f,
    w.files x = some f → f = .yaml .null ∨ ∃ r, f = .yaml (.record r)
  | [], _, _, _, x, hx, _, _ => by cases hx
  | y :: paths, acc, m, h, x, hx, f, hf => by
    rw [readAll] at h
    rcases List.mem_cons.1 hx with rfl | hx
    · rw [hf] at h
      cases f with
      | unreadable => cases h
      | malformed => cases h
      | yaml d =>
        cases d with
        | null => exact .inl rfl
        | scalar a => cases h
        | list xs => cases h
        | record r => exact .inr ⟨r, rfl⟩
    · cases hg : w.files y with
      | none => rw [hg] at h; exact readAll_all h x hx f hf
      | some g =>
        rw [hg] at h
        cases g with
        | unreadable => cases h
        | malformed => cases h
        | yaml d =>
          cases d with
          | null => exact readAll_all h x hx f hf
          | scalar a => cases h
          | list xs => cases h
          | record r => exact readAll_all h x hx f hf

theorem addExplicit_mono {w : World α} : ∀ {args acc paths : List Str}, addExplicit w args acc = .ok paths →
    (∀ x ∈ acc, x ∈ paths) ∧ ∀ x, str "--config=" ++ x ∈ args → x ∈ paths ∧ ∃ f, w.files x = some f
  | [], acc, paths, h => by cases h; exact ⟨fun x h => h, fun x h => by cases h⟩
  | a :: args, acc, paths, h => by
    rw [addExplicit] at h
    by_cases hp : (str "--config=").isPrefixOf a = true
    · rw [if_pos hp] at h
      cases hf : w.files (a.drop 9) with
      | none => rw [hf] at h; cases h
      | some f =>
        rw [hf] at h
        obtain ⟨h1, h2⟩ := addExplicit_mono h
        refine ⟨fun x hx => h1 x (by simp [hx]), fun x hx => ?_⟩
        rcases List.mem_cons.1 hx with e | hx
        · have hd : a.drop 9 = x := by rw [← e]; exact List.drop_left' (by decide)
          rw [← hd]
          exact ⟨h1 _ (by simp), f, hf⟩
        · exact h2 x hx
    · rw [if_neg hp] at h
      obtain ⟨h1, h2⟩ := addExplicit_mono h
      refine ⟨h1, fun x hx => ?_⟩
      rcases List.mem_cons.1 hx with e | hx
      · rw [← e] at hp
        exact absurd (List.isPrefixOf_iff_prefix.2 (List.prefix_append _ _)) hp
      · exact h2 x hx

theorem addAll_mem {w : World α} : ∀ {dirs acc paths : List Str}, addAll w dirs acc = .ok paths →
    (∀ x ∈ acc, x ∈ paths) ∧ ∀ dir ∈ dirs, ∀ x, (x = dir ++ str "/vast.yaml" ∨ x = dir ++ str "/vast.yml") → ∀ f,
      w.files x = some f → x ∈ paths ∧ ∀ y, (y = dir ++ str "/vast.yaml" ∨ y = dir ++ str "/vast.yml") → w.files y ≠ none → x = y
  | [], acc, paths, h => by cases h; exact ⟨fun x h => h, fun x h => by cases h⟩
  | d :: dirs, acc, paths, h => by
    rw [addAll] at h
    cases ha : addConfigs w d acc with
    | error e => rw [ha] at h; cases h
    | ok acc' =>
      rw [ha] at h
      obtain ⟨h1, h2⟩ := addAll_mem h
      have e1 : join d (str "vast.yaml") = d ++ str "/vast.yaml" := by rw [join, List.append_assoc]; rfl
      have e2 : join d (str "vast.yml") = d ++ str "/vast.yml" := by rw [join, List.append_assoc]; rfl
      rw [addConfigs, e1, e2] at ha
      cases hy : w.files (d ++ str "/vast.yaml") with
      | some f =>
        cases hz : w.files (d ++ str "/vast.yml") with
        | some g => rw [hy, hz] at ha; cases ha
        | none =>
          rw [hy, hz] at ha
          cases ha
          refine ⟨fun x hx => h1 x (by simp [hx]), fun dir hdir x hx f' hf => ?_⟩
          rcases List.mem_cons.1 hdir with rfl | hdir
          · rcases hx with rfl | rfl
            · refine ⟨h1 _ (by simp), fun y hyy hne => ?_⟩
              rcases hyy with rfl | rfl
              · rfl
              · exact absurd hz hne
            · rw [hz] at hf; cases hf
          · exact h2 dir hdir x hx f' hf
      | none =>
        cases hz : w.files (d ++ str "/vast.yml") with
        | some g =>
          rw [hy, hz] at ha
          cases ha
          refine ⟨fun x hx => h1 x (by simp [hx]), fun dir hdir x hx f' hf => ?_⟩
          rcases List.mem_cons.1 hdir with rfl | hdir
          · rcases hx with rfl | rfl
            · rw [hy] at hf; cases hf
            · refine ⟨h1 _ (by simp), fun y hyy hne => ?_⟩
              rcases hyy with rfl | rfl
              · exact absurd hy hne
              · rfl
          · exact h2 dir hdir x hx f' hf
        | none =>
          rw [hy, hz] at ha
          cases ha
          refine ⟨h1, fun dir hdir x hx f' hf => ?_⟩
          rcases List.mem_cons.1 hdir with rfl | hdir
          · rcases hx with rfl | rfl
            · rw [hy] at hf; cases hf
            · rw [hz] at hf; cases hf
          · exact h2 dir hdir x hx f' hf

theorem mem_commandLine {args : List Str} {x : Str} (h : str "--config=" ++ x ∈ args) : str "--config=" ++ x ∈ commandLine args := by
  rw [commandLine, List.mem_filter, List.mem_filter]
  refine ⟨⟨?_, rfl⟩, rfl⟩
  exact (List.mem_erase_of_ne (by simp [str])).2 h

/-- C110: whenever the program starts, every file given with `--config` exists, and every configuration file is either empty or a
    map; in no directory there is both vast.yaml and vast.yml. -/
theorem C110_files_used (w : World α) (args : List Str) (c : List (Name × D α)) (h : settings w args = .ok c) :
    (∀ x, str "--config=" ++ x ∈ args → w.files x = some (.yaml .null) ∨ ∃ r, w.files x = some (.yaml (.record r))) ∧
    (str "--bare-mode" ∉ args → ∀ dir, some dir = userDir w ∨ dir = w.installDir →
      (w.files (dir ++ str "/vast.yaml") = none ∨ w.files (dir ++ str "/vast.yml") = none) ∧
      ∀ x f, x = dir ++ str "/vast.yaml" ∨ x = dir ++ str "/vast.yml" → w.files x = some f →
        f = .yaml .null ∨ ∃ r, f = .yaml (.record r)) := by
  rw [settings] at h
  cases hpa : parse w args with
  | error e => rw [hpa] at h; cases h
  | ok c0 =>
    rw [parse] at hpa
    cases hf : configFiles w args with
    | error e => rw [hf] at hpa; cases hpa
    | ok paths =>
      rw [hf] at hpa
      simp only at hpa
      cases hr : readAll w paths .nil with
      | error e => rw [hr] at hpa; cases hpa
      | ok m =>
        have hall := readAll_all hr
        rw [configFiles] at hf
        cases hd : addAll w (configDirs w (isBare args)) [] with
        | error e => rw [hd] at hf; cases hf
        | ok p1 =>
          rw [hd] at hf
          obtain ⟨hm1, hm2⟩ := addExplicit_mono hf
          obtain ⟨_, hm3⟩ := addAll_mem hd
          constructor
          · intro x hx
            obtain ⟨h1, f, h2⟩ := hm2 x (mem_commandLine hx)
            rcases hall x h1 f h2 with rfl | ⟨r, rfl⟩
            · exact .inl h2
            · exact .inr ⟨r, h2⟩
          · intro hb dir hdir
            have hdm : dir ∈ configDirs w (isBare args) := by
              rw [configDirs, isBare, if_neg (by simpa using hb), List.mem_append]
              rcases hdir with hdir | hdir
              · left
                rw [userDir] at hdir
                cases hx : w.xdg with
                | some x =>
                  rw [hx] at hdir
                  cases hdir
                  simp only [List.mem_singleton, join, List.append_assoc]; rfl
                | none =>
                  rw [hx] at hdir
                  cases hh : w.home with
                  | some x =>
                    rw [hh] at hdir
                    cases hdir
                    simp only [List.mem_singleton, join, List.append_assoc]; rfl
                  | none => rw [hh] at hdir; cases hdir
              · exact .inr (by simp [hdir])
            refine ⟨?_, ?_⟩
            · cases hy : w.files (dir ++ str "/vast.yaml") with
              | none => exact .inl rfl
              | some f =>
                right
                cases hz : w.files (dir ++ str "/vast.yml") with
                | none => rfl
                | some g =>
                  have := (hm3 dir hdm _ (.inl rfl) f hy).2 _ (.inr rfl) (by rw [hz]; simp)
                  exact absurd (List.append_cancel_left this) (by decide)
            · intro x f hx hfx
              exact hall x (hm1 x (hm3 dir hdm x hx f hfx).1) f hfx

/-! ### Bare mode -/

theorem addExplicit_congr {w w' : World α} {args : List Str} : ∀ {acc : List Str},
    (∀ x, str "--config=" ++ x ∈ args → w.files x = w'.files x) → addExplicit w args acc = addExplicit w' args acc := by
  induction args with
  | nil => intro acc _; rfl
  | cons a args ih =>
    intro acc h
    rw [addExplicit, addExplicit]
    by_cases hp : (str "--config=").isPrefixOf a = true
    · rw [if_pos hp, if_pos hp]
      have e : str "--config=" ++ a.drop 9 = a := by
        obtain ⟨t, rfl⟩ := List.isPrefixOf_iff_prefix.1 hp
        rw [List.drop_left' (by decide)]
      rw [h (a.drop 9) (by rw [e]; simp)]
      split
      · exact ih (fun x hx => h x (List.mem_cons_of_mem _ hx))
      · rfl
    · rw [if_neg hp, if_neg hp]
      exact ih (fun x hx => h x (List.mem_cons_of_mem _ hx))

theorem addExplicit_sub {w : World α} : ∀ {args acc paths : List Str}, addExplicit w args acc = .ok paths →
    ∀ x ∈ paths, x ∈ acc ∨ str "--config=" ++ x ∈ args
  | [], acc, paths, h, x, hx => by cases h; exact .inl hx
  | a :: args, acc, paths, h, x, hx => by
    rw [addExplicit] at h
    by_cases hp : (str "--config=").isPrefixOf a = true
    · rw [if_pos hp] at h
      cases hf : w.files (a.drop 9) with
      | none => rw [hf] at h; cases h
      | some f =>
        rw [hf] at h
        rcases addExplicit_sub h x hx with h | h
        · rcases List.mem_append.1 h with h | h
          · exact .inl h
          · rw [List.mem_singleton] at h
            right
            obtain ⟨t, rfl⟩ := List.isPrefixOf_iff_prefix.1 hp
            rw [List.drop_left' (by decide)] at h
            simp [h]
        · exact .inr (List.mem_cons_of_mem _ h)
    · rw [if_neg hp] at h
      rcases addExplicit_sub h x hx with h | h
      · exact .inl h
      · exact .inr (List.mem_cons_of_mem _ h)

theorem readAll_congr {w w' : World α} : ∀ {paths : List Str} {acc : R α}, (∀ x ∈ paths, w.files x = w'.files x) →
    readAll w paths acc = readAll w' paths acc
  | [], _, _ => rfl
  | x :: paths, acc, h => by
    rw [readAll, readAll, h x (by simp)]
    have ih : ∀ acc, readAll w paths acc = readAll w' paths acc := fun acc => readAll_congr (fun y hy => h y (by simp [hy]))
    split <;> first | exact ih _ | rfl

theorem putAll_congr {w w' : World α} (h : w.typed = w'.typed) : ∀ (l c : List (Name × D α)), putAll w l c = putAll w' l c
  | [], _ => rfl
  | (k, d) :: l, c => by
    rw [putAll, putAll, h]
    split
    · exact putAll_congr h l _
    · rfl

/-- C110: in bare mode no configuration file matters that is not given with `--config`, nor where such files would be. -/
theorem C110_bare (w : World α) (args : List Str) (hb : str "--bare-mode" ∈ args) (xdg home : Option Str) (dir : Str)
    (files : Str → Option (File α)) (h : ∀ x, str "--config=" ++ x ∈ args → w.files x = files x) :
    settings w args = settings { w with xdg := xdg, home := home, installDir := dir, files := files } args := by
  have hcl : ∀ x, str "--config=" ++ x ∈ commandLine args → str "--config=" ++ x ∈ args := by
    intro x hx
    rw [commandLine, List.mem_filter, List.mem_filter] at hx
    exact List.mem_of_mem_erase hx.1.1
  have hcf : configFiles w args = configFiles { w with xdg := xdg, home := home, installDir := dir, files := files } args := by
    rw [configFiles, configFiles, isBare, configDirs, configDirs, if_pos (by simpa using hb), if_pos (by simpa using hb)]
    simp only [addAll]
    exact addExplicit_congr (fun x hx => h x (hcl x hx))
  rw [settings, settings, parse, parse, ← hcf]
  cases hf : configFiles w args with
  | error e => rfl
  | ok paths =>
    simp only
    have hps : ∀ x ∈ paths, w.files x = files x := by
      intro x hx
      rw [configFiles, isBare, configDirs, if_pos (by simpa using hb)] at hf
      simp only [addAll] at hf
      rcases addExplicit_sub hf x hx with h1 | h1
      · cases h1
      · exact h x (hcl x h1)
    rw [readAll_congr (w' := { w with xdg := xdg, home := home, installDir := dir, files := files }) hps]
    cases readAll { w with xdg := xdg, home := home, installDir := dir, files := files } paths .nil with
    | error e => rfl
    | ok m =>
      simp only [applyFiles]
      rw [putAll_congr (w := w) (w' := { w with xdg := xdg, home := home, installDir := dir, files := files }) rfl]
      rfl

/-! ### Plugins -/

/-- The elements of a list. -/
def elements : L α → List (D α)
  | .nil => []
  | .cons d xs => d :: elements xs

theorem elements_eq : ∀ xs : L α, pluginsToLoad.go xs = elements xs
  | .nil => rfl
  | .cons d xs => by rw [pluginsToLoad.go, elements, elements_eq xs]

theorem pluginsToLoad_eq {c : List (Name × D α)} {xs : L α}
    (h : Record.Spec.at' [str "vast", str "plugins"] c = some (.list xs)) : pluginsToLoad c = elements xs := by
  rw [Record.Spec.at'] at h
  rw [pluginsToLoad]
  cases hg : Record.get (str "vast") c with
  | none => rw [hg] at h; cases h
  | some d =>
    rw [hg] at h
    cases d with
    | record v =>
      simp only [Record.Spec.at'] at h ⊢
      rw [h]
      exact elements_eq xs
    | null => cases h
    | scalar a => cases h
    | list ys => cases h

theorem unrelated_of {p q : List Name} (h : (!p.isPrefixOf q && !q.isPrefixOf p) = true) : Unrelated p q := by
  rw [Bool.and_eq_true, Bool.not_eq_true', Bool.not_eq_true'] at h
  exact ⟨fun x => by rw [List.isPrefixOf_iff_prefix.2 x] at h; exact absurd h.1 (by simp),
    fun x => by rw [List.isPrefixOf_iff_prefix.2 x] at h; exact absurd h.2 (by simp)⟩

theorem plugins_initial (w : World α) (args : List Str) : Record.Spec.at' [str "vast", str "plugins"] (initial w args) =
    (w.listOption (str "--plugins=") (pluginArgs args)).map .list := by
  have h1 : ∀ (x : Option (L α)) c, Record.Spec.at' [str "vast", str "plugins"] (putList (str "vast.plugin-dirs") x c) =
      Record.Spec.at' [str "vast", str "plugins"] c := by
    intro x c
    cases x with
    | none => rfl
    | some xs => exact at_put _ _ (unrelated_of (by decide))
  rw [initial, h1]
  cases w.listOption (str "--plugins=") (pluginArgs args) with
  | none =>
    rw [putList]
    split
    · rw [at_put _ _ (unrelated_of (by decide))]; rfl
    · rfl
  | some xs =>
    have e : splitDots (str "vast.plugins") = [str "vast", str "plugins"] := by decide
    rw [putList, put, e]
    exact at_putAt_self _ _ _ (by simp)

/-- C110: which plugins are loaded. If no file has a list of plugins, those of `--plugins`; otherwise those of the files only. -/
theorem C110_plugins_partial (w : World α) (args : List Str) (c : List (Name × D α)) (h : parse w args = .ok c)
    (ht : ∀ d, w.typed (str "vast.plugins") d = some d) (hs : ∀ r ∈ documented w args, Separate [str "vast", str "plugins"] r)
    (hn : sections (documented w args) < 100) (xs : L α) :
    ((∀ r ∈ documented w args, valueAt [str "vast", str "plugins"] r = none) →
      w.listOption (str "--plugins=") (pluginArgs args) = some xs → pluginsToLoad c = elements xs) ∧
    (layered (((if str "--bare-mode" ∈ args then [] else (user w).toList ++ (system w).toList) ++ explicit w args).map
        (valueAt [str "vast", str "plugins"])) = some (.list xs) →
      ListsAgree ((documented w args).map (valueAt [str "vast", str "plugins"])) → pluginsToLoad c = elements xs) := by
  have hmem : ∀ r, r ∈ readOrder w args → r ∈ documented w args := by
    intro r
    rw [readOrder, documented]
    split
    · exact id
    · simp only [List.mem_append]
      rintro ((h | h) | h)
      · exact .inl (.inr h)
      · exact .inl (.inl h)
      · exact .inr h
  have hsec : sections (readOrder w args) = sections (documented w args) := by
    rw [readOrder, documented]
    split
    · rfl
    · simp only [sections, List.map_append, List.sum_append]; omega
  have hdot : dotted [str "vast", str "plugins"] = str "vast.plugins" := by decide
  have hval := parse_value (p := [str "vast", str "plugins"]) (fun r hr => hs r (hmem r hr)) (by rw [hsec]; exact hn)
    ⟨by decide, by simp, by decide⟩ (by rw [hdot]; exact ht) (.inr (unrelated_of (by decide))) h
  have henv : env w [str "vast", str "plugins"] = none := by rw [env, if_neg (by decide)]
  rw [henv, plugins_initial] at hval
  simp only at hval
  have hnone : ∀ (vs : List (Option (D α))) (old : Option (D α)), (∀ v ∈ vs, v = none) → vs.foldl step old = old := by
    intro vs
    induction vs with
    | nil => intro old _; rfl
    | cons v vs ih =>
      intro old hv
      rw [List.foldl_cons, hv v (by simp)]
      exact ih _ (fun x hx => hv x (by simp [hx]))
  constructor
  · intro hno hx
    apply pluginsToLoad_eq
    rw [hval, hnone, hx]
    · rfl
    · intro v hv
      obtain ⟨r, hr, rfl⟩ := List.mem_map.1 hv
      exact hno r (hmem r hr)
  · intro hx ha
    apply pluginsToLoad_eq
    have ha' : ListsAgree ((readOrder w args).map (valueAt [str "vast", str "plugins"])) := by
      have hm : ∀ d, some d ∈ (readOrder w args).map (valueAt [str "vast", str "plugins"]) →
          some d ∈ (documented w args).map (valueAt [str "vast", str "plugins"]) := by
        intro d hd
        obtain ⟨r, hr, e⟩ := List.mem_map.1 hd
        exact List.mem_map.2 ⟨r, hmem r hr, e⟩
      rcases ha with ha | ha
      · exact .inl fun d hd => ha d (hm d hd)
      · exact .inr fun d hd => ha d (hm d hd)
    change layered ((readOrder w args).map _) = _ at hx
    rw [hval, layered_agree ha', hx]

/-- C110: the plugin directories, if no file has any: first those of `--plugin-dirs`, then those of the environment. -/
theorem C110_plugin_dirs_partial (w : World α) (args : List Str) (c : List (Name × D α)) (h : parse w args = .ok c)
    (ht : ∀ d, w.typed (str "vast.plugin-dirs") d = some d) (hs : ∀ r ∈ documented w args, Separate [str "vast", str "plugin-dirs"] r)
    (hn : sections (documented w args) < 100) (hno : ∀ r ∈ documented w args, valueAt [str "vast", str "plugin-dirs"] r = none)
    (xs ys : L α) (hx : w.listOption (str "--plugin-dirs=") (pluginArgs args) = some xs) (hy : w.pluginDirs = some ys) :
    ∃ zs, valueAt [str "vast", str "plugin-dirs"] (.ofList c) = some (.list zs) ∧ elements zs = elements xs ++ elements ys := by
  have hmem : ∀ r, r ∈ readOrder w args → r ∈ documented w args := by
    intro r
    rw [readOrder, documented]
    split
    · exact id
    · simp only [List.mem_append]
      rintro ((h | h) | h)
      · exact .inl (.inr h)
      · exact .inl (.inl h)
      · exact .inr h
  have hsec : sections (readOrder w args) = sections (documented w args) := by
    rw [readOrder, documented]
    split
    · rfl
    · simp only [sections, List.map_append, List.sum_append]; omega
  have hdot : dotted [str "vast", str "plugin-dirs"] = str "vast.plugin-dirs" := by decide
  have hval := parse_value (p := [str "vast", str "plugin-dirs"]) (fun r hr => hs r (hmem r hr)) (by rw [hsec]; exact hn)
    ⟨by decide, by simp, by decide⟩ (by rw [hdot]; exact ht) (.inr (unrelated_of (by decide))) h
  have henv : env w [str "vast", str "plugin-dirs"] = none := by rw [env, if_neg (by decide)]
  have hini : Record.Spec.at' [str "vast", str "plugin-dirs"] (initial w args) = some (.list (xs.append ys)) := by
    have e : splitDots (str "vast.plugin-dirs") = [str "vast", str "plugin-dirs"] := by decide
    rw [initial, pluginDirs, hx, hy]
    simp only [putList]
    rw [put, e]
    exact at_putAt_self _ _ _ (by simp)
  rw [henv, hini] at hval
  simp only at hval
  have hnone : ∀ (vs : List (Option (D α))) (old : Option (D α)), (∀ v ∈ vs, v = none) → vs.foldl step old = old := by
    intro vs
    induction vs with
    | nil => intro old _; rfl
    | cons v vs ih =>
      intro old hv
      rw [List.foldl_cons, hv v (by simp)]
      exact ih _ (fun x hx => hv x (by simp [hx]))
  have happ : ∀ xs ys : L α, elements (xs.append ys) = elements xs ++ elements ys := by
    intro xs
    induction xs using L.rec (motive_1 := fun _ => True) (motive_3 := fun _ => True) with
    | nil => intro ys; rfl
    | cons d xs _ ih => intro ys; exact congrArg (d :: ·) (ih ys)
    | _ => trivial
  refine ⟨xs.append ys, ?_, happ xs ys⟩
  rw [hnone] at hval
  · rw [valueAt, toList_ofList]; exact hval
  · intro v hv
    obtain ⟨r, hr, rfl⟩ := List.mem_map.1 hv
    exact hno r (hmem r hr)

/-! ### A world to show that the hypotheses can be met, and where the program and its documentation differ -/

/-- A record with one entry. -/
def entry (k : String) (d : D Str) : R Str := .cons (str k) d .nil

/-- A text. -/
def text (s : String) : D Str := .scalar (str s)

/-- A configuration of one option in the section `vast`. -/
def vast (k : String) (d : D Str) : File Str := .yaml (.record (entry "vast" (.record (entry k d))))

/-- Files at three places; the command line has the options that are given here. -/
def world (user system explicit : Option (File Str)) (options : R Str) : World Str where
  xdg := none
  home := some (str "/home/u")
  installDir := str "/etc/vast"
  endpoint := none
  pluginDirs := none
  yes := str "true"
  files := fun x =>
    if x = str "/home/u/.config/vast/vast.yaml" then user
    else if x = str "/etc/vast/vast.yaml" then system
    else if x = str "/tmp/x.yaml" then explicit
    else none
  listOption := fun name args =>
    match args.find? (fun a => name.isPrefixOf a) with
    | some a => some (.cons (.scalar (a.drop name.length)) .nil)
    | none => none
  typed := fun _ d => some d
  options := fun _ => some options

/-- The option `vast.db-directory` -/
def dbDirectory : List Name := [str "vast", str "db-directory"]

/-- The value of an option, if the program starts. -/
def run (w : World Str) (args : List String) (p : List Name) : Option (Option (D Str)) :=
  match settings w (args.map str) with
  | .ok c => some (valueAt p (.ofList c))
  | .error _ => none

theorem ok_of {ε β : Type} {x : Except ε β} {y : β} (h : x.toOption = some y) : x = .ok y := by
  cases x with
  | error e => cases h
  | ok z => cases h; rfl

/-- C110: if both the file of the user and that of the system have an option, that of the system is taken, contrary to the
    documentation. -/
theorem C110_user_refuted : ∃ w : World Str, ∃ args c, settings w args = .ok c ∧
    layered ((documented w args).map (valueAt dbDirectory)) = some (text "mine") ∧
    valueAt dbDirectory (.ofList c) = some (text "theirs") := by
  refine ⟨world (some (vast "db-directory" (text "mine"))) (some (vast "db-directory" (text "theirs"))) none .nil, [],
    [(str "vast", .record (entry "db-directory" (text "theirs")))], ok_of (by decide +kernel), by decide +kernel, by decide +kernel⟩

/-- C110: `--plugins` is without effect if a configuration file has a list of plugins, contrary to the documentation: the lists are
    not merged, and it is the file that wins. -/
theorem C110_plugins_refuted : ∃ w : World Str, ∃ args c, parse w args = .ok c ∧ str "--plugins=mine" ∈ args ∧
    pluginsToLoad c = [text "other"] := by
  refine ⟨world (some (vast "plugins" (.list (.cons (text "other") .nil)))) none none .nil, [str "--plugins=mine"],
    [(str "vast", .record (entry "plugins" (.list (.cons (text "other") .nil))))], ok_of (by decide +kernel), by decide +kernel,
    by decide +kernel⟩

/-- C110: a file given with `--config` does not win if it nests the option and another file has it with a dot. -/
theorem C110_dotted_refuted : ∃ w : World Str, ∃ args c r, settings w args = .ok c ∧ explicit w args = [r] ∧
    valueAt dbDirectory r = some (text "mine") ∧ valueAt dbDirectory (.ofList c) = some (text "theirs") := by
  refine ⟨world none (some (.yaml (.record (entry "vast.db-directory" (text "theirs")))))
    (some (vast "db-directory" (text "mine"))) .nil, [str "--config=/tmp/x.yaml"],
    [(str "vast", .record (entry "db-directory" (text "theirs")))], entry "vast" (.record (entry "db-directory" (text "mine"))),
    ok_of (by decide +kernel), by decide +kernel, by decide +kernel, by decide +kernel⟩

/-- The hypotheses of `C110_plugin_dirs_partial` hold without any file. -/
example : ∃ w : World Str, ∃ args c, parse w args = .ok c ∧ documented w args = [] ∧ w.pluginDirs = some (.cons (text "b") .nil) ∧
    w.listOption (str "--plugin-dirs=") (pluginArgs args) = some (.cons (text "a") .nil) ∧
    valueAt [str "vast", str "plugin-dirs"] (.ofList c) = some (.list (.cons (text "a") (.cons (text "b") .nil))) := by
  refine ⟨{ world none none none .nil with pluginDirs := some (.cons (text "b") .nil) }, [str "--plugin-dirs=a"],
    [(str "vast", .record (entry "plugin-dirs" (.list (.cons (text "a") (.cons (text "b") .nil)))))], ok_of (by decide +kernel),
    by decide +kernel, rfl, by decide +kernel, by decide +kernel⟩

theorem separate_vast (s : String) : Separate dbDirectory (entry "vast" (.record (entry "db-directory" (text s)))) := by
  refine ⟨.cons .nil (by simp [R.toList]) ?_, .inl ⟨text s, rfl, rfl⟩, ?_, ?_⟩
  · intro r hr
    cases hr
    exact .cons .nil (by simp [R.toList]) (fun _ h => by cases h)
  · intro x hx
    have : x = (dbDirectory, text s) := by
      change x ∈ [(dbDirectory, text s)] at hx
      simpa using hx
    subst this
    show ∀ k ∈ dbDirectory, (46 : UInt8) ∉ k
    decide
  · intro x hx
    have : x = (dbDirectory, text s) := by
      change x ∈ [(dbDirectory, text s)] at hx
      simpa using hx
    subst this
    exact .inl rfl

/-- The file of the user and one given with `--config` disagree about an option. -/
def sampleWorld : World Str :=
  world (some (vast "db-directory" (text "a"))) none (some (vast "db-directory" (text "b"))) .nil

example : ∃ c, settings sampleWorld [str "--config=/tmp/x.yaml"] = .ok c ∧ valueAt dbDirectory (.ofList c) = some (text "b") := by
  have h : settings sampleWorld [str "--config=/tmp/x.yaml"] = .ok [(str "vast", .record (entry "db-directory" (text "b")))] :=
    ok_of (by decide +kernel)
  have hd : documented sampleWorld [str "--config=/tmp/x.yaml"] =
      [entry "vast" (.record (entry "db-directory" (text "a"))), entry "vast" (.record (entry "db-directory" (text "b")))] := by
    decide +kernel
  refine ⟨_, h, ?_⟩
  rw [C110_value_partial sampleWorld [str "--config=/tmp/x.yaml"] _ .nil dbDirectory h rfl .nil
    (.inr (by
      rintro (⟨d, h⟩ | ⟨q, d, h1, h2, _⟩)
      · cases h
      · match q with
        | [] => cases h2
        | [_] => cases h2
        | _ :: _ :: _ => cases h2)) ⟨by decide, by decide, by decide⟩ (by decide)
    (by
      intro q hq
      rw [early] at hq
      rcases List.mem_cons.1 hq with rfl | hq
      · exact unrelated_of (by decide)
      rcases List.mem_cons.1 hq with rfl | hq
      · exact unrelated_of (by decide)
      rcases List.mem_cons.1 hq with rfl | hq
      · exact unrelated_of (by decide)
      · cases hq)
    (.inr (unrelated_of (by decide))) (fun _ => rfl)
    (by
      rw [hd]
      intro r hr
      rcases List.mem_cons.1 hr with rfl | hr
      · exact separate_vast "a"
      rcases List.mem_cons.1 hr with rfl | hr
      · exact separate_vast "b"
      · cases hr) (by rw [hd]; decide)
    (.inr (by
      rw [hd]
      intro d hm xs e
      subst e
      have : ∀ x ∈ [some (text "a"), some (text "b")], x ≠ some (D.list xs) := by simp [text]
      exact this _ hm rfl))
    (.inr (.inr (by
      intro r hr
      have : system sampleWorld = none := by decide +kernel
      rw [this] at hr
      cases hr)))]
  decide +kernel

/-- Bare mode: the file of the user is not read. -/
example : run sampleWorld ["--bare-mode"] dbDirectory = some none ∧ run sampleWorld [] dbDirectory = some (some (text "a")) := by
  decide +kernel

/-- Lists of files are concatenated. -/
example : run (world (some (vast "schema-dirs" (.list (.cons (text "a") .nil)))) none
    (some (vast "schema-dirs" (.list (.cons (text "b") .nil)))) .nil) ["--config=/tmp/x.yaml"] [str "vast", str "schema-dirs"] =
    some (some (.list (.cons (text "a") (.cons (text "b") .nil)))) := by
  decide +kernel

/-- A file that does not exist is an error. -/
example : run sampleWorld ["--config=/tmp/y.yaml"] dbDirectory = none := by decide +kernel

end Verif.Config
