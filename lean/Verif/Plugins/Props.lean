import Verif.Plugins.Lemmas

/-! # C111: the plugins that are asked for are loaded -/

namespace Verif.Plugins

open Verif.Data (Str str)
open Spec

theorem load_ok {h : Host} {bundled requested names loaded : List Str} (hl : load h bundled requested = .ok (names, loaded)) :
    (requested = [] ∧ bundled = [] ∧ names = h.linked.map (·.1) ∧ loaded = []) ∨
    ((requested ≠ [] ∨ bundled ≠ []) ∧ ∃ paths names',
      resolveAll h (expandBundled (dropStatic h.linked bundled).2 (expandAll h requested)) = .ok paths ∧
      loadAll h (paths.foldl add []) (dropStatic h.linked bundled).1 [] = .ok (names', loaded) ∧ names = sort names') := by
  rw [load] at hl
  split at hl
  · next he => cases hl; exact .inl ⟨he.1, he.2, rfl, rfl⟩
  · next he =>
    right
    refine ⟨?_, ?_⟩
    · by_cases hr : requested = []
      · exact .inr fun hb => he ⟨hr, hb⟩
      · exact .inl hr
    · cases hr : resolveAll h (expandBundled (dropStatic h.linked bundled).2 (expandAll h requested)) with
      | error e => rw [hr] at hl; cases hl
      | ok paths =>
        rw [hr] at hl
        simp only at hl
        cases hll : loadAll h (paths.foldl add []) (dropStatic h.linked bundled).1 [] with
        | error e => rw [hll] at hl; cases hl
        | ok r =>
          obtain ⟨n', l'⟩ := r
          rw [hll] at hl
          cases hl
          exact ⟨paths, n', rfl, hll, rfl⟩

/-- C111: nothing is loaded that was not asked for. -/
theorem C111_only (h : Host) (bundled requested names loaded : List Str) (hl : load h bundled requested = .ok (names, loaded))
    (path : Str) (hp : path ∈ loaded) : ∃ x, Asked h bundled requested x ∧ Meant h x path := by
  rcases load_ok hl with ⟨_, _, _, h1⟩ | ⟨_, paths, names', h1, h2, _⟩
  · rw [h1] at hp; cases hp
  · have h3 := (loadAll_ok h2).1
    rw [List.nil_append] at h3
    rw [h3, mem_addAll] at hp
    rcases hp with hp | hp
    · cases hp
    · obtain ⟨x, hx, hm⟩ := (resolveAll_mem h1).2 path hp
      refine ⟨x, ?_, hm⟩
      rcases mem_expand.1 hx with hx | ⟨hb, hx⟩ | ⟨ha, d, hd, hx⟩
      · exact .inl (.inl hx)
      · exact .inl (.inr ⟨hb, ((dropStatic_rest _ _ _).1 hx).1, ((dropStatic_rest _ _ _).1 hx).2⟩)
      · refine .inr ⟨ha, d, hd, ?_⟩
        exact mem_scan hx

/-- C111: whatever is asked for by name, by path or with `bundled` is loaded, from the first directory that has it. -/
theorem C111_named (h : Host) (bundled requested names loaded : List Str) (hl : load h bundled requested = .ok (names, loaded))
    (x : Str) (hx : AskedByName h bundled requested x) : ∃ path ∈ loaded, Meant h x path := by
  rcases load_ok hl with ⟨h1, h2, _, _⟩ | ⟨_, paths, names', h1, h2, _⟩
  · rcases hx with ⟨hx, _⟩ | ⟨hx, _⟩
    · rw [h1] at hx; cases hx
    · rw [h1] at hx; cases hx
  · have h3 := (loadAll_ok h2).1
    rw [List.nil_append] at h3
    have hm : x ∈ expandBundled (dropStatic h.linked bundled).2 (expandAll h requested) := by
      rw [mem_expand]
      rcases hx with hx | ⟨hb, hx, hs⟩
      · exact .inl hx
      · exact .inr (.inl ⟨hb, (dropStatic_rest _ _ _).2 ⟨hx, hs⟩⟩)
    obtain ⟨y, hy, hmy⟩ := (resolveAll_mem h1).1 x hm
    exact ⟨y, by rw [h3, mem_addAll]; exact .inr hy, hmy⟩

/-- C111: with `all` everything in the directories is loaded, provided that there are only regular files in them. -/
theorem C111_all_partial (h : Host) (bundled requested names loaded : List Str)
    (hl : load h bundled requested = .ok (names, loaded)) (hr : ∀ dir ∈ searchPath h, ∀ e ∈ h.entries dir, e.2 = true)
    (x : Str) (hx : Asked h bundled requested x) : ∃ path ∈ loaded, Meant h x path := by
  rcases hx with hx | ⟨ha, dir, hd, file, hf, hp, e⟩
  · exact C111_named h bundled requested names loaded hl x hx
  · rcases load_ok hl with ⟨h1, h2, _, _⟩ | ⟨_, paths, names', h1, h2, _⟩
    · rw [h1] at ha; cases ha
    · have h3 := (loadAll_ok h2).1
      rw [List.nil_append] at h3
      have hm : x ∈ expandBundled (dropStatic h.linked bundled).2 (expandAll h requested) := by
        rw [mem_expand]
        exact .inr (.inr ⟨ha, dir, hd, by rw [e]; exact scan_all (hr dir hd) file hf hp⟩)
      obtain ⟨y, hy, hmy⟩ := (resolveAll_mem h1).1 x hm
      exact ⟨y, by rw [h3, mem_addAll]; exact .inr hy, hmy⟩

/-- C111: no file is loaded twice, and no two plugins have the same name. -/
theorem C111_once (h : Host) (bundled requested names loaded : List Str) (hl : load h bundled requested = .ok (names, loaded))
    (hn : (h.linked.map (·.1)).Nodup) : loaded.Nodup ∧ names.Nodup := by
  rcases load_ok hl with ⟨_, _, h1, h2⟩ | ⟨_, paths, names', h1, h2, h3⟩
  · rw [h1, h2]; exact ⟨by simp, hn⟩
  · obtain ⟨h4, h5, _, _⟩ := loadAll_ok h2
    refine ⟨by rw [h4, List.nil_append]; exact nodup_addAll (by simp), ?_⟩
    rw [h3, (sort_perm names').nodup_iff]
    exact h5 ((dropStatic_sublist _ _).nodup hn)

/-- C111: which plugins are there afterwards: the native ones, the static ones that are bundled, and those of the files that
    were loaded. (If there is nothing to load and nothing is bundled, all plugins stay.) -/
theorem C111_registry (h : Host) (bundled requested names loaded : List Str)
    (hl : load h bundled requested = .ok (names, loaded)) (hn : (h.linked.map (·.1)).Nodup) (n : Str) :
    n ∈ names ↔ (n, Kind.native) ∈ h.linked ∨
      ((n, Kind.static) ∈ h.linked ∧ (n ∈ bundled ∨ (bundled = [] ∧ requested = []))) ∨ ∃ p ∈ loaded, h.open' p = some n := by
  rcases load_ok hl with ⟨h0, h0', h1, h2⟩ | ⟨hne, paths, names', h1, h2, h3⟩
  · rw [h1, h2]
    simp only [List.mem_map, h0, h0', List.not_mem_nil, and_self, or_true, and_true, false_and, exists_false, or_false]
    constructor
    · rintro ⟨⟨m, k⟩, hm, rfl⟩
      cases k with
      | native => exact .inl hm
      | static => exact .inr hm
    · rintro (hm | hm)
      · exact ⟨_, hm, rfl⟩
      · exact ⟨_, hm, rfl⟩
  · obtain ⟨h4, _, h5, _⟩ := loadAll_ok h2
    have hnot : ¬ (bundled = [] ∧ requested = []) := by
      rintro ⟨e1, e2⟩
      rcases hne with h | h
      · exact h e2
      · exact h e1
    rw [h3, (sort_perm names').mem_iff, h5, dropStatic_names _ _ _ hn, h4, List.nil_append, or_assoc]
    simp only [hnot, or_false]

/-- C111: the plugins are sorted by name, if there is anything to load or bundled. -/
theorem C111_sorted_partial (h : Host) (bundled requested names loaded : List Str)
    (hl : load h bundled requested = .ok (names, loaded)) (hne : requested ≠ [] ∨ bundled ≠ []) :
    names.Pairwise fun a b => le a b = true := by
  rcases load_ok hl with ⟨h0, h0', _, _⟩ | ⟨_, paths, names', _, _, h3⟩
  · rcases hne with h | h
    · exact absurd h0 h
    · exact absurd h0' h
  · rw [h3]
    exact sort_sorted names'

/-- A program with a static and a native plugin, and two plugins in a directory. -/
def sample : Host where
  linked := [(str "pcap", .static), (str "null", .native)]
  pluginDirs := [str "/opt/p"]
  bare := false
  home := some (str "/home/u")
  installDir := str "/usr/lib/vast/plugins"
  entries := fun d =>
    if d = str "/opt/p" then [(str "libvast-plugin-a.so", true), (str "README", true), (str "libvast-plugin-b.so", true)] else []
  isFile := fun p => p ∈ [str "/opt/p/libvast-plugin-a.so", str "/opt/p/libvast-plugin-b.so", str "/usr/lib/vast/plugins/libvast-plugin-a.so"]
  open' := fun p =>
    if p = str "/opt/p/libvast-plugin-a.so" then some (str "a")
    else if p = str "/opt/p/libvast-plugin-b.so" then some (str "b")
    else none

theorem ok_of {ε β : Type} {x : Except ε β} {y : β} (h : x.toOption = some y) : x = .ok y := by
  cases x with
  | error e => cases h
  | ok z => cases h; rfl

/-- A plugin is asked for by its name and by its path. -/
example : load sample [str "pcap", str "b"] [str "a", str "/opt/p/libvast-plugin-a.so", str "bundled"] =
    .ok ([str "a", str "b", str "null", str "pcap"], [str "/opt/p/libvast-plugin-a.so", str "/opt/p/libvast-plugin-b.so"]) :=
  ok_of (by decide +kernel)

/-- Everything in the directories. -/
example : load sample [str "pcap"] [str "all"] =
    .ok ([str "a", str "b", str "null", str "pcap"], [str "/opt/p/libvast-plugin-a.so", str "/opt/p/libvast-plugin-b.so"]) ∧
    ∀ dir ∈ searchPath sample, ∀ e ∈ sample.entries dir, e.2 = true :=
  ⟨ok_of (by decide +kernel), by decide +kernel⟩

/-- C111: with a subdirectory in the directory, `all` silently leaves out the plugins that come after it. -/
theorem C111_all_refuted : ∃ h bundled requested names loaded, load h bundled requested = .ok (names, loaded) ∧
    str "all" ∈ requested ∧ InDirs h (str "/opt/p/libvast-plugin-b.so") ∧ str "/opt/p/libvast-plugin-b.so" ∉ loaded := by
  refine ⟨{ sample with entries := fun d => if d = str "/opt/p" then
      [(str "libvast-plugin-a.so", true), (str "src", false), (str "libvast-plugin-b.so", true)] else [] },
    [str "pcap"], [str "all"], [str "a", str "null", str "pcap"], [str "/opt/p/libvast-plugin-a.so"],
    ok_of (by decide +kernel), by decide +kernel, ⟨str "/opt/p", by decide +kernel, str "libvast-plugin-b.so", ?_⟩, by decide +kernel⟩
  refine ⟨by decide +kernel, List.isPrefixOf_iff_prefix.1 (by decide +kernel), by decide +kernel⟩

/-- C111: a plugin that is linked into the program cannot be asked for by its name. -/
theorem C111_static_refuted : ∃ h bundled name, (name, Kind.static) ∈ h.linked ∧ name ∈ bundled ∧
    load h bundled [name] = .error (.notFound name) := by
  refine ⟨sample, [str "pcap"], str "pcap", by decide +kernel, by decide +kernel, ?_⟩
  have h : (load sample [str "pcap"] [str "pcap"]).toOption = none ∧
      resolveAll sample [str "pcap"] = .error (.notFound (str "pcap")) := by
    constructor
    · decide +kernel
    · have : resolve sample (str "pcap") = none := by decide +kernel
      rw [resolveAll, if_neg (by decide), this]
  rw [load, if_neg (by decide)]
  have e : expandBundled (dropStatic sample.linked [str "pcap"]).2 (expandAll sample [str "pcap"]) = [str "pcap"] := by
    decide +kernel
  rw [e, h.2]

end Verif.Plugins
