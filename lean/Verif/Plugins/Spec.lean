import Verif.Plugins.Model

/-! # Which plugins should be loaded -/

namespace Verif.Plugins.Spec

open Verif.Data (Str str)

/-- The directories to look into: those of the option, that of the user, that of the installation. -/
def searchPath (h : Host) : List Str :=
  h.pluginDirs ++ (if h.bare then [] else (h.home.map (· ++ str "/.local/lib/vast/plugins")).toList) ++ [h.installDir]

/-- The file of a plugin in a directory. -/
def soFile (name dir : Str) : Str := dir ++ str "/libvast-plugin-" ++ name ++ str ".so"

/-- The file is that of the plugin in the first directory that has one. -/
def Resolves (h : Host) (name path : Str) : Prop :=
  ∃ before dir after, searchPath h = before ++ dir :: after ∧ path = soFile name dir ∧ h.isFile path = true ∧
    ∀ d ∈ before, h.isFile (soFile name d) = false

/-- A path -/
def IsPath (x : Str) : Prop := x.head? = some 47

/-- What is meant by an element of the list of plugins: a path stands for itself, everything else is a name. -/
def Meant (h : Host) (x path : Str) : Prop := (IsPath x ∧ path = x) ∨ (¬ IsPath x ∧ Resolves h x path)

/-- A file in one of the directories that looks like a plugin. -/
def InDirs (h : Host) (path : Str) : Prop :=
  ∃ dir ∈ searchPath h, ∃ file, (file, true) ∈ h.entries dir ∧ str "libvast-plugin-" <+: file ∧ path = dir ++ str "/" ++ file

/-- What the user asks for by name or path, or with `bundled`: the plugins built with the program that are not linked in. -/
def AskedByName (h : Host) (bundled requested : List Str) (x : Str) : Prop :=
  (x ∈ requested ∧ x ≠ str "all" ∧ x ≠ str "bundled") ∨
  (str "bundled" ∈ requested ∧ x ∈ bundled ∧ (x, Kind.static) ∉ h.linked)

/-- What the user asks for. -/
def Asked (h : Host) (bundled requested : List Str) (x : Str) : Prop :=
  AskedByName h bundled requested x ∨ (str "all" ∈ requested ∧ InDirs h x)

end Verif.Plugins.Spec
