import Verif.Data.Model

/-! # Loading plugins

Models `get_plugin_dirs`, `resolve_plugin_name` and `load` of `libvast/src/plugin.cpp`. The plugins that are linked into the program, the file
system and the dynamic linker are parameters. -/

namespace Verif.Plugins

open Verif.Data (Str str)

/-- plugin_ptr::type without dynamic: the plugins before `load` -/
inductive Kind
  | static
  | native
deriving DecidableEq

/-- What the program finds. -/
structure Host where
  /-- the plugins that are part of the program, with their names -/
  linked : List (Str × Kind)
  /-- the option `vast.plugin-dirs` -/
  pluginDirs : List Str
  /-- the option `vast.bare-mode` -/
  bare : Bool
  /-- the environment variable HOME -/
  home : Option Str
  /-- detail::install_plugindir -/
  installDir : Str
  /-- directory_iterator: the entries of a directory, by their file name, and whether they are regular files; empty if it cannot be read -/
  entries : Str → List (Str × Bool)
  /-- std::filesystem::is_regular_file -/
  isFile : Str → Bool
  /-- plugin_ptr::make_dynamic: the name of the plugin in a file, `none` if it cannot be loaded -/
  open' : Str → Option Str

/-- The errors of `load` -/
inductive Err
  | notFound (name : Str)
  | notLoadable (path : Str)
  | clash (path name : Str)
deriving DecidableEq

/-- `std::filesystem::path::operator/` -/
def join (dir file : Str) : Str := dir ++ str "/" ++ file

/-- stable_set.hpp:20-27 `add` -/
def add (xs : List Str) (x : Str) : List Str := if x ∈ xs then xs else xs ++ [x]

/-- plugin.cpp:38-56 `get_plugin_dirs` -/
def dirs (h : Host) : List Str :=
  add
    (match h.bare, h.home with
    | false, some home => add (h.pluginDirs.foldl add []) (home ++ str "/.local/lib/vast/plugins")
    | _, _ => h.pluginDirs.foldl add [])
    h.installDir

/-- plugin.cpp:61-63: the file of a plugin in a directory (on Linux) -/
def fileOf (name dir : Str) : Str := join dir (str "libvast-plugin-" ++ name ++ str ".so")

/-- plugin.cpp:57-70 `resolve_plugin_name` -/
def resolve (h : Host) (name : Str) : Option Str := ((dirs h).map (fileOf name)).find? h.isFile

/-- plugin.cpp:107-113: the loop over a directory; it ends at the first entry that is not a regular file. -/
def scan (dir : Str) : List (Str × Bool) → List Str
  | [] => []
  | (file, regular) :: es =>
    if regular then
      if (str "libvast-plugin-").isPrefixOf file then join dir file :: scan dir es else scan dir es
    else []

/-- plugin.cpp:101-115: step 2, the identifier `all` -/
def expandAll (h : Host) (names : List Str) : List Str :=
  if str "all" ∈ names then names.filter (· ≠ str "all") ++ (dirs h).flatMap fun d => scan d (h.entries d) else names

/-- plugin.cpp:118-139: step 3; the plugins that stay and what remains of the bundled ones -/
def dropStatic : List (Str × Kind) → List Str → List Str × List Str
  | [], bundled => ([], bundled)
  | (name, .native) :: ps, bundled => ((name :: (dropStatic ps bundled).1), (dropStatic ps bundled).2)
  | (name, .static) :: ps, bundled =>
    if name ∈ bundled then
      (name :: (dropStatic ps (bundled.filter (· ≠ name))).1, (dropStatic ps (bundled.filter (· ≠ name))).2)
    else dropStatic ps bundled

/-- plugin.cpp:143-149: step 4, the identifier `bundled` -/
def expandBundled (bundled names : List Str) : List Str :=
  if str "bundled" ∈ names then names.filter (· ≠ str "bundled") ++ bundled else names

/-- `std::filesystem::path::is_absolute` -/
def isAbsolute (x : Str) : Bool := (str "/").isPrefixOf x

/-- plugin.cpp:152-164: step 5 -/
def resolveAll (h : Host) : List Str → Except Err (List Str)
  | [] => .ok []
  | x :: xs =>
    if isAbsolute x then
      match resolveAll h xs with
      | .ok ys => .ok (x :: ys)
      | .error e => .error e
    else
      match resolve h x with
      | none => .error (.notFound x)
      | some y =>
        match resolveAll h xs with
        | .ok ys => .ok (y :: ys)
        | .error e => .error e

/-- plugin.cpp:172-190: step 7; the names of the plugins and the paths that were loaded -/
def loadAll (h : Host) : List Str → List Str → List Str → Except Err (List Str × List Str)
  | [], names, loaded => .ok (names, loaded)
  | path :: paths, names, loaded =>
    match h.open' path with
    | none => .error (.notLoadable path)
    | some name => if name ∈ names then .error (.clash path name) else loadAll h paths (names ++ [name]) (loaded ++ [path])

/-- `strcmp(x, y) <= 0` -/
def le : Str → Str → Bool
  | [], _ => true
  | _ :: _, [] => false
  | a :: as, b :: bs => if a < b then true else if b < a then false else le as bs

/-- Insert into a sorted list. -/
def insert (x : Str) : List Str → List Str
  | [] => [x]
  | y :: ys => if le x y then x :: y :: ys else y :: insert x ys

/-- `std::sort` of the plugins by name; names are unique, so that the result does not depend on the algorithm. -/
def sort : List Str → List Str
  | [] => []
  | x :: xs => insert x (sort xs)

/-- plugin.cpp:90-198 `load`: the names of the plugins in the order in which they are kept, and the paths that were loaded -/
def load (h : Host) (bundled requested : List Str) : Except Err (List Str × List Str) :=
  if requested = [] ∧ bundled = [] then .ok (h.linked.map (·.1), [])
  else
    match resolveAll h (expandBundled (dropStatic h.linked bundled).2 (expandAll h requested)) with
    | .error e => .error e
    | .ok paths =>
      match loadAll h (paths.foldl add []) (dropStatic h.linked bundled).1 [] with
      | .error e => .error e
      | .ok (names, loaded) => .ok (sort names, loaded)

end Verif.Plugins
