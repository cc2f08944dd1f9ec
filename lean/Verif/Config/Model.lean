import Verif.Record.Model
import Verif.Data.Model

/-! # The configuration

Models `libvast/src/system/configuration.cpp` (config_dirs, configuration::parse), `merge_settings` in
`libvast/src/detail/settings.cpp`, the use of both in `vast/vast.cpp`, and the plugin configuration in
`libvast/src/plugin.cpp`.

Values are those of `Verif.Record`: null, scalars of an arbitrary type, lists and records. A `caf::settings` is a record, too:
a `caf::config_value` has no null. What comes from outside of the repository is a parameter: the file system with the outcome
of the YAML parser, the environment, and what CAF makes of the arguments on the command line. -/

namespace Verif.Config

open Verif.Data (Str str)
open Verif.Record (Name D L R get set nestedOf)

/-- What reading a file (detail::load_contents) and parsing it (from_yaml) gives. -/
inductive File (α : Type)
  | unreadable
  | malformed
  | yaml (d : D α)

/-- configuration.cpp: the errors of `parse` -/
inductive Err
  /-- both vast.yaml and vast.yml in a directory -/
  | ambiguous
  /-- the file of `--config=` does not exist -/
  | missing
  /-- a configuration file cannot be read or parsed, or is not a map -/
  | unreadable
  /-- a value does not have the type of CAF's option -/
  | type
  /-- the command line is in error -/
  | usage
deriving DecidableEq

/-- What the program finds. -/
structure World (α : Type) where
  /-- the environment variable XDG_CONFIG_HOME -/
  xdg : Option Str
  /-- the environment variable HOME -/
  home : Option Str
  /-- detail::install_configdir -/
  installDir : Str
  /-- the environment variable VAST_ENDPOINT, as a string value -/
  endpoint : Option α
  /-- the environment variable VAST_PLUGIN_DIRS, split at colons, as string values -/
  pluginDirs : Option (L α)
  /-- the value `true` -/
  yes : α
  /-- the files there are -/
  files : Str → Option (File α)
  /-- What CAF's option parser makes of the arguments that start with the given text; `none` without any. -/
  listOption : Str → List Str → Option (L α)
  /-- `custom_options_` and `parse_config_value` (configuration.cpp:222-251, 256-268): the value as that of CAF's option of this
      name; the value itself if there is no such option; `none` for a type clash -/
  typed : Name → D α → Option (D α)
  /-- `parse` of command.cpp: the options on the command line as settings, or an error -/
  options : List Str → Option (R α)

variable {α : Type}

/-- `std::filesystem::path::operator/` -/
def join (dir file : Str) : Str := dir ++ str "/" ++ file

/-- configuration.cpp:41-54 `config_dirs` -/
def configDirs (w : World α) (bare : Bool) : List Str :=
  if bare then []
  else (match w.xdg with
    | some x => [join x (str "vast")]
    | none => match w.home with
      | some h => [join (join h (str ".config")) (str "vast")]
      | none => []) ++ [w.installDir]

/-- configuration.cpp:132-152 `add_configs`. Simplified: to find out whether a file exists does not fail. -/
def addConfigs (w : World α) (dir : Str) (acc : List Str) : Except Err (List Str) :=
  match w.files (join dir (str "vast.yaml")), w.files (join dir (str "vast.yml")) with
  | some _, some _ => .error .ambiguous
  | some _, none => .ok (acc ++ [join dir (str "vast.yaml")])
  | none, some _ => .ok (acc ++ [join dir (str "vast.yml")])
  | none, none => .ok acc

/-- configuration.cpp:153-155 -/
def addAll (w : World α) : List Str → List Str → Except Err (List Str)
  | [], acc => .ok acc
  | dir :: dirs, acc =>
    match addConfigs w dir acc with
    | .error e => .error e
    | .ok acc => addAll w dirs acc

/-- configuration.cpp:156-170: the files of `--config=` -/
def addExplicit (w : World α) : List Str → List Str → Except Err (List Str)
  | [], acc => .ok acc
  | arg :: args, acc =>
    if (str "--config=").isPrefixOf arg then
      match w.files (arg.drop 9) with
      | some _ => addExplicit w args (acc ++ [arg.drop 9])
      | none => .error .missing
    else addExplicit w args acc

/-- configuration.cpp:171-197: read, parse and merge the files. -/
def readAll (w : World α) : List Str → R α → Except Err (R α)
  | [], acc => .ok acc
  | path :: paths, acc =>
    match w.files path with
    | none => readAll w paths acc
    | some .unreadable => .error .unreadable
    | some .malformed => .error .unreadable
    | some (.yaml .null) => readAll w paths acc
    | some (.yaml (.record r)) => readAll w paths (Record.merge true r acc)
    | some (.yaml _) => .error .unreadable

/-- configuration.cpp:202-205: strip `caf.` -/
def stripCaf (x : Name × D α) : Name × D α := if (str "caf.").isPrefixOf x.1 then (x.1.drop 4, x.2) else x

/-- configuration.cpp:207-212: is this not null? -/
def notNull (x : Name × D α) : Bool :=
  match x.2 with
  | .null => false
  | _ => true

/-- `operator<` of std::string -/
def less : Name → Name → Bool
  | [], [] => false
  | [], _ :: _ => true
  | _ :: _, [] => false
  | a :: as, b :: bs => if a < b then true else if b < a then false else less as bs

/-- `caf::dictionary::operator[]` with an assignment; the dictionary is sorted by key. -/
def dictSet (k : Name) (d : D α) : List (Name × D α) → List (Name × D α)
  | [] => [(k, d)]
  | (k', d') :: l => if k' = k then (k', d) :: l else if less k k' then (k, d) :: (k', d') :: l else (k', d') :: dictSet k d l

/-- data.cpp:354-362 `convert` to settings; that of the values is left out. -/
def toSettings (l : List (Name × D α)) : List (Name × D α) := l.foldl (fun acc x => dictSet x.1 x.2 acc) []

/-- `caf::split` at dots -/
def splitDots : Name → List Name
  | [] => [[]]
  | c :: s => if c = 46 then [] :: splitDots s else match splitDots s with
    | [] => [[c]]
    | p :: ps => (c :: p) :: ps

/-- `caf::put` for a path: what is not a dictionary on the way becomes one. Not modelled: CAF ignores a first component
    `global`. -/
def putAt : List Name → D α → List (Name × D α) → List (Name × D α)
  | [], _, l => l
  | [k], d, l => set k d l
  | k :: k' :: p, d, l => set k (.record (.ofList (putAt (k' :: p) d (nestedOf (get k l))))) l

/-- `caf::put` -/
def put (key : Name) (d : D α) (l : List (Name × D α)) : List (Name × D α) := putAt (splitDots key) d l

/-- configuration.cpp:253-269: the settings from the files go to the content. -/
def putAll (w : World α) : List (Name × D α) → List (Name × D α) → Except Err (List (Name × D α))
  | [], c => .ok c
  | (k, d) :: l, c =>
    match w.typed k d with
    | some d' => putAll w l (put k d' c)
    | none => .error .type

/-- configuration.cpp:198-269: what becomes of the merged record -/
def applyFiles (w : World α) (merged : R α) (c : List (Name × D α)) : Except Err (List (Name × D α)) :=
  putAll w (toSettings (((Record.flatten merged).map stripCaf).filter notNull)) c

/-- configuration.cpp:80-87: `--bare-mode` -/
def isBare (args : List Str) : Bool := args.contains (str "--bare-mode")

/-- configuration.cpp:91-94 -/
def isPluginOpt (x : Str) : Bool := (str "--plugins=").isPrefixOf x || (str "--plugin-dirs=").isPrefixOf x

/-- configuration.cpp:86, 95-99, 120-129: what remains of the command line -/
def commandLine (args : List Str) : List Str :=
  ((args.erase (str "--bare-mode")).filter fun x => !isPluginOpt x).filter fun x => !(str "--caf.").isPrefixOf x

/-- configuration.cpp:95-98: the arguments about plugins -/
def pluginArgs (args : List Str) : List Str := (args.erase (str "--bare-mode")).filter isPluginOpt

/-- An optional list goes to the content. -/
def putList (key : Name) (x : Option (L α)) (c : List (Name × D α)) : List (Name × D α) :=
  match x with
  | some xs => put key (.list xs) c
  | none => c

/-- configuration.cpp:107-119: the list of plugin directories after the command line and the environment -/
def pluginDirs (w : World α) (args : List Str) : Option (L α) :=
  match w.listOption (str "--plugin-dirs=") (pluginArgs args), w.pluginDirs with
  | some xs, some ys => some (xs.append ys)
  | some xs, none => some xs
  | none, some .nil => none
  | none, some ys => some ys
  | none, none => none

/-- configuration.cpp:81-119: the content before the files are read -/
def initial (w : World α) (args : List Str) : List (Name × D α) :=
  putList (str "vast.plugin-dirs") (pluginDirs w args)
    (putList (str "vast.plugins") (w.listOption (str "--plugins=") (pluginArgs args))
      (if isBare args then put (str "vast.bare-mode") (.scalar w.yes) [] else []))

/-- configuration.cpp:270-276: VAST_ENDPOINT -/
def applyEnv (w : World α) (c : List (Name × D α)) : List (Name × D α) :=
  match w.endpoint with
  | some e => put (str "vast.endpoint") (.scalar e) c
  | none => c

/-- configuration.cpp:153-170: the configuration files, in the order they are read -/
def configFiles (w : World α) (args : List Str) : Except Err (List Str) :=
  match addAll w (configDirs w (isBare args)) [] with
  | .error e => .error e
  | .ok paths => addExplicit w (commandLine args) paths

/-- configuration.cpp:66-297 `configuration::parse`. Left out: the translation of `-q` and `-v` to `--verbosity`, and CAF's own
    options on the command line. -/
def parse (w : World α) (args : List Str) : Except Err (List (Name × D α)) :=
  match configFiles w args with
  | .error e => .error e
  | .ok paths =>
    match readAll w paths .nil with
    | .error e => .error e
    | .ok merged =>
      match applyFiles w merged (initial w args) with
      | .error e => .error e
      | .ok c => .ok (applyEnv w c)

/-- settings.cpp:29-41: the value of an entry that is a list in `src` -/
def joinSettings (lists : Bool) (xs : L α) : Option (D α) → D α
  | some (.list ys) => if lists then .list (ys.append xs) else .list xs
  | _ => .list xs

/-- settings.cpp:18-46 `merge_settings_impl`; `n` is the number of levels that are allowed below. -/
def mergeSettingsLoop (lists : Bool) (n : Nat) (dst : List (Name × D α)) : R α → List (Name × D α)
  | .nil => dst
  | .cons k (.record s) rest =>
    mergeSettingsLoop lists n (set k (.record (.ofList
      (if n = 0 then nestedOf (get k dst) else mergeSettingsLoop lists (n - 1) (nestedOf (get k dst)) s))) dst) rest
  | .cons k (.list xs) rest => mergeSettingsLoop lists n (set k (joinSettings lists xs (get k dst)) dst) rest
  | .cons k d rest => mergeSettingsLoop lists n (set k d dst) rest

/-- settings.cpp:50-53 `merge_settings` -/
def mergeSettings (lists : Bool) (src : R α) (dst : List (Name × D α)) : List (Name × D α) :=
  mergeSettingsLoop lists 100 dst src

/-- vast.cpp:46-80: the settings in use -/
def settings (w : World α) (args : List Str) : Except Err (List (Name × D α)) :=
  match parse w args with
  | .error e => .error e
  | .ok c =>
    match w.options (commandLine args) with
    | none => .error .usage
    | some o => .ok (mergeSettings true o c)

/-- vast.cpp:52, plugin.cpp:94-95: the plugins to load are determined before the command line is parsed. -/
def pluginsToLoad (c : List (Name × D α)) : List (D α) :=
  match get (str "vast") c with
  | some (.record v) =>
    match get (str "plugins") v.toList with
    | some (.list xs) => go xs
    | _ => []
  | _ => []
where
  /-- The elements of a list. -/
  go : L α → List (D α)
    | .nil => []
    | .cons d xs => d :: go xs

end Verif.Config
