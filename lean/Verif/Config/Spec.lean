import Verif.Config.Model
import Verif.Record.Spec

/-! # Where the value of an option should come from

The documentation (doc/cli/vast.md:38-54, CHANGELOG.md): command line options override the environment, which overrides the
configuration files; among these, the more specific ones take precedence: a file given with `--config`, then the file of the
user, then that of the system. Lists are concatenated. -/

namespace Verif.Config.Spec

open Verif.Data (Str str)
open Verif.Record (Name D L R)
open Verif.Record.Spec (valueAt isRec UniqueKeys Defines leaves records)

variable {α : Type}

/-- The content of a file that is there, if it is a map. -/
def mapOf : Option (File α) → Option (R α)
  | some (.yaml (.record r)) => some r
  | _ => none

/-- The value of an option when a more specific place comes to a less specific one: lists are appended to lists, everything else
    replaces what was there. -/
def layer : Option (D α) → Option (D α) → Option (D α)
  | some (.list ys), some (.list xs) => some (.list (ys.append xs))
  | _, some d => some d
  | old, none => old

/-- The value of an option from places that are listed from the least specific to the most specific one. -/
def layered (places : List (Option (D α))) : Option (D α) := places.foldl layer none

/-- A null is not a value. -/
def orNothing : Option (D α) → Option (D α)
  | some .null => none
  | x => x

/-- The option is either a value of this record, or the record has nothing to do with it. -/
def Clean (p : List Name) (r : R α) : Prop := (∃ d, valueAt p r = some d ∧ isRec d = false) ∨ ¬ Defines r p

/-- The name of an option as it is used: `caf.` is dropped. -/
def optionOf : List Name → List Name
  | [] => []
  | [k] => [k]
  | k :: k' :: p => if k = str "caf" then k' :: p else k :: k' :: p

/-- Neither is a part of the other. -/
def Unrelated (p q : List Name) : Prop := ¬ p <+: q ∧ ¬ q <+: p

/-- Nothing in this file interferes with the option: keys are unique and without dots; other options are neither parts nor
    extensions of it, nor the same one with `caf.` before it. -/
structure Separate (p : List Name) (r : R α) : Prop where
  unique : UniqueKeys r
  clean : Clean p r
  noDots : ∀ x ∈ leaves r, ∀ k ∈ x.1, (46 : UInt8) ∉ k
  others : ∀ x ∈ leaves r, x.1 = p ∨ Unrelated p (optionOf x.1)

/-- A name of an option: components without dots, the first one not `caf`. -/
structure OptionName (p : List Name) : Prop where
  noDots : ∀ k ∈ p, (46 : UInt8) ∉ k
  nonempty : p ≠ []
  noCaf : p.head? ≠ some (str "caf")

/-- In no place a list and something else meet. -/
def ListsAgree (places : List (Option (D α))) : Prop :=
  (∀ d, some d ∈ places → d = .null ∨ ∃ xs, d = .list xs) ∨ (∀ d, some d ∈ places → ∀ xs, d ≠ .list xs)

/-- The configuration in a directory. -/
def inDir (w : World α) (dir : Str) : Option (R α) :=
  mapOf ((w.files (dir ++ str "/vast.yaml")).or (w.files (dir ++ str "/vast.yml")))

/-- The directory of the user: `$XDG_CONFIG_HOME/vast`, or else `$HOME/.config/vast`. -/
def userDir (w : World α) : Option Str :=
  (w.xdg.map (· ++ str "/vast")).or (w.home.map (· ++ str "/.config/vast"))

/-- The system-wide configuration. -/
def system (w : World α) : Option (R α) := inDir w w.installDir

/-- The configuration of the user. -/
def user (w : World α) : Option (R α) := (userDir w).bind (inDir w)

/-- The files given with `--config=`. -/
def explicit (w : World α) (args : List Str) : List (R α) :=
  args.filterMap fun arg => if (str "--config=").isPrefixOf arg then mapOf (w.files (arg.drop 9)) else none

/-- The configurations, from the least specific to the most specific one. -/
def documented (w : World α) (args : List Str) : List (R α) :=
  (if str "--bare-mode" ∈ args then [] else (system w).toList ++ (user w).toList) ++ explicit w args

/-- The option in the environment. -/
def env (w : World α) (p : List Name) : Option (D α) :=
  if p = [str "vast", str "endpoint"] then w.endpoint.map .scalar else none

/-- The options that have a meaning before the configuration files are read. -/
def early : List (List Name) := [[str "vast", str "bare-mode"], [str "vast", str "plugins"], [str "vast", str "plugin-dirs"]]

/-- The number of sections in all files. -/
def sections (rs : List (R α)) : Nat := (rs.map records).sum

end Verif.Config.Spec
