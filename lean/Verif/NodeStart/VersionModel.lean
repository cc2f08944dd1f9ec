import Verif.Data.Model
/-!
# The version of a database directory

Models libvast/src/db_version.cpp and its use by `spawn_node` (libvast/src/system/spawn_node.cpp:56-70).  The tables of versions are
parameters.
-/
namespace Verif.NodeStart
open Verif.Data (Str str)

/-- The tables of db_version.cpp:27-38: the texts of all versions, of which the first is for an invalid one, and what has changed from
each version to the next. -/
structure Versions where
  descriptions : List Str
  explanations : List Str

/-- The tables of this version of VAST. -/
def vast : Versions := ⟨[str "invalid", str "v0", str "v1"], [str "The dedicated `port` type was removed."]⟩

/-- `db_version::latest` (db_version.hpp:24-30); by db_version.cpp:40-41 the table has `count` entries. -/
def Versions.latest (t : Versions) : Nat := t.descriptions.length - 1

/-- What reading a version gives: its number, or undefined behavior. -/
inductive Read where
  | version (n : Nat)
  | ub
deriving DecidableEq

/-- `read_db_version` (db_version.cpp:56-77) for the contents of the file.  `find` gives `npos` if there is no newline, which is not
zero, so that the view reaches beyond the contents (69-70).  If the newline comes first, the contents are taken as they are. -/
def readVersion (t : Versions) (contents : Str) : Read :=
  if contents = [] then .version 0
  else
    let line := contents.takeWhile (· ≠ 10)
    if line.length = contents.length then .ub
    else
      let sv := if line.length = 0 then contents else line
      if t.descriptions.idxOf sv = t.descriptions.length then .version 0 else .version (t.descriptions.idxOf sv)

/-- What can happen while the file is written (db_version.cpp:100-101): the process dies, or writing fails, after some bytes. -/
inductive Fault where
  | none
  | crash (bytes : Nat)
  | error (bytes : Nat)

/-- The result of starting a node. -/
inductive Result where
  | started
  | refused (reasons : Option Str)
  | crashed
  | ub
deriving DecidableEq

/-- `describe_breaking_changes_since` (db_version.cpp:109-122). -/
def describe (t : Versions) (since : Nat) : Str :=
  if since = 0 then str "invalid version"
  else ((t.explanations.drop (since - 1)).take (t.latest - since)).flatMap (· ++ [10])

/-- spawn_node.cpp:61-70. -/
def checkVersion (t : Versions) (contents : Str) : Result :=
  match readVersion t contents with
  | .ub => .ub
  | .version v => if v = t.latest then .started else .refused (some (describe t v))

/-- spawn_node.cpp:56-70 with `initialize_db_version` (db_version.cpp:79-107): the file afterwards, and the result. -/
def startNode (t : Versions) (file : Option Str) (fault : Fault) : Option Str × Result :=
  match file with
  | some contents => (some contents, checkVersion t contents)
  | none =>
    let text := t.descriptions.getD t.latest [] ++ [10]
    match fault with
    | .none => (some text, checkVersion t text)
    | .crash k => (some (text.take k), .crashed)
    | .error k => (some (text.take k), .refused none)

/-- Any number of starts in a directory that has no file at first: the file, and the results. -/
def starts (t : Versions) (file : Option Str) : List Fault → Option Str × List Result
  | [] => (file, [])
  | f :: fs => ((starts t (startNode t file f).1 fs).1, (startNode t file f).2 :: (starts t (startNode t file f).1 fs).2)

end Verif.NodeStart
