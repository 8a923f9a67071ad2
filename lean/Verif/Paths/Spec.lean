import Verif.Paths.Model

/-!
# Paths: specification

What a path means, independently of the way it is processed: the usual reading of paths.
-/

namespace Umka.Paths

/-- The components of a path: the parts between slashes or backslashes.  The path `/a/b` has the components "", "a", "b". -/
def components : List Char → List (List Char)
  | [] => [[]]
  | c :: cs =>
    if c = '/' ∨ c = '\\' then [] :: components cs
    else
      match components cs with
      | [] => [[c]]
      | w :: ws => (c :: w) :: ws

/-- Following the components from a folder, which is given by the names on the way to it from the root.  An empty component and
`.` stay where they are, `..` goes up, a name goes down.  `none`: up from the root. -/
def follow : List (List Char) → List (List Char) → Option (List (List Char))
  | folder, [] => some folder
  | folder, w :: ws =>
    if w = [] ∨ w = ['.'] then follow folder ws
    else if w = ['.', '.'] then
      if folder = [] then none else follow folder.dropLast ws
    else follow (folder ++ [w]) ws

/-- The file that an absolute path denotes, by the names on the way to it from the root. -/
def denotes (path : List Char) : Option (List (List Char)) := follow [] (components path)

/-- The normal form of the name of a file: `/a/b/c`. -/
def spell : List (List Char) → List Char
  | [] => []
  | w :: ws => '/' :: w ++ spell ws

/-- An ordinary name: not empty, not blank, does not end in a dot and has no dot before a blank. -/
def Ordinary (w : List Char) : Prop :=
  (∃ c ∈ w, ¬ (c = ' ' ∨ c = '\t')) ∧
  w.getLast? ≠ some '.' ∧
  ∀ a c b, w = a ++ '.' :: c :: b → ¬ (c = ' ' ∨ c = '\t')

/-- A path that names a file by ordinary names, `.` and `..`. -/
def OrdinaryPath (p : List Char) : Prop :=
  (∀ w ∈ components p, Ordinary w ∨ w = ['.'] ∨ w = ['.', '.']) ∧
  (∃ ws w, components p = ws ++ [w] ∧ Ordinary w)

end Umka.Paths
