/-!
# Specification: where paths lead

Directories have a parent and there are no symbolic links.
-/

namespace Verif

/-- A file or directory: the names from the innermost to the root.  POSIX leaves the meaning of a root with two
slashes to the implementation, so it is told apart from the root with one. -/
structure Place where
  double : Bool
  names : List (List Char)
deriving DecidableEq

/-- From a directory to what the component says: nothing and `.` is the directory itself, `..` its parent. -/
def Place.enter (d : List (List Char)) (w : List Char) : List (List Char) :=
  if w = [] ∨ w = ['.'] then d else if w = ['.', '.'] then d.tail else w :: d

/-- From a directory along the path, with the characters of the current component so far. -/
def Place.along (d : List (List Char)) (w : List Char) : List Char → List (List Char)
  | [] => Place.enter d w
  | c :: cs => if c = '/' then Place.along (Place.enter d w) [] cs else Place.along d (w ++ [c]) cs

/-- Where the path leads from a directory: from the root if it begins with a slash. -/
def Place.follow (cwd : Place) (path : List Char) : Place :=
  if path.head? = some '/' then ⟨decide ((path.takeWhile (· = '/')).length = 2), Place.along [] [] path⟩
  else ⟨cwd.double, Place.along cwd.names [] path⟩

/-- No component of the path is empty, `.` or `..`. -/
def SimplePath (path : List Char) : Prop :=
  ∀ a w b, path = a ++ w ++ b → (a = [] ∨ a.getLast? = some '/') → '/' ∉ w → (b = [] ∨ b.head? = some '/') →
    w ≠ [] ∧ w ≠ ['.'] ∧ w ≠ ['.', '.']

end Verif
