import Verif.Model.Message

/-!
# Specification: what is printed under a line of the source
-/

namespace Verif

/-- The location covers column `i`; it covers at least one. -/
def SourceLoc.At (l : SourceLoc) (i : Nat) : Prop := l.startCol ≤ i ∧ (i < l.endCol ∨ i = l.startCol)

instance (l : SourceLoc) (i : Nat) : Decidable (l.At i) := by unfold SourceLoc.At; infer_instance

/-- An extra location in the same line of the same file covers column `i`. -/
def ExtraAt (loc : SourceLoc) (extra : List (Option SourceLoc)) (i : Nat) : Prop :=
  ∃ e, some e ∈ extra ∧ e.filename = loc.filename ∧ e.lineno = loc.lineno ∧ e.At i

/-- `marks` has one character for each one of the line: `^` under the location, `~` under
the others, and blanks. -/
structure Marked (loc : SourceLoc) (extra : List (Option SourceLoc)) (marks : List Char) : Prop where
  length : marks.length = loc.line.length
  main : ∀ i < loc.line.length, loc.At i → marks[i]? = some '^'
  other : ∀ i < loc.line.length, ¬loc.At i → ExtraAt loc extra i → marks[i]? = some '~'
  blank : ∀ i < loc.line.length, ¬loc.At i → ¬ExtraAt loc extra i → marks[i]? = some ' '

section
variable [Unicode]

/-- `r` is `s` without the white space at its end. -/
def Stripped (s r : List Char) : Prop :=
  ∃ w, s = r ++ w ∧ (∀ c ∈ w, Unicode.space c = true) ∧ ∀ c, r.getLast? = some c → Unicode.space c = false

end

/-- The characters above the marks `^`. -/
def spelled : List Char → List Char → List Char
  | c :: cs, m :: ms => if m = '^' then c :: spelled cs ms else spelled cs ms
  | _, _ => []

end Verif
