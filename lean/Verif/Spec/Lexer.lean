import Verif.Model.Lexer

/-!
# Specification: what regular expressions accept, how a line is divided into tokens
-/

namespace Verif

/-- Zero or more times `P`.  The second argument is what follows. -/
inductive Iter (P : List Char → List Char → Prop) : List Char → List Char → Prop where
  | nil {r} : Iter P [] r
  | more {u v r} : u ≠ [] → P u (v ++ r) → Iter P v r → Iter P (u ++ v) r

/-- The text `u` matches the expression, if `r` follows it. -/
def Re.Accepts : Re → List Char → List Char → Prop
  | cls p, u, _ => ∃ c, u = [c] ∧ p c = true
  | eps, u, _ => u = []
  | seq a b, u, r => ∃ v w, u = v ++ w ∧ a.Accepts v (w ++ r) ∧ b.Accepts w r
  | alt a b, u, r => a.Accepts u r ∨ b.Accepts u r
  | star a, u, r => Iter a.Accepts u r
  | neg a, u, r => u = [] ∧ ∀ v r', r = v ++ r' → ¬a.Accepts v r'
  | eos, u, r => u = [] ∧ (r = [] ∨ r = ['\n'])

/-- Some beginning of `s` matches. -/
def Re.Possible (a : Re) (s : List Char) : Prop := ∃ u r, s = u ++ r ∧ a.Accepts u r

section
variable [Unicode]

/-- `Lexes inComment col s evs inComment'`: the rest `s` of a line, from column `col`, is
divided into tokens, white space, comments and illegal characters; `evs` are exactly its
tokens and illegal characters, in order and with their columns.  A token is of the first
kind (in the order of the table) that is possible; a character is illegal only if no token
is possible. -/
inductive Lexes : Bool → Nat → List Char → List LexEv → Bool → Prop where
  | done {b col} : Lexes b col [] [] b
  /-- within a block comment that is not closed in this line -/
  | inside {col s} : (∀ u r, s = u ++ '*' :: '/' :: r → '\n' ∈ u) → Lexes true col s [] true
  /-- the end of a block comment -/
  | close {col u r evs b} : '\n' ∉ u → (∀ v w, u ++ ['*'] = v ++ '*' :: '/' :: w → False) →
      Lexes false (col + (u.length + 2)) r evs b → Lexes true col (u ++ '*' :: '/' :: r) evs b
  /-- the beginning of a block comment -/
  | opened {col r evs b} : Lexes true (col + 2) r evs b → Lexes false col ('/' :: '*' :: r) evs b
  /-- white space -/
  | blank {col u r evs b} : u ≠ [] → (∀ c ∈ u, Unicode.space c = true) →
      Lexes false (col + u.length) r evs b → Lexes false col (u ++ r) evs b
  /-- a comment up to the end of the line -/
  | comment {col u v r evs b} : (u = ['/', '/'] ∨ u = ['#']) → '\n' ∉ v →
      Lexes false (col + (u ++ v).length) r evs b → Lexes false col (u ++ v ++ r) evs b
  | token {col u r evs b k} : u ≠ [] → k ≠ .space → k ≠ .comment → k.re.Accepts u r →
      (∀ k' ∈ Kind.all.takeWhile (· ≠ k), ¬k'.re.Possible (u ++ r)) → (∀ w, u ++ r ≠ '/' :: '*' :: w) →
      Lexes false (col + u.length) r evs b →
      Lexes false col (u ++ r) (.tok ⟨u, k, col, col + u.length⟩ :: evs) b
  | illegal {col c r evs b} : (∀ k ∈ Kind.all, ¬k.re.Possible (c :: r)) →
      Lexes false (col + 1) r evs b → Lexes false col (c :: r) (.illegal c col :: evs) b

/-- The lines of a file, one after the other: a comment may go on in the next line. -/
inductive LexesLines : Bool → Nat → List (List Char) → List (Nat × LexEv) → Prop where
  | nil {b n} : LexesLines b n [] []
  | cons {b n l ls evs b' rest} : Lexes b 0 (expandTabs l) evs b' → LexesLines b' (n + 1) ls rest →
      LexesLines b n (l :: ls) (evs.map (n, ·) ++ rest)

end

/-- The columns covered by an event. -/
def LexEv.span : LexEv → Nat × Nat
  | .tok t => (t.startCol, t.endCol)
  | .illegal _ col => (col, col + 1)

/-- The text of an event. -/
def LexEv.text : LexEv → List Char
  | .tok t => t.lexeme
  | .illegal c _ => [c]

end Verif
