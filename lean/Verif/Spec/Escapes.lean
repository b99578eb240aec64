import Verif.Model.Strings

/-! What the text between the quotes of a string literal means: Python's codec `unicode_escape`, as a grammar over the bytes of
the text. -/

namespace Verif

/-- The byte `b` is a hexadecimal digit with the value `d`. -/
def IsHex (b d : Nat) : Prop :=
  ("0123456789abcdef".toList.map Char.toNat)[d]? = some b ∨ ("0123456789ABCDEF".toList.map Char.toNat)[d]? = some b

instance (b d : Nat) : Decidable (IsHex b d) := by unfold IsHex; infer_instance

/-- The byte `b` is an octal digit with the value `d`. -/
def IsOct (b d : Nat) : Prop := ("01234567".toList.map Char.toNat)[d]? = some b

instance (b d : Nat) : Decidable (IsOct b d) := by unfold IsOct; infer_instance

/-- Positional notation to the base 16. -/
inductive HexNumeral : List Nat → Nat → Prop
  | nil : HexNumeral [] 0
  | cons {b d n : Nat} {bs : List Nat} : IsHex b d → HexNumeral bs n → HexNumeral (b :: bs) (d * 16 ^ bs.length + n)

/-- The escapes with one letter. -/
def shortEscapes : List (Char × Nat) :=
  [('\\', 0x5c), ('\'', 0x27), ('"', 0x22), ('a', 7), ('b', 8), ('t', 9), ('n', 10), ('v', 11), ('f', 12), ('r', 13)]

/-- `Escape bs cs r`: a backslash followed by `bs` stands for `cs`, and `r` remains. -/
inductive Escape [Unicode] : List Nat → List Nat → List Nat → Prop
  /-- A backslash at the end of a line joins the lines. -/
  | newline {r : List Nat} : Escape ('\n'.toNat :: r) [] r
  | short {c : Char} {n : Nat} {r : List Nat} : (c, n) ∈ shortEscapes → Escape (c.toNat :: r) [n] r
  /-- One to three octal digits, as many as possible. -/
  | octal1 {a x : Nat} {r : List Nat} : IsOct a x → (∀ b ∈ r.head?, ∀ y, ¬IsOct b y) → Escape (a :: r) [x] r
  | octal2 {a b x y : Nat} {r : List Nat} : IsOct a x → IsOct b y → (∀ c ∈ r.head?, ∀ z, ¬IsOct c z) → Escape (a :: b :: r) [8 * x + y] r
  | octal3 {a b c x y z : Nat} {r : List Nat} : IsOct a x → IsOct b y → IsOct c z → Escape (a :: b :: c :: r) [64 * x + 8 * y + z] r
  /-- Exactly two, four or eight hexadecimal digits. -/
  | code {c : Char} {ds r : List Nat} {n : Nat} : (c, ds.length) ∈ [('x', 2), ('u', 4), ('U', 8)] → HexNumeral ds n → n < 0x110000 →
      Escape (c.toNat :: (ds ++ r)) [n] r
  /-- The name of a character, in braces. -/
  | named {name r : List Nat} {n : Nat} : '}'.toNat ∉ name → Unicode.named name = some n →
      Escape ('N'.toNat :: '{'.toNat :: (name ++ '}'.toNat :: r)) [n] r
  /-- Any other escape stands for itself. -/
  | other {b : Nat} {r : List Nat} : (∀ c ∈ "\n\\'\"abtnvfr01234567xuUN".toList, b ≠ c.toNat) → Escape (b :: r) ['\\'.toNat, b] r

/-- `Reads bs cs`: the bytes `bs` stand for the code points `cs`. -/
inductive Reads [Unicode] : List Nat → List Nat → Prop
  | nil : Reads [] []
  /-- Every other byte is taken for a code point. -/
  | plain {b : Nat} {bs cs : List Nat} : b ≠ '\\'.toNat → Reads bs cs → Reads (b :: bs) (b :: cs)
  | escape {bs cs r cs' : List Nat} : Escape bs cs r → Reads r cs' → Reads ('\\'.toNat :: bs) (cs ++ cs')

end Verif
