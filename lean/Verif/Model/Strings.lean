import Verif.Model.Lexer
import Verif.Model.Basic

/-!
# Printing and reading strings (`agentspeak/__init__.py` 309-359)

A Python string is a list of code points, below `0x110000`; source text, and the result of
`asl_repr`, is a list of characters (that is, without lone surrogates).
-/

namespace Verif

/-- A hexadecimal digit (in lower case). -/
def hexDigit (n : Nat) : Char := Char.ofNat (if n < 10 then 48 + n else 87 + n)

/-- The last `w` hexadecimal digits. -/
def hex : Nat → Nat → List Char
  | 0, _ => []
  | w + 1, n => hex w (n / 16) ++ [hexDigit (n % 16)]

/-- The codec `unicode_escape`, for one code point (CPython,
`PyUnicode_AsUnicodeEscapeString`). -/
def escape (c : Nat) : List Char :=
  if 32 ≤ c ∧ c < 127 then if c = 92 then ['\\', '\\'] else [Char.ofNat c]
  else if c = 9 then ['\\', 't']
  else if c = 10 then ['\\', 'n']
  else if c = 13 then ['\\', 'r']
  else if c < 0x100 then '\\' :: 'x' :: hex 2 c
  else if c < 0x10000 then '\\' :: 'u' :: hex 4 c
  else '\\' :: 'U' :: hex 8 c

/-- `asl_repr` of a string, `agentspeak/__init__.py` 347-350:
`'"%s"' % term.encode("unicode_escape").decode("utf-8").replace('"', '\\"')`. -/
def reprString (s : List Nat) : List Char :=
  '"' :: (s.flatMap escape).flatMap (fun c => if c = '"' then ['\\', '"'] else [c]) ++ ['"']

/-- The value of a hexadecimal digit (a byte). -/
def hexValue (b : Nat) : Option Nat :=
  if 48 ≤ b ∧ b ≤ 57 then some (b - 48)
  else if 97 ≤ b ∧ b ≤ 102 then some (b - 87)
  else if 65 ≤ b ∧ b ≤ 70 then some (b - 55)
  else none

/-- Exactly `w` hexadecimal digits. -/
def readHex : Nat → Nat → List Nat → Option (Nat × List Nat)
  | 0, acc, bs => some (acc, bs)
  | _ + 1, _, [] => none
  | w + 1, acc, b :: bs =>
    match hexValue b with
    | some d => readHex w (16 * acc + d) bs
    | none => none

/-- At most `w` octal digits. -/
def readOctal : Nat → Nat → List Nat → Nat × List Nat
  | 0, acc, bs => (acc, bs)
  | _ + 1, acc, [] => (acc, [])
  | w + 1, acc, b :: bs => if 48 ≤ b ∧ b ≤ 55 then readOctal w (8 * acc + (b - 48)) bs else (acc, b :: bs)

section
variable [Unicode]

/-- What follows a backslash: the code points it stands for, and the rest (CPython,
`_PyUnicode_DecodeUnicodeEscapeInternal`).  `none` is a `UnicodeDecodeError`.  An unknown
escape stands for itself (with a warning, which is not modelled). -/
def unescapeOne : List Nat → Option (List Nat × List Nat)
  | [] => none
  | b :: bs =>
    let code := fun (w : Nat) =>
      match readHex w 0 bs with
      | some (n, r) => if n < 0x110000 then some ([n], r) else none
      | none => none
    if b = 10 then some ([], bs)
    else if b = 92 ∨ b = 39 ∨ b = 34 then some ([b], bs)
    else if b = 98 then some ([8], bs)
    else if b = 102 then some ([12], bs)
    else if b = 116 then some ([9], bs)
    else if b = 110 then some ([10], bs)
    else if b = 114 then some ([13], bs)
    else if b = 118 then some ([11], bs)
    else if b = 97 then some ([7], bs)
    else if 48 ≤ b ∧ b ≤ 55 then
      let (n, r) := readOctal 2 (b - 48) bs
      some ([n], r)
    else if b = 120 then code 2
    else if b = 117 then code 4
    else if b = 85 then code 8
    else if b = 78 then
      match bs with
      | 123 :: bs =>
        match bs.dropWhile (· ≠ 125) with
        | 125 :: r => (Unicode.named (bs.takeWhile (· ≠ 125))).map fun n => ([n], r)
        | _ => none
      | _ => none
    else some ([92, b], bs)

/-- The codec `unicode_escape`: bytes to code points, with fuel. -/
def unescape : Nat → List Nat → Ev (List Nat)
  | 0, _ => .oof
  | _ + 1, [] => .ok []
  | n + 1, b :: bs =>
    if b = 92 then
      match unescapeOne bs with
      | none => .err (.py "UnicodeDecodeError")
      | some (cs, r) => (unescape n r).map (cs ++ ·)
    else (unescape n bs).map (b :: ·)

/-- `s.encode("utf-8")`. -/
def utf8 (s : List Char) : List Nat := s.flatMap fun c => (String.utf8EncodeChar c).map UInt8.toNat

/-- `parse_string`, `agentspeak/__init__.py` 318-321. -/
def parseString (s : List Char) : Ev (List Nat) :=
  if s.head? = some '"' ∧ s.getLast? = some '"' then
    let bytes := utf8 ((s.drop 1).dropLast)
    unescape (bytes.length + 1) bytes
  else .err (.py "AssertionError")

/-- `sanitize_functor`, `agentspeak/__init__.py` 309-315.  The loop appends one underscore
and stops: no keyword ends with one. -/
def sanitizeFunctor (s : List Char) : List Char :=
  let alnum := (s.map fun c => if Unicode.alnum c then c else '_').dropWhile (· = '_')
  let functor := (alnum.take 1).flatMap Unicode.lower ++ alnum.drop 1
  if functor ∈ keywords then functor ++ ['_'] else functor

end

end Verif
