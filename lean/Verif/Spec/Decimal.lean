import Verif.Model.Parser

/-!
Decimal numbers for running the model: `float` without rounding, and texts with up to fifteen
digits after the point.  Only the numbers for which `Floats` is satisfied are read.
-/

namespace Verif.Decimal

/-- The number with these digits. -/
def digits (n : Nat) : List Char → Nat
  | [] => n
  | c :: u => digits (10 * n + (c.toNat - 48)) u

/-- The digits of a number; `k` is more than their number. -/
def decimal : Nat → Nat → List Char
  | 0, _ => []
  | k + 1, n => if n < 10 then [Char.ofNat (48 + n)] else decimal k (n / 10) ++ [Char.ofNat (48 + n % 10)]

/-- The digits after the point of `r / d`. -/
def fraction (d : Nat) : Nat → Nat → List Char
  | 0, _ => []
  | k + 1, r => if r = 0 then [] else Char.ofNat (48 + r * 10 / d) :: fraction d k (r * 10 % d)

/-- The text of a number that is not negative. -/
def text (q : Rat) : List Char :=
  let a := q.num.natAbs
  let int := decimal (a / q.den + 1) (a / q.den)
  if q.den = 1 then int else int ++ '.' :: fraction q.den 15 (a % q.den)

def print (q : Rat) : List Char := if q < 0 then '-' :: text (-q) else text q

/-- A number without exponent, and with it. -/
def plain (u : List Char) : Rat :=
  let int := u.takeWhile Char.isDigit
  let frac := (u.dropWhile Char.isDigit).drop 1
  (digits 0 (int ++ frac) : Rat) / ((10 ^ frac.length : Nat) : Rat)

def value (u : List Char) : Rat :=
  let q := plain (u.takeWhile fun c => c.toLower ≠ 'e')
  match (u.dropWhile fun c => c.toLower ≠ 'e').drop 1 with
  | '-' :: e => q / ((10 ^ digits 0 e : Nat) : Rat)
  | '+' :: e => q * ((10 ^ digits 0 e : Nat) : Rat)
  | e => q * ((10 ^ digits 0 e : Nat) : Rat)

/-- Does the text consist of digits, perhaps with a fraction? -/
def isText (u : List Char) : Bool :=
  let int := u.takeWhile Char.isDigit
  let rest := u.dropWhile Char.isDigit
  !int.isEmpty && match rest with
    | [] => true
    | c :: ds => c = '.' && !ds.isEmpty && ds.all Char.isDigit

theorem isText_spec {u : List Char} (h : isText u = true) : NumText u := by
  have hu : u = u.takeWhile Char.isDigit ++ u.dropWhile Char.isDigit := List.takeWhile_append_dropWhile.symm
  have hd : ∀ c ∈ u.takeWhile Char.isDigit, c.isDigit = true := List.all_eq_true.1 List.all_takeWhile
  simp only [isText, Bool.and_eq_true] at h
  obtain ⟨h1, h2⟩ := h
  have h1 : u.takeWhile Char.isDigit ≠ [] := by intro h; rw [h] at h1; simp at h1
  cases hr : u.dropWhile Char.isDigit with
  | nil => exact ⟨_, [], [], by rw [hr] at hu; simpa using hu, ⟨h1, hd⟩, .inl rfl, .inl rfl⟩
  | cons c ds =>
    rw [hr] at h2
    simp only [Bool.and_eq_true, decide_eq_true_eq, List.all_eq_true] at h2
    obtain ⟨⟨rfl, h2⟩, h3⟩ := h2
    refine ⟨_, '.' :: ds, [], by rw [hr] at hu; simpa using hu, ⟨h1, hd⟩, .inr ⟨ds, rfl, ?_, h3⟩, .inl rfl⟩
    rintro rfl; simp at h2

/-- Is the number read back from its text? -/
def good (q : Rat) : Bool := decide (0 ≤ q) && isText (text q) && decide (value (text q) = q)

def read (u : List Char) : FloatV := if good (value u) then .fin (value u) else .inf

theorem read_good {u q} (h : read u = .fin q) : good q = true := by
  unfold read at h
  split at h
  · cases h; assumption
  · cases h

theorem good_spec {q} (h : good q = true) : 0 ≤ q ∧ NumText (text q) ∧ value (text q) = q := by
  simp only [good, Bool.and_eq_true, decide_eq_true_eq] at h
  exact ⟨h.1.1, isText_spec h.1.2, h.2⟩

theorem print_nonneg {q : Rat} (h : 0 ≤ q) : print q = text q := if_neg (Rat.not_lt.2 h)

@[reducible] def floats : Floats where
  read := read
  print := print
  print_text h := by
    obtain ⟨h1, h2, -⟩ := good_spec (read_good h)
    rw [print_nonneg h1]; exact h2
  read_print h := by
    have h0 := read_good h
    obtain ⟨h1, -, h3⟩ := good_spec h0
    rw [print_nonneg h1, read, h3, if_pos h0]
  read_nonneg h := (good_spec (read_good h)).1
  print_neg {u q} h hq := by
    rw [print_nonneg (Rat.le_of_lt hq), print, if_pos (by grind), Rat.neg_neg]

example : read "12.50".toList = .fin (25 / 2) := by with_unfolding_all rfl
example : read "5.9721986e24".toList = .fin 5972198600000000000000000 := by with_unfolding_all rfl
example : print (-3 / 8) = "-0.375".toList := by with_unfolding_all rfl

end Verif.Decimal
