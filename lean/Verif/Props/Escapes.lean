import Verif.Lemmas.Escapes
import Verif.Spec.AsciiText

/-!
# C90: the escapes in string literals mean what Python's codec `unicode_escape` says
-/

namespace Verif

section
variable [Unicode]

/-- `parse_string('"' + s + '"')` is the meaning of `s`: the bytes of `s` are read from left to right, each byte or escape for
itself.  In particular, the meaning is unique. -/
theorem C90_reads {s : List Char} {cs : List Nat} : parseString ('"' :: s ++ ['"']) = .ok cs ↔ Reads (utf8 s) cs := by
  have h : parseString ('"' :: s ++ ['"']) = unescape ((utf8 s).length + 1) (utf8 s) := by
    rw [parseString, if_pos ⟨rfl, by rw [List.getLast?_concat]⟩]
    simp only [List.cons_append, List.drop_succ_cons, List.drop_zero, List.dropLast_concat]
  rw [h]
  exact ⟨unescape_sound _, fun h => unescape_complete h _ (Nat.lt_succ_self _)⟩

/-- A text without meaning raises `UnicodeDecodeError`, and nothing else happens. -/
theorem C90_error {s : List Char} :
    parseString ('"' :: s ++ ['"']) = .err (.py "UnicodeDecodeError") ↔ ¬∃ cs, Reads (utf8 s) cs := by
  have h : parseString ('"' :: s ++ ['"']) = unescape ((utf8 s).length + 1) (utf8 s) := by
    rw [parseString, if_pos ⟨rfl, by rw [List.getLast?_concat]⟩]
    simp only [List.cons_append, List.drop_succ_cons, List.drop_zero, List.dropLast_concat]
  rw [h]
  constructor
  · rintro h ⟨cs, hc⟩
    rw [unescape_complete hc _ (Nat.lt_succ_self _)] at h
    cases h
  · intro hn
    rcases unescape_total _ (Nat.lt_succ_self (utf8 s).length) with ⟨cs, e⟩ | e
    · exact absurd ⟨cs, unescape_sound _ e⟩ hn
    · exact e

/-- Texts without quotes around them are refused. -/
theorem C90_quotes {s : List Char} (h : s.head? ≠ some '"' ∨ s.getLast? ≠ some '"') :
    parseString s = .err (.py "AssertionError") := by
  rw [parseString, if_neg]
  rintro ⟨h1, h2⟩
  rcases h with h | h
  · exact h h1
  · exact h h2

/-- Literals can be joined, unless an escape goes on. -/
theorem Reads.append {xs ys cs ds : List Nat} (h : Reads xs cs) (hy : Reads ys ds) (ho : ∀ b ∈ ys.head?, ∀ y, ¬IsOct b y) :
    Reads (xs ++ ys) (cs ++ ds) := by
  induction h with
  | nil => exact hy
  | plain hb _ ih => exact .plain hb ih
  | @escape bs cs r cs' he _ ih =>
    rw [List.append_assoc]
    have key : (∀ b ∈ r.head?, ∀ y, ¬IsOct b y) → ∀ b ∈ (r ++ ys).head?, ∀ y, ¬IsOct b y := by
      intro h b hb
      cases r with
      | nil => exact ho b hb
      | cons x r => exact h b hb
    refine Reads.escape (bs := bs ++ ys) (r := r ++ ys) ?_ ih
    cases he with
    | newline => exact .newline
    | short h => exact .short h
    | octal1 ha h => exact .octal1 ha (key h)
    | octal2 ha hb h => exact .octal2 ha hb (key h)
    | octal3 ha hb hc => exact .octal3 ha hb hc
    | code hc hn hl => rw [List.cons_append, List.append_assoc]; exact .code hc hn hl
    | named hm hn => rw [List.cons_append, List.cons_append, List.append_assoc]; exact .named hm hn
    | other h => exact .other h

theorem C90_append {s t : List Char} {cs ds : List Nat} (hs : parseString ('"' :: s ++ ['"']) = .ok cs)
    (ht : parseString ('"' :: t ++ ['"']) = .ok ds) (ho : ∀ c ∈ t.head?, ¬('0' ≤ c ∧ c ≤ '7')) :
    parseString ('"' :: (s ++ t) ++ ['"']) = .ok (cs ++ ds) := by
  rw [C90_reads] at hs ht ⊢
  have e : utf8 (s ++ t) = utf8 s ++ utf8 t := by simp [utf8, List.flatMap_append]
  rw [e]
  refine hs.append ht fun b hb y hy => ?_
  obtain ⟨h1, h2, -⟩ := isOct_iff.1 hy
  cases t with
  | nil => simp [utf8] at hb
  | cons c t =>
    have hb : b ∈ (utf8 (c :: t)).head? := hb
    rw [utf8, List.flatMap_cons, String.utf8EncodeChar.eq_def] at hb
    simp only at hb
    have hc := ho c (by simp)
    split at hb
    · rename_i hlt
      simp only [List.map_cons, List.map_nil, List.cons_append, List.head?_cons, Option.mem_def, Option.some.injEq] at hb
      have e : (UInt8.ofNat c.val.toNat).toNat = c.val.toNat := by
        rw [UInt8.toNat_ofNat']
        exact Nat.mod_eq_of_lt (by omega)
      rw [e] at hb
      apply hc
      rw [Char.le_def, Char.le_def, UInt32.le_iff_toNat_le, UInt32.le_iff_toNat_le]
      exact ⟨by rw [hb]; exact h1, by rw [hb]; exact h2⟩
    · exfalso
      repeat' split at hb
      all_goals
        simp only [List.map_cons, List.cons_append, List.head?_cons, Option.mem_def, Option.some.injEq, UInt8.toNat_ofNat'] at hb
        omega

end

section examples
attribute [local instance] asciiText

/-- A literal with escapes of every kind, and its meaning. -/
example : parseString ("\"a\\x4A\\u00e9\\1018\\n\\q\"".toList) = .ok [97, 0x4a, 0xe9, 65, 56, 10, 92, 113] := by decide +kernel

example : Reads (utf8 "a\\x4A\\u00e9\\1018\\n\\q".toList) [97, 0x4a, 0xe9, 65, 56, 10, 92, 113] :=
  C90_reads.1 (by decide +kernel)

/-- Too few digits. -/
example : ¬∃ cs, Reads (utf8 "\\x4".toList) cs := C90_error.1 (by decide +kernel)

/-- Two literals that can be joined. -/
example : parseString ('"' :: ("\\1".toList ++ "8".toList) ++ ['"']) = .ok ([1] ++ [56]) :=
  C90_append (by decide +kernel) (by decide +kernel) (by decide)

/-- Two literals that cannot: the number goes on. -/
example : parseString ('"' :: ("\\1".toList ++ "1".toList) ++ ['"']) = .ok [9] := by decide +kernel

example : parseString "'a'".toList = .err (.py "AssertionError") := C90_quotes (by decide)

end examples

end Verif
