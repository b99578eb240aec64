import Verif.Lemmas.Strings
import Verif.Lemmas.Functor
import Verif.Spec.AsciiText

/-!
# C42: string literals round-trip; C54: sanitize_functor yields a valid functor
-/

namespace Verif

section
variable [Unicode]

/-! ## C42 -/

/-- `parse_string(asl_repr(s)) == s`. -/
theorem C42_round_trip {s : List Nat} (h : ∀ c ∈ s, c < 0x110000) : parseString (reprString s) = .ok s := by
  have ha : ∀ x ∈ s.flatMap enc, x.toNat < 128 := by
    intro x hx
    obtain ⟨c, hc, hx⟩ := List.mem_flatMap.1 hx
    exact enc_ascii (h c hc) x hx
  rw [reprString_eq, parseString]
  simp only [List.cons_append, List.head?_cons, List.drop_succ_cons, List.drop_zero, List.dropLast_concat]
  rw [if_pos ⟨trivial, by rw [← List.cons_append, List.getLast?_concat]⟩, utf8_ascii ha]
  refine unescape_encs h ?_
  have := encs_length h
  simp only [List.length_map]
  omega

/-- The printed form is the next token, whatever follows it. -/
theorem C42_next {s : List Nat} (h : ∀ c ∈ s, c < 0x110000) (r : List Char) (n col : Nat) :
    scan (n + 1) false col (reprString s ++ r) =
      (scan n false (col + (reprString s).length) r).map fun (evs, b) =>
        (.tok ⟨reprString s, .string, col, col + (reprString s).length⟩ :: evs, b) := by
  rw [reprString_eq]
  exact ((encs_body h).next r).scan n col

omit [Unicode] in
theorem reprString_tab {s : List Nat} (h : ∀ c ∈ s, c < 0x110000) : '\t' ∉ reprString s := by
  rw [reprString_eq]
  simp only [List.cons_append, List.mem_cons, List.mem_append, List.mem_flatMap, List.not_mem_nil, or_false, not_or, not_exists, not_and]
  exact ⟨by decide, fun c hc => enc_tab (h c hc), by decide⟩

/-- The printed form is a single string token. -/
theorem C42_token {s : List Nat} (h : ∀ c ∈ s, c < 0x110000) :
    scanLine false (reprString s) = some ([.tok ⟨reprString s, .string, 0, (reprString s).length⟩], false) := by
  rw [scanLine, expandTabs_id (reprString_tab h)]
  have := C42_next h [] (reprString s).length 0
  rw [List.append_nil] at this
  rw [this]
  cases hl : (reprString s).length with
  | zero => simp [reprString] at hl
  | succ n => simp [scan]

/-! ## C54 -/

/-- A letter, in either case. -/
def isLetter (c : Char) : Bool := isLow c || isUp c

omit [Unicode] in
theorem lower_low : ∀ n < 128, isLetter (Char.ofNat n) = true → isLow (Char.ofNat n).toLower = true := by decide

omit [Unicode] in
theorem alnum_word : ∀ n < 128, (Char.ofNat n).isAlphanum = true → isWord (Char.ofNat n) = true ∧ Char.ofNat n ≠ '_' := by decide

omit [Unicode] in
theorem letter_alnum : ∀ n < 128, isLetter (Char.ofNat n) = true → (Char.ofNat n).isAlphanum = true := by decide

omit [Unicode] in
theorem letter_ascii {c : Char} (h : isLetter c = true) : c.toNat < 128 := by
  simp only [isLetter, isLow, isUp, Bool.or_eq_true, decide_eq_true_eq, Char.le_def] at h
  rcases h with ⟨_, h⟩ | ⟨_, h⟩
  · have h : c.toNat ≤ 122 := h
    omega
  · have h : c.toNat ≤ 90 := h
    omega

theorem alnum_underscore : Unicode.alnum '_' = false := by rw [Unicode.alnum_ascii _ (by decide)]; decide

/-- Before the keyword check. -/
theorem sanitize_word {pre post : List Char} {c : Char} (hpre : ∀ x ∈ pre, Unicode.alnum x = false) (hc : isLetter c = true)
    (hpost : ∀ x ∈ post, Unicode.alnum x = true → x.toNat < 128) :
    ∃ w, LowWord w ∧ sanitizeFunctor (pre ++ c :: post) = if w ∈ keywords then w ++ ['_'] else w := by
  have hca := letter_ascii hc
  have hcn : Char.ofNat c.toNat = c := Char.ofNat_toNat c
  have hal : Unicode.alnum c = true := by
    rw [Unicode.alnum_ascii _ hca]
    have := letter_alnum c.toNat hca
    rw [hcn] at this
    exact this hc
  have hne : c ≠ '_' := by
    have := alnum_word c.toNat hca
    rw [hcn] at this
    exact (this (by rw [← Unicode.alnum_ascii _ hca]; exact hal)).2
  have hd : ((pre ++ c :: post).map fun c => if Unicode.alnum c then c else '_').dropWhile (· = '_') =
      c :: post.map fun c => if Unicode.alnum c then c else '_' := by
    rw [List.map_append, List.map_cons, List.dropWhile_append_of_pos, if_pos hal, List.dropWhile_cons_of_neg]
    · simpa using hne
    · intro x hx
      obtain ⟨y, hy, rfl⟩ := List.mem_map.1 hx
      simp [hpre y hy]
  refine ⟨c.toLower :: post.map fun c => if Unicode.alnum c then c else '_', ⟨_, _, rfl, ?_, ?_⟩, ?_⟩
  · have := lower_low c.toNat hca
    rw [hcn] at this
    exact this hc
  · intro x hx
    obtain ⟨y, hy, rfl⟩ := List.mem_map.1 hx
    split
    · rename_i hay
      have hya := hpost y hy hay
      have := alnum_word y.toNat hya
      rw [Char.ofNat_toNat] at this
      exact (this (by rw [← Unicode.alnum_ascii _ hya]; exact hay)).1
    · decide
  · rw [sanitizeFunctor]
    simp only [hd]
    simp [Unicode.lower_ascii _ hca]

omit [Unicode] in
theorem keyword_underscore : ∀ w ∈ keywords, w ++ ['_'] ∉ keywords := by decide

theorem sanitize_functor {pre post : List Char} {c : Char} (hpre : ∀ x ∈ pre, Unicode.alnum x = false) (hc : isLetter c = true)
    (hpost : ∀ x ∈ post, Unicode.alnum x = true → x.toNat < 128) :
    LowWord (sanitizeFunctor (pre ++ c :: post)) ∧ sanitizeFunctor (pre ++ c :: post) ∉ keywords := by
  obtain ⟨w, hw, he⟩ := sanitize_word hpre hc hpost
  rw [he]
  split
  · rename_i hk
    refine ⟨?_, keyword_underscore w hk⟩
    obtain ⟨d, v, rfl, hd, hv⟩ := hw
    refine ⟨d, v ++ ['_'], rfl, hd, fun x hx => ?_⟩
    simp only [List.mem_append, List.mem_singleton] at hx
    rcases hx with hx | rfl
    · exact hv x hx
    · decide
  · rename_i hk
    exact ⟨hw, hk⟩

/-- If the first alphanumeric character is an ASCII letter, and all others are ASCII, then
the result is no keyword, and it is one functor token, if no more letters, digits or dots
follow.  (Missing: other inputs, for which it is false.) -/
theorem C54_functor_partial {pre post : List Char} {c : Char} (hpre : ∀ x ∈ pre, Unicode.alnum x = false) (hc : isLetter c = true)
    (hpost : ∀ x ∈ post, Unicode.alnum x = true → x.toNat < 128) :
    sanitizeFunctor (pre ++ c :: post) ∉ keywords ∧
    ∀ r, (∀ x ∈ r.head?, isWord x = false) → (∀ x r', r = '.' :: x :: r' → isLow x = false) → ∀ n col,
      scan (n + 1) false col (sanitizeFunctor (pre ++ c :: post) ++ r) =
        (scan n false (col + (sanitizeFunctor (pre ++ c :: post)).length) r).map fun (evs, b) =>
          (.tok ⟨sanitizeFunctor (pre ++ c :: post), .functor, col, col + (sanitizeFunctor (pre ++ c :: post)).length⟩ :: evs, b) := by
  obtain ⟨hw, hk⟩ := sanitize_functor hpre hc hpost
  refine ⟨hk, fun r hr hr' n col => ?_⟩
  have := functor_next (neg := false) (b := false) (ws := []) hw (by simp) (fun _ => hk) ⟨hr, hr'⟩
  simp only [Bool.false_eq_true, if_false, List.nil_append, dotted, List.flatMap_nil, List.append_nil] at this
  exact this.scan n col

theorem C54_line_partial {pre post : List Char} {c : Char} (hpre : ∀ x ∈ pre, Unicode.alnum x = false) (hc : isLetter c = true)
    (hpost : ∀ x ∈ post, Unicode.alnum x = true → x.toNat < 128) :
    scanLine false (sanitizeFunctor (pre ++ c :: post)) =
      some ([.tok ⟨sanitizeFunctor (pre ++ c :: post), .functor, 0, (sanitizeFunctor (pre ++ c :: post)).length⟩], false) := by
  obtain ⟨hw, hk⟩ := sanitize_functor hpre hc hpost
  have := (C54_functor_partial hpre hc hpost).2 [] (by simp) (by simp) (sanitizeFunctor (pre ++ c :: post)).length 0
  rw [scanLine, expandTabs_id fun h => by have := hw.words _ h; revert this; decide]
  rw [List.append_nil] at this
  rw [this]
  obtain ⟨d, v, he, -⟩ := hw
  rw [he]
  simp [scan]

/-- A leading digit is kept, and then the result is no functor. -/
theorem C54_digit_fails : ∃ s, (∃ c ∈ s, Unicode.alnum c = true) ∧ ¬Kind.functor.re.Possible (sanitizeFunctor s) := by
  have h1 : Unicode.alnum '1' = true := by rw [Unicode.alnum_ascii _ (by decide)]; decide
  have h2 : Unicode.lower '1' = ['1'] := by rw [Unicode.lower_ascii _ (by decide)]; decide
  refine ⟨['1'], ⟨'1', by simp, h1⟩, ?_⟩
  have : sanitizeFunctor ['1'] = ['1'] := by
    rw [sanitizeFunctor]
    simp only [List.map_cons, List.map_nil, h1, if_true]
    have : ['1'].dropWhile (· = '_') = ['1'] := by decide
    rw [this]
    simp [h2]
    decide
  rw [this, ← Re.never_iff]
  exact Re.never_of_starts rfl rfl

/-- A letter that is not ASCII is kept, and then the result cannot be read at all (here with
a letter that has no lower case). -/
theorem C54_unicode_fails {c : Char} (h : Unicode.alnum c = true) (hc : 128 ≤ c.toNat) (hl : Unicode.lower c = [c]) :
    ¬Kind.functor.re.Possible (sanitizeFunctor [c]) := by
  have : sanitizeFunctor [c] = [c] := by
    have hne : c ≠ '_' := by rintro rfl; revert hc; decide
    rw [sanitizeFunctor]
    simp only [List.map_cons, List.map_nil, h, if_true]
    rw [List.dropWhile_cons_of_neg (by simpa using hne)]
    simp only [List.take_succ_cons, List.take_zero, List.flatMap_cons, List.flatMap_nil, hl]
    rw [if_neg]
    · rfl
    · intro hm
      have := Re.keywords_word _ hm c (by simp)
      simp only [isWord, isLow, isUp, Bool.or_eq_true, decide_eq_true_eq, Char.le_def] at this
      rcases this with ((⟨_, h⟩ | ⟨_, h⟩) | ⟨_, h⟩) | h
      · have h : c.toNat ≤ 122 := h
        omega
      · have h : c.toNat ≤ 90 := h
        omega
      · have h : c.toNat ≤ 57 := h
        omega
      · exact hne h
  rw [this, ← Re.never_iff]
  refine Re.never_of_starts rfl ?_
  have h1 : isLow c = false := by
    cases hlow : isLow c with
    | false => rfl
    | true => have := (low_ascii hlow).1; omega
  have h2 : c ≠ '~' := by rintro rfl; revert hc; decide
  have h3 : c ≠ '.' := by rintro rfl; revert hc; decide
  simp [Kind.re, Re.plus, Re.opt, Re.starts, Re.nullable, Re.chr, h1, h2, h3]

end

section examples
attribute [local instance] asciiText

/-- `say "hé\n"` with a quotation mark, a backslash, a line feed, a letter with an accent, an
emoji and a lone surrogate. -/
example : String.ofList (reprString [115, 34, 92, 10, 233, 0x1f600, 0xd800]) = "\"s\\\"\\\\\\n\\xe9\\U0001f600\\ud800\"" := by decide

example : parseString (reprString [115, 34, 92, 10, 233, 0x1f600, 0xd800]) = .ok [115, 34, 92, 10, 233, 0x1f600, 0xd800] :=
  C42_round_trip (by decide)

/-- The other direction: a letter that is not ASCII, written in the source, becomes two. -/
theorem C42_source_not_ascii : parseString ['"', 'é', '"'] = .ok [195, 169] := by decide

example : scanLine false (sanitizeFunctor "The Door!".toList) = some ([.tok ⟨"the_Door_".toList, .functor, 0, 9⟩], false) :=
  C54_line_partial (pre := []) (c := 'T') (post := "he Door!".toList) (by decide) (by decide) (by decide)

example : sanitizeFunctor "_not".toList = "not_".toList := by decide

example : scanLine false (sanitizeFunctor "1a".toList) =
    some ([.tok ⟨['1'], .numeric, 0, 1⟩, .tok ⟨['a'], .functor, 1, 2⟩], false) := by decide

end examples

end Verif
