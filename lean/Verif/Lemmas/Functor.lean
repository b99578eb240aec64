import Verif.Lemmas.Exact
import Verif.Spec.Source

/-! Functor and variable tokens. -/

namespace Verif

/-- No part of a word, or of a dotted name, follows. -/
def Ends (r : List Char) : Prop := (∀ c ∈ r.head?, isWord c = false) ∧ ∀ c r', r = '.' :: c :: r' → isLow c = false

theorem isWord_of_isLow {c : Char} (h : isLow c = true) : isWord c = true := by simp [isWord, h]

theorem LowWord.words {w : List Char} (h : LowWord w) : ∀ x ∈ w, isWord x = true := by
  obtain ⟨c, v, rfl, hc, hv⟩ := h
  intro x hx
  simp only [List.mem_cons] at hx
  rcases hx with rfl | hx
  · exact isWord_of_isLow hc
  · exact hv x hx

namespace Re

/-- `(\.?[a-z][a-zA-Z0-9_]*)` -/
def segment : Re := seq (opt (chr '.')) (seq (cls isLow) (star (cls isWord)))

theorem low_not_dot : isLow '.' = false := by decide

theorem segment_word {w r : List Char} (hw : LowWord w) (hr : ∀ c ∈ r.head?, isWord c = false) :
    segment.First (w ++ r) r := by
  obtain ⟨c, v, rfl, hc, hv⟩ := hw
  refine .seq (s' := c :: v ++ r) (.alt_right (.cls ?_) .eps) (.seq (.cls hc) (.star_cls hv hr))
  simp only [decide_eq_false_iff_not]
  rintro rfl
  rw [low_not_dot] at hc
  cases hc

theorem segment_dot {w r : List Char} (hw : LowWord w) (hr : ∀ c ∈ r.head?, isWord c = false) :
    segment.First ('.' :: (w ++ r)) r := by
  obtain ⟨c, v, rfl, hc, hv⟩ := hw
  exact .seq (.alt_left (.cls (by decide))) (.seq (.cls hc) (.star_cls hv hr))

theorem segment_never {r : List Char} (hr : Ends r) : segment.Never r := by
  rw [never_iff]
  rintro ⟨u, s, rfl, v, w, rfl, hv, ⟨x, y, rfl, ⟨c, rfl, hc⟩, -⟩⟩
  rcases hv with ⟨d, rfl, hd⟩ | rfl
  · simp at hd
    subst hd
    have := hr.2 c (y ++ s) rfl
    rw [hc] at this; cases this
  · have := hr.1 c (by simp)
    rw [isWord_of_isLow hc] at this; cases this

theorem dots_head {ws : List (List Char)} {r : List Char} (hr : Ends r) :
    ∀ c ∈ (ws.flatMap ('.' :: ·) ++ r).head?, isWord c = false := by
  cases ws with
  | nil => simpa using hr.1
  | cons w ws =>
    simp only [List.flatMap_cons, List.cons_append, List.head?_cons, Option.mem_def, Option.some.injEq]
    rintro c rfl
    decide

theorem segments_loop {r : List Char} (hr : Ends r) : ∀ {ws : List (List Char)}, (∀ w ∈ ws, LowWord w) →
    segment.LoopFirst (ws.flatMap ('.' :: ·) ++ r) r
  | [], _ => .stop (segment_never hr)
  | w :: ws, h => by
    simp only [List.flatMap_cons, List.cons_append, List.append_assoc]
    refine .more (segment_dot (h w (by simp)) (dots_head hr)) ?_ (segments_loop hr fun w hw => h w (by simp [hw]))
    simp
    omega

theorem dotted_first {b : Bool} {w r : List Char} {ws : List (List Char)} (hw : LowWord w) (hws : ∀ w ∈ ws, LowWord w)
    (hr : Ends r) : (plus segment).First (dotted b w ws ++ r) r := by
  refine .seq (s' := ws.flatMap ('.' :: ·) ++ r) ?_ (.star (segments_loop hr hws))
  cases b with
  | true =>
    have := segment_dot (r := ws.flatMap ('.' :: ·) ++ r) hw (dots_head hr)
    simpa [dotted] using this
  | false =>
    have := segment_word (r := ws.flatMap ('.' :: ·) ++ r) hw (dots_head hr)
    simpa [dotted] using this

theorem keywords_word : ∀ t ∈ keywords, ∀ c ∈ t, isWord c = true := by decide

theorem keywords_low : ∀ t ∈ keywords, ∃ c ∈ t.head?, isLow c = true := by decide

/-- A keyword that is not followed by more letters. -/
def keyword : Re := seq (oneOf keywords) (alt eos (cls fun c => !isWord c))

theorem keyword_possible {s : List Char} (h : keyword.Possible s) :
    ∃ t ∈ keywords, ∃ r, s = t ++ r ∧ ∀ c ∈ r.head?, isWord c = false := by
  obtain ⟨u, r, rfl, t, e, rfl, ht, he⟩ := h
  refine ⟨t, accepts_oneOf.1 ht, e ++ r, by simp, ?_⟩
  rcases he with ⟨rfl, rfl | rfl⟩ | ⟨c, rfl, hc⟩
  · simp
  · simp only [List.nil_append, List.head?_cons, Option.mem_def, Option.some.injEq]
    rintro c rfl
    decide
  · simpa using hc

theorem split_words {u u' r r' : List Char} (h : u ++ r = u' ++ r') (hu : ∀ c ∈ u, isWord c = true) (hu' : ∀ c ∈ u', isWord c = true)
    (hr : ∀ c ∈ r.head?, isWord c = false) (hr' : ∀ c ∈ r'.head?, isWord c = false) : u = u' ∧ r = r' := by
  induction u generalizing u' with
  | nil =>
    cases u' with
    | nil => exact ⟨rfl, h⟩
    | cons c u' =>
      simp only [List.nil_append] at h
      subst h
      have := hr c rfl
      rw [hu' c (by simp)] at this; cases this
  | cons c u ih =>
    cases u' with
    | nil =>
      simp only [List.nil_append] at h
      subst h
      have := hr' c rfl
      rw [hu c (by simp)] at this; cases this
    | cons d u' =>
      simp only [List.cons_append, List.cons.injEq] at h
      obtain ⟨rfl, h⟩ := h
      obtain ⟨rfl, rfl⟩ := ih h (fun c hc => hu c (by simp [hc])) (fun c hc => hu' c (by simp [hc]))
      exact ⟨rfl, rfl⟩

/-- The name does not begin with a keyword. -/
theorem dotted_keyword {b : Bool} {w r : List Char} {ws : List (List Char)} (hw : LowWord w) (hk : b = false → w ∉ keywords)
    (hr : Ends r) : keyword.Never (dotted b w ws ++ r) := by
  rw [never_iff]
  intro h
  obtain ⟨t, ht, r', hs, hr'⟩ := keyword_possible h
  cases b with
  | true =>
    obtain ⟨c, hc, hl⟩ := keywords_low t ht
    cases t with
    | nil => cases hc
    | cons d t =>
      simp only [dotted, if_true, List.append_assoc, List.cons_append, List.cons.injEq] at hs
      simp only [List.head?_cons, Option.mem_def, Option.some.injEq] at hc
      rw [← hc, ← hs.1, low_not_dot] at hl
      cases hl
  | false =>
    simp only [dotted, Bool.false_eq_true, if_false, List.nil_append, List.append_assoc] at hs
    obtain ⟨rfl, -⟩ := split_words hs hw.words (keywords_word t ht) (dots_head hr) hr'
    exact hk rfl ht

end Re

section
variable [Unicode]

omit [Unicode] in
theorem low_ascii {c : Char} (h : isLow c = true) : c.toNat < 128 ∧ c ≠ '/' ∧ c ≠ '#' ∧ c ≠ '~' ∧ c ≠ '(' ∧ c ≠ ')' ∧ c ≠ '[' ∧ c ≠ ']' ∧
    c ≠ '{' ∧ c ≠ '}' ∧ 97 ≤ c.toNat := by
  simp only [isLow, decide_eq_true_eq, Char.le_def] at h
  obtain ⟨h1, h2⟩ := h
  have h1 : 97 ≤ c.toNat := h1
  have h2 : c.toNat ≤ 122 := h2
  refine ⟨by omega, ?_, ?_, ?_, ?_, ?_, ?_, ?_, ?_, ?_, h1⟩ <;> (rintro rfl; revert h1 h2; decide)

/-- The kinds before `functor` do not begin with the character. -/
theorem before_functor {c : Char} (h : isLow c = true ∨ c = '.' ∨ c = '~') {s : List Char} :
    ∀ k ∈ Kind.all.takeWhile (· ≠ Kind.functor), k.re.Never (c :: s) := by
  intro k hk
  refine Re.never_of_starts k.not_nullable ?_
  have : k ∈ [Kind.space, .comment, .parenOpen, .parenClose, .bracketOpen, .bracketClose, .braceOpen, .braceClose] := by
    have : Kind.all.takeWhile (· ≠ Kind.functor) = [Kind.space, .comment, .parenOpen, .parenClose, .bracketOpen, .bracketClose,
      .braceOpen, .braceClose] := by decide
    rw [← this]; exact hk
  have hc : c.toNat < 128 ∧ c ≠ '/' ∧ c ≠ '#' ∧ c ≠ '(' ∧ c ≠ ')' ∧ c ≠ '[' ∧ c ≠ ']' ∧ c ≠ '{' ∧ c ≠ '}' ∧ 46 ≤ c.toNat := by
    rcases h with h | rfl | rfl
    · obtain ⟨h1, h2, h3, h4, h5⟩ := low_ascii h
      refine ⟨h1, h2, h3, ?_⟩
      simp only [h5, ne_eq]
      simp
      omega
    · decide
    · decide
  obtain ⟨h1, h2, h3, h4, h5, h6, h7, h8, h9, h10⟩ := hc
  have hs : Unicode.space c = false := by
    rw [Unicode.space_ascii _ h1]
    simp
    omega
  simp only [List.mem_cons, List.not_mem_nil, or_false] at this
  rcases this with rfl | rfl | rfl | rfl | rfl | rfl | rfl | rfl <;>
    simp [Kind.re, Kind.fixed, Re.plus, Re.starts, Re.nullable, Re.chr, Re.text, *]

omit [Unicode] in
theorem dotted_head {b : Bool} {w : List Char} (ws : List (List Char)) (r : List Char) (hw : LowWord w) :
    ∃ c s, dotted b w ws ++ r = c :: s ∧ (isLow c = true ∨ c = '.') := by
  obtain ⟨c, v, rfl, hc, hv⟩ := hw
  cases b with
  | true => exact ⟨'.', _, rfl, .inr rfl⟩
  | false => exact ⟨c, _, rfl, .inl hc⟩

/-- Where the expression for functors stops. -/
theorem functor_first {neg b : Bool} {w r : List Char} {ws : List (List Char)} (hw : LowWord w) (hws : ∀ w ∈ ws, LowWord w)
    (hk : b = false → w ∉ keywords) (hr : Ends r) :
    Kind.functor.re.First ((if neg then ['~'] else []) ++ dotted b w ws ++ r) r := by
  refine .seq (s' := dotted b w ws ++ r) ?_ (.seq (.neg (Re.dotted_keyword hw hk hr)) (Re.dotted_first hw hws hr))
  cases neg with
  | true => exact .alt_left (.cls (by decide))
  | false =>
    obtain ⟨c, s, he, hc⟩ := dotted_head (b := b) ws r hw
    simp only [Bool.false_eq_true, if_false, List.nil_append]
    rw [he]
    refine .alt_right (.cls ?_) .eps
    rcases hc with hc | rfl
    · simp [(low_ascii hc).2.2.2.1]
    · decide

/-- A functor, with whatever may follow it. -/
theorem functor_next {neg b : Bool} {w r : List Char} {ws : List (List Char)} (hw : LowWord w) (hws : ∀ w ∈ ws, LowWord w)
    (hk : b = false → w ∉ keywords) (hr : Ends r) :
    NextTok .functor ((if neg then ['~'] else []) ++ dotted b w ws) r := by
  have hd := dotted_head (b := b) ws r hw
  have hf := functor_first (neg := neg) hw hws hk hr
  obtain ⟨c, s, he, hc⟩ : ∃ c s, (if neg then ['~'] else []) ++ dotted b w ws ++ r = c :: s ∧ (isLow c = true ∨ c = '.' ∨ c = '~') := by
    obtain ⟨c, s, he, hc⟩ := hd
    cases neg with
    | true => exact ⟨'~', _, rfl, by simp⟩
    | false => exact ⟨c, s, he, by rcases hc with h | h <;> simp [h]⟩
  refine ⟨by decide, ?_, ?_, ?_⟩
  · rw [he] at hf ⊢
    exact firstKind_of hf (Kind.mem_all _) (before_functor hc)
  · rw [he]
    refine Re.Never.rest (.text_head ?_)
    rintro rfl
    revert hc; decide
  · obtain ⟨c, v, rfl, -⟩ := hw
    simp [dotted]

end

end Verif
