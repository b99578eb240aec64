import Verif.Lemmas.Functor
import Verif.Spec.Grammar

/-! The tokens of the lexer: which texts they have. -/

namespace Verif

/-- Everything begins with words after dots (perhaps none). -/
theorem split_dots : ∀ (n : Nat) (s : List Char), s.length ≤ n → (∀ c ∈ s.head?, isWord c = false) →
    ∃ (ws : List (List Char)) (r : List Char), s = ws.flatMap ('.' :: ·) ++ r ∧ (∀ w ∈ ws, LowWord w) ∧ Ends r
  | n, [], _, h => ⟨[], [], rfl, by simp, h, by simp⟩
  | n, [c], _, h => ⟨[], [c], rfl, by simp, h, by simp⟩
  | n, d :: c :: s, hn, h => by
    by_cases hd : d = '.' ∧ isLow c = true
    · obtain ⟨rfl, hc⟩ := hd
      cases n with
      | zero => simp at hn
      | succ n =>
        have hl : (s.dropWhile isWord).length ≤ s.length := by
          have := congrArg List.length (List.takeWhile_append_dropWhile (p := isWord) (l := s))
          rw [List.length_append] at this
          omega
        obtain ⟨ws, r, e, hws, hr⟩ := split_dots n (s.dropWhile isWord) (by simp at hn; omega) (by
          intro x hx
          have := List.head?_dropWhile_not isWord s
          cases hh : (s.dropWhile isWord).head? with
          | none => rw [hh] at hx; cases hx
          | some y => rw [hh] at hx this; cases hx; simpa using this)
        refine ⟨(c :: s.takeWhile isWord) :: ws, r, ?_, ?_, hr⟩
        · simp only [List.flatMap_cons, List.cons_append, List.append_assoc, ← e, List.takeWhile_append_dropWhile]
        · intro w hw
          simp only [List.mem_cons] at hw
          rcases hw with rfl | hw
          · exact ⟨c, _, rfl, hc, fun x hx => List.all_eq_true.1 (List.all_takeWhile (l := s)) x hx⟩
          · exact hws w hw
    · refine ⟨[], d :: c :: s, rfl, by simp, h, ?_⟩
      rintro c' r' e
      cases e
      simpa using hd

/-- Everything that begins with a letter (or a dot and a letter) is a dotted name and a rest. -/
theorem split_dotted {b : Bool} {c : Char} {s : List Char} (hc : isLow c = true) :
    ∃ w ws r, (if b then ['.'] else []) ++ c :: s = dotted b w ws ++ r ∧ LowWord w ∧ (∀ w ∈ ws, LowWord w) ∧ Ends r := by
  obtain ⟨ws, r, e, hws, hr⟩ := split_dots _ (s.dropWhile isWord) (Nat.le_refl _) (by
    intro x hx
    have := List.head?_dropWhile_not isWord s
    cases hh : (s.dropWhile isWord).head? with
    | none => rw [hh] at hx; cases hx
    | some y => rw [hh] at hx this; cases hx; simpa using this)
  refine ⟨c :: s.takeWhile isWord, ws, r, ?_, ⟨c, _, rfl, hc, fun x hx => List.all_eq_true.1 (List.all_takeWhile (l := s)) x hx⟩, hws, hr⟩
  simp only [dotted, List.append_assoc, ← e, List.cons_append, List.takeWhile_append_dropWhile]

theorem keyword_of {w r : List Char} (hw : w ∈ keywords) (hr : ∀ c ∈ r.head?, isWord c = false) : Re.keyword.Possible (w ++ r) := by
  cases r with
  | nil => exact ⟨w, [], by simp, w, [], by simp, Re.accepts_oneOf.2 hw, .inl ⟨rfl, .inl rfl⟩⟩
  | cons c r => exact ⟨w ++ [c], r, by simp, w, [c], rfl, Re.accepts_oneOf.2 hw, .inr ⟨c, rfl, by simpa using hr c rfl⟩⟩

section
variable [Unicode]

/-- Where a functor ends. -/
theorem functor_rest {s r : List Char} (h : Kind.functor.re.rest s = some r) : ∃ u, s = u ++ r ∧ FunctorText u ∧ Ends r := by
  obtain ⟨u, rfl, v, v', rfl, hn, x, y, rfl, hk, z, z', rfl, ⟨d, d', rfl, hd, e, e', rfl, ⟨c, rfl, hc⟩, -⟩, -⟩ := Re.rest_some h
  obtain ⟨rfl, hk⟩ := hk
  have hn' : ∃ neg : Bool, v = if neg then ['~'] else [] := by
    rcases hn with ⟨c, rfl, hc⟩ | rfl
    · simp at hc; subst hc; exact ⟨true, rfl⟩
    · exact ⟨false, rfl⟩
  have hd' : ∃ b : Bool, d = if b then ['.'] else [] := by
    rcases hd with ⟨c, rfl, hc⟩ | rfl
    · simp at hc; subst hc; exact ⟨true, rfl⟩
    · exact ⟨false, rfl⟩
  obtain ⟨neg, rfl⟩ := hn'
  obtain ⟨b, rfl⟩ := hd'
  obtain ⟨w, ws, r', e1, hw, hws, hr'⟩ := split_dotted (b := b) (s := e' ++ z' ++ r) hc
  have hne : b = false → w ∉ keywords := by
    rintro rfl hwk
    have hp := keyword_of (r := ws.flatMap ('.' :: ·) ++ r') hwk (Re.dots_head hr')
    obtain ⟨k, kr, ek, hka⟩ := hp
    refine hk k kr ?_ hka
    rw [← ek]
    simp only [dotted, Bool.false_eq_true, if_false, List.nil_append, List.append_assoc, List.cons_append] at e1 ⊢
    exact e1
  have hs : (if neg then ['~'] else []) ++ ([] ++ ((if b then ['.'] else []) ++ ([c] ++ e') ++ z')) ++ r =
      ((if neg then ['~'] else []) ++ dotted b w ws) ++ r' := by
    rw [List.append_assoc (if neg = true then ['~'] else []) (dotted b w ws), ← e1]
    simp
  rw [hs] at h
  have := (functor_first (neg := neg) hw hws hne hr').rest
  rw [this] at h
  cases h
  exact ⟨_, hs, ⟨neg, b, w, ws, rfl, hw, hws, hne⟩, hr'⟩

theorem var_text {u r : List Char} (h : Kind.var.re.Accepts u r) : VarText u := by
  rcases h with ⟨v, w, rfl, hv, ⟨x, y, rfl, ⟨c, rfl, hc⟩, hy⟩⟩ | h
  · refine .inl ⟨v, c, y, by simp, ?_, hc, Re.iter_cls hy⟩
    intro x hx
    simpa using Re.iter_cls hv x hx
  · refine .inr ⟨?_, fun x hx => by simpa using Re.accepts_plus_cls h x hx⟩
    rintro rfl
    obtain ⟨v, w, e, ⟨c, rfl, -⟩, -⟩ := h
    cases e

/-- What the lexer guarantees about its tokens. -/
structure Tok.Good (t : Tok) : Prop where
  proper : t.Proper
  functor : t.kind = .functor → FunctorText t.lexeme
  var : t.kind = .var → VarText t.lexeme
  string : t.kind = .string → t.lexeme.head? = some '"' ∧ t.lexeme.getLast? = some '"'

omit [Unicode] in
/-- The words among the fixed tokens are the keywords. -/
theorem fixed_low : ∀ {k : Kind} {c : Char} {t : List Char}, k.fixed = some (c :: t) → isLow c = true → (c :: t) ∈ keywords := by
  intro k c t h hc
  cases k <;> simp [Kind.fixed] at h <;> obtain ⟨rfl, rfl⟩ := h <;> revert hc <;> decide

omit [Unicode] in
theorem fixed_head : ∀ {k : Kind} {c : Char} {t : List Char}, k.fixed = some (c :: t) →
    c.toNat < 128 ∧ isUp c = false ∧ c ≠ '_' ∧ c ≠ '~' ∧ c ≠ '"' ∧ c.isDigit = false ∧ (c = '.' → t = []) := by
  intro k c t h
  cases k <;> simp [Kind.fixed] at h <;> obtain ⟨rfl, rfl⟩ := h <;> decide

omit [Unicode] in
theorem fixed_inj {k k' : Kind} {w : List Char} (h : k.fixed = some w) (h' : k'.fixed = some w) : k = k' := by
  cases k <;> simp [Kind.fixed] at h <;> subst h <;> cases k' <;> first | rfl | (revert h'; decide)

omit [Unicode] in
theorem keywords_dotless : ∀ t ∈ keywords, '.' ∉ t := by decide

omit [Unicode] in
theorem functor_not_fixed {u : List Char} (h : FunctorText u) {k : Kind} : k.fixed ≠ some u := by
  intro hf
  obtain ⟨neg, b, w, ws, rfl, hw, hws, hk⟩ := h
  cases neg with
  | true => exact (fixed_head hf).2.2.2.1 rfl
  | false =>
    simp only [Bool.false_eq_true, if_false, List.nil_append] at hf
    obtain ⟨c, v, rfl, hc, hv⟩ := hw
    cases b with
    | true => have := (fixed_head hf).2.2.2.2.2.2 rfl; simp at this
    | false =>
      have hmem := fixed_low hf hc
      cases ws with
      | nil => simp at hmem; exact hk rfl hmem
      | cons w' ws => exact keywords_dotless _ hmem (by simp)

omit [Unicode] in
theorem var_not_fixed {u : List Char} (h : VarText u) {k : Kind} : k.fixed ≠ some u := by
  intro hf
  have : ∃ c t, u = c :: t ∧ (c = '_' ∨ isUp c = true) := by
    rcases h with ⟨v, c, w, rfl, hv, hc, -⟩ | ⟨hne, hall⟩
    · cases v with
      | nil => exact ⟨c, w, rfl, .inr hc⟩
      | cons d v => exact ⟨d, _, rfl, .inl (hv d (by simp))⟩
    · cases u with
      | nil => exact absurd rfl hne
      | cons d v => exact ⟨d, _, rfl, .inl (hall d (by simp))⟩
  obtain ⟨c, t, rfl, hc⟩ := this
  obtain ⟨-, h1, h2, -⟩ := fixed_head hf
  rcases hc with rfl | hc
  · exact h2 rfl
  · rw [h1] at hc; cases hc

theorem numeric_not_fixed {u r : List Char} (h : Kind.numeric.re.Accepts u r) {k : Kind} : k.fixed ≠ some u := by
  intro hf
  have digit : ∀ {c : Char} {t : List Char}, k.fixed = some (c :: t) → Unicode.digit c = true → False := by
    intro c t hf hc
    obtain ⟨h1, -, -, -, -, h2, -⟩ := fixed_head hf
    rw [Unicode.digit_ascii _ h1, h2] at hc
    cases hc
  obtain ⟨v, w, rfl, h, -⟩ := h
  rcases h with ⟨x, y, rfl, hx, d, z, rfl, ⟨c, rfl, hc⟩, p, q, rfl, ⟨e, rfl, he⟩, -⟩ | ⟨x, y, rfl, ⟨c, rfl, hc⟩, -⟩
  · simp at hc
    subst hc
    cases x with
    | nil => have := (fixed_head hf).2.2.2.2.2.2 rfl; simp at this
    | cons d x => exact digit hf (Re.iter_cls hx d (by simp))
  · exact digit hf hc

theorem string_not_fixed {u r : List Char} (h : Kind.string.re.Accepts u r) {k : Kind} : k.fixed ≠ some u := by
  intro hf
  obtain ⟨v, w, rfl, ⟨c, rfl, hc⟩, -⟩ := h
  simp at hc
  subst hc
  exact (fixed_head hf).2.2.2.2.1 rfl

theorem string_quotes {u r : List Char} (h : Kind.string.re.Accepts u r) : u.head? = some '"' ∧ u.getLast? = some '"' := by
  obtain ⟨v, w, rfl, ⟨c, rfl, hc⟩, x, y, rfl, -, ⟨d, rfl, hd⟩⟩ := h
  simp at hc hd
  subst hc hd
  exact ⟨rfl, by rw [show (['"'] ++ (x ++ ['"']) : List Char) = ('"' :: x) ++ ['"'] from rfl, List.getLast?_concat]⟩

/-- The tokens of the lexer. -/
theorem tok_good {s r : List Char} {k : Kind} (h : firstKind s Kind.all = some (k, r)) (hv : k ≠ .space ∧ k ≠ .comment) (i j : Nat) :
    Tok.Good ⟨s.take (s.length - r.length), k, i, j⟩ := by
  have hr : k.re.rest s = some r := by
    obtain ⟨ks, h⟩ : ∃ ks, firstKind s ks = some (k, r) := ⟨_, h⟩
    induction ks with
    | nil => cases h
    | cons k' ks ih =>
      rw [firstKind] at h
      split at h
      · cases h; assumption
      · exact ih h
  obtain ⟨u, rfl, hu⟩ := Re.rest_some hr
  have e : (u ++ r).take ((u ++ r).length - r.length) = u := by simp
  rw [e]
  have hfun : k = .functor → FunctorText u := by
    rintro rfl
    obtain ⟨u', e', hu', -⟩ := functor_rest hr
    rwa [List.append_cancel_right e']
  have hvar : k = .var → VarText u := by rintro rfl; exact var_text hu
  have hnone : k.fixed = none → ∀ k' : Kind, k'.fixed ≠ some u := by
    intro hn k'
    cases k <;> first
      | (cases hn; done)
      | exact absurd rfl hv.1
      | exact absurd rfl hv.2
      | exact functor_not_fixed (hfun rfl)
      | exact var_not_fixed (hvar rfl)
      | exact numeric_not_fixed hu
      | exact string_not_fixed hu
  have hfix : ∀ w, k.fixed = some w → u = w := by
    intro w hw
    have : k.re = Re.text w := by cases k <;> simp [Kind.fixed] at hw <;> subst hw <;> rfl
    rw [this] at hu
    exact Re.accepts_text.1 hu
  refine ⟨⟨hfix, fun k' hk' => ?_⟩, hfun, hvar, by rintro rfl; exact string_quotes hu⟩
  show k = k'
  cases hk : k.fixed with
  | none => exact absurd hk' (hnone hk k')
  | some w =>
    have := hfix w hk
    subst this
    exact fixed_inj hk hk'

theorem scan_good : ∀ (n : Nat) (b : Bool) (col : Nat) (s : List Char) (evs : List LexEv) (b' : Bool), scan n b col s = some (evs, b') →
    ∀ t, LexEv.tok t ∈ evs → t.Good
  | 0, _, _, _, _, _, h => by cases h
  | n + 1, b, col, [], evs, b', h => by cases h; simp
  | n + 1, b, col, c :: cs, evs, b', h => by
    rw [scan.eq_def] at h
    simp only at h
    split at h
    · split at h
      · cases h; simp
      · exact scan_good n _ _ _ _ _ h
    · split at h
      · exact scan_good n _ _ _ _ _ h
      · split at h
        · rename_i k r hk
          obtain ⟨⟨evs', b''⟩, h1, h2⟩ := Option.map_eq_some_iff.1 h
          have ih := scan_good n _ _ _ _ _ h1
          split at h2
          · cases h2; exact ih
          · rename_i hv
            cases h2
            intro t ht
            simp only [List.mem_cons, LexEv.tok.injEq] at ht
            rcases ht with rfl | ht
            · exact tok_good hk (by simpa using hv) _ _
            · exact ih t ht
        · obtain ⟨⟨evs', b''⟩, h1, h2⟩ := Option.map_eq_some_iff.1 h
          have ih := scan_good n _ _ _ _ _ h1
          cases h2
          intro t ht
          simp only [List.mem_cons, reduceCtorEq, false_or] at ht
          exact ih t ht

/-- All tokens of a file. -/
theorem tokenize_good {lines : List (List Char)} : ∀ {b : Bool} {l : Nat} {evs : List (Nat × LexEv)}, scanLines b l lines = some evs →
    ∀ i t, (i, LexEv.tok t) ∈ evs → t.Good := by
  induction lines with
  | nil => intro b l evs h; cases h; simp
  | cons line lines ih =>
    intro b l evs h
    rw [scanLines] at h
    split at h
    · cases h
    · rename_i evs1 b1 h1
      obtain ⟨rest, h2, rfl⟩ := Option.map_eq_some_iff.1 h
      intro i t ht
      simp only [List.mem_append, List.mem_map, Prod.mk.injEq] at ht
      rcases ht with ⟨e, he, rfl, rfl⟩ | ht
      · exact scan_good _ _ _ _ _ _ h1 t he
      · exact ih h2 i t ht

end

end Verif
