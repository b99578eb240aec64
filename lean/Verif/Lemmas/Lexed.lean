import Verif.Lemmas.Tokens
import Verif.Lemmas.Strings
import Verif.Model.Parser

/-! Which tokens a printed text has. -/

namespace Verif

section
variable [Unicode]

/-- What may follow a word or a number, so that it ends there. -/
structure Bound (r : List Char) : Prop where
  ends : Ends r
  digit : ∀ c ∈ r.head?, Unicode.digit c = false
  point : ∀ c r', r = '.' :: c :: r' → Unicode.digit c = false

/-- The tokens at the beginning of `u ++ r`, where `col` is the column, are those of `u`:
`ts`. -/
def Lexed (u : List Char) (col : Nat) (r : List Char) (ts : List Tok) : Prop :=
  AllProper ts ∧ ∃ m ≤ u.length, ∀ n, scan (n + m) false col (u ++ r) =
    (scan n false (col + u.length) r).map fun (evs, b) => (ts.map .tok ++ evs, b)

theorem Lexed.nil (col : Nat) (r : List Char) : Lexed [] col r [] := by
  refine ⟨fun t ht => by (cases ht), 0, Nat.le_refl _, fun n => ?_⟩
  simp only [List.nil_append, List.length_nil, Nat.add_zero, List.map_nil]
  cases scan n false col r <;> rfl

theorem Lexed.append {u v : List Char} {col : Nat} {r : List Char} {ts us : List Tok} (hu : Lexed u col (v ++ r) ts)
    (hv : Lexed v (col + u.length) r us) : Lexed (u ++ v) col r (ts ++ us) := by
  obtain ⟨h1, m, hm, h2⟩ := hu
  obtain ⟨h3, k, hk, h4⟩ := hv
  refine ⟨?_, k + m, by simp; omega, fun n => ?_⟩
  · intro t ht
    simp only [List.mem_append] at ht
    exact ht.elim (h1 t) (h3 t)
  · rw [List.append_assoc, ← Nat.add_assoc, h2, h4, Option.map_map]
    simp only [List.length_append, Nat.add_assoc]
    congr 1
    funext ⟨evs, b⟩
    simp

theorem NextTok.proper {k : Kind} {u r : List Char} (h : NextTok k u r) (i j : Nat) : (⟨u, k, i, j⟩ : Tok).Good := by
  have := tok_good h.kind h.visible i j
  simpa using this

theorem NextTok.lexed {k : Kind} {u r : List Char} (h : NextTok k u r) (col : Nat) :
    Lexed u col r [⟨u, k, col, col + u.length⟩] := by
  refine ⟨?_, 1, ?_, fun n => ?_⟩
  · intro t ht
    simp only [List.mem_singleton] at ht
    subst ht
    exact (h.proper _ _).proper
  · have := h.nonempty
    cases u with
    | nil => exact absurd rfl this
    | cons c u => simp
  · rw [h.scan]; rfl

/-- A space is skipped. -/
theorem lexed_space {r : List Char} (hr : ∀ c ∈ r.head?, Unicode.space c = false) (col : Nat) : Lexed [' '] col r [] := by
  have hs : Unicode.space ' ' = true := by rw [Unicode.space_ascii _ (by decide)]; decide
  have hf : Kind.space.re.First (' ' :: r) r := by
    refine .seq (.cls hs) ?_
    have := Re.First.star_cls (p := Unicode.space) (u := []) (s := r) (by simp) hr
    simpa using this
  have hk : firstKind (' ' :: r) Kind.all = some (.space, r) := firstKind_of hf (Kind.mem_all _) (by
    have : Kind.all.takeWhile (· ≠ Kind.space) = [] := by decide
    rw [this]; simp)
  refine ⟨fun t ht => by (cases ht), 1, by simp, fun n => ?_⟩
  have hn : (Re.text ['/', '*']).rest (' ' :: r) = none := Re.Never.rest (.text_head (by decide))
  show scan (n + 1) false col (' ' :: r) = _
  rw [scan.eq_def]
  simp only [Bool.false_eq_true, if_false]
  rw [hn, hk]
  simp

/-! ## Fixed tokens -/

/-- The text is ASCII, begins with no space, and is no beginning of a comment. -/
theorem fixed_not_space {k : Kind} {c : Char} {t : List Char} (h : k.fixed = some (c :: t)) : Unicode.space c = false := by
  have : c.toNat < 128 := (fixed_head h).1
  rw [Unicode.space_ascii _ this]
  cases k <;> simp [Kind.fixed] at h <;> obtain ⟨rfl, rfl⟩ := h <;> decide

omit [Unicode] in
/-- Which fixed tokens are tried before, and could match the same beginning. -/
theorem fixed_before : ∀ k ∈ Kind.all, ∀ k' ∈ Kind.all.takeWhile (· ≠ k), ∀ w ∈ k.fixed, ∀ w' ∈ k'.fixed,
    ¬w' <+: w := by decide +kernel

/-- The characters that would make a longer fixed token. -/
def Kind.longer (k : Kind) : List Char :=
  match k with
  | .opOr => ['&', '|'] | .opMinus => ['+'] | .opMult => ['*'] | .opLt => ['-', '='] | .opGt => ['='] | .opUnify => ['=', '.']
  | .colon => ['-'] | .exclam => ['!']
  | _ => []

omit [Unicode] in
theorem fixed_longer : ∀ k ∈ Kind.all, ∀ k' ∈ Kind.all.takeWhile (· ≠ k), ∀ w ∈ k.fixed, ∀ w' ∈ k'.fixed,
    w <+: w' → ∃ d ∈ (w'.drop w.length).head?, d ∈ k.longer := by decide +kernel

omit [Unicode] in
theorem prefix_cases {w w' r r' : List Char} (h : w ++ r = w' ++ r') : w' <+: w ∨ (w <+: w' ∧ ∀ d ∈ (w'.drop w.length).head?, d ∈ r.head?) := by
  rcases List.append_eq_append_iff.1 h with ⟨a, rfl, rfl⟩ | ⟨a, rfl, rfl⟩
  · refine .inr ⟨⟨a, rfl⟩, fun d hd => ?_⟩
    simp only [List.drop_left] at hd
    cases a with
    | nil => cases hd
    | cons x a => simpa using hd
  · exact .inl ⟨a, rfl⟩

theorem text_of_fixed {k : Kind} {w : List Char} (h : k.fixed = some w) : k.re = Re.text w := by
  cases k <;> simp [Kind.fixed] at h <;> subst h <;> rfl

/-- A fixed token, if no longer token is there and it is nothing else. -/
theorem fixed_next {k : Kind} {w r : List Char} (hk : k.fixed = some w) (hl : ∀ d ∈ r.head?, d ∉ k.longer)
    (hc : Kind.comment.re.Never (w ++ r)) (hcc : (Re.text ['/', '*']).Never (w ++ r)) (hf : Kind.functor.re.Never (w ++ r))
    (hn : Kind.numeric.re.Never (w ++ r)) : NextTok k w r := by
  have hne : ∃ c t, w = c :: t := by
    cases w with
    | nil => cases k <;> simp [Kind.fixed] at hk
    | cons c t => exact ⟨c, t, rfl⟩
  obtain ⟨c, t, rfl⟩ := hne
  have hfirst : k.re.First (c :: t ++ r) r := by rw [text_of_fixed hk]; exact .text
  refine ⟨by constructor <;> (rintro rfl; cases hk), ?_, hcc.rest, by simp⟩
  refine firstKind_of hfirst (Kind.mem_all _) fun k' hk' => ?_
  have hhead := fixed_head hk
  cases hw : k'.fixed with
  | some w' =>
    rw [text_of_fixed hw]
    refine .text fun r' hr' => ?_
    rcases prefix_cases (w := c :: t) hr' with h | ⟨h, hd⟩
    · exact fixed_before k (Kind.mem_all _) k' hk' _ hk _ hw h
    · obtain ⟨d, hd1, hd2⟩ := fixed_longer k (Kind.mem_all _) k' hk' _ hk _ hw h
      exact hl d (hd d hd1) hd2
  | none =>
    have up : isUp c = false := hhead.2.1
    cases k' <;> first
      | (cases hw; done)
      | exact hc
      | exact hf
      | exact hn
      | skip
    · exact Re.never_of_starts (Kind.not_nullable _) (by simp [Kind.re, Re.plus, Re.starts, fixed_not_space hk])
    · refine Re.never_of_starts (Kind.not_nullable _) ?_
      simp [Kind.re, Re.plus, Re.starts, Re.nullable, Re.chr, up, hhead.2.2.1]
    · refine Re.never_of_starts (Kind.not_nullable _) ?_
      simp [Kind.re, Re.starts, Re.nullable, Re.chr, hhead.2.2.2.2.1]

/-- Symbols that are not letters, points or slashes. -/
theorem symbol_next {k : Kind} {c : Char} {t r : List Char} (hk : k.fixed = some (c :: t)) (hl : ∀ d ∈ r.head?, d ∉ k.longer)
    (hc : isLow c = false ∧ c ≠ '.' ∧ c ≠ '/') : NextTok k (c :: t) r := by
  have hh := fixed_head hk
  have hash : c ≠ '#' := by
    rintro rfl
    cases k <;> simp [Kind.fixed] at hk
  refine fixed_next hk hl ?_ ?_ ?_ ?_
  · exact Re.never_of_starts (Kind.not_nullable _) (by simp [Kind.re, Re.starts, Re.nullable, Re.chr, Re.text, hc, hash])
  · exact .text_head (Ne.symm hc.2.2)
  · refine Re.never_of_starts (Kind.not_nullable _) ?_
    simp [Kind.re, Re.starts, Re.nullable, Re.chr, Re.opt, Re.plus, hc, hh.2.2.2.1]
  · refine Re.never_of_starts (Kind.not_nullable _) ?_
    have : Unicode.digit c = false := by rw [Unicode.digit_ascii _ hh.1]; exact hh.2.2.2.2.2.1
    simp [Kind.re, Re.starts, Re.nullable, Re.chr, Re.opt, Re.plus, hc, this]

/-- The division sign, before a space. -/
theorem slash_next (r : List Char) : NextTok .opFdiv ['/'] (' ' :: r) := by
  refine fixed_next rfl (by simp [Kind.longer]) ?_ ?_ ?_ ?_
  · refine Re.Never.seq_left (.alt (.text ?_) (.cls (by decide)))
    intro r' h; simp at h
  · refine .text ?_
    intro r' h; simp at h
  · exact Re.never_of_starts (Kind.not_nullable _) (by rfl)
  · refine Re.never_of_starts (Kind.not_nullable _) ?_
    have : Unicode.digit '/' = false := by rw [Unicode.digit_ascii _ (by decide)]; decide
    simp [Kind.re, Re.starts, Re.nullable, Re.chr, Re.opt, Re.plus, this]

/-- A full stop at the end. -/
theorem stop_next : NextTok .fullstop ['.'] [] := by
  refine fixed_next rfl (by simp) ?_ ?_ ?_ ?_
  · exact Re.never_of_starts (Kind.not_nullable _) (by rfl)
  · exact .text_head (by decide)
  · rw [Re.never_iff, ← Re.rest_none]; rfl
  · rw [Re.never_iff]
    rintro ⟨u, r, e, v, w, rfl, h, -⟩
    have hd : Unicode.digit '.' = false := by rw [Unicode.digit_ascii _ (by decide)]; decide
    rcases h with ⟨x, y, rfl, hx, d, z, rfl, ⟨c, rfl, hc⟩, p, q, rfl, ⟨f, rfl, hf⟩, -⟩ | ⟨x, y, rfl, ⟨c, rfl, hc⟩, -⟩
    · have := congrArg List.length e
      simp at this
      omega
    · simp only [List.cons_append, List.cons.injEq] at e
      rw [← e.1, hd] at hc
      cases hc

/-- A keyword, before something that is no letter. -/
theorem keyword_next {k : Kind} {w r : List Char} (hk : k.fixed = some w) (hw : w ∈ keywords) (hr : ∀ c ∈ r.head?, isWord c = false)
    (hl : k.longer = []) : NextTok k w r := by
  obtain ⟨c, hc, hlow⟩ := Re.keywords_low w hw
  cases w with
  | nil => cases hc
  | cons d t =>
    simp only [List.head?_cons, Option.mem_def, Option.some.injEq] at hc
    subst hc
    have hh := fixed_head hk
    have ha := low_ascii hlow
    refine fixed_next hk (by simp [hl]) ?_ ?_ ?_ ?_
    · exact Re.never_of_starts (Kind.not_nullable _) (by simp [Kind.re, Re.starts, Re.nullable, Re.chr, Re.text, ha])
    · exact .text_head (Ne.symm ha.2.1)
    · refine Re.never_seq fun u r' e hu => ?_
      rcases hu with ⟨x, rfl, hx⟩ | rfl
      · simp at hx
        subst hx
        simp only [List.cons_append, List.cons.injEq] at e
        exact absurd e.1 ha.2.2.2.1
      · simp only [List.nil_append] at e
        subst e
        exact .seq_left (.neg (keyword_of hw hr))
    · refine Re.never_of_starts (Kind.not_nullable _) ?_
      have h1 : Unicode.digit d = false := by rw [Unicode.digit_ascii _ hh.1]; exact hh.2.2.2.2.2.1
      have h2 : d ≠ '.' := by rintro rfl; revert hlow; decide
      simp [Kind.re, Re.starts, Re.nullable, Re.chr, Re.opt, Re.plus, h1, h2]

/-! ## Variables and numbers -/

omit [Unicode] in
theorem up_facts {c : Char} (h : isUp c = true ∨ c = '_') : c.toNat < 128 ∧ 65 ≤ c.toNat ∧ c.isDigit = false ∧ isLow c = false ∧ c ≠ '/' ∧ c ≠ '#' ∧
    c ≠ '~' ∧ c ≠ '.' ∧ c ≠ '(' ∧ c ≠ ')' ∧ c ≠ '[' ∧ c ≠ ']' ∧ c ≠ '{' ∧ c ≠ '}' := by
  have hn : c.toNat < 128 ∧ 65 ≤ c.toNat ∧ c.toNat ≤ 95 ∧ c.toNat ≠ 91 ∧ c.toNat ≠ 93 := by
    rcases h with h | rfl
    · simp only [isUp, decide_eq_true_eq, Char.le_def] at h
      have h1 : 65 ≤ c.toNat := h.1
      have h2 : c.toNat ≤ 90 := h.2
      omega
    · decide
  obtain ⟨h1, h2, h3, h4, h5⟩ := hn
  refine ⟨h1, h2, ?_, ?_, ?_, ?_, ?_, ?_, ?_, ?_, ?_, ?_, ?_, ?_⟩
  · simp only [Char.isDigit, Bool.and_eq_false_iff, decide_eq_false_iff_not]
    right
    intro h
    have : c.toNat ≤ 57 := h
    omega
  · simp only [isLow, decide_eq_false_iff_not, Char.le_def]
    rintro ⟨h, -⟩
    have : 97 ≤ c.toNat := h
    omega
  all_goals rintro rfl; revert h2 h3 h4 h5; decide

omit [Unicode] in
theorem before_var {k : Kind} (hk : k ∈ Kind.all.takeWhile (· ≠ Kind.var)) :
    k ∈ [Kind.space, .comment, .parenOpen, .parenClose, .bracketOpen, .bracketClose, .braceOpen, .braceClose, .functor, .numeric] := by
  have : Kind.all.takeWhile (· ≠ Kind.var) = [Kind.space, .comment, .parenOpen, .parenClose, .bracketOpen, .bracketClose, .braceOpen, .braceClose,
    .functor, .numeric] := by decide
  rw [← this]; exact hk

/-- A variable. -/
theorem var_next {u r : List Char} (hu : VarText u) (hr : ∀ c ∈ r.head?, isWord c = false) : NextTok .var u r := by
  have hhead : ∃ c t, u = c :: t ∧ (isUp c = true ∨ c = '_') := by
    rcases hu with ⟨v, c, w, rfl, hv, hc, -⟩ | ⟨hne, hall⟩
    · cases v with
      | nil => exact ⟨c, w, rfl, .inl hc⟩
      | cons d v => exact ⟨d, _, rfl, .inr (hv d (by simp))⟩
    · cases u with
      | nil => exact absurd rfl hne
      | cons d v => exact ⟨d, _, rfl, .inr (hall d (by simp))⟩
  have hund : isUp '_' = false := by decide
  have hfirst : Kind.var.re.First (u ++ r) r := by
    rcases hu with ⟨v, c, w, rfl, hv, hc, hw⟩ | ⟨hne, hall⟩
    · refine .alt_left (.seq (s' := c :: w ++ r) ?_ (.seq (.cls hc) (.star_cls hw hr)))
      have := Re.First.star_cls (p := fun x => decide (x = '_')) (u := v) (s := c :: w ++ r) (by simpa using hv) (by
        simp
        rintro rfl
        rw [hund] at hc; cases hc)
      rw [List.append_assoc]
      exact this
    · refine .alt_right (Re.never_seq fun v s e hv => ?_) ?_
      · have hv' := Re.iter_cls hv
        cases s with
        | nil => exact .seq_left .cls_nil
        | cons d s =>
          refine .seq_left (.cls ?_)
          rcases List.append_eq_append_iff.1 e with ⟨a, rfl, e2⟩ | ⟨a, rfl, e2⟩
          · have hd : d ∈ (d :: s).head? := rfl
            cases a with
            | nil =>
              simp only [List.nil_append] at e2
              subst e2
              have := hr d rfl
              simp [isWord] at this
              simp [this]
            | cons x a =>
              simp only [List.cons_append] at e2
              subst e2
              have h1 := hr x rfl
              have h2 := hv' x (by simp)
              simp at h2
              subst h2
              exact absurd h1 (by decide)
          · cases a with
            | nil =>
              simp only [List.nil_append] at e2
              subst e2
              have := hr d rfl
              simp [isWord] at this
              simp [this]
            | cons x a =>
              simp only [List.cons_append, List.cons.injEq] at e2
              rw [e2.1, hall x (by simp)]
              exact hund
      · cases u with
        | nil => exact absurd rfl hne
        | cons c u =>
          refine .seq (.cls (by simpa using hall c (by simp))) (Re.First.star_cls (fun x hx => by simpa using hall x (by simp [hx])) ?_)
          intro x hx
          simp
          rintro rfl
          have := hr _ hx
          revert this; decide
  obtain ⟨c, t, rfl, hc⟩ := hhead
  obtain ⟨h1, h2, h3, h4, h5, h6, h7, h8, h9, h10, h11, h12, h13, h14⟩ := up_facts hc
  have hs : Unicode.space c = false := by
    rw [Unicode.space_ascii _ h1]
    simp
    omega
  have hd : Unicode.digit c = false := by rw [Unicode.digit_ascii _ h1, h3]
  refine ⟨by decide, firstKind_of hfirst (Kind.mem_all _) fun k hk => Re.never_of_starts k.not_nullable ?_, ?_, by simp⟩
  · have := before_var hk
    simp only [List.mem_cons, List.not_mem_nil, or_false] at this
    rcases this with rfl | rfl | rfl | rfl | rfl | rfl | rfl | rfl | rfl | rfl <;>
      simp [Kind.re, Kind.fixed, Re.plus, Re.starts, Re.nullable, Re.chr, Re.text, Re.opt, *]
  · exact Re.Never.rest (.text_head (Ne.symm h5))

omit [Unicode] in
theorem digit_facts {c : Char} (h : c.isDigit = true) : c.toNat < 128 ∧ 48 ≤ c.toNat ∧ c.toNat ≤ 57 := by
  simp only [Char.isDigit, Bool.and_eq_true, decide_eq_true_eq] at h
  have h1 : 48 ≤ c.toNat := h.1
  have h2 : c.toNat ≤ 57 := h.2
  omega

theorem digits_of {u : List Char} (h : ∀ c ∈ u, c.isDigit = true) : ∀ c ∈ u, Unicode.digit c = true := fun c hc => by
  rw [Unicode.digit_ascii _ (digit_facts (h c hc)).1, h c hc]

open Re in
theorem digits_plus {u s : List Char} (hne : u ≠ []) (h : ∀ c ∈ u, c.isDigit = true) (hs : ∀ c ∈ s.head?, Unicode.digit c = false) :
    (plus (cls Unicode.digit)).First (u ++ s) s := by
  cases u with
  | nil => exact absurd rfl hne
  | cons c u => exact .seq (.cls (digits_of h c (by simp))) (.star_cls (fun x hx => digits_of h x (by simp [hx])) hs)

/-- The exponent. -/
def exponent : Re :=
  .opt (.seq (.cls fun c => c = 'e' || c = 'E') (.seq (.opt (.cls fun c => c = '+' || c = '-')) (.plus (.cls Unicode.digit))))

theorem exponent_first {e r : List Char} (hr : Bound r)
    (he : e = [] ∨ ∃ sign ds, e = 'e' :: sign ++ ds ∧ (sign = [] ∨ sign = ['+'] ∨ sign = ['-']) ∧ ds ≠ [] ∧ ∀ c ∈ ds, c.isDigit = true) :
    exponent.First (e ++ r) r := by
  rcases he with rfl | ⟨sign, ds, rfl, hs, hne, hd⟩
  · refine .alt_right (.seq_left ?_) .eps
    cases r with
    | nil => exact .cls_nil
    | cons c r =>
      refine .cls ?_
      have := hr.ends.1 c rfl
      simp
      constructor <;> (rintro rfl; revert this; decide)
  · refine .alt_left ?_
    simp only [List.cons_append, List.append_assoc]
    refine .seq (.cls (by decide)) (.seq (s' := ds ++ r) ?_ (digits_plus hne hd hr.digit))
    rcases hs with rfl | rfl | rfl
    · cases ds with
      | nil => exact absurd rfl hne
      | cons c ds =>
        refine .alt_right (.cls ?_) .eps
        have := digit_facts (hd c (by simp))
        simp
        constructor <;> (rintro rfl; revert this; decide)
    · exact .alt_left (.cls (by decide))
    · exact .alt_left (.cls (by decide))

/-- A number. -/
theorem numeric_next {u r : List Char} (hu : NumText u) (hr : Bound r) : NextTok .numeric u r := by
  obtain ⟨int, frac, exp, rfl, ⟨hne, hint⟩, hfrac, hexp⟩ := hu.form
  have hdot : Unicode.digit '.' = false := by rw [Unicode.digit_ascii _ (by decide)]; decide
  have hexp0 : ∀ c ∈ (exp ++ r).head?, Unicode.digit c = false := by
    rcases hexp with rfl | ⟨sign, ds, rfl, -⟩
    · exact hr.digit
    · simp only [List.cons_append, List.head?_cons, Option.mem_def, Option.some.injEq]
      rintro c rfl
      rw [Unicode.digit_ascii _ (by decide)]; decide
  have hfirst : Kind.numeric.re.First (int ++ frac ++ exp ++ r) r := by
    refine .seq (s' := exp ++ r) ?_ (exponent_first hr hexp)
    rcases hfrac with rfl | ⟨ds, rfl, hds, hdd⟩
    · refine .alt_right ?_ ?_
      · rw [List.append_nil, Re.never_iff]
        rintro ⟨u, r', e, x, y, rfl, hx, d, z, rfl, ⟨c, rfl, hc⟩, p, q, rfl, ⟨f, rfl, hf⟩, -⟩
        have hx' := Re.iter_cls hx
        simp at hc
        subst hc
        have e : int ++ (exp ++ r) = x ++ '.' :: f :: (q ++ r') := by simpa using e
        rcases List.append_eq_append_iff.1 e with ⟨a, rfl, e2⟩ | ⟨a, rfl, e2⟩
        · cases a with
          | nil =>
            simp only [List.nil_append] at e2
            rcases hexp with rfl | ⟨sign, ds, rfl, -⟩
            · have := hr.point f _ e2
              rw [hf] at this; cases this
            · simp at e2
          | cons a0 a =>
            have h1 := hexp0 a0 (by rw [e2]; rfl)
            have h2 := hx' a0 (by simp)
            rw [h1] at h2; cases h2
        · cases a with
          | nil =>
            simp only [List.nil_append] at e2
            rcases hexp with rfl | ⟨sign, ds, rfl, -⟩
            · have := hr.point f _ e2.symm
              rw [hf] at this; cases this
            · simp at e2
          | cons a0 a =>
            simp only [List.cons_append, List.cons.injEq] at e2
            have := digits_of hint a0 (by simp)
            rw [← e2.1, hdot] at this; cases this
      · have := digits_plus (s := exp ++ r) hne hint hexp0
        simpa using this
    · refine .alt_left (.seq (s' := '.' :: (ds ++ (exp ++ r))) ?_ (.seq (.cls (by decide)) (digits_plus hds hdd hexp0)))
      have := Re.First.star_cls (p := Unicode.digit) (u := int) (s := '.' :: (ds ++ (exp ++ r))) (digits_of hint) (by simp [hdot])
      simpa using this
  cases int with
  | nil => exact absurd rfl hne
  | cons c int =>
    obtain ⟨h1, h2, h3⟩ := digit_facts (hint c (by simp))
    have hs : Unicode.space c = false := by
      rw [Unicode.space_ascii _ h1]
      simp
      omega
    have hlow : isLow c = false := by
      simp only [isLow, decide_eq_false_iff_not, Char.le_def]
      rintro ⟨h, -⟩
      have : 97 ≤ c.toNat := h
      omega
    have hcs : c ≠ '/' ∧ c ≠ '#' ∧ c ≠ '~' ∧ c ≠ '.' ∧ c ≠ '(' ∧ c ≠ ')' ∧ c ≠ '[' ∧ c ≠ ']' ∧ c ≠ '{' ∧ c ≠ '}' := by
      refine ⟨?_, ?_, ?_, ?_, ?_, ?_, ?_, ?_, ?_, ?_⟩ <;> (rintro rfl; revert h2 h3; decide)
    refine ⟨by decide, firstKind_of hfirst (Kind.mem_all _) fun k hk => Re.never_of_starts k.not_nullable ?_, ?_, by simp⟩
    · have : k ∈ [Kind.space, .comment, .parenOpen, .parenClose, .bracketOpen, .bracketClose, .braceOpen, .braceClose, .functor] := by
        have : Kind.all.takeWhile (· ≠ Kind.numeric) = [Kind.space, .comment, .parenOpen, .parenClose, .bracketOpen, .bracketClose,
          .braceOpen, .braceClose, .functor] := by decide
        rw [← this]; exact hk
      simp only [List.mem_cons, List.not_mem_nil, or_false] at this
      rcases this with rfl | rfl | rfl | rfl | rfl | rfl | rfl | rfl | rfl <;>
        simp [Kind.re, Kind.fixed, Re.plus, Re.starts, Re.nullable, Re.chr, Re.text, Re.opt, hs, hlow, hcs]
    · exact Re.Never.rest (.text_head (Ne.symm hcs.1))

end

end Verif
