import Verif.Lemmas.Complete
import Verif.Lemmas.Tokens
import Verif.Spec.AsciiText
import Verif.Spec.ToyFloats

/-!
# C44: precedence and associativity of operators

The grammar in `Verif.Spec.Grammar` gives the phrases of each level of precedence and their
trees.  The parser accepts these phrases and no others, and builds the same trees.
-/

namespace Verif

section
variable [Unicode] [Floats]

omit [Floats] in
/-- The tokens of the lexer: fixed tokens have their own text, no others have it. -/
theorem C44_tokens {l : Nat} {lines : List (List Char)} {evs : List (Nat × LexEv)} (h : tokenize l lines = some evs) :
    AllProper (toksOf (evs.map Prod.snd)) := by
  intro t ht
  simp only [toksOf, List.mem_filterMap, List.mem_map] at ht
  obtain ⟨e, ⟨⟨i, e'⟩, he, rfl⟩, h2⟩ := ht
  cases e' with
  | tok t' => cases h2; exact (tokenize_good h i _ he).proper
  | illegal => cases h2

/-- What the parser accepts is a phrase of the grammar, the tree is that of the grammar,
and the phrase is not continued by an operator. -/
theorem C44_sound {n : Nat} {ts rest : List Tok} {a : Ast} (hp : AllProper ts) (h : parseTerm n ts = .ok (a, rest)) :
    ∃ us, ts = us ++ rest ∧ Phrase 0 us a ∧ StopsHead 0 rest := (allSound n).term ts a rest hp h

/-- All phrases of the grammar are accepted, with the tree of the grammar. -/
theorem C44_complete {us : List Tok} {a : Ast} (h : Phrase 0 us a) (hp : AllProper us) :
    ∃ N, ∀ n, N ≤ n → ∀ stop rest, EndsPhrase 0 stop → parseTerm n (us ++ stop :: rest) = .ok (a, stop :: rest) :=
  (phrase_parsed h hp).ok

omit [Unicode] [Floats] in
theorem quiet_fullstop : EndsPhrase 0 ⟨['.'], .fullstop, 0, 1⟩ := by
  refine ⟨⟨?_, ?_⟩, ?_, by simp, by simp⟩
  · intro w hw; cases hw; rfl
  · intro k hk; cases k <;> first | rfl | cases hk
  · intro op _; cases op <;> simp [BinOp.kind]

/-- A phrase has only one tree. -/
theorem C44_unambiguous {us : List Tok} {a b : Ast} (h : Phrase 0 us a) (h' : Phrase 0 us b) (hp : AllProper us) : a = b := by
  obtain ⟨N, h1⟩ := C44_complete h hp
  obtain ⟨M, h2⟩ := C44_complete h' hp
  have e1 := h1 (max N M) (by omega) _ [] quiet_fullstop
  rw [h2 (max N M) (by omega) _ [] quiet_fullstop] at e1
  cases e1
  rfl

theorem Phrase.lift {l l' : Nat} (hl : l ≤ l') (hl' : l' ≤ 8) {ts : List Tok} {a : Ast} (h : Phrase l' ts a) : Phrase l ts a := by
  obtain ⟨d, rfl⟩ := Nat.exists_eq_add_of_le hl
  induction d with
  | zero => exact h
  | succ d ih => exact ih (by omega) (by omega) (.up (by omega) h)

omit [Unicode] [Floats] in
theorem BinOp.level_le (op : BinOp) : op.level ≤ 7 := by cases op <;> simp [BinOp.level]

omit [Unicode] [Floats] in
theorem BinOp.level_cases (op : BinOp) : op.LeftAssoc ∨ op.level = 3 ∨ op = .pow := by
  cases op <;> simp [BinOp.LeftAssoc, BinOp.level]

theorem Phrase.bin {op : BinOp} {t : Tok} {xs ys : List Tok} {x y : Ast} (hk : t.kind = op.kind) (hx : Phrase (op.level + 1) xs x)
    (hy : Phrase (op.level + 1) ys y ∨ (op = .pow ∧ Phrase 6 ys y)) : Phrase op.level (xs ++ t :: ys) (.bin op x y) := by
  have h1 := op.level_le
  rcases op.level_cases with h | h | rfl
  · refine .left h hk (.up (by omega) hx) ?_
    rcases hy with hy | ⟨rfl, -⟩
    · exact hy
    · simp [BinOp.LeftAssoc, BinOp.level] at h
  · rw [h] at hx hy ⊢
    rcases hy with hy | ⟨rfl, -⟩
    · have := Phrase.compare (rest := [(op, y)]) hx (.cons h hk hy .nil) (by simp)
      simpa [chain] using this
    · cases h
  · rcases hy with hy | ⟨-, hy⟩
    · exact .power hk hx (hy.lift (by decide) (by decide))
    · exact .power hk hx hy

/-- The table of precedences, for two binary operators. -/
theorem C44_binary {o₁ o₂ : BinOp} {t₁ t₂ : Tok} {xs ys zs : List Tok} {x y z : Ast} (hx : Phrase 8 xs x) (hy : Phrase 8 ys y)
    (hz : Phrase 8 zs z) (h₁ : t₁.kind = o₁.kind) (h₂ : t₂.kind = o₂.kind) (hp : AllProper (xs ++ t₁ :: ys ++ t₂ :: zs)) :
    ∃ N, ∀ n, N ≤ n → ∀ stop rest, EndsPhrase 0 stop →
      parseTerm n (xs ++ t₁ :: ys ++ t₂ :: zs ++ stop :: rest) = .ok (group o₁ o₂ x y z, stop :: rest) := by
  refine C44_complete ?_ hp
  have l1 := o₁.level_le
  have l2 := o₂.level_le
  have at8 : ∀ {ts a}, Phrase 8 ts a → ∀ {op : BinOp}, Phrase (op.level + 1) ts a :=
    fun h op => h.lift (by have := op.level_le; omega) (by omega)
  unfold group
  split
  · rename_i h
    have := Phrase.compare (rest := [(o₁, y), (o₂, z)]) (hx.lift (l := 4) (by decide) (by decide))
      (.cons h.1 h₁ (hy.lift (by decide) (by decide)) (.cons h.2 h₂ (hz.lift (by decide) (by decide)) .nil)) (by simp)
    simp only [chain, List.append_nil, Option.getD_some] at this
    have := this.lift (l := 0) (by decide) (by decide)
    simpa using this
  · rename_i hc
    split
    · rename_i h
      have : Phrase o₂.level (xs ++ t₁ :: ys ++ t₂ :: zs) (.bin o₂ (.bin o₁ x y) z) := by
        have hb : Phrase o₁.level (xs ++ t₁ :: ys) (.bin o₁ x y) := .bin h₁ (at8 hx) (.inl (at8 hy))
        rcases h with h | ⟨h, hne⟩
        · exact .bin h₂ (hb.lift (by omega) (by omega)) (.inl (at8 hz))
        · refine .left ?_ h₂ (h ▸ hb) (at8 hz)
          rcases o₂.level_cases with h' | h' | rfl
          · exact h'
          · exact absurd ⟨h.trans h', h'⟩ hc
          · exact absurd (by cases o₁ <;> first | rfl | (cases h; done)) hne
      exact this.lift (by omega) (by omega)
    · rename_i h
      have hb : Phrase o₂.level (ys ++ t₂ :: zs) (.bin o₂ y z) := .bin h₂ (at8 hy) (.inl (at8 hz))
      have : Phrase o₁.level (xs ++ t₁ :: (ys ++ t₂ :: zs)) (.bin o₁ x (.bin o₂ y z)) := by
        refine .bin h₁ (at8 hx) ?_
        by_cases he : o₁ = .pow
        · subst he
          refine .inr ⟨rfl, hb.lift ?_ (by omega)⟩
          have : ¬o₂.level < 7 := fun hh => h (.inl hh)
          omega
        · exact .inl (hb.lift (by
            have h1 : ¬o₂.level < o₁.level := fun hh => h (.inl hh)
            have h2 : o₁.level ≠ o₂.level := fun hh => h (.inr ⟨hh, he⟩)
            omega) (by omega))
      have := this.lift (l := 0) (by omega) (by omega)
      simpa using this

theorem Phrase.un {u : UnOp} {t : Tok} {ts : List Tok} {a : Ast} (hk : t.kind = u.kind) (h : Phrase u.level ts a) :
    Phrase u.level (t :: ts) (.un u a) := by
  cases u with
  | not => exact .not hk h
  | pos => exact .sign (by simp) hk h
  | neg => exact .sign (by simp) hk h

/-- Unary operators before a binary operator. -/
theorem C44_unary {u : UnOp} {op : BinOp} {t₁ t₂ : Tok} {xs ys : List Tok} {x y : Ast} (hx : Phrase 8 xs x) (hy : Phrase 8 ys y)
    (h₁ : t₁.kind = u.kind) (h₂ : t₂.kind = op.kind) (hp : AllProper (t₁ :: xs ++ t₂ :: ys)) :
    ∃ N, ∀ n, N ≤ n → ∀ stop rest, EndsPhrase 0 stop →
      parseTerm n (t₁ :: xs ++ t₂ :: ys ++ stop :: rest) = .ok (groupUn u op x y, stop :: rest) := by
  refine C44_complete ?_ hp
  have l1 := op.level_le
  have l2 : u.level ≤ 6 := by cases u <;> simp [UnOp.level]
  have at8 : ∀ {ts a}, Phrase 8 ts a → Phrase (op.level + 1) ts a := fun h => h.lift (by omega) (by omega)
  unfold groupUn
  split
  · have hb : Phrase op.level (xs ++ t₂ :: ys) (.bin op x y) := .bin h₂ (at8 hx) (.inl (at8 hy))
    exact (Phrase.un h₁ (hb.lift (by omega) (by omega))).lift (by omega) (by omega)
  · rename_i h
    have hu : Phrase u.level (t₁ :: xs) (.un u x) := .un h₁ (hx.lift (by omega) (by omega))
    have hne : op.level ≠ u.level := by cases u <;> cases op <;> simp [UnOp.level, BinOp.level]
    exact (Phrase.bin h₂ (hu.lift (by omega) (by omega)) (.inl (at8 hy))).lift (by omega) (by omega)

/-- Signs after a binary operator: `x ** -y`, `x * -y`, `x < -y`, … -/
theorem C44_sign_right {u : UnOp} {op : BinOp} {t₁ t₂ : Tok} {xs ys : List Tok} {x y : Ast} (hx : Phrase 8 xs x) (hy : Phrase 8 ys y)
    (hu : u ≠ .not) (h₁ : t₁.kind = op.kind) (h₂ : t₂.kind = u.kind) (hp : AllProper (xs ++ t₁ :: t₂ :: ys)) :
    ∃ N, ∀ n, N ≤ n → ∀ stop rest, EndsPhrase 0 stop →
      parseTerm n (xs ++ t₁ :: t₂ :: ys ++ stop :: rest) = .ok (.bin op x (.un u y), stop :: rest) := by
  refine C44_complete ?_ hp
  have l1 := op.level_le
  have hs : Phrase 6 (t₂ :: ys) (.un u y) := .sign hu h₂ (hy.lift (by decide) (by decide))
  refine (Phrase.bin h₁ (hx.lift (by omega) (by omega)) ?_).lift (by omega) (by omega)
  by_cases he : op = .pow
  · exact .inr ⟨he, hs⟩
  · refine .inl (hs.lift ?_ (by omega))
    cases op <;> first | exact absurd rfl he | simp [BinOp.level]

end

/-! ## Examples -/

section examples
attribute [local instance] asciiText toyFloats

/-- The tokens of a line. -/
private def lexed (s : String) : List Tok := ((tokenize 1 [s.toList]).map fun evs => toksOf (evs.map Prod.snd)).getD []

private abbrev v (x : Char) : Ast := .var [x]

/-- `A - B * C - D.` -/
private def toks_a : List Tok :=
  [⟨['A'], .var, 0, 1⟩, ⟨['-'], .opMinus, 2, 3⟩, ⟨['B'], .var, 4, 5⟩, ⟨['*'], .opMult, 6, 7⟩,
   ⟨['C'], .var, 8, 9⟩, ⟨['-'], .opMinus, 10, 11⟩, ⟨['D'], .var, 12, 13⟩, ⟨['.'], .fullstop, 13, 14⟩]
example : lexed "A - B * C - D." = toks_a := by rfl
example : parseTerm 30 toks_a = .ok (.bin .sub (.bin .sub (v 'A') (.bin .mul (v 'B') (v 'C'))) (v 'D'), [⟨['.'], .fullstop, 13, 14⟩]) := by rfl

/-- `- A ** - B ** C.` -/
private def toks_b : List Tok :=
  [⟨['-'], .opMinus, 0, 1⟩, ⟨['A'], .var, 2, 3⟩, ⟨['*', '*'], .opPower, 4, 6⟩, ⟨['-'], .opMinus, 7, 8⟩,
   ⟨['B'], .var, 9, 10⟩, ⟨['*', '*'], .opPower, 11, 13⟩, ⟨['C'], .var, 14, 15⟩, ⟨['.'], .fullstop, 15, 16⟩]
example : lexed "- A ** - B ** C." = toks_b := by rfl
example : parseTerm 30 toks_b = .ok (.un .neg (.bin .pow (v 'A') (.un .neg (.bin .pow (v 'B') (v 'C')))), [⟨['.'], .fullstop, 15, 16⟩]) := by rfl

/-- `not A < B <= C & D | E.` -/
private def toks_c : List Tok :=
  [⟨['n', 'o', 't'], .opNot, 0, 3⟩, ⟨['A'], .var, 4, 5⟩, ⟨['<'], .opLt, 6, 7⟩, ⟨['B'], .var, 8, 9⟩,
   ⟨['<', '='], .opLe, 10, 12⟩, ⟨['C'], .var, 13, 14⟩, ⟨['&'], .opAnd, 15, 16⟩, ⟨['D'], .var, 17, 18⟩,
   ⟨['|'], .opOr, 19, 20⟩, ⟨['E'], .var, 21, 22⟩, ⟨['.'], .fullstop, 22, 23⟩]
example : lexed "not A < B <= C & D | E." = toks_c := by rfl
example : parseTerm 30 toks_c = .ok (.bin .or (.bin .and (.un .not (.bin .and (.bin .lt (v 'A') (v 'B')) (.bin .le (v 'B') (v 'C')))) (v 'D')) (v 'E'), [⟨['.'], .fullstop, 22, 23⟩]) := by rfl

/-- `p(A | B, [C | D | E])[x].` -/
private def toks_d : List Tok :=
  [⟨['p'], .functor, 0, 1⟩, ⟨['('], .parenOpen, 1, 2⟩, ⟨['A'], .var, 2, 3⟩, ⟨['|'], .opOr, 4, 5⟩,
   ⟨['B'], .var, 6, 7⟩, ⟨[','], .comma, 7, 8⟩, ⟨['['], .bracketOpen, 9, 10⟩, ⟨['C'], .var, 10, 11⟩,
   ⟨['|'], .opOr, 12, 13⟩, ⟨['D'], .var, 14, 15⟩, ⟨['|'], .opOr, 16, 17⟩, ⟨['E'], .var, 18, 19⟩,
   ⟨[']'], .bracketClose, 19, 20⟩, ⟨[')'], .parenClose, 20, 21⟩, ⟨['['], .bracketOpen, 21, 22⟩, ⟨['x'], .functor, 22, 23⟩,
   ⟨[']'], .bracketClose, 23, 24⟩, ⟨['.'], .fullstop, 24, 25⟩]
example : lexed "p(A | B, [C | D | E])[x]." = toks_d := by rfl
example : parseTerm 60 toks_d = .ok (.lit ['p'] [.bin .or (v 'A') (v 'B'), .linked (v 'C') (.linked (v 'D') (v 'E'))] [.lit ['x'] [] []], [⟨['.'], .fullstop, 24, 25⟩]) := by rfl

/-- `[A, B | C].` -/
private def toks_e : List Tok :=
  [⟨['['], .bracketOpen, 0, 1⟩, ⟨['A'], .var, 1, 2⟩, ⟨[','], .comma, 2, 3⟩, ⟨['B'], .var, 4, 5⟩,
   ⟨['|'], .opOr, 6, 7⟩, ⟨['C'], .var, 8, 9⟩, ⟨[']'], .bracketClose, 9, 10⟩, ⟨['.'], .fullstop, 10, 11⟩]
example : lexed "[A, B | C]." = toks_e := by rfl
/-- Commas and bars may not be mixed in lists. -/
example : parseTerm 30 toks_e = .err (.asl "syntax") := by rfl

/-- `A + not B.` -/
private def toks_f : List Tok :=
  [⟨['A'], .var, 0, 1⟩, ⟨['+'], .opPlus, 2, 3⟩, ⟨['n', 'o', 't'], .opNot, 4, 7⟩, ⟨['B'], .var, 8, 9⟩,
   ⟨['.'], .fullstop, 9, 10⟩]
example : lexed "A + not B." = toks_f := by rfl
/-- `not` may not follow arithmetic operators. -/
example : parseTerm 30 toks_f = .err (.asl "syntax") := by rfl

/-- `A < B =.. C.` -/
private def toks_g : List Tok :=
  [⟨['A'], .var, 0, 1⟩, ⟨['<'], .opLt, 2, 3⟩, ⟨['B'], .var, 4, 5⟩, ⟨['=', '.', '.'], .opDecompose, 6, 9⟩,
   ⟨['C'], .var, 10, 11⟩, ⟨['.'], .fullstop, 11, 12⟩]
example : lexed "A < B =.. C." = toks_g := by rfl
example : parseTerm 30 toks_g = .ok (group .lt .decompose (v 'A') (v 'B') (v 'C'), [⟨['.'], .fullstop, 11, 12⟩]) := by rfl

example : groupUn .neg .pow (v 'A') (v 'B') = .un .neg (.bin .pow (v 'A') (v 'B')) := by rfl
example : Phrase 8 [⟨['A'], .var, 0, 1⟩] (v 'A') := .var rfl
example : AllProper (lexed "A < B =.. C.") := by
  have h : tokenize 1 ["A < B =.. C.".toList] = some _ := rfl
  exact C44_tokens h
example : Phrase 0 ((lexed "A - B.").take 3) (.bin .sub (v 'A') (v 'B')) :=
  (Phrase.bin (op := .sub) (t := ⟨['-'], .opMinus, 2, 3⟩) (xs := [⟨['A'], .var, 0, 1⟩]) rfl (.lift (l' := 8) (by decide) (by decide) (.var rfl))
    (.inl (.lift (l' := 8) (by decide) (by decide) (.var (t := ⟨['B'], .var, 4, 5⟩) rfl)))).lift (by decide) (by decide)

end examples

end Verif
