import Verif.Lemmas.Told
import Verif.Lemmas.PrintValid

/-! The tokens of a plan that is told. -/

namespace Verif

/-! ## Terms of source texts remain such terms -/

section
variable [Floats]

mutual
theorem fill_source : ∀ (a : Ast) (as : List Ast) {b : Ast} {r : List Ast}, a.fill as = some (b, r) → a.Source → Ast.Sources as → b.Source ∧ Ast.Sources r
  | .const v, as, b, r, h, ha, hs => by
    simp only [Ast.fill, Option.some.injEq, Prod.mk.injEq] at h
    obtain ⟨rfl, rfl⟩ := h
    exact ⟨ha, hs⟩
  | .var x, as, b, r, h, ha, hs => by
    rw [Ast.fill.eq_def] at h
    simp only at h
    split at h
    · simp only [Option.some.injEq, Prod.mk.injEq] at h
      obtain ⟨rfl, rfl⟩ := h
      exact ⟨ha, hs⟩
    · cases as with
      | nil => cases h
      | cons a as =>
        simp only [Option.some.injEq, Prod.mk.injEq] at h
        obtain ⟨rfl, rfl⟩ := h
        exact hs
  | .lit f ts ns, as, b, r, h, ha, hs => by
    rw [Ast.fill] at h
    obtain ⟨⟨ts', as'⟩, h1, h⟩ := Option.bind_eq_some_iff.1 h
    obtain ⟨⟨ns', as''⟩, h2, h⟩ := Option.bind_eq_some_iff.1 h
    simp only [Option.some.injEq, Prod.mk.injEq] at h
    obtain ⟨rfl, rfl⟩ := h
    obtain ⟨k1, k2⟩ := fills_source ts as h1 ha.2.1 hs
    obtain ⟨k3, k4⟩ := fills_source ns as' h2 ha.2.2 k2
    exact ⟨⟨ha.1, k1, k3⟩, k4⟩
  | .list ts, as, b, r, h, ha, hs => by
    rw [Ast.fill] at h
    obtain ⟨⟨ts', as'⟩, h1, h⟩ := Option.bind_eq_some_iff.1 h
    simp only [Option.some.injEq, Prod.mk.injEq] at h
    obtain ⟨rfl, rfl⟩ := h
    exact fills_source ts as h1 ha hs
  | .linked x y, as, b, r, h, ha, hs => by
    rw [Ast.fill] at h
    obtain ⟨⟨ts', as'⟩, h1, h⟩ := Option.bind_eq_some_iff.1 h
    obtain ⟨⟨ns', as''⟩, h2, h⟩ := Option.bind_eq_some_iff.1 h
    simp only [Option.some.injEq, Prod.mk.injEq] at h
    obtain ⟨rfl, rfl⟩ := h
    obtain ⟨k1, k2⟩ := fill_source x as h1 ha.1 hs
    obtain ⟨k3, k4⟩ := fill_source y as' h2 ha.2 k2
    exact ⟨⟨k1, k3⟩, k4⟩
  | .un op x, as, b, r, h, ha, hs => by
    rw [Ast.fill] at h
    obtain ⟨⟨ts', as'⟩, h1, h⟩ := Option.bind_eq_some_iff.1 h
    simp only [Option.some.injEq, Prod.mk.injEq] at h
    obtain ⟨rfl, rfl⟩ := h
    have := fill_source x as h1 ha hs
    exact this
  | .bin op x y, as, b, r, h, ha, hs => by
    rw [Ast.fill] at h
    obtain ⟨⟨ts', as'⟩, h1, h⟩ := Option.bind_eq_some_iff.1 h
    obtain ⟨⟨ns', as''⟩, h2, h⟩ := Option.bind_eq_some_iff.1 h
    simp only [Option.some.injEq, Prod.mk.injEq] at h
    obtain ⟨rfl, rfl⟩ := h
    obtain ⟨k1, k2⟩ := fill_source x as h1 ha.1 hs
    obtain ⟨k3, k4⟩ := fill_source y as' h2 ha.2 k2
    exact ⟨⟨k1, k3⟩, k4⟩
theorem fills_source : ∀ (ts : List Ast) (as : List Ast) {b : List Ast} {r : List Ast}, Ast.fills ts as = some (b, r) → Ast.Sources ts → Ast.Sources as →
    Ast.Sources b ∧ Ast.Sources r
  | [], as, b, r, h, ha, hs => by
    simp only [Ast.fills, Option.some.injEq, Prod.mk.injEq] at h
    obtain ⟨rfl, rfl⟩ := h
    exact ⟨ha, hs⟩
  | x :: y, as, b, r, h, ha, hs => by
    rw [Ast.fills] at h
    obtain ⟨⟨ts', as'⟩, h1, h⟩ := Option.bind_eq_some_iff.1 h
    obtain ⟨⟨ns', as''⟩, h2, h⟩ := Option.bind_eq_some_iff.1 h
    simp only [Option.some.injEq, Prod.mk.injEq] at h
    obtain ⟨rfl, rfl⟩ := h
    obtain ⟨k1, k2⟩ := fill_source x as h1 ha.1 hs
    obtain ⟨k3, k4⟩ := fills_source y as' h2 ha.2 k2
    exact ⟨⟨k1, k3⟩, k4⟩
end

end

mutual
theorem fill_finite : ∀ (a : Ast) (as : List Ast) {b : Ast} {r : List Ast}, a.fill as = some (b, r) → a.Finite → Ast.Finites as → b.Finite ∧ Ast.Finites r
  | .const v, as, b, r, h, ha, hs => by
    simp only [Ast.fill, Option.some.injEq, Prod.mk.injEq] at h
    obtain ⟨rfl, rfl⟩ := h
    exact ⟨ha, hs⟩
  | .var x, as, b, r, h, ha, hs => by
    rw [Ast.fill.eq_def] at h
    simp only at h
    split at h
    · simp only [Option.some.injEq, Prod.mk.injEq] at h
      obtain ⟨rfl, rfl⟩ := h
      exact ⟨ha, hs⟩
    · cases as with
      | nil => cases h
      | cons a as =>
        simp only [Option.some.injEq, Prod.mk.injEq] at h
        obtain ⟨rfl, rfl⟩ := h
        exact hs
  | .lit f ts ns, as, b, r, h, ha, hs => by
    rw [Ast.fill] at h
    obtain ⟨⟨ts', as'⟩, h1, h⟩ := Option.bind_eq_some_iff.1 h
    obtain ⟨⟨ns', as''⟩, h2, h⟩ := Option.bind_eq_some_iff.1 h
    simp only [Option.some.injEq, Prod.mk.injEq] at h
    obtain ⟨rfl, rfl⟩ := h
    obtain ⟨k1, k2⟩ := fills_finite ts as h1 ha.1 hs
    obtain ⟨k3, k4⟩ := fills_finite ns as' h2 ha.2 k2
    exact ⟨⟨k1, k3⟩, k4⟩
  | .list ts, as, b, r, h, ha, hs => by
    rw [Ast.fill] at h
    obtain ⟨⟨ts', as'⟩, h1, h⟩ := Option.bind_eq_some_iff.1 h
    simp only [Option.some.injEq, Prod.mk.injEq] at h
    obtain ⟨rfl, rfl⟩ := h
    exact fills_finite ts as h1 ha hs
  | .linked x y, as, b, r, h, ha, hs => by
    rw [Ast.fill] at h
    obtain ⟨⟨ts', as'⟩, h1, h⟩ := Option.bind_eq_some_iff.1 h
    obtain ⟨⟨ns', as''⟩, h2, h⟩ := Option.bind_eq_some_iff.1 h
    simp only [Option.some.injEq, Prod.mk.injEq] at h
    obtain ⟨rfl, rfl⟩ := h
    obtain ⟨k1, k2⟩ := fill_finite x as h1 ha.1 hs
    obtain ⟨k3, k4⟩ := fill_finite y as' h2 ha.2 k2
    exact ⟨⟨k1, k3⟩, k4⟩
  | .un op x, as, b, r, h, ha, hs => by
    rw [Ast.fill] at h
    obtain ⟨⟨ts', as'⟩, h1, h⟩ := Option.bind_eq_some_iff.1 h
    simp only [Option.some.injEq, Prod.mk.injEq] at h
    obtain ⟨rfl, rfl⟩ := h
    have := fill_finite x as h1 ha hs
    exact this
  | .bin op x y, as, b, r, h, ha, hs => by
    rw [Ast.fill] at h
    obtain ⟨⟨ts', as'⟩, h1, h⟩ := Option.bind_eq_some_iff.1 h
    obtain ⟨⟨ns', as''⟩, h2, h⟩ := Option.bind_eq_some_iff.1 h
    simp only [Option.some.injEq, Prod.mk.injEq] at h
    obtain ⟨rfl, rfl⟩ := h
    obtain ⟨k1, k2⟩ := fill_finite x as h1 ha.1 hs
    obtain ⟨k3, k4⟩ := fill_finite y as' h2 ha.2 k2
    exact ⟨⟨k1, k3⟩, k4⟩
theorem fills_finite : ∀ (ts : List Ast) (as : List Ast) {b : List Ast} {r : List Ast}, Ast.fills ts as = some (b, r) → Ast.Finites ts → Ast.Finites as →
    Ast.Finites b ∧ Ast.Finites r
  | [], as, b, r, h, ha, hs => by
    simp only [Ast.fills, Option.some.injEq, Prod.mk.injEq] at h
    obtain ⟨rfl, rfl⟩ := h
    exact ⟨ha, hs⟩
  | x :: y, as, b, r, h, ha, hs => by
    rw [Ast.fills] at h
    obtain ⟨⟨ts', as'⟩, h1, h⟩ := Option.bind_eq_some_iff.1 h
    obtain ⟨⟨ns', as''⟩, h2, h⟩ := Option.bind_eq_some_iff.1 h
    simp only [Option.some.injEq, Prod.mk.injEq] at h
    obtain ⟨rfl, rfl⟩ := h
    obtain ⟨k1, k2⟩ := fill_finite x as h1 ha.1 hs
    obtain ⟨k3, k4⟩ := fills_finite y as' h2 ha.2 k2
    exact ⟨⟨k1, k3⟩, k4⟩
end

/-- A literal remains one. -/
theorem fill_lit {a : Ast} (ha : a.IsLit) {as : List Ast} {b : Ast} {r : List Ast} (h : a.fill as = some (b, r)) : b.IsLit := by
  obtain ⟨f, ts, ns, rfl⟩ := ha
  rw [Ast.fill] at h
  obtain ⟨⟨ts', as'⟩, h1, h⟩ := Option.bind_eq_some_iff.1 h
  obtain ⟨⟨ns', as''⟩, h2, h⟩ := Option.bind_eq_some_iff.1 h
  simp only [Option.some.injEq, Prod.mk.injEq] at h
  exact ⟨_, _, _, h.1.symm⟩

section
variable [Floats]

theorem sources_append {as bs : List Ast} (h1 : Ast.Sources as) (h2 : Ast.Sources bs) : Ast.Sources (as ++ bs) := by
  induction as with
  | nil => exact h2
  | cons a as ih => exact ⟨h1.1, ih h1.2⟩

omit [Floats] in
theorem finites_append {as bs : List Ast} (h1 : Ast.Finites as) (h2 : Ast.Finites bs) : Ast.Finites (as ++ bs) := by
  induction as with
  | nil => exact h2
  | cons a as ih => exact ⟨h1.1, ih h1.2⟩

theorem terms_source {a : Ast} (h : a.Source) : Ast.Sources a.terms := by
  cases a with
  | lit f ts as => exact h.2.1
  | list ts => exact h
  | _ => trivial

omit [Floats] in
theorem terms_finite {a : Ast} (h : a.Finite) : Ast.Finites a.terms := by
  cases a with
  | lit f ts as => exact h.1
  | list ts => exact h
  | _ => trivial

theorem flatMap_source {as : List Ast} (h : Ast.Sources as) : Ast.Sources (as.flatMap Ast.terms) := by
  induction as with
  | nil => trivial
  | cons a as ih => rw [List.flatMap_cons]; exact sources_append (terms_source h.1) (ih h.2)

omit [Floats] in
theorem flatMap_finite {as : List Ast} (h : Ast.Finites as) : Ast.Finites (as.flatMap Ast.terms) := by
  induction as with
  | nil => trivial
  | cons a as ih => rw [List.flatMap_cons]; exact finites_append (terms_finite h.1) (ih h.2)

theorem planArgs_source {a : Ast} (h : a.Source) : Ast.Sources (planArgs a) := by
  refine sources_append (terms_source h) ?_
  cases a with
  | lit f ts as => exact flatMap_source h.2.2
  | _ => exact flatMap_source (as := []) trivial

omit [Floats] in
theorem planArgs_finite {a : Ast} (h : a.Finite) : Ast.Finites (planArgs a) := by
  refine finites_append (terms_finite h) ?_
  cases a with
  | lit f ts as => exact flatMap_finite h.2
  | _ => exact flatMap_finite (as := []) trivial

/-! ## The context -/

/-- The text of a query. -/
def Ast.ctx : Ast → List Char
  | .bin .and l r => '(' :: l.ctx ++ " & ".toList ++ r.ctx ++ [')']
  | .bin .or l r => '(' :: l.ctx ++ " | ".toList ++ r.ctx ++ [')']
  | .un .not a => "not ".toList ++ a.print
  | a => a.print

/-- The query has this text. -/
theorem query_show {W : Wording} {acts : Lookup} {vars : List Char → Term} (hn : Naming vars) {c : Ast} {q : Query Act} (h : QueryOf acts vars c q)
    (ha : c.Askable acts) (hf : c.Finite) (hc : c.Chars) : q.show W = .ok (c.rename (W.name vars)).ctx := by
  induction h with
  | act h => rw [Ast.Askable, h] at ha; cases ha
  | belief h => exact congrArg Ev.ok (pyStr_build W hn (a := .lit _ _ _) trivial hf hc)
  | tru => exact ha.elim
  | fls => exact ha.elim
  | and _ _ ih1 ih2 =>
    rw [Query.show, ih1 ha.1 hf.1 hc.1, ih2 ha.2 hf.2 hc.2]
    rfl
  | or _ _ ih1 ih2 =>
    rw [Query.show, ih1 ha.1 hf.1 hc.1, ih2 ha.2 hf.2 hc.2]
    rfl
  | not h _ =>
    cases h with
    | act h => exact congrArg (fun u => Ev.ok ("not ".toList ++ u)) (pyStr_build W hn (a := .lit _ _ _) trivial hf hc)
    | belief h => exact congrArg (fun u => Ev.ok ("not ".toList ++ u)) (pyStr_build W hn (a := .lit _ _ _) trivial hf hc)
    | comp h => exact congrArg (fun u => Ev.ok ("not ".toList ++ u)) (pyStr_build W hn (a := .bin _ _ _) trivial hf hc)
    | var => exact congrArg (fun u => Ev.ok ("not ".toList ++ u)) (pyStr_build W hn (a := .var _) trivial hf hc)
    | unify => cases ha
    | _ => first | exact ha.elim | cases ha
  | unify =>
    rw [Query.show, pyStr_build W hn ha.1 hf.1 hc.1, pyStr_build W hn ha.2 hf.2 hc.2, Ast.rename, Ast.ctx, Ast.print]
    · simp [BinOp.lexeme]
    all_goals (intros; rename_i e; cases e)
  | @comp op l r h =>
    have e := pyStr_build W hn (a := .bin op l r) trivial hf hc
    rw [Ast.build] at e
    rw [Query.show, e, Ast.rename, Ast.ctx]
    all_goals (intros; rename_i e; cases e; try cases h)
  | var => exact congrArg Ev.ok (pyStr_build W hn (a := .var _) trivial hf hc)

theorem ctx_head : ∀ (c : Ast), c.Shown → ∃ d u, c.ctx = d :: u ∧ Visible d
  | .bin .and l r, _ => ⟨'(', _, rfl, by decide, by decide, by decide, by decide, by decide⟩
  | .bin .or l r, _ => ⟨'(', _, rfl, by decide, by decide, by decide, by decide, by decide⟩
  | .un .not a, _ => ⟨'n', _, rfl, by decide, by decide, by decide, by decide, by decide⟩
  | a, h => by
    unfold Ast.ctx
    split
    · exact ⟨'(', _, rfl, by decide, by decide, by decide, by decide, by decide⟩
    · exact ⟨'(', _, rfl, by decide, by decide, by decide, by decide, by decide⟩
    · exact ⟨'n', _, rfl, by decide, by decide, by decide, by decide, by decide⟩
    · exact print_head h

section
variable [Unicode]

theorem ctx_other {a : Ast} (hs : a.Shown) (e : a.ctx = a.print) (col : Nat) {r : List Char} (hr : Bound r) : ∃ ts, Lexed a.ctx col r ts ∧ Phrase 2 ts a.raw := by
  obtain ⟨ts, h1, h2, -⟩ := shown_lexed a hs col r hr
  have := a.top_le
  rw [e]
  exact ⟨ts, h1, h2.lift (by omega) (by omega)⟩

theorem ctx_bin {op : BinOp} (ho : op.level ≤ 1) {l r : Ast} (hr : r.Shown) {rest : List Char} {col : Nat} {us vs : List Tok}
    (h1 : Lexed l.ctx (col + 1) (' ' :: (op.lexeme ++ ' ' :: (r.ctx ++ ')' :: rest))) us) (p1 : Phrase 2 us l.raw)
    (h2 : Lexed r.ctx (col + 1 + l.ctx.length + 1 + op.lexeme.length + 1) (')' :: rest) vs) (p2 : Phrase 2 vs r.raw) :
    ∃ ts, Lexed ('(' :: l.ctx ++ ' ' :: op.lexeme ++ ' ' :: r.ctx ++ [')']) col rest ts ∧ Phrase 2 ts (.bin op l.raw r.raw) := by
  obtain ⟨d, w, e, hd⟩ := ctx_head r hr
  obtain ⟨d', w', e', hd'⟩ : ∃ d u, op.lexeme = d :: u ∧ Unicode.space d = false := by
    cases op <;> first | exact ⟨_, _, rfl, by rw [Unicode.space_ascii _ (by decide)]; decide⟩
  have l6 := Lexed.append h2 ((close_next rest).lexed _)
  have l5 := Lexed.append (lexed_space (r := r.ctx ++ [')'] ++ rest) (by rw [e]; simp [hd.space]) (col + 1 + l.ctx.length + 1 + op.lexeme.length)) l6
  have l4 := Lexed.append ((binop_next op (r.ctx ++ [')'] ++ rest)).lexed (col + 1 + l.ctx.length + 1)) l5
  have l3 := Lexed.append (lexed_space (r := op.lexeme ++ ([' '] ++ (r.ctx ++ [')'])) ++ rest) (by rw [e']; simp [hd']) (col + 1 + l.ctx.length)) l4
  have l2 := Lexed.append (v := [' '] ++ (op.lexeme ++ ([' '] ++ (r.ctx ++ [')'])))) (r := rest) (by simpa using h1) l3
  have l1 := Lexed.append ((open_next (l.ctx ++ ([' '] ++ (op.lexeme ++ ([' '] ++ (r.ctx ++ [')'])))) ++ rest)).lexed col) l2
  have p := Phrase.paren (o := ⟨['('], .parenOpen, col, col + 1⟩)
    (c := ⟨[')'], .parenClose, col + 1 + l.ctx.length + 1 + op.lexeme.length + 1 + r.ctx.length, col + 1 + l.ctx.length + 1 + op.lexeme.length + 1 + r.ctx.length + 1⟩) rfl
    ((Phrase.bin (op := op) (t := ⟨op.lexeme, op.kind, col + 1 + l.ctx.length + 1, col + 1 + l.ctx.length + 1 + op.lexeme.length⟩) rfl
      (p1.lift (by omega) (by omega)) (.inl (p2.lift (by omega) (by omega)))).lift (Nat.zero_le _) (by omega)) rfl
  refine ⟨_, ?_, (p.lift (l := 2) (by omega) (by omega))⟩
  simpa using l1

/-- The tokens of a query. -/
theorem ctx_lexed : ∀ (c : Ast), c.Shown → ∀ (col : Nat) (r : List Char), Bound r → ∃ ts, Lexed c.ctx col r ts ∧ Phrase 2 ts c.raw
  | .bin op x y, hs, col, r, hr => by
    have key : op.level ≤ 1 → ∃ ts, Lexed ('(' :: x.ctx ++ ' ' :: op.lexeme ++ ' ' :: y.ctx ++ [')']) col r ts ∧ Phrase 2 ts (.bin op x.raw y.raw) := by
      intro ho
      obtain ⟨us, h1, p1⟩ := ctx_lexed x hs.1 (col + 1) (' ' :: (op.lexeme ++ ' ' :: (y.ctx ++ ')' :: r))) (bound_cons (by simp) _)
      obtain ⟨vs, h2, p2⟩ := ctx_lexed y hs.2.1 (col + 1 + x.ctx.length + 1 + op.lexeme.length + 1) (')' :: r) (bound_cons (by simp) _)
      exact ctx_bin ho hs.2.1 h1 p1 h2 p2
    cases op with
    | and => simpa [Ast.ctx, BinOp.lexeme, Ast.raw] using key (by decide)
    | or => simpa [Ast.ctx, BinOp.lexeme, Ast.raw] using key (by decide)
    | _ => exact ctx_other hs rfl col hr
  | .un .not a, hs, col, r, hr => by
    obtain ⟨d, w, e, hd⟩ := print_head (a := a) hs
    obtain ⟨us, h1, p1, -⟩ := shown_lexed a hs (col + UnOp.not.lexeme.length + 1) r hr
    have l2 := Lexed.append (lexed_space (r := a.print ++ r) (by rw [e]; simp [hd.space]) (col + UnOp.not.lexeme.length)) h1
    have l1 := Lexed.append ((unop_next .not (a.print ++ r)).lexed col) l2
    have := a.top_le
    refine ⟨_, by simpa [Ast.ctx, UnOp.lexeme] using l1, ?_⟩
    rw [Ast.raw]
    exact .not (t := ⟨_, .opNot, _, _⟩) rfl (p1.lift (by omega) (by omega))
  | .un .neg a, hs, col, r, hr => ctx_other hs rfl col hr
  | .un .pos a, hs, col, r, hr => ctx_other hs rfl col hr
  | .const v, hs, col, r, hr => ctx_other hs rfl col hr
  | .var x, hs, col, r, hr => ctx_other hs rfl col hr
  | .lit f ts as, hs, col, r, hr => ctx_other hs rfl col hr
  | .list ts, hs, col, r, hr => ctx_other hs rfl col hr
  | .linked h t, hs, col, r, hr => ctx_other hs rfl col hr

/-! ## The whole text -/

omit [Floats] in
theorem arrow_space {r : List Char} (hr : ∀ c ∈ r.head?, Unicode.space c = false) (col : Nat) : ∃ t : Tok, Lexed " <- ".toList col r [t] ∧ t.kind = .arrow := by
  have lt_sp : Unicode.space '<' = false := by rw [Unicode.space_ascii _ (by decide)]; decide
  have l3 := Lexed.append (u := ['<', '-']) (col := col + 1) ((symbol_next (k := .arrow) (c := '<') (t := ['-']) (r := ' ' :: r) rfl (by simp [Kind.longer]) (by decide)).lexed (col + 1))
    (lexed_space hr (col + 1 + 2))
  have l1 := Lexed.append (lexed_space (r := ['<', '-'] ++ [' '] ++ r) (by simp [lt_sp]) col) l3
  exact ⟨_, l1, rfl⟩

/-- The context with the colon. -/
theorem colon_lexed {c : Ast} (hc : c.Shown) (col : Nat) {r : List Char} (hr : Bound r) :
    ∃ ts, Lexed (" : ".toList ++ c.ctx) col r ts ∧ OptPhrase .colon (Phrase 0) ts (some c.raw) := by
  obtain ⟨d, u, e, hd⟩ := ctx_head c hc
  have colon_sp : Unicode.space ':' = false := by rw [Unicode.space_ascii _ (by decide)]; decide
  obtain ⟨ts, h1, h2⟩ := ctx_lexed c hc (col + 1 + 1 + 1) r hr
  have l3 := Lexed.append (lexed_space (space_head e hd r) (col + 1 + 1)) h1
  have l2 := Lexed.append ((symbol_next (k := .colon) (c := ':') (t := []) (r := [' '] ++ c.ctx ++ r) rfl (by simp [Kind.longer]) (by decide)).lexed (col + 1)) l3
  have l1 := Lexed.append (lexed_space (r := [':'] ++ ([' '] ++ c.ctx) ++ r) (by simp [colon_sp]) col) l2
  exact ⟨_, by simpa using l1, .some (t := ⟨_, .colon, _, _⟩) rfl (h2.lift (by omega) (by omega))⟩

/-- The label with a space. -/
theorem label_lexed (o : Option Ast) (hl : ∀ l ∈ o, l.IsLit ∧ l.Shown) (col : Nat) {r : List Char} (hr : ∀ c ∈ r.head?, Unicode.space c = false) :
    ∃ ts, Lexed (labelStr o) col r ts ∧ OptPhrase .at_ LitPhrase ts (o.map Ast.raw) := by
  cases o with
  | none => exact ⟨[], .nil _ _, .none⟩
  | some l =>
    obtain ⟨h1, h2⟩ := hl l rfl
    obtain ⟨ts, h3, h4⟩ := lit_lexed h1 h2 (col + 1) (r := ' ' :: r) (bound_cons (by simp) _)
    have l2 := Lexed.append (v := [' ']) h3 (lexed_space hr _)
    have l1 := Lexed.append ((symbol_next (k := .at_) (c := '@') (t := []) (r := l.print ++ [' '] ++ r) rfl (by simp [Kind.longer]) (by decide)).lexed col) l2
    exact ⟨_, by simpa [labelStr] using l1, .some (t := ⟨['@'], .at_, _, _⟩) rfl h4⟩

/-- The text before the body. -/
def toldHead (l : Option Ast) (e : AEvent) (c : Ast) : List Char := labelStr l ++ (e.print ++ ((" : ".toList ++ c.ctx) ++ " <- ".toList))

omit [Floats] [Unicode] in
theorem event_print [Floats] (e : AEvent) : ∃ d u, e.print = d :: u ∧ Visible d := by
  obtain ⟨tr, g, a⟩ := e
  cases tr
  · exact ⟨'+', _, rfl, by decide, by decide, by decide, by decide, by decide⟩
  · exact ⟨'-', _, rfl, by decide, by decide, by decide, by decide, by decide⟩

/-- Its tokens. -/
theorem toldHead_lexed {l : Option Ast} {e : AEvent} {c : Ast} (hl : ∀ x ∈ l, x.IsLit ∧ x.Shown)
    (hg : e.goalType = .belief ∨ e.goalType = .achievement ∨ e.goalType = .test) (h1 : e.head.IsLit) (h2 : e.head.Shown) (hc : c.Shown)
    {r : List Char} (hr : ∀ c ∈ r.head?, Unicode.space c = false) (col : Nat) :
    ∃ as bs cs t, Lexed (toldHead l e c) col r (as ++ (bs ++ (cs ++ [t]))) ∧ OptPhrase .at_ LitPhrase as (l.map Ast.raw) ∧
      EventPhrase bs ⟨e.trigger, e.goalType, e.head.raw⟩ ∧ OptPhrase .colon (Phrase 0) cs (some c.raw) ∧ t.kind = .arrow := by
  obtain ⟨d, u, ed, hd⟩ := event_print e
  obtain ⟨as, k1, p1⟩ := label_lexed l hl col (r := e.print ++ ((" : ".toList ++ c.ctx) ++ " <- ".toList) ++ r) (by rw [ed]; simp [hd.space])
  obtain ⟨bs, k2, p2⟩ := event_lexed hg h1 h2 (col + (labelStr l).length) (r := (" : ".toList ++ c.ctx) ++ " <- ".toList ++ r) (bound_cons (c := ' ') (by simp) _)
  obtain ⟨cs, k3, p3⟩ := colon_lexed hc (col + (labelStr l).length + e.print.length) (r := " <- ".toList ++ r) (bound_cons (c := ' ') (by simp) _)
  obtain ⟨t, k4, p4⟩ := arrow_space hr (col + (labelStr l).length + e.print.length + (" : ".toList ++ c.ctx).length)
  exact ⟨as, bs, cs, t, .append k1 (.append k2 (.append k3 k4)), p1, p2, p3, p4⟩

omit [Unicode] in
theorem lines_zero (s : AStmt) : ∃ u ls, s.lines = (0, u) :: ls := by
  cases s with
  | ifElse c b e => cases e <;> (rw [AStmt.lines]; exact ⟨_, _, rfl⟩)
  | _ => rw [AStmt.lines]; exact ⟨_, _, rfl⟩

omit [Floats] [Unicode] in
theorem addLast_zero {v : List Char} {ls : List TextLine} (h : ∃ u ks, ls = (0, u) :: ks) : ∃ u ks, addLast v ls = (0, u) :: ks := by
  obtain ⟨u, ks, rfl⟩ := h
  cases ks with
  | nil => exact ⟨_, _, rfl⟩
  | cons k ks => exact ⟨_, _, addLast_cons (by simp)⟩

omit [Unicode] in
theorem bodyLines_zero {b : List AStmt} (hb : b ≠ []) : ∃ u ls, bodyLines (AStmt.liness b) = (0, u) :: ls := by
  match b, hb with
  | [s], _ => exact lines_zero s
  | s :: s' :: ss, _ =>
    obtain ⟨u, ls, e⟩ := addLast_zero (v := [';']) (lines_zero s)
    exact ⟨u, _, by rw [AStmt.liness, AStmt.liness, bodyLines, e]; rfl; simp⟩

omit [Floats] in
/-- Text before the first line. -/
theorem LinesLexed.addFirst {v u r : List Char} {k : Nat} {ls : List TextLine} {ts : List Tok} (h : LinesLexed v.length k r ((0, u) :: ls) ts)
    {Q : List Tok → Prop} (hv : ∀ r', ∃ us, Lexed v 0 (u ++ r') us ∧ Q us) : ∃ us, LinesLexed 0 k r ((0, v ++ u) :: ls) (us ++ ts) ∧ Q us := by
  cases h with
  | last h =>
    obtain ⟨us, h1, h2⟩ := hv r
    exact ⟨us, .last (.append h1 (by simpa using h)), h2⟩
  | cons h h' =>
    obtain ⟨us, h1, h2⟩ := hv ['\n']
    rename_i ts us'
    refine ⟨us, ?_, h2⟩
    rw [← List.append_assoc]
    exact .cons (.append h1 (by simpa using h)) h'

omit [Floats] [Unicode] in
theorem allText_first {v u : List Char} {ls : List TextLine} : allText ((0, v ++ u) :: ls) = v ++ allText ((0, u) :: ls) := by
  cases ls with
  | nil => simp [allText, joinLines, TextLine.text]
  | cons l ls =>
    rw [allText_cons (k := (0, v ++ u)) (by simp), allText_cons (k := (0, u)) (by simp)]
    simp [TextLine.text]

omit [Unicode] in
theorem ctx_plain : ∀ (c : Ast), c.Shown → PlainText c.ctx
  | .bin .and l r, h => .append (.append (.append (.append (u := ['(']) (by unfold PlainText; decide) (ctx_plain l h.1)) (by unfold PlainText; decide)) (ctx_plain r h.2.1)) (by unfold PlainText; decide)
  | .bin .or l r, h => .append (.append (.append (.append (u := ['(']) (by unfold PlainText; decide) (ctx_plain l h.1)) (by unfold PlainText; decide)) (ctx_plain r h.2.1)) (by unfold PlainText; decide)
  | .un .not a, h => .append (by unfold PlainText; decide) (print_plain a h)
  | a, h => by
    unfold Ast.ctx
    split
    · exact .append (.append (.append (.append (u := ['(']) (by unfold PlainText; decide) (ctx_plain _ h.1)) (by unfold PlainText; decide)) (ctx_plain _ h.2.1)) (by unfold PlainText; decide)
    · exact .append (.append (.append (.append (u := ['(']) (by unfold PlainText; decide) (ctx_plain _ h.1)) (by unfold PlainText; decide)) (ctx_plain _ h.2.1)) (by unfold PlainText; decide)
    · exact .append (by unfold PlainText; decide) (print_plain _ h)
    · exact print_plain a h

omit [Unicode] in
theorem toldHead_plain {l : Option Ast} {e : AEvent} {c : Ast} (hl : ∀ x ∈ l, x.Shown)
    (hg : e.goalType = .belief ∨ e.goalType = .achievement ∨ e.goalType = .test) (h2 : e.head.Shown) (hc : c.Shown) :
    ∃ d w, toldHead l e c = d :: w ∧ Visible d ∧ PlainText w := by
  have h3 : PlainText ((" : ".toList ++ c.ctx) ++ " <- ".toList) :=
    .append (.append (by unfold PlainText; decide) (ctx_plain c hc)) (by unfold PlainText; decide)
  have h4 : ∃ d u, e.print = d :: u ∧ Visible d ∧ PlainText u := by
    have hg' : PlainText e.goalType.lexeme := by
      rcases hg with h | h | h <;> rw [h] <;> (unfold PlainText; decide)
    obtain ⟨tr, g, a⟩ := e
    cases tr
    · exact ⟨'+', g.lexeme ++ a.print, by simp [AEvent.print, Trigger.lexeme], ⟨by decide, by decide, by decide, by decide, by decide⟩, .append hg' (print_plain a h2)⟩
    · exact ⟨'-', g.lexeme ++ a.print, by simp [AEvent.print, Trigger.lexeme], ⟨by decide, by decide, by decide, by decide, by decide⟩, .append hg' (print_plain a h2)⟩
  obtain ⟨d, u, e1, hd, hu⟩ := h4
  cases l with
  | none => exact ⟨d, u ++ _, by rw [toldHead, e1]; rfl, hd, .append hu h3⟩
  | some l =>
    refine ⟨'@', (l.print ++ [' ']) ++ (e.print ++ ((" : ".toList ++ c.ctx) ++ " <- ".toList)), rfl, ⟨by decide, by decide, by decide, by decide, by decide⟩, ?_⟩
    refine .append (.append (print_plain l (hl l rfl)) (by unfold PlainText; decide)) (.append ?_ h3)
    rw [e1]
    exact .append (u := [d]) (plain_visible (by simpa using hd)) hu

/-- The tokens of the whole text. -/
theorem told_lexed {l : Option Ast} {e : AEvent} {c : Ast} {b : List AStmt} (hl : ∀ x ∈ l, x.IsLit ∧ x.Shown)
    (hg : e.goalType = .belief ∨ e.goalType = .achievement ∨ e.goalType = .test) (h1 : e.head.IsLit) (h2 : e.head.Shown) (hc : c.Shown)
    (hb : b ≠ []) (hs : AStmt.ShownL b) :
    ∃ ts t evs, PlanPhrase ts ⟨l.map Ast.raw, ⟨e.trigger, e.goalType, e.head.raw⟩, some c.raw, some (AStmt.reads Ast.raw b)⟩ ∧
      t.kind = .fullstop ∧ AllProper (ts ++ [t]) ∧
      tokenize 1 (fileLines (toldHead l e c ++ printBody b ++ ['.'])) = some evs ∧ evs.map Prod.snd = (ts ++ [t]).map LexEv.tok := by
  obtain ⟨d, w, ev, hd, hw⟩ := toldHead_plain (fun x hx => (hl x hx).2) hg h2 hc
  have bs : Bound ['.'] := bound_stop
  obtain ⟨ws, k1, p1⟩ := body_lexed b hb hs (toldHead l e c).length 0 (['.'] ++ []) bs
  obtain ⟨us, k2, t, rfl, ht⟩ := k1.addLast (stop_lexed (.inl rfl))
  have hf : ∀ l ∈ addLast ['.'] (bodyLines (AStmt.liness b)), l.Filled :=
    addLast_filled (by unfold PlainText; decide) (bodyLines_filled (liness_filled b hs))
  obtain ⟨u, ls, e1⟩ := addLast_zero (v := ['.']) (bodyLines_zero hb)
  have et : allText ((0, u) :: ls) = printBody b ++ ['.'] := by
    rw [← e1, allText_addLast (bodyLines_ne (by simpa [liness_nil] using hb) (liness_ne b)), printBody, prints_lines b hs, joinStmts_lines (liness_ne b)]
  rw [e1] at k2 hf
  obtain ⟨c', u', eu, hc', hu'⟩ := hf (0, u) (by simp)
  simp only at eu
  obtain ⟨vs, k3, as, bs, cs, a, rfl, q1, q2, q3, q4⟩ := k2.addFirst (Q := fun us => ∃ as bs cs t, us = as ++ (bs ++ (cs ++ [t])) ∧
      OptPhrase .at_ LitPhrase as (l.map Ast.raw) ∧ EventPhrase bs ⟨e.trigger, e.goalType, e.head.raw⟩ ∧
      OptPhrase .colon (Phrase 0) cs (some c.raw) ∧ t.kind = .arrow) (fun r' => by
    obtain ⟨as, bs, cs, t, j1, j2⟩ := toldHead_lexed hl hg h1 h2 hc (r := u ++ r') (by rw [eu]; simp [hc'.space]) 0
    exact ⟨_, j1, as, bs, cs, t, rfl, j2⟩)
  have hfill : TextLine.Filled (0, toldHead l e c ++ u) := ⟨d, w ++ u, by rw [ev]; rfl, hd, .append hw (by rw [eu]; exact .append (u := [c']) (plain_visible (by simpa using hc')) hu')⟩
  have hall : ∀ x ∈ (0, toldHead l e c ++ u) :: ls, TextLine.Filled x := by
    intro x hx
    rcases List.mem_cons.1 hx with rfl | hx
    · exact hfill
    · exact hf x (List.mem_cons_of_mem _ hx)
  obtain ⟨evs, j1, j2⟩ := file_lexed k3 1 (fun x hx => .inl (hall x hx)) (fun x hx => hall x (List.mem_of_getLast? hx))
  have pp := PlanPhrase.mk q1 q2 q3 (.some q4 p1)
  have ets : as ++ (bs ++ (cs ++ [a])) ++ (ws ++ [t]) = as ++ bs ++ cs ++ (a :: ws) ++ [t] := by simp
  rw [ets] at j2 k3
  refine ⟨_, t, evs, pp, ht, k3.proper, ?_, j2⟩
  rw [List.append_assoc, ← et, ← allText_first]
  exact j1

end

end

/-! ## Heads that arrive as they were -/

mutual
theorem fill_varSeq : ∀ (a : Ast) (r : List Ast), a.fill (a.varSeq.map .var ++ r) = some (a, r)
  | .const v, r => rfl
  | .var x, r => by
    rw [Ast.varSeq, Ast.fill.eq_def]
    simp only
    split <;> rfl
  | .lit f ts as, r => by
    rw [Ast.varSeq, Ast.fill, List.map_append, List.append_assoc, fills_varSeqs ts]
    simp only [Option.bind_some, fills_varSeqs as]
  | .list ts, r => by rw [Ast.varSeq, Ast.fill, fills_varSeqs ts]; rfl
  | .linked h t, r => by
    rw [Ast.varSeq, Ast.fill, List.map_append, List.append_assoc, fill_varSeq h]
    simp only [Option.bind_some, fill_varSeq t]
  | .un op a, r => by rw [Ast.varSeq, Ast.fill, fill_varSeq a]; rfl
  | .bin op x y, r => by
    rw [Ast.varSeq, Ast.fill, List.map_append, List.append_assoc, fill_varSeq x]
    simp only [Option.bind_some, fill_varSeq y]
theorem fills_varSeqs : ∀ (as : List Ast) (r : List Ast), Ast.fills as ((Ast.varSeqs as).map .var ++ r) = some (as, r)
  | [], r => rfl
  | a :: as, r => by
    rw [Ast.varSeqs, Ast.fills, List.map_append, List.append_assoc, fill_varSeq a]
    simp only [Option.bind_some, fills_varSeqs as]
end

mutual
theorem fill_same : ∀ (a : Ast) {as r : List Ast}, a.fill as = some (a, r) → as = a.varSeq.map .var ++ r
  | .const v, as, r, h => by
    simp only [Ast.fill, Option.some.injEq, Prod.mk.injEq, true_and] at h
    exact h
  | .var x, as, r, h => by
    rw [Ast.fill.eq_def] at h
    simp only at h
    rw [Ast.varSeq]
    split at h
    · next hx =>
      simp only [Option.some.injEq, Prod.mk.injEq, true_and] at h
      rw [if_pos hx]
      exact h
    · next hx =>
      rw [if_neg hx]
      cases as with
      | nil => cases h
      | cons a as =>
        simp only [Option.some.injEq, Prod.mk.injEq] at h
        obtain ⟨rfl, rfl⟩ := h
        rfl
  | .lit f ts ns, as, r, h => by
    rw [Ast.fill] at h
    obtain ⟨⟨ts', as'⟩, h1, h⟩ := Option.bind_eq_some_iff.1 h
    obtain ⟨⟨ns', as''⟩, h2, h⟩ := Option.bind_eq_some_iff.1 h
    simp only [Option.some.injEq, Prod.mk.injEq, Ast.lit.injEq, true_and] at h
    obtain ⟨⟨rfl, rfl⟩, rfl⟩ := h
    rw [Ast.varSeq, fills_same _ h1, fills_same _ h2]
    simp
  | .list ts, as, r, h => by
    rw [Ast.fill] at h
    obtain ⟨⟨ts', as'⟩, h1, h⟩ := Option.bind_eq_some_iff.1 h
    simp only [Option.some.injEq, Prod.mk.injEq, Ast.list.injEq] at h
    obtain ⟨rfl, rfl⟩ := h
    rw [Ast.varSeq, fills_same _ h1]
  | .linked x y, as, r, h => by
    rw [Ast.fill] at h
    obtain ⟨⟨ts', as'⟩, h1, h⟩ := Option.bind_eq_some_iff.1 h
    obtain ⟨⟨ns', as''⟩, h2, h⟩ := Option.bind_eq_some_iff.1 h
    simp only [Option.some.injEq, Prod.mk.injEq, Ast.linked.injEq] at h
    obtain ⟨⟨rfl, rfl⟩, rfl⟩ := h
    rw [Ast.varSeq, fill_same _ h1, fill_same _ h2]
    simp
  | .un op x, as, r, h => by
    rw [Ast.fill] at h
    obtain ⟨⟨ts', as'⟩, h1, h⟩ := Option.bind_eq_some_iff.1 h
    simp only [Option.some.injEq, Prod.mk.injEq, Ast.un.injEq, true_and] at h
    obtain ⟨rfl, rfl⟩ := h
    rw [Ast.varSeq, fill_same _ h1]
  | .bin op x y, as, r, h => by
    rw [Ast.fill] at h
    obtain ⟨⟨ts', as'⟩, h1, h⟩ := Option.bind_eq_some_iff.1 h
    obtain ⟨⟨ns', as''⟩, h2, h⟩ := Option.bind_eq_some_iff.1 h
    simp only [Option.some.injEq, Prod.mk.injEq, Ast.bin.injEq, true_and] at h
    obtain ⟨⟨rfl, rfl⟩, rfl⟩ := h
    rw [Ast.varSeq, fill_same _ h1, fill_same _ h2]
    simp
theorem fills_same : ∀ (ts : List Ast) {as r : List Ast}, Ast.fills ts as = some (ts, r) → as = (Ast.varSeqs ts).map .var ++ r
  | [], as, r, h => by
    simp only [Ast.fills, Option.some.injEq, Prod.mk.injEq, true_and] at h
    exact h
  | x :: y, as, r, h => by
    rw [Ast.fills] at h
    obtain ⟨⟨ts', as'⟩, h1, h⟩ := Option.bind_eq_some_iff.1 h
    obtain ⟨⟨ns', as''⟩, h2, h⟩ := Option.bind_eq_some_iff.1 h
    simp only [Option.some.injEq, Prod.mk.injEq, List.cons.injEq] at h
    obtain ⟨⟨rfl, rfl⟩, rfl⟩ := h
    rw [Ast.varSeqs, fill_same _ h1, fills_same _ h2]
    simp
end

mutual
theorem rename_closed (ρ : List Char → List Char) (hρ : ρ ['_'] = ['_']) : ∀ (a : Ast), a.varSeq = [] → a.rename ρ = a
  | .const v, _ => rfl
  | .var x, h => by
    rw [Ast.varSeq] at h
    split at h
    · next hx => rw [Ast.rename, hx, hρ]
    · cases h
  | .lit f ts as, h => by
    rw [Ast.varSeq, List.append_eq_nil_iff] at h
    rw [Ast.rename, renames_closed ρ hρ ts h.1, renames_closed ρ hρ as h.2]
  | .list ts, h => by rw [Ast.rename, renames_closed ρ hρ ts h]
  | .linked x y, h => by
    rw [Ast.varSeq, List.append_eq_nil_iff] at h
    rw [Ast.rename, rename_closed ρ hρ x h.1, rename_closed ρ hρ y h.2]
  | .un op x, h => by rw [Ast.rename, rename_closed ρ hρ x h]
  | .bin op x y, h => by
    rw [Ast.varSeq, List.append_eq_nil_iff] at h
    rw [Ast.rename, rename_closed ρ hρ x h.1, rename_closed ρ hρ y h.2]
theorem renames_closed (ρ : List Char → List Char) (hρ : ρ ['_'] = ['_']) : ∀ (as : List Ast), Ast.varSeqs as = [] → Ast.renames ρ as = as
  | [], _ => rfl
  | a :: as, h => by
    rw [Ast.varSeqs, List.append_eq_nil_iff] at h
    rw [Ast.renames, rename_closed ρ hρ a h.1, renames_closed ρ hρ as h.2]
end

mutual
theorem fill_length : ∀ (a : Ast) {as : List Ast} {b : Ast} {r : List Ast}, a.fill as = some (b, r) → as.length = a.varSeq.length + r.length
  | .const v, as, b, r, h => by
    simp only [Ast.fill, Option.some.injEq, Prod.mk.injEq] at h
    obtain ⟨-, rfl⟩ := h
    exact (Nat.zero_add _).symm
  | .var x, as, b, r, h => by
    rw [Ast.fill.eq_def] at h
    simp only at h
    rw [Ast.varSeq]
    split at h
    · next hx =>
      simp only [Option.some.injEq, Prod.mk.injEq] at h
      obtain ⟨-, rfl⟩ := h
      rw [if_pos hx]
      exact (Nat.zero_add _).symm
    · next hx =>
      rw [if_neg hx]
      cases as with
      | nil => cases h
      | cons a as =>
        simp only [Option.some.injEq, Prod.mk.injEq] at h
        obtain ⟨-, rfl⟩ := h
        simp; omega
  | .lit f ts ns, as, b, r, h => by
    rw [Ast.fill] at h
    obtain ⟨⟨ts', as'⟩, h1, h⟩ := Option.bind_eq_some_iff.1 h
    obtain ⟨⟨ns', as''⟩, h2, h⟩ := Option.bind_eq_some_iff.1 h
    simp only [Option.some.injEq, Prod.mk.injEq] at h
    obtain ⟨-, rfl⟩ := h
    have e1 := fills_length ts h1
    have e2 := fills_length ns h2
    rw [Ast.varSeq, List.length_append, e1, e2]
    omega
  | .list ts, as, b, r, h => by
    rw [Ast.fill] at h
    obtain ⟨⟨ts', as'⟩, h1, h⟩ := Option.bind_eq_some_iff.1 h
    simp only [Option.some.injEq, Prod.mk.injEq] at h
    obtain ⟨-, rfl⟩ := h
    have e1 := fills_length ts h1
    rw [Ast.varSeq, e1]
  | .linked x y, as, b, r, h => by
    rw [Ast.fill] at h
    obtain ⟨⟨ts', as'⟩, h1, h⟩ := Option.bind_eq_some_iff.1 h
    obtain ⟨⟨ns', as''⟩, h2, h⟩ := Option.bind_eq_some_iff.1 h
    simp only [Option.some.injEq, Prod.mk.injEq] at h
    obtain ⟨-, rfl⟩ := h
    have e1 := fill_length x h1
    have e2 := fill_length y h2
    rw [Ast.varSeq, List.length_append, e1, e2]
    omega
  | .un op x, as, b, r, h => by
    rw [Ast.fill] at h
    obtain ⟨⟨ts', as'⟩, h1, h⟩ := Option.bind_eq_some_iff.1 h
    simp only [Option.some.injEq, Prod.mk.injEq] at h
    obtain ⟨-, rfl⟩ := h
    have e1 := fill_length x h1
    rw [Ast.varSeq, e1]
  | .bin op x y, as, b, r, h => by
    rw [Ast.fill] at h
    obtain ⟨⟨ts', as'⟩, h1, h⟩ := Option.bind_eq_some_iff.1 h
    obtain ⟨⟨ns', as''⟩, h2, h⟩ := Option.bind_eq_some_iff.1 h
    simp only [Option.some.injEq, Prod.mk.injEq] at h
    obtain ⟨-, rfl⟩ := h
    have e1 := fill_length x h1
    have e2 := fill_length y h2
    rw [Ast.varSeq, List.length_append, e1, e2]
    omega
theorem fills_length : ∀ (ts : List Ast) {as : List Ast} {b : List Ast} {r : List Ast}, Ast.fills ts as = some (b, r) → as.length = (Ast.varSeqs ts).length + r.length
  | [], as, b, r, h => by
    simp only [Ast.fills, Option.some.injEq, Prod.mk.injEq] at h
    obtain ⟨-, rfl⟩ := h
    exact (Nat.zero_add _).symm
  | x :: y, as, b, r, h => by
    rw [Ast.fills] at h
    obtain ⟨⟨ts', as'⟩, h1, h⟩ := Option.bind_eq_some_iff.1 h
    obtain ⟨⟨ns', as''⟩, h2, h⟩ := Option.bind_eq_some_iff.1 h
    simp only [Option.some.injEq, Prod.mk.injEq] at h
    obtain ⟨-, rfl⟩ := h
    have e1 := fill_length x h1
    have e2 := fills_length y h2
    rw [Ast.varSeqs, List.length_append, e1, e2]
    omega
end

section
variable [Floats]

mutual
theorem stmt_source_shown : ∀ (s : AStmt), s.AllTerms (fun a => a.Source ∧ a.Finite) → s.Shown ∧ s.read Ast.raw = s.read id
  | .formula ty t, h => by
    obtain ⟨h1, h2, h3⟩ := source_shown t h.1 h.2
    exact ⟨⟨h1, fun _ => h3⟩, by rw [AStmt.read, AStmt.read, h2]; rfl⟩
  | .while_ c b, h => by
    obtain ⟨h1, h2, h3⟩ := source_shown c h.1.1 h.1.2
    obtain ⟨h4, h5⟩ := stmts_source_shown b h.2
    exact ⟨⟨h1, h4⟩, by rw [AStmt.read, AStmt.read, h2, h5]; rfl⟩
  | .for_ c b, h => by
    obtain ⟨h1, h2, h3⟩ := source_shown c h.1.1 h.1.2
    obtain ⟨h4, h5⟩ := stmts_source_shown b h.2
    exact ⟨⟨h1, h4⟩, by rw [AStmt.read, AStmt.read, h2, h5]; rfl⟩
  | .if_ c b, h => by
    obtain ⟨h1, h2, h3⟩ := source_shown c h.1.1 h.1.2
    obtain ⟨h4, h5⟩ := stmts_source_shown b h.2
    exact ⟨⟨h1, h4⟩, by rw [AStmt.read, AStmt.read, h2, h5]; rfl⟩
  | .ifElse c b [], h => by
    obtain ⟨h1, h2, h3⟩ := source_shown c h.1.1 h.1.2
    obtain ⟨h4, h5⟩ := stmts_source_shown b h.2.1
    exact ⟨⟨h1, h4, trivial⟩, by rw [AStmt.read, AStmt.read, h2, h5]; rfl⟩
  | .ifElse c b (e :: es), h => by
    obtain ⟨h1, h2, h3⟩ := source_shown c h.1.1 h.1.2
    obtain ⟨h4, h5⟩ := stmts_source_shown b h.2.1
    obtain ⟨h6, h7⟩ := stmt_source_shown e h.2.2.1
    obtain ⟨h8, h9⟩ := stmts_source_shown es h.2.2.2
    exact ⟨⟨h1, h4, h6, h8⟩, by rw [AStmt.read, AStmt.read, h2, h5, h7, h9]; rfl⟩
theorem stmts_source_shown : ∀ (ss : List AStmt), AStmt.AllTermsL (fun a => a.Source ∧ a.Finite) ss →
    AStmt.ShownL ss ∧ AStmt.reads Ast.raw ss = AStmt.reads id ss
  | [], _ => ⟨trivial, rfl⟩
  | s :: ss, h => by
    obtain ⟨h1, h2⟩ := stmt_source_shown s h.1
    obtain ⟨h3, h4⟩ := stmts_source_shown ss h.2
    exact ⟨⟨h1, h3⟩, by rw [AStmt.reads, AStmt.reads, h2, h4]⟩
end

end

theorem toksOf_toks (ts : List Tok) : toksOf (ts.map LexEv.tok) = ts := by
  induction ts with
  | nil => rfl
  | cons t ts ih => simpa [toksOf] using ih

end Verif
