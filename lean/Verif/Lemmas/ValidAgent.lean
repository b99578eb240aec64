import Verif.Lemmas.Validate

/-! Validation finds exactly the agents that are valid. -/

namespace Verif

/-! ## Operators and linked lists in terms -/

mutual

theorem Ast.ops_zero : ∀ a : Ast, a.ops = 0 ↔ a.NoOps
  | .const c => by
    simp only [Ast.ops, true_iff]
    intro b h; cases h; exact id
  | .var x => by
    simp only [Ast.ops, true_iff]
    intro b h; cases h; exact id
  | .lit f ts as => by
    simp only [Ast.ops, Nat.add_eq_zero_iff, Ast.opsL_zero ts, Ast.opsL_zero as]
    constructor
    · rintro ⟨h1, h2⟩ b h
      cases h with
      | self => exact id
      | arg hx h => exact h1 _ hx b h
      | annot hx h => exact h2 _ hx b h
    · intro h
      exact ⟨fun x hx b hb => h b (.arg hx hb), fun x hx b hb => h b (.annot hx hb)⟩
  | .list ts => by
    simp only [Ast.ops, Ast.opsL_zero ts]
    constructor
    · intro h1 b h
      cases h with
      | self => exact id
      | item hx h => exact h1 _ hx b h
    · intro h x hx b hb
      exact h b (.item hx hb)
  | .linked x y => by
    simp only [Ast.ops, Nat.add_eq_zero_iff, Ast.ops_zero x, Ast.ops_zero y]
    constructor
    · rintro ⟨h1, h2⟩ b h
      cases h with
      | self => exact id
      | head h => exact h1 b h
      | tail h => exact h2 b h
    · intro h
      exact ⟨fun b hb => h b (.head hb), fun b hb => h b (.tail hb)⟩
  | .un op x => by
    simp only [Ast.ops]
    exact ⟨fun h => by omega, fun h => absurd trivial (h (.un op x) .self)⟩
  | .bin op x y => by
    simp only [Ast.ops]
    exact ⟨fun h => by omega, fun h => absurd trivial (h (.bin op x y) .self)⟩

theorem Ast.opsL_zero : ∀ ts : List Ast, Ast.opsL ts = 0 ↔ ∀ x ∈ ts, x.NoOps
  | [] => by simp [Ast.opsL]
  | a :: as => by simp [Ast.opsL, Ast.ops_zero a, Ast.opsL_zero as]

end

mutual

theorem Ast.findVars_ok : ∀ a : Ast, (∃ vs, a.findVars = .ok vs) ↔ a.NoLinked
  | .const c => by
    refine ⟨fun _ b h => ?_, fun _ => ⟨_, rfl⟩⟩
    cases h; exact id
  | .var x => by
    refine ⟨fun _ b h => ?_, fun _ => ⟨_, rfl⟩⟩
    cases h; exact id
  | .lit f ts as => by
    have h1 := Ast.findVarsL_ok ts
    have h2 := Ast.findVarsL_ok as
    rw [Ast.findVars]
    constructor
    · rintro ⟨vs, h⟩ b hb
      obtain ⟨xs, g1, h⟩ := Ev.bind_eq_ok.1 h
      obtain ⟨ys, g2, h⟩ := Ev.bind_eq_ok.1 h
      cases hb with
      | self => exact id
      | arg hx h => exact h1.1 ⟨_, g1⟩ _ hx b h
      | annot hx h => exact h2.1 ⟨_, g2⟩ _ hx b h
    · intro h
      obtain ⟨xs, g1⟩ := h1.2 fun x hx b hb => h b (.arg hx hb)
      obtain ⟨ys, g2⟩ := h2.2 fun x hx b hb => h b (.annot hx hb)
      rw [g1, Ev.bind_ok, g2]
      exact ⟨_, rfl⟩
  | .list ts => by
    rw [Ast.findVars, Ast.findVarsL_ok ts]
    constructor
    · intro h1 b h
      cases h with
      | self => exact id
      | item hx h => exact h1 _ hx b h
    · intro h x hx b hb
      exact h b (.item hx hb)
  | .linked x y => by
    rw [Ast.findVars]
    exact ⟨fun ⟨_, h⟩ => (by cases h), fun h => absurd trivial (h (.linked x y) .self)⟩
  | .un op x => by
    have h1 := Ast.findVars_ok x
    rw [Ast.findVars]
    constructor
    · rintro ⟨vs, h⟩ b hb
      obtain ⟨xs, g1, h⟩ := Ev.bind_eq_ok.1 h
      cases hb with
      | self => exact id
      | operand h => exact h1.1 ⟨_, g1⟩ b h
    · intro h
      obtain ⟨xs, g1⟩ := h1.2 fun b hb => h b (.operand hb)
      rw [g1]
      exact ⟨_, rfl⟩
  | .bin op x y => by
    have h1 := Ast.findVars_ok x
    have h2 := Ast.findVars_ok y
    rw [Ast.findVars]
    constructor
    · rintro ⟨vs, h⟩ b hb
      obtain ⟨xs, g1, h⟩ := Ev.bind_eq_ok.1 h
      obtain ⟨ys, g2, h⟩ := Ev.bind_eq_ok.1 h
      cases hb with
      | self => exact id
      | left h => exact h1.1 ⟨_, g1⟩ b h
      | right h => exact h2.1 ⟨_, g2⟩ b h
    · intro h
      obtain ⟨xs, g1⟩ := h1.2 fun b hb => h b (.left hb)
      obtain ⟨ys, g2⟩ := h2.2 fun b hb => h b (.right hb)
      rw [g1, Ev.bind_ok, g2]
      exact ⟨_, rfl⟩

theorem Ast.findVarsL_ok : ∀ ts : List Ast, (∃ vs, Ast.findVarsL ts = .ok vs) ↔ ∀ x ∈ ts, x.NoLinked
  | [] => by simp [Ast.findVarsL]
  | a :: as => by
    rw [Ast.findVarsL, List.forall_mem_cons, ← Ast.findVars_ok a, ← Ast.findVarsL_ok as]
    constructor
    · rintro ⟨vs, h⟩
      obtain ⟨xs, g1, h⟩ := Ev.bind_eq_ok.1 h
      obtain ⟨ys, g2, h⟩ := Ev.bind_eq_ok.1 h
      exact ⟨⟨_, g1⟩, _, g2⟩
    · rintro ⟨⟨xs, g1⟩, ys, g2⟩
      rw [g1, Ev.bind_ok, g2]
      exact ⟨_, rfl⟩

end

mutual

/-- Without operators, all variables have their names. -/
theorem Ast.findVars_names : ∀ (a : Ast) {vs}, a.NoOps → a.findVars = .ok vs → none ∉ vs
  | .const c, vs, _, h => by cases h; simp
  | .var x, vs, _, h => by cases h; simp
  | .lit f ts as, vs, hn, h => by
    rw [Ast.findVars] at h
    obtain ⟨xs, g1, h⟩ := Ev.bind_eq_ok.1 h
    obtain ⟨ys, g2, h⟩ := Ev.bind_eq_ok.1 h
    cases h
    have h1 := Ast.findVarsL_names ts (fun x hx b hb => hn b (.arg hx hb)) g1
    have h2 := Ast.findVarsL_names as (fun x hx b hb => hn b (.annot hx hb)) g2
    simp [h1, h2]
  | .list ts, vs, hn, h => by
    rw [Ast.findVars] at h
    exact Ast.findVarsL_names ts (fun x hx b hb => hn b (.item hx hb)) h
  | .linked x y, vs, hn, h => by cases h
  | .un op x, vs, hn, h => absurd trivial (hn (.un op x) .self)
  | .bin op x y, vs, hn, h => absurd trivial (hn (.bin op x y) .self)

theorem Ast.findVarsL_names : ∀ (ts : List Ast) {vs}, (∀ x ∈ ts, x.NoOps) → Ast.findVarsL ts = .ok vs → none ∉ vs
  | [], vs, _, h => by cases h; simp
  | a :: as, vs, hn, h => by
    rw [Ast.findVarsL] at h
    obtain ⟨xs, g1, h⟩ := Ev.bind_eq_ok.1 h
    obtain ⟨ys, g2, h⟩ := Ev.bind_eq_ok.1 h
    cases h
    have h1 := Ast.findVars_names a (hn _ (by simp)) g1
    have h2 := Ast.findVarsL_names as (fun x hx => hn _ (by simp [hx])) g2
    simp [h1, h2]

end

theorem checkBelief_plain {b : Ast} : checkBelief b 0 = .ok () 0 ↔ b.NoOps ∧ b.NoLinked := by
  rw [checkBelief_iff, Ast.ops_zero, ← Ast.findVars_ok]
  constructor
  · rintro ⟨h1, vs, h2, -⟩
    exact ⟨h1, vs, h2⟩
  · rintro ⟨h1, vs, h2⟩
    exact ⟨h1, vs, h2, Ast.findVars_names b h1 h2⟩

/-! ## Folding -/

section
variable [Arith]

omit [Arith] in
theorem each_iff {α : Type} {f : α → Nat → Res Nat (Option α)} {R : α → α → Prop} (hf : LogGrows f)
    (hR : ∀ x y, f x 0 = .ok (some y) 0 ↔ R x y) {xs ys : List α} : mapFold f xs 0 = .ok (some ys) 0 ↔ Each R xs ys := by
  induction xs generalizing ys with
  | nil =>
    constructor
    · intro h; cases h; exact .nil
    · intro h; cases h; rfl
  | cons x xs ih =>
    rw [mapFold_cons hf]
    constructor
    · rintro ⟨y, ys', rfl, h1, h2⟩
      exact .cons ((hR _ _).1 h1) (ih.1 h2)
    · intro h
      cases h with
      | cons h1 h2 => exact ⟨_, _, rfl, (hR _ _).2 h1, ih.2 h2⟩

omit [Arith] in
theorem eachOpt_iff {α : Type} {f : α → Nat → Res Nat (Option α)} {R : α → α → Prop}
    (hR : ∀ x y, f x 0 = .ok (some y) 0 ↔ R x y) {x y : Option α} : optFold f x 0 = .ok (some y) 0 ↔ EachOpt R x y := by
  cases x with
  | none =>
    constructor
    · intro h; cases h; exact .none
    · intro h; cases h; rfl
  | some x =>
    rw [optFold_some]
    constructor
    · rintro ⟨y, rfl, h⟩; exact .some ((hR _ _).1 h)
    · intro h; cases h with
      | some h => exact ⟨_, rfl, (hR _ _).2 h⟩

mutual

theorem stmtFolds_iff : ∀ x y : AStmt, foldStmt x 0 = .ok (some y) 0 ↔ StmtFolds x y
  | .formula ty t, y => by
    rw [foldStmt.eq_def]
    simp only
    by_cases hty : ty = .term
    · subst hty
      rw [if_pos rfl]
      constructor
      · intro h
        obtain ⟨o, s, h1, h2⟩ := Res.bind_eq_ok.1 h
        cases o with
        | none => cases h2
        | some b => cases h2; exact .term h1
      · intro h
        cases h with
        | term h => rw [show fold .logical t 0 = _ from h]; rfl
        | lit h _ => exact absurd rfl h
        | var h => exact absurd rfl h
    · rw [if_neg hty]
      cases t with
      | lit f ts as =>
        constructor
        · intro h
          obtain ⟨o, s, h1, h2⟩ := Res.bind_eq_ok.1 h
          cases o with
          | none => cases h2
          | some b => cases h2; exact .lit hty h1
        · intro h
          cases h with
          | term h => exact absurd rfl hty
          | lit _ h => simp only; rw [show fold .term (.lit f ts as) 0 = _ from h]; rfl
      | var x =>
        constructor
        · intro h; cases h; exact .var hty
        · intro h
          cases h with
          | term h => exact absurd rfl hty
          | var _ => rfl
      | _ =>
        constructor
        · intro h; cases h
        · intro h; cases h; exact absurd rfl hty
  | .while_ c b, y => by
    rw [foldStmt, pair_zero (fold_grows _) foldStmts_grows']
    constructor
    · rintro ⟨c', b', rfl, h1, h2⟩; exact .while_ h1 ((stmtsFold_iff _ _).1 h2)
    · intro h; cases h with
      | while_ h1 h2 => exact ⟨_, _, rfl, h1, (stmtsFold_iff _ _).2 h2⟩
  | .for_ c b, y => by
    rw [foldStmt, pair_zero (fold_grows _) foldStmts_grows']
    constructor
    · rintro ⟨c', b', rfl, h1, h2⟩; exact .for_ h1 ((stmtsFold_iff _ _).1 h2)
    · intro h; cases h with
      | for_ h1 h2 => exact ⟨_, _, rfl, h1, (stmtsFold_iff _ _).2 h2⟩
  | .if_ c b, y => by
    rw [foldStmt, pair_zero (fold_grows _) foldStmts_grows']
    constructor
    · rintro ⟨c', b', rfl, h1, h2⟩; exact .if_ h1 ((stmtsFold_iff _ _).1 h2)
    · intro h; cases h with
      | if_ h1 h2 => exact ⟨_, _, rfl, h1, (stmtsFold_iff _ _).2 h2⟩
  | .ifElse c b e, y => by
    rw [foldStmt]
    constructor
    · intro h
      obtain ⟨c', s1, h1, h2⟩ := Res.bind_eq_ok.1 h
      obtain ⟨b', s2, h3, h4⟩ := Res.bind_eq_ok.1 h2
      obtain ⟨e', s3, h5, h6⟩ := Res.bind_eq_ok.1 h4
      have q : (c'.bind fun c => b'.bind fun b => e'.map fun e => AStmt.ifElse c b e) = some y ∧ s3 = 0 := by
        injection h6 with e1 e2; exact ⟨e1, e2⟩
      obtain ⟨q, rfl⟩ := q
      cases foldStmts_grows'.zero h5
      cases foldStmts_grows'.zero h3
      cases c' <;> first | (cases q; done) | skip
      cases b' <;> first | (cases q; done) | skip
      cases e' <;> first | (cases q; done) | skip
      cases q
      exact .ifElse h1 ((stmtsFold_iff _ _).1 h3) ((stmtsFold_iff _ _).1 h5)
    · intro h
      cases h with
      | ifElse h1 h2 h3 =>
        rw [show fold .logical c 0 = _ from h1]
        show (foldStmts b 0).bind _ = _
        rw [(stmtsFold_iff _ _).2 h2]
        show (foldStmts e 0).bind _ = _
        rw [(stmtsFold_iff _ _).2 h3]
        rfl

theorem stmtsFold_iff : ∀ xs ys : List AStmt, foldStmts xs 0 = .ok (some ys) 0 ↔ StmtsFold xs ys
  | [], ys => by
    rw [foldStmts]
    constructor
    · intro h; cases h; exact .nil
    · intro h; cases h; rfl
  | x :: xs, ys => by
    rw [foldStmts, pair_zero foldStmt_grows foldStmts_grows']
    constructor
    · rintro ⟨y, ys', rfl, h1, h2⟩; exact .cons ((stmtFolds_iff _ _).1 h1) ((stmtsFold_iff _ _).1 h2)
    · intro h; cases h with
      | cons h1 h2 => exact ⟨_, _, rfl, (stmtFolds_iff _ _).2 h1, (stmtsFold_iff _ _).2 h2⟩

end

theorem ruleFolds_iff (x y : ARule) : foldRule x 0 = .ok (some y) 0 ↔ RuleFolds x y := by
  rw [foldRule, pair_zero (fold_grows _) (fold_grows _)]
  constructor
  · rintro ⟨h, c, rfl, h1, h2⟩; exact ⟨h1, h2⟩
  · rintro ⟨h1, h2⟩; exact ⟨_, _, rfl, h1, h2⟩

theorem planFolds_iff (x y : APlan) : foldPlan x 0 = .ok (some y) 0 ↔ PlanFolds x y := by
  rw [foldPlan, quad_zero (optFold_grows (fold_grows _)) (fold_grows _) (optFold_grows (fold_grows _)) (optFold_grows foldStmts_grows')]
  constructor
  · rintro ⟨l, h, c, b, rfl, h1, h2, h3, h4⟩
    exact ⟨(eachOpt_iff fun _ _ => .rfl).1 h1, rfl, rfl, h2, (eachOpt_iff fun _ _ => .rfl).1 h3, (eachOpt_iff stmtsFold_iff).1 h4⟩
  · rintro ⟨h1, h2, h3, h4, h5, h6⟩
    refine ⟨y.label, y.event.head, y.context, y.body, ?_, (eachOpt_iff fun _ _ => .rfl).2 h1, h4, (eachOpt_iff fun _ _ => .rfl).2 h5,
      (eachOpt_iff stmtsFold_iff).2 h6⟩
    obtain ⟨l, ⟨tr, g, h⟩, c, b⟩ := y
    simp only at h2 h3
    rw [h2, h3]

theorem validated_valid {a b : AAgent} : Validated a b ↔ ValidAgent a b := by
  rw [validated_iff, foldAgent_iff, each_iff foldRule_grows ruleFolds_iff, each_iff (fold_grows _) fun _ _ => Iff.rfl,
    each_iff (fold_grows _) fun _ _ => Iff.rfl, each_iff foldPlan_grows planFolds_iff]
  simp only [checkBelief_plain, Ast.ops_zero]
  constructor
  · rintro ⟨⟨h1, h2, h3, h4⟩, h5, h6, h7⟩; exact ⟨h1, h2, h3, h4, h5, h6, h7⟩
  · rintro ⟨h1, h2, h3, h4, h5, h6, h7⟩; exact ⟨⟨h1, h2, h3, h4⟩, h5, h6, h7⟩

end

end Verif
