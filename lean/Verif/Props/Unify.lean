import Verif.Lemmas.Models
import Verif.Lemmas.Ground
import Verif.Lemmas.Trail
import Verif.Lemmas.SymmetryRuns
import Verif.Spec.ExactArith

/-!
# Properties C01–C08: unification

`unify n l r b` is the model of `unify(l, r, scope, stack)`; `n` is the fuel, `b`
holds `scope` and `stack`.  All theorems hold for every fuel, or state that every
sufficiently large fuel gives the same result ("the call returns").
-/

namespace Verif

section
variable [Arith]

/-- **C01.** If `unify` returns `True`, the assignments consistent with the new scope
are exactly those consistent with the old scope that make `l` and `r` equal: the
bindings are a most general unifier. -/
theorem C01_unify_mgu {cmp : Bool} {n : Nat} {l r : Term} {b b' : BSt}
    (hsc : ScopeOK cmp b.scope) (hl : l.NoWild ∧ l.Tame cmp) (hr : r.NoWild ∧ r.Tame cmp)
    (h : unify n l r b = .ok true b') :
    ScopeOK cmp b'.scope ∧ ∀ σ : Asg, Models σ b'.scope ↔ Models σ b.scope ∧ Agree σ l r :=
  (unify_ok n l r b hsc hl.2 hr.2 (Or.inl ⟨hl.1, hr.1⟩)).yes b' h

/-- **C01**, completeness: for expression-free terms, whenever some assignment consistent
with the scope makes `l` and `r` equal, `unify` returns `True`. -/
theorem C01_unify_complete {l r : Term} {b : BSt} (hl : l.NoWild ∧ l.NoExpr) (hr : r.NoWild ∧ r.NoExpr)
    (hw : ∀ x t, b.scope x = some t → t.NoWild) (he : ScopeNoExpr b.scope) (hac : Acyclic b.scope)
    (hσ : ∃ σ : Asg, Models σ b.scope ∧ Agree σ l r) :
    ∃ N b', (∀ n, N ≤ n → unify n l r b = .ok true b') ∧ Acyclic b'.scope := by
  obtain ⟨σ, hσ, v, h1, h2⟩ := hσ
  have hsc : ScopeOK false b.scope := fun x t h => ⟨hw x t h, (he x t h).tame⟩
  obtain ⟨N, a, b', hN, _, hac'⟩ := unify_done (σ := σ) v.size l r b hl.2 hr.2 he hac
    (Or.inr (Or.inr ⟨hl.1, hr.1, hsc, hσ, v, h1, h2, Nat.le_refl _⟩))
  cases a with
  | true => exact ⟨N, b', hN, hac'⟩
  | false =>
    exact absurd ⟨v, h1, h2⟩ ((unify_ok (c := false) N l r b hsc hl.2.tame hr.2.tame
      (Or.inl ⟨hl.1, hr.1⟩)).no b' (hN N (Nat.le_refl _)) σ hσ)

/-- **C02.** If `unify` returns `False`, no assignment consistent with the scope makes
`l` and `r` equal. -/
theorem C02_unify_false {cmp : Bool} {n : Nat} {l r : Term} {b b' : BSt}
    (hsc : ScopeOK cmp b.scope) (hl : l.NoWild ∧ l.Tame cmp) (hr : r.NoWild ∧ r.Tame cmp)
    (h : unify n l r b = .ok false b') :
    ∀ σ : Asg, Models σ b.scope → ¬ Agree σ l r :=
  (unify_ok n l r b hsc hl.2 hr.2 (Or.inl ⟨hl.1, hr.1⟩)).no b' h

/-- **C03.** Ground terms: `unify` returns, leaves scope and stack alone, and the answer
is `True` iff the terms have the same structure. -/
theorem C03_unify_ground {l r : Term} (hl : l.Closed) (hr : r.Closed) :
    ∃ N, ∀ n, N ≤ n → ∀ b : BSt, unify n l r b = .ok (decide (l.val = r.val)) b :=
  unify_says _ l r rfl hl hr

/-- **C04.** Whatever the outcome (`True`, `False` or an exception), the stack has grown
by exactly the variables that became bound, each once, and bindings that existed before
are unchanged. -/
theorem C04_unify_trail {n : Nat} {l r : Term} {b b' : BSt} (h : (unify n l r b).leaves b') :
    (∀ x t, b.scope x = some t → b'.scope x = some t) ∧
    ∃ xs : List VarId, b'.stack = xs.map Entry.v ++ b.stack ∧ xs.Nodup ∧
      ∀ x, x ∈ xs ↔ b.scope x = none ∧ b'.scope x ≠ none := by
  obtain ⟨xs, g⟩ := unify_grow n l r b b' h
  refine ⟨fun x t hx => ?_, xs, g.stack, g.nodup, fun x => ⟨fun hx => ⟨g.wasFree x hx, g.isBound x hx⟩, ?_⟩⟩
  · rw [← hx]; refine g.frame x fun hm => ?_
    rw [g.wasFree x hm] at hx; simp at hx
  · intro ⟨h1, h2⟩
    by_cases hm : x ∈ xs
    · exact hm
    · exact absurd ((g.frame x hm).trans h1) h2

/-- What may happen to scope and stack between pushing a choicepoint and rerolling to
it: binding a variable, running a unification (whatever its outcome), pushing another
choicepoint, or a complete block of such activities that ends with rerolling to its own
choicepoint. -/
inductive Activity : BSt → BSt → Prop
  | refl (b) : Activity b b
  | bind {a b b' x t} : Activity a b → bindVar x t b = .ok () b' → Activity a b'
  | unify {a b b' n l r} : Activity a b → (unify n l r b).leaves b' → Activity a b'
  | choice {a b} : Activity a b → Activity a b.mark
  | block {a b b'} : Activity a b → Activity b.mark b' → Activity a (reroll b' b.ncp)

theorem Activity.above {a b : BSt} (h : Activity a b) : Above a b := by
  induction h with
  | refl => exact Above.refl _
  | bind _ h ih => exact ih.trans (bindVar_grow (Or.inl ⟨_, h⟩)).above
  | unify _ h ih => exact ih.trans (unify_grow _ _ _ _ _ h).above
  | choice _ ih => exact ih.trans (above_mark _)
  | block _ _ ih ih' =>
    rw [reroll_mark ih']
    exact ih.trans (above_same (Nat.le_trans (above_ncp (above_mark _)) (above_ncp ih')))

/-- **C05.** After pushing a fresh choicepoint and any activity, `reroll` to that
choicepoint restores scope and stack. -/
theorem C05_reroll_undoes {b b' : BSt} (h : Activity b.mark b') :
    (reroll b' b.ncp).scope = b.scope ∧ (reroll b' b.ncp).stack = b.stack := by
  rw [reroll_mark h.above]
  exact ⟨rfl, rfl⟩

/-- **C06.** If `unify(l, r)` and `unify(r, l)` return, from the same scope, they return the same
answer.  The bindings they leave are the same, apart from the direction in which variables are
bound to each other; so they admit the same assignments.  This holds for all terms (also with
wildcards and expressions, and if the bindings become cyclic) and after `False` as well; the
scope may be anything in which no variable is bound to a wildcard. -/
theorem C06_unify_symm {n m : Nat} {l r : Term} {b b₁ b₂ : BSt} {a₁ a₂ : Bool} (hw : ∀ x, b.scope x ≠ some .wild)
    (h₁ : unify n l r b = .ok a₁ b₁) (h₂ : unify m r l b = .ok a₂ b₂) :
    a₁ = a₂ ∧ SameBindings b₁.scope b₂.scope ∧ ∀ σ : Asg, Models σ b₁.scope ↔ Models σ b₂.scope := by
  obtain ⟨u₁, _⟩ := unify_related n l r b a₁ b₁ hw h₁
  obtain ⟨u₂, _⟩ := unify_related m r l b a₂ b₂ hw h₂
  obtain ⟨ha, hs⟩ := Unifies.det (SameBindings.refl _) u₂.symm u₁
  exact ⟨ha, hs, fun σ => ⟨hs.models, hs.symm.models⟩⟩

/-- **C06**, what the hypothesis asks of the scope is kept by `unify`, whatever its outcome. -/
theorem C06_no_wild {n : Nat} {l r : Term} {b b' : BSt} {a : Bool} (hw : ∀ x, b.scope x ≠ some .wild)
    (h : unify n l r b = .ok a b') : ∀ x, b'.scope x ≠ some .wild :=
  (unify_related n l r b a b' hw h).2

/-- **C06**, and where no wildcards occur: if one of the calls returns, so does the other, with the
same answer. -/
theorem C06_returns {n : Nat} {l r : Term} {b b₁ : BSt} {a : Bool} (hs : ∀ x t, b.scope x = some t → t.NoWild)
    (hl : l.NoWild) (hr : r.NoWild) (h : unify n l r b = .ok a b₁) : ∃ m b₂, unify m r l b = .ok a b₂ :=
  unify_returns hs hl hr h

/-- **C06**, with a wildcard one of the calls can raise an exception while the other returns: an
expression is not evaluated if the wildcard is on the left. -/
theorem C06_wildcard (b : BSt) : unify 3 .wild (.un .neg (.str "a")) b = .ok true b ∧
    unify 3 (.un .neg (.str "a")) .wild b = .err (.asl "bad operand type") b := ⟨rfl, rfl⟩

/-- **C07.** Unifying an expression-free pattern (with variables and wildcards) with a
ground term returns; the answer is `True` iff some assignment consistent with the scope
turns the pattern into that term, each wildcard standing for anything; new bindings are
ground. -/
theorem C07_match_ground {p g : Term} {b : BSt} (hp : p.NoExpr) (hg : g.Closed)
    (hw : ∀ x t, b.scope x = some t → t.NoWild) (he : ScopeNoExpr b.scope) (hac : Acyclic b.scope) :
    ∃ N a b', (∀ n, N ≤ n → unify n p g b = .ok a b') ∧
      (a = true ↔ ∃ σ : Asg, Models σ b.scope ∧ Agree σ p g) ∧
      (a = true → ∀ σ : Asg, Models σ b'.scope ↔ Models σ b.scope ∧ Agree σ p g) ∧
      ∀ x t, b'.scope x = some t → b.scope x = some t ∨ t.Closed := by
  have hsc : ScopeOK false b.scope := fun x t h => ⟨hw x t h, (he x t h).tame⟩
  let σ₀ : Asg := fun _ => .nil
  obtain ⟨v, hv⟩ := den_exists (σ := σ₀) g hg
  obtain ⟨N, a, b', hN, he', hac'⟩ := unify_done (σ := σ₀) v.size p g b hp hg.noExpr he hac
    (Or.inr (Or.inl ⟨hg, v, hv, Nat.le_refl _⟩))
  have hok := unify_ok (c := false) N p g b hsc hp.tame hg.noExpr.tame (Or.inr (Or.inr hg))
  have hN' := hN N (Nat.le_refl _)
  refine ⟨N, a, b', hN, ?_, ?_, unify_newClosed N p g b b' (Or.inr hg) (Or.inl ⟨a, hN'⟩)⟩
  · cases a with
    | true =>
      have y := hok.yes b' hN'
      have hm := modelOf_models hac' he' fun x t h => (y.1 x t h).1
      exact ⟨fun _ => ⟨_, (y.2 _).1 hm⟩, fun _ => rfl⟩
    | false =>
      simp only [Bool.false_eq_true, false_iff]
      rintro ⟨σ, h1, h2⟩
      exact hok.no b' hN' σ h1 h2
  · rintro rfl
    exact (hok.yes b' hN').2

/-! ## C08 -/

/-- `X = f(X)`-like scope: `0` is bound to `g(0)`, `1` to `g(1)`. -/
theorem cyclic_diverges (b : BSt) (h0 : b.scope 0 = some (.lit "g" [.var 0] []))
    (h1 : b.scope 1 = some (.lit "g" [.var 1] [])) :
    ∀ n, unify n (.var 0) (.var 1) b = .oof ∧ unify n (.lit "g" [.var 0] []) (.var 1) b = .oof
  | 0 => ⟨rfl, rfl⟩
  | n + 1 => by
    have ih := cyclic_diverges b h0 h1 n
    constructor
    · rw [unify]
      simp only [Term.isObj, if_true, methUnify, varUnify, h0]
      match n, ih with
      | 0, _ => rfl
      | 1, _ => simp [deref, h0]
      | k + 2, ih => simp [deref, h0, ih.2]
    · rw [unify]
      simp only [Term.isObj, if_true, methUnify, litUnify]
      match n, ih with
      | 0, _ => simp [evaluate]
      | 1, _ => simp [evaluate, h1, deref]
      | 2, _ => simp [evaluate, h1, deref]
      | k + 3, ih =>
        simp [evaluate, h1, deref, unifyAll, ih.1]

/-- **C08 is false of the code** (no occurs check): unifying `f(X, Y, X)` with
`f(g(X), g(Y), Y)` in the empty scope never returns. -/
theorem C08_unify_diverges :
    ∃ l r : Term, l.NoExpr ∧ l.NoWild ∧ r.NoExpr ∧ r.NoWild ∧ ∀ n, unify n l r BSt.init = .oof := by
  refine ⟨.lit "f" [.var 0, .var 1, .var 0] [],
    .lit "f" [.lit "g" [.var 0] [], .lit "g" [.var 1] [], .var 1] [], by simp, by simp, by simp, by simp, ?_⟩
  intro n
  match n with
  | 0 => rfl
  | 1 => simp [unify, Term.isObj, methUnify, litUnify, evaluate]
  | 2 => simp [unify, Term.isObj, methUnify, litUnify, evaluate, unifyAll, varUnify, BSt.init, Scope.empty]
  | k + 3 =>
    rw [unify]
    simp only [Term.isObj, if_true, methUnify, litUnify]
    have e0 : ∀ sc, evaluate (k + 2) sc (.lit "f" [.lit "g" [.var 0] [], .lit "g" [.var 1] [], .var 1] []) =
      .ok (.lit "f" [.lit "g" [.var 0] [], .lit "g" [.var 1] [], .var 1] []) := fun sc => by simp [evaluate]
    have e1 : ∀ b : BSt, ∀ x y, b.scope x = none → unify (k + 2) (.var x) (.lit "g" [.var y] []) b =
        .ok true { b with scope := b.scope.set x (.lit "g" [.var y] []), stack := .v x :: b.stack } := by
      intro b x y hx
      simp [unify, Term.isObj, methUnify, varUnify, hx, evaluate, bindVar]
    simp only [e0, Res.lift_ok, Res.bind_ok, unifyAll]
    rw [e1 _ 0 0 (by rfl)]
    simp only [Res.bind_ok, if_true]
    rw [e1 _ 1 1 (by rfl)]
    simp only [Res.bind_ok, if_true]
    rw [(cyclic_diverges _ (by simp [Scope.set]) (by simp [Scope.set]) (k + 2)).1]
    rfl

/-- **C08** (part): from an acyclic scope, unification of expression-free terms returns
if one side is ground, or if the two sides have a solution at all. -/
theorem C08_unify_terminates_partial {l r : Term} {b : BSt} (hl : l.NoExpr) (hr : r.NoExpr)
    (he : ScopeNoExpr b.scope) (hac : Acyclic b.scope)
    (h : l.Closed ∨ r.Closed ∨ (l.NoWild ∧ r.NoWild ∧ (∀ x t, b.scope x = some t → t.NoWild) ∧
      ∃ σ : Asg, Models σ b.scope ∧ Agree σ l r)) :
    ∃ N a b', (∀ n, N ≤ n → unify n l r b = .ok a b') ∧ ScopeNoExpr b'.scope ∧ Acyclic b'.scope := by
  rcases h with h | h | ⟨h1, h2, h3, σ, h4, v, h5, h6⟩
  · obtain ⟨v, hv⟩ := den_exists (σ := fun _ => .nil) l h
    exact unify_done v.size l r b hl hr he hac (Or.inl ⟨h, v, hv, Nat.le_refl _⟩)
  · obtain ⟨v, hv⟩ := den_exists (σ := fun _ => .nil) r h
    exact unify_done v.size l r b hl hr he hac (Or.inr (Or.inl ⟨h, v, hv, Nat.le_refl _⟩))
  · exact unify_done (σ := σ) v.size l r b hl hr he hac (Or.inr (Or.inr
      ⟨h1, h2, fun x t h => ⟨h3 x t h, (he x t h).tame⟩, h4, v, h5, h6, Nat.le_refl _⟩))

end

/-! ## The hypotheses are satisfiable -/

section examples

attribute [local instance] exactArith

/-- `f(X, [a|T])` -/
def exL : Term := .lit "f" [.var 0, .cons (.atom "a") (.var 1)] []
/-- `f(g(Y), [Z, b])` -/
def exR : Term := .lit "f" [.lit "g" [.var 2] [], .tup [.var 3, .atom "b"]] []

/-- A non-trivial run for C01: `X ↦ g(Y)`, `Z ↦ a`, `T ↦ [b]`. -/
example : ∃ b', unify 9 exL exR BSt.init = .ok true b' ∧
    b'.scope 0 = some (.lit "g" [.var 2] []) ∧ b'.scope 3 = some (.atom "a") ∧
    b'.scope 1 = some (.tup [.atom "b"]) ∧ b'.stack = [.v 1, .v 3, .v 0] :=
  ⟨_, rfl, rfl, rfl, rfl, rfl⟩

example : ScopeOK true BSt.init.scope := by intro x t h; simp [BSt.init, Scope.empty] at h
example : exL.NoWild ∧ exL.Tame true ∧ exL.NoExpr := by simp [exL, Term.Tame]
example : exR.NoWild ∧ exR.Tame true ∧ exR.NoExpr := by simp [exR, Term.Tame]

/-- A run with arithmetic: `f(X, 1 + 2) = f(4 - 1, X)`. -/
example : (match unify 9 (.lit "f" [.var 0, .bin .add (.num 1) (.num 2)] [])
    (.lit "f" [.bin .sub (.num 4) (.num 1), .var 0] []) BSt.init with
    | .ok true b' => decide (b'.stack = [.v 0]) | _ => false) = true := by
  decide +kernel

/-- C02: a failing run that has bound a variable before failing: `f(X, a) = f(b, X)`. -/
example : ∃ b', unify 9 (.lit "f" [.var 0, .atom "a"] []) (.lit "f" [.atom "b", .var 0] []) BSt.init = .ok false b' ∧
    b'.scope 0 = some (.atom "b") := ⟨_, rfl, rfl⟩

/-- C03: `p([1|[2]])[x]` and `p([1,2])` are equal, `p(1)` and `p(true)` are not. -/
example : (Term.lit "p" [.cons (.num 1) (.tup [.num 2])] [.atom "x"]).Closed ∧
    (Term.lit "p" [.cons (.num 1) (.tup [.num 2])] [.atom "x"]).val = (Term.lit "p" [.tup [.num 1, .num 2]] []).val ∧
    (Term.lit "p" [.num 1] []).val ≠ (Term.lit "p" [.bool true] []).val := by
  refine ⟨by simp, rfl, by decide⟩

/-- C04: an exception after a binding: `f(X, 1 + a) = f(b, c)`. -/
example : ∃ e b', unify 9 (.lit "f" [.var 0, .bin .add (.num 1) (.atom "a")] [])
    (.lit "f" [.atom "b", .atom "c"] []) BSt.init = .err e b' ∧ b'.stack = [.v 0] := ⟨_, _, rfl, rfl⟩

/-- C05: an activity with a nested block and a binding after it. -/
example : ∃ b', Activity BSt.init.mark b' ∧ b'.scope 1 = some (.num 2) ∧ b'.scope 0 = none ∧ b'.stack.length = 2 := by
  have h1 : Activity (BSt.init.mark).mark _ := .bind (x := 0) (t := .num 1) (.refl _) rfl
  have h2 : Activity BSt.init.mark _ := .block (.refl _) h1
  have h3 : Activity BSt.init.mark _ := .bind (x := 1) (t := .num 2) h2 rfl
  exact ⟨_, h3, rfl, rfl, rfl⟩

/-- C06: the mirrored run, with the variables bound in the other direction. -/
example : (∃ b₁, unify 9 (.var 0) (.var 1) BSt.init = .ok true b₁ ∧ b₁.scope 0 = some (.var 1) ∧ b₁.scope 1 = none) ∧
    ∃ b₂, unify 9 (.var 1) (.var 0) BSt.init = .ok true b₂ ∧ b₂.scope 1 = some (.var 0) ∧ b₂.scope 0 = none :=
  ⟨⟨_, rfl, rfl, rfl⟩, _, rfl, rfl, rfl⟩

/-- C06: cyclic bindings, `p(X, Y, 1 + 1) = p(f(X), f(Y), Z)`, and a failure after some bindings were made. -/
example : (∃ b₁, unify 9 (.lit "p" [.var 0, .var 1, .bin .add (.num 1) (.num 1)] []) (.lit "p" [.lit "f" [.var 0] [], .var 0, .var 2] []) BSt.init = .ok true b₁ ∧
      b₁.scope 0 = some (.lit "f" [.var 0] [])) ∧
    (∃ b₂, unify 9 (.lit "p" [.lit "f" [.var 0] [], .var 0, .var 2] []) (.lit "p" [.var 0, .var 1, .bin .add (.num 1) (.num 1)] []) BSt.init = .ok true b₂) ∧
    ∃ b₃, unify 9 (.tup [.var 0, .str "a"]) (.tup [.var 1, .str "b"]) BSt.init = .ok false b₃ ∧ b₃.scope 0 = some (.var 1) :=
  ⟨⟨_, rfl, rfl⟩, ⟨_, rfl⟩, _, rfl, rfl⟩

/-- C06: where both calls return, with a variable that is bound and an expression. -/
example : ∃ b₁, unify 9 (.tup [.var 0, .var 1]) (.tup [.bin .add (.num 1) (.num 2), .lit "f" [.var 0] []]) { BSt.init with scope := Scope.empty.set 1 (.lit "f" [.num 3] []) } = .ok true b₁ ∧
    b₁.scope 0 = some (.num 3) := ⟨_, by with_unfolding_all rfl, by with_unfolding_all rfl⟩

/-- C07: pattern `p(X, _, [_|X])` against `p(1, 2, [3|1])` in a scope where `1 ↦ a`. -/
example : (Term.lit "p" [.var 0, .wild, .cons .wild (.var 0)] []).NoExpr ∧
    (Term.lit "p" [.num 1, .num 2, .cons (.num 3) (.num 1)] []).Closed ∧
    Acyclic (Scope.empty.set 1 (.atom "a")) := by
  refine ⟨by simp, by simp, ?_⟩
  refine acyclic_set ⟨fun x => ⟨x, ?_⟩⟩ rfl (by simp [Term.HasVar, Term.HasVarL])
  rintro y ⟨t, ht, _⟩; simp [Scope.empty] at ht

end examples

end Verif
