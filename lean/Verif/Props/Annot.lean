import Verif.Lemmas.AnnotGround
import Verif.Spec.ExactArith

/-!
# Properties C11, C12: annotated unification

`uaStart n l r b` is the generator `unify_annotated(l, r, scope, stack)` up to its first
`yield`: `some _` if it yields, `none` if it is exhausted.
-/

namespace Verif

section
variable [Arith]

/-- **C11.** If annotated unification of two literals yields, there is a choice `zs` of
different annotations of the right literal, one for each left annotation, such that the
assignments consistent with the new scope are exactly those consistent with the old one
that make the literals equal and each left annotation equal to its partner. -/
theorem C11_annotated_sound {cmp : Bool} {n : Nat} {f g : String} {as bs xs ys : List Term} {b b' : BSt} {d : Nat}
    (hsc : ScopeOK cmp b.scope) (hl : (Term.lit f as xs).LitOK cmp) (hr : (Term.lit g bs ys).Parts (Term.Tame cmp))
    (hc : LitCompat (.lit f as xs) (.lit g bs ys))
    (h : uaStart n (.lit f as xs) (.lit g bs ys) b = .ok (some d) b') :
    ∃ zs, Chosen zs ys ∧ ∀ σ : Asg, Models σ b'.scope ↔
      Models σ b.scope ∧ Agree σ (.lit f as xs) (.lit g bs ys) ∧ AgreeEach σ xs zs :=
  (ua_lit hsc hl hr hc h).2

/-- **C11.** Ground annotations: annotated unification yields iff the literals unify and
every left annotation occurs among the right annotations, whatever the iteration order;
it binds nothing beyond what plain unification binds. -/
theorem C11_annotated_ground {f g : String} {as bs xs ys : List Term} {b b₁ : BSt} {a : Bool} {N : Nat}
    (hx : ∀ x ∈ xs, x.Closed ∧ x.annots = []) (hy : ∀ y ∈ ys, y.Closed)
    (hd : xs.Pairwise fun x y => x.val ≠ y.val)
    (hu : ∀ n, N ≤ n → unify n (.lit f as xs) (.lit g bs ys) b = .ok a b₁) :
    ∃ M, ∀ n, M ≤ n → ∃ y b', uaStart n (.lit f as xs) (.lit g bs ys) b = .ok y b' ∧
      (y.isSome = true ↔ a = true ∧ ∀ x ∈ xs, ∃ y ∈ ys, y.val = x.val) ∧
      (y.isSome = true → b'.scope = b₁.scope) ∧
      (y.isSome = false → b'.scope = b.scope ∧ b'.stack = b.stack) := by
  obtain ⟨M, hM⟩ := ua_ground_all hx hy
  refine ⟨N + M + 2, fun n hn => ?_⟩
  obtain ⟨k, rfl⟩ : ∃ k, n = k + 2 := ⟨n - 2, by omega⟩
  obtain ⟨b₂, h2, hs2, _⟩ := unify_scope_only (b := b) (b₁ := b.mark) rfl (hu (k + 2) (by omega))
  have hl : litUnify (k + 1) (unify (k + 1)) f as xs (.lit g bs ys) b.mark = .ok a b₂ := by
    rw [← h2, unify]; simp [Term.isObj, methUnify]
  have ht := ua_trail (k + 2) (.lit f as xs) (.lit g bs ys) b
  rw [uaLit_lit, hl] at *
  cases a with
  | false =>
    simp only [Res.bind_ok, Bool.false_eq_true, if_false] at ht ⊢
    refine ⟨none, _, rfl, by simp, by simp, fun _ => ?_⟩
    have := ht.none _ rfl
    exact ⟨this.scope, this.stack⟩
  | true =>
    simp only [Res.bind_ok, if_true] at ht ⊢
    obtain ⟨a, b₃, hs, h3, i⟩ := matchAnnots_ground (n := k + 1) xs ys (hM (k + 1) (by omega)) hd b₂
    rw [h3] at ht ⊢
    cases a with
    | true => exact ⟨some b.ncp, b₃, rfl, by simpa using i, fun _ => hs.trans hs2, by simp⟩
    | false =>
      refine ⟨none, _, rfl, by simpa using i, by simp, fun _ => ?_⟩
      have := ht.none _ rfl
      exact ⟨this.scope, this.stack⟩

/-- **C12 is false of the code**: left annotations are matched greedily.  Unifying
`foo[X, a]` with `foo[a, b]` gives up although `X = b` matches all annotations. -/
theorem C12_greedy_incomplete : ∃ l r : Term, ∃ (σ : Asg) (N : Nat),
    Agree σ l r ∧ AnnotsMatch σ l.annots r.annots ∧ ∀ n, N ≤ n → ∃ b', uaStart n l r BSt.init = .ok none b' := by
  refine ⟨.lit "foo" [] [.var 0, .atom "a"], .lit "foo" [] [.atom "a", .atom "b"],
    fun _ => .app "b" .nil, 6, ?_, ?_, ?_⟩
  · exact ⟨.app "foo" .nil, ⟨.nil, rfl, rfl⟩, ⟨.nil, rfl, rfl⟩⟩
  · refine ⟨[.atom "b", .atom "a"], ⟨[], List.Perm.swap _ _ _⟩, rfl, ?_⟩
    intro p hp
    simp [Term.annots] at hp
    rcases hp with rfl | rfl
    · exact ⟨.app "b" .nil, rfl, ⟨.nil, rfl, rfl⟩⟩
    · exact ⟨.app "a" .nil, ⟨.nil, rfl, rfl⟩, ⟨.nil, rfl, rfl⟩⟩
  · intro n hn
    obtain ⟨k, rfl⟩ : ∃ k, n = k + 6 := ⟨n - 6, by omega⟩
    exact ⟨_, rfl⟩

/-- **C12** (part): with at most one left annotation, an exhausted generator means that
there is no matching.  (For ground annotations see `C11_annotated_ground`.)  Missing —
because false — several left annotations with variables. -/
theorem C12_annotated_complete_partial {cmp : Bool} {n : Nat} {f g : String} {as bs xs ys : List Term} {b b' : BSt}
    (hsc : ScopeOK cmp b.scope) (hl : (Term.lit f as xs).LitOK cmp) (hr : (Term.lit g bs ys).Parts (Term.Tame cmp))
    (hc : LitCompat (.lit f as xs) (.lit g bs ys)) (hx : xs.length ≤ 1)
    (h : uaStart n (.lit f as xs) (.lit g bs ys) b = .ok none b') :
    ∀ σ : Asg, Models σ b.scope → ¬ (Agree σ (.lit f as xs) (.lit g bs ys) ∧ AnnotsMatch σ xs ys) :=
  ua_lit_none hsc hl hr hc hx h

end

section examples
attribute [local instance] exactArith

/-- `p(X)[source(S), t]` against `p(1)[t, u, source(bob)]`. -/
example : ∃ d b', uaStart 9 (.lit "p" [.var 0] [.lit "source" [.var 1] [], .atom "t"])
    (.lit "p" [.num 1] [.atom "t", .atom "u", .lit "source" [.atom "bob"] []]) BSt.init = .ok (some d) b' ∧
    b'.scope 1 = some (.atom "bob") := ⟨_, _, rfl, rfl⟩

example : (Term.lit "p" [.var 0] [.lit "source" [.var 1] [], .atom "t"]).LitOK true ∧
    (Term.lit "p" [.num 1] [.atom "t", .atom "u", .lit "source" [.atom "bob"] []]).Parts (Term.Tame true) ∧
    LitCompat (.lit "p" [.var 0] [.lit "source" [.var 1] [], .atom "t"])
      (.lit "p" [.num 1] [.atom "t", .atom "u", .lit "source" [.atom "bob"] []]) := by
  simp [Term.LitOK, Term.Parts, Term.Tame, LitCompat, Term.annots]

/-- Ground annotations: hypotheses of `C11_annotated_ground`. -/
example : ∀ n, 5 ≤ n → unify n (.lit "p" [.var 0] [.atom "t"]) (.lit "p" [.num 1] [.atom "u", .atom "t"]) BSt.init =
    .ok true ⟨Scope.empty.set 0 (.num 1), [.v 0], 0⟩ := by
  intro n hn
  obtain ⟨k, rfl⟩ : ∃ k, n = k + 5 := ⟨n - 5, by omega⟩
  rfl

/-- C12 (part): an exhausted generator with one annotation. -/
example : ∃ b', uaStart 9 (.lit "p" [.var 0] [.lit "source" [.atom "al"] []])
    (.lit "p" [.num 1] [.lit "source" [.atom "bob"] []]) BSt.init = .ok none b' := ⟨_, rfl⟩

end examples

end Verif
