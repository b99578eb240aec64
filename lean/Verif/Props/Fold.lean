import Verif.Lemmas.Folding
import Verif.Spec.ExactArith

/-!
# C40: constant folding preserves meaning

Folding only replaces operators with constant operands by their values (`C40_reduces`), so
grounded terms and the values of expressions stay the same (`C40_partial`, `C40_evaluate`).
`evaluate` itself returns structures as they are, with their expressions: there the folded
term differs (`C40_structure_differs`).
-/

namespace Verif

section
variable [Arith]

/-- Folding a term, by any of the visitors, without an error: the result is the term with
some operators that have constant operands replaced by their values.  It has the same
variables in the same order. -/
theorem C40_reduces {v : Visitor} {a : Ast} {s : Nat} {o : Option Ast} (h : fold v a s = .ok o s) :
    ∃ a', o = some a' ∧ (∀ vars, Reduces (a.build vars) (a'.build vars)) ∧ a'.names = a.names := by
  obtain ⟨a', h1, h2, h3, -⟩ := (fold_ok a v s o s h).2 rfl
  exact ⟨a', h1, h2, h3⟩

/-- The number of errors never decreases. -/
theorem C40_errors {v : Visitor} {a : Ast} {s s' : Nat} {o : Option Ast} (h : fold v a s = .ok o s') : s ≤ s' :=
  (fold_ok a v s o s' h).1

/-- Folding again changes nothing.  (The parser builds trees where comparisons share an
operand, which is then visited twice.) -/
theorem C40_idempotent {v : Visitor} {a a' : Ast} {s : Nat} (h : fold v a s = .ok (some a') s) (s' : Nat) :
    fold v a' s' = .ok (some a') s' := by
  obtain ⟨b, h1, -, -, h4⟩ := (fold_ok a v s _ s h).2 rfl
  cases h1
  exact h4 s'

/-- The folded term has the same result when grounded, a value or an exception, under every
scope.  Missing: that `evaluate` has the same result, which is false for structures, see
`C40_structure_differs` (for all other terms see `C40_evaluate`); infinite numbers. -/
theorem C40_partial {v : Visitor} {a a' : Ast} {s : Nat} (h : fold v a s = .ok (some a') s) (vars : List Char → Term) (sc : Scope) :
    SameResult (fun n => grounded n sc (a.build vars)) (fun n => grounded n sc (a'.build vars)) := by
  obtain ⟨b, h1, h2, -⟩ := C40_reduces h
  cases h1
  exact sameResult_of_limit (grounded_Mono _ _) (grounded_Mono _ _) ((h2 vars).meaning sc).1

/-- Expressions, constants and variables evaluate to the same result, a value or an
exception, under every scope, before and after folding. -/
theorem C40_evaluate {v : Visitor} {a a' : Ast} {s : Nat} (h : fold v a s = .ok (some a') s) (vars : List Char → Term) (sc : Scope)
    (hs : (a.build vars).isStruct = false) :
    SameResult (fun n => evaluate n sc (a.build vars)) (fun n => evaluate n sc (a'.build vars)) := by
  obtain ⟨b, h1, h2, -⟩ := C40_reduces h
  cases h1
  refine sameResult_of_limit (evaluate_Mono _ _) (evaluate_Mono _ _) ?_
  show EV sc _ = EV sc _
  have h3 := h2 vars
  generalize a.build vars = t at h3 hs
  generalize a'.build vars = u at h3
  cases h3 with
  | refl => rfl
  | lit => cases hs
  | tup => cases hs
  | cons => cases hs
  | un h => exact (h.meaning sc).2.un _
  | bin h1 h2 => exact Alike.bin (h1.meaning sc).2 (h2.meaning sc).2 _
  | unValue h hf =>
    have hw := (unFunc_ok hf).2
    rw [((Reduces.unValue h hf).meaning sc).2.value hw, EV_inert sc (isValue_inert hw)]
  | binValue h1 h2 hc hf =>
    have hw := (binFunc_ok hf).2.2
    rw [((Reduces.binValue h1 h2 hc hf).meaning sc).2.value hw, EV_inert sc (isValue_inert hw)]
  | compValue h1 h2 ha hb hc hf =>
    rw [((Reduces.compValue h1 h2 ha hb hc hf).meaning sc).2.value rfl, EV_inert sc rfl]

/-- A structure stays a structure of the same kind and size, its parts have been folded. -/
theorem C40_structure {v : Visitor} {f : List Char} {ts as : List Ast} {s : Nat} {o : Option Ast} (h : fold v (.lit f ts as) s = .ok o s) :
    ∃ ts' as', o = some (.lit f ts' as') ∧ foldL ts s = .ok (some ts') s ∧ foldL as s = .ok (some as') s := by
  have key : ((foldL ts s).bind fun ts' s => (foldL as s).bind fun as' s =>
      Res.ok (ts'.bind fun ts' => as'.map fun as' => Ast.lit f ts' as') s) = .ok o s := by
    cases v <;> first | exact h | (have := (logError_ok (P := False) h).2 rfl; exact this.elim)
  obtain ⟨ts', s1, h1, h2⟩ := Res.bind_eq_ok.1 key
  obtain ⟨as', s2, h3, h4⟩ := Res.bind_eq_ok.1 h2
  cases h4
  obtain ⟨a1, a2⟩ := foldL_ok ts _ _ _ h1
  obtain ⟨b1, b2⟩ := foldL_ok as _ _ _ h3
  obtain rfl : s1 = s := by omega
  obtain ⟨x, rfl, -⟩ := a2 rfl
  obtain ⟨y, rfl, -⟩ := b2 rfl
  exact ⟨x, y, rfl, h1, h3⟩

end

/-- Folding a linked list as an operand of an arithmetic operator raises `AttributeError`
instead of logging an error: `NumericFoldVisitor` has no method `visit_linked_list`. -/
theorem C40_linked_raises [Arith] (x h t : Ast) (hx : ∃ q, x = .const (.num q)) (s : Nat) :
    fold .term (.bin .add x (.linked h t)) s = .err (.py "AttributeError") s := by
  obtain ⟨q, rfl⟩ := hx
  rfl

/-- Division by zero is logged, not raised, and not folded. -/
theorem C40_zero_division [Arith] {p : Rat} (h : Arith.bin .truediv p 0 = none) (s : Nat) :
    fold .term (.bin .truediv (.const (.num (.fin p))) (.const (.num (.fin 0)))) s =
      .ok (some (.bin .truediv (.const (.num (.fin p))) (.const (.num (.fin 0))))) (s + 1) := by
  rw [fold.eq_def]
  simp [Visitor.forBin, BinOp.numericOp, fold, numBin, h, zeroDivision, logError]

section examples
attribute [local instance] exactArith

private abbrev n (q : Rat) : Ast := .const (.num (.fin q))
private def vars : List Char → Term := fun _ => .var 0
private abbrev x : Ast := .var ['X']

/-- `p(1 + 1)` evaluates to itself, but is folded to `p(2)`. -/
theorem C40_structure_differs : ∃ a a' : Ast, fold .term a 0 = .ok (some a') 0 ∧
    ¬ SameResult (fun n => evaluate n .empty (a.build vars)) (fun n => evaluate n .empty (a'.build vars)) := by
  refine ⟨.lit ['p'] [.bin .add (n 1) (n 1)] [], .lit ['p'] [n 2] [], ?_, fun h => ?_⟩
  · with_unfolding_all rfl
  · obtain ⟨k, hk⟩ := (h (.ok (.lit "p" [.bin .add (.num 1) (.num 1)] [])) (by simp)).1 ⟨1, rfl⟩
    cases k with
    | zero => cases hk
    | succ k => simp [evaluate, Ast.build, Ast.builds, ConstV.term] at hk

/-- `X + 2 * 3 < 10 & not (1 == 2)` is folded to `X + 6 < 10 & true`. -/
private def before : Ast :=
  .bin .and (.bin .lt (.bin .add x (.bin .mul (n 2) (n 3))) (n 10)) (.un .not (.bin .eq (n 1) (n 2)))
private def after : Ast := .bin .and (.bin .lt (.bin .add x (n 6)) (n 10)) (.const (.bool true))
private theorem before_after : fold .term before 0 = .ok (some after) 0 := by with_unfolding_all rfl
example (sc : Scope) : SameResult (fun n => evaluate n sc (before.build vars)) (fun n => evaluate n sc (after.build vars)) :=
  C40_evaluate before_after vars sc rfl
/-- With `X = 3` both are true. -/
example : evaluate 9 (Scope.empty.set 0 (.num 3)) (before.build vars) = .ok (.bool true) := by with_unfolding_all rfl
example : evaluate 9 (Scope.empty.set 0 (.num 3)) (after.build vars) = .ok (.bool true) := by with_unfolding_all rfl
/-- Without `X` both raise the same exception. -/
example : evaluate 9 .empty (before.build vars) = .err (.asl "bad operand types") := by with_unfolding_all rfl
example : evaluate 9 .empty (after.build vars) = .err (.asl "bad operand types") := by with_unfolding_all rfl

/-- `[X + 1 + 1 | p(2 - 1)[a]]`: `X + 1` is not constant, `2 - 1` is. -/
private def before' : Ast :=
  .linked (.bin .add (.bin .add x (n 1)) (n 1)) (.lit ['p'] [.bin .sub (n 2) (n 1)] [.lit ['a'] [] []])
private def after' : Ast := .linked (.bin .add (.bin .add x (n 1)) (n 1)) (.lit ['p'] [n 1] [.lit ['a'] [] []])
private theorem before_after' : fold .term before' 0 = .ok (some after') 0 := by with_unfolding_all rfl
example (sc : Scope) : SameResult (fun n => grounded n sc (before'.build vars)) (fun n => grounded n sc (after'.build vars)) :=
  C40_partial before_after' vars sc
example : grounded 9 (Scope.empty.set 0 (.num 3)) (before'.build vars) = .ok (.cons (.num 5) (.lit "p" [.num 1] [.atom "a"])) := by with_unfolding_all rfl
example (s : Nat) : fold .term after' s = .ok (some after') s := C40_idempotent before_after' s

/-- `p(X) & 1 < 2` in a query is folded to `p(X) & true`; elsewhere `p(X)` is an error. -/
example : fold .logical (.bin .and (.lit ['p'] [x] []) (.bin .lt (n 1) (n 2))) 0 =
    .ok (some (.bin .and (.lit ['p'] [x] []) (.const (.bool true)))) 0 := by with_unfolding_all rfl
example : fold .term (.bin .and (.lit ['p'] [x] []) (.bin .lt (n 1) (n 2))) 0 =
    .ok (some (.bin .and (.lit ['p'] [x] []) (.const (.bool true)))) 1 := by with_unfolding_all rfl
/-- Comparisons of different types are left for the evaluation. -/
example : fold .term (.bin .lt (n 1) (.const (.str [97]))) 0 = .ok (some (.bin .lt (n 1) (.const (.str [97])))) 0 := by with_unfolding_all rfl
/-- `1 / 0` -/
example : fold .term (.bin .truediv (n 1) (n 0)) 0 = .ok (some (.bin .truediv (n 1) (n 0))) 1 := C40_zero_division (by decide) 0

end examples

end Verif
