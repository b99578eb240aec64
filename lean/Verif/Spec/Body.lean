import Verif.Model.Compile

/-!
# Specification: what plan bodies do

The meaning of a structured plan body is a language of traces.  A trace lists the
instructions that were run, with their answers; `Outcome` says what the trace is: a complete
run, a run that ends with the failure of the plan, or an unfinished run.
-/

namespace Verif

/-- The instructions that were run and their answers. -/
abbrev Trace := List (InstrF × Bool)

/-- What a trace is: a complete run, a run ending in failure, an unfinished run (at least
one more instruction follows). -/
inductive Outcome where
  | done | failed | part
deriving DecidableEq

/-- Sets of traces. -/
abbrev Lang := Trace → Outcome → Prop

/-- The instructions that may answer `False`.  The others always answer `True`. -/
def InstrF.canFail : InstrF → Bool
  | .addBelief _ | .removeBelief _ | .testBelief _ | .call _ _ _ | .callDelayed _ _ _ | .nextOrFail => true
  | .noop | .pushQuery _ | .popQuery | .pushChoicepoint | .popChoicepoint => false

namespace Lang

/-- Nothing to do. -/
def skip : Lang := fun tr o => tr = [] ∧ o = .done

/-- One instruction; if it answers `False`, the plan fails. -/
inductive ins (f : InstrF) : Lang where
  | part : ins f [] .part
  | done : ins f [(f, true)] .done
  | failed : f.canFail = true → ins f [(f, false)] .failed

/-- First `A`, then `B`. -/
inductive seq (A B : Lang) : Lang where
  | first {tr o} : A tr o → o ≠ .done → seq A B tr o
  | both {tr tr' o} : A tr .done → B tr' o → seq A B (tr ++ tr') o

/-- Ask the query on top of the query stack for an answer; go on with `A` if there is one,
with `B` otherwise. -/
inductive cond (A B : Lang) : Lang where
  | part : cond A B [] .part
  | yes {tr o} : A tr o → cond A B ((.nextOrFail, true) :: tr) o
  | no {tr o} : B tr o → cond A B ((.nextOrFail, false) :: tr) o

/-- Do `P` and ask the query; as long as there is an answer, do `A` and start again; otherwise
do `B` and leave. -/
inductive loop (P A B : Lang) : Lang where
  | before {tr o} : P tr o → o ≠ .done → loop P A B tr o
  | test {tr} : P tr .done → loop P A B tr .part
  | stop {tr tr' o} : P tr .done → A tr' o → o ≠ .done → loop P A B (tr ++ (.nextOrFail, true) :: tr') o
  | again {tr tr' tr'' o} : P tr .done → A tr' .done → loop P A B tr'' o → loop P A B (tr ++ (.nextOrFail, true) :: (tr' ++ tr'')) o
  | leave {tr tr' o} : P tr .done → B tr' o → loop P A B (tr ++ (.nextOrFail, false) :: tr') o

end Lang

open Lang

mutual
/-- What a statement does.

* A query is asked for one answer.
* `for`: the body for every answer of the query.
* `if`: the first or the second branch (which starts with a no-op); the query stays until the
  end.
* `while`: the query is asked again in every round; bindings are undone at the end of the
  round (choicepoints). -/
def Stmt.sem : Stmt → Lang
  | .add t => ins (.addBelief t)
  | .remove t => ins (.removeBelief t)
  | .test t => ins (.testBelief t)
  | .replace p t => seq (ins (.removeBelief p)) (ins (.addBelief t))
  | .achieve t => ins (.call .addition .achievement t)
  | .achieveLater t => ins (.callDelayed .addition .achievement t)
  | .query q => seq (ins (.pushQuery q)) (seq (ins .nextOrFail) (ins .popQuery))
  | .forall_ q body => seq (ins (.pushQuery q)) (loop skip (Stmt.semL body) (ins .popQuery))
  | .ite q thn els => seq (ins (.pushQuery q)) (seq (cond (Stmt.semThen thn) (Stmt.semElse els)) (ins .popQuery))
  | .while_ q body =>
    loop (seq (ins (.pushQuery q)) (ins .pushChoicepoint))
      (seq (ins .popQuery) (seq (Stmt.semL body) (ins .popChoicepoint)))
      (seq (ins .popChoicepoint) (ins .popQuery))
/-- A sequence of statements. -/
def Stmt.semL : List Stmt → Lang
  | [] => skip
  | x :: xs => seq (Stmt.sem x) (Stmt.semL xs)
/-- The branch for "yes". -/
def Stmt.semThen : Option (List Stmt) → Lang
  | none => skip
  | some body => Stmt.semL body
/-- The branch for "no". -/
def Stmt.semElse : Option (List Stmt) → Lang
  | none => skip
  | some body => seq (ins .noop) (Stmt.semL body)
end

/-- What a plan does: a no-op, then the body. -/
def bodyLang (body : List Stmt) : Lang := seq (ins .noop) (Stmt.semL body)

/-- Where running instructions ended: at an instruction (`none`: the plan is completed), or
with the failure of the plan. -/
inductive Stop where
  | at (l : Option Nat)
  | failed

/-- Running the instructions of a code store from `l`: `success` and `failure` say how to go
on; a failing instruction without `failure` makes the plan fail. -/
inductive Path (c : Code) : Option Nat → Trace → Stop → Prop where
  | here (l) : Path c l [] (.at l)
  | yes {pc tr e} : Path c (c.instr pc).success tr e → Path c (some pc) (((c.instr pc).f, true) :: tr) e
  | no {pc l tr e} : (c.instr pc).f.canFail = true → (c.instr pc).failure = some l → Path c (some l) tr e →
      Path c (some pc) (((c.instr pc).f, false) :: tr) e
  | fail {pc} : (c.instr pc).f.canFail = true → (c.instr pc).failure = none →
      Path c (some pc) [((c.instr pc).f, false)] .failed

/-- The instructions from `l` are a program with the traces `L`. -/
structure Implements (c : Code) (l : Option Nat) (L : Lang) : Prop where
  done : ∀ tr, Path c l tr (.at none) ↔ L tr .done
  failed : ∀ tr, Path c l tr .failed ↔ L tr .failed
  part : ∀ tr, (∃ pc, Path c l tr (.at (some pc))) ↔ L tr .part

end Verif
