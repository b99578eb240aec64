import Verif.Spec.Vars
import Verif.Model.World

/-! # The variables of statements and plans -/

namespace Verif

mutual
/-- The variables of a statement. -/
def Stmt.vars : Stmt → List VarId
  | .add t | .remove t | .test t | .achieve t | .achieveLater t => t.vars
  | .replace p t => p.vars ++ t.vars
  | .query q => q.vars
  | .forall_ q b | .while_ q b => q.vars ++ Stmt.varsL b
  | .ite q a b => q.vars ++ Stmt.varsO a ++ Stmt.varsO b
/-- The variables of a sequence of statements. -/
def Stmt.varsL : List Stmt → List VarId
  | [] => []
  | x :: xs => Stmt.vars x ++ Stmt.varsL xs
/-- The variables of a branch. -/
def Stmt.varsO : Option (List Stmt) → List VarId
  | none => []
  | some b => Stmt.varsL b
end

/-- The variables of a plan with this body: those of its triggering event, its context and its body. -/
def Plan.vars (p : Plan) (body : List Stmt) : List VarId := p.head.vars ++ p.context.vars ++ Stmt.varsL body

/-- The variables of an instruction. -/
def InstrF.vars : InstrF → List VarId
  | .addBelief t | .removeBelief t | .testBelief t | .call _ _ t | .callDelayed _ _ t => t.vars
  | .pushQuery q => q.vars
  | .noop | .nextOrFail | .popQuery | .pushChoicepoint | .popChoicepoint => []

end Verif
