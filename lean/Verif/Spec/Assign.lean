import Verif.Spec.Run
import Verif.Spec.Settles

/-!
# Specification: statements that keep the values of variables
-/

namespace Verif

mutual
/-- All queries of the statement are free of `.unbind_all` and of `literal = variable`. -/
def Stmt.Keeping : Stmt → Prop
  | .query q => q.Clean fun a _ => a.trailed
  | .forall_ q body | .while_ q body => (q.Clean fun a _ => a.trailed) ∧ Stmt.KeepingL body
  | .ite q thn els => (q.Clean fun a _ => a.trailed) ∧ Stmt.KeepingO thn ∧ Stmt.KeepingO els
  | _ => True
/-- All statements. -/
def Stmt.KeepingL : List Stmt → Prop
  | [] => True
  | x :: xs => x.Keeping ∧ Stmt.KeepingL xs
/-- The branch, if there is one. -/
def Stmt.KeepingO : Option (List Stmt) → Prop
  | none => True
  | some body => Stmt.KeepingL body
end

/-- The same for the rules of all agents. -/
def RulesKeep (w : World) : Prop := ∀ a grp, ∀ r ∈ (w.ags a).rules grp, r.query.Clean fun a _ => a.trailed

end Verif
