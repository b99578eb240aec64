import Verif.Spec.Body
import Verif.Model.World

/-! # Specification: plan bodies with other variables -/

namespace Verif

/-- The same instruction with other variables. -/
def InstrF.renamed (ρ : VarId → VarId) : InstrF → InstrF
  | .addBelief t => .addBelief (t.rename ρ)
  | .removeBelief t => .removeBelief (t.rename ρ)
  | .testBelief t => .testBelief (t.rename ρ)
  | .call tr gt t => .call tr gt (t.rename ρ)
  | .callDelayed tr gt t => .callDelayed tr gt (t.rename ρ)
  | .pushQuery q => .pushQuery (q.rename ρ)
  | .noop => .noop
  | .nextOrFail => .nextOrFail
  | .popQuery => .popQuery
  | .pushChoicepoint => .pushChoicepoint
  | .popChoicepoint => .popChoicepoint

/-- The same instructions and answers with other variables. -/
def Trace.renamed (ρ : VarId → VarId) (tr : Trace) : Trace := tr.map fun x => (x.1.renamed ρ, x.2)

/-- The same runs with other variables. -/
def Lang.renamed (ρ : VarId → VarId) (L : Lang) : Lang := fun tr o => ∃ tr₀, L tr₀ o ∧ tr = Trace.renamed ρ tr₀

end Verif
