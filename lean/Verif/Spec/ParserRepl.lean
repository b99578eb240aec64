import Verif.Spec.Script

/-!
# Specification: agents that are printed one after the other
-/

namespace Verif

/-- The rules, beliefs, goals and plans of all the agents, in order. -/
def inAll (as : List AAgent) : AAgent where
  rules := as.flatMap (·.rules)
  beliefs := as.flatMap (·.beliefs)
  goals := as.flatMap (·.goals)
  plans := as.flatMap (·.plans)

end Verif
