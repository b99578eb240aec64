import Verif.Spec.Script
import Verif.Model.Repl

/-!
# Specification: commands at the prompt
-/

namespace Verif

section
variable [Unicode] [Floats]

/-- Commands, each with its full stop, and then the beginning of another one: `rest` is
empty, or some tokens (`more`) are missing for a command. -/
inductive Commands : List Tok → List (List AStmt) → List Tok → Prop where
  | nil : Commands [] [] []
  | begun {rest more ts b t} : rest ++ more = ts ++ [t] → more ≠ [] → AllProper more → PlanBodyPhrase ts b →
      t.kind = .fullstop → Commands rest [] rest
  | command {ts b t us bs rest} : PlanBodyPhrase ts b → t.kind = .fullstop → Commands us bs rest →
      Commands (ts ++ t :: us) (b :: bs) rest

end

/-- The commands are executed one after the other without an error. -/
inductive Performed {σ : Type} (exec : List AStmt → σ → Res σ Unit) : List (List AStmt) → σ → σ → Prop where
  | nil {s} : Performed exec [] s s
  | cons {b bs s s' s''} : exec b s = .ok () s' → Performed exec bs s' s'' → Performed exec (b :: bs) s s''

section
variable [Unicode]

/-- The tokens of the lines, each of which is read on its own. -/
inductive Typed : List (List Char) → List Tok → Prop where
  | nil : Typed [] []
  | cons {l ls evs ts} : tokenize 1 (fileLines l) = some evs → (∀ c col n, (n, LexEv.illegal c col) ∉ evs) → Typed ls ts →
      Typed (l :: ls) (toksOf (evs.map Prod.snd) ++ ts)

end

end Verif
