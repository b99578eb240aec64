import Verif.Model.Main
import Verif.Spec.Build
import Verif.Spec.Script
import Verif.Spec.Step

/-!
# Spec: running a program from the command line
-/

namespace Verif

/-- What the command line names: the first argument if there is one, and the standard input
otherwise. -/
inductive GivenSource (files : List Char → Option (List Tok)) (stdin : List Tok) : List (List Char) → List Char → List Tok → Prop where
  | file {path rest ts} : files path = some ts → GivenSource files stdin (path :: rest) path ts
  | stdin : GivenSource files stdin [] ['<', 's', 't', 'd', 'i', 'n', '>'] stdin

section
variable [Unicode] [Floats] [Host]

/-- The tokens are those of a valid program. -/
def IsProgram (acts : Lookup) (files : List Char → Option (List Tok)) (file : List Char) (ts : List Tok) (src : AgentSrc) : Prop :=
  ∃ cs a, Script files [normpath file] file ts cs ∧ ValidAgent (agentOf cs) a ∧ AgentOf acts a src

end

end Verif
