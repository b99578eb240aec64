import Verif.Model.Program

/-!
# Compilation of plan bodies (`BuildInstructionsVisitor`, `runtime.py` 971-1079)

Instructions are linked by mutable `success`/`failure` references.  The code store is the
heap of `Instruction` objects; the visitor state is the store and `self.tail`.
-/

namespace Verif

/-- The heap of instructions; indices ≥ `size` are unused. -/
structure Code where
  instr : Nat → Instr
  size : Nat

namespace Code

/-- No instructions. -/
def empty : Code := ⟨fun _ => ⟨.noop, none, none⟩, 0⟩

/-- Replace an instruction. -/
def set (c : Code) (i : Nat) (x : Instr) : Code := { c with instr := fun j => if j = i then x else c.instr j }

/-- `Instruction(f)`, `runtime.py` 957-963: the new instruction is number `c.size`. -/
def alloc (c : Code) (f : InstrF) : Code := { c.set c.size ⟨f, none, none⟩ with size := c.size + 1 }

/-- `i.success = j` -/
def setSuccess (c : Code) (i j : Nat) : Code := c.set i { c.instr i with success := some j }

/-- `i.failure = j` -/
def setFailure (c : Code) (i j : Nat) : Code := c.set i { c.instr i with failure := some j }

end Code

/-- The visitor: code store and `self.tail`. -/
structure CSt where
  code : Code
  tail : Nat

/-- `add_instr`, `runtime.py` 978-981. -/
def CSt.add (f : InstrF) (s : CSt) : CSt :=
  ⟨(s.code.alloc f).setSuccess s.tail s.code.size, s.code.size⟩

mutual
/-- The `visit_*` methods.  `visit_formula` 983-1016, `visit_for` 1018-1029,
`visit_if_then_else` 1031-1054, `visit_while` 1056-1073. -/
def compileS : Stmt → CSt → CSt
  | .add t, s => s.add (.addBelief t)
  | .remove t, s => s.add (.removeBelief t)
  | .test t, s => s.add (.testBelief t)
  | .replace pat t, s => (s.add (.removeBelief pat)).add (.addBelief t)
  | .achieve t, s => s.add (.call .addition .achievement t)
  | .achieveLater t, s => s.add (.callDelayed .addition .achievement t)
  | .query q, s => ((s.add (.pushQuery q)).add .nextOrFail).add .popQuery
  | .forall_ q body, s =>
    let s := (s.add (.pushQuery q)).add .nextOrFail
    let forHead := s.tail
    let s := compileL body s
    let c := s.code.setSuccess s.tail forHead
    let tail := c.size
    let c := c.alloc .popQuery
    ⟨c.setFailure forHead tail, tail⟩
  | .ite q thn els, s =>
    let s := (s.add (.pushQuery q)).add .nextOrFail
    let test := s.tail
    let tail := s.code.size
    let s : CSt := ⟨s.code.alloc .popQuery, test⟩
    let s := compileThen thn tail s
    let s := compileElse els test tail s
    ⟨s.code, tail⟩
  | .while_ q body, s =>
    let tail := s.code.size
    let s : CSt := ⟨s.code.alloc .popChoicepoint, s.tail⟩
    let s := s.add (.pushQuery q)
    let whileHead := s.tail
    let s := s.add .pushChoicepoint
    let s := s.add .nextOrFail
    let s : CSt := ⟨s.code.setFailure s.tail tail, s.tail⟩
    let s := s.add .popQuery
    let s := compileL body s
    let s := s.add .popChoicepoint
    (CSt.mk (s.code.setSuccess s.tail whileHead) tail).add .popQuery
/-- `visit_body`, `runtime.py` 1075-1079. -/
def compileL : List Stmt → CSt → CSt
  | [], s => s
  | x :: xs, s => compileL xs (compileS x s)
/-- The `if` branch, `runtime.py` 1038-1042; `s.tail` is the test. -/
def compileThen : Option (List Stmt) → Nat → CSt → CSt
  | some body, tail, s =>
    let s := compileL body s
    ⟨s.code.setSuccess s.tail tail, s.tail⟩
  | none, tail, s => ⟨s.code.setSuccess s.tail tail, s.tail⟩
/-- The `else` branch, `runtime.py` 1044-1051. -/
def compileElse : Option (List Stmt) → Nat → Nat → CSt → CSt
  | some body, test, tail, s =>
    let head := s.code.size
    let s := compileL body ⟨(s.code.alloc .noop).setFailure test head, head⟩
    ⟨s.code.setSuccess s.tail tail, s.tail⟩
  | none, test, tail, s => ⟨s.code.setFailure test tail, s.tail⟩
end

/-- Compile the body of a plan: `body = Instruction(noop)` followed by the visitor,
`runtime.py` 796-799 (and 538-541).  The first instruction is number `c.size`. -/
def compileBody (body : List Stmt) (c : Code) : Code :=
  (compileL body ⟨c.alloc .noop, c.size⟩).code

end Verif
