import Verif.Model.Optimize

/-!
# Specification of the optimiser (C62-C64)
-/

namespace Verif

/-! ## Parts of trees -/

/-- A node of the tree of a term or query. -/
inductive Ast.Inside (b : Ast) : Ast → Prop where
  | self : Ast.Inside b b
  | term {f ts as t} : t ∈ ts → Ast.Inside b t → Ast.Inside b (.lit f ts as)
  | annotation {f ts as t} : t ∈ as → Ast.Inside b t → Ast.Inside b (.lit f ts as)
  | item {ts t} : t ∈ ts → Ast.Inside b t → Ast.Inside b (.list ts)
  | head {x y} : Ast.Inside b x → Ast.Inside b (.linked x y)
  | tail {x y} : Ast.Inside b y → Ast.Inside b (.linked x y)
  | operand {op x} : Ast.Inside b x → Ast.Inside b (.un op x)
  | left {op x y} : Ast.Inside b x → Ast.Inside b (.bin op x y)
  | right {op x y} : Ast.Inside b y → Ast.Inside b (.bin op x y)

/-- A node of the tree of an agent, except for its plans. -/
inductive AAgent.Facts (a : AAgent) (b : Ast) : Prop where
  | ruleHead {r} : r ∈ a.rules → b.Inside r.head → AAgent.Facts a b
  | rule {r} : r ∈ a.rules → b.Inside r.consequence → AAgent.Facts a b
  | belief {t} : t ∈ a.beliefs → b.Inside t → AAgent.Facts a b
  | goal {t} : t ∈ a.goals → b.Inside t → AAgent.Facts a b

/-- The markers for the optimiser, whose arguments are checked. -/
def Ast.isMarker : Ast → Prop
  | .lit f _ _ => f = ".inf_mark_nosidef".toList ∨ f = ".inf_side_effect".toList
  | _ => False

/-! ## What is known about variables -/

/-- Values of variables while the program runs: nothing yet, or a constant, or a literal, which
may have variables without a value in it. -/
inductive RunVal where
  | nothing
  | const (v : ConstV)
  | lit (functor : List Char) (terms annotations : List RunVal)

mutual
/-- The value of an expression. -/
def Node.eval (σ : List Char → RunVal) : Node → RunVal
  | .const v => .const v
  | .var x _ _ => σ x
  | .lit f ts as => .lit f (Node.evalL σ ts) (Node.evalL σ as)
  | .other => .nothing
def Node.evalL (σ : List Char → RunVal) : List Node → List RunVal
  | [] => []
  | a :: as => a.eval σ :: Node.evalL σ as
end

/-- What the comments at `InferenceConst` (`optimizer.py` 379-384) and `bound_value` (427-430)
say about a variable: nothing, it has no value, it has a value, it has the same value as this
expression. -/
def VarInfo.Fits (σ : List Char → RunVal) (x : List Char) (v : Option Node) : VarInfo → Prop
  | .unproven => True
  | .unbound => σ x = .nothing
  | .bound => σ x ≠ .nothing
  | .value => ∃ e, v = some e ∧ σ x = e.eval σ

/-- A state of the optimiser holds at a point of the program: variables that it does not have
are unbound. -/
def InfState.Describes (S : InfState) (σ : List Char → RunVal) : Prop :=
  ∀ x, ((S.status.lookup x).getD .unbound).Fits σ x (S.values.lookup x)

mutual
/-- Terms of constants, literals and variables that had no known value when the term was
recorded. -/
def Node.Open : Node → Prop
  | .const _ => True
  | .var _ k _ => k ≠ .value
  | .lit _ ts as => Node.OpenL ts ∧ Node.OpenL as
  | .other => False
def Node.OpenL : List Node → Prop
  | [] => True
  | a :: as => a.Open ∧ Node.OpenL as
end

/-- The known values are constants and literals (but may contain variables). -/
def InfState.Terms (S : InfState) : Prop :=
  ∀ x, S.status.lookup x = some .value → ∃ v, S.values.lookup x = some v ∧ v.Open ∧ ∀ y k w, v ≠ .var y k w

mutual
/-- At the same place of two terms there are never two literals with the same functor and
different numbers of arguments, nor a truth value and a number. -/
def Node.Fair : Node → Node → Prop
  | .const c, .const d => (∃ b, c = .bool b) ↔ ∃ b, d = .bool b
  | .lit f ts _, .lit g us _ => f = g → ts.length = us.length ∧ Node.FairL ts us
  | _, _ => True
def Node.FairL : List Node → List Node → Prop
  | a :: as, b :: bs => a.Fair b ∧ Node.FairL as bs
  | _, _ => True
end

mutual
/-- No annotations. -/
def Node.Bare : Node → Prop
  | .const _ => True
  | .var _ _ _ => True
  | .lit _ ts as => Node.BareL ts ∧ as = []
  | .other => False
def Node.BareL : List Node → Prop
  | [] => True
  | a :: as => a.Bare ∧ Node.BareL as
end

/-- What an action may do to a variable (with value `v` before and `w` after, if it succeeds),
according to the comments at `InferenceEvilnessConst` (`optimizer.py` 564-569). -/
def Effect.Allows (ef : Effect) (v w : RunVal) : Prop :=
  (ef = .change ∧ (v = .nothing ↔ w = .nothing)) ∨
  (ef = .doBind ∧ (v = .nothing → w ≠ .nothing) ∧ (v ≠ .nothing → w = v)) ∨
  (ef = .bind ∧ (v ≠ .nothing → w = v)) ∨
  (ef = .requireBound ∧ v ≠ .nothing ∧ w = v) ∨
  (ef = .unbind ∧ (v = .nothing → w = .nothing) ∧ (w ≠ .nothing → w = v)) ∨
  ef = .all

/-- The parameters of an action with this arity that a declaration is about. -/
def Affect.AboutParam (arity i : Int) : Affect → Prop
  | .any | .paramAny => False
  | .param fr to => (if fr < 0 then arity + fr else fr) ≤ i ∧ i ≤ (if to < 0 then arity + to else to)
  | .paramAll | .scope | .everything => True

end Verif
