import Verif.Spec.Grammar

/-! # Specification: terms that can be written in a source text -/

namespace Verif

/-- A word that begins with a lower case letter. -/
def LowWord (w : List Char) : Prop := ∃ c v, w = c :: v ∧ isLow c = true ∧ ∀ x ∈ v, isWord x = true

/-- A dotted name: words with dots between them, and before the first if `b`. -/
def dotted (b : Bool) (w : List Char) (ws : List (List Char)) : List Char :=
  (if b then ['.'] else []) ++ w ++ ws.flatMap ('.' :: ·)

/-- The text of a functor: perhaps a tilde, and a dotted name that is no keyword. -/
def FunctorText (u : List Char) : Prop :=
  ∃ (neg b : Bool) (w : List Char) (ws : List (List Char)), u = (if neg then ['~'] else []) ++ dotted b w ws ∧ LowWord w ∧
    (∀ w ∈ ws, LowWord w) ∧ (b = false → w ∉ keywords)

/-- The text of a variable. -/
def VarText (u : List Char) : Prop :=
  (∃ v c w, u = v ++ c :: w ∧ (∀ x ∈ v, x = '_') ∧ isUp c = true ∧ ∀ x ∈ w, isWord x = true) ∨ (u ≠ [] ∧ ∀ x ∈ u, x = '_')

section
variable [Floats]

mutual
/-- Names, numbers and strings of the term are those of some source text. -/
def Ast.Source : Ast → Prop
  | .const (.bool _) => True
  | .const (.num v) => ∃ u, Floats.read u = v
  | .const (.str s) => ∀ c ∈ s, c < 0x110000
  | .var x => VarText x
  | .lit f ts as => FunctorText f ∧ Ast.Sources ts ∧ Ast.Sources as
  | .list ts => Ast.Sources ts
  | .linked h t => h.Source ∧ t.Source
  | .un _ a => a.Source
  | .bin _ l r => l.Source ∧ r.Source
def Ast.Sources : List Ast → Prop
  | [] => True
  | a :: as => a.Source ∧ Ast.Sources as
end

end

mutual
/-- There is no infinite number in the term. -/
def Ast.Finite : Ast → Prop
  | .const (.num v) => v ≠ .inf
  | .const _ => True
  | .var _ => True
  | .lit _ ts as => Ast.Finites ts ∧ Ast.Finites as
  | .list ts => Ast.Finites ts
  | .linked h t => h.Finite ∧ t.Finite
  | .un _ a => a.Finite
  | .bin _ l r => l.Finite ∧ r.Finite
def Ast.Finites : List Ast → Prop
  | [] => True
  | a :: as => a.Finite ∧ Ast.Finites as
end

/-- A negative number. -/
def Ast.IsNegative : Ast → Prop
  | .const (.num (.fin q)) => q < 0
  | _ => False

mutual
/-- Names and strings of the term are those of some source text. -/
def Ast.Named : Ast → Prop
  | .const (.str s) => ∀ c ∈ s, c < 0x110000
  | .const _ => True
  | .var x => VarText x
  | .lit f ts as => FunctorText f ∧ Ast.NamedL ts ∧ Ast.NamedL as
  | .list ts => Ast.NamedL ts
  | .linked h t => h.Named ∧ t.Named
  | .un _ a => a.Named
  | .bin _ l r => l.Named ∧ r.Named
def Ast.NamedL : List Ast → Prop
  | [] => True
  | a :: as => a.Named ∧ Ast.NamedL as
end

section
variable [Floats]

mutual
/-- The numbers of the term are those of some source text, without their sign, and no
negative number, which comes from folding, is the left operand of `**`. -/
def Ast.Clear : Ast → Prop
  | .const (.num .inf) => False
  | .const (.num (.fin q)) => ∃ u, Floats.read u = .fin (if q < 0 then -q else q)
  | .const _ => True
  | .var _ => True
  | .lit _ ts as => Ast.ClearL ts ∧ Ast.ClearL as
  | .list ts => Ast.ClearL ts
  | .linked h t => h.Clear ∧ t.Clear
  | .un _ a => a.Clear
  | .bin op l r => l.Clear ∧ r.Clear ∧ (op = .pow → ¬l.IsNegative)
def Ast.ClearL : List Ast → Prop
  | [] => True
  | a :: as => a.Clear ∧ Ast.ClearL as
end

mutual
/-- Terms that can be printed and read again: names and strings are those of a source text,
numbers are, without their sign.  Negative numbers, which come from folding, are not the left
operand of `**`. -/
def Ast.Shown : Ast → Prop
  | .const (.bool _) => True
  | .const (.num .inf) => False
  | .const (.num (.fin q)) => ∃ u, Floats.read u = .fin (if q < 0 then -q else q)
  | .const (.str s) => ∀ c ∈ s, c < 0x110000
  | .var x => VarText x
  | .lit f ts as => FunctorText f ∧ Ast.ShownL ts ∧ Ast.ShownL as
  | .list ts => Ast.ShownL ts
  | .linked h t => h.Shown ∧ t.Shown
  | .un _ a => a.Shown
  | .bin op l r => l.Shown ∧ r.Shown ∧ (op = .pow → ¬l.IsNegative)
def Ast.ShownL : List Ast → Prop
  | [] => True
  | a :: as => a.Shown ∧ Ast.ShownL as
end

end

mutual
/-- How a term is read: negative numbers are positive numbers with a sign. -/
def Ast.raw : Ast → Ast
  | .const (.num (.fin q)) => if q < 0 then .un .neg (.const (.num (.fin (-q)))) else .const (.num (.fin q))
  | .const v => .const v
  | .var x => .var x
  | .lit f ts as => .lit f (Ast.raws ts) (Ast.raws as)
  | .list ts => .list (Ast.raws ts)
  | .linked h t => .linked h.raw t.raw
  | .un op a => .un op a.raw
  | .bin op l r => .bin op l.raw r.raw
def Ast.raws : List Ast → List Ast
  | [] => []
  | a :: as => a.raw :: Ast.raws as
end

end Verif
