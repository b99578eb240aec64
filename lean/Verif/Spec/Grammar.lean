import Verif.Model.Parser

/-!
# Specification: the grammar of terms, by levels of precedence

Level 0 is `|`, 1 is `&`, 2 is `not`, 3 are comparisons, 4 is `+` and `-`, 5 is `*`, `/`,
`div` and `mod`, 6 are the unary `+` and `-`, 7 is `**`, 8 are atoms.
-/

namespace Verif

/-- The level of a binary operator. -/
def BinOp.level : BinOp → Nat
  | .or => 0 | .and => 1
  | .unify | .decompose | .lt | .le | .ne | .eq | .ge | .gt => 3
  | .add | .sub => 4
  | .mul | .truediv | .floordiv | .mod => 5
  | .pow => 7

/-- The token of a binary operator. -/
def BinOp.kind : BinOp → Kind
  | .pow => .opPower | .mul => .opMult | .truediv => .opFdiv | .floordiv => .opDiv | .mod => .opMod
  | .add => .opPlus | .sub => .opMinus | .unify => .opUnify | .decompose => .opDecompose
  | .lt => .opLt | .le => .opLe | .ne => .opNe | .eq => .opEq | .ge => .opGe | .gt => .opGt
  | .and => .opAnd | .or => .opOr

/-- The token of a unary operator. -/
def UnOp.kind : UnOp → Kind
  | .not => .opNot | .pos => .opPlus | .neg => .opMinus

/-- The operators that group to the left. -/
def BinOp.LeftAssoc (op : BinOp) : Prop := op.level = 0 ∨ op.level = 1 ∨ op.level = 4 ∨ op.level = 5

/-- The conjunction of comparisons between neighbours: `e₀ op₁ e₁ op₂ e₂ …`; `c` are the
comparisons before `e`. -/
def chain (c : Option Ast) (e : Ast) : List (BinOp × Ast) → Ast
  | [] => c.getD e
  | (op, e') :: rest =>
    chain (some (match c with | none => .bin op e e' | some c => .bin .and c (.bin op e e'))) e' rest

section
variable [Unicode] [Floats]

mutual

/-- `Phrase l ts a`: the tokens `ts` are a phrase of level `l`, with the tree `a`. -/
inductive Phrase : Nat → List Tok → Ast → Prop where
  /-- A phrase of a level is one of every level below. -/
  | up {l ts a} : l < 8 → Phrase (l + 1) ts a → Phrase l ts a
  /-- Left associative binary operators. -/
  | left {op t ts us a b} : op.LeftAssoc → t.kind = op.kind → Phrase op.level ts a → Phrase (op.level + 1) us b →
      Phrase op.level (ts ++ t :: us) (.bin op a b)
  /-- `not` -/
  | not {t ts a} : t.kind = .opNot → Phrase 2 ts a → Phrase 2 (t :: ts) (.un .not a)
  /-- Comparisons: at least one, in a chain. -/
  | compare {ts a us rest} : Phrase 4 ts a → Comparisons us rest → rest ≠ [] → Phrase 3 (ts ++ us) (chain none a rest)
  /-- Unary `+` and `-`. -/
  | sign {t ts a op} : op ≠ UnOp.not → t.kind = op.kind → Phrase 6 ts a → Phrase 6 (t :: ts) (.un op a)
  /-- The right operand of `**` may have a sign, and may be another power. -/
  | power {t ts us a b} : t.kind = .opPower → Phrase 8 ts a → Phrase 6 us b → Phrase 7 (ts ++ t :: us) (.bin .pow a b)
  | paren {o c ts a} : o.kind = .parenOpen → Phrase 0 ts a → c.kind = .parenClose → Phrase 8 (o :: (ts ++ [c])) a
  | var {t} : t.kind = .var → Phrase 8 [t] (.var t.lexeme)
  | num {t} : t.kind = .numeric → Phrase 8 [t] (.const (.num (Floats.read t.lexeme)))
  | true_ {t} : t.kind = .litTrue → Phrase 8 [t] (.const (.bool true))
  | false_ {t} : t.kind = .litFalse → Phrase 8 [t] (.const (.bool false))
  | str {t s} : t.kind = .string → parseString t.lexeme = .ok s → Phrase 8 [t] (.const (.str s))
  /-- A functor, with arguments or not, with annotations or not. -/
  | lit {t ts us args annots} : t.kind = .functor → OptArgs .parenOpen .parenClose ts args →
      OptArgs .bracketOpen .bracketClose us annots → Phrase 8 (t :: (ts ++ us)) (.lit t.lexeme args annots)
  | list {o ts items} : o.kind = .bracketOpen → Items ts items → Phrase 8 (o :: ts) (.list items)
  | linked {o ts us a b} : o.kind = .bracketOpen → Phrase 1 ts a → Tail us b → Phrase 8 (o :: (ts ++ us)) (.linked a b)

/-- `op₁ e₁ op₂ e₂ …` -/
inductive Comparisons : List Tok → List (BinOp × Ast) → Prop where
  | nil : Comparisons [] []
  | cons {op t ts us a rest} : op.level = 3 → t.kind = op.kind → Phrase 4 ts a → Comparisons us rest →
      Comparisons (t :: (ts ++ us)) ((op, a) :: rest)

/-- Nothing, or terms in brackets, with commas. -/
inductive OptArgs : Kind → Kind → List Tok → List Ast → Prop where
  | none {o c} : OptArgs o c [] []
  | some {t o c ts args} : t.kind = o → Args c ts args → OptArgs o c (t :: ts) args

/-- One or more terms, separated by commas, up to the closing bracket. -/
inductive Args : Kind → List Tok → List Ast → Prop where
  | last {t c ts a} : t.kind = c → Phrase 0 ts a → Args c (ts ++ [t]) [a]
  | more {t c ts us a rest} : t.kind = .comma → Phrase 0 ts a → Args c us rest → Args c (ts ++ t :: us) (a :: rest)

/-- The items of a list, up to the closing bracket.  There may be a comma after the last. -/
inductive Items : List Tok → List Ast → Prop where
  | nil {t} : t.kind = .bracketClose → Items [t] []
  | last {t ts a} : t.kind = .bracketClose → Phrase 1 ts a → Items (ts ++ [t]) [a]
  | more {t ts us a rest} : t.kind = .comma → Phrase 1 ts a → Items us rest → Items (ts ++ t :: us) (a :: rest)

/-- The tail of a linked list, from the bar to the closing bracket. -/
inductive Tail : List Tok → Ast → Prop where
  | last {t c ts a} : t.kind = .opOr → Phrase 1 ts a → c.kind = .bracketClose → Tail (t :: (ts ++ [c])) a
  | more {t ts us a b} : t.kind = .opOr → Phrase 1 ts a → Tail us b → Tail (t :: (ts ++ us)) (.linked a b)

end

end

/-- A token as it comes from the lexer: the text of a fixed token is the one of its kind,
and no other token has this text. -/
structure Tok.Proper (t : Tok) : Prop where
  fixed : ∀ w, t.kind.fixed = some w → t.lexeme = w
  only : ∀ k, k.fixed = some t.lexeme → t.kind = k

/-- The token is no operator of level `l` or higher. -/
def Stops (l : Nat) (t : Tok) : Prop := ∀ op : BinOp, l ≤ op.level → t.kind ≠ op.kind

/-- All tokens are as they come from the lexer. -/
abbrev AllProper (ts : List Tok) : Prop := ∀ t ∈ ts, t.Proper

/-- The next token is no operator of level `l` or higher. -/
def StopsHead (l : Nat) (ts : List Tok) : Prop := ∀ t ∈ ts.head?, Stops l t

/-- The token ends a phrase of level `l`: it is no operator of this level or higher, and no
bracket that would begin arguments or annotations. -/
structure EndsPhrase (l : Nat) (t : Tok) : Prop where
  proper : t.Proper
  stops : Stops l t
  noParen : t.kind ≠ .parenOpen
  noBracket : t.kind ≠ .bracketOpen

/-- The level of a unary operator. -/
def UnOp.level : UnOp → Nat
  | .not => 2 | .pos | .neg => 6

/-- `x op₁ y op₂ z`: the operator of the higher level takes the operands first; at the same
level the left one, but for `**` the right one; two comparisons are a conjunction. -/
def group (o₁ o₂ : BinOp) (x y z : Ast) : Ast :=
  if o₁.level = 3 ∧ o₂.level = 3 then .bin .and (.bin o₁ x y) (.bin o₂ y z)
  else if o₂.level < o₁.level ∨ (o₁.level = o₂.level ∧ o₁ ≠ .pow) then .bin o₂ (.bin o₁ x y) z
  else .bin o₁ x (.bin o₂ y z)

/-- `u x op y`: the operator of the higher level takes its operand first. -/
def groupUn (u : UnOp) (op : BinOp) (x y : Ast) : Ast :=
  if u.level < op.level then .un u (.bin op x y) else .bin op (.un u x) y

end Verif
