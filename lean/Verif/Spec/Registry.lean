import Verif.Model.Actions
import Verif.Model.Log

/-!
# Histories of registries and logs
-/

namespace Verif

section registry
variable {F : Type}

/-- Calls that change registries; registries are numbered in the order of their creation. -/
inductive RegCall (F : Type) where
  | new (parent : Option Nat)
  | add (i : Nat) (functor : String) (arity : Option Nat) (f : F)

/-- The number of registries created. -/
def created : List (RegCall F) → Nat
  | [] => 0
  | .new _ :: cs => created cs + 1
  | .add .. :: cs => created cs

/-- Only existing registries are used. -/
def Legal (cs : List (RegCall F)) : Prop :=
  ∀ pre c post, cs = pre ++ c :: post →
    match c with
    | .new parent => ∀ p, parent = some p → p < created pre
    | .add i .. => i < created pre

/-- All calls one after the other; a call that raises changes nothing. -/
def runCalls : List (RegCall F) → Regs F → Regs F
  | [], h => h
  | .new p :: cs, h => runCalls cs (h.new p)
  | .add i functor arity f :: cs, h =>
    match h.add i functor arity f with
    | .ok h' => runCalls cs h'
    | _ => runCalls cs h

/-- `f` is what has been registered under this name: the argument of the first such call. -/
def Entered (cs : List (RegCall F)) (i : Nat) (functor : String) (arity : Option Nat) (f : F) : Prop :=
  ∃ pre post, cs = pre ++ .add i functor arity f :: post ∧ ∀ f', .add i functor arity f' ∉ pre

/-- Registry `i` has been created with this parent. -/
def HasParent (cs : List (RegCall F)) (i : Nat) (p : Option Nat) : Prop :=
  ∃ pre post, cs = pre ++ .new p :: post ∧ created pre = i

/-- What `lookup` is supposed to find: the action registered for the exact arity, otherwise the one for any
number of arguments, otherwise what the parent finds. -/
inductive Finds (cs : List (RegCall F)) : Nat → String → Nat → F → Prop where
  | exact {i functor k f} : Entered cs i functor (some k) f → Finds cs i functor k f
  | variadic {i functor k f} : (∀ f', ¬ Entered cs i functor (some k) f') → Entered cs i functor none f →
      Finds cs i functor k f
  | parent {i functor k f p} : (∀ f', ¬ Entered cs i functor (some k) f') → (∀ f', ¬ Entered cs i functor none f') →
      HasParent cs i (some p) → Finds cs p functor k f → Finds cs i functor k f

end registry

/-- Calls of the methods of a log. -/
inductive LogCall where
  | error | exception | warning | info | throw
deriving DecidableEq, Repr

/-- One call. -/
def LogCall.run : LogCall → Log → LogRes × Log
  | .error, l => l.error
  | .exception, l => l.error
  | .warning, l => l.warning
  | .info, l => l.info
  | .throw, l => l.throw

/-- The log after some calls, if the program goes on whenever one of them raises. -/
def logAfter (max : Option Nat) (cs : List LogCall) : Log := cs.foldl (fun l c => (c.run l).2) { maxErrors := max }

/-- What a call does after some other calls. -/
def answerOf (max : Option Nat) (before : List LogCall) (c : LogCall) : LogRes := (c.run (logAfter max before)).1

/-- The number of errors reported. -/
def errorsIn (cs : List LogCall) : Nat := cs.countP fun c => c = .error ∨ c = .exception

/-- The number of warnings reported. -/
def warningsIn (cs : List LogCall) : Nat := cs.countP fun c => c = .warning

end Verif
