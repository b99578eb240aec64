/-!
# Basic result types of the model

Python exceptions are values here.  `Ev α` is the result of a function that
mutates nothing; `Res σ α` is the result of a function that mutates a state `σ`.
`Res.err` keeps the state because Python keeps every mutation made before an
exception is raised.  `oof` ("out of fuel") stands for a computation that has not
finished within the given fuel; a Python call diverges (or dies with
`RecursionError`) exactly if the model answers `oof` for every fuel.
-/

namespace Verif

/-- Exceptions.  `asl` is `AslError` (`agentspeak/__init__.py` 170-171), all other
Python exceptions are `py kind`.  Message texts are reduced to a tag. -/
inductive Err where
  | asl (tag : String)
  | py (kind : String)
deriving DecidableEq, Repr

/-- Result of a pure Python function. -/
inductive Ev (α : Type) where
  | ok (a : α)
  | err (e : Err)
  | oof
deriving Repr, DecidableEq

namespace Ev

/-- Sequencing: the exception (or divergence) of the first computation wins. -/
def bind {α β : Type} : Ev α → (α → Ev β) → Ev β
  | .ok a, f => f a
  | .err e, _ => .err e
  | .oof, _ => .oof

def map {α β : Type} (f : α → β) (x : Ev α) : Ev β := x.bind fun a => .ok (f a)

@[simp] theorem bind_ok {α β : Type} (a : α) (f : α → Ev β) : (Ev.ok a).bind f = f a := rfl
@[simp] theorem bind_err {α β : Type} (e : Err) (f : α → Ev β) : (Ev.err e : Ev α).bind f = .err e := rfl
@[simp] theorem bind_oof {α β : Type} (f : α → Ev β) : (Ev.oof : Ev α).bind f = .oof := rfl

theorem bind_eq_ok {α β : Type} {x : Ev α} {f : α → Ev β} {b : β} :
    x.bind f = .ok b ↔ ∃ a, x = .ok a ∧ f a = .ok b := by
  cases x <;> simp

theorem bind_ne_oof {α β : Type} {x : Ev α} {f : α → Ev β} :
    x.bind f ≠ .oof ↔ x ≠ .oof ∧ ∀ a, x = .ok a → f a ≠ .oof := by
  cases x <;> simp

@[simp] theorem map_ok {α β : Type} (f : α → β) (a : α) : (Ev.ok a).map f = .ok (f a) := rfl
@[simp] theorem map_err {α β : Type} (f : α → β) (e : Err) : (Ev.err e : Ev α).map f = .err e := rfl
@[simp] theorem map_oof {α β : Type} (f : α → β) : (Ev.oof : Ev α).map f = .oof := rfl

theorem map_eq_ok {α β : Type} {x : Ev α} {f : α → β} {b : β} :
    x.map f = .ok b ↔ ∃ a, x = .ok a ∧ f a = b := by
  cases x <;> simp

theorem map_ne_oof {α β : Type} {x : Ev α} {f : α → β} :
    x.map f ≠ .oof ↔ x ≠ .oof := by
  cases x <;> simp

/-- `tuple(f(t) for t in ts)`: left to right, first exception wins. -/
def mapL {α β : Type} (f : α → Ev β) : List α → Ev (List β)
  | [] => .ok []
  | t :: ts => (f t).bind fun a => (mapL f ts).map (a :: ·)

/-- `all(f(t) for t in ts)`: left to right, short-circuit. -/
def allL {α : Type} (f : α → Ev Bool) : List α → Ev Bool
  | [] => .ok true
  | t :: ts => (f t).bind fun a => if a then allL f ts else .ok false

end Ev

/-- Result of a Python function that mutates a state. -/
inductive Res (σ α : Type) where
  | ok (a : α) (s : σ)
  | err (e : Err) (s : σ)
  | oof
deriving Repr

namespace Res

/-- Sequencing. -/
def bind {σ α β : Type} : Res σ α → (α → σ → Res σ β) → Res σ β
  | .ok a s, f => f a s
  | .err e s, _ => .err e s
  | .oof, _ => .oof

/-- A pure computation run in state `s`. -/
def lift {σ α : Type} (x : Ev α) (s : σ) : Res σ α :=
  match x with
  | .ok a => .ok a s
  | .err e => .err e s
  | .oof => .oof

@[simp] theorem bind_ok {σ α β : Type} (a : α) (s : σ) (f : α → σ → Res σ β) :
    (Res.ok a s).bind f = f a s := rfl
@[simp] theorem bind_err {σ α β : Type} (e : Err) (s : σ) (f : α → σ → Res σ β) :
    (Res.err e s : Res σ α).bind f = .err e s := rfl
@[simp] theorem bind_oof {σ α β : Type} (f : α → σ → Res σ β) :
    (Res.oof : Res σ α).bind f = .oof := rfl
@[simp] theorem lift_ok {σ α : Type} (a : α) (s : σ) : lift (.ok a) s = .ok a s := rfl
@[simp] theorem lift_err {σ α : Type} (e : Err) (s : σ) : (lift (.err e) s : Res σ α) = .err e s := rfl
@[simp] theorem lift_oof {σ α : Type} (s : σ) : (lift .oof s : Res σ α) = .oof := rfl

theorem bind_eq_ok {σ α β : Type} {x : Res σ α} {f : α → σ → Res σ β} {b : β} {s : σ} :
    x.bind f = .ok b s ↔ ∃ a s', x = .ok a s' ∧ f a s' = .ok b s := by
  cases x <;> simp [and_assoc]

theorem bind_ne_oof {σ α β : Type} {x : Res σ α} {f : α → σ → Res σ β} :
    x.bind f ≠ .oof ↔ x ≠ .oof ∧ ∀ a s, x = .ok a s → f a s ≠ .oof := by
  cases x <;> simp

theorem lift_eq_ok {σ α : Type} {x : Ev α} {s s' : σ} {a : α} :
    lift x s = .ok a s' ↔ x = .ok a ∧ s = s' := by
  cases x <;> simp

theorem lift_ne_oof {σ α : Type} {x : Ev α} {s : σ} :
    lift x s ≠ .oof ↔ x ≠ .oof := by
  cases x <;> simp

/-- `s'` is the state left behind by the computation, whether it returned or raised. -/
def leaves {σ α : Type} (x : Res σ α) (s' : σ) : Prop :=
  (∃ a, x = .ok a s') ∨ (∃ e, x = .err e s')

end Res

end Verif
