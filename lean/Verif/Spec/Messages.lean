import Verif.Spec.Plans
import Verif.Spec.Beliefs

/-!
# Specification: messages between agents
-/

namespace Verif

/-- The annotation `source(name)`. -/
def sourceAnnot (name : String) : Term := .lit "source" [.lit name [] []] []

/-- `m` is the literal `t` with the additional annotation `source(name)` (unless it has this
annotation already). -/
inductive Signed (name : String) : Term → Term → Prop where
  | new {f as xs} : sourceAnnot name ∉ xs → Signed name (.lit f as xs) (.lit f as (xs ++ [sourceAnnot name]))
  | old {f as xs} : sourceAnnot name ∈ xs → Signed name (.lit f as xs) (.lit f as xs)

/-- The term has an annotation `source(name)` (whatever the annotations of this annotation). -/
def HasSource (name : String) (t : Term) : Prop := ∃ zs ws, Term.lit "source" [.lit name [] zs] ws ∈ t.annots

/-- The names (atoms or strings) stand for these registered agents. -/
inductive Named (reg : List (String × Nat)) : List Term → List Nat → Prop where
  | nil : Named reg [] []
  | atom {f a ts as} : reg.lookup f = some a → Named reg ts as → Named reg (.lit f [] [] :: ts) (a :: as)
  | str {f a ts as} : reg.lookup f = some a → Named reg ts as → Named reg (.str f :: ts) (a :: as)

/-- Some of the names does not stand for a registered agent. -/
def Unknown (reg : List (String × Nat)) (ts : List Term) : Prop :=
  ∃ t ∈ ts, ∀ f, t = .lit f [] [] ∨ t = .str f → reg.lookup f = none

/-- What `send` accepts as receivers: one name or a list of names. -/
inductive NameList : Term → List Term → Prop where
  | tup {ts} : NameList (.tup ts) ts
  | list {h t ts} : iter (.cons h t) = .ok ts → NameList (.cons h t) ts
  | one {t} : (∀ ts, t ≠ .tup ts) → (∀ h u, t ≠ .cons h u) → NameList t [t]

/-- The illocutionary forces. -/
inductive Force : String → Trigger → GoalType → Prop where
  | tell : Force "tell" .addition .belief
  | untell : Force "untell" .removal .belief
  | achieve : Force "achieve" .addition .achievement
  | unachieve : Force "unachieve" .removal .achievement
  | tellHow : Force "tellHow" .addition .tellHow
  | untellHow : Force "untellHow" .removal .tellHow
  | askHow : Force "askHow" .addition .askHow

section
variable [Host]

/-- The event is called on one agent after the other, in new intentions. -/
inductive SentTo (n : Nat) (tr : Trigger) (gt : GoalType) (m : Term) : List Nat → QSt World → QSt World → Prop where
  | nil {s} : SentTo n tr gt m [] s s
  | cons {a as r s s₁ s'} : callNew n (gnext n) a tr gt m false s = .ok r s₁ → SentTo n tr gt m as s₁ s' →
      SentTo n tr gt m (a :: as) s s'

/-- How the beliefs change when agent `a` receives a message; `some sc` is the scope afterwards
(removing a belief may bind variables of `m`), `none` if there was nothing to remove. -/
inductive BeliefChange (a : Nat) (m : Term) : Trigger → GoalType → Option Scope → World → World → Prop where
  | tell {f as xs w w'} : m = .lit f as xs → m.Ground →
      (∀ x, x ∈ w'.beliefs a (f, as.length) ↔ x ∈ w.beliefs a (f, as.length) ∨
        x = m ∧ ∀ y ∈ w.beliefs a (f, as.length), pyEqB y m = false) →
      (∀ a' g, g ≠ (f, as.length) ∨ a' ≠ a ∧ ¬ Shares w a a' (f, as.length) → w'.beliefs a' g = w.beliefs a' g) →
      (∀ a' g x, x ∈ w'.beliefs a' g → x ∈ w.beliefs a' g ∨ x = m) →
      (∀ a' g x, x ∈ w.beliefs a' g → x ∈ w'.beliefs a' g) → BeliefChange a m .addition .belief (some Scope.empty) w w'
  | untell {f as xs pre x post sc w w'} : m = .lit f as xs →
      w.beliefs a (f, as.length) = pre ++ x :: post → w'.beliefs a (f, as.length) = pre ++ post →
      (∀ y ∈ pre, NoMatch m y Scope.empty) → Matches m x Scope.empty sc →
      (∀ a' g, g ≠ (f, as.length) ∨ a' ≠ a ∧ ¬ Shares w a a' (f, as.length) → w'.beliefs a' g = w.beliefs a' g) →
      (∀ a' g, w'.beliefs a' g = w.beliefs a' g ∨ w.beliefs a' g = pre ++ x :: post ∧ w'.beliefs a' g = pre ++ post) →
      BeliefChange a m .removal .belief (some sc) w w'
  | noSuch {f as xs w w'} : m = .lit f as xs → (∀ x ∈ w.beliefs a (f, as.length), NoMatch m x Scope.empty) →
      (∀ a' g, w'.beliefs a' g = w.beliefs a' g) → BeliefChange a m .removal .belief none w w'
  | none {tr gt w w'} : gt ≠ .belief → (∀ a' g, w'.beliefs a' g = w.beliefs a' g) →
      BeliefChange a m tr gt (some Scope.empty) w w'

/-- The event on record: a fresh copy of the message. -/
def Recorded (a : Nat) (tr : Trigger) (gt : GoalType) (m : Term) : Option Scope → World → World → Prop
  | none, w, w' => w'.events = w.events
  | some sc, w, w' => ∃ e, (∃ ρ : VarId → VarId, (∀ x y, ρ x = ρ y → x = y) ∧ Copy sc (fun x y => y = ρ x) m e) ∧
      w'.events = (a, ⟨tr, gt, e⟩) :: w.events

/-- How the intentions of agent `a` change: nothing new, or one new stack for the
event. -/
inductive StackChange (a : Nat) (m : Term) (tr : Trigger) : GoalType → World → World → Prop where
  | same {gt w w'} : gt ≠ .achievement → (w'.ags a).intentions = (w.ags a).intentions → StackChange a m tr gt w w'
  | new {gt i e p b w w'} : (∀ a', ∀ st ∈ (w.ags a').intentions, i ∉ st) → p ∈ w.plansFor a (planKey tr gt e) →
      (w'.ags a).intentions = (w.ags a).intentions ++ [[i]] →
      w'.ints i = { headTerm := some e, instr := some p.body, callingTerm := some m, b := b } → StackChange a m tr gt w w'

/-- The belief sets of agent `a` are now `bs`: the old ones, or new ones that no agent had. -/
def NewSets (w : World) (a : Nat) (bs : String × Nat → Option Nat) : Prop :=
  ∀ g r, bs g = some r → (w.ags a).beliefs g = some r ∨ ∀ a' g', (w.ags a').beliefs g' ≠ some r

/-- Agent `a` received the event `⟨tr, gt, m⟩`, and nothing else happened: the event is on
record (unless it is the removal of a belief that is not held), the beliefs and intentions
of `a` changed accordingly; other agents have the same intentions, and nobody has other
rules, plans or another name. -/
structure Received (a : Nat) (tr : Trigger) (gt : GoalType) (m : Term) (w w' : World) : Prop where
  change : ∃ o, BeliefChange a m tr gt o w w' ∧ Recorded a tr gt m o w w'
  stacks : StackChange a m tr gt w w'
  others : ∀ a', a' ≠ a → w'.ags a' = w.ags a'
  agent : ∃ bs sts, w'.ags a = { w.ags a with beliefs := bs, intentions := sts } ∧ NewSets w a bs
  plans : w'.plists = w.plists

/-- The agents received the event one after the other, and nothing else happened. -/
inductive ReceivedAll (tr : Trigger) (gt : GoalType) (m : Term) : List Nat → World → World → Prop where
  | nil {w} : ReceivedAll tr gt m [] w w
  | cons {a as w w₁ w'} : BeliefsOK w → Received a tr gt m w w₁ → ReceivedAll tr gt m as w₁ w' → ReceivedAll tr gt m (a :: as) w w'

/-- What is sent: a fresh copy of the message; for `tellHow` and `askHow` the text. -/
inductive Content (sc : Scope) (t : Term) : GoalType → Term → Prop where
  | text {gt} : gt = .tellHow ∨ gt = .askHow → Content sc t gt (.lit "plain_text" [t] [])
  | copy {gt c} {ρ : VarId → VarId} : gt ≠ .tellHow → gt ≠ .askHow → (∀ x y, ρ x = ρ y → x = y) →
      Copy sc (fun x y => y = ρ x) t c → Content sc t gt c

end

/-- The rules of agent `a` and the contexts of its plans contain no actions. -/
def NoActions (w : World) (a : Nat) : Prop :=
  (∀ g, ∀ r ∈ (w.ags a).rules g, r.query.Clean fun _ _ => False) ∧ ∀ k, ∀ p ∈ w.plansFor a k, p.Clean

end Verif
