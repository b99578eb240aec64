import Verif.Lemmas.FuelAll
import Verif.Props.Step
import Verif.Spec.Query
import Verif.Spec.ExactHost

/-!
# A program has one outcome (C73)

The bounds on recursion and on the number of steps, which the code does not have, have no influence on what
happens: whatever happens with some bounds happens with all larger ones.
-/

namespace Verif

section
variable [Host] {s s₁ s₂ : QSt World} {n m k l : Nat}

omit [Host] in
/-- What two results have in common if they are results of the same computation, with different bounds:
each of them was either cut off, or it is the outcome. -/
theorem Res.le.agree {σ α : Type} {f : Nat → Res σ α} (h : ∀ n m, n ≤ m → (f n).le (f m)) {n m : Nat} (hn : f n ≠ .oof) (hm : f m ≠ .oof) :
    f n = f m := by
  rcases Nat.le_total n m with h1 | h1
  · exact ((h n m h1).eq hn).symm
  · exact (h m n h1).eq hm

/-- **C73.** The next answer of a query, or its exception, does not depend on the bound. -/
theorem C73_query {g : Gen Act ActGen} (hn : gnext n g s ≠ .oof) (hm : gnext m g s ≠ .oof) : gnext n g s = gnext m g s :=
  Res.le.agree (f := fun n => gnext n g s) (fun _ _ h => Res.le.upto (f := fun n => gnext n g s) (fun n => gnext_succ n g s) h) hn hm

/-- **C73.** All answers of a query: the loop over them has one course, and ends in one state. -/
theorem C73_answers {g : Gen Act ActGen} {l₁ l₂ : List (QSt World)} (h₁ : Drain (fun s s' => s' = s) g s l₁ s₁)
    (h₂ : Drain (fun s s' => s' = s) g s l₂ s₂) : l₁ = l₂ ∧ s₁ = s₂ := by
  induction h₁ generalizing l₂ s₂ with
  | stop h1 =>
    cases h₂ with
    | stop h2 =>
      have := C73_query (by rw [h1]; nofun) (by rw [h2]; nofun) ▸ h1
      rw [h2] at this
      cases this
      exact ⟨rfl, rfl⟩
    | next h2 _ _ =>
      have := C73_query (by rw [h1]; nofun) (by rw [h2]; nofun) ▸ h1
      rw [h2] at this
      cases this
  | next h1 hR1 _ ih =>
    subst hR1
    cases h₂ with
    | stop h2 =>
      have := C73_query (by rw [h1]; nofun) (by rw [h2]; nofun) ▸ h1
      rw [h2] at this
      cases this
    | next h2 hR2 h2' =>
      subst hR2
      have := C73_query (by rw [h1]; nofun) (by rw [h2]; nofun) ▸ h1
      rw [h2] at this
      cases this
      obtain ⟨rfl, rfl⟩ := ih h2'
      exact ⟨rfl, rfl⟩

/-- **C73.** A step of an agent. -/
theorem C73_step {a : Nat} (hn : step n a s ≠ .oof) (hm : step m a s ≠ .oof) : step n a s = step m a s :=
  Res.le.agree (f := fun n => step n a s) (fun _ _ h => step_le h a s) hn hm

/-- **C73.** Running an agent until it has nothing to do. -/
theorem C73_run {a : Nat} (hn : run n a k s ≠ .oof) (hm : run m a l s ≠ .oof) : run n a k s = run m a l s := by
  have h1 := (run_le (a := a) (Nat.le_max_left n m) k (max k l) s (Nat.le_max_left k l)).eq hn
  have h2 := (run_le (a := a) (Nat.le_max_right n m) l (max k l) s (Nat.le_max_right k l)).eq hm
  exact h1.symm.trans h2

/-- **C73.** Running an environment (`Environment.run`), until no agent has anything to do. -/
theorem C73_env (hn : runEnv n k s ≠ .oof) (hm : runEnv m l s ≠ .oof) : runEnv n k s = runEnv m l s := by
  have h1 := (runEnv_le (Nat.le_max_left n m) k (max k l) s (Nat.le_max_left k l)).eq hn
  have h2 := (runEnv_le (Nat.le_max_right n m) l (max k l) s (Nat.le_max_right k l)).eq hm
  exact h1.symm.trans h2

/-- **C73.** Running an agent alone (`Environment.run_agent`). -/
theorem C73_agent {a : Nat} (hn : runAgent n a k s ≠ .oof) (hm : runAgent m a l s ≠ .oof) : runAgent n a k s = runAgent m a l s := by
  have h1 := (runAgent_le (a := a) (Nat.le_max_left n m) k (max k l) s (Nat.le_max_left k l)).eq hn
  have h2 := (runAgent_le (a := a) (Nat.le_max_right n m) l (max k l) s (Nat.le_max_right k l)).eq hm
  exact h1.symm.trans h2

/-- **C73.** Building agents from a program. -/
theorem C73_build {src : AgentSrc} {base₀ base : String} (hn : buildAgents n src k base₀ base s ≠ .oof)
    (hm : buildAgents m src k base₀ base s ≠ .oof) : buildAgents n src k base₀ base s = buildAgents m src k base₀ base s :=
  Res.le.agree (f := fun n => buildAgents n src k base₀ base s)
    (fun _ _ h => Res.le.upto (f := fun n => buildAgents n src k base₀ base s) (fun n => buildAgents_succ n src k base₀ base s) h) hn hm

end

section examples
attribute [local instance] exactHost

/-- `runEnv` from the start of a program comes to an end. -/
private def ends (src : AgentSrc) (n k : Nat) : Bool :=
  match started (fun _ => 0) src with
  | none => false
  | some s =>
    match runEnv n k s with
    | .oof => false
    | _ => true

/-- The program of C25 comes to an end with two different pairs of bounds (so `C73_env` applies), but not with a
small bound on the number of rounds or on recursion; an agent that calls itself forever never does. -/
example : ends asking 20 20 = true ∧ ends asking 33 25 = true ∧ ends asking 20 3 = false ∧ ends asking 2 20 = false := by
  refine ⟨rfl, rfl, rfl, rfl⟩
example : ends { plans := [simplePlan "x" [.achieve (goalNamed "x")]], goals := [goalNamed "x"] } 20 20 = false := by rfl

end examples

end Verif
