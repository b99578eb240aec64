import Verif.Spec.Std

/-!
# The registries of the standard library
-/

namespace Verif

/-- What is registered: name and arity (with the argument for the result of a function). -/
def Registration.key : Registration → String × Option Nat
  | .action f k _ => (f, k)
  | .function f specs _ => (f, some (specs.length + 1))
  | .predicate f specs _ => (f, some specs.length)
  | .procedure f specs _ => (f, some specs.length)

/-- The action that is registered. -/
def Registration.act : Registration → Act
  | .action _ _ a => a
  | .function _ specs g => .fn specs g
  | .predicate _ specs g => .pred specs g
  | .procedure _ specs g => .proc specs g

def fixedOf : List Registration → List ((String × Nat) × Act)
  | [] => []
  | r :: rs => match r.key with
    | (f, some k) => ((f, k), r.act) :: fixedOf rs
    | (_, none) => fixedOf rs

def variadicOf : List Registration → List (String × Act)
  | [] => []
  | r :: rs => match r.key with
    | (_, some _) => variadicOf rs
    | (f, none) => (f, r.act) :: variadicOf rs

theorem countSpecs_args (specs : List Spec) : countSpecs (specs.map fun _ => .arg) = specs.length := by
  induction specs with
  | nil => rfl
  | cons s ss ih => rw [List.map_cons, countSpecs, ih]; rfl

theorem Registration.run_eq (i : Nat) (h : Regs Act) (r : Registration) : r.run i h = h.add i r.key.1 r.key.2 r.act := by
  cases r <;> simp [Registration.run, Regs.addFunction, Regs.addPredicate, countSpecs_args, Registration.key, Registration.act]

/-- Nothing is registered for the key. -/
def Reg.Free (r : Reg Act) (key : String × Option Nat) : Prop :=
  match key with
  | (f, some k) => ∀ p ∈ r.actions, p.1 ≠ (f, k)
  | (f, none) => ∀ p ∈ r.variadic, p.1 ≠ f

theorem lookup_free {α β : Type} [BEq α] [LawfulBEq α] {l : List (α × β)} {a : α} (h : ∀ p ∈ l, p.1 ≠ a) : l.lookup a = none := by
  induction l with
  | nil => rfl
  | cons p l ih =>
    obtain ⟨b, c⟩ := p
    have := h (b, c) (by simp)
    rw [List.lookup_cons, show (a == b) = false by simp; exact fun e => this e.symm]
    exact ih fun p hp => h p (by simp [hp])

/-- Calls with different keys succeed. -/
theorem registerAll_ok {i : Nat} : ∀ {rs : List Registration} {h : Regs Act}, (rs.map Registration.key).Nodup →
    (∀ r ∈ rs, (h.reg i).Free r.key) →
    ∃ h', registerAll i rs h = .ok h' ∧ h'.n = h.n ∧ (h'.reg i).parent = (h.reg i).parent ∧
      (h'.reg i).actions = (h.reg i).actions ++ fixedOf rs ∧ (h'.reg i).variadic = (h.reg i).variadic ++ variadicOf rs ∧
      ∀ j, j ≠ i → h'.reg j = h.reg j
  | [], h, _, _ => ⟨h, rfl, rfl, rfl, by simp [fixedOf], by simp [variadicOf], fun _ _ => rfl⟩
  | r :: rs, h, hd, hf => by
    rw [List.map_cons, List.nodup_cons] at hd
    have h0 := hf r (by simp)
    rw [registerAll, Registration.run_eq, Regs.add.eq_def]
    rcases hk : r.key with ⟨f, _ | k⟩
    · rw [hk] at h0
      simp only [lookup_free h0, Option.isSome_none, Bool.false_eq_true, if_false, Ev.bind_ok]
      obtain ⟨h', e1, e2, e3, e4, e5, e6⟩ := registerAll_ok (i := i) (rs := rs)
        (h := ⟨h.n, fun j => if j = i then { h.reg i with variadic := (h.reg i).variadic ++ [(f, r.act)] } else h.reg j⟩) hd.2 (fun q hq => by
          have := hf q (by simp [hq])
          have hne : q.key ≠ r.key := fun e => hd.1 (e ▸ List.mem_map_of_mem hq)
          rw [hk] at hne
          rcases hq' : q.key with ⟨g, _ | k⟩
          · rw [hq'] at this hne
            simp only [Reg.Free, if_true, List.mem_append, List.mem_singleton] at this ⊢
            rintro p (hp | rfl)
            · exact this p hp
            · rintro rfl; exact hne rfl
          · rw [hq'] at this
            simpa [Reg.Free] using this)
      refine ⟨h', e1, e2, by simpa using e3, ?_, ?_, fun j hj => by rw [e6 j hj]; simp [hj]⟩
      · rw [e4]; simp [fixedOf, hk]
      · rw [e5]; simp [variadicOf, hk]
    · rw [hk] at h0
      simp only [lookup_free h0, Option.isSome_none, Bool.false_eq_true, if_false, Ev.bind_ok]
      obtain ⟨h', e1, e2, e3, e4, e5, e6⟩ := registerAll_ok (i := i) (rs := rs)
        (h := ⟨h.n, fun j => if j = i then { h.reg i with actions := (h.reg i).actions ++ [((f, k), r.act)] } else h.reg j⟩) hd.2 (fun q hq => by
          have := hf q (by simp [hq])
          have hne : q.key ≠ r.key := fun e => hd.1 (e ▸ List.mem_map_of_mem hq)
          rw [hk] at hne
          rcases hq' : q.key with ⟨g, _ | k'⟩
          · rw [hq'] at this
            simpa [Reg.Free] using this
          · rw [hq'] at this hne
            simp only [Reg.Free, if_true, List.mem_append, List.mem_singleton] at this ⊢
            rintro p (hp | rfl)
            · exact this p hp
            · intro e; cases e; exact hne rfl)
      refine ⟨h', e1, e2, by simpa using e3, ?_, ?_, fun j hj => by rw [e6 j hj]; simp [hj]⟩
      · rw [e4]; simp [fixedOf, hk]
      · rw [e5]; simp [variadicOf, hk]

variable (random randint : List Term → Ev Term)

theorem std_keys : ((stdRegistrations random).map Registration.key).Nodup := by
  show List.Nodup _
  simp only [stdRegistrations, List.map_cons, List.map_nil, Registration.key, List.length_cons, List.length_nil]
  decide

theorem ext_keys : ((extRegistrations randint).map Registration.key).Nodup := by
  simp only [extRegistrations, List.map_cons, List.map_nil, Registration.key, List.length_cons, List.length_nil]
  decide

theorem loadStd_ok : ∃ h, loadStd random randint = .ok h ∧
    h.reg 0 = ⟨none, fixedOf (stdRegistrations random), variadicOf (stdRegistrations random)⟩ ∧
    h.reg 1 = ⟨some 0, fixedOf (extRegistrations randint), variadicOf (extRegistrations randint)⟩ := by
  obtain ⟨h₁, a1, a2, a3, a4, a5, a6⟩ := registerAll_ok (i := 0) (h := Regs.empty.new none) (std_keys random)
    (fun r _ => by rcases hk : r.key with ⟨f, _ | k⟩ <;> simp [Reg.Free, Regs.new, Regs.empty])
  have hn : h₁.n = 1 := a2
  have hr : (h₁.new (some 0)).reg 1 = { parent := some 0 } := by simp [Regs.new, hn]
  have hr0 : (h₁.new (some 0)).reg 0 = h₁.reg 0 := by simp [Regs.new, hn]
  obtain ⟨h₂, b1, b2, b3, b4, b5, b6⟩ := registerAll_ok (i := 1) (h := h₁.new (some 0)) (ext_keys randint)
    (fun r _ => by rw [hr]; rcases hk : r.key with ⟨f, _ | k⟩ <;> simp [Reg.Free])
  refine ⟨h₂, by rw [loadStd, a1]; exact b1, ?_, ?_⟩
  · rw [b6 0 (by decide), hr0]
    revert a3 a4 a5
    cases h₁.reg 0
    simp [Regs.new, Regs.empty]
    rintro rfl rfl rfl
    exact ⟨rfl, rfl, rfl⟩
  · rw [hr] at b3 b4 b5
    revert b3 b4 b5
    cases h₂.reg 1
    simp
    rintro rfl rfl rfl
    exact ⟨rfl, rfl, rfl⟩

/-- What is found in the registry of `agentspeak.stdlib`. -/
def findStd (f : String) (k : Nat) : Option Act :=
  match (fixedOf (stdRegistrations random)).lookup (f, k) with
  | some a => some a
  | none => (variadicOf (stdRegistrations random)).lookup f

/-- What is found in the registry of `agentspeak.ext_stdlib` itself. -/
def findExt (f : String) (k : Nat) : Option Act :=
  match (fixedOf (extRegistrations randint)).lookup (f, k) with
  | some a => some a
  | none => (variadicOf (extRegistrations randint)).lookup f

theorem stdLookup_zero (f : String) (k : Nat) : stdLookup random randint 0 f k = findStd random f k := by
  obtain ⟨h, e, e0, -⟩ := loadStd_ok random randint
  rw [stdLookup, e, Ev.bind_ok, Regs.lookup, findStd]
  simp only [e0]
  cases (fixedOf (stdRegistrations random)).lookup (f, k) with
  | some a => rfl
  | none =>
    simp only
    cases (variadicOf (stdRegistrations random)).lookup f <;> rfl

theorem stdLookup_one (f : String) (k : Nat) : stdLookup random randint 1 f k = (findExt randint f k).or (findStd random f k) := by
  obtain ⟨h, e, e0, e1⟩ := loadStd_ok random randint
  rw [stdLookup, e, Ev.bind_ok, Regs.lookup, findExt]
  simp only [e1]
  cases (fixedOf (extRegistrations randint)).lookup (f, k) with
  | some a => rfl
  | none =>
    simp only
    cases (variadicOf (extRegistrations randint)).lookup f with
    | some a => rfl
    | none =>
      simp only [Option.none_or]
      rw [Regs.lookup, findStd]
      simp only [e0]
      cases (fixedOf (stdRegistrations random)).lookup (f, k) with
      | some a => rfl
      | none =>
        simp only
        cases (variadicOf (stdRegistrations random)).lookup f <;> rfl

end Verif
