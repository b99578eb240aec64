import Verif.Lemmas.Compile
import Verif.Model.World

/-!
# Lemmas: the code store
-/

namespace Verif

open Lang

/-! ## Links stay inside a plan body -/

/-- The instructions from `lo` on link to each other only. -/
def Links (lo : Nat) (c : Code) : Prop :=
  ∀ i j, lo ≤ i → i < c.size → (c.instr i).success = some j ∨ (c.instr i).failure = some j → lo ≤ j ∧ j < c.size

namespace Links
variable {lo : Nat} {c : Code}

theorem alloc (h : Links lo c) (f : InstrF) : Links lo (c.alloc f) := by
  intro i j hi hl hj
  rw [Code.alloc_size] at hl ⊢
  rw [Code.alloc_instr] at hj
  split at hj
  · simp at hj
  · have := h i j hi (by omega) hj
    omega

theorem setSuccess (h : Links lo c) (i : Nat) {j : Nat} (h1 : lo ≤ j) (h2 : j < c.size) : Links lo (c.setSuccess i j) := by
  intro i' j' hi hl hj
  rw [Code.setSuccess_size] at hl ⊢
  rw [Code.setSuccess_instr] at hj
  split at hj
  · next he =>
    rcases hj with hj | hj
    · simp at hj; omega
    · exact h i j' (by omega) (by omega) (.inr hj)
  · exact h i' j' hi hl hj

theorem setFailure (h : Links lo c) (i : Nat) {j : Nat} (h1 : lo ≤ j) (h2 : j < c.size) : Links lo (c.setFailure i j) := by
  intro i' j' hi hl hj
  rw [Code.setFailure_size] at hl ⊢
  rw [Code.setFailure_instr] at hj
  split at hj
  · next he =>
    rcases hj with hj | hj
    · exact h i j' (by omega) (by omega) (.inl hj)
    · simp at hj; omega
  · exact h i' j' hi hl hj

end Links

/-- The same for the state of the compiler. -/
structure Linked (lo : Nat) (s : CSt) : Prop where
  links : Links lo s.code
  tail : s.tail < s.code.size
  lo : lo ≤ s.tail

theorem Linked.add {lo : Nat} {s : CSt} (h : Linked lo s) (f : InstrF) : Linked lo (s.add f) := by
  have h1 := h.tail
  have h2 := h.lo
  exact ⟨(h.links.alloc f).setSuccess _ (by omega) (by rw [Code.alloc_size]; omega), by simp, by rw [add_tail]; omega⟩

mutual
theorem compileS_linked {lo : Nat} : ∀ (x : Stmt) {s : CSt}, Linked lo s → Linked lo (compileS x s)
  | .add t, s, h => h.add _
  | .remove t, s, h => h.add _
  | .test t, s, h => h.add _
  | .replace p t, s, h => (h.add _).add _
  | .achieve t, s, h => h.add _
  | .achieveLater t, s, h => h.add _
  | .query q, s, h => ((h.add _).add _).add _
  | .forall_ q body, s, h => by
    rw [compileS]
    have h2 := (h.add (.pushQuery q)).add .nextOrFail
    have h3 := compileL_linked body h2
    have g3 := (compileL_grows body h2.tail).size
    have l2 := h2.lo
    have t2 := h2.tail
    have l3 := h3.lo
    have t3 := h3.tail
    generalize compileL body ((s.add (.pushQuery q)).add .nextOrFail) = s3 at *
    generalize (s.add (.pushQuery q)).add .nextOrFail = s2 at *
    refine ⟨(((h3.links.setSuccess _ l2 (by omega)).alloc _).setFailure _ ?_ ?_), ?_, ?_⟩
    · rw [Code.setSuccess_size]; omega
    · rw [Code.alloc_size]; omega
    · dsimp only; rw [Code.setFailure_size, Code.alloc_size]; omega
    · dsimp only; rw [Code.setSuccess_size]; omega
  | .ite q thn els, s, h => by
    rw [compileS]
    have h2 := (h.add (.pushQuery q)).add .nextOrFail
    generalize (s.add (.pushQuery q)).add .nextOrFail = s2 at *
    have l2 := h2.lo
    have t2 := h2.tail
    have h3 : Linked lo ⟨s2.code.alloc .popQuery, s2.tail⟩ := ⟨h2.links.alloc _, Nat.lt_succ_of_lt t2, l2⟩
    have h4 := compileThen_linked thn h3 (tail := s2.code.size) (by omega) (by rw [Code.alloc_size]; omega)
    have g4 := (compileThen_grows thn s2.code.size h3.tail).size
    dsimp only at g4
    rw [Code.alloc_size] at g4
    have h5 := compileElse_linked els (test := s2.tail) (tail := s2.code.size) h4.links (by omega) (by omega)
    have g5 := (compileElse_grows els s2.tail s2.code.size (s := compileThen thn s2.code.size ⟨s2.code.alloc .popQuery, s2.tail⟩) (by omega)).1
    exact ⟨h5, by dsimp only; omega, by dsimp only; omega⟩
  | .while_ q body, s, h => by
    rw [compileS]
    have l := h.lo
    have t := h.tail
    have h1 : Linked lo ⟨s.code.alloc .popChoicepoint, s.tail⟩ := ⟨h.links.alloc _, Nat.lt_succ_of_lt t, l⟩
    have h2 := h1.add (.pushQuery q)
    have z2 : ((⟨s.code.alloc .popChoicepoint, s.tail⟩ : CSt).add (.pushQuery q)).code.size = s.code.size + 2 := rfl
    generalize (⟨s.code.alloc .popChoicepoint, s.tail⟩ : CSt).add (.pushQuery q) = s2 at *
    have h4 := (h2.add .pushChoicepoint).add .nextOrFail
    have z4 : ((s2.add .pushChoicepoint).add .nextOrFail).code.size = s2.code.size + 2 := rfl
    generalize (s2.add .pushChoicepoint).add .nextOrFail = s4 at *
    have h5 : Linked lo ⟨s4.code.setFailure s4.tail s.code.size, s4.tail⟩ :=
      ⟨h4.links.setFailure _ (by omega) (by omega), h4.tail, h4.lo⟩
    have h6 := h5.add .popQuery
    have z6 : ((⟨s4.code.setFailure s4.tail s.code.size, s4.tail⟩ : CSt).add .popQuery).code.size = s4.code.size + 1 := rfl
    generalize (⟨s4.code.setFailure s4.tail s.code.size, s4.tail⟩ : CSt).add .popQuery = s6 at *
    have h7 := compileL_linked body h6
    have g7 := (compileL_grows body h6.tail).size
    generalize compileL body s6 = s7 at *
    have h8 := h7.add .popChoicepoint
    have z8 : (s7.add .popChoicepoint).code.size = s7.code.size + 1 := rfl
    generalize s7.add .popChoicepoint = s8 at *
    have l2 := h2.lo
    have t2 := h2.tail
    exact Linked.add ⟨h8.links.setSuccess _ (by omega) (by omega), (show s.code.size < s8.code.size by omega), by dsimp only; omega⟩ _
theorem compileL_linked {lo : Nat} : ∀ (xs : List Stmt) {s : CSt}, Linked lo s → Linked lo (compileL xs s)
  | [], s, h => h
  | x :: xs, s, h => by rw [compileL]; exact compileL_linked xs (compileS_linked x h)
theorem compileThen_linked {lo : Nat} : ∀ (o : Option (List Stmt)) {s : CSt} {tail : Nat}, Linked lo s → lo ≤ tail → tail < s.code.size →
    Linked lo (compileThen o tail s)
  | some body, s, tail, h, h1, h2 => by
    rw [compileThen]
    have h3 := compileL_linked body h
    have g3 := (compileL_grows body h.tail).size
    exact ⟨h3.links.setSuccess _ h1 (by omega), h3.tail, h3.lo⟩
  | none, s, tail, h, h1, h2 => by
    rw [compileThen]
    exact ⟨h.links.setSuccess _ h1 (by omega), h.tail, h.lo⟩
theorem compileElse_linked {lo : Nat} : ∀ (o : Option (List Stmt)) {s : CSt} {test tail : Nat}, Links lo s.code → lo ≤ tail → tail < s.code.size →
    Links lo (compileElse o test tail s).code
  | some body, s, test, tail, h, h1, h2 => by
    rw [compileElse]
    dsimp only
    have h3 : Linked lo ⟨(s.code.alloc .noop).setFailure test s.code.size, s.code.size⟩ :=
      ⟨(h.alloc _).setFailure _ (by omega) (by rw [Code.alloc_size]; omega), Nat.lt_succ_self s.code.size, by dsimp only; omega⟩
    have h4 := compileL_linked body h3
    have g4 := (compileL_grows body h3.tail).size
    rw [Code.setFailure_size, Code.alloc_size] at g4
    exact h4.links.setSuccess _ h1 (by omega)
  | none, s, test, tail, h, h1, h2 => by
    rw [compileElse]
    exact h.setFailure _ h1 h2
end

theorem compileBody_links (body : List Stmt) (c : Code) : Links c.size (compileBody body c) := by
  refine (compileL_linked body (s := ⟨c.alloc .noop, c.size⟩) ⟨?_, by simp, Nat.le_refl _⟩).links
  intro i j hi hl hj
  dsimp only at hi hl hj
  rw [Code.alloc_size] at hl
  have : i = c.size := by omega
  subst this
  rw [Code.alloc_new] at hj
  simp at hj

/-! ## Paths inside a plan body -/

/-- Instructions reached from inside are inside. -/
theorem Path.inside {lo : Nat} {c : Code} (h : Links lo c) {l : Option Nat} {tr : Trace} {z : Stop} (hp : Path c l tr z) :
    (∀ pc, l = some pc → lo ≤ pc ∧ pc < c.size) → ∀ pc, z = .at (some pc) → lo ≤ pc ∧ pc < c.size := by
  induction hp with
  | here l => intro hl pc hz; injection hz with hz; exact hl pc hz
  | @yes pc tr e _ ih =>
    intro hl
    have := hl pc rfl
    exact ih fun pc' hp => h pc pc' this.1 this.2 (.inl hp)
  | @no pc l tr e _ h1 _ ih =>
    intro hl
    have := hl pc rfl
    exact ih fun pc' hp => h pc pc' this.1 this.2 (.inr (h1.trans hp))
  | fail => intro _ pc hz; cases hz

/-- One more instruction answers `True`. -/
theorem Path.snoc_yes {c : Code} {l : Option Nat} {tr : Trace} {pc : Nat} (h : Path c l tr (.at (some pc))) :
    Path c l (tr ++ [((c.instr pc).f, true)]) (.at (c.instr pc).success) := by
  generalize hz : Stop.at (some pc) = z at h
  induction h with
  | here l => injection hz with hz; subst hz; exact .yes (.here _)
  | yes _ ih => exact .yes (ih hz)
  | no h1 h2 _ ih => exact .no h1 h2 (ih hz)
  | fail => cases hz

/-- One more instruction answers `False`. -/
theorem Path.snoc_no {c : Code} {l : Option Nat} {tr : Trace} {pc : Nat} (h : Path c l tr (.at (some pc)))
    (hf : (c.instr pc).f.canFail = true) :
    (∃ l', (c.instr pc).failure = some l' ∧ Path c l (tr ++ [((c.instr pc).f, false)]) (.at (some l'))) ∨
    (c.instr pc).failure = none ∧ Path c l (tr ++ [((c.instr pc).f, false)]) .failed := by
  generalize hz : Stop.at (some pc) = z at h
  induction h with
  | here l =>
    injection hz with hz
    subst hz
    cases h : (c.instr pc).failure with
    | none => exact .inr ⟨rfl, .fail hf h⟩
    | some l' => exact .inl ⟨l', rfl, .no hf h (.here _)⟩
  | yes _ ih =>
    rcases ih hz with ⟨l', h1, h2⟩ | ⟨h1, h2⟩
    · exact .inl ⟨l', h1, .yes h2⟩
    · exact .inr ⟨h1, .yes h2⟩
  | no h1 h2 _ ih =>
    rcases ih hz with ⟨l', h3, h4⟩ | ⟨h3, h4⟩
    · exact .inl ⟨l', h3, .no h1 h2 h4⟩
    · exact .inr ⟨h3, .no h1 h2 h4⟩
  | fail => cases hz

/-! ## Growing code stores -/

/-- Instructions are added, those in use do not change. -/
structure Code.Ext (c c' : Code) : Prop where
  size : c.size ≤ c'.size
  old : ∀ i, i < c.size → c'.instr i = c.instr i

theorem Code.Ext.refl (c : Code) : c.Ext c := ⟨Nat.le_refl _, fun _ _ => rfl⟩

theorem Code.Ext.trans {c c' c'' : Code} (h : c.Ext c') (h' : c'.Ext c'') : c.Ext c'' :=
  ⟨Nat.le_trans h.size h'.size, fun i hi => (h'.old i (Nat.lt_of_lt_of_le hi h.size)).trans (h.old i hi)⟩

theorem compileBody_ext (body : List Stmt) (c : Code) : c.Ext (compileBody body c) :=
  ⟨Nat.le_of_lt (compileBody_size body c), fun _ => compileBody_old body c⟩

/-- The plan was built from source: its body was compiled when the code store was `c₀`, and
the instructions are still in the code store `c`. -/
structure BuiltFrom (c : Code) (p : Plan) (src : PlanSrc) (k : Nat) (c₀ : Code) : Prop where
  plan : p = ⟨src.trigger, src.goalType, src.head.rename (k + ·), src.context.rename (k + ·), c₀.size, src.label, src.text⟩
  ext : (compileBody (Stmt.renameL (k + ·) src.body) c₀).Ext c

/-- The plan was built from some source. -/
def Built (c : Code) (p : Plan) : Prop := ∃ src k c₀, BuiltFrom c p src k c₀

theorem BuiltFrom.mono {c c' : Code} {p : Plan} {src : PlanSrc} {k : Nat} {c₀ : Code} (h : BuiltFrom c p src k c₀) (hc : c.Ext c') :
    BuiltFrom c' p src k c₀ := ⟨h.plan, h.ext.trans hc⟩

theorem Built.mono {c c' : Code} {p : Plan} (h : Built c p) (hc : c.Ext c') : Built c' p := by
  obtain ⟨src, k, c₀, h⟩ := h
  exact ⟨src, k, c₀, h.mono hc⟩

theorem BuiltFrom.region {c : Code} {p : Plan} {src : PlanSrc} {k : Nat} {c₀ : Code} (h : BuiltFrom c p src k c₀) :
    Region c (some p.body) none (bodyLang (Stmt.renameL (k + ·) src.body)) := by
  rw [h.plan]
  exact compileBody_region fun i _ hi => h.ext.old i hi

end Verif
