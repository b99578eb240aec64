import Verif.Lemmas.Step
import Verif.Spec.ExactHost
import Verif.Props.Ground

/-!
# C25-C28, C31, C52, C53: steps, waiting, scheduling
-/

namespace Verif

section
variable [Host]

/-! ## C26: one step -/

theorem exec_ne_false {n a i pc : Nat} {s s' : QSt World} : exec n a i pc s ≠ .ok false s' := by
  unfold exec
  simp only
  split
  · simp
  · simp
  · simp
  · split <;> simp

theorem finish_ne_false {n a k i : Nat} {s s' : QSt World} : finish n a k i s ≠ .ok false s' := by
  unfold finish
  simp only
  split
  · simp
  · split
    · simp
    · simp
    · split
      · simp
      · simp
      · split
        · simp
        · simp
        · split <;> simp

/-- **C26.** `step` returns `False` iff every stack is empty or suspended; then it executes
nothing: it only has removed leading empty stacks and read the clock. -/
theorem C26_idle_iff {n a : Nat} {s s' : QSt World} :
    step n a s = .ok false s' ↔ ∃ k, Suspended s.w s.w.ticks (s.w.ags a).intentions k ∧
      s' = { s with w := { s.w.setStacks a ((s.w.ags a).intentions.dropWhile (·.isEmpty)) with ticks := k } } := by
  rcases step_spec n a s with ⟨k, h1, h2⟩ | ⟨pre, i, st, post, k, w₁, h1, h2, h3, h4⟩
  · rw [h2]
    constructor
    · intro h
      cases h
      exact ⟨k, h1, rfl⟩
    · rintro ⟨k', h3, rfl⟩
      have : k = k' := h1.unique h3
      rw [this]
  · constructor
    · intro h
      rcases h4 with ⟨_, h4⟩ | ⟨_, _, h4⟩
      · exact absurd (h4 ▸ h) finish_ne_false
      · exact absurd (h4 ▸ h) exec_ne_false
    · rintro ⟨k', h5, _⟩
      exact absurd (h1 ▸ Suspended.empties.1 h5) fun h => h.notReady h2 h3.spec.2.2.2.2.2.2.2.2.1

theorem exec_executes {n a i pc : Nat} {s s' : QSt World} (h : (exec n a i pc s).leaves s') : Executes n a i pc s s' := by
  unfold exec at h
  simp only at h
  cases hr : runI n a i (s.w.code.instr pc).f s with
  | oof => simp [hr] at h
  | err e s₁ =>
    simp only [hr, Res.leaves_err] at h
    subst h
    exact .inr ⟨e, hr⟩
  | ok b s₁ =>
    refine .inl ⟨b, s₁, hr, ?_⟩
    cases b with
    | true =>
      simp only [hr, Res.leaves_ok] at h
      subst h
      rfl
    | false =>
      cases hf : (s.w.code.instr pc).failure with
      | none =>
        simp only [hr, hf, Res.leaves_err] at h
        subst h
        rfl
      | some q =>
        simp only [hr, hf, Res.leaves_ok] at h
        subst h
        rfl

/-- **C26.** Otherwise `step` runs the first stack (in creation order) that is ready:
stacks before it are empty or suspended.  Let `i` be its top and `w₁` the world after the
waiter of `i` has been removed.

* If `i` is at instruction `pc`, this instruction is executed once, and the program
  counter moves to its success instruction, or to its failure instruction if there is one
  (`step` returns `True`); or `step` raises: then the program counter is as before if the
  instruction has raised, or nowhere if the instruction has failed and there is no failure
  instruction.
* If `i` is at the end of its plan, it is popped from the stack, and the other stacks of
  the agents are as before (up to empty stacks).

The program counters of all other intentions stay as they are. -/
theorem C26_runs_first_ready {n a : Nat} {s s' : QSt World} (hw : StacksOK s.w) (h : (step n a s).leaves s')
    (hne : step n a s ≠ .ok false s') :
    ∃ pre i st post k w₁, (s.w.ags a).intentions = pre ++ (i :: st) :: post ∧
      Suspended s.w s.w.ticks pre k ∧ Ready s.w k i ∧
      Chosen1 (s.w.setStacks a ((s.w.ags a).intentions.dropWhile (·.isEmpty))) k i w₁ ∧
      (∀ j, j < s.w.nint → j ≠ i → (s'.w.ints j).instr = (s.w.ints j).instr) ∧
      (∀ pc, (s.w.ints i).instr = some pc → Executes n a i pc { s with w := w₁ } s' ∧
        ((step n a s = .ok true s' ∧ ((s'.w.ints i).instr = (s.w.code.instr pc).success ∨
          (s.w.code.instr pc).failure ≠ none ∧ (s'.w.ints i).instr = (s.w.code.instr pc).failure)) ∨
         ∃ e, step n a s = .err e s' ∧ ((s'.w.ints i).instr = some pc ∨
          (s.w.code.instr pc).failure = none ∧ (s'.w.ints i).instr = none))) ∧
      ((s.w.ints i).instr = none → (s'.w.ints i).instr = none ∧
        (s'.w.ags a).intentions.filter (!·.isEmpty) = (pre ++ st :: post).filter (!·.isEmpty) ∧
        ∀ a', a' ≠ a → s'.w.ags a' = s.w.ags a') := by
  rcases step_spec n a s with ⟨k, _, h2⟩ | ⟨pre', i', st', post', k', w₁, g1, g2, g3, g4⟩
  · rw [h2, Res.leaves_ok] at h
    exact absurd (h ▸ h2) hne
  obtain ⟨pre, h1, h2⟩ := choose_all g1 g2
  have hr : Ready s.w k' i' := g3.spec.2.2.2.2.2.2.2.2.1
  refine ⟨pre, i', st', post', k', w₁, h1, h2, hr, g3, ?_⟩
  rcases g4 with ⟨hn, g4⟩ | ⟨pc, hp, g4⟩
  · have h' := h
    rw [g4] at h'
    have hp := finish_popped hw h1 g1 g2.le g3 h'
    have hall : ∀ j, (s'.w.ints j).instr = (s.w.ints j).instr := by
      intro j
      rcases hp.ints with h | ⟨j', st'', b', _, _, h⟩
      · have := congrArg Intention.instr (h j); exact this
      · have := congrArg Intention.instr (h j)
        simp only [Intention.core] at this
        rw [this]
        split <;> rfl
    refine ⟨fun j _ _ => hall j, fun pc hpc => ?_, fun _ => ⟨(hall i').trans hn, hp.popped, hp.other⟩⟩
    rw [hn] at hpc
    cases hpc
  · obtain ⟨c1, c2, c3, c4, c5, c6, c7, c8, c9, c10⟩ := g3.spec
    have h' := h
    rw [g4] at h'
    have hw₁ : StacksOK w₁ := StacksOK.congr (hw.shrink (a := a) (sts := (s.w.ags a).intentions.dropWhile (·.isEmpty))
      (by rw [flatten_dropWhile]; exact .refl _)) (Nat.le_of_eq c2.symm) fun _ => by rw [c1]
    have hi : i' < w₁.nint := by
      rw [c2]
      exact hw.below a (i' :: st') (by rw [h1]; simp) i' List.mem_cons_self
    have hp₁ : (w₁.ints i').instr = some pc := by
      rw [← hp]
      have := congrArg Intention.instr (c7 i')
      exact this
    obtain ⟨f, hf⟩ := exec_framed (s := { s with w := w₁ }) hw₁ hi hp₁ h'
    refine ⟨fun j hj hne => ?_, fun pc' hpc => ?_, fun hn => ?_⟩
    · have := congrArg Intention.instr ((f.others j (c2 ▸ hj) hne).trans (c7 j))
      exact this
    · rw [hp] at hpc
      cases hpc
      refine ⟨exec_executes h', ?_⟩
      have : w₁.code = s.w.code := c5
      simp only [this] at hf
      rw [g4]
      exact hf
    · rw [hn] at hp
      cases hp

/-! ## C27: waiting -/

/-- **C27.** Intention `j` of agent `a` is suspended with waiter `x`.  After any number of
steps of any agents, and sleeping in between, it has not been touched at all (program counter, bindings, waiter, …),
unless in the meantime a reading of the clock was strictly past its deadline, or an event
matching its pattern was delivered to its agent. -/
theorem C27_wait {a j : Nat} {x : Waiter} {s s' : QSt World} (hw : StacksOK s.w) (ht : IsTop s.w a j)
    (hx : (s.w.ints j).waiter = some x) (h : Steps s s') :
    s'.w.ints j = s.w.ints j ∨ WokenBy s.w s'.w a x := by
  have hj : j < s.w.nint := by
    obtain ⟨st, hs⟩ := ht
    exact hw.below a _ hs j List.mem_cons_self
  have ht' := hw.onlyTop ht
  clear ht
  have mono : ∀ {s s' : QSt World}, StacksOK s.w → Steps s s' → s.w.ticks ≤ s'.w.ticks ∧ s'.w.clock = s.w.clock ∧
      ∃ new, s'.w.events = new ++ s.w.events := by
    intro s s' hw h
    induction h with
    | refl => exact ⟨Nat.le_refl _, rfl, [], rfl⟩
    | step h1 _ ih =>
      obtain ⟨r1, _, r3, r4, new, r5⟩ := step_ran hw h1
      obtain ⟨i1, i2, new', i3⟩ := ih r1
      exact ⟨Nat.le_trans r3 i1, i2.trans r4, new' ++ new, by rw [i3, r5, List.append_assoc]⟩
    | sleep h1 _ ih =>
      have hs := (sleep_prim (w₀ := World.init fun _ => 0) h1).stacksOK hw
      obtain ⟨i1, i2, i3⟩ := ih hs
      rw [sleep_eq h1] at i1 i2 i3
      exact ⟨Nat.le_trans (Nat.le_succ _) i1, i2, i3⟩
  induction h with
  | refl => exact .inl rfl
  | @step s n a' s₁ s' h1 h2 ih =>
    obtain ⟨r1, r2, r3, r4, new, r5⟩ := step_ran hw h1
    obtain ⟨m1, m2, new', m3⟩ := mono r1 h2
    rcases step_waits hw hj ht' hx h1 with ⟨h3, h4⟩ | h3
    · rcases ih r1 (by rw [h3]; exact hx) (Nat.lt_of_lt_of_le hj r2) h4 with h5 | ⟨d, k, h5, h6, h7, h8⟩ | ⟨e, evs, h5, h6, h7⟩
      · exact .inl (h5.trans h3)
      · exact .inr (.inl ⟨d, k, h5, Nat.le_trans r3 h6, h7, r4 ▸ h8⟩)
      · refine .inr (.inr ⟨e, evs ++ new, h5, by rw [h6, r5, List.append_assoc], h7.mono fun x hx => List.mem_append_left _ hx⟩)
    · rcases h3 with ⟨d, k, h5, h6, h7, h8⟩ | ⟨e, evs, h5, h6, h7⟩
      · exact .inr (.inl ⟨d, k, h5, h6, Nat.lt_of_lt_of_le h7 m1, h8⟩)
      · exact .inr (.inr ⟨e, new' ++ evs, h5, by rw [m3, h6, List.append_assoc], h7.mono fun x hx => List.mem_append_right _ hx⟩)
  | @sleep s d s₁ s' h1 h2 ih =>
    have hs := (sleep_prim (w₀ := World.init fun _ => 0) h1).stacksOK hw
    rw [sleep_eq h1] at ih hs
    rcases ih hs hx hj ht' with h5 | ⟨d, k, h5, h6, h7, h8⟩ | h5
    · exact .inl h5
    · exact .inr (.inl ⟨d, k, h5, Nat.le_trans (Nat.le_succ _) h6, h7, h8⟩)
    · exact .inr (.inr h5)

/-- **C27.** `.wait(ms)` suspends the intention that executes it until `ms` milliseconds
after the time read from the clock. -/
theorem C27_wait_sets_deadline {n : Nat} {f : String} {q : Rat} {xs : List Term} {s s' : QSt World} {g : Option ActGen}
    (h : waitAct (n + 1) (.lit f [.num q] xs) s = .ok g s') :
    (s'.w.ints s.w.curInt).waiter = some ⟨none, some (s.w.clock s.w.ticks + q / 1000)⟩ ∧
      ∀ j, j ≠ s.w.curInt → s'.w.ints j = s.w.ints j := by
  have hg : grounded (n + 1) s.b.scope (.num q) = .ok (.num q) := rfl
  simp only [waitAct, argList, Ev.mapL, hg, Ev.bind, Res.lift, Res.bind, World.time] at h
  cases h
  refine ⟨by simp [World.setWaiter, World.setInt], fun j hj => ints_setInt hj⟩

/-! ## C25: sub-goals -/

omit [Host] in
theorem StacksOK.above {w : World} (hw : StacksOK w) {a i j : Nat} (h : DirectlyAbove w a i j) {a' i' : Nat} {st : List Nat}
    (hs : (i' :: st) ∈ (w.ags a').intentions) : i' ≠ j ∧ ∀ st', st = j :: st' → a' = a ∧ i' = i := by
  obtain ⟨l, r, hm⟩ := h
  have hjm : j ∈ l ++ i :: j :: r := by simp
  have same : ∀ st', st' ∈ (w.ags a').intentions → j ∈ st' → a' = a ∧ st' = l ++ i :: j :: r := by
    intro st' hs' hj
    by_cases ha : a' = a
    · subst ha
      refine ⟨rfl, ?_⟩
      obtain ⟨p, q, hpq⟩ := List.append_of_mem hm
      have ho := hw.once a'
      rw [hpq] at ho hs'
      simp only [List.flatten_append, List.flatten_cons] at ho
      have hd := List.nodup_append.1 ho
      rcases List.mem_append.1 hs' with h | h
      · exact absurd rfl (hd.2.2 j (List.mem_flatten.2 ⟨st', h, hj⟩) j (List.mem_append_left _ hjm))
      · rcases List.mem_cons.1 h with rfl | h
        · rfl
        · exact absurd rfl ((List.nodup_append.1 hd.2.1).2.2 j hjm j (List.mem_flatten.2 ⟨st', h, hj⟩))
    · exact absurd (List.mem_flatten.2 ⟨_, hm, hjm⟩) (hw.apart a' a j ha (List.mem_flatten.2 ⟨_, hs', hj⟩))
  have hn : (l ++ i :: j :: r).Nodup := by
    have ho := hw.once a
    obtain ⟨p, q, hpq⟩ := List.append_of_mem hm
    rw [hpq] at ho
    simp only [List.flatten_append, List.flatten_cons] at ho
    exact (List.nodup_append.1 (List.nodup_append.1 ho).2.1).1
  constructor
  · rintro rfl
    obtain ⟨_, he⟩ := same _ hs List.mem_cons_self
    cases l with
    | nil =>
      simp only [List.nil_append, List.cons.injEq] at he
      rw [he.1] at hn
      simp at hn
    | cons x l =>
      simp only [List.cons_append, List.cons.injEq] at he
      rw [he.1] at hn
      simp at hn
  · rintro st' rfl
    obtain ⟨h1, he⟩ := same _ hs (by simp)
    refine ⟨h1, ?_⟩
    cases l with
    | nil => simp only [List.nil_append, List.cons.injEq] at he; exact he.1
    | cons x l =>
      exfalso
      simp only [List.cons_append, List.cons.injEq] at he
      obtain ⟨rfl, he⟩ := he
      cases l with
      | nil =>
        simp only [List.nil_append, List.cons.injEq] at he
        rw [he.1] at hn
        simp at hn
      | cons y l =>
        simp only [List.cons_append, List.cons.injEq] at he
        rw [← he.1] at hn
        simp at hn

/-- **C25.** While a sub-goal `i` of `j` is on the stack, a step (of any agent) does not
change the caller `j` — program counter, bindings, running queries — except if `i` has
completed: then the only change are the bindings of `j`, and they come from unifying the
term of the call with a frozen copy of the goal of `i`. -/
theorem C25_subgoal {n a a' i j : Nat} {s s' : QSt World} (hw : StacksOK s.w) (ha : DirectlyAbove s.w a i j)
    (h : (step n a' s).leaves s') :
    (s'.w.ints j).core = (s.w.ints j).core ∨
      a' = a ∧ (s.w.ints i).instr = none ∧ ∃ b', Returns n s i j b' ∧ (s'.w.ints j).core = { (s.w.ints j).core with b := b' } := by
  have hj : j < s.w.nint := by
    obtain ⟨l, r, hm⟩ := ha
    exact hw.below a _ hm j (by simp)
  rcases step_cases hw h with ⟨k, _, _, rfl⟩ | ⟨pre, i', st, post, k, h1, h2, h3, ⟨pc, hpc, hr, _⟩ | ⟨h5, pre', w₁, h6, h7, h8⟩⟩
  · exact .inl rfl
  · have := (hw.above ha (a' := a') (i' := i') (st := st) (by rw [h1]; simp)).1
    exact .inl (hr.others j hj (Ne.symm this))
  · rw [h8] at h
    have hp := finish_popped hw h1 h6 h2.le h7 h
    rcases hp.ints with h | ⟨j', st', b', rfl, hb, h⟩
    · exact .inl (h j)
    · by_cases hjj : j = j'
      · subst hjj
        obtain ⟨rfl, rfl⟩ := (hw.above ha (a' := a') (i' := i') (st := j :: st') (by rw [h1]; simp)).2 st' rfl
        right
        refine ⟨rfl, h5, b', hb, ?_⟩
        rw [h j, if_pos rfl]
        rfl
      · left
        rw [h j, if_neg hjj]

/-- **C25.** The term handed back is a copy: it contains no variable that existed before. -/
theorem C25_result_is_copy {n : Nat} {s : QSt World} {i j : Nat} {b' : BSt} (h : Returns n s i j b') :
    ∃ (t hd frozen : Term) (ρ : VarId → VarId), (s.w.ints i).callingTerm = some t ∧ (s.w.ints i).headTerm = some hd ∧
      Copy (s.w.ints i).b.scope (fun x y => y = ρ x) hd frozen ∧ frozen.VarsIn (fun y => ¬ y < s.nv) ∧
      (unify n t frozen (s.w.ints j).b).leaves b' := by
  obtain ⟨t, hd, frozen, m, h1, h2, h3, h4⟩ := h
  obtain ⟨ρ, _, _, hc, _⟩ := C10_freeze_copy h3
  exact ⟨t, hd, frozen, ρ, h1, h2, hc, C10_freeze_isolated h3, h4⟩

/-- **C25.** From the call to the completion of the sub-goals: the caller is unchanged, or
one of the steps was the completion of a sub-goal of `j`. -/
theorem C25_while_running {j : Nat} {s s' : QSt World} (hw : StacksOK s.w) (h : CoveredSteps j s s') :
    (s'.w.ints j).core = (s.w.ints j).core ∨
      ∃ s₁ s₂ n a i b', CoveredSteps j s s₁ ∧ (s₁.w.ints j).core = (s.w.ints j).core ∧ DirectlyAbove s₁.w a i j ∧
        (s₁.w.ints i).instr = none ∧ (step n a s₁).leaves s₂ ∧ Returns n s₁ i j b' ∧
        (s₂.w.ints j).core = { (s.w.ints j).core with b := b' } := by
  induction h with
  | refl => exact .inl rfl
  | @step s n a' s₁ s' hc h1 h2 ih =>
    obtain ⟨a, i, hd⟩ := hc
    rcases C25_subgoal hw hd h1 with h3 | ⟨rfl, h3, b', h4, h5⟩
    · rcases ih (step_ran hw h1).1 with h6 | ⟨s₂, s₃, n', a₁, i', b', h6, h7, h8⟩
      · exact .inl (h6.trans h3)
      · exact .inr ⟨s₂, s₃, n', a₁, i', b', .step ⟨a, i, hd⟩ h1 h6, h7.trans h3, h3 ▸ h8⟩
    · exact .inr ⟨s, s₁, n, a', i, b', .refl s, rfl, hd, h3, h1, h4, h5⟩
  | @sleep s d s₁ s' hc h1 h2 ih =>
    have hs := (sleep_prim (w₀ := World.init fun _ => 0) h1).stacksOK hw
    have h3 : (s₁.w.ints j).core = (s.w.ints j).core := by rw [sleep_eq h1]
    rcases ih hs with h6 | ⟨s₂, s₃, n', a₁, i', b', h6, h7, h8⟩
    · exact .inl (h6.trans h3)
    · exact .inr ⟨s₂, s₃, n', a₁, i', b', .sleep hc h1 h6, h7.trans h3, h3 ▸ h8⟩

omit [Host] in
theorem QSt.nest_b {α : Type} {s s' : QSt World} {a i : Nat} {b : BSt} {f : QSt World → Res (QSt World) α}
    (h : (s.nest a i b f).leaves s') : s'.b = s.b := by
  unfold QSt.nest at h
  split at h <;> simp at h <;> subst h <;> rfl

theorem wake_b {n : Nat} {tr : Trigger} {gt : GoalType} {frozen : Term} :
    ∀ {sts : List (List Nat)} {s s' : QSt World}, (wake n tr gt frozen sts s).leaves s' → s'.b = s.b
  | [], s, s', h => by simp [wake] at h; rw [h]
  | [] :: rest, s, s', h => wake_b (sts := rest) h
  | (i :: st) :: rest, s, s', h => by
    unfold wake at h
    split at h
    · split at h
      · exact wake_b (sts := rest) h
      · split at h
        · have := wake_b (sts := rest) h; exact this
        · exact wake_b (sts := rest) h
        · simp at h; rw [h]
        · simp at h
    · exact wake_b (sts := rest) h

theorem callFrozen_b {n a : Nat} {tr : Trigger} {gt : GoalType} {t : Term} {s s' : QSt World}
    (h : (callFrozen n a tr gt t s).leaves s') : s'.b = s.b := by
  have hf : ∀ {s'}, (s.freeze n t).leaves s' → s'.b = s.b := by
    intro s' h
    unfold QSt.freeze at h
    split at h <;> simp at h <;> subst h <;> rfl
  unfold callFrozen at h
  rw [Res.leaves_bind] at h
  rcases h with ⟨e, h⟩ | ⟨frozen, s₁, h1, h⟩
  · exact hf (.inr ⟨e, h⟩)
  have h1 := hf (.inl ⟨_, h1⟩)
  split at h
  · simp only [Res.leaves_bind, Res.leaves_ok] at h
    rcases h with ⟨e, h⟩ | ⟨_, s₂, h2, h⟩
    · exact (wake_b (.inr ⟨e, h⟩)).trans h1
    · exact h ▸ (wake_b (.inl ⟨_, h2⟩)).trans h1
  · simp at h; exact h ▸ h1

/-- **C25.** Calling a sub-goal does not change the caller's bindings. -/
theorem C25_call_by_value {n a i : Nat} {rec : Rec} {t : Term} {d : Bool} {s s' : QSt World}
    (h : (call n rec a .addition .achievement t i d s).leaves s') : s'.b = s.b := by
  unfold call at h
  simp only [callBeliefs, Res.bind, Bool.not_true, Bool.false_eq_true, if_false] at h
  change (Res.bind _ _).leaves s' at h
  rw [Res.leaves_bind] at h
  rcases h with ⟨e, h⟩ | ⟨frozen, s₁, h1, h⟩
  · exact callFrozen_b (.inr ⟨e, h⟩)
  have h1 := callFrozen_b (.inl ⟨_, h1⟩)
  simp only [callPlans] at h
  rw [Res.leaves_bind] at h
  rcases h with ⟨e, h⟩ | ⟨⟨o, b⟩, s₂, h2, h⟩
  · exact (QSt.nest_b (.inr ⟨e, h⟩)).trans h1
  have hb : s₂.b = s.b := (QSt.nest_b (.inl ⟨_, h2⟩)).trans h1
  cases o with
  | none => simp at h; subst h; exact hb
  | some p =>
    simp only [startPlan] at h
    split at h
    · simp at h; subst h; exact hb
    · split at h <;> simp at h <;> subst h <;> exact hb

/-! ## C31: failing plans -/

/-- **C31, in part.** If the instruction raises an exception, the intention stays where it
is: the instruction is executed again by the next step that runs the intention.

Missing (and false, see `C31_failed_plan_completes`): the same for instructions that fail
without exception. -/
theorem C31_exception_partial {n a i pc : Nat} {s s' : QSt World} {e : Err} (hw : StacksOK s.w) (hi : i < s.w.nint)
    (hp : (s.w.ints i).instr = some pc) (h : runI n a i (s.w.code.instr pc).f s = .err e s') :
    exec n a i pc s = .err (.py "AggregatedError") s' ∧ (s'.w.ints i).instr = some pc := by
  have h0 := runI_keeps (framed_run (w₀ := { s.w with cur := a, curInt := i }) hi) rfl (n := n) (a := a) (f := (s.w.code.instr pc).f) (s := s)
    ⟨.refl (w₀ := { s.w with cur := a, curInt := i }) (hw.congr (Nat.le_refl _) fun _ => rfl) i, rfl⟩
  refine ⟨?_, (h0.of_err h).2.trans hp⟩
  unfold exec
  simp only [h]

/-! ## C28: `run` and `run_agent` -/

/-- All intentions of agent `a` wait for an event, without deadline. -/
def OnlyEvents (w : World) (a : Nat) : Prop := ∀ i st, (i :: st) ∈ (w.ags a).intentions → ∃ e, (w.ints i).waiter = some ⟨e, none⟩

omit [Host] in
theorem Suspended.mem {w : World} {k k' : Nat} {sts : List (List Nat)} (h : Suspended w k sts k') {i : Nat} {st : List Nat}
    (hm : (i :: st) ∈ sts) : ∃ e d, (w.ints i).waiter = some ⟨e, d⟩ ∧ ∀ d', d = some d' → ∃ k₁, k ≤ k₁ ∧ k₁ < k' ∧ w.clock k₁ ≤ d' := by
  induction h with
  | nil => simp at hm
  | empty _ ih => exact ih (by simpa using hm)
  | event h _ ih =>
    rcases List.mem_cons.1 hm with h' | h'
    · cases h'; exact ⟨_, _, h, by simp⟩
    · exact ih h'
  | @early k _ _ _ _ e d h h1 h2 ih =>
    rcases List.mem_cons.1 hm with h' | h'
    · cases h'; exact ⟨_, _, h, fun d' hd => ⟨k, Nat.le_refl _, h2.le, by cases hd; exact h1⟩⟩
    · obtain ⟨e, d, i1, i2⟩ := ih h'
      exact ⟨e, d, i1, fun d' hd => have ⟨k₁, j1, j2⟩ := i2 d' hd; ⟨k₁, Nat.le_of_succ_le j1, j2⟩⟩

omit [Host] in
theorem shortestDeadline_mem {w : World} {a i : Nat} {st : List Nat} {x : Waiter} (hm : (i :: st) ∈ (w.ags a).intentions)
    (hx : (w.ints i).waiter = some x) {d : Rat} (hd : x.deadline = some d) : ∃ d', shortestDeadline w a = some d' ∧ d' ≤ d := by
  unfold shortestDeadline
  have hmem : d ∈ (w.ags a).intentions.filterMap fun st => match st with
    | i :: _ => (w.ints i).waiter.bind (·.deadline)
    | [] => none := by
    rw [List.mem_filterMap]
    exact ⟨i :: st, hm, by simp [hx, hd]⟩
  generalize (w.ags a).intentions.filterMap _ = l at hmem
  cases hl : l.min? with
  | none => rw [List.min?_eq_none_iff] at hl; simp [hl] at hmem
  | some d' =>
    refine ⟨d', rfl, ?_⟩
    exact (List.min?_eq_some_iff.1 hl).2 d hmem

omit [Host] in
theorem onlyEvents_of {w : World} {a : Nat} {k : Nat} (h : ∃ k', Suspended w k (w.ags a).intentions k')
    (hd : shortestDeadline w a = none) : OnlyEvents w a := by
  intro i st hm
  obtain ⟨k', h⟩ := h
  obtain ⟨e, d, hx, _⟩ := h.mem hm
  cases d with
  | none => exact ⟨e, hx⟩
  | some d =>
    obtain ⟨d', h', _⟩ := shortestDeadline_mem hm hx rfl
    rw [hd] at h'
    cases h'

theorem idle_suspended {n a : Nat} {s s' : QSt World} (h : step n a s = .ok false s') :
    (∃ k k', Suspended s'.w k (s'.w.ags a).intentions k') ∧ s'.w.ints = s.w.ints ∧ s'.w.clock = s.w.clock ∧ s'.w.reg = s.w.reg ∧
      ∀ a', a' ≠ a → s'.w.ags a' = s.w.ags a' := by
  obtain ⟨k, h1, rfl⟩ := C26_idle_iff.1 h
  refine ⟨⟨s.w.ticks, k, ?_⟩, rfl, rfl, rfl, fun a' ha => setStacks_other ha⟩
  have he : (s.w.setStacks a ((s.w.ags a).intentions.dropWhile (·.isEmpty)) |>.ags a).intentions = (s.w.ags a).intentions.dropWhile (·.isEmpty) :=
    setStacks_self
  change Suspended _ _ (s.w.setStacks a _ |>.ags a).intentions k
  rw [he]
  exact (Suspended.empties.1 h1).mono rfl fun _ => rfl

theorem idle_tops {n a : Nat} {s s' : QSt World} (h : step n a s = .ok false s') (a' : Nat) :
    ∀ i st, (i :: st) ∈ (s'.w.ags a').intentions ↔ (i :: st) ∈ (s.w.ags a').intentions := by
  obtain ⟨k, h1, rfl⟩ := C26_idle_iff.1 h
  intro i st
  by_cases ha : a' = a
  · subst ha
    change (i :: st) ∈ (s.w.setStacks a' _ |>.ags a').intentions ↔ _
    rw [setStacks_self]
    have := filter_dropWhile (s.w.ags a').intentions
    have h2 : ∀ l : List (List Nat), (i :: st) ∈ l ↔ (i :: st) ∈ l.filter (!·.isEmpty) := fun l => by simp [List.mem_filter]
    rw [h2, this, ← h2]
  · change (i :: st) ∈ (s.w.setStacks a _ |>.ags a').intentions ↔ _
    rw [setStacks_other ha]

omit [Host] in
theorem sleepUntil_ok {d : Rat} {s s' : QSt World} (h : sleepUntil d s = .ok () s') :
    s.w.clock s.w.ticks ≤ d ∧ s' = { s with w := { s.w with ticks := s.w.ticks + 1 } } := by
  change (if d - s.w.clock s.w.ticks < 0 then _ else _) = _ at h
  by_cases hd : d - s.w.clock s.w.ticks < 0
  · rw [if_pos hd] at h; cases h
  · rw [if_neg hd] at h
    cases h
    refine ⟨?_, rfl⟩
    grind

/-- **C28, in part.** If `run_agent` returns, and the clock is positive, then all
intentions of the agent wait for events, without deadline.

Missing: positive clocks are necessary (`C28_run_agent_deadline_zero`); sleeping may raise
`ValueError` (`C28_sleep_race`). -/
theorem C28_run_agent_partial {n a : Nat} : ∀ {k : Nat} {s s' : QSt World}, (∀ k, 0 < s.w.clock k) → StacksOK s.w →
    runAgent n a k s = .ok () s' → OnlyEvents s'.w a
  | 0, s, s', _, _, h => by simp [runAgent] at h
  | k + 1, s, s', hc, hw, h => by
    unfold runAgent at h
    rw [Res.bind_eq_ok] at h
    obtain ⟨m, s₁, h1, h⟩ := h
    have hr := step_ran hw (.inl ⟨_, h1⟩)
    have hc₁ : ∀ k, 0 < s₁.w.clock k := fun k => by rw [hr.2.2.2.1]; exact hc k
    cases m with
    | true => exact C28_run_agent_partial hc₁ hr.1 (by simpa using h)
    | false =>
      simp only [Bool.false_eq_true, if_false] at h
      obtain ⟨⟨k₁, k₂, hs⟩, hi⟩ := idle_suspended h1
      cases hd : shortestDeadline s₁.w a with
      | none =>
        simp only [hd] at h
        cases h
        exact onlyEvents_of ⟨k₂, hs⟩ hd
      | some d =>
        simp only [hd] at h
        split at h
        · next h0 =>
          exfalso
          subst h0
          have hm := List.min?_mem (by exact hd)
          rw [List.mem_filterMap] at hm
          obtain ⟨st, hst, hx⟩ := hm
          cases st with
          | nil => simp at hx
          | cons i st =>
            obtain ⟨e, d, hw', hd'⟩ := hs.mem hst
            simp only [hw', Option.bind_some] at hx
            obtain ⟨k, hk⟩ := hd' _ hx
            exact Rat.not_lt.2 hk.2.2 (hc₁ k)
        · rw [Res.bind_eq_ok] at h
          obtain ⟨_, s₂, h2, h⟩ := h
          obtain ⟨_, rfl⟩ := sleepUntil_ok h2
          exact C28_run_agent_partial (s := { s₁ with w := { s₁.w with ticks := s₁.w.ticks + 1 } }) hc₁
            (hr.1.congr (Nat.le_refl _) fun _ => rfl) h

/-- A round in which no agent had anything to do. -/
theorem round_idle {n : Nat} : ∀ {as : List Nat} {s s' : QSt World}, round n as s = .ok false s' →
    s'.w.ints = s.w.ints ∧ s'.w.clock = s.w.clock ∧ s'.w.reg = s.w.reg ∧
    (∀ a i st, (i :: st) ∈ (s'.w.ags a).intentions ↔ (i :: st) ∈ (s.w.ags a).intentions) ∧
    ∀ a ∈ as, ∀ i st, (i :: st) ∈ (s.w.ags a).intentions → ∃ e d, (s.w.ints i).waiter = some ⟨e, d⟩
  | [], s, s', h => by
    simp [round] at h
    subst h
    exact ⟨rfl, rfl, rfl, fun _ _ _ => Iff.rfl, by simp⟩
  | a :: as, s, s', h => by
    unfold round at h
    simp only [Res.bind_eq_ok] at h
    obtain ⟨m, s₁, h1, m', s₂, h2, h⟩ := h
    have hm : m = false ∧ m' = false := by
      have := (Res.ok.inj h).1
      simpa using this
    obtain ⟨rfl, rfl⟩ := hm
    have hs := (Res.ok.inj h).2
    subst hs
    obtain ⟨⟨k, k', hs⟩, i1, i2, i3, i4⟩ := idle_suspended h1
    have it := idle_tops h1
    obtain ⟨r1, r2, r3, r4, r5⟩ := round_idle h2
    refine ⟨r1.trans i1, r2.trans i2, r3.trans i3, fun a i st => (r4 a i st).trans (it a i st), fun a' ha i st hm => ?_⟩
    rcases List.mem_cons.1 ha with rfl | ha
    · obtain ⟨e, d, h, _⟩ := hs.mem ((it a' i st).2 hm)
      exact ⟨e, d, i1 ▸ h⟩
    · obtain ⟨e, d, h⟩ := r5 a' ha i st ((it a' i st).2 hm)
      exact ⟨e, d, i1 ▸ h⟩

/-- **C28, in part.** If `run` returns, then all intentions of all agents wait for events,
without deadline.

Missing: sleeping may raise `ValueError` (`C28_sleep_race`). -/
theorem C28_run_partial {n : Nat} : ∀ {k : Nat} {s s' : QSt World}, runEnv n k s = .ok () s' →
    ∀ name a, (name, a) ∈ s'.w.reg → OnlyEvents s'.w a
  | 0, s, s', h => by simp [runEnv] at h
  | k + 1, s, s', h => by
    unfold runEnv at h
    rw [Res.bind_eq_ok] at h
    obtain ⟨m, s₁, h1, h⟩ := h
    cases m with
    | true => exact C28_run_partial (by simpa using h)
    | false =>
      simp only [Bool.false_eq_true, if_false] at h
      obtain ⟨r1, r2, r3, r4, r5⟩ := round_idle h1
      cases hd : ((s₁.w.reg.map (·.2)).filterMap (shortestDeadline s₁.w)).min? with
      | none =>
        simp only [hd] at h
        cases h
        intro name a ha i st hm
        have ha' : a ∈ s'.w.reg.map (·.2) := List.mem_map.2 ⟨_, ha, rfl⟩
        obtain ⟨e, d, hx⟩ := r5 a (r3 ▸ ha') i st ((r4 a i st).1 hm)
        rw [← r1] at hx
        cases d with
        | none => exact ⟨e, hx⟩
        | some d =>
          exfalso
          obtain ⟨d', h', _⟩ := shortestDeadline_mem hm hx rfl
          rw [List.min?_eq_none_iff] at hd
          have := List.mem_filterMap.2 ⟨a, ha', h'⟩
          rw [hd] at this
          simp at this
      | some d =>
        simp only [hd, Res.bind_eq_ok] at h
        obtain ⟨_, s₂, _, h⟩ := h
        exact C28_run_partial h

omit [Host] in
theorem shortestDeadline_some {w : World} {a : Nat} {d : Rat} (h : shortestDeadline w a = some d) :
    ∃ i st e, (i :: st) ∈ (w.ags a).intentions ∧ (w.ints i).waiter = some ⟨e, some d⟩ := by
  unfold shortestDeadline at h
  have h1 := (List.min?_eq_some_iff.1 h).1
  rw [List.mem_filterMap] at h1
  obtain ⟨st, hm, h1⟩ := h1
  cases st with
  | nil => cases h1
  | cons i st =>
    simp only [Option.bind_eq_some_iff] at h1
    obtain ⟨⟨e, d'⟩, h2, h3⟩ := h1
    simp only at h3
    subst h3
    exact ⟨i, st, e, hm, h2⟩

/-- **C28, in part.** When `run_agent` goes to sleep, the deadline was not exceeded when it
was polled; if the clock does not advance between that reading and the one that `sleep`
makes, the duration is not negative.

Missing: clocks that do advance (`C28_sleep_race`). -/
theorem C28_sleep_nonneg_partial {n a : Nat} {d : Rat} {s s₁ : QSt World} (h : step n a s = .ok false s₁)
    (hd : shortestDeadline s₁.w a = some d) :
    ∃ k, s.w.ticks ≤ k ∧ k < s₁.w.ticks ∧ s₁.w.clock k ≤ d ∧
      (s₁.w.clock s₁.w.ticks = s₁.w.clock k → ∃ s₂, sleepUntil d s₁ = .ok () s₂) := by
  obtain ⟨i, st, e, hm, hw⟩ := shortestDeadline_some hd
  obtain ⟨k', hs, rfl⟩ := C26_idle_iff.1 h
  have hm' := (idle_tops h a i st).1 hm
  obtain ⟨e', d', hw', hk⟩ := hs.mem hm'
  change (s.w.ints i).waiter = _ at hw
  rw [hw] at hw'
  cases hw'
  obtain ⟨k, h1, h2, h3⟩ := hk d rfl
  refine ⟨k, h1, h2, h3, fun hc => ?_⟩
  refine ⟨_, if_neg ?_⟩
  change s.w.clock k' = s.w.clock k at hc
  change ¬ d - s.w.clock k' < 0
  rw [hc]
  grind

/-! ## C52: rounds -/

/-- **C52, in part.** In a round that raises no exception, every agent of the list makes
exactly one step, in order; the round reports work if one of the steps does.  An agent
with an intention that is ready when it is its turn executes an instruction.

Missing (and false, see `C52_exception_stops_run`): rounds in which a step raises. -/
theorem C52_round_partial {n : Nat} : ∀ {as : List Nat} {s s' : QSt World} {m : Bool}, round n as s = .ok m s' →
    ∀ l a r, as = l ++ a :: r → ∃ s₁ s₂ m₁ m₂ m₃, round n l s = .ok m₁ s₁ ∧ step n a s₁ = .ok m₂ s₂ ∧ round n r s₂ = .ok m₃ s' ∧
      m = (m₁ || m₂ || m₃) ∧ (m₂ = false ↔ ∃ k, Suspended s₁.w s₁.w.ticks (s₁.w.ags a).intentions k)
  | as, s, s', m, h, [], a, r, he => by
    subst he
    unfold round at h
    simp only [List.nil_append, Res.bind_eq_ok] at h
    obtain ⟨m₂, s₂, h1, m₃, s₃, h2, h⟩ := h
    refine ⟨s, s₂, false, m₂, m₃, rfl, h1, ?_, ?_, ?_⟩
    · rw [h2]; exact congrArg _ (Res.ok.inj h).2
    · simp [← (Res.ok.inj h).1]
    · constructor
      · rintro rfl
        obtain ⟨k, hk, _⟩ := C26_idle_iff.1 h1
        exact ⟨k, hk⟩
      · rintro ⟨k, hk⟩
        have := (C26_idle_iff (n := n)).2 ⟨k, hk, rfl⟩
        rw [h1] at this
        exact (Res.ok.inj this).1
  | as, s, s', m, h, b :: l, a, r, he => by
    subst he
    rw [List.cons_append, round, Res.bind_eq_ok] at h
    obtain ⟨m₀, s₀, h1, h⟩ := h
    rw [Res.bind_eq_ok] at h
    obtain ⟨m', s₃, h2, h⟩ := h
    obtain ⟨s₁, s₂, m₁, m₂, m₃, i1, i2, i3, i4, i5⟩ := C52_round_partial h2 l a r rfl
    refine ⟨s₁, s₂, m₀ || m₁, m₂, m₃, ?_, i2, ?_, ?_, i5⟩
    · rw [round, h1]; simp only [Res.bind, i1]
    · rw [i3]; exact congrArg _ (Res.ok.inj h).2
    · rw [← (Res.ok.inj h).1, i4]; simp [Bool.or_assoc]

/-- **C52.** `run` goes on with the next round iff the round reported work or some
intention has a deadline (it then sleeps). -/
theorem C52_run_rounds {n k : Nat} {s s₁ : QSt World} (h : round n (s.w.reg.map (·.2)) s = .ok true s₁) :
    runEnv n (k + 1) s = runEnv n k s₁ := by
  rw [runEnv, h]; rfl

theorem stepsOf_steps {n a : Nat} : ∀ {k : Nat} {s s' : QSt World}, stepsOf n a k s = some s' → Steps s s'
  | 0, s, s', h => by simp [stepsOf] at h; subst h; exact .refl s
  | k + 1, s, s', h => by
    unfold stepsOf at h
    split at h
    · next m s₁ h1 => exact .step (.inl ⟨_, h1⟩) (stepsOf_steps h)
    · next e s₁ h1 => exact .step (.inr ⟨_, h1⟩) (stepsOf_steps h)
    · cases h

theorem Reachable.steps {s s' : QSt World} (hr : Reachable s) (h : Steps s s') : Reachable s' := by
  induction h with
  | refl => exact hr
  | step h _ ih => exact ih (hr.step h)
  | sleep h _ ih => exact ih (hr.sleep h)

theorem Steps.trans {s s₁ s' : QSt World} (h : Steps s s₁) (h' : Steps s₁ s') : Steps s s' := by
  induction h with
  | refl => exact h'
  | step h _ ih => exact .step h (ih h')
  | sleep h _ ih => exact .sleep h (ih h')

theorem round_steps {n : Nat} : ∀ {as : List Nat} {s s' : QSt World}, (round n as s).leaves s' → Steps s s'
  | [], s, s', h => by rw [round, Res.leaves_ok] at h; subst h; exact .refl s
  | a :: as, s, s', h => by
    rw [round, Res.leaves_bind] at h
    rcases h with ⟨e, h⟩ | ⟨m, s₁, h1, h⟩
    · exact .step (.inr ⟨e, h⟩) (.refl _)
    · rw [Res.leaves_bind] at h
      refine .step (.inl ⟨m, h1⟩) ?_
      rcases h with ⟨e, h⟩ | ⟨m', s₂, h2, h⟩
      · exact round_steps (.inr ⟨e, h⟩)
      · rw [Res.leaves_ok] at h
        subst h
        exact round_steps (.inl ⟨m', h2⟩)

/-- **C52.** A run consists of steps of agents and sleeping; so all that is said about steps
holds for runs. -/
theorem C52_run_steps {n : Nat} : ∀ {k : Nat} {s s' : QSt World}, (runEnv n k s).leaves s' → Steps s s'
  | 0, s, s', h => by simp [runEnv] at h
  | k + 1, s, s', h => by
    rw [runEnv, Res.leaves_bind] at h
    rcases h with ⟨e, h⟩ | ⟨m, s₁, h1, h⟩
    · exact round_steps (.inr ⟨e, h⟩)
    · refine (round_steps (.inl ⟨m, h1⟩)).trans ?_
      split at h
      · exact C52_run_steps h
      · split at h
        · rw [Res.leaves_ok] at h; subst h; exact .refl _
        · rw [Res.leaves_bind] at h
          rcases h with ⟨e, h⟩ | ⟨_, s₂, h2, h⟩
          · exact .sleep (.inr ⟨e, h⟩) (.refl _)
          · exact .sleep (.inl ⟨_, h2⟩) (C52_run_steps h)

/-- **C52.** The same for the run of a single agent. -/
theorem C52_run_agent_steps {n a : Nat} : ∀ {k : Nat} {s s' : QSt World}, (runAgent n a k s).leaves s' → Steps s s'
  | 0, s, s', h => by simp [runAgent] at h
  | k + 1, s, s', h => by
    rw [runAgent, Res.leaves_bind] at h
    rcases h with ⟨e, h⟩ | ⟨m, s₁, h1, h⟩
    · exact .step (.inr ⟨e, h⟩) (.refl _)
    · refine .step (.inl ⟨m, h1⟩) ?_
      split at h
      · exact C52_run_agent_steps h
      · split at h
        · rw [Res.leaves_ok] at h; subst h; exact .refl _
        · split at h
          · rw [Res.leaves_ok] at h; subst h; exact .refl _
          · rw [Res.leaves_bind] at h
            rcases h with ⟨e, h⟩ | ⟨_, s₂, h2, h⟩
            · exact .sleep (.inr ⟨e, h⟩) (.refl _)
            · exact .sleep (.inl ⟨_, h2⟩) (C52_run_agent_steps h)

end

section
variable [Host]

/-- **C53, in part.** The first intention that is ready, all stacks before it being empty or
suspended, makes progress: it executes an instruction, or it is at the end of its plan
and is popped.

Missing (and false, see `C53_starvation`): intentions behind one that is always ready. -/
theorem C53_first_ready_partial {n a i k : Nat} {s s' : QSt World} {pre post : List (List Nat)} {st : List Nat}
    (hs : (s.w.ags a).intentions = pre ++ (i :: st) :: post) (hp : Suspended s.w s.w.ticks pre k) (hr : Ready s.w k i)
    (hw : StacksOK s.w) (h : (step n a s).leaves s') :
    (∃ pc w₁, (s.w.ints i).instr = some pc ∧
      Chosen1 (s.w.setStacks a ((s.w.ags a).intentions.dropWhile (·.isEmpty))) k i w₁ ∧ Executes n a i pc { s with w := w₁ } s') ∨
    (s.w.ints i).instr = none ∧ (s'.w.ags a).intentions.filter (!·.isEmpty) = (pre ++ st :: post).filter (!·.isEmpty) := by
  have hne : step n a s ≠ .ok false s' := fun hf => by
    obtain ⟨k', h1, _⟩ := C26_idle_iff.1 hf
    exact (hs ▸ h1).notReady hp hr
  obtain ⟨pre', i', st', post', k', w₁, h1, h2, h3, h4, h5, h6, h7⟩ := C26_runs_first_ready hw h hne
  have key : ∀ {pre pre' post post' : List (List Nat)} {k₀ k k' i i' : Nat} {st st' : List Nat},
      pre ++ (i :: st) :: post = pre' ++ (i' :: st') :: post' → Suspended s.w k₀ pre k → Suspended s.w k₀ pre' k' →
      Ready s.w k i → Ready s.w k' i' → pre = pre' ∧ i = i' ∧ st = st' ∧ post = post' := by
    intro pre
    induction pre with
    | nil =>
      intro pre' post post' k₀ k k' i i' st st' he hp hp' hr hr'
      cases pre' with
      | nil =>
        simp only [List.nil_append, List.cons.injEq] at he
        exact ⟨rfl, he.1.1, he.1.2, he.2⟩
      | cons x pre' =>
        exfalso
        simp only [List.nil_append, List.cons_append, List.cons.injEq] at he
        obtain ⟨rfl, -⟩ := he
        exact Suspended.notReady (pre := []) hp' hp hr
    | cons y pre ih =>
      intro pre' post post' k₀ k k' i i' st st' he hp hp' hr hr'
      cases pre' with
      | nil =>
        exfalso
        simp only [List.nil_append, List.cons_append, List.cons.injEq] at he
        obtain ⟨rfl, -⟩ := he
        exact Suspended.notReady (pre := []) hp hp' hr'
      | cons x pre' =>
        simp only [List.cons_append, List.cons.injEq] at he
        obtain ⟨rfl, he⟩ := he
        have : ∃ k₁, Suspended s.w k₁ pre k ∧ Suspended s.w k₁ pre' k' := by
          cases hp with
          | empty h => cases hp' with | empty h' => exact ⟨_, h, h'⟩
          | event h1 h =>
            cases hp' with
            | event _ h' => exact ⟨_, h, h'⟩
            | early h2 => simp [h1] at h2
          | early h1 _ h =>
            cases hp' with
            | event h2 => simp [h1] at h2
            | early _ _ h' => exact ⟨_, h, h'⟩
        obtain ⟨k₁, g1, g2⟩ := this
        obtain ⟨rfl, h⟩ := ih he g1 g2 hr hr'
        exact ⟨rfl, h⟩
  obtain ⟨rfl, rfl, rfl, rfl⟩ := key (hs.symm.trans h1) hp h2 hr h3
  have hk := hp.unique h2
  subst hk
  cases hi : (s.w.ints i).instr with
  | none => exact .inr ⟨rfl, (h7 hi).2.1⟩
  | some pc => exact .inl ⟨pc, w₁, rfl, h4, (h6 pc hi).1⟩

end

section examples
attribute [local instance] exactHost

/-- `name` as a literal without arguments. -/
def goalNamed (f : String) : Term := .lit f [] []

/-- The plan `+!f <- body`. -/
def simplePlan (f : String) (body : List Stmt) : PlanSrc := { trigger := .addition, goalType := .achievement, head := goalNamed f, body := body }

/-- The environment with one agent running a program, from the start. -/
def started (clock : Nat → Rat) (src : AgentSrc) : Option (QSt World) :=
  match buildAgent 20 src "ag" ⟨BSt.init, 0, World.init clock⟩ with
  | .ok _ s => some s
  | _ => none

theorem started_reachable {clock : Nat → Rat} {src : AgentSrc} {s : QSt World} (h : started clock src = some s) : Reachable s := by
  unfold started at h
  split at h
  · next hb => cases h; exact .build (.init clock) (.inl ⟨_, hb⟩)
  · cases h

/-- `!main. +!main <- !go; +after. +!go <- .fail; +done.` -/
def failing : AgentSrc where
  plans := [simplePlan "main" [.achieve (goalNamed "go"), .add (goalNamed "after")],
    simplePlan "go" [.query (.act .fail (goalNamed "fail")), .add (goalNamed "done")]]
  goals := [goalNamed "main"]

/-- **C31 is false of the code.**  In the program `failing`, after four steps intention 2
(for `!go`) on top of intention 1 (for `!main`) is about to execute `.fail`.  The step
raises; the next step treats `!go` as completed: intention 1 is on top and goes on behind
the call; two steps later it has added the belief `after`. -/
theorem C31_failed_plan_completes : ∃ s s₁ s₂ s₃ : QSt World, Reachable s ∧
    (s.w.ags 0).intentions = [[2, 1]] ∧ step 20 0 s = .err (.py "AggregatedError") s₁ ∧
    (s₁.w.ints 2).instr = none ∧ (s₁.w.ags 0).intentions = [[2, 1]] ∧
    step 20 0 s₁ = .ok true s₂ ∧ (s₂.w.ags 0).intentions = [[1]] ∧
    step 20 0 s₂ = .ok true s₃ ∧ s₃.w.beliefs 0 ("after", 0) = [goalNamed "after"] ∧ s₃.w.beliefs 0 ("done", 0) = [] := by
  have h : ∃ s₀ s s₁ s₂ s₃, started (fun _ => 0) failing = some s₀ ∧ stepsOf 20 0 4 s₀ = some s ∧
    (s.w.ags 0).intentions = [[2, 1]] ∧ step 20 0 s = .err (.py "AggregatedError") s₁ ∧
    (s₁.w.ints 2).instr = none ∧ (s₁.w.ags 0).intentions = [[2, 1]] ∧
    step 20 0 s₁ = .ok true s₂ ∧ (s₂.w.ags 0).intentions = [[1]] ∧
    step 20 0 s₂ = .ok true s₃ ∧ s₃.w.beliefs 0 ("after", 0) = [goalNamed "after"] ∧ s₃.w.beliefs 0 ("done", 0) = [] :=
    ⟨_, _, _, _, _, rfl, rfl, rfl, rfl, rfl, rfl, rfl, rfl, rfl, rfl, rfl⟩
  obtain ⟨s₀, s, s₁, s₂, s₃, h0, h1, h2⟩ := h
  exact ⟨s, s₁, s₂, s₃, (started_reachable h0).steps (stepsOf_steps h1), h2⟩

/-! ### C53 -/

theorem step_top {n a i pc : Nat} {st : List Nat} {rest : List (List Nat)} {s : QSt World}
    (hs : (s.w.ags a).intentions = (i :: st) :: rest) (hw : (s.w.ints i).waiter = none) (hp : (s.w.ints i).instr = some pc) :
    step n a s = exec n a i pc { s with w := s.w.setStacks a ((i :: st) :: rest) } := by
  unfold step
  have hd : List.dropWhile (fun x => x.isEmpty) ((i :: st) :: rest) = (i :: st) :: rest := by simp
  simp only [hs, hd]
  have hp' : pick 0 ((i :: st) :: rest) (s.w.setStacks a ((i :: st) :: rest)) = (some (0, i), s.w.setStacks a ((i :: st) :: rest)) := by
    unfold pick
    have : ((s.w.setStacks a ((i :: st) :: rest)).ints i).waiter = none := hw
    rw [this]
  rw [hp']
  have : ((s.w.setStacks a ((i :: st) :: rest)).ints i).instr = some pc := hp
  simp only [this]

/-- `!loop. !other. +!loop <- while (true) {}. +!other <- +done.` -/
def looping : AgentSrc where
  plans := [simplePlan "loop" [.while_ .tru []], simplePlan "other" [.add (goalNamed "done")]]
  goals := [goalNamed "loop", goalNamed "other"]

/-- The states of the intention that loops. -/
def Loops (x : Intention) : Prop :=
  (x.instr = some 0 ∧ x.queries = [] ∧ x.cps = []) ∨ (x.instr = some 2 ∧ x.queries = [] ∧ x.cps = []) ∨
  (x.instr = some 3 ∧ x.queries = [.start .tru] ∧ x.cps = []) ∨ (∃ c, x.instr = some 4 ∧ x.queries = [.start .tru] ∧ x.cps = [c]) ∨
  (∃ c g, x.instr = some 5 ∧ x.queries = [g] ∧ x.cps = [c]) ∨ ∃ c, x.instr = some 6 ∧ x.queries = [] ∧ x.cps = [c]

structure LoopInv (x₃ : Intention) (s : QSt World) : Prop where
  i0 : s.w.code.instr 0 = ⟨.noop, some 2, none⟩
  i2 : s.w.code.instr 2 = ⟨.pushQuery .tru, some 3, none⟩
  i3 : s.w.code.instr 3 = ⟨.pushChoicepoint, some 4, none⟩
  i4 : s.w.code.instr 4 = ⟨.nextOrFail, some 5, some 1⟩
  i5 : s.w.code.instr 5 = ⟨.popQuery, some 6, none⟩
  i6 : s.w.code.instr 6 = ⟨.popChoicepoint, some 2, none⟩
  stacks : (s.w.ags 0).intentions = [[1], [3]]
  other : s.w.ints 3 = x₃
  waiter : (s.w.ints 1).waiter = none
  loops : Loops (s.w.ints 1)

theorem LoopInv.step {x₃ : Intention} {s : QSt World} (h : LoopInv x₃ s) :
    ∃ s', step 20 0 s = .ok true s' ∧ LoopInv x₃ s' := by
  have hgen : ∀ {s' : QSt World} , s'.w.code = s.w.code → (s'.w.ags 0).intentions = [[1], [3]] → s'.w.ints 3 = s.w.ints 3 →
      (s'.w.ints 1).waiter = (s.w.ints 1).waiter → Loops (s'.w.ints 1) → LoopInv x₃ s' := fun hc hs h3 hw hl =>
    ⟨hc ▸ h.i0, hc ▸ h.i2, hc ▸ h.i3, hc ▸ h.i4, hc ▸ h.i5, hc ▸ h.i6, hs, h3.trans h.other, hw.trans h.waiter, hl⟩
  have hset : ∀ pc, (((s.w.setStacks 0 [[1], [3]]).code.instr pc)) = s.w.code.instr pc := fun _ => rfl
  rcases h.loops with ⟨h1, h2, h3⟩ | ⟨h1, h2, h3⟩ | ⟨h1, h2, h3⟩ | ⟨c, h1, h2, h3⟩ | ⟨c, g, h1, h2, h3⟩ | ⟨c, h1, h2, h3⟩ <;>
    rw [step_top h.stacks h.waiter h1]
  · simp only [exec, hset, h.i0, runI, runF]
    refine ⟨_, rfl, hgen rfl (by simp [World.modInt, World.setInt, World.setStacks, World.setAg]) ?_ ?_ ?_⟩ <;>
      simp [World.modInt, World.setInt, World.setStacks, World.setAg, Loops, h2, h3]
  · simp only [exec, hset, h.i2, runI, runF]
    refine ⟨_, rfl, hgen rfl (by simp [World.modInt, World.setInt, World.setStacks, World.setAg]) ?_ ?_ ?_⟩ <;>
      simp [World.modInt, World.setInt, World.setStacks, World.setAg, Loops, h2, h3]
  · simp only [exec, hset, h.i3, runI, runF]
    refine ⟨_, rfl, hgen rfl (by simp [World.modInt, World.setInt, World.setStacks, World.setAg]) ?_ ?_ ?_⟩ <;>
      simp [World.modInt, World.setInt, World.setStacks, World.setAg, Loops, h2, h3]
  · have hq : ((s.w.setStacks 0 [[1], [3]]).ints 1).queries = [.start .tru] := h2
    have hg : ∀ s : QSt World, gnext 20 (.start .tru : Gen Act ActGen) s = .ok (some .done) s := fun _ => rfl
    simp only [exec, hset, h.i4, runI, runF, hq, hg]
    refine ⟨_, rfl, hgen rfl (by simp [World.modInt, World.setInt, World.setStacks, World.setAg]) ?_ ?_ ?_⟩ <;>
      simp [World.modInt, World.setInt, World.setStacks, World.setAg, Loops, h3]
  · have hq : ((s.w.setStacks 0 [[1], [3]]).ints 1).queries = [g] := h2
    simp only [exec, hset, h.i5, runI, runF, hq]
    refine ⟨_, rfl, hgen rfl (by simp [World.modInt, World.setInt, World.setStacks, World.setAg]) ?_ ?_ ?_⟩ <;>
      simp [World.modInt, World.setInt, World.setStacks, World.setAg, Loops, h3]
  · have hq : ((s.w.setStacks 0 [[1], [3]]).ints 1).cps = [c] := h3
    simp only [exec, hset, h.i6, runI, runF, hq]
    refine ⟨_, rfl, hgen rfl (by simp [World.modInt, World.setInt, World.setStacks, World.setAg]) ?_ ?_ ?_⟩ <;>
      simp [World.modInt, World.setInt, World.setStacks, World.setAg, Loops, h2]

/-- **C53 is false of the code.**  In the program `looping`, intention 3 (for `!other`) is
never suspended, but no number of steps of the agent executes any of its instructions. -/
theorem C53_starvation : ∃ s : QSt World, Reachable s ∧ IsTop s.w 0 3 ∧ (s.w.ints 3).waiter = none ∧
    (s.w.ints 3).instr = some 8 ∧ ∀ k, ∃ s', stepsOf 20 0 k s = some s' ∧ s'.w.ints 3 = s.w.ints 3 ∧ IsTop s'.w 0 3 := by
  have h : ∃ s, started (fun _ => 0) looping = some s ∧ (s.w.ints 3).waiter = none ∧ (s.w.ints 3).instr = some 8 ∧
      LoopInv (s.w.ints 3) s :=
    ⟨_, rfl, rfl, rfl, rfl, rfl, rfl, rfl, rfl, rfl, rfl, rfl, rfl, .inl ⟨rfl, rfl, rfl⟩⟩
  obtain ⟨s, h0, h1, h2, h3⟩ := h
  have ht : ∀ {s' : QSt World}, LoopInv (s.w.ints 3) s' → IsTop s'.w 0 3 := fun h => ⟨[], by rw [h.stacks]; simp⟩
  refine ⟨s, started_reachable h0, ht h3, h1, h2, fun k => ?_⟩
  have : ∀ k (s₁ : QSt World), LoopInv (s.w.ints 3) s₁ → ∃ s', stepsOf 20 0 k s₁ = some s' ∧ LoopInv (s.w.ints 3) s' := by
    intro k
    induction k with
    | zero => exact fun s₁ h => ⟨s₁, rfl, h⟩
    | succ k ih =>
      intro s₁ h
      obtain ⟨s₂, h4, h5⟩ := h.step
      obtain ⟨s', h6, h7⟩ := ih s₂ h5
      exact ⟨s', by rw [stepsOf, h4]; exact h6, h7⟩
  obtain ⟨s', h4, h5⟩ := this k s h3
  exact ⟨s', h4, h5.other, ht h5⟩

/-! ### C28 -/

unseal Rat.mul Rat.inv Rat.add Rat.sub

/-- `!a. +!a <- .wait(q); +after.` -/
def waiting (q : Rat) : AgentSrc where
  plans := [simplePlan "a" [.query (.act .wait (.lit "wait" [.num q] [])), .add (goalNamed "after")]]
  goals := [goalNamed "a"]

/-- **C28 is false of the code** (sleeping).  With `.wait(1000)` and a clock whose readings
are 0, 1, 2, …: the deadline is 1, at time 1 the intention is not yet runnable, and at
time 2 `time.sleep` is called with a negative duration. -/
theorem C28_sleep_race : ∃ s s' : QSt World, Reachable s ∧ (∀ k l, k ≤ l → s.w.clock k ≤ s.w.clock l) ∧
    runEnv 20 20 s = .err (.py "ValueError") s' ∧ IsTop s'.w 0 1 ∧ (s'.w.ints 1).waiter = some ⟨none, some 1⟩ := by
  have h : ∃ s s', started (fun k : Nat => (k : Rat)) (waiting 1000) = some s ∧ s.w.clock = (fun k : Nat => (k : Rat)) ∧
      runEnv 20 20 s = .err (.py "ValueError") s' ∧ (s'.w.ags 0).intentions = [[1]] ∧ (s'.w.ints 1).waiter = some ⟨none, some 1⟩ :=
    ⟨_, _, rfl, rfl, rfl, rfl, rfl⟩
  obtain ⟨s, s', h0, hc, h1, h2, h3⟩ := h
  refine ⟨s, s', started_reachable h0, fun k l hkl => ?_, h1, ⟨[], by rw [h2]; simp⟩, h3⟩
  rw [hc]
  show (k : Rat) ≤ (l : Rat)
  exact_mod_cast hkl

/-- **C28 is false of the code** (`run_agent`).  If the deadline is 0, `if wait_until:` is
false, and `run_agent` returns although the intention has a deadline. -/
theorem C28_run_agent_deadline_zero : ∃ s s' : QSt World, Reachable s ∧ runAgent 20 0 20 s = .ok () s' ∧
    IsTop s'.w 0 1 ∧ (s'.w.ints 1).waiter = some ⟨none, some 0⟩ := by
  have h : ∃ s s', started (fun _ => 0) (waiting 0) = some s ∧ runAgent 20 0 20 s = .ok () s' ∧
      (s'.w.ags 0).intentions = [[1]] ∧ (s'.w.ints 1).waiter = some ⟨none, some 0⟩ := ⟨_, _, rfl, rfl, rfl, rfl⟩
  obtain ⟨s, s', h0, h1, h2, h3⟩ := h
  exact ⟨s, s', started_reachable h0, h1, ⟨[], by rw [h2]; simp⟩, h3⟩

/-- C28: the environment runs to the end (the readings of the clock jump from 1 to 10,
after the sleep). -/
example : ∃ s s' : QSt World, Reachable s ∧ runEnv 20 20 s = .ok () s' ∧ s'.w.reg = [("ag", 0)] ∧ OnlyEvents s'.w 0 ∧
    s'.w.beliefs 0 ("after", 0) = [goalNamed "after"] := by
  have h : ∃ s s', started (fun k => if k ≤ 2 then 1 else 10) (waiting 1000) = some s ∧ runEnv 20 20 s = .ok () s' ∧
      s'.w.reg = [("ag", 0)] ∧ s'.w.beliefs 0 ("after", 0) = [goalNamed "after"] := ⟨_, _, rfl, rfl, rfl, rfl⟩
  obtain ⟨s, s', h0, h1, h2, h3⟩ := h
  exact ⟨s, s', started_reachable h0, h1, h2, C28_run_partial h1 "ag" 0 (by simp [h2]), h3⟩

/-- C28: the same with `run_agent`. -/
example : ∃ s s' : QSt World, Reachable s ∧ (∀ k, 0 < s.w.clock k) ∧ runAgent 20 0 20 s = .ok () s' ∧ OnlyEvents s'.w 0 := by
  have h : ∃ s s', started (fun k => if k ≤ 2 then 1 else 10) (waiting 1000) = some s ∧ runAgent 20 0 20 s = .ok () s' ∧
      s.w.clock = (fun k => if k ≤ 2 then 1 else 10) := ⟨_, _, rfl, rfl, rfl⟩
  obtain ⟨s, s', h0, h1, h2⟩ := h
  have hc : ∀ k, 0 < s.w.clock k := fun k => by
    rw [h2]
    simp only
    split <;> decide
  exact ⟨s, s', started_reachable h0, hc, h1, C28_run_agent_partial hc (started_reachable h0).stacksOK h1⟩

/-- C28: an idle step, then sleeping. -/
example : ∃ s₀ s s' s'' : QSt World, started (fun _ => 0) (waiting 1000) = some s₀ ∧ stepsOf 20 0 4 s₀ = some s ∧
    step 20 0 s = .ok false s' ∧ shortestDeadline s'.w 0 = some 1 ∧ sleepUntil 1 s' = .ok () s'' :=
  ⟨_, _, _, _, rfl, rfl, rfl, rfl, rfl⟩

/-! ### C27 -/

/-- C27: after five steps of the program `waiting 1000` (one of them idle), intention 1 is
suspended; three more steps are idle, since the clock is not past the deadline; then the
clock is past it and the intention goes on. -/
example : ∃ s s₁ s₂ : QSt World, Reachable s ∧ IsTop s.w 0 1 ∧ (s.w.ints 1).waiter = some ⟨none, some 1⟩ ∧
    Steps s s₁ ∧ s₁.w.ints 1 = s.w.ints 1 ∧ s₁.w.ticks = s.w.ticks + 3 ∧ Steps s₁ s₂ ∧ s₂.w.ints 1 ≠ s₁.w.ints 1 ∧
    WokenBy s₁.w s₂.w 0 ⟨none, some 1⟩ := by
  have h : ∃ s₀ s s₁ s₂, started (fun k : Nat => if k ≤ 4 then (k : Rat) / 4 else 10) (waiting 1000) = some s₀ ∧ stepsOf 20 0 4 s₀ = some s ∧
      (s.w.ags 0).intentions = [[1]] ∧ (s.w.ints 1).waiter = some ⟨none, some 1⟩ ∧ stepsOf 20 0 3 s = some s₁ ∧
      s₁.w.ints 1 = s.w.ints 1 ∧ s₁.w.ticks = s.w.ticks + 3 ∧ stepsOf 20 0 2 s₁ = some s₂ ∧ (s₂.w.ints 1).waiter = none ∧
      (s₁.w.ags 0).intentions = [[1]] := ⟨_, _, _, _, rfl, rfl, rfl, rfl, rfl, rfl, rfl, rfl, rfl, rfl⟩
  obtain ⟨s₀, s, s₁, s₂, h0, h1, h2, h3, h4, h5, h6, h7, h8, h9⟩ := h
  have hr := (started_reachable h0).steps (stepsOf_steps h1)
  have hne : s₂.w.ints 1 ≠ s₁.w.ints 1 := fun he => by
    rw [he, h5, h3] at h8
    cases h8
  refine ⟨s, s₁, s₂, hr, ⟨[], by rw [h2]; simp⟩, h3, stepsOf_steps h4, h5, h6, stepsOf_steps h7, hne, ?_⟩
  exact (C27_wait (hr.steps (stepsOf_steps h4)).stacksOK ⟨[], by rw [h9]; simp⟩ (by rw [h5]; exact h3) (stepsOf_steps h7)).resolve_left hne

/-! ### C52 -/

/-- `!x. +!x <- .fail.` -/
def broken : AgentSrc where
  plans := [simplePlan "x" [.query (.act .fail (goalNamed "fail"))]]
  goals := [goalNamed "x"]

/-- Two agents running `broken`, from the start. -/
def pair : Option (QSt World) :=
  match buildAgents 20 broken 2 "a" "b" ⟨BSt.init, 0, World.init fun _ => 0⟩ with
  | .ok _ s => some s
  | _ => none

theorem pair_reachable {s : QSt World} (h : pair = some s) : Reachable s := by
  unfold pair at h
  split at h
  · next hb => cases h; exact .builds (.init _) (.inl ⟨_, hb⟩)
  · cases h

/-- **C52 is false of the code** if an agent raises: in the third round the plan of the
first agent fails, `Environment.run` raises, and the second agent, whose intention is
ready, makes no third step. -/
theorem C52_exception_stops_run : ∃ s s' : QSt World, Reachable s ∧ s.w.reg = [("a", 0), ("b", 1)] ∧
    runEnv 20 20 s = .err (.py "AggregatedError") s' ∧ (s'.w.ags 1).intentions = [[3]] ∧ (s'.w.ints 3).waiter = none ∧
    (s'.w.ints 3).instr = some 2 ∧ (s'.w.ags 0).intentions = [[1]] ∧ (s'.w.ints 1).instr = none := by
  have h : ∃ s s', pair = some s ∧ s.w.reg = [("a", 0), ("b", 1)] ∧
    runEnv 20 20 s = .err (.py "AggregatedError") s' ∧ (s'.w.ags 1).intentions = [[3]] ∧ (s'.w.ints 3).waiter = none ∧
    (s'.w.ints 3).instr = some 2 ∧ (s'.w.ags 0).intentions = [[1]] ∧ (s'.w.ints 1).instr = none :=
    ⟨_, _, rfl, rfl, rfl, rfl, rfl, rfl, rfl, rfl⟩
  obtain ⟨s, s', h0, h⟩ := h
  exact ⟨s, s', pair_reachable h0, h⟩

/-- C52: the first round of the two agents. -/
example : ∃ s s', pair = some s ∧ round 20 [0, 1] s = .ok true s' := ⟨_, _, rfl, rfl⟩

/-! ### C25 and C26 -/

/-- `v(3). !main. !other. +!main <- !go(X); +got(X). +!go(Y) <- ?v(Y). +!other <- +o.` -/
def asking : AgentSrc where
  plans := [simplePlan "main" [.achieve (.lit "go" [.var 0] []), .add (.lit "got" [.var 0] [])],
    { trigger := .addition, goalType := .achievement, head := .lit "go" [.var 0] [], body := [.test (.lit "v" [.var 0] [])] },
    simplePlan "other" [.add (goalNamed "o")]]
  beliefs := [.lit "v" [.num 3] []]
  goals := [goalNamed "main", goalNamed "other"]

/-- C25: intention 6 (for `!go(X)`) is above intention 3 (for `!main`).  After two steps it is
at its end; the next step returns `X = 3` to intention 3, which then adds `got(3)`.
Intention 3 executes nothing while it is covered.  C26: intention 5 is ready, but
intention 6 is first. -/
example : ∃ s s₁ s₂ s₃ : QSt World, Reachable s ∧ DirectlyAbove s.w 0 6 3 ∧ CoveredSteps 3 s s₁ ∧
    (s₁.w.ints 3).core = (s.w.ints 3).core ∧ (s₁.w.ints 6).instr = none ∧ step 20 0 s₁ = .ok true s₂ ∧
    (∃ b', Returns 20 s₁ 6 3 b' ∧ (s₂.w.ints 3).core = { (s₁.w.ints 3).core with b := b' }) ∧
    (s₂.w.ags 0).intentions = [[3], [5]] ∧ step 20 0 s₂ = .ok true s₃ ∧ s₃.w.beliefs 0 ("got", 1) = [.lit "got" [.num 3] []] ∧
    Ready s.w 0 5 ∧ s₂.w.ints 5 = s.w.ints 5 := by
  have h : ∃ s₀ s t s₁ s₂ s₃, started (fun _ => 0) asking = some s₀ ∧ stepsOf 20 0 2 s₀ = some s ∧
      step 20 0 s = .ok true t ∧ step 20 0 t = .ok true s₁ ∧ step 20 0 s₁ = .ok true s₂ ∧ step 20 0 s₂ = .ok true s₃ ∧
      (s.w.ags 0).intentions = [[6, 3], [5]] ∧ (t.w.ags 0).intentions = [[6, 3], [5]] ∧ (s₁.w.ags 0).intentions = [[6, 3], [5]] ∧
      (s₂.w.ags 0).intentions = [[3], [5]] ∧ (s₁.w.ints 6).instr = none ∧ (s₁.w.ints 3).core = (s.w.ints 3).core ∧
      (s₁.w.ints 3).b.stack.length = 1 ∧ (s₂.w.ints 3).b.stack.length = 2 ∧
      s₃.w.beliefs 0 ("got", 1) = [.lit "got" [.num 3] []] ∧ (s.w.ints 5).waiter = none ∧ s₂.w.ints 5 = s.w.ints 5 :=
    ⟨_, _, _, _, _, _, rfl, rfl, rfl, rfl, rfl, rfl, rfl, rfl, rfl, rfl, rfl, rfl, rfl, rfl, rfl, rfl, rfl⟩
  obtain ⟨s₀, s, t, s₁, s₂, s₃, h0, h1, h2, h3, h4, h5, h6, h7, h8, h9, h10, h11, h12, h13, h14, h15, h16⟩ := h
  have hr := (started_reachable h0).steps (stepsOf_steps h1)
  have hr₁ := (hr.step (.inl ⟨_, h2⟩)).step (.inl ⟨_, h3⟩)
  have above : ∀ {w : World}, (w.ags 0).intentions = [[6, 3], [5]] → DirectlyAbove w 0 6 3 := fun h => ⟨[], [], by rw [h]; simp⟩
  refine ⟨s, s₁, s₂, s₃, hr, above h6, .step ⟨_, _, above h6⟩ (.inl ⟨_, h2⟩) (.step ⟨_, _, above h7⟩ (.inl ⟨_, h3⟩) (.refl _)), h11, h10, h4,
    ?_, h9, h5, h14, ?_, h16⟩
  · rcases C25_subgoal hr₁.stacksOK (above h8) (.inl ⟨_, h4⟩) with h | ⟨_, _, h⟩
    · have h : (s₂.w.ints 3).b.stack.length = (s₁.w.ints 3).b.stack.length := congrArg (fun x => x.b.stack.length) h
      rw [h12, h13] at h
      cases h
    · exact h
  · exact .inl h15

/-- C53: at the start of the program `asking`, intention 3 (for `!main`) is the first and ready. -/
example : ∃ s s' : QSt World, Reachable s ∧ (s.w.ags 0).intentions = [] ++ [3] :: [[5]] ∧ Suspended s.w s.w.ticks [] s.w.ticks ∧
    Ready s.w s.w.ticks 3 ∧ (step 20 0 s).leaves s' := by
  have h : ∃ s s', started (fun _ => 0) asking = some s ∧ (s.w.ags 0).intentions = [[3], [5]] ∧ (s.w.ints 3).waiter = none ∧
      step 20 0 s = .ok true s' := ⟨_, _, rfl, rfl, rfl, rfl⟩
  obtain ⟨s, s', h0, h1, h2, h3⟩ := h
  exact ⟨s, s', started_reachable h0, h1, .nil, .inl h2, .inl ⟨_, h3⟩⟩

end examples

section events

/-- A host that can read the event `+ready.` -/
@[reducible] def eventHost : Host := { exactArith with
  parsePlan := fun _ => .err (.asl "no parser")
  parseEvent := fun s => if s = "+ready." then .ok ⟨.addition, .belief, .lit "ready" [] []⟩ else .err (.asl "no parser")
  str := fun _ => "" }

attribute [local instance] eventHost

/-- `!a. !b. +!a <- .wait("+ready"); +after. +!b <- +other; +ready.` -/
def eventual : AgentSrc where
  plans := [simplePlan "a" [.query (.act .wait (.lit "wait" [.str "+ready"] [])), .add (goalNamed "after")],
    simplePlan "b" [.add (goalNamed "other"), .add (goalNamed "ready")]]
  goals := [goalNamed "a", goalNamed "b"]

/-- C27: an intention waiting for an event is woken by the event `+ready`, not by
`+other`. -/
example : (match buildAgent 20 eventual "ag" ⟨BSt.init, 0, World.init fun _ => 0⟩ with
    | .ok _ s₀ =>
      (stepsOf 20 0 4 s₀).any fun s => (s.w.ags 0).intentions = [[1], [3]] && (s.w.ints 1).waiter.isSome &&
      (stepsOf 20 0 1 s).any fun s₁ => (s₁.w.ints 1).waiter.isSome && s₁.w.events.length = s.w.events.length + 1 &&
      (stepsOf 20 0 1 s₁).any fun s₂ => (s₂.w.ints 1).waiter.isNone && s₂.w.events.length = s.w.events.length + 2
    | _ => false) = true := by decide +kernel

end events

end Verif
