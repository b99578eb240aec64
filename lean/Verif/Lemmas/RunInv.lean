import Verif.Lemmas.Run

/-!
# Lemmas: where intentions are in their plans
-/

namespace Verif

/-- The intention is somewhere in a plan body that was compiled (or has no plan): it got there
by running instructions, and the stacks have the depths that these instructions give. -/
def IntOK (c : Code) (x : Intention) : Prop :=
  (x.instr = none ∧ x.queries = [] ∧ x.cps = []) ∨
  ∃ body c₀ tr, (compileBody body c₀).Ext c ∧
    (Path (compileBody body c₀) (some c₀.size) tr (.at x.instr) ∨ Path (compileBody body c₀) (some c₀.size) tr .failed ∧ x.instr = none) ∧
    tr.stacks (0, 0) = some (x.queries.length, x.cps.length)

theorem IntOK.mono {c c' : Code} {x : Intention} (h : IntOK c x) (hc : c.Ext c') : IntOK c' x := by
  rcases h with h | ⟨body, c₀, tr, h1, h2⟩
  · exact .inl h
  · exact .inr ⟨body, c₀, tr, h1.trans hc, h2⟩

theorem IntOK.congr {c : Code} {x y : Intention} (h : IntOK c x) (h1 : y.instr = x.instr) (h2 : y.contents = x.contents) : IntOK c y := by
  simp only [Intention.contents, Prod.mk.injEq] at h2
  unfold IntOK
  rw [h1, h2.1, h2.2]
  exact h

/-- The instruction of an intention is inside its plan. -/
theorem IntOK.at {c : Code} {x : Intention} (h : IntOK c x) {pc : Nat} (hp : x.instr = some pc) :
    ∃ body c₀ tr, (compileBody body c₀).Ext c ∧ Path (compileBody body c₀) (some c₀.size) tr (.at (some pc)) ∧
      tr.stacks (0, 0) = some (x.queries.length, x.cps.length) ∧ c₀.size ≤ pc ∧ pc < (compileBody body c₀).size ∧
      c.instr pc = (compileBody body c₀).instr pc := by
  rcases h with h | ⟨body, c₀, tr, h1, h2 | h2, h3⟩
  · rw [hp] at h; cases h.1
  · rw [hp] at h2
    obtain ⟨i1, i2⟩ := h2.inside (compileBody_links body c₀) (fun pc' hp' => by
      injection hp' with hp'
      subst hp'
      exact ⟨Nat.le_refl _, compileBody_size body c₀⟩) pc rfl
    exact ⟨body, c₀, tr, h1, h2, h3, i1, i2, h1.old pc i2⟩
  · rw [hp] at h2; cases h2.2

/-- All plans were compiled; all intentions except `X` are in compiled plans. -/
structure CodeBut (X : Nat → Prop) (w : World) : Prop where
  plans : ∀ r, ∀ p ∈ w.plists r, Built w.code p
  ints : ∀ i, ¬ X i → IntOK w.code (w.ints i)

/-- All plans were compiled; all intentions are in compiled plans. -/
abbrev CodeOK (w : World) : Prop := CodeBut (fun _ => False) w

theorem CodeBut.congr {X : Nat → Prop} {w w' : World} (h : CodeBut X w) (hp : w'.plists = w.plists) (hc : w'.code = w.code)
    (hi : ∀ i, (w'.ints i).instr = (w.ints i).instr ∧ (w'.ints i).contents = (w.ints i).contents) : CodeBut X w' :=
  ⟨by rw [hp, hc]; exact h.plans, fun i hx => by rw [hc]; exact (h.ints i hx).congr (hi i).1 (hi i).2⟩

section
variable [Host]

omit [Host] in
theorem IntOK.none {c : Code} : IntOK c {} := .inl ⟨rfl, rfl, rfl⟩

theorem CodeBut.prim {X : Nat → Prop} {w₀ : World} {s s' : QSt World} (h₀ : ∀ r, ∀ p ∈ w₀.plists r, Built w₀.code p) (hb : Base w₀ s.w)
    (hp : Prim w₀ s s') (h : CodeBut X s.w) : CodeBut X s'.w := by
  refine ⟨fun r p hm => ?_, fun i hx => ?_⟩
  · rcases hp.plists hm with hm | hm
    · exact (h.plans r p hm).mono hp.code
    · exact hm
  · have h1 := (h.ints i hx).mono hp.code
    have key : ∀ {y : Intention}, s'.w.ints i = y → y.core = (s.w.ints i).core → IntOK s'.w.code (s'.w.ints i) := by
      intro y hy hc
      rw [hy]
      exact h1.congr (prog_core hc).1 (prog_core hc).2
    cases hp with
    | add => exact key rfl (by rw [(setBeliefs_ints (a' := 0)).2.2.1])
    | del => exact key rfl (by rw [(setBeliefs_ints (a' := 0)).2.2.1])
    | plan => exact key rfl (by rw [(buildPlan_ints (a' := 0)).2.2.1])
    | wake | wait => exact key rfl core_setWaiter
    | newInt =>
      by_cases hi : i = s.w.nint
      · subst hi
        simp only [World.setInt, if_true]
        exact .none
      · exact key rfl (by simp only [World.setInt, if_neg hi])
    | fill i' frozen p t b _ hk hq hc =>
      by_cases hi : i = i'
      · subst hi
        simp only [World.modInt, World.setInt, if_true]
        have hbuilt : Built s.w.code p := by
          rcases hk with ⟨r, hk⟩ | hk
          · exact (h₀ r p hk).mono hb.code
          · exact hk
        obtain ⟨src, k, c₀, hbuilt⟩ := hbuilt
        refine .inr ⟨_, c₀, [], hbuilt.ext, .inl ?_, ?_⟩
        · rw [hbuilt.plan]
          exact .here _
        · simp only [hq, hc]
          rfl
      · exact key rfl (by simp only [World.modInt, World.setInt, if_neg hi])
    | _ => exact key rfl rfl

theorem codeBut_stable {X : Nat → Prop} {w₀ : World} (h₀ : ∀ r, ∀ p ∈ w₀.plists r, Built w₀.code p) :
    Stable w₀ fun s => Base w₀ s.w ∧ CodeBut X s.w where
  base _ h := h.1
  prim _ _ h hp := ⟨hp.base h.1, h.2.prim h₀ h.1 hp⟩

/-- Running an instruction. -/
theorem IntOK.runs {a i : Nat} {f : InstrF} {ok : Bool} {s s' : QSt World} (hw : StacksOK s.w) (h : IntOK s.w.code (s.w.ints i))
    (hr : Runs a i f ok s s') : IntOK s'.w.code (s'.w.ints i) := by
  obtain ⟨⟨n, hs⟩, hi, pc, h1, h2, h3, h4, h5⟩ := hr.spec hw
  obtain ⟨body, c₀, tr, e1, e2, e3, e4, e5, e6⟩ := h.at h1
  have hst : (tr ++ [(f, ok)]).stacks (0, 0) = some ((s'.w.ints i).queries.length, (s'.w.ints i).cps.length) := by
    rw [Trace.stacks_append, e3]
    have := InstrF.moves_stacks h4
    change (f.stacks ((s.w.ints i).queries.length, (s.w.ints i).cps.length)).bind _ = _
    simp only [Intention.contents] at this
    rw [this]
    rfl
  rw [e6] at h2 h5
  subst h2
  refine .inr ⟨body, c₀, tr ++ [_], e1.trans (step_code hw hs), ?_, hst⟩
  rw [h5]
  cases ok with
  | true => exact .inl (Path.snoc_yes e2)
  | false =>
    have hf : ((compileBody body c₀).instr pc).f.canFail = true := by simpa using h3
    rcases Path.snoc_no e2 hf with ⟨l', h6, h7⟩ | ⟨h6, h7⟩
    · exact .inl (by rw [if_neg (by simp), h6]; exact h7)
    · exact .inr ⟨h7, h6⟩

theorem codeOK_step {n a : Nat} {s s' : QSt World} (hw : StacksOK s.w) (h : CodeOK s.w) (hs : (step n a s).leaves s') : CodeOK s'.w := by
  rcases step_spec n a s with ⟨k, _, h1⟩ | ⟨pre, i, st, post, k, w₁, h1, h2, h3, h4⟩
  · rw [h1, Res.leaves_ok] at hs
    subst hs
    exact h.congr rfl rfl fun _ => ⟨rfl, rfl⟩
  have hp : Picks a i s.w w₁ := ⟨pre, st, post, k, h1, h2, h3⟩
  obtain ⟨p1, p2, p3, p4, p5, p6⟩ := hp.spec hw
  have hw₁ : CodeOK w₁ := h.congr p5 p4 fun j => prog_core (p6 j)
  rcases h4 with ⟨_, h4⟩ | ⟨pc, h4, h5⟩
  · rw [h4] at hs
    exact hw₁.congr (finish_frame hs).plists (finish_frame hs).code fun j => finish_prog hs j
  have hx : CodeBut (· = i) s'.w := by
    have h0 : CodeBut (· = i) { w₁ with cur := a, curInt := i } := ⟨hw₁.plans, fun j _ => hw₁.ints j id⟩
    have hset : ∀ {w : World}, CodeBut (· = i) w → ∀ x, CodeBut (· = i) (w.setInt i x) := fun h x =>
      ⟨h.plans, fun j hj => by rw [ints_setInt hj]; exact h.ints j hj⟩
    have hS : RunStable { w₁ with cur := a, curInt := i } i fun s => Base { w₁ with cur := a, curInt := i } s.w ∧ CodeBut (· = i) s.w := {
      toStable := codeBut_stable h0.plans
      run := fun s x h _ _ _ _ => ⟨h.1.setInt i x, hset h.2 x⟩ }
    rw [h5] at hs
    exact (exec_keeps hS rfl (n := n) (a := a) (pc := pc) (s := { s with w := w₁ }) (fun s pc h => ⟨h.1.setInt i _, hset h.2 _⟩)
      ⟨.refl p2.below, h0⟩ s' hs).2
  refine ⟨hx.plans, fun j _ => ?_⟩
  by_cases hj : j = i
  · subst hj
    rcases step_history (i := j) hs with ⟨f, ok, hr⟩ | hr | hr
    · exact (h.ints j id).runs hw hr
    · obtain ⟨⟨n', hs'⟩, hi, pc, r1, r2, r3⟩ := hr.spec hw
      have hm := (h.ints j id).mono (step_code hw hs)
      rcases r3 with r3 | ⟨_, r3⟩
      · exact hm.congr (r2.trans r1.symm) r3
      · have hl := InstrF.moves_stacks r3
        obtain ⟨body, c₀, tr, e1, e2, e3, e4, e5, e6⟩ := hm.at r1
        refine .inr ⟨body, c₀, tr, e1, .inl (by rw [r2]; exact e2), ?_⟩
        obtain ⟨r3, g, g', r, r4, r5⟩ := r3
        simp only [Intention.contents] at r3 r4 r5
        rw [e3, r3, r4, r5]
        rfl
    · obtain ⟨r1, r2⟩ := hr.spec hw p1
      exact ((h.ints j id).mono (step_code hw hs)).congr r1 r2
  · exact hx.ints j hj

theorem codeOK_inv : WInv CodeOK where
  prim h₀ hb hp h := h.prim h₀.plans hb hp
  step hw h hs := codeOK_step hw h hs
  agent _ h := h.congr rfl rfl fun _ => ⟨rfl, rfl⟩
  rule _ _ h := by unfold addRule; split <;> exact h.congr rfl rfl fun _ => ⟨rfl, rfl⟩
  register _ h := h.congr rfl rfl fun _ => ⟨rfl, rfl⟩
  copy _ _ h := h.congr rfl rfl fun _ => ⟨rfl, rfl⟩

/-- In reachable states all plans are compiled and all intentions are in compiled plans. -/
theorem Reachable.codeOK {s : QSt World} (h : Reachable s) : CodeOK s.w :=
  h.winv codeOK_inv fun clock => ⟨fun r p hp => by simp [World.init] at hp, fun i _ => .none⟩

/-! ## Histories -/

theorem History.reachable {i : Nat} {s s' : QSt World} {tr : Trace} (hr : Reachable s) (h : History i s tr s') : Reachable s' := by
  induction h with
  | refl => exact hr
  | runs _ h ih =>
    obtain ⟨⟨n, h⟩, _⟩ := h.spec ih.stacksOK
    exact ih.step h
  | raises _ h ih =>
    obtain ⟨⟨n, h⟩, _⟩ := h.spec ih.stacksOK
    exact ih.step h
  | rests _ h ih =>
    obtain ⟨n, h⟩ := h.1
    exact ih.step h
  | sleeps _ h ih => exact ih.sleep h

theorem History.trans {i : Nat} {s s₁ s' : QSt World} {tr tr' : Trace} (h : History i s tr s₁) (h' : History i s₁ tr' s') :
    History i s (tr ++ tr') s' := by
  induction h' with
  | refl => rw [List.append_nil]; exact h
  | runs _ h1 ih => rw [← List.append_assoc]; exact ih.runs h1
  | raises _ h1 ih => exact ih.raises h1
  | rests _ h1 ih => exact ih.rests h1
  | sleeps _ h1 ih => exact ih.sleeps h1

/-- Every run of the system has a history. -/
theorem Steps.history {s s' : QSt World} (h : Steps s s') (i : Nat) : ∃ tr, History i s tr s' := by
  induction h with
  | refl => exact ⟨[], .refl _⟩
  | step h _ ih =>
    obtain ⟨tr, ih⟩ := ih
    rcases step_history (i := i) h with ⟨f, ok, hr⟩ | hr | hr
    · exact ⟨_, ((History.refl _).runs hr).trans ih⟩
    · exact ⟨_, ((History.refl _).raises hr).trans ih⟩
    · exact ⟨_, ((History.refl _).rests hr).trans ih⟩
  | sleep h _ ih =>
    obtain ⟨tr, ih⟩ := ih
    exact ⟨_, ((History.refl _).sleeps h).trans ih⟩

/-- Intentions do not get lost. -/
theorem step_nint {n a : Nat} {s s' : QSt World} (hw : StacksOK s.w) (h : (step n a s).leaves s') : s.w.nint ≤ s'.w.nint := by
  rcases step_spec n a s with ⟨k, _, h1⟩ | ⟨pre, i, st, post, k, w₁, h1, h2, h3, h4⟩
  · rw [h1, Res.leaves_ok] at h
    subst h
    exact Nat.le_refl _
  · obtain ⟨p1, p2, p3, p4, p5, p6⟩ := Picks.spec hw ⟨pre, st, post, k, h1, h2, h3⟩
    rcases h4 with ⟨_, h4⟩ | ⟨pc, h4, h5⟩
    · rw [h4] at h
      rcases finish_spec (s := { s with w := w₁ }) (by rw [h3.spec.1, setStacks_self, h1]) h with
        ⟨_, _, rfl⟩ | ⟨_, _, _, ⟨_, _, rfl⟩ | ⟨_, _, _, _, _, _, _, _, rfl, _⟩⟩ <;> exact Nat.le_of_eq p3.symm
    · rw [h5] at h
      have := (exec_framed (s := { s with w := w₁ }) p2 (by rw [p3]; exact p1) ((prog_core (p6 i)).1.trans h4) h).1.base.nint
      rwa [show ({ w₁ with cur := a, curInt := i } : World).nint = s.w.nint from p3] at this

omit [Host] in
theorem nextOrFail_trans {x y z : Contents} (h : InstrF.nextOrFail.moves x y) (h' : InstrF.nextOrFail.moves y z) : InstrF.nextOrFail.moves x z := by
  obtain ⟨h1, g, g', r, h2, h3⟩ := h
  obtain ⟨h4, g₁, g₁', r₁, h5, h6⟩ := h'
  rw [h3] at h5
  cases h5
  exact ⟨h4.trans h1, g, g₁', r, h2, h6⟩

/-- The stacks, up to a query that raised: it is replaced by a finished one. -/
theorem History.moves {i : Nat} {s s' : QSt World} {tr : Trace} (hr : Reachable s) (hi : i < s.w.nint) (h : History i s tr s') :
    i < s'.w.nint ∧ ∃ y, tr.moves (s.w.ints i).contents y ∧ ((s'.w.ints i).contents = y ∨
      ∃ pc, (s'.w.ints i).instr = some pc ∧ (s'.w.code.instr pc).f = .nextOrFail ∧ InstrF.nextOrFail.moves y (s'.w.ints i).contents) := by
  induction h with
  | refl => exact ⟨hi, _, rfl, .inl rfl⟩
  | @runs tr s₁ a f ok s' hh h ih =>
    obtain ⟨i1, y, i2, i3⟩ := ih
    have hw := (hh.reachable hr).stacksOK
    obtain ⟨⟨n, h0⟩, _, pc, h1, h2, h3, h4, h5⟩ := h.spec hw
    refine ⟨Nat.lt_of_lt_of_le i1 (step_nint hw h0), _, (Trace.moves_append _ _ _ _).2 ⟨y, i2, _, ?_, rfl⟩, .inl rfl⟩
    rcases i3 with i3 | ⟨pc', j1, j2, j3⟩
    · rw [← i3]
      exact h4
    · rw [h1] at j1
      cases j1
      rw [j2] at h2
      subst h2
      exact nextOrFail_trans j3 h4
  | @raises tr s₁ a s' hh h ih =>
    obtain ⟨i1, y, i2, i3⟩ := ih
    have hr₁ := hh.reachable hr
    obtain ⟨⟨n, h0⟩, _, pc, h1, h2, h3⟩ := h.spec hr₁.stacksOK
    refine ⟨Nat.lt_of_lt_of_le i1 (step_nint hr₁.stacksOK h0), y, i2, ?_⟩
    obtain ⟨_, _, _, e1, _, _, _, e2, _⟩ := (hr₁.codeOK.ints i id).at h1
    have hc : s'.w.code.instr pc = s₁.w.code.instr pc := (step_code hr₁.stacksOK h0).old pc (Nat.lt_of_lt_of_le e2 e1.size)
    rcases i3 with i3 | ⟨pc', j1, j2, j3⟩ <;> rcases h3 with h3 | ⟨h3, h4⟩
    · exact .inl (h3.trans i3)
    · exact .inr ⟨pc, h2, by rw [hc]; exact h3, i3 ▸ h4⟩
    · rw [h1] at j1
      cases j1
      exact .inr ⟨pc, h2, by rw [hc]; exact j2, by rw [h3]; exact j3⟩
    · exact .inr ⟨pc, h2, by rw [hc]; exact h3, nextOrFail_trans j3 h4⟩
  | @rests tr s₁ a s' hh h ih =>
    obtain ⟨i1, y, i2, i3⟩ := ih
    have hr₁ := hh.reachable hr
    obtain ⟨h1, h2⟩ := h.spec hr₁.stacksOK i1
    obtain ⟨n, h0⟩ := h.1
    refine ⟨Nat.lt_of_lt_of_le i1 (step_nint hr₁.stacksOK h0), y, i2, ?_⟩
    rcases i3 with i3 | ⟨pc, j1, j2, j3⟩
    · exact .inl (h2.trans i3)
    · obtain ⟨_, _, _, e1, _, _, _, e2, _⟩ := (hr₁.codeOK.ints i id).at j1
      have hc : s'.w.code.instr pc = s₁.w.code.instr pc := (step_code hr₁.stacksOK h0).old pc (Nat.lt_of_lt_of_le e2 e1.size)
      exact .inr ⟨pc, h1.trans j1, by rw [hc]; exact j2, by rw [h2]; exact j3⟩
  | sleeps _ h ih => rw [sleep_eq h]; exact ih

/-- Right after an instruction has been run, the stacks are what the history says. -/
theorem History.runs_moves {i a : Nat} {s s₁ s₂ : QSt World} {tr : Trace} {f : InstrF} {ok : Bool} (hr : Reachable s) (hi : i < s.w.nint)
    (h : History i s tr s₁) (h' : Runs a i f ok s₁ s₂) : (tr ++ [(f, ok)]).moves (s.w.ints i).contents (s₂.w.ints i).contents := by
  obtain ⟨_, y, i2, i3⟩ := h.moves hr hi
  obtain ⟨_, _, pc, h1, h2, h3, h4, h5⟩ := h'.spec (h.reachable hr).stacksOK
  refine (Trace.moves_append _ _ _ _).2 ⟨y, i2, _, ?_, rfl⟩
  rcases i3 with i3 | ⟨pc', j1, j2, j3⟩
  · rw [← i3]
    exact h4
  · rw [h1] at j1
    cases j1
    rw [j2] at h2
    subst h2
    exact nextOrFail_trans j3 h4

/-- A history is a path in the code. -/
theorem History.path {i : Nat} {s s' : QSt World} {tr : Trace} {body : List Stmt} {c₀ : Code} (hw : StacksOK s.w) (hi : i < s.w.nint)
    (he : (compileBody body c₀).Ext s.w.code) (h0 : (s.w.ints i).instr = some c₀.size) (h : History i s tr s') :
    StacksOK s'.w ∧ i < s'.w.nint ∧ s.w.code.Ext s'.w.code ∧ (Path (compileBody body c₀) (some c₀.size) tr (.at (s'.w.ints i).instr) ∨
      Path (compileBody body c₀) (some c₀.size) tr .failed ∧ (s'.w.ints i).instr = none) := by
  induction h with
  | refl => exact ⟨hw, hi, .refl _, .inl (by rw [h0]; exact .here _)⟩
  | @runs tr s₁ a f ok s' hh h ih =>
    obtain ⟨w1, i1, i2, i3⟩ := ih
    obtain ⟨⟨n, hs⟩, _, pc, h1, h2, h3, h4, h5⟩ := h.spec w1
    refine ⟨(step_ran w1 hs).1, Nat.lt_of_lt_of_le i1 (step_nint w1 hs), i2.trans (step_code w1 hs), ?_⟩
    rw [h1] at i3
    rcases i3 with i3 | ⟨_, i3⟩
    · obtain ⟨e1, e2⟩ := i3.inside (compileBody_links body c₀) (fun pc' hp' => by
        injection hp' with hp'
        subst hp'
        exact ⟨Nat.le_refl _, compileBody_size body c₀⟩) pc rfl
      have hc := (he.trans i2).old pc e2
      rw [hc] at h2 h5
      subst h2
      rw [h5]
      cases ok with
      | true => exact .inl (Path.snoc_yes i3)
      | false =>
        have hf : ((compileBody body c₀).instr pc).f.canFail = true := by simpa using h3
        rcases Path.snoc_no i3 hf with ⟨l', h6, h7⟩ | ⟨h6, h7⟩
        · exact .inl (by rw [if_neg (by simp), h6]; exact h7)
        · exact .inr ⟨h7, h6⟩
    · cases i3
  | @raises tr s₁ a s' hh h ih =>
    obtain ⟨w1, i1, i2, i3⟩ := ih
    obtain ⟨⟨n, hs⟩, _, pc, h1, h2, _⟩ := h.spec w1
    refine ⟨(step_ran w1 hs).1, Nat.lt_of_lt_of_le i1 (step_nint w1 hs), i2.trans (step_code w1 hs), ?_⟩
    rw [h2.trans h1.symm]
    exact i3
  | @rests tr s₁ a s' hh h ih =>
    obtain ⟨w1, i1, i2, i3⟩ := ih
    obtain ⟨h1, h2⟩ := h.spec w1 i1
    obtain ⟨n, hs⟩ := h.1
    refine ⟨(step_ran w1 hs).1, Nat.lt_of_lt_of_le i1 (step_nint w1 hs), i2.trans (step_code w1 hs), ?_⟩
    rw [h1]
    exact i3
  | sleeps _ h ih =>
    have hs := (sleep_prim (w₀ := World.init fun _ => 0) h).stacksOK ih.1
    rw [sleep_eq h] at hs ⊢
    exact ⟨hs, ih.2⟩

/-! ## Computing histories -/

/-- The instruction that intention `i` runs in the next step of agent `a`. -/
def stepTrace (n a i : Nat) (s : QSt World) : Trace :=
  match pick 0 ((s.w.ags a).intentions.dropWhile (·.isEmpty)) (s.w.setStacks a ((s.w.ags a).intentions.dropWhile (·.isEmpty))) with
  | (none, _) => []
  | (some (_, j), w) =>
    if j = i then
      match (s.w.ints i).instr with
      | none => []
      | some pc =>
        match runI n a i (s.w.code.instr pc).f { s with w := w } with
        | .ok ok _ => [((s.w.code.instr pc).f, ok)]
        | _ => []
    else []

theorem stepTrace_cases {n a i : Nat} {s s' : QSt World} (h : (step n a s).leaves s') :
    (∃ f ok, stepTrace n a i s = [(f, ok)] ∧ Runs a i f ok s s') ∨ stepTrace n a i s = [] ∧ (Throws a i s s' ∨ Rests a i s s') := by
  by_cases hp : ∃ w₁ pc, Picks a i s.w w₁ ∧ (s.w.ints i).instr = some pc
  · obtain ⟨w₁, pc, hp, h1⟩ := hp
    have h2 : ∃ m, pick 0 ((s.w.ags a).intentions.dropWhile (·.isEmpty)) (s.w.setStacks a ((s.w.ags a).intentions.dropWhile (·.isEmpty))) =
        (some (m, i), w₁) := by
      obtain ⟨pre, st, post, k, h1, h2, h3⟩ := hp
      have := pick_eq (st := st) (post := post) pre 0 _
        (h2.mono (w' := s.w.setStacks a ((s.w.ags a).intentions.dropWhile (·.isEmpty))) rfl fun _ => rfl) h3
      rw [← h1] at this
      exact ⟨_, this⟩
    obtain ⟨m, h2⟩ := h2
    unfold stepTrace
    simp only [h2, if_true, h1]
    rcases hp.step n with ⟨h5, _⟩ | ⟨pc', h5, h6⟩
    · rw [h5] at h1; cases h1
    rw [h5] at h1
    cases h1
    cases hr : runI n a i (s.w.code.instr pc).f { s with w := w₁ } with
    | ok ok s₁ => exact .inl ⟨_, ok, rfl, n, pc, w₁, s₁, hp, h5, rfl, hr, h⟩
    | err e s₁ => exact .inr ⟨rfl, .inl ⟨n, pc, w₁, e, s₁, hp, h5, hr, h⟩⟩
    | oof =>
      have hc : w₁.code = s.w.code := by
        obtain ⟨pre, st, post, k, _, _, h3⟩ := hp
        exact h3.spec.2.2.2.2.1
      rw [h6] at h
      unfold exec at h
      simp only at h
      rw [hc, hr] at h
      simp at h
  · have hr : Rests a i s s' := ⟨⟨n, h⟩, fun w₁ h1 => by
      cases h2 : (s.w.ints i).instr with
      | none => rfl
      | some pc => exact absurd ⟨w₁, pc, h1, h2⟩ hp⟩
    have h0 : stepTrace n a i s = [] := by
      unfold stepTrace
      have hs := pick_spec ((s.w.ags a).intentions.dropWhile (·.isEmpty)) 0 (s.w.setStacks a ((s.w.ags a).intentions.dropWhile (·.isEmpty)))
      generalize pick 0 _ _ = x at hs
      match x with
      | (none, w) => rfl
      | (some (m, j), w) =>
        simp only
        split
        · next he =>
          subst he
          obtain ⟨pre, st, post, k, h1, h2, h3, h4⟩ := hs
          have := hr.2 w ⟨pre, st, post, k, h1, h3.mono (w' := s.w) rfl fun _ => rfl, h4⟩
          simp only [this]
        · rfl
    exact .inr ⟨h0, .inr hr⟩

theorem stepTrace_history {n a i : Nat} {s s' : QSt World} (h : (step n a s).leaves s') : History i s (stepTrace n a i s) s' := by
  rcases stepTrace_cases (i := i) h with ⟨f, ok, h1, h2⟩ | ⟨h1, h2 | h2⟩
  · rw [h1]; exact (History.refl s).runs h2
  · rw [h1]; exact (History.refl s).raises h2
  · rw [h1]; exact (History.refl s).rests h2

theorem stepTrace_runs {n a i : Nat} {s s' : QSt World} {f : InstrF} {ok : Bool} (h : (step n a s).leaves s')
    (ht : stepTrace n a i s = [(f, ok)]) : Runs a i f ok s s' := by
  rcases stepTrace_cases (i := i) h with ⟨f', ok', h1, h2⟩ | ⟨h1, _⟩
  · rw [h1] at ht; cases ht; exact h2
  · rw [h1] at ht; cases ht

/-- `k` steps of agent `a`, with the instructions of intention `i`. -/
def historyOf (n a i : Nat) : Nat → QSt World → Option (Trace × QSt World)
  | 0, s => some ([], s)
  | k + 1, s =>
    match step n a s with
    | .ok _ s₁ | .err _ s₁ => (historyOf n a i k s₁).map fun x => (stepTrace n a i s ++ x.1, x.2)
    | .oof => none

theorem historyOf_history {n a i : Nat} : ∀ {k : Nat} {s s' : QSt World} {tr : Trace}, historyOf n a i k s = some (tr, s') → History i s tr s'
  | 0, s, s', tr, h => by cases h; exact .refl _
  | k + 1, s, s', tr, h => by
    unfold historyOf at h
    split at h
    · next s₁ hx =>
      simp only [Option.map_eq_some_iff, Prod.exists, Prod.mk.injEq] at h
      obtain ⟨tr', _, h1, rfl, rfl⟩ := h
      exact (stepTrace_history (.inl ⟨_, hx⟩)).trans (historyOf_history h1)
    · next s₁ hx =>
      simp only [Option.map_eq_some_iff, Prod.exists, Prod.mk.injEq] at h
      obtain ⟨tr', _, h1, rfl, rfl⟩ := h
      exact (stepTrace_history (.inr ⟨_, hx⟩)).trans (historyOf_history h1)
    · cases h

end

end Verif
