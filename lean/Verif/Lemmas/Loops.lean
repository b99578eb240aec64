import Verif.Spec.Loops
import Verif.Lemmas.Assign

/-!
# Statements and the answers of their queries
-/

namespace Verif

open Lang

section
variable [Host] {a i : Nat} {K : QSt World → Prop}

/-! ## Calm runs -/

theorem Calm.history {s s' : QSt World} {tr : Trace} (h : Calm a i K s tr s') : History i s tr s' := by
  induction h with
  | refl => exact .refl _
  | runs _ h _ ih => exact ih.runs h
  | rests _ h _ ih => exact ih.rests h
  | sleeps _ h _ ih => exact ih.sleeps h

theorem Calm.trans {s s₁ s' : QSt World} {tr tr' : Trace} (h : Calm a i K s tr s₁) (h' : Calm a i K s₁ tr' s') :
    Calm a i K s (tr ++ tr') s' := by
  induction h' with
  | refl => rw [List.append_nil]; exact h
  | runs _ h1 hk ih => rw [← List.append_assoc]; exact ih.runs h1 hk
  | rests _ h1 hk ih => exact ih.rests h1 hk
  | sleeps _ h1 hk ih => exact ih.sleeps h1 hk

/-- `K` holds at the end. -/
theorem Calm.keeps {s s' : QSt World} {tr : Trace} (h : Calm a i K s tr s') (hs : K s) : K s' := by
  cases h with
  | refl => exact hs
  | runs _ _ hk => exact hk
  | rests _ _ hk => exact hk
  | sleeps _ _ hk => exact hk

theorem Calm.mono {K' : QSt World → Prop} {s s' : QSt World} {tr : Trace} (h : Calm a i K s tr s') (hk : ∀ s, K s → K' s) : Calm a i K' s tr s' := by
  induction h with
  | refl => exact .refl _
  | runs _ h1 h2 ih => exact ih.runs h1 (hk _ h2)
  | rests _ h1 h2 ih => exact ih.rests h1 (hk _ h2)
  | sleeps _ h1 h2 ih => exact ih.sleeps h1 (hk _ h2)

theorem Calm.split {s s' : QSt World} {tr₀ : Trace} (h : Calm a i K s tr₀ s') : ∀ {tr tr' : Trace}, tr₀ = tr ++ tr' →
    ∃ m, Calm a i K s tr m ∧ Calm a i K m tr' s' := by
  induction h with
  | refl =>
    intro tr tr' he
    obtain ⟨rfl, rfl⟩ := List.append_eq_nil_iff.1 he.symm
    exact ⟨_, .refl _, .refl _⟩
  | @runs tr₁ s₁ f ok s' h h1 hk ih =>
    intro tr tr' he
    rcases List.eq_nil_or_concat tr' with rfl | ⟨l, x, rfl⟩
    · rw [List.append_nil] at he
      exact ⟨_, he ▸ h.runs h1 hk, .refl _⟩
    · rw [List.concat_eq_append, ← List.append_assoc] at he
      obtain ⟨h2, h3⟩ := List.append_inj' he rfl
      cases h3
      obtain ⟨m, m1, m2⟩ := ih h2
      exact ⟨m, m1, by rw [List.concat_eq_append]; exact m2.runs h1 hk⟩
  | rests h h1 hk ih =>
    intro tr tr' he
    obtain ⟨m, m1, m2⟩ := ih he
    exact ⟨m, m1, m2.rests h1 hk⟩
  | sleeps h h1 hk ih =>
    intro tr tr' he
    obtain ⟨m, m1, m2⟩ := ih he
    exact ⟨m, m1, m2.sleeps h1 hk⟩

theorem Calm.one {s s' : QSt World} {tr : Trace} (h : Calm a i K s tr s') : ∀ {f : InstrF} {ok : Bool}, tr = [(f, ok)] →
    ∃ s₁ s₂, Calm a i K s [] s₁ ∧ Runs a i f ok s₁ s₂ ∧ K s₂ ∧ Calm a i K s₂ [] s' := by
  induction h with
  | refl => intro f ok he; cases he
  | @runs tr₁ s₁ f₁ ok₁ s' h h1 hk ih =>
    intro f ok he
    obtain ⟨h2, h3⟩ := List.append_inj' (s₂ := []) he rfl
    cases h2
    cases h3
    exact ⟨_, _, h, h1, hk, .refl _⟩
  | rests h h1 hk ih =>
    intro f ok he
    obtain ⟨s₁, s₂, q1, q2, q3, q4⟩ := ih he
    exact ⟨s₁, s₂, q1, q2, q3, q4.rests h1 hk⟩
  | sleeps h h1 hk ih =>
    intro f ok he
    obtain ⟨s₁, s₂, q1, q2, q3, q4⟩ := ih he
    exact ⟨s₁, s₂, q1, q2, q3, q4.sleeps h1 hk⟩

theorem Calm.reachable {s s' : QSt World} {tr : Trace} (hr : Reachable s) (h : Calm a i K s tr s') : Reachable s' := h.history.reachable hr

/-- The stacks of the intention are those that the trace prescribes. -/
theorem Calm.moves {s s' : QSt World} {tr : Trace} (hr : Reachable s) (hi : i < s.w.nint) (h : Calm a i K s tr s') :
    i < s'.w.nint ∧ tr.moves (s.w.ints i).contents (s'.w.ints i).contents := by
  induction h with
  | refl => exact ⟨hi, rfl⟩
  | runs h h1 hk ih =>
    have hw := (h.reachable hr).stacksOK
    obtain ⟨⟨n, h0⟩, _, pc, h2, h3, h4, h5, h6⟩ := h1.spec hw
    exact ⟨Nat.lt_of_lt_of_le ih.1 (step_nint hw h0), (Trace.moves_append _ _ _ _).2 ⟨_, ih.2, _, h5, rfl⟩⟩
  | rests h h1 hk ih =>
    have hw := (h.reachable hr).stacksOK
    obtain ⟨n, h0⟩ := h1.1
    exact ⟨Nat.lt_of_lt_of_le ih.1 (step_nint hw h0), by rw [(h1.spec hw ih.1).2]; exact ih.2⟩
  | sleeps h h1 hk ih => rw [sleep_eq h1]; exact ih

/-- What a completed statement leaves on the stacks. -/
theorem Calm.balanced {s s' : QSt World} {tr : Trace} {L : Lang} (hr : Reachable s) (hi : i < s.w.nint) (h : Calm a i K s tr s')
    (hL : Takes L (0, 0) (0, 0)) (hd : L tr .done) : (s'.w.ints i).contents = (s.w.ints i).contents :=
  (sem_balanced hL hd (h.moves hr hi).2).2 rfl

/-- No instruction of the intention. -/
theorem Calm.still {s s' : QSt World} (hr : Reachable s) (hi : i < s.w.nint) (h : Calm a i K s [] s') :
    i < s'.w.nint ∧ (s'.w.ints i).contents = (s.w.ints i).contents := h.moves hr hi

/-! ## Asking -/

omit [Host] in
/-- The bindings and what the agent knows are the same after choosing. -/
theorem Picks.sees {w w₁ : World} (hw : StacksOK w) (h : Picks a i w w₁) (nv : Nat) (b : BSt) :
    Sees a i ⟨(w₁.ints i).b, nv, { w₁ with cur := a, curInt := i }⟩ ⟨b, nv, w⟩ := by
  obtain ⟨p1, p2, p3, p4, p5, p6⟩ := h.spec hw
  obtain ⟨pre, st, post, k, h1, h2, h3⟩ := h
  have hag : w₁.ags a = { w.ags a with intentions := (w.ags a).intentions.dropWhile (·.isEmpty) } := by
    rw [h3.spec.1]; simp [World.setStacks, World.setAg]
  have hset : w₁.sets = w.sets := h3.frame.sets
  refine ⟨congrArg Prod.snd (frame_core (p6 i)), rfl, fun g => ?_, fun g => ?_⟩
  · show World.beliefs _ a g = _
    simp only [World.beliefs, hag, hset]
  · show (w₁.ags a).rules g = _
    rw [hag]

/-- What `nextOrFail` does: the generator on top is asked. -/
theorem Runs.asks {ok : Bool} {s s' : QSt World} (hw : StacksOK s.w) (h : Runs a i .nextOrFail ok s s') :
    ∃ g rest n t t' o, (s.w.ints i).queries = g :: rest ∧ Sees a i t s ∧ t.w.cur = a ∧ gnext n g t = .ok o t' ∧ Sees a i t' s' ∧
      ok = o.isSome ∧ (s'.w.ints i).queries = o.getD .done :: rest := by
  obtain ⟨n, pc, w₁, s₁, hp, h1, h2, h3, h4⟩ := h
  obtain ⟨p1, p2, p3, p4, p5, p6⟩ := hp.spec hw
  have hq : (w₁.ints i).queries = (s.w.ints i).queries := congrArg Prod.fst (prog_core (p6 i)).2
  -- the result of the step
  have hs' : ∃ l, s'.nv = s₁.nv ∧ s'.w = s₁.w.modInt i fun x => { x with instr := l } := by
    rcases hp.step n with ⟨h5, _⟩ | ⟨pc', h5, h6⟩
    · rw [h5] at h1; cases h1
    rw [h5] at h1
    cases h1
    rw [h6] at h4
    unfold exec at h4
    simp only at h4
    rw [show w₁.code = s.w.code from p4, ← h2, h3] at h4
    cases ok with
    | true => simp only [Res.leaves_ok] at h4; subst h4; exact ⟨_, rfl, rfl⟩
    | false =>
      simp only at h4
      cases hf : (s.w.code.instr pc).failure with
      | none => simp only [hf, Res.leaves_err] at h4; subst h4; exact ⟨_, rfl, rfl⟩
      | some q => simp only [hf, Res.leaves_ok] at h4; subst h4; exact ⟨_, rfl, rfl⟩
  obtain ⟨l, e1, e2⟩ := hs'
  unfold runI at h3
  split at h3
  · next ok' t' hx =>
    cases h3
    unfold runF at hx
    simp only at hx
    split at hx
    · cases hx
    next g rest hg =>
    refine ⟨g, rest, n, ⟨(w₁.ints i).b, s.nv, { w₁ with cur := a, curInt := i }⟩, ?_⟩
    have hsee := hp.sees hw s.nv s.b
    split at hx
    · next g' t₁ hn =>
      cases hx
      refine ⟨t₁, some g', hq ▸ hg, hsee, rfl, hn, ?_, rfl, ?_⟩
      · refine ⟨?_, e1.symm, fun g => ?_, fun g => ?_⟩
        · rw [e2]; simp [World.modInt, World.setInt]
        · rw [e2]; rfl
        · rw [e2]; rfl
      · rw [e2]; simp [World.modInt, World.setInt]
    · next t₁ hn =>
      cases hx
      refine ⟨t₁, none, hq ▸ hg, hsee, rfl, hn, ?_, rfl, ?_⟩
      · refine ⟨?_, e1.symm, fun g => ?_, fun g => ?_⟩
        · rw [e2]; simp [World.modInt, World.setInt]
        · rw [e2]; rfl
        · rw [e2]; rfl
      · rw [e2]; simp [World.modInt, World.setInt]
    · cases hx
    · cases hx
  · cases h3
  · cases h3

/-- The instruction after the ones in between. -/
theorem Calm.asks {ok : Bool} {s s' : QSt World} {g : Gen Act ActGen} {rest : List (Gen Act ActGen)} (hr : Reachable s) (hi : i < s.w.nint)
    (hq : (s.w.ints i).queries = g :: rest) (h : Calm a i K s [(.nextOrFail, ok)] s') :
    ∃ u u' n t t' o, Calm a i K s [] u ∧ Sees a i t u ∧ t.w.cur = a ∧ gnext n g t = .ok o t' ∧ Sees a i t' u' ∧ ok = o.isSome ∧
      K u' ∧ Calm a i K u' [] s' ∧ Reachable u' ∧ i < u'.w.nint ∧ (u'.w.ints i).queries = o.getD .done :: rest := by
  obtain ⟨s₁, s₂, h1, h2, h3, h4⟩ := h.one rfl
  have hr₁ := h1.reachable hr
  obtain ⟨hi₁, hc⟩ := h1.still hr hi
  obtain ⟨g₀, rest₀, n, t, t', o, q1, q2, q3, q4, q5, q6, q7⟩ := h2.asks hr₁.stacksOK
  obtain ⟨⟨m, hm⟩, _⟩ := h2.spec hr₁.stacksOK
  have := congrArg Prod.fst hc
  simp only [Intention.contents] at this
  rw [this, hq] at q1
  cases q1
  exact ⟨s₁, s₂, n, t, t', o, h1, q2, q3, q4, q5, q6, h3, h4, hr₁.step hm, Nat.lt_of_lt_of_le hi₁ (step_nint hr₁.stacksOK hm), q7⟩

/-- The query has been pushed. -/
theorem Calm.pushed {q : Query Act} {s s' : QSt World} (hr : Reachable s) (hi : i < s.w.nint) (h : Calm a i K s [(.pushQuery q, true)] s') :
    i < s'.w.nint ∧ (s'.w.ints i).queries = .start q :: (s.w.ints i).queries := by
  obtain ⟨h1, _, h2, h3⟩ := h.moves hr hi
  exact ⟨h1, by rw [← h3] at h2; exact congrArg Prod.fst h2⟩

/-! ## Loops -/

/-- The rounds of a `for` loop. -/
theorem Calm.rounds {body : List Stmt} {tr : Trace} {o : Outcome} (hl : loop skip (Stmt.semL body) (ins .popQuery) tr o) :
    o = .done → ∀ {s s' : QSt World} {g : Gen Act ActGen} {rest : List (Gen Act ActGen)}, Reachable s → i < s.w.nint →
    (s.w.ints i).queries = g :: rest → Calm a i K s tr s' →
    ∃ u t l t' u', Calm a i K s [] u ∧ Sees a i t u ∧ t.w.cur = a ∧ Drain (Round a i K body) g t l t' ∧ Sees a i t' u' ∧
      Calm a i K u' [(.popQuery, true)] s' := by
  induction hl with
  | before _ h => intro ho; exact absurd ho h
  | test _ => intro ho; cases ho
  | stop _ _ h => intro ho; exact absurd ho h
  | again hP hA _ ih =>
    intro ho s s' g rest hr hi hq h
    obtain ⟨rfl, _⟩ := hP
    obtain ⟨m₁, c1, c2⟩ := h.split (tr := [(.nextOrFail, true)]) rfl
    obtain ⟨m₂, c3, c4⟩ := c2.split rfl
    obtain ⟨u, u', n, t, t', o, a1, a2, a3, a4, a5, a6, ak, a7, a8, a9, a10⟩ := c1.asks hr hi hq
    cases o with
    | none => cases a6
    | some g' =>
      have c5 := a7.trans c3
      have hb := congrArg Prod.fst (c5.balanced a8 a9 (semL_takes body 0 0) hA)
      simp only [Intention.contents] at hb
      obtain ⟨u₂, t₂, l, t₃, u₃, b1, b2, b3, b4, b5, b6⟩ := ih ho (c5.reachable a8) (c5.moves a8 a9).1 (hb.trans a10) c4
      refine ⟨u, t, t' :: l, t₃, u₃, a1, a2, a3, .next a4 ⟨u', _, u₂, a5, ak, ?_, hA, b2, b3⟩ b4, b5, b6⟩
      have := c5.trans b1
      simpa using this
  | leave hP hB =>
    intro ho s s' g rest hr hi hq h
    obtain ⟨rfl, _⟩ := hP
    obtain ⟨m₁, c1, c2⟩ := h.split (tr := [(.nextOrFail, false)]) rfl
    obtain ⟨u, u', n, t, t', o, a1, a2, a3, a4, a5, a6, ak, a7, a8, a9, a10⟩ := c1.asks hr hi hq
    subst ho
    cases hB
    cases o with
    | some g' => cases a6
    | none => exact ⟨u, t, [], t', u', a1, a2, a3, .stop a4, a5, a7.trans c2⟩

/-- The rounds of a `while` loop. -/
theorem Calm.whiles {q : Query Act} {body : List Stmt} {tr : Trace} {o : Outcome}
    (hl : loop (seq (ins (.pushQuery q)) (ins .pushChoicepoint)) (seq (ins .popQuery) (seq (Stmt.semL body) (ins .popChoicepoint)))
      (seq (ins .popChoicepoint) (ins .popQuery)) tr o) :
    o = .done → ∀ {s s' : QSt World}, Reachable s → i < s.w.nint → Calm a i K s tr s' → ∃ k, Whiles a i K q body s k s' := by
  have hP : ∀ {tr : Trace}, seq (ins (.pushQuery q)) (ins .pushChoicepoint) tr .done → tr = [(.pushQuery q, true), (.pushChoicepoint, true)] := by
    intro tr h
    cases h with
    | first _ h => exact absurd rfl h
    | both h1 h2 => cases h1; cases h2; rfl
  have push : ∀ {s m : QSt World}, Reachable s → i < s.w.nint → Calm a i K s [(.pushQuery q, true), (.pushChoicepoint, true)] m →
      Reachable m ∧ i < m.w.nint ∧ (m.w.ints i).queries = .start q :: (s.w.ints i).queries := by
    intro s m hr hi h
    obtain ⟨h1, y, h2, z, h3, h4⟩ := h.moves hr hi
    refine ⟨h.reachable hr, h1, ?_⟩
    rw [← h4] at h3
    exact h3.1.trans (congrArg Prod.fst h2)
  induction hl with
  | before _ h => intro ho; exact absurd ho h
  | test _ => intro ho; cases ho
  | stop _ _ h => intro ho; exact absurd ho h
  | again hp hA _ ih =>
    intro ho s s' hr hi h
    obtain ⟨m₀, c0, c1⟩ := h.split rfl
    obtain ⟨m₁, c2, c3⟩ := c1.split (tr := [(.nextOrFail, true)]) rfl
    obtain ⟨m₂, c4, c5⟩ := c3.split rfl
    rw [hP hp] at c0
    obtain ⟨hr₀, hi₀, hq₀⟩ := push hr hi c0
    obtain ⟨u, u', n, t, t', o, a1, a2, a3, a4, a5, a6, ak, a7, a8, a9, a10⟩ := c2.asks hr₀ hi₀ hq₀
    cases o with
    | none => cases a6
    | some g' =>
      obtain ⟨k, hk⟩ := ih ho (c4.reachable (c2.reachable hr₀)) (c4.moves (c2.reachable hr₀) (c2.moves hr₀ hi₀).1).1 c5
      cases hA with
      | first _ h => exact absurd rfl h
      | both h1 h2 =>
        cases h1
        cases h2 with
        | first _ h => exact absurd rfl h
        | both h1 h2 =>
          cases h2
          obtain ⟨m₃, d1, d2⟩ := c4.split rfl
          obtain ⟨m₄, d3, d4⟩ := d2.split rfl
          exact ⟨k + 1, .round (by simpa using c0.trans a1) ⟨n, t, t', a2, a3, a4, a5⟩ (a7.trans d1) d3 h1 d4 hk⟩
  | leave hp hB =>
    intro ho s s' hr hi h
    obtain ⟨m₀, c0, c1⟩ := h.split rfl
    obtain ⟨m₁, c2, c3⟩ := c1.split (tr := [(.nextOrFail, false)]) rfl
    rw [hP hp] at c0
    obtain ⟨hr₀, hi₀, hq₀⟩ := push hr hi c0
    obtain ⟨u, u', n, t, t', o, a1, a2, a3, a4, a5, a6, ak, a7, a8, a9, a10⟩ := c2.asks hr₀ hi₀ hq₀
    cases o with
    | some g' => cases a6
    | none =>
      subst ho
      cases hB with
      | first _ h => exact absurd rfl h
      | both h1 h2 =>
        cases h1
        cases h2
        exact ⟨0, .leave (by simpa using c0.trans a1) ⟨n, t, t', a2, a3, a4, a5⟩ (a7.trans c3)⟩

/-- More is known about reachable states. -/
theorem Calm.strong {s s' : QSt World} {tr : Trace} (hr : Reachable s) (ho : Orderly s.w) (hi : i < s.w.nint) (h : Calm a i K s tr s') :
    Calm a i (fun s => K s ∧ Reachable s ∧ Orderly s.w ∧ i < s.w.nint) s tr s' := by
  have all : ∀ {tr : Trace} {s' : QSt World}, Calm a i K s tr s' → Reachable s' ∧ Orderly s'.w ∧ i < s'.w.nint := fun h =>
    ⟨h.reachable hr, (h.history.acts hr ho hi).1, (h.moves hr hi).1⟩
  induction h with
  | refl => exact .refl _
  | runs h h1 hk ih => exact ih.runs h1 ⟨hk, all (h.runs h1 hk)⟩
  | rests h h1 hk ih => exact ih.rests h1 ⟨hk, all (h.rests h1 hk)⟩
  | sleeps h h1 hk ih => exact ih.sleeps h1 ⟨hk, all (h.sleeps h1 hk)⟩

/-- Calm runs in terms of stacks and bindings. -/
theorem Calm.acts {s s' : QSt World} {tr : Trace} (hr : Reachable s) (ho : Orderly s.w) (hi : i < s.w.nint) (h : Calm a i K s tr s') :
    tr.acts (s.w.ints i).frame (s'.w.ints i).frame := by
  induction h with
  | refl => exact Idle.refl _
  | runs h h1 hk ih =>
    have hr₁ := h.reachable hr
    obtain ⟨_, _, pc, h2, h3, _⟩ := h1.spec hr₁.stacksOK
    exact Trace.acts_snoc ih (h1.acts hr₁.stacksOK (h.history.acts hr ho hi).1 (by rw [h3]; exact (hr₁.codeOK.ints i id).plain h2))
  | rests h h1 hk ih => exact Trace.acts_idle ih (h1.acts (h.reachable hr).stacksOK (h.moves hr hi).1)
  | sleeps h h1 hk ih => rw [sleep_eq h1]; exact ih

/-! ## Computing calm runs -/

/-- `k` steps of agent `a`; in each of them, intention `i` runs an instruction, and `p` holds afterwards. -/
def calmOf (n a i : Nat) (p : QSt World → Bool) : Nat → QSt World → Option (Trace × QSt World)
  | 0, s => some ([], s)
  | k + 1, s =>
    match step n a s with
    | .ok _ s₁ | .err _ s₁ =>
      match stepTrace n a i s, p s₁ with
      | [x], true => (calmOf n a i p k s₁).map fun y => (x :: y.1, y.2)
      | _, _ => none
    | .oof => none

theorem calmOf_calm {n : Nat} {p : QSt World → Bool} : ∀ {k : Nat} {s s' : QSt World} {tr : Trace}, calmOf n a i p k s = some (tr, s') →
    Calm a i (fun s => p s = true) s tr s'
  | 0, s, s', tr, h => by cases h; exact .refl _
  | k + 1, s, s', tr, h => by
    unfold calmOf at h
    have go : ∀ {s₁ : QSt World}, (step n a s).leaves s₁ → (match stepTrace n a i s, p s₁ with
        | [x], true => (calmOf n a i p k s₁).map fun y => (x :: y.1, y.2)
        | _, _ => none) = some (tr, s') → Calm a i (fun s => p s = true) s tr s' := by
      intro s₁ hl h
      split at h
      · next x h1 h2 =>
        simp only [Option.map_eq_some_iff, Prod.exists, Prod.mk.injEq] at h
        obtain ⟨tr', _, h3, rfl, rfl⟩ := h
        exact (Calm.runs (.refl s) (stepTrace_runs hl h1) h2).trans (calmOf_calm h3)
      · cases h
    split at h
    · next s₁ hx => exact go (.inl ⟨_, hx⟩) h
    · next s₁ hx => exact go (.inr ⟨_, hx⟩) h
    · cases h

end

end Verif
