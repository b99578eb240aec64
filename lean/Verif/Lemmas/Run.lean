import Verif.Spec.Run
import Verif.Lemmas.Reach

/-!
# Lemmas: running plan bodies
-/

namespace Verif

open Lang

/-! ## Depths of the stacks -/

/-- The effect of an instruction on the query stack and the choicepoint stack; `none`: the
stack is empty although it must not be. -/
def InstrF.stacks : InstrF → Nat × Nat → Option (Nat × Nat)
  | .pushQuery _, (q, c) => some (q + 1, c)
  | .nextOrFail, (q + 1, c) => some (q + 1, c)
  | .nextOrFail, (0, _) => none
  | .popQuery, (q + 1, c) => some (q, c)
  | .popQuery, (0, _) => none
  | .pushChoicepoint, (q, c) => some (q, c + 1)
  | .popChoicepoint, (q, c + 1) => some (q, c)
  | .popChoicepoint, (_, 0) => none
  | _, qc => some qc

/-- The effect of a trace on the depths of the stacks. -/
def Trace.stacks : Trace → Nat × Nat → Option (Nat × Nat)
  | [], qc => some qc
  | (f, _) :: tr, qc => (f.stacks qc).bind (Trace.stacks tr)


theorem Trace.stacks_append : ∀ (tr tr' : Trace) (p : Nat × Nat), Trace.stacks (tr ++ tr') p = (Trace.stacks tr p).bind (Trace.stacks tr')
  | [], tr', p => rfl
  | (f, b) :: tr, tr', p => by
    simp only [List.cons_append, Trace.stacks]
    cases f.stacks p with
    | none => rfl
    | some p' => exact Trace.stacks_append tr tr' p'

/-- Traces of `L` start with stacks of depth `p` and never pop from an empty stack; complete
runs end with depth `p'`. -/
def Takes (L : Lang) (p p' : Nat × Nat) : Prop :=
  ∀ tr o, L tr o → ∃ r, tr.stacks p = some r ∧ (o = .done → r = p')

namespace Takes
variable {A B P : Lang} {p p' p'' : Nat × Nat}

theorem skip : Takes skip p p := by
  rintro tr o ⟨rfl, rfl⟩
  exact ⟨p, rfl, fun _ => rfl⟩

theorem ins {f : InstrF} (h : f.stacks p = some p') : Takes (ins f) p p' := by
  intro tr o hl
  cases hl with
  | part => exact ⟨p, rfl, by simp⟩
  | done => exact ⟨p', by simp [Trace.stacks, h], fun _ => rfl⟩
  | failed => exact ⟨p', by simp [Trace.stacks, h], by simp⟩

theorem seq (hA : Takes A p p') (hB : Takes B p' p'') : Takes (seq A B) p p'' := by
  intro tr o hl
  cases hl with
  | first h ho =>
    obtain ⟨r, h1, _⟩ := hA _ _ h
    exact ⟨r, h1, fun h => absurd h ho⟩
  | both h h' =>
    obtain ⟨r, h1, h2⟩ := hA _ _ h
    obtain ⟨r', h3, h4⟩ := hB _ _ h'
    exact ⟨r', by rw [Trace.stacks_append, h1, h2 rfl]; exact h3, h4⟩

theorem cond {q c : Nat} (hA : Takes A (q + 1, c) p') (hB : Takes B (q + 1, c) p') : Takes (cond A B) (q + 1, c) p' := by
  intro tr o hl
  cases hl with
  | part => exact ⟨_, rfl, by simp⟩
  | yes h => have := hA _ _ h; exact this
  | no h => have := hB _ _ h; exact this

theorem loop {q c : Nat} (hP : Takes P p (q + 1, c)) (hA : Takes A (q + 1, c) p) (hB : Takes B (q + 1, c) p') : Takes (loop P A B) p p' := by
  intro tr o hl
  induction hl with
  | before h ho =>
    obtain ⟨r, h1, _⟩ := hP _ _ h
    exact ⟨r, h1, fun h => absurd h ho⟩
  | test h =>
    obtain ⟨r, h1, _⟩ := hP _ _ h
    exact ⟨r, h1, by simp⟩
  | stop h h' ho =>
    obtain ⟨r, h1, h2⟩ := hP _ _ h
    obtain ⟨r', h3, h4⟩ := hA _ _ h'
    exact ⟨r', by rw [Trace.stacks_append, h1, h2 rfl]; exact h3, fun h => absurd h ho⟩
  | again h h' _ ih =>
    obtain ⟨r, h1, h2⟩ := hP _ _ h
    obtain ⟨r', h3, h4⟩ := hA _ _ h'
    obtain ⟨r'', h5, h6⟩ := ih
    refine ⟨r'', ?_, h6⟩
    rw [Trace.stacks_append, h1, h2 rfl]
    change Trace.stacks (_ ++ _) (q + 1, c) = _
    rw [Trace.stacks_append, h3, h4 rfl]
    exact h5
  | leave h h' =>
    obtain ⟨r, h1, h2⟩ := hP _ _ h
    obtain ⟨r', h3, h4⟩ := hB _ _ h'
    exact ⟨r', by rw [Trace.stacks_append, h1, h2 rfl]; exact h3, h4⟩

end Takes

mutual
theorem sem_takes : ∀ (x : Stmt) (q c : Nat), Takes x.sem (q, c) (q, c)
  | .add t, q, c => by rw [Stmt.sem]; exact .ins rfl
  | .remove t, q, c => by rw [Stmt.sem]; exact .ins rfl
  | .test t, q, c => by rw [Stmt.sem]; exact .ins rfl
  | .replace p t, q, c => by rw [Stmt.sem]; exact .seq (.ins rfl) (.ins rfl)
  | .achieve t, q, c => by rw [Stmt.sem]; exact .ins rfl
  | .achieveLater t, q, c => by rw [Stmt.sem]; exact .ins rfl
  | .query q', q, c => by rw [Stmt.sem]; exact .seq (.ins rfl) (.seq (.ins rfl) (.ins rfl))
  | .forall_ q' body, q, c => by rw [Stmt.sem]; exact .seq (.ins rfl) (.loop .skip (semL_takes body _ _) (.ins rfl))
  | .ite q' thn els, q, c => by
    rw [Stmt.sem]
    exact .seq (.ins rfl) (.seq (.cond (semThen_takes thn _ _) (semElse_takes els _ _)) (.ins rfl))
  | .while_ q' body, q, c => by
    rw [Stmt.sem]
    exact .loop (.seq (.ins rfl) (.ins rfl)) (.seq (.ins rfl) (.seq (semL_takes body _ _) (.ins rfl))) (.seq (.ins rfl) (.ins rfl))
theorem semL_takes : ∀ (xs : List Stmt) (q c : Nat), Takes (Stmt.semL xs) (q, c) (q, c)
  | [], q, c => by rw [Stmt.semL]; exact .skip
  | x :: xs, q, c => by rw [Stmt.semL]; exact .seq (sem_takes x q c) (semL_takes xs q c)
theorem semThen_takes : ∀ (o : Option (List Stmt)) (q c : Nat), Takes (Stmt.semThen o) (q, c) (q, c)
  | none, q, c => by rw [Stmt.semThen]; exact .skip
  | some xs, q, c => by rw [Stmt.semThen]; exact semL_takes xs q c
theorem semElse_takes : ∀ (o : Option (List Stmt)) (q c : Nat), Takes (Stmt.semElse o) (q, c) (q, c)
  | none, q, c => by rw [Stmt.semElse]; exact .skip
  | some xs, q, c => by rw [Stmt.semElse]; exact .seq (.ins rfl) (semL_takes xs q c)
end

theorem bodyLang_takes (body : List Stmt) : Takes (bodyLang body) (0, 0) (0, 0) := .seq (.ins rfl) (semL_takes body 0 0)

/-! ## Contents of the stacks -/

/-- Query stack and choicepoint stack. -/
abbrev Contents := List (Gen Act ActGen) × List Nat

/-- Query stack and choicepoint stack of an intention. -/
def Intention.contents (x : Intention) : Contents := (x.queries, x.cps)

/-- The effect of an instruction on the stacks. -/
def InstrF.moves : InstrF → Contents → Contents → Prop
  | .pushQuery q, x, y => y = (.start q :: x.1, x.2)
  | .nextOrFail, x, y => y.2 = x.2 ∧ ∃ g g' r, x.1 = g :: r ∧ y.1 = g' :: r
  | .popQuery, x, y => y.2 = x.2 ∧ ∃ g, x.1 = g :: y.1
  | .pushChoicepoint, x, y => y.1 = x.1 ∧ ∃ c, y.2 = c :: x.2
  | .popChoicepoint, x, y => y.1 = x.1 ∧ ∃ c, x.2 = c :: y.2
  | _, x, y => y = x

/-- The effect of a trace on the stacks. -/
def Trace.moves : Trace → Contents → Contents → Prop
  | [], x, y => y = x
  | (f, _) :: tr, x, z => ∃ y, f.moves x y ∧ Trace.moves tr y z

theorem Trace.moves_append : ∀ (tr tr' : Trace) (x z : Contents), Trace.moves (tr ++ tr') x z ↔ ∃ y, Trace.moves tr x y ∧ Trace.moves tr' y z
  | [], tr', x, z => ⟨fun h => ⟨x, rfl, h⟩, fun ⟨_, rfl, h⟩ => h⟩
  | (f, b) :: tr, tr', x, z => by
    simp only [List.cons_append, Trace.moves, Trace.moves_append tr tr']
    exact ⟨fun ⟨y, h1, y', h2, h3⟩ => ⟨y', ⟨y, h1, h2⟩, h3⟩, fun ⟨y', ⟨y, h1, h2⟩, h3⟩ => ⟨y, h1, y', h2, h3⟩⟩

/-- The lengths. -/
theorem InstrF.moves_stacks {f : InstrF} {x y : Contents} (h : f.moves x y) : f.stacks (x.1.length, x.2.length) = some (y.1.length, y.2.length) := by
  obtain ⟨x1, x2⟩ := x
  obtain ⟨y1, y2⟩ := y
  cases f <;> simp only [InstrF.moves, Prod.mk.injEq] at h
  case pushQuery => obtain ⟨rfl, rfl⟩ := h; rfl
  case nextOrFail => obtain ⟨rfl, g, g', r, rfl, rfl⟩ := h; rfl
  case popQuery => obtain ⟨rfl, g, rfl⟩ := h; rfl
  case pushChoicepoint => obtain ⟨rfl, g, rfl⟩ := h; rfl
  case popChoicepoint => obtain ⟨rfl, g, rfl⟩ := h; rfl
  all_goals
    obtain ⟨rfl, rfl⟩ := h
    rfl

/-- An instruction that does not pop from an empty stack leaves alone what is below. -/
theorem InstrF.moves_below {f : InstrF} {a b y : Contents} {p : Nat × Nat} (hp : f.stacks (a.1.length, a.2.length) = some p)
    (h : f.moves (a.1 ++ b.1, a.2 ++ b.2) y) : ∃ a' : Contents, y = (a'.1 ++ b.1, a'.2 ++ b.2) ∧ (a'.1.length, a'.2.length) = p := by
  obtain ⟨a1, a2⟩ := a
  obtain ⟨y1, y2⟩ := y
  cases f <;> simp only [InstrF.moves, Prod.mk.injEq] at h
  case pushQuery q =>
    obtain ⟨rfl, rfl⟩ := h
    simp only [InstrF.stacks, Option.some.injEq] at hp
    exact ⟨(.start q :: a1, a2), rfl, hp⟩
  case nextOrFail =>
    obtain ⟨rfl, g, g', r, h1, rfl⟩ := h
    cases a1 with
    | nil => simp [InstrF.stacks] at hp
    | cons g₀ a1 =>
      simp only [InstrF.stacks, List.length_cons, Option.some.injEq] at hp
      simp only [List.cons_append, List.cons.injEq] at h1
      exact ⟨(g' :: a1, a2), by rw [← h1.2]; rfl, by simpa using hp⟩
  case popQuery =>
    obtain ⟨rfl, g, h1⟩ := h
    cases a1 with
    | nil => simp [InstrF.stacks] at hp
    | cons g₀ a1 =>
      simp only [InstrF.stacks, List.length_cons, Option.some.injEq] at hp
      simp only [List.cons_append, List.cons.injEq] at h1
      exact ⟨(a1, a2), by rw [← h1.2], by simpa using hp⟩
  case pushChoicepoint =>
    obtain ⟨rfl, g, rfl⟩ := h
    simp only [InstrF.stacks, Option.some.injEq] at hp
    exact ⟨(a1, g :: a2), rfl, hp⟩
  case popChoicepoint =>
    obtain ⟨rfl, g, h1⟩ := h
    cases a2 with
    | nil => simp [InstrF.stacks] at hp
    | cons g₀ a2 =>
      simp only [InstrF.stacks, List.length_cons, Option.some.injEq] at hp
      simp only [List.cons_append, List.cons.injEq] at h1
      exact ⟨(a1, a2), by rw [← h1.2], by simpa using hp⟩
  all_goals
    obtain ⟨rfl, rfl⟩ := h
    simp only [InstrF.stacks, Option.some.injEq] at hp
    exact ⟨(a1, a2), rfl, hp⟩

theorem Trace.moves_below {b : Contents} : ∀ {tr : Trace} {a y : Contents} {p : Nat × Nat}, tr.stacks (a.1.length, a.2.length) = some p →
    tr.moves (a.1 ++ b.1, a.2 ++ b.2) y → ∃ a' : Contents, y = (a'.1 ++ b.1, a'.2 ++ b.2) ∧ (a'.1.length, a'.2.length) = p
  | [], a, y, p, hp, h => by
    simp only [Trace.stacks, Option.some.injEq] at hp
    exact ⟨a, h, hp⟩
  | (f, _) :: tr, a, y, p, hp, h => by
    obtain ⟨y₁, h1, h2⟩ := h
    simp only [Trace.stacks, Option.bind_eq_some_iff] at hp
    obtain ⟨p₁, hp1, hp2⟩ := hp
    obtain ⟨a₁, rfl, h3⟩ := InstrF.moves_below hp1 h1
    exact Trace.moves_below (by rw [h3]; exact hp2) h2

/-- What a complete run of a statement leaves on the stacks. -/
theorem sem_balanced {L : Lang} (hL : Takes L (0, 0) (0, 0)) {tr : Trace} {o : Outcome} (h : L tr o) {x y : Contents} (hm : tr.moves x y) :
    (∃ a : Contents, y = (a.1 ++ x.1, a.2 ++ x.2)) ∧ (o = .done → y = x) := by
  obtain ⟨p, h1, h2⟩ := hL tr o h
  obtain ⟨a, rfl, h3⟩ := Trace.moves_below (a := ([], [])) (b := x) h1 hm
  refine ⟨⟨a, rfl⟩, fun ho => ?_⟩
  rw [h2 ho] at h3
  obtain ⟨a1, a2⟩ := a
  simp only [Prod.mk.injEq, List.length_eq_zero_iff] at h3
  rw [h3.1, h3.2]
  rfl

/-! ## Choosing -/

theorem pick_eq {k i : Nat} {st : List Nat} {post : List (List Nat)} {w₁ : World} : ∀ (pre : List (List Nat)) (m : Nat) (w : World),
    Suspended w w.ticks pre k → Chosen1 w k i w₁ → pick m (pre ++ (i :: st) :: post) w = (some (m + pre.length, i), w₁)
  | [], m, w, h, hc => by
    cases h
    rw [List.nil_append, pick]
    cases hc with
    | free h => rw [h]; rfl
    | late h h' => rw [h]; exact if_pos h'
  | [] :: pre, m, w, h, hc => by
    cases h with
    | empty h =>
      rw [List.cons_append, pick, pick_eq pre (m + 1) w h hc, List.length_cons, Nat.add_assoc, Nat.add_comm 1]
  | (j :: st') :: pre, m, w, h, hc => by
    rw [List.cons_append, pick]
    cases h with
    | event h1 h2 =>
      rw [h1]
      dsimp only
      rw [pick_eq pre (m + 1) w h2 hc, List.length_cons, Nat.add_assoc, Nat.add_comm 1]
    | early h1 h2 h3 =>
      rw [h1]
      refine (if_neg (Rat.not_lt.2 h2)).trans ?_
      have hc' : Chosen1 { w with ticks := w.ticks + 1 } k i w₁ := by
        cases hc with
        | free h => exact Chosen1.free (w := { w with ticks := w.ticks + 1 }) h
        | late h h' => exact Chosen1.late (w := { w with ticks := w.ticks + 1 }) h h'
      rw [pick_eq pre (m + 1) _ (h3.mono (w' := { w with ticks := w.ticks + 1 }) rfl fun _ => rfl) hc', List.length_cons, Nat.add_assoc,
        Nat.add_comm 1]

section
variable [Host]

/-- What a step does if it chooses `i`. -/
theorem Picks.step {a i : Nat} {s : QSt World} {w₁ : World} (h : Picks a i s.w w₁) (n : Nat) :
    (s.w.ints i).instr = none ∧ (∃ m, step n a s = finish n a m i { s with w := w₁ }) ∨
    ∃ pc, (s.w.ints i).instr = some pc ∧ step n a s = exec n a i pc { s with w := w₁ } := by
  obtain ⟨pre, st, post, k, h1, h2, h3⟩ := h
  have h5 : pick 0 ((s.w.ags a).intentions.dropWhile (·.isEmpty)) (s.w.setStacks a ((s.w.ags a).intentions.dropWhile (·.isEmpty)))
      = (some (0 + pre.length, i), w₁) := by
    have := pick_eq (st := st) (post := post) pre 0 _
      (h2.mono (w' := s.w.setStacks a ((s.w.ags a).intentions.dropWhile (·.isEmpty))) rfl fun _ => rfl) h3
    rwa [← h1] at this
  have hi : (w₁.ints i).instr = (s.w.ints i).instr := by
    have := congrArg Intention.instr (h3.spec.2.2.2.2.2.2.1 i)
    exact this
  unfold Verif.step
  simp only [h5]
  rw [hi]
  cases (s.w.ints i).instr with
  | none => exact .inl ⟨rfl, _, rfl⟩
  | some pc => exact .inr ⟨pc, rfl, rfl⟩

omit [Host] in
/-- The chosen intention is on a stack; the world is the same except for the stacks of `a`,
the time and the waiter of `i`. -/
theorem Picks.spec {a i : Nat} {w w₁ : World} (hw : StacksOK w) (h : Picks a i w w₁) :
    i < w.nint ∧ StacksOK w₁ ∧ w₁.nint = w.nint ∧ w₁.code = w.code ∧ w₁.plists = w.plists ∧
      (∀ j, (w₁.ints j).core = (w.ints j).core) := by
  obtain ⟨pre, st, post, k, h1, h2, h3⟩ := h
  obtain ⟨c1, c2, c3, c4, c5, c6, c7, c8, c9, c10⟩ := h3.spec
  have hm : (i :: st) ∈ (w.ags a).intentions := List.dropWhile_sublist _ |>.subset (by rw [h1]; simp)
  refine ⟨hw.below a _ hm i List.mem_cons_self, ?_, c2, c5, ?_, c7⟩
  · have := hw.shrink (a := a) (sts := (w.ags a).intentions.dropWhile (·.isEmpty)) (by rw [flatten_dropWhile]; exact .refl _)
    exact this.congr (Nat.le_of_eq c2.symm) fun _ => by rw [c1]
  · have := h3.frame.plists
    exact this

/-! ## One instruction -/

theorem core_stable {w₀ : World} {i : Nat} (hi : i < w₀.nint) :
    Stable w₀ fun s => Base w₀ s.w ∧ (s.w.ints i).core = (w₀.ints i).core where
  prim _ _ h hp := ⟨hp.base h.1, (hp.core h.1 hi).trans h.2⟩
  base _ h := h.1

omit [Host] in
theorem Intention.contents_core {x y : Intention} (h : x.core = y.core) : x.contents = y.contents := by
  have h1 := congrArg Intention.queries h
  have h2 := congrArg Intention.cps h
  simp only [Intention.core] at h1 h2
  simp only [Intention.contents, h1, h2]

theorem runF_moves {n a i : Nat} {f : InstrF} {s : QSt World} (hw : StacksOK s.w) (hi : i < s.w.nint) (hc : s.w.curInt = i) :
    (∀ ok s', runF n a i f s = .ok ok s' → (ok = true ∨ f.canFail = true) ∧ f.moves (s.w.ints i).contents (s'.w.ints i).contents) ∧
    (∀ e s', runF n a i f s = .err e s' → (s'.w.ints i).contents = (s.w.ints i).contents ∨
      f = .nextOrFail ∧ f.moves (s.w.ints i).contents (s'.w.ints i).contents) := by
  have hS := core_stable (w₀ := s.w) hi
  have h0 : Base s.w s.w ∧ (s.w.ints i).core = (s.w.ints i).core := ⟨.refl hw.below, rfl⟩
  have hcall : ∀ tr gt t d, (call n (gnext n) a tr gt t i d s).Keeps fun s' => (s'.w.ints i).contents = (s.w.ints i).contents :=
    fun tr gt t d s' h => Intention.contents_core (call_keeps hS (gnext_keeps n) (.inl hc.symm) h0 s' h).2
  have hself : ∀ (s : QSt World) (f : Intention → Intention), ((s.w.modInt i f).ints i) = f (s.w.ints i) := by
    intro s f; simp [World.modInt, World.setInt]
  constructor
  · intro ok s' h
    unfold runF at h
    split at h
    · cases h; exact ⟨.inl rfl, rfl⟩
    · exact ⟨.inr rfl, (hcall _ _ _ _).of_ok h⟩
    · exact ⟨.inr rfl, (hcall _ _ _ _).of_ok h⟩
    · exact ⟨.inr rfl, (hcall _ _ _ _).of_ok h⟩
    · exact ⟨.inr rfl, (hcall _ _ _ _).of_ok h⟩
    · exact ⟨.inr rfl, (hcall _ _ _ _).of_ok h⟩
    · cases h; exact ⟨.inl rfl, by simp only [hself]; rfl⟩
    · split at h
      · cases h
      · next g rest hq =>
        have hk := gnext_keeps n hS g s h0
        refine ⟨.inr rfl, ?_⟩
        split at h
        · next g' s₁ hx =>
          cases h
          have := congrArg Prod.snd (Intention.contents_core (hk.of_ok hx).2)
          simp only [hself]
          exact ⟨this, g, g', rest, hq, rfl⟩
        · next s₁ hx =>
          cases h
          have := congrArg Prod.snd (Intention.contents_core (hk.of_ok hx).2)
          simp only [hself]
          exact ⟨this, g, .done, rest, hq, rfl⟩
        · cases h
        · cases h
    · split at h
      · cases h
      · next g rest hq => cases h; exact ⟨.inl rfl, by simp only [hself]; exact ⟨rfl, g, hq⟩⟩
    · cases h; exact ⟨.inl rfl, by simp only [hself]; exact ⟨rfl, _, rfl⟩⟩
    · split at h
      · cases h
      · next g rest hq => cases h; exact ⟨.inl rfl, by simp only [hself]; exact ⟨rfl, g, hq⟩⟩
  · intro e s' h
    unfold runF at h
    split at h
    · cases h
    · exact .inl ((hcall _ _ _ _).of_err h)
    · exact .inl ((hcall _ _ _ _).of_err h)
    · exact .inl ((hcall _ _ _ _).of_err h)
    · exact .inl ((hcall _ _ _ _).of_err h)
    · exact .inl ((hcall _ _ _ _).of_err h)
    · cases h
    · split at h
      · cases h; exact .inl rfl
      · next g rest hq =>
        have hk := gnext_keeps n hS g s h0
        split at h
        · cases h
        · cases h
        · next e₁ s₁ hx =>
          cases h
          have := congrArg Prod.snd (Intention.contents_core (hk.of_err hx).2)
          refine .inr ⟨rfl, ?_⟩
          simp only [hself]
          exact ⟨this, g, .done, rest, hq, rfl⟩
        · cases h
    · split at h
      · cases h; exact .inl rfl
      · cases h
    · cases h
    · split at h
      · cases h; exact .inl rfl
      · cases h

theorem runI_moves {n a i : Nat} {f : InstrF} {s : QSt World} (hw : StacksOK s.w) (hi : i < s.w.nint) :
    (∀ ok s', runI n a i f s = .ok ok s' → (ok = true ∨ f.canFail = true) ∧ f.moves (s.w.ints i).contents (s'.w.ints i).contents) ∧
    (∀ e s', runI n a i f s = .err e s' → (s'.w.ints i).contents = (s.w.ints i).contents ∨
      f = .nextOrFail ∧ f.moves (s.w.ints i).contents (s'.w.ints i).contents) := by
  obtain ⟨h1, h2⟩ := runF_moves (n := n) (a := a) (i := i) (f := f)
    (s := { s with b := (s.w.ints i).b, w := { s.w with cur := a, curInt := i } }) (hw.congr (Nat.le_refl _) fun _ => rfl) hi rfl
  have hb : ∀ (s₁ : QSt World), ((s₁.w.modInt i fun x => { x with b := s₁.b }).ints i).contents = (s₁.w.ints i).contents := by
    intro s₁; simp [World.modInt, World.setInt, Intention.contents]
  unfold runI
  constructor
  · intro ok s' h
    split at h
    · next s₁ hx =>
      cases h
      have := h1 _ _ hx
      simp only [hb]
      exact this
    · cases h
    · cases h
  · intro e s' h
    split at h
    · cases h
    · next s₁ hx =>
      cases h
      have := h2 _ _ hx
      simp only [hb]
      exact this
    · cases h

/-! ## One step -/

omit [Host] in
theorem prog_core {x y : Intention} (h : x.core = y.core) : x.instr = y.instr ∧ x.contents = y.contents := by
  have := congrArg Intention.instr h
  exact ⟨this, Intention.contents_core h⟩

theorem finish_prog {n a k i : Nat} {s s' : QSt World} (h : (finish n a k i s).leaves s') (j : Nat) :
    (s'.w.ints j).instr = (s.w.ints j).instr ∧ (s'.w.ints j).contents = (s.w.ints j).contents := by
  have hm : ∀ (w : World) (j' : Nat) (b : BSt), (((w.modInt j' fun x => { x with b := b }).ints j).instr = (w.ints j).instr) ∧
      ((w.modInt j' fun x => { x with b := b }).ints j).contents = (w.ints j).contents := by
    intro w j' b
    simp only [World.modInt, World.setInt]
    split
    · next h => subst h; exact ⟨rfl, rfl⟩
    · exact ⟨rfl, rfl⟩
  unfold finish at h
  simp only at h
  split at h
  · rw [Res.leaves_ok] at h
    subst h
    exact ⟨rfl, rfl⟩
  · split at h
    · rw [Res.leaves_ok] at h; subst h; exact ⟨rfl, rfl⟩
    · simp only [Res.leaves_err] at h; subst h; exact ⟨rfl, rfl⟩
    · split at h
      · simp at h
      · simp only [Res.leaves_err] at h; subst h; exact ⟨rfl, rfl⟩
      · split at h
        · simp at h
        · simp only [Res.leaves_err] at h; subst h; exact hm ..
        · split at h
          · rw [Res.leaves_ok] at h; subst h; exact hm ..
          · simp only [Res.leaves_err] at h; subst h; exact hm ..

/-- The code store only grows. -/
theorem step_code {n a : Nat} {s s' : QSt World} (hw : StacksOK s.w) (h : (step n a s).leaves s') : s.w.code.Ext s'.w.code := by
  rcases step_spec n a s with ⟨k, _, h1⟩ | ⟨pre, i, st, post, k, w₁, h1, h2, h3, h4⟩
  · rw [h1, Res.leaves_ok] at h
    subst h
    exact .refl _
  · obtain ⟨p1, p2, p3, p4, p5, p6⟩ := Picks.spec hw ⟨pre, st, post, k, h1, h2, h3⟩
    rcases h4 with ⟨_, h4⟩ | ⟨pc, h4, h5⟩
    · rw [h4] at h
      rw [(finish_frame h).code, p4]
      exact .refl _
    · rw [h5] at h
      have := (exec_framed (s := { s with w := w₁ }) p2 (by rw [p3]; exact p1) ((prog_core (p6 i)).1.trans h4) h).1.base.code
      rwa [show ({ w₁ with cur := a, curInt := i } : World).code = s.w.code from p4] at this

theorem Rests.spec {a i : Nat} {s s' : QSt World} (hw : StacksOK s.w) (hi : i < s.w.nint) (h : Rests a i s s') :
    (s'.w.ints i).instr = (s.w.ints i).instr ∧ (s'.w.ints i).contents = (s.w.ints i).contents := by
  obtain ⟨⟨n, h⟩, hr⟩ := h
  rcases step_spec n a s with ⟨k, _, h1⟩ | ⟨pre, i', st, post, k, w₁, h1, h2, h3, h4⟩
  · rw [h1, Res.leaves_ok] at h
    subst h
    exact ⟨rfl, rfl⟩
  · have hp : Picks a i' s.w w₁ := ⟨pre, st, post, k, h1, h2, h3⟩
    obtain ⟨p1, p2, p3, p4, p5, p6⟩ := hp.spec hw
    rcases h4 with ⟨_, h4⟩ | ⟨pc, h4, h5⟩
    · rw [h4] at h
      have := finish_prog h i
      have h6 := prog_core (p6 i)
      exact ⟨this.1.trans h6.1, this.2.trans h6.2⟩
    · by_cases he : i' = i
      · subst he
        rw [hr w₁ hp] at h4
        cases h4
      · rw [h5] at h
        have := (exec_framed (s := { s with w := w₁ }) p2 (by rw [p3]; exact p1) ((prog_core (p6 i')).1.trans h4) h).1.others i
          (by rw [show ({ w₁ with cur := a, curInt := i' } : World).nint = s.w.nint from p3]; exact hi) (Ne.symm he)
        exact prog_core (this.trans (p6 i))

theorem Runs.spec {a i : Nat} {f : InstrF} {ok : Bool} {s s' : QSt World} (hw : StacksOK s.w) (h : Runs a i f ok s s') :
    (∃ n, (step n a s).leaves s') ∧ i < s.w.nint ∧ ∃ pc, (s.w.ints i).instr = some pc ∧ f = (s.w.code.instr pc).f ∧
      (ok = true ∨ f.canFail = true) ∧ f.moves (s.w.ints i).contents (s'.w.ints i).contents ∧
      (s'.w.ints i).instr = if ok then (s.w.code.instr pc).success else (s.w.code.instr pc).failure := by
  obtain ⟨n, pc, w₁, s₁, hp, h1, h2, h3, h4⟩ := h
  obtain ⟨p1, p2, p3, p4, p5, p6⟩ := hp.spec hw
  refine ⟨⟨n, h4⟩, p1, pc, h1, h2, ?_⟩
  obtain ⟨m1, m2⟩ := (runI_moves (n := n) (a := a) (i := i) (f := f) (s := { s with w := w₁ }) p2 (by rw [p3]; exact p1)).1 _ _ h3
  refine ⟨m1, ?_⟩
  rw [show ({ s with w := w₁ } : QSt World).w.ints i = w₁.ints i from rfl, (prog_core (p6 i)).2] at m2
  have hs : ∀ (s₁ : QSt World) (l : Option Nat), ((s₁.w.modInt i fun x => { x with instr := l }).ints i).contents = (s₁.w.ints i).contents ∧
      ((s₁.w.modInt i fun x => { x with instr := l }).ints i).instr = l := by
    intro s₁ l; simp [World.modInt, World.setInt, Intention.contents]
  rcases hp.step n with ⟨h5, _⟩ | ⟨pc', h5, h6⟩
  · rw [h5] at h1; cases h1
  rw [h5] at h1
  cases h1
  rw [h6] at h4
  unfold exec at h4
  simp only at h4
  rw [show w₁.code = s.w.code from p4, ← h2, h3] at h4
  cases ok with
  | true =>
    simp only [Res.leaves_ok] at h4
    subst h4
    dsimp only
    rw [(hs _ _).1, (hs _ _).2]
    exact ⟨m2, rfl⟩
  | false =>
    simp only at h4
    cases hf : (s.w.code.instr pc).failure with
    | none =>
      simp only [hf, Res.leaves_err] at h4
      subst h4
      dsimp only
      rw [(hs _ _).1, (hs _ _).2]
      exact ⟨m2, rfl⟩
    | some q =>
      simp only [hf, Res.leaves_ok] at h4
      subst h4
      dsimp only
      rw [(hs _ _).1, (hs _ _).2]
      exact ⟨m2, rfl⟩

theorem Throws.spec {a i : Nat} {s s' : QSt World} (hw : StacksOK s.w) (h : Throws a i s s') :
    (∃ n, (step n a s).leaves s') ∧ i < s.w.nint ∧ ∃ pc, (s.w.ints i).instr = some pc ∧ (s'.w.ints i).instr = some pc ∧
      ((s'.w.ints i).contents = (s.w.ints i).contents ∨
        (s.w.code.instr pc).f = .nextOrFail ∧ InstrF.nextOrFail.moves (s.w.ints i).contents (s'.w.ints i).contents) := by
  obtain ⟨n, pc, w₁, e, s₁, hp, h1, h3, h4⟩ := h
  obtain ⟨p1, p2, p3, p4, p5, p6⟩ := hp.spec hw
  refine ⟨⟨n, h4⟩, p1, pc, h1, ?_⟩
  have m := (runI_moves (n := n) (a := a) (i := i) (f := (s.w.code.instr pc).f) (s := { s with w := w₁ }) p2 (by rw [p3]; exact p1)).2 _ _ h3
  rw [show ({ s with w := w₁ } : QSt World).w.ints i = w₁.ints i from rfl, (prog_core (p6 i)).2] at m
  rcases hp.step n with ⟨h5, _⟩ | ⟨pc', h5, h6⟩
  · rw [h5] at h1; cases h1
  rw [h5] at h1
  cases h1
  have h0 := runI_keeps (framed_run (w₀ := { w₁ with cur := a, curInt := i }) (i := i) (by rw [show ({ w₁ with cur := a, curInt := i } : World).nint = s.w.nint from p3]; exact p1)) rfl (n := n) (a := a) (f := (s.w.code.instr pc).f) (s := { s with w := w₁ })
    ⟨.refl (w₀ := { w₁ with cur := a, curInt := i }) (p2.congr (Nat.le_refl _) fun _ => rfl) i, rfl⟩
  have h7 := (h0.of_err h3).2
  rw [h6] at h4
  unfold exec at h4
  simp only at h4
  rw [show w₁.code = s.w.code from p4, h3, Res.leaves_err] at h4
  subst h4
  refine ⟨h7.trans ((prog_core (p6 i)).1.trans h5), ?_⟩
  rcases m with m | ⟨m1, m2⟩
  · exact .inl m
  · exact .inr ⟨m1, m1 ▸ m2⟩

/-- Every step is one of these. -/
theorem step_history {n a i : Nat} {s s' : QSt World} (h : (step n a s).leaves s') :
    (∃ f ok, Runs a i f ok s s') ∨ Throws a i s s' ∨ Rests a i s s' := by
  by_cases hp : ∃ w₁ pc, Picks a i s.w w₁ ∧ (s.w.ints i).instr = some pc
  · obtain ⟨w₁, pc, hp, h1⟩ := hp
    rcases hp.step n with ⟨h5, _⟩ | ⟨pc', h5, h6⟩
    · rw [h5] at h1; cases h1
    rw [h5] at h1
    cases h1
    cases hr : runI n a i (s.w.code.instr pc).f { s with w := w₁ } with
    | ok ok s₁ => exact .inl ⟨_, ok, n, pc, w₁, s₁, hp, h5, rfl, hr, h⟩
    | err e s₁ => exact .inr (.inl ⟨n, pc, w₁, e, s₁, hp, h5, hr, h⟩)
    | oof =>
      have hc : w₁.code = s.w.code := by
        obtain ⟨pre, st, post, k, _, _, h3⟩ := hp
        exact h3.spec.2.2.2.2.1
      rw [h6] at h
      unfold exec at h
      simp only at h
      rw [hc, hr] at h
      simp at h
  · refine .inr (.inr ⟨⟨n, h⟩, fun w₁ h1 => ?_⟩)
    cases h2 : (s.w.ints i).instr with
    | none => rfl
    | some pc => exact absurd ⟨w₁, pc, h1, h2⟩ hp

end

end Verif
