import Verif.Spec.Step
import Verif.Lemmas.Freeze
import Verif.Lemmas.Unify
import Verif.Lemmas.Code

/-!
# The atomic effects of the agent operations

`Prim w₀` lists the atomic changes of the state that queries, actions and `Agent.call`
make; `w₀` is the world at the start (what matters is which intentions and events existed).  Every operation is a
sequence of such changes (`Stable` predicates are kept).
-/

namespace Verif

/-- `P` holds in the state left behind. -/
def Res.Keeps {σ α : Type} (P : σ → Prop) (x : Res σ α) : Prop := ∀ s', x.leaves s' → P s'

namespace Res.Keeps
variable {σ α β : Type} {P : σ → Prop}

theorem ok {a : α} {s : σ} (h : P s) : (Res.ok a s).Keeps P := by
  intro s' hs'; simp at hs'; exact hs' ▸ h

theorem er {e : Err} {s : σ} (h : P s) : (Res.err e s : Res σ α).Keeps P := by
  intro s' hs'; simp at hs'; exact hs' ▸ h

theorem oof : (Res.oof : Res σ α).Keeps P := by
  intro s' hs'; simp at hs'

theorem of_ok {x : Res σ α} (h : x.Keeps P) {a : α} {s : σ} (hx : x = .ok a s) : P s := h s (.inl ⟨a, hx⟩)

theorem of_err {x : Res σ α} (h : x.Keeps P) {e : Err} {s : σ} (hx : x = .err e s) : P s := h s (.inr ⟨e, hx⟩)

theorem bind {x : Res σ α} {f : α → σ → Res σ β} (hx : x.Keeps P) (hf : ∀ a s, P s → (f a s).Keeps P) :
    (x.bind f).Keeps P := by
  cases x with
  | ok a s => exact hf a s (hx.of_ok rfl)
  | err e s => exact .er (hx.of_err rfl)
  | oof => exact .oof

theorem bind' {x : Res σ α} {f : α → σ → Res σ β} (hx : x.Keeps P) (hf : ∀ a s, x = .ok a s → P s → (f a s).Keeps P) :
    (x.bind f).Keeps P := by
  cases x with
  | ok a s => exact hf a s rfl (hx.of_ok rfl)
  | err e s => exact .er (hx.of_err rfl)
  | oof => exact .oof

theorem onNext {x : Res σ (Option α)} {f : α → σ → Res σ β} {g : σ → Res σ β} (hx : x.Keeps P)
    (hf : ∀ a s, P s → (f a s).Keeps P) (hg : ∀ s, P s → (g s).Keeps P) : (x.onNext f g).Keeps P := by
  rcases x with ⟨_ | a, s⟩ | ⟨e, s⟩ | _
  · exact hg s (hx.of_ok rfl)
  · exact hf a s (hx.of_ok rfl)
  · exact .er (hx.of_err rfl)
  · exact .oof

theorem lift {x : Ev α} {s : σ} (h : P s) : (Res.lift x s).Keeps P := by
  intro s' hs'; exact Res.leaves_lift hs' ▸ h

end Res.Keeps

/-- Some stacks have lost their top. -/
inductive Dropped : List (List Nat) → List (List Nat) → Prop where
  | nil : Dropped [] []
  | keep {st sts sts'} : Dropped sts sts' → Dropped (st :: sts) (st :: sts')
  | drop {i st sts sts'} : Dropped sts sts' → Dropped ((i :: st) :: sts) (st :: sts')

/-- `i` was put on top of a stack (above `j`), or on a new one. -/
def Pushed (i j : Nat) (sts sts' : List (List Nat)) : Prop :=
  sts' = sts ++ [[i]] ∨
    ∃ l st r, sts = l ++ (j :: st) :: r ∧ sts' = l ++ (i :: j :: st) :: r

section
variable [Host]

omit [Host] in
/-- The plan existed at the start or has been built since. -/
def Known (w₀ : World) (c : Code) (p : Plan) : Prop := (∃ r, p ∈ w₀.plists r) ∨ Built c p

/-- The atomic changes. -/
inductive Prim (w₀ : World) : QSt World → QSt World → Prop where
  | b (s b') : Prim w₀ s { s with b := b' }
  | nv (s k) : s.nv ≤ k → Prim w₀ s { s with nv := k }
  | cur (s a i) : i = w₀.curInt ∨ w₀.nint ≤ i → Prim w₀ s { s with w := { s.w with cur := a, curInt := i } }
  | tick (s) : Prim w₀ s { s with w := { s.w with ticks := s.w.ticks + 1 } }
  | newInt (s) : Prim w₀ s { s with w := { s.w.setInt s.w.nint {} with nint := s.w.nint + 1 } }
  | add (s a f as xs) : Settled (.lit f as xs) → Prim w₀ s
      { s with w := s.w.setBeliefs a (f, as.length) (pySetAdd (s.w.beliefs a (f, as.length)) (.lit f as xs)) }
  | del (s a g xs) : xs.Sublist (s.w.beliefs a g) → Prim w₀ s { s with w := s.w.setBeliefs a g xs }
  | event (s a ev) : Prim w₀ s { s with w := { s.w with events := (a, ev) :: s.w.events } }
  | out (s o) : o.name = (s.w.ags s.w.cur).name → Prim w₀ s { s with w := { s.w with out := o :: s.w.out } }
  | wake (s i n ev d a frozen b rest st) : (s.w.ints i).waiter = some ⟨some ev, d⟩ → (i :: st) ∈ (s.w.ags a).intentions →
      s.w.events = (a, ⟨ev.trigger, ev.goalType, frozen⟩) :: rest → w₀.events.length ≤ rest.length →
      unifiesAnnotated n ev.head frozen BSt.init = .ok true b → Prim w₀ s { s with w := s.w.setWaiter i none }
  | wait (s x) : Prim w₀ s { s with w := s.w.setWaiter s.w.curInt (some x) }
  | drop (s a sts) : Dropped (s.w.ags a).intentions sts → Prim w₀ s { s with w := s.w.setStacks a sts }
  | plan (s a src) : Prim w₀ s (buildPlan a src s)
  | unplan (s r keep) : Prim w₀ s { s with w := s.w.setPlist r ((s.w.plists r).filter keep) }
  | fill (s i frozen p t b) : w₀.nint ≤ i → Known w₀ s.w.code p → (s.w.ints i).queries = [] → (s.w.ints i).cps = [] →
      Prim w₀ s { s with w := s.w.modInt i fun x =>
        { x with headTerm := some frozen, instr := some p.body, callingTerm := some t, b := b } }
  | push (s a i j sts) : w₀.nint ≤ i → i < s.w.nint → (∀ a', ∀ st ∈ (s.w.ags a').intentions, i ∉ st) →
      (j = w₀.curInt ∨ w₀.nint ≤ j) → Pushed i j (s.w.ags a).intentions sts → Prim w₀ s { s with w := s.w.setStacks a sts }

/-- Intentions and events do not get lost; the intentions on the stacks exist; actions
are executed for the same intention as at the start or for new ones. -/
structure Base (w₀ w : World) : Prop where
  nint : w₀.nint ≤ w.nint
  nev : w₀.events.length ≤ w.events.length
  below : ∀ a, ∀ st ∈ (w.ags a).intentions, ∀ i ∈ st, i < w.nint
  cur : w.curInt = w₀.curInt ∨ w₀.nint ≤ w.curInt
  plans : ∀ r, ∀ p ∈ w.plists r, Known w₀ w.code p
  code : w₀.code.Ext w.code

omit [Host] in
theorem Base.refl {w : World} (h : ∀ a, ∀ st ∈ (w.ags a).intentions, ∀ i ∈ st, i < w.nint) : Base w w :=
  ⟨Nat.le_refl _, Nat.le_refl _, h, .inl rfl, fun r _ hp => .inl ⟨r, hp⟩, .refl _⟩

omit [Host] in
theorem Base.setInt {w₀ w : World} (h : Base w₀ w) (i : Nat) (x : Intention) : Base w₀ (w.setInt i x) :=
  ⟨h.nint, h.nev, h.below, h.cur, h.plans, h.code⟩

omit [Host] in
theorem Known.mono {w₀ : World} {c c' : Code} {p : Plan} (h : Known w₀ c p) (hc : c.Ext c') : Known w₀ c' p :=
  h.imp_right (·.mono hc)

/-- A predicate kept by all atomic changes. -/
structure Stable (w₀ : World) (P : QSt World → Prop) : Prop where
  prim : ∀ s s', P s → Prim w₀ s s' → P s'
  base : ∀ s, P s → Base w₀ s.w

/-- `next` keeps `P`. -/
def RecKeeps (P : QSt World → Prop) (rec : Rec) : Prop := ∀ g s, P s → (rec g s).Keeps P

/-- `next` keeps all predicates that are kept by the atomic changes. -/
def RecStable (rec : Rec) : Prop := ∀ {w₀ : World} {P : QSt World → Prop}, Stable w₀ P → RecKeeps P rec

variable {w₀ : World} {P : QSt World → Prop}

omit [Host] in
theorem Dropped.mem {sts sts' : List (List Nat)} (h : Dropped sts sts') {st : List Nat} (hs : st ∈ sts') :
    ∃ st₀ ∈ sts, ∀ i ∈ st, i ∈ st₀ := by
  induction h with
  | nil => simp at hs
  | keep _ ih =>
    rcases List.mem_cons.1 hs with rfl | hs
    · exact ⟨_, List.mem_cons_self, fun _ h => h⟩
    · obtain ⟨st₀, h, h'⟩ := ih hs
      exact ⟨st₀, List.mem_cons_of_mem _ h, h'⟩
  | drop _ ih =>
    rcases List.mem_cons.1 hs with rfl | hs
    · exact ⟨_, List.mem_cons_self, fun _ h => List.mem_cons_of_mem _ h⟩
    · obtain ⟨st₀, h, h'⟩ := ih hs
      exact ⟨st₀, List.mem_cons_of_mem _ h, h'⟩

omit [Host] in
theorem Pushed.mem {i j : Nat} {sts sts' : List (List Nat)} (h : Pushed i j sts sts') {st : List Nat} (hs : st ∈ sts') :
    ∀ k ∈ st, k = i ∨ ∃ st₀ ∈ sts, k ∈ st₀ := by
  intro k hk
  rcases h with rfl | ⟨l, st₁, r, rfl, rfl⟩
  · simp only [List.mem_append, List.mem_singleton] at hs
    rcases hs with hs | rfl
    · exact .inr ⟨st, hs, hk⟩
    · simp at hk; exact .inl hk
  · simp only [List.mem_append, List.mem_cons] at hs
    rcases hs with hs | rfl | hs
    · exact .inr ⟨st, by simp [hs], hk⟩
    · rcases List.mem_cons.1 hk with rfl | hk
      · exact .inl rfl
      · exact .inr ⟨j :: st₁, by simp, hk⟩
    · exact .inr ⟨st, by simp [hs], hk⟩

omit [Host] in
theorem setBeliefs_ints {w : World} {a a' : Nat} {g : String × Nat} {xs : List Term} :
    (w.setBeliefs a g xs).nint = w.nint ∧ (w.setBeliefs a g xs).events = w.events ∧
      (w.setBeliefs a g xs).ints = w.ints ∧ ((w.setBeliefs a g xs).ags a').intentions = (w.ags a').intentions := by
  unfold World.setBeliefs
  split
  · exact ⟨rfl, rfl, rfl, rfl⟩
  · refine ⟨rfl, rfl, rfl, ?_⟩
    simp only [World.setAg, World.setSet]
    split <;> simp_all

omit [Host] in
theorem addPlan_ints {w : World} {a a' : Nat} {k : PlanKey} {p : Plan} :
    (w.addPlan a k p).nint = w.nint ∧ (w.addPlan a k p).events = w.events ∧
      (w.addPlan a k p).ints = w.ints ∧ ((w.addPlan a k p).ags a').intentions = (w.ags a').intentions := by
  unfold World.addPlan
  split
  · exact ⟨rfl, rfl, rfl, rfl⟩
  · refine ⟨rfl, rfl, rfl, ?_⟩
    simp only [World.setAg, World.setPlist]
    split <;> simp_all

omit [Host] in
theorem buildPlan_ints {s : QSt World} {a a' : Nat} {src : PlanSrc} :
    (buildPlan a src s).w.nint = s.w.nint ∧ (buildPlan a src s).w.events = s.w.events ∧
      (buildPlan a src s).w.ints = s.w.ints ∧ ((buildPlan a src s).w.ags a').intentions = (s.w.ags a').intentions :=
  addPlan_ints

omit [Host] in
theorem setStacks_self {w : World} {a : Nat} {sts : List (List Nat)} : ((w.setStacks a sts).ags a).intentions = sts := by
  simp [World.setStacks, World.setAg]

omit [Host] in
theorem setStacks_other {w : World} {a a' : Nat} {sts : List (List Nat)} (h : a' ≠ a) :
    (w.setStacks a sts).ags a' = w.ags a' := by
  simp [World.setStacks, World.setAg, h]

/-- The numbers of intentions and events, and the intentions on the stacks: what an atomic
change does to them. -/
theorem Prim.stacks {s s' : QSt World} (h : Prim w₀ s s') :
    s.w.nint ≤ s'.w.nint ∧ s.w.events.length ≤ s'.w.events.length ∧
    ∀ a, ∀ st ∈ (s'.w.ags a).intentions, ∀ i ∈ st, (∃ st₀ ∈ (s.w.ags a).intentions, i ∈ st₀) ∨ w₀.nint ≤ i ∧ i < s.w.nint := by
  have same : ∀ {s' : QSt World}, s.w.nint ≤ s'.w.nint → s.w.events.length ≤ s'.w.events.length →
      (∀ a, (s'.w.ags a).intentions = (s.w.ags a).intentions) → _ :=
    fun {s'} h1 h2 h3 => (⟨h1, h2, fun a st hst i hi => .inl ⟨st, h3 a ▸ hst, hi⟩⟩ :
      s.w.nint ≤ s'.w.nint ∧ s.w.events.length ≤ s'.w.events.length ∧
      ∀ a, ∀ st ∈ (s'.w.ags a).intentions, ∀ i ∈ st, (∃ st₀ ∈ (s.w.ags a).intentions, i ∈ st₀) ∨ w₀.nint ≤ i ∧ i < s.w.nint)
  cases h with
  | b | nv | cur | tick | out | wake | wait | fill | unplan => exact same (Nat.le_refl _) (Nat.le_refl _) fun _ => rfl
  | newInt => exact same (Nat.le_succ _) (Nat.le_refl _) fun _ => rfl
  | event => exact same (Nat.le_refl _) (Nat.le_succ _) fun _ => rfl
  | add a f as xs =>
    obtain ⟨h1, h2, _⟩ := setBeliefs_ints (w := s.w) (a := a) (a' := 0) (g := (f, as.length))
      (xs := pySetAdd (s.w.beliefs a (f, as.length)) (.lit f as xs))
    exact same (Nat.le_of_eq h1.symm) (Nat.le_of_eq (congrArg _ h2.symm)) fun _ => setBeliefs_ints.2.2.2
  | del a g xs =>
    obtain ⟨h1, h2, _⟩ := setBeliefs_ints (w := s.w) (a := a) (a' := 0) (g := g) (xs := xs)
    exact same (Nat.le_of_eq h1.symm) (Nat.le_of_eq (congrArg _ h2.symm)) fun _ => setBeliefs_ints.2.2.2
  | plan a src =>
    obtain ⟨h1, h2, _⟩ := buildPlan_ints (s := s) (a := a) (a' := 0) (src := src)
    exact same (Nat.le_of_eq h1.symm) (Nat.le_of_eq (congrArg _ h2.symm)) fun _ => buildPlan_ints.2.2.2
  | drop a sts hd =>
    refine ⟨Nat.le_refl _, Nat.le_refl _, fun a' st hst i hi => ?_⟩
    by_cases ha : a' = a
    · subst ha
      rw [setStacks_self] at hst
      obtain ⟨st₀, h, h'⟩ := hd.mem hst
      exact .inl ⟨st₀, h, h' i hi⟩
    · simp only [setStacks_other ha] at hst
      exact .inl ⟨st, hst, hi⟩
  | push a k j sts h1 h2 h3 h4 hp =>
    refine ⟨Nat.le_refl _, Nat.le_refl _, fun a' st hst i hi => ?_⟩
    by_cases ha : a' = a
    · subst ha
      rw [setStacks_self] at hst
      rcases hp.mem hst i hi with rfl | h
      · exact .inr ⟨h1, h2⟩
      · exact .inl h
    · simp only [setStacks_other ha] at hst
      exact .inl ⟨st, hst, hi⟩

theorem Prim.curInt {s s' : QSt World} (h : Prim w₀ s s') (hc : s.w.curInt = w₀.curInt ∨ w₀.nint ≤ s.w.curInt) :
    s'.w.curInt = w₀.curInt ∨ w₀.nint ≤ s'.w.curInt := by
  cases h with
  | cur _ _ hi => exact hi
  | add | del => unfold World.setBeliefs; split <;> exact hc
  | plan => unfold buildPlan World.addPlan; dsimp only; split <;> exact hc
  | _ => exact hc

omit [Host] in
theorem addPlan_plists {w : World} {a : Nat} {k : PlanKey} {p q : Plan} {r : Nat} (h : q ∈ (w.addPlan a k p).plists r) :
    q = p ∨ q ∈ w.plists r := by
  unfold World.addPlan at h
  split at h
  · simp only [World.setPlist] at h
    split at h
    · next hr =>
      subst hr
      rcases List.mem_append.1 h with h | h
      · exact .inr h
      · exact .inl (by simpa using h)
    · exact .inr h
  · simp only [World.setPlist, World.setAg] at h
    split at h
    · exact .inl (by simpa using h)
    · exact .inr h

omit [Host] in
@[simp] theorem addPlan_code {w : World} {a : Nat} {k : PlanKey} {p : Plan} : (w.addPlan a k p).code = w.code := by
  unfold World.addPlan; split <;> rfl

omit [Host] in
@[simp] theorem buildPlan_code {s : QSt World} {a : Nat} {src : PlanSrc} :
    (buildPlan a src s).w.code = compileBody (Stmt.renameL (s.nv + ·) src.body) s.w.code := addPlan_code

omit [Host] in
/-- The new plan. -/
theorem buildPlan_plists {s : QSt World} {a : Nat} {src : PlanSrc} {q : Plan} {r : Nat} (h : q ∈ (buildPlan a src s).w.plists r) :
    BuiltFrom (buildPlan a src s).w.code q src s.nv s.w.code ∨ q ∈ s.w.plists r := by
  rcases addPlan_plists h with h | h
  · left
    exact ⟨h, by rw [buildPlan_code]; exact .refl _⟩
  · exact .inr h

omit [Host] in
@[simp] theorem setBeliefs_code {w : World} {a : Nat} {g : String × Nat} {xs : List Term} :
    (w.setBeliefs a g xs).code = w.code ∧ (w.setBeliefs a g xs).plists = w.plists := by
  unfold World.setBeliefs; split <;> exact ⟨rfl, rfl⟩

/-- Code is added, but does not change. -/
theorem Prim.code {s s' : QSt World} (h : Prim w₀ s s') : s.w.code.Ext s'.w.code := by
  cases h with
  | add | del => rw [setBeliefs_code.1]; exact .refl _
  | plan => rw [buildPlan_code]; exact compileBody_ext _ _
  | _ => exact .refl _

theorem Prim.plists {s s' : QSt World} (h : Prim w₀ s s') {r : Nat} {p : Plan} (hp : p ∈ s'.w.plists r) :
    p ∈ s.w.plists r ∨ Built s'.w.code p := by
  cases h with
  | add | del => rw [setBeliefs_code.2] at hp; exact .inl hp
  | plan => exact (buildPlan_plists hp).symm.imp_right fun h => ⟨_, _, _, h⟩
  | unplan r' keep =>
    simp only [World.setPlist] at hp
    split at hp
    · next hr => subst hr; exact .inl (List.mem_filter.1 hp).1
    · exact .inl hp
  | _ => exact .inl hp

theorem Prim.base {s s' : QSt World} (hb : Base w₀ s.w) (h : Prim w₀ s s') : Base w₀ s'.w := by
  obtain ⟨h1, h2, h3⟩ := h.stacks
  refine ⟨Nat.le_trans hb.nint h1, Nat.le_trans hb.nev h2, fun a st hst i hi => ?_, h.curInt hb.cur, fun r p hp =>
    (h.plists hp).elim (fun hp => (hb.plans r p hp).mono h.code) .inr, hb.code.trans h.code⟩
  rcases h3 a st hst i hi with ⟨st₀, hs, hi⟩ | ⟨_, h⟩
  · exact Nat.lt_of_lt_of_le (hb.below a st₀ hs i hi) h1
  · exact Nat.lt_of_lt_of_le h h1

omit [Host] in
theorem core_setWaiter {w : World} {i j : Nat} {x : Option Waiter} : ((w.setWaiter i x).ints j).core = (w.ints j).core := by
  simp only [World.setWaiter, World.setInt]
  split
  · next h => subst h; rfl
  · rfl

omit [Host] in
theorem ints_setInt {w : World} {i j : Nat} {x : Intention} (h : j ≠ i) : (w.setInt i x).ints j = w.ints j := by
  simp [World.setInt, h]

/-- Intentions that existed at the start do not change, except for their waiters. -/
theorem Prim.core {s s' : QSt World} (hb : Base w₀ s.w) (h : Prim w₀ s s') {j : Nat} (hj : j < w₀.nint) :
    (s'.w.ints j).core = (s.w.ints j).core := by
  cases h with
  | add => rw [(setBeliefs_ints (a' := 0)).2.2.1]
  | del => rw [(setBeliefs_ints (a' := 0)).2.2.1]
  | plan => rw [(buildPlan_ints (a' := 0)).2.2.1]
  | wake | wait => exact core_setWaiter
  | newInt =>
    have : j ≠ s.w.nint := Nat.ne_of_lt (Nat.lt_of_lt_of_le hj hb.nint)
    exact congrArg Intention.core (ints_setInt (w := s.w) this)
  | fill i _ _ _ _ hi =>
    have : j ≠ i := Nat.ne_of_lt (Nat.lt_of_lt_of_le hj hi)
    exact congrArg Intention.core (ints_setInt (w := s.w) this)
  | _ => rfl

theorem base_stable {w₀ : World} : Stable w₀ fun s => Base w₀ s.w := ⟨fun _ _ h hp => hp.base h, fun _ h => h⟩

/-- An intention that is on no stack stays on none if it is not one of those created
later; it does not change. -/
theorem fresh_stable {w₀ : World} {i : Nat} (hi : i < w₀.nint) :
    Stable w₀ fun s => Base w₀ s.w ∧ (s.w.ints i).core = (w₀.ints i).core ∧
      ∀ a, ∀ st ∈ (s.w.ags a).intentions, i ∉ st where
  prim s s' h hp := by
    refine ⟨hp.base h.1, (hp.core h.1 hi).trans h.2.1, fun a st hst hm => ?_⟩
    rcases hp.stacks.2.2 a st hst i hm with ⟨st₀, hs, hi⟩ | ⟨h', _⟩
    · exact h.2.2 a st₀ hs hi
    · exact absurd hi (Nat.not_lt.2 h')
  base _ h := h.1

theorem Stable.onB (hP : Stable w₀ P) {α : Type} {s : QSt World} {f : BSt → Res BSt α} (h : P s) :
    (s.onB f).Keeps P := by
  unfold QSt.onB
  cases f s.b with
  | ok a b => exact .ok (hP.prim _ _ h (.b s b))
  | err e b => exact .er (hP.prim _ _ h (.b s b))
  | oof => exact .oof

theorem Stable.b (hP : Stable w₀ P) {s : QSt World} (h : P s) (b' : BSt) : P { s with b := b' } :=
  hP.prim _ _ h (.b s b')

omit [Host] in
theorem FSt.le_of_freezeAll {f : Term → FSt → Res FSt Term} (hf : ∀ t m m', (f t m).leaves m' → m.nv ≤ m'.nv) :
    ∀ ts m m', (freezeAll f ts m).leaves m' → m.nv ≤ m'.nv
  | [], m, m', h => by simp [freezeAll] at h; exact h ▸ Nat.le_refl _
  | t :: ts, m, m', h => by
    rw [freezeAll, Res.leaves_bind] at h
    rcases h with ⟨e, h⟩ | ⟨a, m₁, h1, h⟩
    · exact hf _ _ _ (.inr ⟨e, h⟩)
    · rw [Res.leaves_bind] at h
      have h1 := hf _ _ _ (.inl ⟨a, h1⟩)
      rcases h with ⟨e, h⟩ | ⟨a, m₂, h2, h⟩
      · exact Nat.le_trans h1 (FSt.le_of_freezeAll hf _ _ _ (.inr ⟨e, h⟩))
      · simp at h
        exact Nat.le_trans h1 (h ▸ FSt.le_of_freezeAll hf _ _ _ (.inl ⟨a, h2⟩))

theorem freeze_nv_le : ∀ (n : Nat) (sc : Scope) (t : Term) (m m' : FSt), (freeze n sc t m).leaves m' → m.nv ≤ m'.nv
  | 0, _, _, _, _, h => by simp [freeze] at h
  | n + 1, sc, t, m, m', h => by
    have ih := freeze_nv_le n
    have ihL := FSt.le_of_freezeAll (f := freeze n sc) (fun t m m' h => ih sc t m m' h)
    rw [freeze.eq_def] at h
    have lft : ∀ (x : Ev Term), ((Res.lift x m).bind fun t m => freeze n sc t m).leaves m' → m.nv ≤ m'.nv := by
      intro x h
      rw [Res.leaves_bind] at h
      rcases h with ⟨e, h⟩ | ⟨a, m₁, h1, h⟩
      · have := Res.leaves_lift (.inr ⟨e, h⟩); exact this ▸ Nat.le_refl _
      · rw [Res.lift_eq_ok] at h1
        exact h1.2 ▸ ih _ _ _ _ h
    cases t with
    | var x =>
      simp only at h
      split at h
      · simp at h; exact h ▸ Nat.le_refl _
      · split at h
        · exact lft _ h
        · simp at h; subst h; exact Nat.le_succ _
    | wild => simp at h; exact h ▸ Nat.le_refl _
    | bool x => simp at h; exact h ▸ Nat.le_refl _
    | num x => simp at h; exact h ▸ Nat.le_refl _
    | str x => simp at h; exact h ▸ Nat.le_refl _
    | un op t => exact lft _ h
    | bin op l r => exact lft _ h
    | lit f as xs =>
      simp only [Res.leaves_bind] at h
      rcases h with ⟨e, h⟩ | ⟨a, m₁, h1, ⟨e, h⟩ | ⟨a2, m₂, h2, h⟩⟩
      · exact ihL _ _ _ (.inr ⟨e, h⟩)
      · exact Nat.le_trans (ihL _ _ _ (.inl ⟨a, h1⟩)) (ihL _ _ _ (.inr ⟨e, h⟩))
      · simp at h
        exact h ▸ Nat.le_trans (ihL _ _ _ (.inl ⟨a, h1⟩)) (ihL _ _ _ (.inl ⟨a2, h2⟩))
    | cons l r =>
      simp only [Res.leaves_bind] at h
      rcases h with ⟨e, h⟩ | ⟨a, m₁, h1, ⟨e, h⟩ | ⟨a2, m₂, h2, h⟩⟩
      · exact ih _ _ _ _ (.inr ⟨e, h⟩)
      · exact Nat.le_trans (ih _ _ _ _ (.inl ⟨a, h1⟩)) (ih _ _ _ _ (.inr ⟨e, h⟩))
      · simp at h
        exact h ▸ Nat.le_trans (ih _ _ _ _ (.inl ⟨a, h1⟩)) (ih _ _ _ _ (.inl ⟨a2, h2⟩))
    | tup xs =>
      simp only [Res.leaves_bind] at h
      rcases h with ⟨e, h⟩ | ⟨a, m₁, h1, h⟩
      · exact ihL _ _ _ (.inr ⟨e, h⟩)
      · simp at h
        exact h ▸ ihL _ _ _ (.inl ⟨a, h1⟩)

theorem Stable.freeze (hP : Stable w₀ P) {n : Nat} {t : Term} {s : QSt World} (h : P s) :
    (s.freeze n t).Keeps P := by
  unfold QSt.freeze freezeNew
  have := freeze_nv_le n s.b.scope t ⟨fun _ => none, s.nv⟩
  cases hf : Verif.freeze n s.b.scope t ⟨fun _ => none, s.nv⟩ with
  | ok t m => exact .ok (hP.prim _ _ h (.nv s _ (this _ (.inl ⟨_, hf⟩))))
  | err e m => exact .er (hP.prim _ _ h (.nv s _ (this _ (.inr ⟨_, hf⟩))))
  | oof => exact .oof

theorem Stable.freezeL (hP : Stable w₀ P) {n : Nat} {ts : List Term} {s : QSt World} (h : P s) :
    (s.freezeL n ts).Keeps P := by
  unfold QSt.freezeL
  have := FSt.le_of_freezeAll (f := Verif.freeze n s.b.scope) (fun t m m' h => freeze_nv_le n _ t m m' h) ts ⟨fun _ => none, s.nv⟩
  cases hf : freezeAll (Verif.freeze n s.b.scope) ts ⟨fun _ => none, s.nv⟩ with
  | ok t m => exact .ok (hP.prim _ _ h (.nv s _ (this _ (.inl ⟨_, hf⟩))))
  | err e m => exact .er (hP.prim _ _ h (.nv s _ (this _ (.inr ⟨_, hf⟩))))
  | oof => exact .oof

theorem Stable.nest (hP : Stable w₀ P) {α : Type} {s : QSt World} {a i : Nat} {b : BSt}
    {f : QSt World → Res (QSt World) α} (hi : i = w₀.curInt ∨ w₀.nint ≤ i) (h : P s) (hf : ∀ s, P s → (f s).Keeps P) :
    (s.nest a i b f).Keeps P := by
  unfold QSt.nest
  have hc := (hP.base s h).cur
  have h0 : P { s with b := b, w := { s.w with cur := a, curInt := i } } :=
    hP.prim _ _ (hP.prim _ _ h (.b s b)) (.cur _ a i hi)
  have h1 := hf _ h0
  cases hx : f { s with b := b, w := { s.w with cur := a, curInt := i } } with
  | ok x s' => exact .ok (hP.prim _ _ (hP.prim _ _ (h1.of_ok hx) (.b s' s.b)) (.cur _ s.w.cur s.w.curInt hc))
  | err x s' => exact .er (hP.prim _ _ (hP.prim _ _ (h1.of_err hx) (.b s' s.b)) (.cur _ s.w.cur s.w.curInt hc))
  | oof => exact .oof

theorem Stable.as (hP : Stable w₀ P) {α : Type} {s : QSt World} {a i : Nat}
    {f : QSt World → Res (QSt World) α} (hi : i = w₀.curInt ∨ w₀.nint ≤ i) (h : P s) (hf : ∀ s, P s → (f s).Keeps P) :
    (s.as a i f).Keeps P := by
  unfold QSt.as
  have hc := (hP.base s h).cur
  have h0 : P { s with w := { s.w with cur := a, curInt := i } } := hP.prim _ _ h (.cur _ a i hi)
  have h1 := hf _ h0
  cases hx : f { s with w := { s.w with cur := a, curInt := i } } with
  | ok x s' => exact .ok (hP.prim _ _ (h1.of_ok hx) (.cur _ s.w.cur s.w.curInt hc))
  | err x s' => exact .er (hP.prim _ _ (h1.of_err hx) (.cur _ s.w.cur s.w.curInt hc))
  | oof => exact .oof

/-! ## Beliefs -/

theorem addBelief_keeps (hP : Stable w₀ P) {n a : Nat} {t : Term} {s : QSt World} (h : P s) :
    (addBelief n a t s).Keeps P := by
  unfold addBelief
  split
  all_goals first
    | exact .er h
    | skip
  cases hg : grounded n s.b.scope t with
  | err e => exact .er h
  | oof => exact .oof
  | ok g =>
    simp only [Res.lift_ok, Res.bind_ok]
    split
    · exact .ok (hP.prim _ _ h (.add s a _ _ _ (grounded_settled hg)))
    · exact .er h

theorem findBelief_keeps (hP : Stable w₀ P) {n c : Nat} {t : Term} : ∀ (xs : List Term) (s : QSt World), P s →
    (findBelief n c t xs s).Keeps P
  | [], s, h => .ok h
  | x :: xs, s, h => by
    unfold findBelief
    refine .bind (hP.onB (hP.b h _)) fun ok s h => ?_
    split
    · exact .ok h
    · exact .bind (findBelief_keeps hP xs _ (hP.b h _)) fun o s h => .ok h

omit [Host] in
theorem QSt.onB_w {W α : Type} {s s' : QSt W} {f : BSt → Res BSt α} {x : α} (h : s.onB f = .ok x s') :
    f s.b = .ok x s'.b ∧ s' = { s with b := s'.b } := by
  unfold QSt.onB at h
  cases hf : f s.b <;> simp [hf] at h
  obtain ⟨rfl, rfl⟩ := h
  simp

/-- `findBelief` changes bindings only; it removes one element. -/
theorem findBelief_sublist {n c : Nat} {t : Term} : ∀ {xs : List Term} {s s' : QSt World} {o : Option (List Term)},
    findBelief n c t xs s = .ok o s' → s'.w = s.w ∧ ∀ keep, o = some keep → keep.Sublist xs
  | [], s, s', o, h => by
    simp [findBelief] at h
    obtain ⟨rfl, rfl⟩ := h
    simp
  | x :: xs, s, s', o, h => by
    rw [findBelief, Res.bind_eq_ok] at h
    obtain ⟨ok, s₁, h1, h⟩ := h
    have hw : s₁.w = s.w := by rw [(QSt.onB_w h1).2]
    split at h
    · simp at h
      obtain ⟨rfl, rfl⟩ := h
      exact ⟨hw, by simp⟩
    · rw [Res.bind_eq_ok] at h
      obtain ⟨o', s₂, h2, h⟩ := h
      simp at h
      obtain ⟨rfl, rfl⟩ := h
      have ih := findBelief_sublist h2
      refine ⟨ih.1.trans hw, fun keep hk => ?_⟩
      rw [Option.map_eq_some_iff] at hk
      obtain ⟨ys, hy, rfl⟩ := hk
      exact (ih.2 ys hy).cons_cons x

theorem removeBelief_keeps (hP : Stable w₀ P) {n a : Nat} {t : Term} {s : QSt World} (h : P s) :
    (removeBelief n a t s).Keeps P := by
  unfold removeBelief
  refine .bind (.lift h) fun t s h => ?_
  split
  · refine .bind' (findBelief_keeps hP _ _ (hP.b h _)) fun o s₁ h1 h => ?_
    have hs := findBelief_sublist h1
    cases o with
    | some keep =>
      refine .ok (hP.prim _ _ h (.del s₁ a _ keep ?_))
      rw [hs.1]
      exact hs.2 keep rfl
    | none => exact .ok h
  · exact .er h

theorem testBelief_keeps (hP : Stable w₀ P) {n a i : Nat} {rec : Rec} (hr : RecStable rec) {t : Term} {s : QSt World}
    (hi : i = w₀.curInt ∨ w₀.nint ≤ i) (h : P s) : (testBelief n rec a i t s).Keeps P := by
  unfold testBelief
  refine .bind (.lift h) fun t s h => ?_
  split
  · exact hP.as hi h fun s h => .onNext (hr hP _ s h) (fun _ s h => .ok h) fun s h => .ok h
  · exact .er h

/-! ## Events -/

theorem wake_keeps (hP : Stable w₀ P) {n a : Nat} {tr : Trigger} {gt : GoalType} {frozen : Term}
    {evs : List (Nat × Event)} (hl : w₀.events.length ≤ evs.length) :
    ∀ (sts : List (List Nat)) (s : QSt World), s.w.events = (a, ⟨tr, gt, frozen⟩) :: evs →
      (∀ st ∈ sts, st ∈ (s.w.ags a).intentions) → P s → (wake n tr gt frozen sts s).Keeps P
  | [], s, _, _, h => .ok h
  | [] :: rest, s, he, hm, h => wake_keeps hP hl rest s he (fun st hst => hm st (List.mem_cons_of_mem _ hst)) h
  | (i :: st) :: rest, s, he, hm', h => by
    have hm := fun st hst => hm' st (List.mem_cons_of_mem _ hst)
    unfold wake
    split
    · next ev d hw =>
      split
      · exact wake_keeps hP hl rest s he hm h
      · next hn =>
        have hn : ev.trigger = tr ∧ ev.goalType = gt := by
          constructor
          · exact Decidable.byContradiction fun h => hn (.inl h)
          · exact Decidable.byContradiction fun h => hn (.inr h)
        split
        · next b hu =>
          exact wake_keeps hP hl rest _ he hm (hP.prim _ _ h
            (.wake s i n ev d a frozen b evs st hw (hm' _ List.mem_cons_self) (by rw [hn.1, hn.2]; exact he) hl hu))
        · exact wake_keeps hP hl rest s he hm h
        · exact .er h
        · exact .oof
    · exact wake_keeps hP hl rest s he hm h

theorem callFrozen_keeps (hP : Stable w₀ P) {n a : Nat} {tr : Trigger} {gt : GoalType} {t : Term} {s : QSt World}
    (h : P s) : (callFrozen n a tr gt t s).Keeps P := by
  unfold callFrozen
  refine .bind (hP.freeze h) fun t s h => ?_
  split
  · exact .bind (wake_keeps hP (hP.base _ h).nev _ _ rfl (fun _ h => h) (hP.prim _ _ h (.event s a _))) fun _ s h => .ok h
  · exact .er h

theorem unachieveGo_dropped {n : Nat} {w : World} {f : String} {args : List Term} :
    ∀ (sts : List (List Nat)) {sts' : List (List Nat)}, unachieveGo n w f args sts = .ok sts' → Dropped sts sts'
  | [], _, h => by simp [unachieveGo] at h; subst h; exact .nil
  | [] :: rest, _, h => by
    rw [unachieveGo, Ev.map_eq_ok] at h
    obtain ⟨r, h, rfl⟩ := h
    exact .keep (unachieveGo_dropped rest h)
  | (i :: st) :: rest, _, h => by
    unfold unachieveGo at h
    split at h
    · split at h
      · rw [Ev.bind_eq_ok] at h
        obtain ⟨ok, _, h⟩ := h
        rw [Ev.map_eq_ok] at h
        obtain ⟨r, h, rfl⟩ := h
        split
        · exact .drop (unachieveGo_dropped rest h)
        · exact .keep (unachieveGo_dropped rest h)
      · rw [Ev.map_eq_ok] at h
        obtain ⟨r, h, rfl⟩ := h
        exact .keep (unachieveGo_dropped rest h)
    · simp at h

theorem unachieve_keeps (hP : Stable w₀ P) {n a : Nat} {t : Term} {s : QSt World} (h : P s) :
    (unachieve n a t s).Keeps P := by
  unfold unachieve
  split
  · next f args xs =>
    cases hg : unachieveGo n s.w f args (s.w.ags a).intentions with
    | err e => exact .er h
    | oof => exact .oof
    | ok sts => exact .ok (hP.prim _ _ h (.drop s a sts (unachieveGo_dropped _ hg)))
  · exact .er h

theorem tellHow_keeps (hP : Stable w₀ P) {a : Nat} {t : Term} {s : QSt World} (h : P s) :
    (tellHow a t s).Keeps P := by
  unfold tellHow
  split
  · exact .bind (.lift h) fun src s h => .ok (hP.prim _ _ h (.plan s a src))
  all_goals exact .er h

theorem unplan_keeps (hP : Stable w₀ P) {keep : Plan → Bool} : ∀ (l : List (PlanKey × Nat)) (s : QSt World), P s →
    P { s with w := l.foldl (fun w kr => w.setPlist kr.2 ((w.plists kr.2).filter keep)) s.w }
  | [], _, h => h
  | kr :: l, s, h => unplan_keeps hP l _ (hP.prim _ _ h (.unplan s kr.2 keep))

theorem untellHow_keeps (hP : Stable w₀ P) {a : Nat} {t : Term} {s : QSt World} (h : P s) :
    (untellHow a t s).Keeps P := by
  unfold untellHow
  split
  · exact .ok (unplan_keeps hP _ _ h)
  all_goals exact .er h

theorem askSend_keeps (hP : Stable w₀ P) {n recv : Nat} : ∀ (l : List (List Plan)) (s : QSt World), P s →
    (askSend n recv l s).Keeps P
  | [], s, h => .ok h
  | ps :: rest, s, h => by
    unfold askSend
    split
    · exact askSend_keeps hP rest s h
    · exact .bind (callFrozen_keeps hP (hP.b h _)) fun _ s h =>
        .bind (tellHow_keeps hP (hP.b h _)) fun _ s h => askSend_keeps hP rest s h

theorem askHow_keeps (hP : Stable w₀ P) {n a : Nat} {t : Term} {s : QSt World} (h : P s) :
    (askHow n a t s).Keeps P := by
  unfold askHow
  split
  · refine .bind (.lift h) fun o s h => ?_
    split
    · exact .er h
    · split
      · exact .er h
      · split
        · exact .er h
        · exact askSend_keeps hP _ _ h
    · exact .er h
  · exact .er h

theorem findPlan_keeps (hP : Stable w₀ P) {n : Nat} {rec : Rec} (hr : RecStable rec) {frozen : Term} :
    ∀ (ps : List Plan) (s : QSt World), P s → (findPlan n rec frozen ps s).Keeps P
  | [], s, h => .ok h
  | p :: ps, s, h => by
    unfold findPlan
    exact .onNext (hP.onB h)
      (fun c s h => .onNext (hr hP _ s h) (fun _ s h => .ok h) fun s h => findPlan_keeps hP hr ps _ (hP.b h _))
      fun s h => findPlan_keeps hP hr ps s h

theorem findPlan_mem {n : Nat} {rec : Rec} {frozen : Term} {p : Plan} : ∀ {ps : List Plan} {s s' : QSt World},
    findPlan n rec frozen ps s = .ok (some p) s' → p ∈ ps
  | [], s, s', h => by simp [findPlan] at h
  | q :: ps, s, s', h => by
    unfold findPlan at h
    generalize s.onB (uaStart n q.head frozen) = x at h
    rcases x with ⟨_ | c, s₁⟩ | ⟨e, s₁⟩ | _
    · exact List.mem_cons_of_mem _ (findPlan_mem h)
    · simp only [Res.onNext] at h
      generalize rec (.start q.context) s₁ = y at h
      rcases y with ⟨_ | _, s₂⟩ | ⟨e, s₂⟩ | _
      · exact List.mem_cons_of_mem _ (findPlan_mem h)
      · simp only [Res.ok.injEq, Option.some.injEq] at h
        rw [h.1]; exact List.mem_cons_self
      · cases h
      · cases h
    · cases h
    · cases h

omit [Host] in
theorem attach_pushed {i calling : Nat} : ∀ (sts : List (List Nat)) {sts' : List (List Nat)},
    attach i calling sts = .ok (some sts') →
      ∃ l st r, sts = l ++ (calling :: st) :: r ∧ sts' = l ++ (i :: calling :: st) :: r
  | [], _, h => by simp [attach] at h
  | [] :: _, _, h => by simp [attach] at h
  | (j :: st) :: rest, sts', h => by
    unfold attach at h
    split at h
    · next hj => simp at h; subst h hj; exact ⟨[], st, rest, rfl, rfl⟩
    · rw [Ev.map_eq_ok] at h
      obtain ⟨o, h1, h2⟩ := h
      cases o with
      | none => simp at h2
      | some r =>
        simp at h2; subst h2
        obtain ⟨l, st', r', rfl, rfl⟩ := attach_pushed rest h1
        exact ⟨(j :: st) :: l, st', r', rfl, rfl⟩

theorem startPlan_keeps (hP : Stable w₀ P) {a i calling : Nat} {delayed : Bool} {t frozen : Term} {p : Plan} {b : BSt}
    {s : QSt World} (hi : w₀.nint ≤ i) (hi' : i < s.w.nint) (hf : ∀ a', ∀ st ∈ (s.w.ags a').intentions, i ∉ st)
    (hp : Known w₀ s.w.code p) (hq : (s.w.ints i).queries = []) (hq' : (s.w.ints i).cps = []) (hc : calling = w₀.curInt ∨ w₀.nint ≤ calling) (h : P s) : (startPlan a i calling delayed t frozen p b s).Keeps P := by
  have h1 := hP.prim _ _ h (.fill s i frozen p t b hi hp hq hq')
  unfold startPlan
  simp only
  split
  · exact .ok (hP.prim _ _ h1 (.push _ a i calling _ hi hi' hf hc (.inl rfl)))
  · split
    · next hat => exact .ok (hP.prim _ _ h1 (.push _ a i calling _ hi hi' hf hc (.inr (attach_pushed _ hat))))
    · exact .ok (hP.prim _ _ h1 (.push _ a i calling _ hi hi' hf hc (.inl rfl)))
    · exact .er h1
    · exact .oof

omit [Host] in
theorem QSt.nest_ok {α : Type} {s s' : QSt World} {a i : Nat} {b b' : BSt} {f : QSt World → Res (QSt World) α} {x : α}
    (h : s.nest a i b f = .ok (x, b') s') : ∃ s₁, f { s with b := b, w := { s.w with cur := a, curInt := i } } = .ok x s₁ ∧
      b' = s₁.b ∧ s' = { s₁ with b := s.b, w := { s₁.w with cur := s.w.cur, curInt := s.w.curInt } } := by
  unfold QSt.nest at h
  cases hf : f { s with b := b, w := { s.w with cur := a, curInt := i } } with
  | ok y s₁ => rw [hf] at h; simp at h; exact ⟨s₁, by rw [h.1.1], h.1.2.symm, h.2.symm⟩
  | err e s₁ => rw [hf] at h; simp at h
  | oof => rw [hf] at h; simp at h

theorem callPlans_keeps (hP : Stable w₀ P) {n a : Nat} {rec : Rec} (hr : RecStable rec) {tr : Trigger} {gt : GoalType}
    {t frozen : Term} {calling : Nat} {delayed : Bool} {s : QSt World} (hc : calling = w₀.curInt ∨ w₀.nint ≤ calling) (h : P s) :
    (callPlans n rec a tr gt t frozen calling delayed s).Keeps P := by
  have hb := hP.base s h
  have h1 := hP.prim _ _ h (.newInt s)
  have hF := fresh_stable (w₀ := { s.w.setInt s.w.nint {} with nint := s.w.nint + 1, curInt := s.w.nint })
    (i := s.w.nint) (Nat.lt_succ_self _)
  unfold callPlans
  refine .bind' (hP.nest (.inr hb.nint) h1 fun s h => findPlan_keeps hP hr _ s h) fun ob s' he h => ?_
  split
  · obtain ⟨s₁, h2, _, rfl⟩ := QSt.nest_ok he
    have hk := fun hp => (findPlan_keeps hF hr _ _ hp).of_ok h2
    obtain ⟨hb', hx, hf'⟩ := hk ⟨⟨Nat.le_refl _, Nat.le_refl _, fun a st hst i hi => Nat.lt_succ_of_lt (hb.below a st hst i hi), .inl rfl, fun r _ hp => .inl ⟨r, hp⟩, .refl _⟩, rfl,
      fun a st hst hi => Nat.lt_irrefl _ (hb.below a st hst _ hi)⟩
    have hx : (s₁.w.ints s.w.nint).core = ({} : Intention).core := by simpa [World.setInt] using hx
    have hq := congrArg Intention.queries hx
    have hq' := congrArg Intention.cps hx
    have hm := findPlan_mem h2
    refine startPlan_keeps hP hb.nint hb'.nint hf' ?_ hq hq' hc h
    refine Known.mono ?_ hb'.code
    unfold World.plansFor at hm
    split at hm
    · exact hb.plans _ _ hm
    · simp at hm
  · split
    · exact .er h
    · exact testBelief_keeps hP hr hc h
    · exact .ok h

theorem callBeliefs_keeps (hP : Stable w₀ P) {n a : Nat} {tr : Trigger} {gt : GoalType} {t : Term} {s : QSt World}
    (h : P s) : (callBeliefs n a tr gt t s).Keeps P := by
  unfold callBeliefs
  split
  · exact .bind (addBelief_keeps hP h) fun _ s h => .ok h
  · exact removeBelief_keeps hP h
  · exact .ok h

theorem call_keeps (hP : Stable w₀ P) {n a : Nat} {rec : Rec} (hr : RecStable rec) {tr : Trigger} {gt : GoalType}
    {t : Term} {calling : Nat} {delayed : Bool} {s : QSt World} (hc : calling = w₀.curInt ∨ w₀.nint ≤ calling) (h : P s) :
    (call n rec a tr gt t calling delayed s).Keeps P := by
  unfold call
  refine .bind (callBeliefs_keeps hP h) fun go s h => ?_
  split
  · exact .ok h
  · refine .bind (callFrozen_keeps hP h) fun frozen s h => ?_
    split
    · exact .bind (unachieve_keeps hP h) fun _ s h => .ok h
    · exact .bind (tellHow_keeps hP h) fun _ s h => .ok h
    · exact .bind (askHow_keeps hP h) fun _ s h => .ok h
    · exact .bind (untellHow_keeps hP h) fun _ s h => .ok h
    · exact callPlans_keeps hP hr hc h

theorem callNew_keeps (hP : Stable w₀ P) {n a : Nat} {rec : Rec} (hr : RecStable rec) {tr : Trigger} {gt : GoalType}
    {t : Term} {delayed : Bool} {s : QSt World} (h : P s) : (callNew n rec a tr gt t delayed s).Keeps P := by
  unfold callNew
  have hb := hP.base s h
  exact .bind (hP.nest hb.cur (hP.prim _ _ h (.newInt s)) fun s h => call_keeps hP hr (.inr hb.nint) h) fun _ s h => .ok h

/-! ## Actions -/

theorem unifyThenYield_keeps (hP : Stable w₀ P) {n : Nat} {l r : Term} {s : QSt World} (h : P s) :
    (unifyThenYield n l r s).Keeps P := by
  unfold unifyThenYield
  exact .bind (hP.onB h) fun _ s h => .ok h

theorem itemsGo_keeps (hP : Stable w₀ P) {n c : Nat} {x : Term} : ∀ (k : Nat) (it : Term) (s : QSt World), P s →
    (itemsGo n c x k it s).Keeps P
  | 0, _, _, _ => .oof
  | k + 1, it, s, h => by
    unfold itemsGo
    refine .bind (.lift h) fun o s h => ?_
    split
    · exact .ok h
    · refine .bind (hP.onB (hP.b h _)) fun ok s h => ?_
      split
      · exact .ok h
      · exact itemsGo_keeps hP k _ _ (hP.b h _)

theorem itemsStart_keeps (hP : Stable w₀ P) {n : Nat} {x it : Term} {s : QSt World} (h : P s) :
    (itemsStart n x it s).Keeps P := itemsGo_keeps hP _ _ _ (hP.b h _)

theorem findallGo_keeps (hP : Stable w₀ P) {n : Nat} {rec : Rec} (hr : RecStable rec) {pattern : Term} :
    ∀ (k : Nat) (g : Gen Act ActGen) (memo : VarId → Option VarId) (s : QSt World), P s →
      (findallGo n rec pattern k g memo s).Keeps P
  | 0, _, _, _, _ => .oof
  | k + 1, g, memo, s, h => by
    unfold findallGo
    refine .onNext (hr hP _ s h) (fun g s h => ?_) fun s h => .ok h
    have := freeze_nv_le n s.b.scope pattern ⟨memo, s.nv⟩
    cases hf : Verif.freeze n s.b.scope pattern ⟨memo, s.nv⟩ with
    | ok t m =>
      exact .bind (findallGo_keeps hP hr k g _ _ (hP.prim _ _ h (.nv s _ (this _ (.inl ⟨_, hf⟩))))) fun _ s h => .ok h
    | err e m => exact .er (hP.prim _ _ h (.nv s _ (this _ (.inr ⟨_, hf⟩))))
    | oof => exact .oof

theorem countGo_keeps (hP : Stable w₀ P) {rec : Rec} (hr : RecStable rec) :
    ∀ (k : Nat) (g : Gen Act ActGen) (s : QSt World), P s → (countGo rec k g s).Keeps P
  | 0, _, _, _ => .oof
  | k + 1, g, s, h => by
    unfold countGo
    exact .onNext (hr hP _ s h) (fun g s h => .bind (countGo_keeps hP hr k g s h) fun _ s h => .ok h) fun s h => .ok h

theorem sumGo_keeps (hP : Stable w₀ P) {n : Nat} {rec : Rec} (hr : RecStable rec) {pattern : Term} :
    ∀ (k : Nat) (g : Gen Act ActGen) (total : Rat) (s : QSt World), P s → (sumGo n rec pattern k g total s).Keeps P
  | 0, _, _, _, _ => .oof
  | k + 1, g, total, s, h => by
    unfold sumGo
    exact .onNext (hr hP _ s h) (fun g s h => .bind (.lift h) fun total s h => sumGo_keeps hP hr k g total s h) fun s h => .ok h

theorem stamp_keeps (hP : Stable w₀ P) {n : Nat} {v : Rat × Rat × Rat} {t : Term} {s : QSt World} (h : P s) : (stamp n v t s).Keeps P := by
  unfold stamp
  refine .bind (.lift h) fun x s h => .bind (hP.onB h) fun ok s h => ?_
  split
  · refine .bind (.lift h) fun x s h => .bind (hP.onB h) fun ok s h => ?_
    split
    · exact .bind (.lift h) fun x s h => unifyThenYield_keeps hP h
    · exact .ok h
  · exact .ok h

theorem zipSpecs_keeps (hP : Stable w₀ P) {n : Nat} : ∀ (specs : List Spec) (ts : List Term)
    (memo : VarId → Option VarId) (s : QSt World), P s → (zipSpecs n specs ts memo s).Keeps P
  | [], _, _, _, h => .ok h
  | _ :: _, [], _, _, h => .er h
  | spec :: specs, t :: ts, memo, s, h => by
    unfold zipSpecs
    have := freeze_nv_le n s.b.scope t ⟨memo, s.nv⟩
    cases hf : Verif.freeze n s.b.scope t ⟨memo, s.nv⟩ with
    | ok t m =>
      exact .bind (.lift (hP.prim _ _ h (.nv s _ (this _ (.inl ⟨_, hf⟩))))) fun t s h =>
        .bind (zipSpecs_keeps hP specs ts _ s h) fun _ s h => .ok h
    | err e m => exact .er (hP.prim _ _ h (.nv s _ (this _ (.inr ⟨_, hf⟩))))
    | oof => exact .oof

theorem abolishGo_sublist {n : Nat} {p : Term} : ∀ (xs : List Term) {ys : List Term},
    abolishGo n p xs = .ok ys → ys.Sublist xs
  | [], _, h => by simp [abolishGo] at h; subst h; exact .slnil
  | x :: xs, _, h => by
    unfold abolishGo at h
    split at h
    · rw [Ev.map_eq_ok] at h
      obtain ⟨zs, h, rfl⟩ := h
      have := abolishGo_sublist xs h
      split
      · exact this.cons _
      · exact this.cons_cons _
    · simp at h
    · simp at h

theorem deliver_keeps (hP : Stable w₀ P) {n : Nat} {rec : Rec} (hr : RecStable rec) {tr : Trigger} {gt : GoalType}
    {m : Term} : ∀ (as : List Nat) (s : QSt World), P s → (deliver n rec tr gt m as s).Keeps P
  | [], _, h => .ok h
  | a :: as, s, h => by
    unfold deliver
    exact .bind (callNew_keeps hP hr h) fun _ s h => deliver_keeps hP hr as s h

theorem broadcast_keeps (hP : Stable w₀ P) {n : Nat} {rec : Rec} (hr : RecStable rec) {t : Term} {s : QSt World} (h : P s) :
    (broadcast n rec t s).Keeps P := by
  unfold broadcast
  refine .bind (.lift h) fun ilf s h => ?_
  split
  · split
    · exact .er h
    · exact .bind (.lift h) fun m s h => .bind (hP.freeze h) fun m s h => .bind (.lift h) fun m s h =>
        .bind (deliver_keeps hP hr _ s h) fun _ s h => .ok h
  · exact .ok h

theorem send_keeps (hP : Stable w₀ P) {n : Nat} {rec : Rec} (hr : RecStable rec) {t : Term} {s : QSt World} (h : P s) :
    (send n rec t s).Keeps P := by
  unfold send
  refine .bind (.lift h) fun r s h => .bind (.lift h) fun rs s h => .bind (.lift h) fun rcv s h =>
    .bind (.lift h) fun ilf s h => ?_
  split
  · split
    · exact .er h
    · refine .bind (.lift h) fun m s h => .bind ?_ fun m s h => .bind (.lift h) fun m s h =>
        .bind (deliver_keeps hP hr _ s h) fun _ s h => .ok h
      split
      · exact .ok h
      · exact hP.freeze h
  · exact .ok h

theorem waitAct_keeps (hP : Stable w₀ P) {n : Nat} {t : Term} {s : QSt World} (h : P s) : (waitAct n t s).Keeps P := by
  unfold waitAct
  refine .bind (.lift h) fun args s h => .bind (.lift h) fun em s h => .bind (.lift h) fun millis s h =>
    .bind (.lift h) fun ev s h => ?_
  split
  · exact .ok (hP.prim _ _ h (.wait s _))
  · exact .ok (hP.prim _ _ (hP.prim _ _ h (.tick s)) (.wait _ _))

theorem actNext_keeps (hP : Stable w₀ P) {n : Nat} {rec : Rec} (hr : RecStable rec) {g : ActGen} {s : QSt World} (h : P s) :
    (actNext n rec g s).Keeps P := by
  unfold actNext
  split
  · exact .ok h
  · exact itemsGo_keeps hP _ _ _ (hP.b h _)
  · exact broadcast_keeps hP hr h
  · exact send_keeps hP hr h
  · exact .bind (hP.freezeL h) fun _ s h => .ok (hP.prim _ _ h (.out _ _ rfl))
  · exact .bind (hP.freezeL h) fun _ s h => .ok (hP.prim _ _ h (.out _ _ rfl))
  · exact .ok h
  · exact .bind (.lift h) fun x s h => unifyThenYield_keeps hP h
  · unfold concat
    exact .bind (.lift h) fun x s h => .bind (.lift h) fun x s h => unifyThenYield_keeps hP h
  · exact .bind (.lift h) fun x s h => .bind (.lift h) fun x s h => .bind (.lift h) fun x s h => itemsStart_keeps hP h
  · exact .bind (.lift h) fun x s h => .bind (.lift h) fun x s h => itemsStart_keeps hP h
  · exact .bind (.lift h) fun x s h => .bind (.lift h) fun x s h => itemsStart_keeps hP h
  · exact .bind (.lift h) fun x s h => .ok h
  · exact .bind (.lift h) fun x s h => .bind (.lift h) fun x s h => .bind (findallGo_keeps hP hr _ _ _ s h) fun _ s h =>
      .bind (.lift h) fun x s h => unifyThenYield_keeps hP h
  · exact .bind (.lift h) fun x s h => .bind (countGo_keeps hP hr _ _ _ (hP.b h _)) fun _ s h =>
      .bind (.lift (hP.b h _)) fun x s h => unifyThenYield_keeps hP h
  · exact .bind (.lift h) fun x s h => .bind (.lift h) fun x s h => .bind (sumGo_keeps hP hr _ _ _ s h) fun _ s h =>
      .bind (.lift h) fun x s h => unifyThenYield_keeps hP h
  · exact stamp_keeps hP h
  · exact stamp_keeps hP h
  · refine .bind (.lift h) fun p s h => .bind (hP.freeze h) fun p s h => ?_
    split
    · next f as xs =>
      cases hg : abolishGo n (.lit f as xs) (s.w.beliefs s.w.cur (f, as.length)) with
      | err e => exact .er h
      | oof => exact .oof
      | ok keep => exact .ok (hP.prim _ _ h (.del s _ _ _ (abolishGo_sublist _ hg)))
    · exact .er h
  · exact waitAct_keeps hP h
  · exact .ok (hP.b h _)
  · exact .bind (zipSpecs_keeps hP _ _ _ s h) fun _ s h => .bind (.lift h) fun x s h => .bind (.lift h) fun x s h =>
      unifyThenYield_keeps hP h
  · exact .bind (zipSpecs_keeps hP _ _ _ s h) fun _ s h => .bind (.lift h) fun x s h => .ok h
  · exact .bind (zipSpecs_keeps hP _ _ _ s h) fun _ s h => .bind (.lift h) fun x s h => .ok h

/-! ## Queries -/

theorem gstep_keeps (hP : Stable w₀ P) {n : Nat} {rec : Rec} (hr : RecStable rec) {g : Gen Act ActGen} {s : QSt World}
    (h : P s) : (gstep n rec g s).Keeps P := by
  unfold gstep
  split
  · exact .ok h
  · exact .ok h
  · exact .ok h
  · exact hr hP _ _ h
  · exact .onNext (actNext_keeps hP hr h) (fun _ s h => .ok h) fun s h => .ok h
  · refine .bind (.lift h) fun t s h => ?_
    split
    · exact .ok h
    · exact .ok h
    · exact hr hP _ _ h
    · exact .er h
  · split
    · exact .er h
    · split
      · exact hr hP _ _ (hP.b h _)
      · exact .onNext (hP.onB h) (fun _ s h => .ok h) fun s h => hr hP _ _ h
  · exact hr hP _ _ (hP.b h _)
  · exact .ok h
  · next c t rule rest =>
    refine .bind (hP.onB (hP.prim _ _ (hP.b h _) (.nv _ _ (Nat.le_add_right _ _)))) fun ok s h => ?_
    split
    · exact hr hP _ _ h
    · exact hr hP _ _ (hP.b h _)
  · exact .onNext (hr hP _ _ h) (fun _ s h => .ok h) fun s h => hr hP _ _ (hP.b h _)
  · exact hr hP _ _ h
  · exact .onNext (hr hP _ _ h) (fun _ s h => hr hP _ _ h) fun s h => .ok h
  · exact .onNext (hr hP _ _ h) (fun _ s h => .ok h) fun s h => hr hP _ _ h
  · exact hr hP _ _ h
  · exact .onNext (hr hP _ _ h) (fun _ s h => .ok h) fun s h => hr hP _ _ h
  · exact .onNext (hr hP _ _ (hP.b h _)) (fun _ s h => .ok (hP.b h _)) fun s h => .ok (hP.b h _)
  · exact .onNext (hP.onB h) (fun _ s h => .ok h) fun s h => .ok h
  · exact .ok (hP.b h _)

theorem gnext_keeps : ∀ n, RecStable (gnext n)
  | 0, _, _, _, _, _, _ => .oof
  | n + 1, _, _, hP, _, _, h => gstep_keeps hP (gnext_keeps n) h

end

end Verif
