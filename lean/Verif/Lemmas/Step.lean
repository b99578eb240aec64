import Verif.Lemmas.Keeps
import Verif.Spec.Step

/-!
# What a step does
-/

namespace Verif

theorem Suspended.mono {w : World} {k k' : Nat} {sts : List (List Nat)} (h : Suspended w k sts k') {w' : World}
    (hc : w'.clock = w.clock) (hi : ∀ i, (w'.ints i).waiter = (w.ints i).waiter) : Suspended w' k sts k' := by
  induction h with
  | nil => exact .nil
  | empty _ ih => exact .empty ih
  | event h1 _ ih => exact .event ((hi _).trans h1) ih
  | early h1 h2 _ ih => exact .early ((hi _).trans h1) (by rw [hc]; exact h2) ih

theorem Suspended.le {w : World} {k k' : Nat} {sts : List (List Nat)} (h : Suspended w k sts k') : k ≤ k' := by
  induction h with
  | nil => exact Nat.le_refl _
  | empty _ ih | event _ _ ih => exact ih
  | early _ _ _ ih => exact Nat.le_of_succ_le ih

theorem Suspended.append {w : World} {sts' : List (List Nat)} {k₁ k₂ : Nat} (h' : Suspended w k₁ sts' k₂) :
    ∀ {sts : List (List Nat)} {k : Nat}, Suspended w k sts k₁ → Suspended w k (sts ++ sts') k₂ := by
  intro sts k h
  induction h with
  | nil => exact h'
  | empty _ ih => exact .empty (ih h')
  | event h1 _ ih => exact .event h1 (ih h')
  | early h1 h2 _ ih => exact .early h1 h2 (ih h')

theorem Suspended.empties {w : World} {k k' : Nat} : ∀ {sts : List (List Nat)},
    Suspended w k sts k' ↔ Suspended w k (sts.dropWhile (·.isEmpty)) k'
  | [] => Iff.rfl
  | [] :: sts => by
    rw [List.dropWhile_cons_of_pos (by rfl), ← Suspended.empties]
    exact ⟨fun h => by cases h; assumption, .empty⟩
  | (i :: st) :: sts => by rw [List.dropWhile_cons_of_neg (by simp)]

theorem Suspended.unique {w : World} {k k₁ k₂ : Nat} {sts : List (List Nat)} (h : Suspended w k sts k₁) :
    Suspended w k sts k₂ → k₁ = k₂ := by
  induction h with
  | nil => intro h; cases h; rfl
  | empty _ ih => intro h; cases h with | empty h => exact ih h
  | event h _ ih =>
    intro h3
    cases h3 with
    | event _ h' => exact ih h'
    | early h' => simp [h] at h'
  | early h _ _ ih =>
    intro h3
    cases h3 with
    | event h' => simp [h] at h'
    | early _ _ h' => exact ih h'

/-- A stack that is ready is not suspended. -/
theorem Suspended.notReady {w : World} {k k' k₁ : Nat} {pre post : List (List Nat)} {i : Nat} {st : List Nat}
    (h : Suspended w k (pre ++ (i :: st) :: post) k') (hp : Suspended w k pre k₁) (hr : Ready w k₁ i) : False := by
  induction hp with
  | nil =>
    cases h with
    | event h1 _ => rcases hr with hr | ⟨e, d, hr, _⟩ <;> simp [h1] at hr
    | early h1 h2 _ =>
      rcases hr with hr | ⟨e, d, hr, h3⟩
      · simp [h1] at hr
      · simp [h1] at hr
        exact Rat.not_lt.2 h2 (hr.2 ▸ h3)
  | empty _ ih => cases h with | empty h => exact ih h hr
  | event h1 _ ih =>
    cases h with
    | event _ h => exact ih h hr
    | early h2 => simp [h1] at h2
  | early h1 _ _ ih =>
    cases h with
    | event h2 => simp [h1] at h2
    | early _ _ h => exact ih h hr

/-- What `pick` finds. -/
def PickOut (sts : List (List Nat)) (m : Nat) (w : World) : Option (Nat × Nat) × World → Prop
  | (none, w') => Suspended w w.ticks sts w'.ticks ∧ w' = { w with ticks := w'.ticks }
  | (some (m', i), w') => ∃ pre st post k, sts = pre ++ (i :: st) :: post ∧ m' = m + pre.length ∧
      Suspended w w.ticks pre k ∧ Chosen1 w k i w'

theorem PickOut.cons {st : List Nat} {sts : List (List Nat)} {m : Nat} {w w₁ : World}
    (hs : ∀ {sts k}, Suspended w₁ w₁.ticks sts k → Suspended w w.ticks (st :: sts) k)
    (he : ∀ k, ({ w₁ with ticks := k } : World) = { w with ticks := k }) :
    ∀ {x : Option (Nat × Nat) × World}, PickOut sts (m + 1) w₁ x → PickOut (st :: sts) m w x
  | (none, w'), h => ⟨hs h.1, h.2.trans (he _)⟩
  | (some (m', i), w'), h => by
    obtain ⟨pre, st', post, k, rfl, rfl, h1, h2⟩ := h
    refine ⟨st :: pre, st', post, k, rfl, by simp only [List.length_cons]; omega, hs h1, ?_⟩
    have hi : w₁.ints = w.ints := (World.mk.inj (he 0)).2.2.2.2.2.2.2.1
    have hc : w₁.clock = w.clock := (World.mk.inj (he 0)).2.2.2.2.2.2.2.2.2.2.1
    cases h2 with
    | free h => rw [he]; exact .free (hi ▸ h)
    | late h h' => rw [he]; exact .late (hi ▸ h) (hc ▸ h')

theorem pick_spec : ∀ (sts : List (List Nat)) (m : Nat) (w : World), PickOut sts m w (pick m sts w)
  | [], m, w => ⟨.nil, rfl⟩
  | [] :: sts, m, w => (pick_spec sts (m + 1) w).cons .empty fun _ => rfl
  | (i :: st) :: sts, m, w => by
    unfold pick
    split
    · next hw => exact ⟨[], st, sts, w.ticks, rfl, rfl, .nil, .free hw⟩
    · next e hw => exact (pick_spec sts (m + 1) w).cons (.event hw) fun _ => rfl
    · next e d hw =>
      change PickOut _ _ _ (if d < w.clock w.ticks then _ else _)
      split
      · next hd =>
        exact ⟨[], st, sts, w.ticks, rfl, rfl, .nil, .late hw hd⟩
      · next hd =>
        exact PickOut.cons (w₁ := { w with ticks := w.ticks + 1 })
          (fun h => .early hw (Rat.not_lt.1 hd) (h.mono rfl fun _ => rfl)) (fun _ => rfl) (pick_spec sts (m + 1) _)

section
variable [Host]

/-- The two cases of a step. -/
theorem step_spec (n a : Nat) (s : QSt World) :
    (∃ k, Suspended s.w s.w.ticks (s.w.ags a).intentions k ∧
      step n a s = .ok false { s with w := { s.w.setStacks a ((s.w.ags a).intentions.dropWhile (·.isEmpty)) with ticks := k } }) ∨
    ∃ pre i st post k w₁, (s.w.ags a).intentions.dropWhile (·.isEmpty) = pre ++ (i :: st) :: post ∧
      Suspended s.w s.w.ticks pre k ∧
      Chosen1 (s.w.setStacks a ((s.w.ags a).intentions.dropWhile (·.isEmpty))) k i w₁ ∧
      ((s.w.ints i).instr = none ∧ step n a s = finish n a pre.length i { s with w := w₁ } ∨
       ∃ pc, (s.w.ints i).instr = some pc ∧ step n a s = exec n a i pc { s with w := w₁ }) := by
  have := pick_spec ((s.w.ags a).intentions.dropWhile (·.isEmpty)) 0
    (s.w.setStacks a ((s.w.ags a).intentions.dropWhile (·.isEmpty)))
  unfold step
  simp only
  generalize pick 0 _ _ = x at this
  match x with
  | (none, w') =>
    refine .inl ⟨w'.ticks, Suspended.empties.2 (this.1.mono (w' := s.w) rfl fun _ => rfl), ?_⟩
    simp only
    rw [this.2]
  | (some (m', i), w') =>
    obtain ⟨pre, st, post, k, h1, h2, h3, h4⟩ := this
    refine .inr ⟨pre, i, st, post, k, w', h1, h3.mono (w' := s.w) rfl fun _ => rfl, h4, ?_⟩
    have hi : (w'.ints i).instr = (s.w.ints i).instr := by
      cases h4 with
      | free => rfl
      | late => simp [World.setWaiter, World.setInt, World.setStacks, World.setAg]
    simp only
    rw [hi]
    cases hp : (s.w.ints i).instr with
    | none => left; simp [h2]
    | some pc => right; exact ⟨pc, rfl, rfl⟩

/-- A predicate kept by the atomic changes and by running intention `i`. -/
structure RunStable (w₀ : World) (i : Nat) (P : QSt World → Prop) : Prop extends Stable w₀ P where
  run : ∀ s (x : Intention), P s → x.instr = (s.w.ints i).instr → x.headTerm = (s.w.ints i).headTerm → x.callingTerm = (s.w.ints i).callingTerm →
    x.waiter = (s.w.ints i).waiter → P { s with w := s.w.setInt i x }

variable {w₀ : World} {P : QSt World → Prop} {i : Nat}

theorem runF_keeps (hP : RunStable w₀ i P) (hc : w₀.curInt = i) {n a : Nat} {f : InstrF} {s : QSt World} (h : P s) :
    (runF n a i f s).Keeps P := by
  have hS := hP.toStable
  have hcall : ∀ tr gt t d, (call n (gnext n) a tr gt t i d s).Keeps P :=
    fun tr gt t d => call_keeps hS (gnext_keeps n) (.inl hc.symm) h
  unfold runF
  split
  · exact .ok h
  · exact hcall _ _ _ _
  · exact hcall _ _ _ _
  · exact hcall _ _ _ _
  · exact hcall _ _ _ _
  · exact hcall _ _ _ _
  · exact .ok (hP.run _ _ h rfl rfl rfl rfl)
  · split
    · exact .er h
    · next g rest hq =>
      have := gnext_keeps n hS g s h
      split
      · next hx => exact .ok (hP.run _ _ (this.of_ok hx) rfl rfl rfl rfl)
      · next hx => exact .ok (hP.run _ _ (this.of_ok hx) rfl rfl rfl rfl)
      · next hx => exact .er (hP.run _ _ (this.of_err hx) rfl rfl rfl rfl)
      · exact .oof
  · split
    · exact .er h
    · exact .ok (hP.run _ _ h rfl rfl rfl rfl)
  · exact .ok (hP.run { s with b := s.b.mark } _ (hS.b h _) rfl rfl rfl rfl)
  · split
    · exact .er h
    · exact .ok (hP.run { s with b := reroll s.b _ } _ (hS.b h _) rfl rfl rfl rfl)

theorem runI_keeps (hP : RunStable w₀ i P) (hc : w₀.curInt = i) {n a : Nat} {f : InstrF} {s : QSt World}
    (h : P { s with w := { s.w with cur := a, curInt := i } }) : (runI n a i f s).Keeps P := by
  have h0 := runF_keeps hP hc (n := n) (a := a) (f := f) (hP.toStable.b h (s.w.ints i).b)
  unfold runI
  split
  · next s' hx => exact .ok (hP.run { s' with b := s.b } _ (hP.toStable.b (h0.of_ok hx) _) rfl rfl rfl rfl)
  · next s' hx => exact .er (hP.run { s' with b := s.b } _ (hP.toStable.b (h0.of_err hx) _) rfl rfl rfl rfl)
  · exact .oof

theorem exec_keeps (hP : RunStable w₀ i P) (hc : w₀.curInt = i) {n a pc : Nat} {s : QSt World}
    (hj : ∀ s pc, P s → P { s with w := s.w.modInt i fun x => { x with instr := pc } })
    (h : P { s with w := { s.w with cur := a, curInt := i } }) : (exec n a i pc s).Keeps P := by
  have h0 := runI_keeps hP hc (n := n) (a := a) (f := (s.w.code.instr pc).f) h
  unfold exec
  simp only
  split
  · exact .oof
  · next hx => exact .er (h0.of_err hx)
  · next s' hx => exact .ok (hj s' _ (h0.of_ok hx))
  · next s' hx =>
    split
    · exact .ok (hj s' _ (h0.of_ok hx))
    · exact .er (hj s' _ (h0.of_ok hx))

/-! ## What does not change -/

theorem Prim.clock {s s' : QSt World} (h : Prim w₀ s s') : s.w.ticks ≤ s'.w.ticks ∧ s'.w.clock = s.w.clock := by
  cases h with
  | add | del => unfold World.setBeliefs; split <;> exact ⟨Nat.le_refl _, rfl⟩
  | plan => unfold buildPlan World.addPlan; dsimp only; split <;> exact ⟨Nat.le_refl _, rfl⟩
  | tick => exact ⟨Nat.le_succ _, rfl⟩
  | _ => exact ⟨Nat.le_refl _, rfl⟩

/-! ## Stacks -/

omit [Host] in
theorem Dropped.sublist {sts sts' : List (List Nat)} (h : Dropped sts sts') : sts'.flatten.Sublist sts.flatten := by
  induction h with
  | nil => exact .slnil
  | keep _ ih => exact (List.Sublist.refl _).append ih
  | drop _ ih => exact List.Sublist.cons _ ((List.Sublist.refl _).append ih)

omit [Host] in
theorem Pushed.perm {i j : Nat} {sts sts' : List (List Nat)} (h : Pushed i j sts sts') : sts'.flatten.Perm (i :: sts.flatten) := by
  rcases h with rfl | ⟨l, st, r, rfl, rfl⟩
  · simp only [List.flatten_append, List.flatten_singleton]
    exact List.perm_append_singleton _ _
  · simp only [List.flatten_append, List.flatten_cons, List.cons_append]
    exact List.perm_middle

omit [Host] in
/-- The intentions on the stacks of `a` become fewer. -/
theorem StacksOK.shrink {w : World} (hw : StacksOK w) {a : Nat} {sts : List (List Nat)}
    (h : sts.flatten.Sublist (w.ags a).intentions.flatten) : StacksOK (w.setStacks a sts) where
  below a' st hst i hi := by
    by_cases ha : a' = a
    · subst ha
      rw [setStacks_self] at hst
      have := h.subset (List.mem_flatten.2 ⟨st, hst, hi⟩)
      obtain ⟨st₀, h0, h1⟩ := List.mem_flatten.1 this
      exact hw.below a' st₀ h0 i h1
    · rw [setStacks_other ha] at hst
      exact hw.below a' st hst i hi
  once a' := by
    by_cases ha : a' = a
    · subst ha
      rw [setStacks_self]
      exact (hw.once a').sublist h
    · rw [setStacks_other ha]
      exact hw.once a'
  apart a₁ a₂ i hne h1 h2 := by
    have up : ∀ {a'}, i ∈ ((w.setStacks a sts).ags a').intentions.flatten → i ∈ (w.ags a').intentions.flatten := by
      intro a' h'
      by_cases ha : a' = a
      · subst ha
        rw [setStacks_self] at h'
        exact h.subset h'
      · rwa [setStacks_other ha] at h'
    exact hw.apart a₁ a₂ i hne (up h1) (up h2)

omit [Host] in
theorem StacksOK.push {w : World} (hw : StacksOK w) {a i j : Nat} {sts : List (List Nat)} (hi : i < w.nint)
    (hf : ∀ a', ∀ st ∈ (w.ags a').intentions, i ∉ st) (h : Pushed i j (w.ags a).intentions sts) : StacksOK (w.setStacks a sts) where
  below a' st hst k hk := by
    by_cases ha : a' = a
    · subst ha
      rw [setStacks_self] at hst
      rcases h.mem hst k hk with rfl | ⟨st₀, h0, h1⟩
      · exact hi
      · exact hw.below a' st₀ h0 k h1
    · rw [setStacks_other ha] at hst
      exact hw.below a' st hst k hk
  once a' := by
    by_cases ha : a' = a
    · subst ha
      rw [setStacks_self]
      refine h.perm.nodup_iff.2 (List.nodup_cons.2 ⟨fun hm => ?_, hw.once a'⟩)
      obtain ⟨st, h1, h2⟩ := List.mem_flatten.1 hm
      exact hf _ st h1 h2
    · rw [setStacks_other ha]
      exact hw.once a'
  apart a₁ a₂ k hne h1 h2 := by
    have up : ∀ {a'}, k ∈ ((w.setStacks a sts).ags a').intentions.flatten →
        k ∈ (w.ags a').intentions.flatten ∨ k = i ∧ a' = a := by
      intro a' h'
      by_cases ha : a' = a
      · subst ha
        rw [setStacks_self] at h'
        rcases List.mem_cons.1 (h.perm.subset h') with h | h
        · exact .inr ⟨h, rfl⟩
        · exact .inl h
      · rw [setStacks_other ha] at h'
        exact .inl h'
    have nf : ∀ a', i ∉ (w.ags a').intentions.flatten := fun a' hm => by
      obtain ⟨st, h1, h2⟩ := List.mem_flatten.1 hm
      exact hf _ st h1 h2
    rcases up h1 with h1 | ⟨rfl, h1⟩ <;> rcases up h2 with h2 | ⟨h3, h2⟩
    · exact hw.apart a₁ a₂ k hne h1 h2
    · exact nf _ (h3 ▸ h1)
    · exact nf _ h2
    · exact hne (h1.trans h2.symm)

omit [Host] in
theorem StacksOK.congr {w w' : World} (hw : StacksOK w) (hn : w.nint ≤ w'.nint)
    (ha : ∀ a, (w'.ags a).intentions = (w.ags a).intentions) : StacksOK w' where
  below a st hst i hi := Nat.lt_of_lt_of_le (hw.below a st (ha a ▸ hst) i hi) hn
  once a := ha a ▸ hw.once a
  apart a a' i := by rw [ha, ha]; exact hw.apart a a' i

theorem Prim.stacksOK {s s' : QSt World} (h : Prim w₀ s s') (hw : StacksOK s.w) : StacksOK s'.w := by
  cases h with
  | add => exact hw.congr (Nat.le_of_eq (setBeliefs_ints (a' := 0)).1.symm) fun _ => setBeliefs_ints.2.2.2
  | del => exact hw.congr (Nat.le_of_eq (setBeliefs_ints (a' := 0)).1.symm) fun _ => setBeliefs_ints.2.2.2
  | plan => exact hw.congr (Nat.le_of_eq (buildPlan_ints (a' := 0)).1.symm) fun _ => buildPlan_ints.2.2.2
  | newInt => exact hw.congr (Nat.le_succ _) fun _ => rfl
  | drop a sts hd => exact hw.shrink hd.sublist
  | push a i j sts _ h2 h3 _ hp => exact hw.push h2 h3 hp
  | _ => exact hw.congr (Nat.le_refl _) fun _ => rfl

/-! ## Completed plans -/

omit [Host] in
theorem getElem_pre {α : Type} {pre post : List α} {x : α} : (pre ++ x :: post)[pre.length]? = some x := by simp

omit [Host] in
theorem set_pre {α : Type} {pre post : List α} {x y : α} : (pre ++ x :: post).set pre.length y = pre ++ y :: post := by simp

omit [Host] in
theorem flatten_erase_nil : ∀ (sts : List (List Nat)), (sts.erase []).flatten = sts.flatten
  | [] => rfl
  | [] :: sts => by simp
  | (i :: st) :: sts => by
    rw [List.erase_cons_tail (by simp), List.flatten_cons, List.flatten_cons, flatten_erase_nil]

/-- The top of a stack has completed: it is popped; then its goal is handed to the
intention below. -/
theorem finish_spec {n a i : Nat} {s s' : QSt World} {pre post : List (List Nat)} {st : List Nat}
    (hs : (s.w.ags a).intentions = pre ++ (i :: st) :: post) (h : (finish n a pre.length i s).leaves s') :
    (st = [] ∧ finish n a pre.length i s = .ok true s' ∧ s' = { s with w := s.w.setStacks a ((pre ++ [] :: post).erase []) }) ∨
    ∃ j st', st = j :: st' ∧
      (((s.w.ints i).callingTerm = none ∧ finish n a pre.length i s = .ok true s' ∨
        (∃ t, (s.w.ints i).callingTerm = some t) ∧ ∃ e, finish n a pre.length i s = .err e s') ∧
          (∃ nv, s' = { s with nv := nv, w := s.w.setStacks a (pre ++ st :: post) }) ∨
       ∃ t hd frozen m b', (s.w.ints i).callingTerm = some t ∧ (s.w.ints i).headTerm = some hd ∧
        freezeNew n (s.w.ints i).b.scope hd s.nv = .ok frozen m ∧
        s' = { s with nv := m.nv, w := (s.w.setStacks a (pre ++ st :: post)).modInt j fun x => { x with b := b' } } ∧
        ((unify n t frozen (s.w.ints j).b = .ok true b' ∧ finish n a pre.length i s = .ok true s') ∨
         (unify n t frozen (s.w.ints j).b = .ok false b' ∧ finish n a pre.length i s = .err (.py "RuntimeError") s') ∨
          ∃ e, unify n t frozen (s.w.ints j).b = .err e b' ∧ finish n a pre.length i s = .err e s')) := by
  unfold finish at h ⊢
  simp only [hs, getElem_pre, set_pre, Option.getD_some, List.tail_cons] at h ⊢
  cases st with
  | nil =>
    left
    simp only [Res.leaves_ok] at h
    subst h
    exact ⟨rfl, rfl, rfl⟩
  | cons j st' =>
    right
    refine ⟨j, st', rfl, ?_⟩
    simp only at h ⊢
    cases hc : (s.w.ints i).callingTerm with
    | none =>
      simp only [World.setStacks, World.setAg, hc, Res.leaves_ok] at h ⊢
      subst h
      exact .inl ⟨.inl ⟨trivial, rfl⟩, s.nv, rfl⟩
    | some t =>
      cases hh : (s.w.ints i).headTerm with
      | none =>
        simp only [World.setStacks, World.setAg, hc, hh, Res.leaves_err] at h ⊢
        subst h
        exact .inl ⟨.inr ⟨⟨t, rfl⟩, _, rfl⟩, s.nv, rfl⟩
      | some hd =>
        simp only [World.setStacks, World.setAg, hc, hh] at h ⊢
        cases hf : freezeNew n (s.w.ints i).b.scope hd s.nv with
        | oof => rw [hf] at h; simp at h
        | err e m =>
          rw [hf] at h
          simp only [Res.leaves_err] at h
          subst h
          exact .inl ⟨.inr ⟨⟨t, rfl⟩, _, rfl⟩, m.nv, rfl⟩
        | ok frozen m =>
          right
          rw [hf] at h
          simp only at h ⊢
          cases hu : unify n t frozen (s.w.ints j).b with
          | oof => rw [hu] at h; simp at h
          | err e b =>
            rw [hu] at h
            simp only [Res.leaves_err] at h
            subst h
            exact ⟨t, hd, frozen, m, b, rfl, rfl, hf, rfl, .inr (.inr ⟨e, hu, rfl⟩)⟩
          | ok r b =>
            rw [hu] at h
            cases r with
            | true =>
              simp only [if_true, Res.leaves_ok] at h
              subst h
              exact ⟨t, hd, frozen, m, b, rfl, rfl, hf, rfl, .inl ⟨hu, rfl⟩⟩
            | false =>
              simp only [Bool.false_eq_true, if_false, Res.leaves_err] at h
              subst h
              exact ⟨t, hd, frozen, m, b, rfl, rfl, hf, rfl, .inr (.inl ⟨hu, rfl⟩)⟩

/-! ## Everything a step leaves alone -/

omit [Host] in
theorem Chosen1.spec {w w₁ : World} {k i : Nat} (h : Chosen1 w k i w₁) :
    w₁.ags = w.ags ∧ w₁.nint = w.nint ∧ w₁.events = w.events ∧ w₁.clock = w.clock ∧ w₁.code = w.code ∧
    (∀ j, j ≠ i → w₁.ints j = w.ints j) ∧ (∀ j, (w₁.ints j).core = (w.ints j).core) ∧ k ≤ w₁.ticks ∧ Ready w k i ∧
    (w₁.ints i).waiter = none := by
  cases h with
  | free h => exact ⟨rfl, rfl, rfl, rfl, rfl, fun _ _ => rfl, fun _ => rfl, Nat.le_refl _, .inl h, h⟩
  | late h h' =>
    exact ⟨rfl, rfl, rfl, rfl, rfl, fun _ hj => ints_setInt hj, fun _ => core_setWaiter, Nat.le_succ _, .inr ⟨_, _, h, h'⟩,
      by simp [World.setWaiter, World.setInt]⟩

/-- What an instruction of intention `i` leaves alone. -/
structure Framed (w₀ : World) (i : Nat) (w : World) : Prop where
  base : Base w₀ w
  stacks : StacksOK w
  others : ∀ j, j < w₀.nint → j ≠ i → (w.ints j).core = (w₀.ints j).core
  ticks : w₀.ticks ≤ w.ticks
  clock : w.clock = w₀.clock
  events : ∃ new, w.events = new ++ w₀.events

omit [Host] in
theorem Framed.refl {w₀ : World} (h : StacksOK w₀) (i : Nat) : Framed w₀ i w₀ :=
  ⟨.refl h.below, h, fun _ _ _ => rfl, Nat.le_refl _, rfl, [], rfl⟩

theorem Prim.events {s s' : QSt World} (h : Prim w₀ s s') : ∃ new, s'.w.events = new ++ s.w.events := by
  cases h with
  | add => exact ⟨[], (setBeliefs_ints (a' := 0)).2.1⟩
  | del => exact ⟨[], (setBeliefs_ints (a' := 0)).2.1⟩
  | plan => exact ⟨[], (buildPlan_ints (a' := 0)).2.1⟩
  | event a ev => exact ⟨[(a, ev)], rfl⟩
  | _ => exact ⟨[], rfl⟩

theorem framed_stable : Stable w₀ fun s => Framed w₀ i s.w where
  base _ h := h.base
  prim s s' h hp := by
    have hc := hp.clock
    obtain ⟨new, hn⟩ := h.events
    obtain ⟨new', hn'⟩ := hp.events
    exact ⟨hp.base h.base, hp.stacksOK h.stacks, fun j hj hi => (hp.core h.base hj).trans (h.others j hj hi),
      Nat.le_trans h.ticks hc.1, hc.2.trans h.clock, new' ++ new, by rw [hn', hn, List.append_assoc]⟩

omit [Host] in
theorem Framed.setInt {w : World} (h : Framed w₀ i w) (x : Intention) : Framed w₀ i (w.setInt i x) :=
  ⟨h.base.setInt i _, h.stacks.congr (Nat.le_refl _) fun _ => rfl,
    fun j hj hi => by rw [ints_setInt hi]; exact h.others j hj hi, h.ticks, h.clock, h.events⟩

/-- The same, and the program counter of `i`. -/
theorem framed_run (hi : i < w₀.nint) :
    RunStable w₀ i fun s => Framed w₀ i s.w ∧ (s.w.ints i).instr = (w₀.ints i).instr where
  base _ h := h.1.base
  prim s s' h hp := by
    refine ⟨framed_stable.prim s s' h.1 hp, ?_⟩
    have := congrArg Intention.instr (hp.core h.1.base hi)
    exact this.trans h.2
  run s x h h1 _ _ _ := ⟨h.1.setInt x, by
    simp only [World.setInt, if_true]
    rw [h1]; exact h.2⟩

theorem exec_framed {n a pc : Nat} {s s' : QSt World} (hw : StacksOK s.w) (hi : i < s.w.nint)
    (hp : (s.w.ints i).instr = some pc) (h : (exec n a i pc s).leaves s') :
    Framed { s.w with cur := a, curInt := i } i s'.w ∧
    ((exec n a i pc s = .ok true s' ∧ ((s'.w.ints i).instr = (s.w.code.instr pc).success ∨
        (s.w.code.instr pc).failure ≠ none ∧ (s'.w.ints i).instr = (s.w.code.instr pc).failure)) ∨
      ∃ e, exec n a i pc s = .err e s' ∧ ((s'.w.ints i).instr = some pc ∨
        (s.w.code.instr pc).failure = none ∧ (s'.w.ints i).instr = none)) := by
  have h0 := runI_keeps (framed_run (w₀ := { s.w with cur := a, curInt := i }) hi) rfl (n := n) (a := a) (f := (s.w.code.instr pc).f) (s := s)
    ⟨.refl (w₀ := { s.w with cur := a, curInt := i }) (hw.congr (Nat.le_refl _) fun _ => rfl) i, rfl⟩
  unfold exec at h ⊢
  simp only at h ⊢
  cases hr : runI n a i (s.w.code.instr pc).f s with
  | oof => simp [hr] at h
  | err e s₁ =>
    have h0 := h0.of_err hr
    simp only [hr, Res.leaves_err] at h ⊢
    subst h
    exact ⟨h0.1, .inr ⟨_, rfl, .inl (h0.2.trans hp)⟩⟩
  | ok b s₁ =>
    have h0 := (h0.of_ok hr).1
    cases b with
    | true =>
      simp only [hr, Res.leaves_ok] at h ⊢
      subst h
      exact ⟨h0.setInt _, .inl ⟨rfl, .inl (by simp [World.modInt, World.setInt])⟩⟩
    | false =>
      cases hf : (s.w.code.instr pc).failure with
      | none =>
        simp only [hr, hf, Res.leaves_err] at h ⊢
        subst h
        exact ⟨h0.setInt _, .inr ⟨_, rfl, .inr ⟨trivial, by simp [World.modInt, World.setInt]⟩⟩⟩
      | some q =>
        simp only [hr, hf, Res.leaves_ok] at h ⊢
        subst h
        exact ⟨h0.setInt _, .inl ⟨rfl, .inr ⟨by simp, by simp [World.modInt, World.setInt]⟩⟩⟩

omit [Host] in
theorem setStacks_congr {w w' : World} (h : w.ags = w'.ags) {a : Nat} {sts : List (List Nat)} (a' : Nat) :
    ((w.setStacks a sts).ags a').intentions = ((w'.setStacks a sts).ags a').intentions := by
  simp [World.setStacks, World.setAg, h]

omit [Host] in
theorem flatten_dropWhile : ∀ (sts : List (List Nat)), (sts.dropWhile (·.isEmpty)).flatten = sts.flatten
  | [] => rfl
  | [] :: sts => by rw [List.dropWhile_cons_of_pos (by rfl), flatten_dropWhile sts]; rfl
  | (i :: st) :: sts => by rw [List.dropWhile_cons_of_neg (by simp)]

omit [Host] in
/-- The chosen stack among all stacks. -/
theorem choose_all {w : World} {k k' i : Nat} {st : List Nat} {sts pre post : List (List Nat)}
    (h : sts.dropWhile (·.isEmpty) = pre ++ (i :: st) :: post) (hp : Suspended w k pre k') :
    ∃ pre', sts = pre' ++ (i :: st) :: post ∧ Suspended w k pre' k' := by
  refine ⟨sts.takeWhile (·.isEmpty) ++ pre, ?_, ?_⟩
  · rw [List.append_assoc, ← h, List.takeWhile_append_dropWhile]
  · refine hp.append ?_
    have : ∀ sts : List (List Nat), Suspended w k (sts.takeWhile (·.isEmpty)) k := by
      intro sts
      induction sts with
      | nil => exact .nil
      | cons st sts ih =>
        rw [List.takeWhile_cons]
        split
        · next he => rw [List.isEmpty_iff.1 he]; exact .empty ih
        · exact .nil
    exact this sts

/-- What a step that runs intention `i` (top of a stack of agent `a`) leaves alone. -/
structure Ran (w : World) (i : Nat) (w' : World) : Prop where
  nint : w.nint ≤ w'.nint
  stacks : StacksOK w'
  others : ∀ j, j < w.nint → j ≠ i → (w'.ints j).core = (w.ints j).core
  ticks : w.ticks ≤ w'.ticks
  clock : w'.clock = w.clock
  events : ∃ new, w'.events = new ++ w.events

/-- The cases of a step. -/
theorem step_cases {n a : Nat} {s s' : QSt World} (hw : StacksOK s.w) (h : (step n a s).leaves s') :
    (∃ k, Suspended s.w s.w.ticks (s.w.ags a).intentions k ∧ step n a s = .ok false s' ∧
      s' = { s with w := { s.w.setStacks a ((s.w.ags a).intentions.dropWhile (·.isEmpty)) with ticks := k } }) ∨
    ∃ pre i st post k, (s.w.ags a).intentions = pre ++ (i :: st) :: post ∧ Suspended s.w s.w.ticks pre k ∧ Ready s.w k i ∧
      ((∃ pc, (s.w.ints i).instr = some pc ∧ Ran s.w i s'.w ∧
        ((step n a s = .ok true s' ∧ ((s'.w.ints i).instr = (s.w.code.instr pc).success ∨
          (s.w.code.instr pc).failure ≠ none ∧ (s'.w.ints i).instr = (s.w.code.instr pc).failure)) ∨
         ∃ e, step n a s = .err e s' ∧ ((s'.w.ints i).instr = some pc ∨
          (s.w.code.instr pc).failure = none ∧ (s'.w.ints i).instr = none))) ∨
       (s.w.ints i).instr = none ∧ ∃ pre' w₁, (s.w.ags a).intentions.dropWhile (·.isEmpty) = pre' ++ (i :: st) :: post ∧
        Chosen1 (s.w.setStacks a ((s.w.ags a).intentions.dropWhile (·.isEmpty))) k i w₁ ∧
        step n a s = finish n a pre'.length i { s with w := w₁ }) := by
  rcases step_spec n a s with ⟨k, h1, h2⟩ | ⟨pre, i, st, post, k, w₁, h1, h2, h3, h4⟩
  · left
    rw [h2, Res.leaves_ok] at h
    subst h
    exact ⟨k, h1, h2, rfl⟩
  · right
    obtain ⟨pre', h5, h6⟩ := choose_all h1 h2
    obtain ⟨c1, c2, c3, c4, c5, c6, c7, c8, c9, c10⟩ := h3.spec
    refine ⟨pre', i, st, post, k, h5, h6, ?_, ?_⟩
    · exact c9
    rcases h4 with ⟨hn, h4⟩ | ⟨pc, hp, h4⟩
    · exact .inr ⟨hn, pre, w₁, h1, h3, h4⟩
    left
    refine ⟨pc, hp, ?_⟩
    have hw₁ : StacksOK w₁ := StacksOK.congr (hw.shrink (a := a) (sts := (s.w.ags a).intentions.dropWhile (·.isEmpty))
      (by rw [flatten_dropWhile]; exact .refl _)) (Nat.le_of_eq c2.symm) fun _ => by rw [c1]
    have hi : i < w₁.nint := by
      rw [c2]
      exact hw.below a (i :: st) (by rw [h5]; simp) i List.mem_cons_self
    rw [h4] at h ⊢
    have hp₁ : (w₁.ints i).instr = some pc := by
      rw [← hp]
      have := congrArg Intention.instr (c7 i)
      exact this
    obtain ⟨f, hf⟩ := exec_framed (s := { s with w := w₁ }) hw₁ hi hp₁ h
    refine ⟨⟨?_, f.stacks, fun j hj hne => (f.others j (c2 ▸ hj) hne).trans (c7 j), ?_, f.clock.trans c4, ?_⟩, ?_⟩
    · exact Nat.le_trans (Nat.le_of_eq c2.symm) f.base.nint
    · exact Nat.le_trans h2.le (Nat.le_trans c8 f.ticks)
    · obtain ⟨new, hn⟩ := f.events
      exact ⟨new, hn.trans (congrArg _ c3)⟩
    · have : w₁.code = s.w.code := c5
      simp only [this] at hf
      exact hf

omit [Host] in
theorem modInt_core {w : World} {j k : Nat} {b : BSt} :
    ((w.modInt j fun x => { x with b := b }).ints k).core = (if k = j then { w.ints k with b := b } else w.ints k).core := by
  simp only [World.modInt, World.setInt]
  split
  · next h => subst h; rfl
  · rfl

/-- What popping the completed intention `i` from the stack `i :: st` does. -/
structure PoppedI (n : Nat) (s : QSt World) (a i : Nat) (pre : List (List Nat)) (st : List Nat) (post : List (List Nat))
    (s' : QSt World) : Prop where
  nint : s'.w.nint = s.w.nint
  stacks : StacksOK s'.w
  ticks : s.w.ticks ≤ s'.w.ticks
  clock : s'.w.clock = s.w.clock
  events : s'.w.events = s.w.events
  other : ∀ a', a' ≠ a → s'.w.ags a' = s.w.ags a'
  popped : (s'.w.ags a).intentions.filter (!·.isEmpty) = (pre ++ st :: post).filter (!·.isEmpty)
  ints : (∀ j, (s'.w.ints j).core = (s.w.ints j).core) ∨
    ∃ j st' b', st = j :: st' ∧ Returns n s i j b' ∧ ∀ k, (s'.w.ints k).core = (if k = j then { s.w.ints k with b := b' } else s.w.ints k).core
  waiters : ∀ j, j ≠ i → (s'.w.ints j).waiter = (s.w.ints j).waiter

omit [Host] in
theorem filter_erase_nil : ∀ (sts : List (List Nat)), (sts.erase []).filter (!·.isEmpty) = sts.filter (!·.isEmpty)
  | [] => rfl
  | [] :: sts => by simp
  | (i :: st) :: sts => by
    rw [List.erase_cons_tail (by simp), List.filter_cons, List.filter_cons, filter_erase_nil]

omit [Host] in
theorem filter_dropWhile : ∀ (sts : List (List Nat)), (sts.dropWhile (·.isEmpty)).filter (!·.isEmpty) = sts.filter (!·.isEmpty)
  | [] => rfl
  | [] :: sts => by rw [List.dropWhile_cons_of_pos (by rfl), filter_dropWhile sts]; rfl
  | (i :: st) :: sts => by rw [List.dropWhile_cons_of_neg (by simp)]

theorem finish_popped {n a k : Nat} {s s' : QSt World} {pre pre' post : List (List Nat)} {st : List Nat} {w₁ : World}
    (hw : StacksOK s.w) (hs : (s.w.ags a).intentions = pre ++ (i :: st) :: post)
    (hd : (s.w.ags a).intentions.dropWhile (·.isEmpty) = pre' ++ (i :: st) :: post)
    (hk : s.w.ticks ≤ k) (hc : Chosen1 (s.w.setStacks a ((s.w.ags a).intentions.dropWhile (·.isEmpty))) k i w₁)
    (h : (finish n a pre'.length i { s with w := w₁ }).leaves s') : PoppedI n s a i pre st post s' := by
  obtain ⟨c1, c2, c3, c4, c5, c6, c7, c8, c9, c10⟩ := hc.spec
  have hags : (w₁.ags a).intentions = pre' ++ (i :: st) :: post := by rw [c1, setStacks_self, hd]
  have hother : ∀ {sts} a', a' ≠ a → (w₁.setStacks a sts).ags a' = s.w.ags a' := fun a' h => by
    rw [setStacks_other h, c1, setStacks_other h]
  have hw₁ : StacksOK w₁ := StacksOK.congr (hw.shrink (a := a) (sts := (s.w.ags a).intentions.dropWhile (·.isEmpty))
    (by rw [flatten_dropWhile]; exact .refl _)) (Nat.le_of_eq c2.symm) fun _ => by rw [c1]
  have hsub : (pre' ++ st :: post).flatten.Sublist (w₁.ags a).intentions.flatten := by
    rw [hags]
    simp only [List.flatten_append, List.flatten_cons]
    exact (List.Sublist.refl _).append ((List.sublist_cons_self i st).append (.refl _))
  have hf1 : (pre' ++ st :: post).filter (!·.isEmpty) = (pre ++ st :: post).filter (!·.isEmpty) := by
    have h1 := filter_dropWhile (s.w.ags a).intentions
    rw [hd, hs, List.filter_append, List.filter_append] at h1
    have : pre'.filter (!·.isEmpty) = pre.filter (!·.isEmpty) := List.append_cancel_right h1
    rw [List.filter_append, List.filter_append, this]
  have hcore : ∀ {sts} j, ((w₁.setStacks a sts).ints j).core = (s.w.ints j).core := fun j => c7 j
  have hwait : ∀ j, j ≠ i → (w₁.ints j).waiter = (s.w.ints j).waiter := fun j hj => by rw [c6 j hj]; rfl
  have hcc := c7 i
  have e1 : (w₁.ints i).callingTerm = (s.w.ints i).callingTerm := by
    have := congrArg Intention.callingTerm hcc; exact this
  have e2 : (w₁.ints i).headTerm = (s.w.ints i).headTerm := by
    have := congrArg Intention.headTerm hcc; exact this
  have e3 : (w₁.ints i).b = (s.w.ints i).b := by
    have := congrArg Intention.b hcc; exact this
  rcases finish_spec (s := { s with w := w₁ }) hags h with ⟨rfl, _, rfl⟩ | ⟨j, st', rfl, ⟨_, nv, rfl⟩ | ⟨t, hd', frozen, m, b', h1, h2, h3, rfl, h4⟩⟩
  · refine ⟨c2, ?_, Nat.le_trans hk c8, c4, c3, hother, ?_, .inl hcore, hwait⟩
    · exact hw₁.shrink (by rw [flatten_erase_nil]; exact hsub)
    · rw [setStacks_self, filter_erase_nil, hf1]
  · refine ⟨c2, hw₁.shrink hsub, Nat.le_trans hk c8, c4, c3, hother, ?_, .inl hcore, hwait⟩
    rw [setStacks_self, hf1]
  · have hbj : (w₁.ints j).b = (s.w.ints j).b := by
      have := congrArg Intention.b (c7 j); exact this
    refine ⟨c2, (hw₁.shrink hsub).congr (Nat.le_refl _) fun _ => rfl, Nat.le_trans hk c8, c4, c3, hother, ?_, .inr ⟨j, st', b', rfl, ?_, ?_⟩, ?_⟩
    · have := setStacks_self (w := w₁) (a := a) (sts := pre' ++ (j :: st') :: post)
      exact (congrArg _ this).trans hf1
    · refine ⟨t, hd', frozen, m, e1 ▸ h1, e2 ▸ h2, e3 ▸ h3, ?_⟩
      rw [← hbj]
      rcases h4 with ⟨h4, _⟩ | ⟨h4, _⟩ | ⟨e, h4, _⟩
      · exact .inl ⟨_, h4⟩
      · exact .inl ⟨_, h4⟩
      · exact .inr ⟨_, h4⟩
    · intro k
      rw [modInt_core]
      have := hcore (sts := pre' ++ (j :: st') :: post) k
      split
      · exact congrArg (fun x : Intention => { x with b := b' }) this
      · exact this
    · intro k hk'
      rw [← hwait k hk']
      simp only [World.modInt, World.setInt]
      split
      · next h => subst h; rfl
      · rfl

/-! ## Waiting -/

omit [Host] in
theorem StacksOK.onlyTop {w : World} (hw : StacksOK w) {a j : Nat} (h : IsTop w a j) : OnlyTop w a j := by
  obtain ⟨st, hs⟩ := h
  intro a' st' hs' hj
  by_cases ha : a' = a
  · subst ha
    refine ⟨rfl, ?_⟩
    obtain ⟨l, r, hlr⟩ := List.append_of_mem hs
    have ho := hw.once a'
    rw [hlr] at ho hs'
    simp only [List.flatten_append, List.flatten_cons] at ho
    have hd := List.nodup_append.1 ho
    rcases List.mem_append.1 hs' with hm | hm
    · exact absurd rfl (hd.2.2 j (List.mem_flatten.2 ⟨st', hm, hj⟩) j (by simp))
    · rcases List.mem_cons.1 hm with rfl | hm
      · exact ⟨st, rfl⟩
      · have := (List.nodup_append.1 hd.2.1).2.2 j (by simp) j (List.mem_flatten.2 ⟨st', hm, hj⟩)
        exact absurd rfl this
  · exact absurd (List.mem_flatten.2 ⟨_, hs, List.mem_cons_self⟩)
      (hw.apart a' a j ha (List.mem_flatten.2 ⟨_, hs', hj⟩))

omit [Host] in
theorem OnlyTop.sub {w w' : World} {a j : Nat} (h : OnlyTop w a j)
    (hs : ∀ a', ∀ st ∈ (w'.ags a').intentions, j ∈ st → st ∈ (w.ags a').intentions) : OnlyTop w' a j :=
  fun a' st hst hj => h a' st (hs a' st hst hj) hj

omit [Host] in
theorem Dropped.keepTop {sts sts' : List (List Nat)} (h : Dropped sts sts') {j : Nat} {st : List Nat}
    (ht : ∀ st ∈ sts, j ∈ st → ∃ st', st = j :: st') (hn : sts.flatten.Nodup) (hs : st ∈ sts') (hj : j ∈ st) : st ∈ sts := by
  induction h with
  | nil => exact hs
  | keep _ ih =>
    rcases List.mem_cons.1 hs with rfl | hs
    · exact List.mem_cons_self
    · rw [List.flatten_cons, List.nodup_append] at hn
      exact List.mem_cons_of_mem _ (ih (fun st h => ht st (List.mem_cons_of_mem _ h)) hn.2.1 hs)
  | @drop i st₀ sts sts' _ ih =>
    rw [List.flatten_cons, List.nodup_append] at hn
    rcases List.mem_cons.1 hs with rfl | hs
    · obtain ⟨st', he⟩ := ht (i :: st) List.mem_cons_self (List.mem_cons_of_mem _ hj)
      have : i = j := (List.cons.inj he).1
      exact absurd (this ▸ hj) (List.nodup_cons.1 hn.1).1
    · exact List.mem_cons_of_mem _ (ih (fun st h => ht st (List.mem_cons_of_mem _ h)) hn.2.1 hs)

theorem Prim.onlyTop {s s' : QSt World} (h : Prim w₀ s s') (hw : StacksOK s.w) {a j : Nat} (hj : j < w₀.nint)
    (hc : j ≠ w₀.curInt) (ht : OnlyTop s.w a j) : OnlyTop s'.w a j := by
  have same : (∀ a', (s'.w.ags a').intentions = (s.w.ags a').intentions) → OnlyTop s'.w a j :=
    fun he => ht.sub fun a' st hst _ => he a' ▸ hst
  cases h with
  | add => exact same fun _ => setBeliefs_ints.2.2.2
  | del => exact same fun _ => setBeliefs_ints.2.2.2
  | plan => exact same fun _ => buildPlan_ints.2.2.2
  | drop a₁ sts hd =>
    refine ht.sub fun a' st hst hm => ?_
    by_cases ha : a' = a₁
    · subst ha
      rw [setStacks_self] at hst
      exact hd.keepTop (fun st h h' => (ht a' st h h').2) (hw.once a') hst hm
    · rwa [setStacks_other ha] at hst
  | push a₁ i k sts h1 h2 h3 h4 hp =>
    refine ht.sub fun a' st hst hm => ?_
    by_cases ha : a' = a₁
    · subst ha
      rw [setStacks_self] at hst
      have hji : j ≠ i := Nat.ne_of_lt (Nat.lt_of_lt_of_le hj h1)
      have hjk : j ≠ k := by
        rcases h4 with rfl | h4
        · exact hc
        · exact Nat.ne_of_lt (Nat.lt_of_lt_of_le hj h4)
      rcases hp with rfl | ⟨l, st₀, r, he, rfl⟩
      · rcases List.mem_append.1 hst with h | h
        · exact h
        · rw [List.mem_singleton] at h
          subst h
          simp at hm
          exact absurd hm hji
      · rw [he]
        simp only [List.mem_append, List.mem_cons] at hst ⊢
        rcases hst with h | rfl | h
        · exact .inl h
        · rcases List.mem_cons.1 hm with hm | hm
          · exact absurd hm hji
          · obtain ⟨st', h'⟩ := (ht a' (k :: st₀) (by rw [he]; simp) hm).2
            exact absurd (List.cons.inj h').1.symm hjk
        · exact .inr (.inr h)
    · rwa [setStacks_other ha] at hst
  | _ => exact same fun _ => rfl

/-- Intention `j` of agent `a` has been left alone, or woken by an event. -/
structure Waits (w₀ : World) (a j : Nat) (w : World) : Prop where
  base : Base w₀ w
  stacks : StacksOK w
  top : OnlyTop w a j
  wait : ∃ new, w.events = new ++ w₀.events ∧ ((w.ints j).waiter = (w₀.ints j).waiter ∨
    (w.ints j).waiter = none ∧ ∃ e d, (w₀.ints j).waiter = some ⟨some e, d⟩ ∧ Delivered new a e)

omit [Host] in
theorem waiter_setWaiter {w : World} {i j : Nat} {x : Option Waiter} (h : j ≠ i) : ((w.setWaiter i x).ints j).waiter = (w.ints j).waiter := by
  simp [World.setWaiter, World.setInt, h]

theorem Delivered.mono {evs evs' : List (Nat × Event)} {a : Nat} {e : Event} (h : Delivered evs a e)
    (hs : ∀ x ∈ evs, x ∈ evs') : Delivered evs' a e := by
  obtain ⟨frozen, n, b, h1, h2⟩ := h
  exact ⟨frozen, n, b, hs _ h1, h2⟩

theorem Prim.waits {s s' : QSt World} (h : Prim w₀ s s') {a j : Nat} (hj : j < w₀.nint)
    (hc : j ≠ w₀.curInt) (hw : Waits w₀ a j s.w) : Waits w₀ a j s'.w := by
  refine ⟨h.base hw.base, h.stacksOK hw.stacks, h.onlyTop hw.stacks hj hc hw.top, ?_⟩
  obtain ⟨new, hn, hx⟩ := hw.wait
  have same : (s'.w.ints j).waiter = (s.w.ints j).waiter → ∃ new, s'.w.events = new ++ w₀.events ∧ ((s'.w.ints j).waiter = (w₀.ints j).waiter ∨
    (s'.w.ints j).waiter = none ∧ ∃ e d, (w₀.ints j).waiter = some ⟨some e, d⟩ ∧ Delivered new a e) := by
    intro he
    obtain ⟨new', hn'⟩ := h.events
    refine ⟨new' ++ new, by rw [hn', hn, List.append_assoc], ?_⟩
    rw [he]
    exact hx.imp_right fun ⟨h1, e, d, h2, h3⟩ => ⟨h1, e, d, h2, h3.mono fun x hx => List.mem_append_right _ hx⟩
  cases h with
  | add => exact same (by rw [(setBeliefs_ints (a' := 0)).2.2.1])
  | del => exact same (by rw [(setBeliefs_ints (a' := 0)).2.2.1])
  | plan => exact same (by rw [(buildPlan_ints (a' := 0)).2.2.1])
  | newInt =>
    have : j ≠ s.w.nint := Nat.ne_of_lt (Nat.lt_of_lt_of_le hj hw.base.nint)
    exact same (congrArg Intention.waiter (ints_setInt (w := s.w) this))
  | fill i _ _ _ _ hi =>
    have : j ≠ i := Nat.ne_of_lt (Nat.lt_of_lt_of_le hj hi)
    exact same (congrArg Intention.waiter (ints_setInt (w := s.w) this))
  | wait x =>
    have : j ≠ s.w.curInt := by
      rcases hw.base.cur with h | h
      · rw [h]; exact hc
      · exact Nat.ne_of_lt (Nat.lt_of_lt_of_le hj h)
    exact same (waiter_setWaiter this)
  | wake i n ev d a₁ frozen b rest st h1 h2 h3 h4 h5 =>
    by_cases hij : j = i
    · subst hij
      have ha : a₁ = a := (hw.top a₁ _ h2 List.mem_cons_self).1
      subst ha
      refine ⟨new, hn, ?_⟩
      right
      have hw0 : (w₀.ints j).waiter = some ⟨some ev, d⟩ := by
        rcases hx with hx | ⟨hx, _⟩
        · rw [← hx, h1]
        · rw [h1] at hx; simp at hx
      refine ⟨by simp [World.setWaiter, World.setInt], ev, d, hw0, frozen, n, b, ?_, h5⟩
      rw [hn] at h3
      cases new with
      | nil =>
        have := congrArg List.length h3
        simp at this
        omega
      | cons x new =>
        rw [List.cons_append] at h3
        exact (List.cons.inj h3).1 ▸ List.mem_cons_self
    · exact same (waiter_setWaiter hij)
  | _ => exact same rfl

theorem waits_run {a j : Nat} (hj : j < w₀.nint) (hc : j ≠ w₀.curInt) (hi : j ≠ i) :
    RunStable w₀ i fun s => Waits w₀ a j s.w where
  base _ h := h.base
  prim s s' h hp := hp.waits hj hc h
  run s x h _ _ _ _ := ⟨h.base.setInt i _, h.stacks.congr (Nat.le_refl _) fun _ => rfl, h.top, by
    obtain ⟨new, hn, hx⟩ := h.wait
    exact ⟨new, hn, by rw [ints_setInt (w := s.w) hi]; exact hx⟩⟩

omit [Host] in
theorem Intention.eq_of_core {x y : Intention} (h : x.core = y.core) (h' : x.waiter = y.waiter) : x = y := by
  cases x; cases y
  simp only [Intention.core, Intention.mk.injEq] at h
  simp_all

theorem step_ran {n a : Nat} {s s' : QSt World} (hw : StacksOK s.w) (h : (step n a s).leaves s') :
    StacksOK s'.w ∧ s.w.nint ≤ s'.w.nint ∧ s.w.ticks ≤ s'.w.ticks ∧ s'.w.clock = s.w.clock ∧
      ∃ new, s'.w.events = new ++ s.w.events := by
  rcases step_cases hw h with ⟨k, h1, _, rfl⟩ | ⟨pre, i, st, post, k, h1, h2, h3, ⟨pc, hpc, hr, _⟩ | ⟨h5, pre', w₁, h6, h7, h8⟩⟩
  · refine ⟨?_, Nat.le_refl _, h1.le, rfl, [], rfl⟩
    exact StacksOK.congr (hw.shrink (a := a) (sts := (s.w.ags a).intentions.dropWhile (·.isEmpty))
      (by rw [flatten_dropWhile]; exact .refl _)) (Nat.le_refl _) fun _ => rfl
  · exact ⟨hr.stacks, hr.nint, hr.ticks, hr.clock, hr.events⟩
  · rw [h8] at h
    have hp := finish_popped hw h1 h6 h2.le h7 h
    exact ⟨hp.stacks, Nat.le_of_eq hp.nint.symm, hp.ticks, hp.clock, [], hp.events⟩

/-- A suspended intention is left alone by a step, or its deadline is exceeded, or it is
woken by an event. -/
theorem step_waits {n a a' j : Nat} {s s' : QSt World} {x : Waiter} (hw : StacksOK s.w) (hj : j < s.w.nint) (ht : OnlyTop s.w a j)
    (hx : (s.w.ints j).waiter = some x) (h : (step n a' s).leaves s') :
    s'.w.ints j = s.w.ints j ∧ OnlyTop s'.w a j ∨ WokenBy s.w s'.w a x := by
  rcases step_spec n a' s with ⟨k, h1, h2⟩ | ⟨pre, i, st, post, k, w₁, h1, h2, h3, h4⟩
  · rw [h2, Res.leaves_ok] at h
    subst h
    refine .inl ⟨rfl, ht.sub fun a₁ st hst _ => ?_⟩
    by_cases ha : a₁ = a'
    · subst ha
      have hst : st ∈ ((s.w.setStacks a₁ ((s.w.ags a₁).intentions.dropWhile (·.isEmpty))).ags a₁).intentions := hst
      rw [setStacks_self] at hst
      exact List.dropWhile_sublist _ |>.subset hst
    · have hst : st ∈ ((s.w.setStacks a' ((s.w.ags a').intentions.dropWhile (·.isEmpty))).ags a₁).intentions := hst
      rwa [setStacks_other ha] at hst
  obtain ⟨pre', h5, h6⟩ := choose_all h1 h2
  obtain ⟨c1, c2, c3, c4, c5, c6, c7, c8, c9, c10⟩ := h3.spec
  have hw₁ : StacksOK w₁ := StacksOK.congr (hw.shrink (a := a') (sts := (s.w.ags a').intentions.dropWhile (·.isEmpty))
    (by rw [flatten_dropWhile]; exact .refl _)) (Nat.le_of_eq c2.symm) fun _ => by rw [c1]
  have hi : i < w₁.nint := by
    rw [c2]
    exact hw.below a' (i :: st) (by rw [h5]; simp) i List.mem_cons_self
  by_cases hij : j = i
  · subst hij
    right; left
    have hl : ∃ d, x.deadline = some d ∧ d < s.w.clock k ∧ w₁.ticks = k + 1 := by
      generalize hq : s.w.setStacks a' _ = wq at h3
      have hx' : (wq.ints j).waiter = some x := by rw [← hq]; exact hx
      have hcl : wq.clock = s.w.clock := by rw [← hq]; rfl
      cases h3 with
      | free hf => rw [hf] at hx'; simp at hx'
      | late h h' =>
        rw [h] at hx'
        simp only [Option.some.injEq] at hx'
        exact ⟨_, by rw [← hx'], hcl ▸ h', rfl⟩
    obtain ⟨d, hd, hd', hk⟩ := hl
    refine ⟨d, k, hd, h2.le, ?_, hd'⟩
    rcases h4 with ⟨hn, h4⟩ | ⟨pc, hp, h4⟩
    · rw [h4] at h
      have : s'.w.ticks = w₁.ticks := by
        rcases finish_spec (s := { s with w := w₁ }) (by rw [c1, setStacks_self, h1]) h with ⟨_, _, rfl⟩ | ⟨_, _, _, ⟨_, _, rfl⟩ | ⟨_, _, _, _, _, _, _, _, rfl, _⟩⟩ <;> rfl
      omega
    · rw [h4] at h
      have hp₁ : (w₁.ints j).instr = some pc := by
        rw [← hp]
        have := congrArg Intention.instr (c7 j)
        exact this
      have f := (exec_framed (s := { s with w := w₁ }) hw₁ hi hp₁ h).1
      have := f.ticks
      simp only at this
      omega
  · have ht₁ : OnlyTop w₁ a j := ht.sub fun a₁ st' hst _ => by
      rw [c1] at hst
      by_cases ha : a₁ = a'
      · subst ha
        rw [setStacks_self] at hst
        exact List.dropWhile_sublist _ |>.subset hst
      · rwa [setStacks_other ha] at hst
    rcases h4 with ⟨hn, h4⟩ | ⟨pc, hp, h4⟩
    · rw [h4] at h
      have hp := finish_popped hw h5 h1 h2.le h3 h
      left
      have hjst : j ∉ st := fun hm => by
        obtain ⟨st', he⟩ := (ht a' (i :: st) (by rw [h5]; simp) (List.mem_cons_of_mem _ hm)).2
        exact hij (List.cons.inj he).1.symm
      refine ⟨Intention.eq_of_core ?_ (hp.waiters j hij), ht.sub fun a₁ st' hst hm => ?_⟩
      · rcases hp.ints with h | ⟨j', st', b', rfl, _, h⟩
        · exact h j
        · rw [h j, if_neg]
          rintro rfl
          exact hjst List.mem_cons_self
      · by_cases ha : a₁ = a'
        · subst ha
          have hm' : st' ∈ (s'.w.ags a₁).intentions.filter (!·.isEmpty) := by
            rw [List.mem_filter]
            refine ⟨hst, ?_⟩
            cases st' with
            | nil => simp at hm
            | cons => rfl
          rw [hp.popped, List.mem_filter] at hm'
          rcases List.mem_append.1 hm'.1 with hh | hh
          · rw [h5]; exact List.mem_append_left _ hh
          · rcases List.mem_cons.1 hh with rfl | hh
            · exact absurd hm hjst
            · rw [h5]; exact List.mem_append_right _ (List.mem_cons_of_mem _ hh)
        · rwa [hp.other a₁ ha] at hst
    · rw [h4] at h
      have hj₁ : j < w₁.nint := by rw [c2]; exact hj
      have hx₁ : (w₁.ints j).waiter = (s.w.ints j).waiter := by rw [c6 j hij]; rfl
      have hws := exec_keeps (waits_run (w₀ := { w₁ with cur := a', curInt := i }) (a := a) hj₁ hij hij) rfl
        (n := n) (a := a') (pc := pc) (s := { s with w := w₁ })
        (fun s pc h => ⟨h.base.setInt i _, h.stacks.congr (Nat.le_refl _) fun _ => rfl, h.top, by
          obtain ⟨new, hn, hx⟩ := h.wait
          refine ⟨new, hn, ?_⟩
          have : (s.w.modInt i fun x => { x with instr := pc }).ints j = s.w.ints j := ints_setInt (w := s.w) hij
          simp only [this]; exact hx⟩)
        ⟨.refl hw₁.below, hw₁.congr (Nat.le_refl _) fun _ => rfl, ht₁, [], rfl, .inl rfl⟩
      have hws := hws s' h
      have hp₁ : (w₁.ints i).instr = some pc := by
        rw [← hp]
        have := congrArg Intention.instr (c7 i)
        exact this
      have f := (exec_framed (s := { s with w := w₁ }) hw₁ hi hp₁ h).1
      obtain ⟨new, hn, hx'⟩ := hws.wait
      rcases hx' with hx' | ⟨_, e, d, h7, h8⟩
      · left
        exact ⟨Intention.eq_of_core ((f.others j hj₁ hij).trans (c7 j)) (hx'.trans hx₁), hws.top⟩
      · right; right
        have : x = ⟨some e, d⟩ := by
          have h7 : (w₁.ints j).waiter = some ⟨some e, d⟩ := h7
          rw [hx₁, hx] at h7
          exact Option.some.inj h7
        refine ⟨e, new, by rw [this], hn.trans (congrArg _ c3), h8⟩

/-! ## Reachable states -/

theorem callAll_keeps (hP : Stable w₀ P) {n a : Nat} {gt : GoalType} : ∀ (ts : List Term) (s : QSt World), P s →
    (callAll n a gt ts s).Keeps P
  | [], s, h => .ok h
  | t :: ts, s, h => by
    unfold callAll
    exact .bind (callNew_keeps hP (gnext_keeps n) (hP.prim _ _ h (.nv s _ (Nat.le_add_right _ _)))) fun _ s h =>
      callAll_keeps hP ts s h

theorem stacksOK_stable : Stable w₀ fun s => Base w₀ s.w ∧ StacksOK s.w where
  base _ h := h.1
  prim _ _ h hp := ⟨hp.base h.1, hp.stacksOK h.2⟩

theorem callAll_stacksOK {n a : Nat} {gt : GoalType} {ts : List Term} {s s' : QSt World} (hw : StacksOK s.w)
    (h : (callAll n a gt ts s).leaves s') : StacksOK s'.w :=
  (callAll_keeps (stacksOK_stable (w₀ := s.w)) ts s ⟨.refl hw.below, hw⟩ s' h).2

omit [Host] in
theorem StacksOK.newAgent {w : World} (hw : StacksOK w) (x : Agent) (hx : x.intentions = []) : StacksOK (newAgent x w) := by
  have := hw.shrink (a := w.nag) (sts := []) (List.nil_sublist _)
  refine this.congr (Nat.le_refl _) fun a => ?_
  simp only [Verif.newAgent, World.setAg, World.setStacks]
  split <;> simp [hx]

omit [Host] in
theorem StacksOK.addRule {w : World} (hw : StacksOK w) (a : Nat) (r : Rule Act) : StacksOK (addRule a w r) := by
  refine hw.congr ?_ fun a' => ?_
  · unfold Verif.addRule; split <;> exact Nat.le_refl _
  · unfold Verif.addRule
    split
    · simp only [World.setAg]; split
      · next h => subst h; rfl
      · rfl
    · rfl

theorem buildAgent_stacksOK {n : Nat} {src : AgentSrc} {base : String} {s s' : QSt World} (hw : StacksOK s.w)
    (h : (buildAgent n src base s).leaves s') : StacksOK s'.w := by
  unfold buildAgent at h
  simp only at h
  have h1 : ∀ (rs : List (Rule Act)) (w : World), StacksOK w → StacksOK (rs.foldl (addRule s.w.nag) w) := by
    intro rs
    induction rs with
    | nil => exact fun _ h => h
    | cons r rs ih => exact fun w h => ih _ (h.addRule _ r)
  have h2 : ∀ (ps : List PlanSrc) (s₁ : QSt World), StacksOK s₁.w → StacksOK (ps.foldl (fun s₁ p => buildPlan s.w.nag p s₁) s₁).w := by
    intro ps
    induction ps with
    | nil => exact fun _ h => h
    | cons p ps ih => exact fun s₁ h => ih _ ((Prim.plan (w₀ := s₁.w) s₁ s.w.nag p).stacksOK h)
  have h3 := h2 src.plans { s with w := src.rules.foldl (addRule s.w.nag) (newAgent { name := makeName base (s.w.reg.map (·.1)) } s.w) }
    (h1 _ _ (hw.newAgent _ rfl))
  rw [Res.leaves_bind] at h
  rcases h with ⟨e, h⟩ | ⟨_, s₁, h4, h⟩
  · exact callAll_stacksOK h3 (.inr ⟨e, h⟩)
  rw [Res.leaves_bind] at h
  have h5 := callAll_stacksOK h3 (.inl ⟨_, h4⟩)
  rcases h with ⟨e, h⟩ | ⟨_, s₂, h6, h⟩
  · exact callAll_stacksOK h5 (.inr ⟨e, h⟩)
  rw [Res.leaves_ok] at h
  subst h
  exact (callAll_stacksOK h5 (.inl ⟨_, h6⟩)).congr (Nat.le_refl _) fun _ => rfl

theorem buildMore_stacksOK {n : Nat} {src : AgentSrc} {base : String} {proto : Nat} : ∀ {k : Nat} {s s' : QSt World},
    StacksOK s.w → (buildMore n src base proto k s).leaves s' → StacksOK s'.w
  | 0, s, s', hw, h => by simp [buildMore] at h; exact h ▸ hw
  | k + 1, s, s', hw, h => by
    unfold buildMore at h
    simp only [Res.leaves_bind, Res.leaves_ok] at h
    have h1 : StacksOK (newAgent ⟨makeName base (s.w.reg.map (·.1)), (s.w.ags proto).beliefs, (s.w.ags proto).rules, (s.w.ags proto).plans, []⟩ s.w) :=
      hw.newAgent _ rfl
    rcases h with ⟨e, h⟩ | ⟨_, s₁, h2, h⟩
    · exact callAll_stacksOK h1 (.inr ⟨e, h⟩)
    have h3 : StacksOK (register s.w.nag s₁.w) :=
      (callAll_stacksOK h1 (.inl ⟨_, h2⟩)).congr (w' := register s.w.nag s₁.w) (Nat.le_refl _) fun _ => rfl
    rcases h with ⟨e, h⟩ | ⟨_, s₂, h4, rfl⟩
    · exact buildMore_stacksOK (s := { s₁ with w := register s.w.nag s₁.w }) h3 (.inr ⟨e, h⟩)
    · exact buildMore_stacksOK (s := { s₁ with w := register s.w.nag s₁.w }) h3 (.inl ⟨_, h4⟩)

omit [Host] in
/-- Sleeping reads the clock once. -/
theorem sleep_eq {d : Rat} {s s' : QSt World} (h : (sleepUntil d s).leaves s') :
    s' = { s with w := { s.w with ticks := s.w.ticks + 1 } } := by
  unfold sleepUntil at h
  split at h
  next hw =>
    cases hw
    split at h
    · rw [Res.leaves_err] at h; exact h.symm
    · rw [Res.leaves_ok] at h; exact h.symm

theorem sleep_prim {w₀ : World} {d : Rat} {s s' : QSt World} (h : (sleepUntil d s).leaves s') : Prim w₀ s s' :=
  sleep_eq h ▸ .tick s

/-- In every reachable state, the intentions on the stacks exist, and none is twice on the
stacks. -/
theorem Reachable.stacksOK {s : QSt World} (h : Reachable s) : StacksOK s.w := by
  induction h with
  | init clock => exact ⟨fun a st h => by simp [World.init] at h, fun a => by simp [World.init], fun a a' i _ h => by simp [World.init] at h⟩
  | build _ h ih => exact buildAgent_stacksOK ih h
  | @builds s n src k base₀ base s' _ h ih =>
    unfold buildAgents at h
    split at h
    · rw [Res.leaves_ok] at h; exact h ▸ ih
    · simp only [Res.leaves_bind, Res.leaves_ok] at h
      rcases h with ⟨e, h⟩ | ⟨_, s₁, h2, h⟩
      · exact buildAgent_stacksOK ih (.inr ⟨e, h⟩)
      have h3 := buildAgent_stacksOK ih (.inl ⟨_, h2⟩)
      rcases h with ⟨e, h⟩ | ⟨_, s₂, h4, rfl⟩
      · exact buildMore_stacksOK h3 (.inr ⟨e, h⟩)
      · exact buildMore_stacksOK h3 (.inl ⟨_, h4⟩)
  | step _ h ih => exact (step_ran ih h).1
  | sleep _ h ih => exact (sleep_prim (w₀ := World.init fun _ => 0) h).stacksOK ih
  | call _ h ih => exact ((callNew_keeps stacksOK_stable (gnext_keeps _) ⟨.refl ih.below, ih⟩) _ h).2

end

end Verif
