import Verif.Lemmas.ActTrail
import Verif.Lemmas.RunInv
import Verif.Spec.Assign

/-!
# Lemmas: bindings of an intention while it runs
-/

namespace Verif

section
variable [Host]

/-! ## Calls leave only trailed bindings -/

omit [Host] in
theorem Res.Keeps.above_b {α : Type} {x : Res (QSt World) α} {b b₀ : BSt} (h : x.Keeps fun s' => s'.b = b) (hb : Above b₀ b) :
    x.Keeps fun s' => Above b₀ s'.b := fun s' hs => show Above b₀ s'.b from (h s' hs : s'.b = b) ▸ hb

theorem findBelief_above {n c : Nat} {t : Term} {b₀ : BSt} : ∀ (xs : List Term) (s : QSt World), b₀.ncp ≤ c → c < s.b.ncp → Above b₀ s.b →
    (findBelief n c t xs s).Keeps fun s' => Above b₀ s'.b
  | [], s, _, _, hb => .ok hb
  | x :: xs, s, h0, hc, hb => by
    unfold findBelief unifiesAnnotated QSt.onB
    have ht := ua_trail n t x (s.b.pushCp c)
    have hp := above_push hc h0 hb
    simp only
    cases hx : uaStart n t x (s.b.pushCp c) with
    | oof => exact .oof
    | err e b' => exact .er (hp.trans (ht.above (.inr ⟨_, hx⟩)))
    | ok y b' =>
      have ha := ht.above (.inl ⟨_, hx⟩)
      simp only [Res.bind_ok]
      cases y with
      | some d => exact .ok (hp.trans ha)
      | none =>
        have hr := reroll_push hc ha
        exact .bind (findBelief_above xs { s with b := reroll b' c } h0 (Nat.lt_of_lt_of_le hc hr.2) (hb.trans hr.above)) fun _ _ h => .ok h

theorem removeBelief_above {n a : Nat} {t : Term} {s : QSt World} : (removeBelief n a t s).Keeps fun s' => Above s.b s'.b := by
  unfold removeBelief
  cases evaluate n s.b.scope t with
  | oof => exact .oof
  | err e => exact .er (.refl _)
  | ok t' =>
    simp only [Res.lift_ok, Res.bind_ok]
    split
    · refine .bind (findBelief_above _ _ (Nat.le_refl _) (Nat.lt_succ_self _) (Same.above ⟨rfl, Nat.le_succ _⟩)) fun o s' h => ?_
      split
      · exact .ok h
      · exact .ok h
    · exact .er (.refl _)

theorem addBelief_keeps_b {n a : Nat} {t : Term} {s : QSt World} : (addBelief n a t s).Keeps fun s' => s'.b = s.b := by
  unfold addBelief
  split
  all_goals first
    | exact .er rfl
    | skip
  cases grounded n s.b.scope t with
  | err e => exact .er rfl
  | oof => exact .oof
  | ok g =>
    simp only [Res.lift_ok, Res.bind_ok]
    split
    · exact .ok rfl
    · exact .er rfl

theorem callBeliefs_above {n a : Nat} {tr : Trigger} {gt : GoalType} {t : Term} {s : QSt World} :
    (callBeliefs n a tr gt t s).Keeps fun s' => Above s.b s'.b := by
  unfold callBeliefs
  split
  · exact .bind (addBelief_keeps_b.above_b (.refl _)) fun _ s' h => .ok h
  · exact removeBelief_above
  · exact .ok (.refl _)

theorem wake_keeps_b {n : Nat} {tr : Trigger} {gt : GoalType} {frozen : Term} {b : BSt} : ∀ (sts : List (List Nat)) (s : QSt World), s.b = b →
    (wake n tr gt frozen sts s).Keeps fun s' => s'.b = b
  | [], s, h => .ok h
  | [] :: rest, s, h => by unfold wake; exact wake_keeps_b rest s h
  | (i :: _) :: rest, s, h => by
    unfold wake
    split
    · split
      · exact wake_keeps_b rest s h
      · split
        · exact wake_keeps_b rest _ h
        · exact wake_keeps_b rest s h
        · exact .er h
        · exact .oof
    · exact wake_keeps_b rest s h

theorem callFrozen_keeps_b {n a : Nat} {tr : Trigger} {gt : GoalType} {t : Term} {s : QSt World} :
    (callFrozen n a tr gt t s).Keeps fun s' => s'.b = s.b := by
  unfold callFrozen
  refine .bind freeze_b fun frozen s' h => ?_
  split
  · exact .bind (wake_keeps_b _ _ h) fun _ _ h => .ok h
  · exact .er h

theorem unachieve_keeps_b {n a : Nat} {t : Term} {s : QSt World} : (unachieve n a t s).Keeps fun s' => s'.b = s.b := by
  unfold unachieve
  split
  · cases unachieveGo n s.w _ _ (s.w.ags a).intentions with
    | oof => exact .oof
    | err e => exact .er rfl
    | ok x => exact .ok rfl
  · exact .er rfl

omit [Host] in
theorem startPlan_keeps_b {a i calling : Nat} {delayed : Bool} {t frozen : Term} {p : Plan} {b : BSt} {s : QSt World} :
    (startPlan a i calling delayed t frozen p b s).Keeps fun s' => s'.b = s.b := by
  unfold startPlan
  simp only
  split
  · exact .ok rfl
  · split
    · exact .ok rfl
    · exact .ok rfl
    · exact .er rfl
    · exact .oof

theorem testBelief_above {n a i : Nat} {t : Term} {s : QSt World} (hw : Orderly s.w) :
    (testBelief n (gnext n) a i t s).Keeps fun s' => Above s.b s'.b := by
  unfold testBelief
  cases evaluate n s.b.scope t with
  | oof => exact .oof
  | err e => exact .er (.refl _)
  | ok t' =>
    simp only [Res.lift_ok, Res.bind_ok]
    split
    · next f as xs =>
      have out := gnext_trail stdActs_good n (.start (.term (.lit f as xs))) { s with w := { s.w with cur := a, curInt := i } } false false s.b
        ⟨hw.below, hw.rules, hw.bels⟩ ⟨trivial, by simp, .refl _⟩
      unfold QSt.as
      simp only
      cases hx : gnext n (.start (.term (.lit f as xs))) { s with w := { s.w with cur := a, curInt := i } } with
      | oof => exact .oof
      | err e s' => exact .er (show Above s.b s'.b from out.onErr _ _ hx)
      | ok o s' =>
        cases o with
        | none => exact .ok (rel_above (out.onNone _ hx).2)
        | some g => exact .ok (out.onSome _ _ hx).2.2.above
    · exact .er (.refl _)

theorem callPlans_above {n a calling : Nat} {tr : Trigger} {gt : GoalType} {t frozen : Term} {d : Bool} {s : QSt World} (hw : Orderly s.w) :
    (callPlans n (gnext n) a tr gt t frozen calling d s).Keeps fun s' => Above s.b s'.b := by
  unfold callPlans
  simp only
  have h0 : Base s.w { s.w.setInt s.w.nint {} with nint := s.w.nint + 1 } ∧ Orderly { s.w.setInt s.w.nint {} with nint := s.w.nint + 1 } :=
    orderly_stable.prim s { s with w := { s.w.setInt s.w.nint {} with nint := s.w.nint + 1 } } ⟨.refl hw.below, hw⟩ (.newInt s)
  refine .bind' (nest_b.above_b (.refl _)) fun ob s' he h => ?_
  have hk := (Stable.nest orderly_stable (.inr (Nat.le_refl _)) h0
    (fun s h => findPlan_keeps orderly_stable (gnext_keeps n) _ s h)).of_ok he
  have h' : s'.b = s.b := by have := nest_b.of_ok he; exact this
  split
  · exact startPlan_keeps_b.above_b h
  · split
    · exact .er h
    · rw [← h']
      exact testBelief_above hk.2
    · exact .ok h

theorem call_above {n a i : Nat} {tr : Trigger} {gt : GoalType} {t : Term} {d : Bool} {s : QSt World} (hw : Orderly s.w)
    (hg : gt = .belief ∨ gt = .achievement ∨ gt = .test) :
    (call n (gnext n) a tr gt t i d s).Keeps fun s' => Above s.b s'.b := by
  unfold call
  refine .bind' callBeliefs_above fun go s₁ he h => ?_
  have h1 := ((callBeliefs_keeps orderly_stable ⟨.refl hw.below, hw⟩).of_ok he).2
  split
  · exact .ok h
  · refine .bind' (callFrozen_keeps_b.above_b h) fun frozen s₂ he hb => ?_
    have h2 := ((callFrozen_keeps orderly_stable ⟨.refl h1.below, h1⟩).of_ok he).2
    split
    · exact .bind (unachieve_keeps_b.above_b hb) fun _ s₃ h => .ok h
    · simp at hg
    · simp at hg
    · simp at hg
    · exact fun s₃ h₃ => hb.trans (callPlans_above h2 s₃ h₃)

/-! ## Instructions -/

/-- The generator was started in `b₀` and can be asked again. -/
def Asked (g : Gen Act ActGen) (b₀ b : BSt) : Prop := GInv stdActs g false false b₀ b ∧ (Susp stdActs.susp g ∨ ∃ q, g = .start q)

theorem Asked.mono {g : Gen Act ActGen} {b₀ b b' : BSt} (h : Asked g b₀ b) (hb : Above b b') : Asked g b₀ b' := by
  refine ⟨?_, h.2⟩
  rcases h.2 with hs | ⟨q, rfl⟩
  · exact h.1.closed hs hb
  · exact ⟨h.1.1, h.1.2.1, rel_trans h.1.2.2 hb⟩

omit [Host] in
/-- Stacks and bindings of an intention. -/
def Intention.frame (x : Intention) : Contents × BSt := (x.contents, x.b)

/-- Only new trailed bindings. -/
def Idle (x y : Contents × BSt) : Prop := y.1 = x.1 ∧ Above x.2 y.2

omit [Host] in
theorem Idle.refl (x : Contents × BSt) : Idle x x := ⟨rfl, .refl _⟩

omit [Host] in
theorem Idle.trans {x y z : Contents × BSt} (h : Idle x y) (h' : Idle y z) : Idle x z := ⟨h'.1.trans h.1, h.2.trans h'.2⟩

/-- Instructions of compiled plans. -/
def InstrF.plain : InstrF → Prop
  | .call _ gt _ | .callDelayed _ gt _ => gt = .belief ∨ gt = .achievement ∨ gt = .test
  | _ => True

/-- What an instruction does to stacks and bindings. -/
def InstrF.acts : InstrF → Contents × BSt → Contents × BSt → Prop
  | .pushQuery q, x, y => y = ((.start q :: x.1.1, x.1.2), x.2)
  | .nextOrFail, x, y => y.1.2 = x.1.2 ∧ ∃ g g' r, x.1.1 = g :: r ∧ y.1.1 = g' :: r ∧ ∀ b₀, Asked g b₀ x.2 → Asked g' b₀ y.2
  | .popQuery, x, y => ∃ g r, x.1.1 = g :: r ∧ y = ((r, x.1.2), x.2)
  | .pushChoicepoint, x, y => y = ((x.1.1, x.2.ncp :: x.1.2), x.2.mark)
  | .popChoicepoint, x, y => ∃ c r, x.1.2 = c :: r ∧ y = ((x.1.1, r), reroll x.2 c)
  | _, x, y => Idle x y

theorem nextOrFail_acts_trans {x y z : Contents × BSt} (h : InstrF.nextOrFail.acts x y) (h' : InstrF.nextOrFail.acts y z) :
    InstrF.nextOrFail.acts x z := by
  obtain ⟨h1, g, g', r, h2, h3, h4⟩ := h
  obtain ⟨h5, g₁, g₁', r₁, h6, h7, h8⟩ := h'
  rw [h3] at h6
  cases h6
  exact ⟨h5.trans h1, g, g₁', r, h2, h7, fun b₀ h => h8 b₀ (h4 b₀ h)⟩

theorem nextOrFail_acts_idle {x y z : Contents × BSt} (h : InstrF.nextOrFail.acts x y) (h' : Idle y z) : InstrF.nextOrFail.acts x z := by
  obtain ⟨h1, g, g', r, h2, h3, h4⟩ := h
  obtain ⟨h5, h6⟩ := h'
  exact ⟨by rw [h5, h1], g, g', r, h2, by rw [h5, h3], fun b₀ h => (h4 b₀ h).mono h6⟩

theorem runF_acts {n a i : Nat} {f : InstrF} {s : QSt World} (hw : Orderly s.w) (hi : i < s.w.nint) (hc : s.w.curInt = i) (hf : f.plain) :
    (∀ ok s', runF n a i f s = .ok ok s' → f.acts ((s.w.ints i).contents, s.b) ((s'.w.ints i).contents, s'.b)) ∧
    (∀ e s', runF n a i f s = .err e s' → Idle ((s.w.ints i).contents, s.b) ((s'.w.ints i).contents, s'.b) ∨
      f = .nextOrFail ∧ f.acts ((s.w.ints i).contents, s.b) ((s'.w.ints i).contents, s'.b)) := by
  have hS := core_stable (w₀ := s.w) hi
  have h0 : Base s.w s.w ∧ (s.w.ints i).core = (s.w.ints i).core := ⟨.refl hw.below, rfl⟩
  have hcall : ∀ tr gt t d, gt = .belief ∨ gt = .achievement ∨ gt = .test → (call n (gnext n) a tr gt t i d s).Keeps fun s' => Idle ((s.w.ints i).contents, s.b) ((s'.w.ints i).contents, s'.b) :=
    fun tr gt t d hg s' h => ⟨Intention.contents_core (call_keeps hS (gnext_keeps n) (.inl hc.symm) h0 s' h).2, call_above hw hg s' h⟩
  have hself : ∀ (s : QSt World) (f : Intention → Intention), ((s.w.modInt i f).ints i) = f (s.w.ints i) := by
    intro s f; simp [World.modInt, World.setInt]
  have hnext : ∀ g b₀, Asked g b₀ s.b → Out stdActs false false b₀ (gnext n g s) := fun g b₀ h =>
    gnext_trail stdActs_good n g s false false b₀ hw h.1
  constructor
  · intro ok s' h
    unfold runF at h
    split at h
    · cases h; exact .refl _
    · exact (hcall _ _ _ _ (.inl rfl)).of_ok h
    · exact (hcall _ _ _ _ (.inl rfl)).of_ok h
    · exact (hcall _ _ _ _ (.inr (.inr rfl))).of_ok h
    · exact (hcall _ _ _ _ hf).of_ok h
    · exact (hcall _ _ _ _ hf).of_ok h
    · cases h; simp only [hself]; rfl
    · split at h
      · cases h
      · next g rest hq =>
        have hk := gnext_keeps n hS g s h0
        split at h
        · next g' s₁ hx =>
          cases h
          have := congrArg Prod.snd (Intention.contents_core (hk.of_ok hx).2)
          simp only [hself]
          exact ⟨this, g, g', rest, hq, rfl, fun b₀ h => ⟨((hnext g b₀ h).onSome _ _ hx).2.2, .inl ((hnext g b₀ h).onSome _ _ hx).2.1⟩⟩
        · next s₁ hx =>
          cases h
          have := congrArg Prod.snd (Intention.contents_core (hk.of_ok hx).2)
          simp only [hself]
          exact ⟨this, g, .done, rest, hq, rfl, fun b₀ h => ⟨⟨nofun, ((hnext g b₀ h).onNone _ hx).2⟩, .inl trivial⟩⟩
        · cases h
        · cases h
    · split at h
      · cases h
      · next g rest hq => cases h; simp only [hself]; exact ⟨g, rest, hq, rfl⟩
    · cases h; simp only [hself]; exact rfl
    · split at h
      · cases h
      · next g rest hq => cases h; simp only [hself]; exact ⟨g, rest, hq, rfl⟩
  · intro e s' h
    unfold runF at h
    split at h
    · cases h
    · exact .inl ((hcall _ _ _ _ (.inl rfl)).of_err h)
    · exact .inl ((hcall _ _ _ _ (.inl rfl)).of_err h)
    · exact .inl ((hcall _ _ _ _ (.inr (.inr rfl))).of_err h)
    · exact .inl ((hcall _ _ _ _ hf).of_err h)
    · exact .inl ((hcall _ _ _ _ hf).of_err h)
    · cases h
    · split at h
      · cases h; exact .inl (.refl _)
      · next g rest hq =>
        have hk := gnext_keeps n hS g s h0
        split at h
        · cases h
        · cases h
        · next e₁ s₁ hx =>
          cases h
          have := congrArg Prod.snd (Intention.contents_core (hk.of_err hx).2)
          refine .inr ⟨rfl, ?_⟩
          simp only [hself]
          exact ⟨this, g, .done, rest, hq, rfl, fun b₀ h => ⟨⟨nofun, (hnext g b₀ h).onErr _ _ hx⟩, .inl trivial⟩⟩
        · cases h
    · split at h
      · cases h; exact .inl (.refl _)
      · cases h
    · cases h
    · split at h
      · cases h; exact .inl (.refl _)
      · cases h

theorem runI_acts {n a i : Nat} {f : InstrF} {s : QSt World} (hw : Orderly s.w) (hi : i < s.w.nint) (hf : f.plain) :
    (∀ ok s', runI n a i f s = .ok ok s' → f.acts (s.w.ints i).frame (s'.w.ints i).frame) ∧
    (∀ e s', runI n a i f s = .err e s' → Idle (s.w.ints i).frame (s'.w.ints i).frame ∨
      f = .nextOrFail ∧ f.acts (s.w.ints i).frame (s'.w.ints i).frame) := by
  obtain ⟨h1, h2⟩ := runF_acts (n := n) (a := a) (i := i) (f := f)
    (s := { s with b := (s.w.ints i).b, w := { s.w with cur := a, curInt := i } }) ⟨hw.below, hw.rules, hw.bels⟩ hi rfl hf
  have hb : ∀ (s₁ : QSt World), ((s₁.w.modInt i fun x => { x with b := s₁.b }).ints i).frame = ((s₁.w.ints i).contents, s₁.b) := by
    intro s₁; simp [World.modInt, World.setInt, Intention.contents, Intention.frame]
  unfold runI
  constructor
  · intro ok s' h
    split at h
    · next s₁ hx =>
      cases h
      have := h1 _ _ hx
      simp only [hb]
      exact this
    · cases h
    · cases h
  · intro e s' h
    split at h
    · cases h
    · next s₁ hx =>
      cases h
      have := h2 _ _ hx
      simp only [hb]
      exact this
    · cases h

/-! ## Steps -/

omit [Host] in
theorem frame_core {x y : Intention} (h : x.core = y.core) : x.frame = y.frame := by
  have h1 := congrArg Intention.b h
  simp only [Intention.core] at h1
  simp only [Intention.frame, Intention.contents_core h, h1]

omit [Host] in
theorem Orderly.congr {w w' : World} (h : Orderly w) (hb : ∀ a, ∀ st ∈ (w'.ags a).intentions, ∀ i ∈ st, i < w'.nint)
    (hr : ∀ a, (w'.ags a).rules = (w.ags a).rules) (hs : w'.sets = w.sets) : Orderly w' :=
  ⟨hb, fun a grp r hm => h.rules a grp r (by rw [← hr a]; exact hm), by rw [hs]; exact h.bels⟩

theorem Orderly.step {n a : Nat} {s s' : QSt World} (hw : StacksOK s.w) (h : Orderly s.w) (hs : (step n a s).leaves s') : Orderly s'.w := by
  have hw' := (step_ran hw hs).1
  have hframe : ∀ {w w' : World}, Orderly w → Frame w w' → StacksOK w' → Orderly w' := fun h hf hw =>
    h.congr hw.below (fun a => by obtain ⟨sts, hx⟩ := hf.ags a; rw [hx]) hf.sets
  rcases step_spec n a s with ⟨k, _, h1⟩ | ⟨pre, i, st, post, k, w₁, h1, h2, h3, h4⟩
  · rw [h1, Res.leaves_ok] at hs
    subst hs
    refine h.congr hw'.below (fun a' => ?_) rfl
    simp only [World.setStacks, World.setAg]
    split
    · next hx => subst hx; rfl
    · rfl
  have hp : Picks a i s.w w₁ := ⟨pre, st, post, k, h1, h2, h3⟩
  obtain ⟨p1, p2, p3, p4, p5, p6⟩ := hp.spec hw
  have hw₁ : Orderly w₁ := by
    refine h.congr p2.below (fun a' => ?_) h3.frame.sets
    rw [h3.spec.1]
    simp only [World.setStacks, World.setAg]
    split
    · next hx => subst hx; rfl
    · rfl
  rcases h4 with ⟨_, h4⟩ | ⟨pc, h4, h5⟩
  · rw [h4] at hs
    exact hframe hw₁ (finish_frame hs) hw'
  have h0 : Orderly { w₁ with cur := a, curInt := i } := ⟨hw₁.below, hw₁.rules, hw₁.bels⟩
  have hset : ∀ {w : World}, Orderly w → ∀ x, Orderly (w.setInt i x) := fun h x => ⟨h.below, h.rules, h.bels⟩
  have hS : RunStable { w₁ with cur := a, curInt := i } i fun s => Base { w₁ with cur := a, curInt := i } s.w ∧ Orderly s.w := {
    toStable := orderly_stable
    run := fun s x h _ _ _ _ => ⟨h.1.setInt i x, hset h.2 x⟩ }
  rw [h5] at hs
  exact (exec_keeps hS rfl (n := n) (a := a) (pc := pc) (s := { s with w := w₁ }) (fun s pc h => ⟨h.1.setInt i _, hset h.2 _⟩)
    ⟨.refl p2.below, h0⟩ s' hs).2

theorem Runs.acts {a i : Nat} {f : InstrF} {ok : Bool} {s s' : QSt World} (hw : StacksOK s.w) (ho : Orderly s.w) (hf : f.plain)
    (h : Runs a i f ok s s') : f.acts (s.w.ints i).frame (s'.w.ints i).frame := by
  obtain ⟨n, pc, w₁, s₁, hp, h1, h2, h3, h4⟩ := h
  obtain ⟨p1, p2, p3, p4, p5, p6⟩ := hp.spec hw
  have hw₁ : Orderly w₁ := by
    obtain ⟨pre, st, post, k, q1, q2, q3⟩ := hp
    refine ho.congr p2.below (fun a' => ?_) q3.frame.sets
    rw [q3.spec.1]
    simp only [World.setStacks, World.setAg]
    split
    · next hx => subst hx; rfl
    · rfl
  have m2 := (runI_acts (n := n) (a := a) (i := i) (f := f) (s := { s with w := w₁ }) hw₁ (by rw [p3]; exact p1) hf).1 _ _ h3
  rw [show ({ s with w := w₁ } : QSt World).w.ints i = w₁.ints i from rfl, frame_core (p6 i)] at m2
  have hs : ∀ (s₁ : QSt World) (l : Option Nat), ((s₁.w.modInt i fun x => { x with instr := l }).ints i).frame = (s₁.w.ints i).frame := by
    intro s₁ l; simp [World.modInt, World.setInt, Intention.contents, Intention.frame]
  rcases hp.step n with ⟨h5, _⟩ | ⟨pc', h5, h6⟩
  · rw [h5] at h1; cases h1
  rw [h5] at h1
  cases h1
  rw [h6] at h4
  unfold exec at h4
  simp only at h4
  rw [show w₁.code = s.w.code from p4, ← h2, h3] at h4
  cases ok with
  | true =>
    simp only [Res.leaves_ok] at h4
    subst h4
    dsimp only
    rw [hs]
    exact m2
  | false =>
    simp only at h4
    cases hf : (s.w.code.instr pc).failure with
    | none =>
      simp only [hf, Res.leaves_err] at h4
      subst h4
      dsimp only
      rw [hs]
      exact m2
    | some q =>
      simp only [hf, Res.leaves_ok] at h4
      subst h4
      dsimp only
      rw [hs]
      exact m2

theorem Throws.acts {a i : Nat} {s s' : QSt World} (hw : StacksOK s.w) (ho : Orderly s.w) (hf : ∀ pc, (s.w.ints i).instr = some pc → (s.w.code.instr pc).f.plain)
    (h : Throws a i s s') : Idle (s.w.ints i).frame (s'.w.ints i).frame ∨
      ∃ pc, (s.w.ints i).instr = some pc ∧ (s.w.code.instr pc).f = .nextOrFail ∧ InstrF.nextOrFail.acts (s.w.ints i).frame (s'.w.ints i).frame := by
  obtain ⟨n, pc, w₁, e, s₁, hp, h1, h3, h4⟩ := h
  obtain ⟨p1, p2, p3, p4, p5, p6⟩ := hp.spec hw
  have hw₁ : Orderly w₁ := by
    obtain ⟨pre, st, post, k, q1, q2, q3⟩ := hp
    refine ho.congr p2.below (fun a' => ?_) q3.frame.sets
    rw [q3.spec.1]
    simp only [World.setStacks, World.setAg]
    split
    · next hx => subst hx; rfl
    · rfl
  have m := (runI_acts (n := n) (a := a) (i := i) (s := { s with w := w₁ }) hw₁ (by rw [p3]; exact p1) (hf pc h1)).2 _ _ h3
  rw [show ({ s with w := w₁ } : QSt World).w.ints i = w₁.ints i from rfl, frame_core (p6 i)] at m
  rcases hp.step n with ⟨h5, _⟩ | ⟨pc', h5, h6⟩
  · rw [h5] at h1; cases h1
  rw [h5] at h1
  cases h1
  rw [h6] at h4
  unfold exec at h4
  simp only at h4
  rw [show w₁.code = s.w.code from p4, h3, Res.leaves_err] at h4
  subst h4
  rcases m with m | ⟨m1, m2⟩
  · exact .inl m
  · exact .inr ⟨pc, h5, m1, m1 ▸ m2⟩

theorem finish_idle {n a k i : Nat} {s s' : QSt World} (h : (finish n a k i s).leaves s') (j : Nat) :
    Idle (s.w.ints j).frame (s'.w.ints j).frame := by
  refine ⟨(finish_prog h j).2, ?_⟩
  have hm : ∀ (w : World) (j' : Nat) (b : BSt), Above (w.ints j').b b → Above (w.ints j).frame.2 ((w.modInt j' fun x => { x with b := b }).ints j).frame.2 := by
    intro w j' b hb
    simp only [World.modInt, World.setInt]
    split
    · next h => subst h; exact hb
    · exact .refl _
  unfold finish at h
  simp only at h
  split at h
  · rw [Res.leaves_ok] at h
    subst h
    exact .refl _
  · split at h
    · rw [Res.leaves_ok] at h; subst h; exact .refl _
    · simp only [Res.leaves_err] at h; subst h; exact .refl _
    · split at h
      · simp at h
      · simp only [Res.leaves_err] at h; subst h; exact .refl _
      · split at h
        · simp at h
        · next hx => simp only [Res.leaves_err] at h; subst h; exact hm _ _ _ (unify_grow _ _ _ _ _ (.inr ⟨_, hx⟩)).above
        · next hx =>
          have ha := (unify_grow _ _ _ _ _ (.inl ⟨_, hx⟩)).above
          split at h
          · rw [Res.leaves_ok] at h; subst h; exact hm _ _ _ ha
          · simp only [Res.leaves_err] at h; subst h; exact hm _ _ _ ha

theorem Rests.acts {a i : Nat} {s s' : QSt World} (hw : StacksOK s.w) (hi : i < s.w.nint) (h : Rests a i s s') :
    Idle (s.w.ints i).frame (s'.w.ints i).frame := by
  obtain ⟨⟨n, h⟩, hr⟩ := h
  rcases step_spec n a s with ⟨k, _, h1⟩ | ⟨pre, i', st, post, k, w₁, h1, h2, h3, h4⟩
  · rw [h1, Res.leaves_ok] at h
    subst h
    exact .refl _
  · have hp : Picks a i' s.w w₁ := ⟨pre, st, post, k, h1, h2, h3⟩
    obtain ⟨p1, p2, p3, p4, p5, p6⟩ := hp.spec hw
    rcases h4 with ⟨_, h4⟩ | ⟨pc, h4, h5⟩
    · rw [h4] at h
      have := finish_idle h i
      rwa [show ({ s with w := w₁ } : QSt World).w.ints i = w₁.ints i from rfl, frame_core (p6 i)] at this
    · by_cases he : i' = i
      · subst he
        rw [hr w₁ hp] at h4
        cases h4
      · rw [h5] at h
        have := (exec_framed (s := { s with w := w₁ }) p2 (by rw [p3]; exact p1) ((prog_core (p6 i')).1.trans h4) h).1.others i
          (by rw [show ({ w₁ with cur := a, curInt := i' } : World).nint = s.w.nint from p3]; exact hi) (Ne.symm he)
        rw [frame_core (this.trans (p6 i))]
        exact .refl _

end

/-! ## Instructions of compiled plans -/

/-- Only instructions of compiled plans. -/
def PlainL (L : Lang) : Prop := ∀ tr o, L tr o → ∀ p ∈ tr, p.1.plain

namespace PlainL
open Lang

theorem skip : PlainL skip := by rintro _ _ ⟨rfl, _⟩ p hp; cases hp

theorem ins {f : InstrF} (h : f.plain) : PlainL (ins f) := by
  intro tr o hx p hp
  cases hx <;> simp at hp <;> subst hp <;> exact h

variable {A B P : Lang}

theorem seq (hA : PlainL A) (hB : PlainL B) : PlainL (seq A B) := by
  intro tr o hx p hp
  cases hx with
  | first h => exact hA _ _ h p hp
  | both h h' =>
    rcases List.mem_append.1 hp with hp | hp
    · exact hA _ _ h p hp
    · exact hB _ _ h' p hp

theorem cond (hA : PlainL A) (hB : PlainL B) : PlainL (cond A B) := by
  intro tr o hx p hp
  cases hx with
  | part => cases hp
  | yes h =>
    rcases List.mem_cons.1 hp with rfl | hp
    · exact trivial
    · exact hA _ _ h p hp
  | no h =>
    rcases List.mem_cons.1 hp with rfl | hp
    · exact trivial
    · exact hB _ _ h p hp

theorem loop (hP : PlainL P) (hA : PlainL A) (hB : PlainL B) : PlainL (loop P A B) := by
  intro tr o hx
  induction hx with
  | before h => exact hP _ _ h
  | test h => exact hP _ _ h
  | stop h h' =>
    intro p hp
    rcases List.mem_append.1 hp with hp | hp
    · exact hP _ _ h p hp
    · rcases List.mem_cons.1 hp with rfl | hp
      · exact trivial
      · exact hA _ _ h' p hp
  | again h h' _ ih =>
    intro p hp
    rcases List.mem_append.1 hp with hp | hp
    · exact hP _ _ h p hp
    · rcases List.mem_cons.1 hp with rfl | hp
      · exact trivial
      · rcases List.mem_append.1 hp with hp | hp
        · exact hA _ _ h' p hp
        · exact ih p hp
  | leave h h' =>
    intro p hp
    rcases List.mem_append.1 hp with hp | hp
    · exact hP _ _ h p hp
    · rcases List.mem_cons.1 hp with rfl | hp
      · exact trivial
      · exact hB _ _ h' p hp

end PlainL

mutual
theorem sem_plain : ∀ (x : Stmt), PlainL x.sem
  | .add t => by rw [Stmt.sem]; exact .ins trivial
  | .remove t => by rw [Stmt.sem]; exact .ins trivial
  | .test t => by rw [Stmt.sem]; exact .ins trivial
  | .replace p t => by rw [Stmt.sem]; exact .seq (.ins trivial) (.ins trivial)
  | .achieve t => by rw [Stmt.sem]; exact .ins (.inr (.inl rfl))
  | .achieveLater t => by rw [Stmt.sem]; exact .ins (.inr (.inl rfl))
  | .query q' => by rw [Stmt.sem]; exact .seq (.ins trivial) (.seq (.ins trivial) (.ins trivial))
  | .forall_ q' body => by rw [Stmt.sem]; exact .seq (.ins trivial) (.loop .skip (semL_plain body) (.ins trivial))
  | .ite q' thn els => by
    rw [Stmt.sem]
    exact .seq (.ins trivial) (.seq (.cond (semThen_plain thn) (semElse_plain els)) (.ins trivial))
  | .while_ q' body => by
    rw [Stmt.sem]
    exact .loop (.seq (.ins trivial) (.ins trivial)) (.seq (.ins trivial) (.seq (semL_plain body) (.ins trivial))) (.seq (.ins trivial) (.ins trivial))
theorem semL_plain : ∀ (xs : List Stmt), PlainL (Stmt.semL xs)
  | [] => by rw [Stmt.semL]; exact .skip
  | x :: xs => by rw [Stmt.semL]; exact .seq (sem_plain x) (semL_plain xs)
theorem semThen_plain : ∀ (o : Option (List Stmt)), PlainL (Stmt.semThen o)
  | none => by rw [Stmt.semThen]; exact .skip
  | some xs => by rw [Stmt.semThen]; exact semL_plain xs
theorem semElse_plain : ∀ (o : Option (List Stmt)), PlainL (Stmt.semElse o)
  | none => by rw [Stmt.semElse]; exact .skip
  | some xs => by rw [Stmt.semElse]; exact .seq (.ins trivial) (semL_plain xs)
end

theorem bodyLang_plain (body : List Stmt) : PlainL (bodyLang body) := .seq (.ins trivial) (semL_plain body)

theorem IntOK.plain {c : Code} {x : Intention} (h : IntOK c x) {pc : Nat} (hp : x.instr = some pc) : (c.instr pc).f.plain := by
  obtain ⟨body, c₀, tr, e1, e2, e3, e4, e5, e6⟩ := h.at hp
  rw [e6]
  have hi := (compileBody_region (body := body) (c := c₀) (c' := compileBody body c₀) fun _ _ _ => rfl).implements
  have hy := Path.snoc_yes e2
  have hm : (((compileBody body c₀).instr pc).f, true) ∈ tr ++ [(((compileBody body c₀).instr pc).f, true)] := by simp
  cases hs : ((compileBody body c₀).instr pc).success with
  | none => rw [hs] at hy; exact bodyLang_plain body _ _ ((hi.done _).1 hy) _ hm
  | some l => rw [hs] at hy; exact bodyLang_plain body _ _ ((hi.part _).1 ⟨l, hy⟩) _ hm

section
variable [Host]

/-! ## Histories -/

/-- What a trace does to stacks and bindings; between the instructions there may be new
bindings. -/
def Trace.acts : Trace → Contents × BSt → Contents × BSt → Prop
  | [], x, y => Idle x y
  | (f, _) :: tr, x, y => ∃ z w, Idle x z ∧ f.acts z w ∧ Trace.acts tr w y

theorem Trace.acts_idle : ∀ {tr : Trace} {x y z : Contents × BSt}, Trace.acts tr x y → Idle y z → Trace.acts tr x z
  | [], _, _, _, h, h' => Idle.trans h h'
  | _ :: _, _, _, _, ⟨u, v, h1, h2, h3⟩, h' => ⟨u, v, h1, h2, Trace.acts_idle h3 h'⟩

theorem Trace.idle_acts : ∀ {tr : Trace} {x y z : Contents × BSt}, Idle x y → Trace.acts tr y z → Trace.acts tr x z
  | [], _, _, _, h, h' => Idle.trans h h'
  | _ :: _, _, _, _, h, ⟨u, v, h1, h2, h3⟩ => ⟨u, v, h.trans h1, h2, h3⟩

theorem Trace.acts_append : ∀ (tr tr' : Trace) (x z : Contents × BSt), Trace.acts (tr ++ tr') x z ↔ ∃ y, Trace.acts tr x y ∧ Trace.acts tr' y z
  | [], tr', x, z => ⟨fun h => ⟨x, Idle.refl x, h⟩, fun ⟨_, h1, h2⟩ => Trace.idle_acts h1 h2⟩
  | p :: tr, tr', x, z => by
    constructor
    · rintro ⟨u, v, h1, h2, h3⟩
      obtain ⟨y, h4, h5⟩ := (Trace.acts_append tr tr' v z).1 h3
      exact ⟨y, ⟨u, v, h1, h2, h4⟩, h5⟩
    · rintro ⟨y, ⟨u, v, h1, h2, h3⟩, h4⟩
      exact ⟨u, v, h1, h2, (Trace.acts_append tr tr' v z).2 ⟨y, h3, h4⟩⟩

theorem Trace.acts_snoc {tr : Trace} {f : InstrF} {ok : Bool} {x y z : Contents × BSt} (h : Trace.acts tr x y) (h' : f.acts y z) :
    Trace.acts (tr ++ [(f, ok)]) x z := (Trace.acts_append _ _ _ _).2 ⟨y, h, y, z, Idle.refl _, h', Idle.refl _⟩

theorem History.acts {i : Nat} {s s' : QSt World} {tr : Trace} (hr : Reachable s) (ho : Orderly s.w) (hi : i < s.w.nint) (h : History i s tr s') :
    Orderly s'.w ∧ ∃ y, tr.acts (s.w.ints i).frame y ∧ (Idle y (s'.w.ints i).frame ∨
      ∃ pc, (s'.w.ints i).instr = some pc ∧ (s'.w.code.instr pc).f = .nextOrFail ∧ InstrF.nextOrFail.acts y (s'.w.ints i).frame) := by
  induction h with
  | refl => exact ⟨ho, _, Idle.refl _, .inl (.refl _)⟩
  | @runs tr s₁ a f ok s' hh h ih =>
    obtain ⟨i1, y, i2, i3⟩ := ih
    have hr₁ := hh.reachable hr
    obtain ⟨⟨n, h0⟩, _, pc, h1, h2, _⟩ := h.spec hr₁.stacksOK
    have ha := h.acts hr₁.stacksOK i1 (by rw [h2]; exact (hr₁.codeOK.ints i id).plain h1)
    refine ⟨i1.step hr₁.stacksOK h0, _, ?_, .inl (.refl _)⟩
    rcases i3 with i3 | ⟨pc', j1, j2, j3⟩
    · exact Trace.acts_snoc (Trace.acts_idle i2 i3) ha
    · rw [h1] at j1
      cases j1
      rw [j2] at h2
      subst h2
      exact Trace.acts_snoc i2 (nextOrFail_acts_trans j3 ha)
  | @raises tr s₁ a s' hh h ih =>
    obtain ⟨i1, y, i2, i3⟩ := ih
    have hr₁ := hh.reachable hr
    obtain ⟨⟨n, h0⟩, _, pc, h1, h2, _⟩ := h.spec hr₁.stacksOK
    refine ⟨i1.step hr₁.stacksOK h0, y, i2, ?_⟩
    have ha := h.acts hr₁.stacksOK i1 fun pc h => (hr₁.codeOK.ints i id).plain h
    obtain ⟨_, _, _, e1, _, _, _, e2, _⟩ := (hr₁.codeOK.ints i id).at h1
    have hc : s'.w.code.instr pc = s₁.w.code.instr pc := (step_code hr₁.stacksOK h0).old pc (Nat.lt_of_lt_of_le e2 e1.size)
    rcases i3 with i3 | ⟨pc', j1, j2, j3⟩ <;> rcases ha with h3 | ⟨pc'', h5, h3, h4⟩
    · exact .inl (i3.trans h3)
    · rw [h1] at h5
      cases h5
      obtain ⟨k1, g, g', r, k2, k3, k4⟩ := h4
      exact .inr ⟨pc, h2, by rw [hc]; exact h3, by rw [k1, i3.1], g, g', r, by rw [← i3.1]; exact k2, k3, fun b₀ h => k4 b₀ (h.mono i3.2)⟩
    · rw [h1] at j1
      cases j1
      exact .inr ⟨pc, h2, by rw [hc]; exact j2, nextOrFail_acts_idle j3 h3⟩
    · rw [h1] at h5
      cases h5
      exact .inr ⟨pc, h2, by rw [hc]; exact h3, nextOrFail_acts_trans j3 h4⟩
  | @rests tr s₁ a s' hh h ih =>
    obtain ⟨i1, y, i2, i3⟩ := ih
    have hr₁ := hh.reachable hr
    have hn := (hh.moves hr hi).1
    have ha := h.acts hr₁.stacksOK hn
    obtain ⟨h1, h2⟩ := h.spec hr₁.stacksOK hn
    obtain ⟨n, h0⟩ := h.1
    refine ⟨i1.step hr₁.stacksOK h0, y, i2, ?_⟩
    rcases i3 with i3 | ⟨pc, j1, j2, j3⟩
    · exact .inl (i3.trans ha)
    · obtain ⟨_, _, _, e1, _, _, _, e2, _⟩ := (hr₁.codeOK.ints i id).at j1
      have hc : s'.w.code.instr pc = s₁.w.code.instr pc := (step_code hr₁.stacksOK h0).old pc (Nat.lt_of_lt_of_le e2 e1.size)
      exact .inr ⟨pc, h1.trans j1, by rw [hc]; exact j2, nextOrFail_acts_idle j3 ha⟩
  | sleeps _ h ih =>
    rw [sleep_eq h]
    exact ⟨⟨ih.1.below, ih.1.rules, ih.1.bels⟩, ih.2⟩

/-- Right after an instruction has been run. -/
theorem History.runs_acts {i a : Nat} {s s₁ s₂ : QSt World} {tr : Trace} {f : InstrF} {ok : Bool} (hr : Reachable s) (ho : Orderly s.w) (hi : i < s.w.nint)
    (h : History i s tr s₁) (h' : Runs a i f ok s₁ s₂) : (tr ++ [(f, ok)]).acts (s.w.ints i).frame (s₂.w.ints i).frame := by
  obtain ⟨i1, y, i2, i3⟩ := h.acts hr ho hi
  have hr₁ := h.reachable hr
  obtain ⟨_, _, pc, h1, h2, _⟩ := h'.spec hr₁.stacksOK
  have ha := h'.acts hr₁.stacksOK i1 (by rw [h2]; exact (hr₁.codeOK.ints i id).plain h1)
  rcases i3 with i3 | ⟨pc', j1, j2, j3⟩
  · exact Trace.acts_snoc (Trace.acts_idle i2 i3) ha
  · rw [h1] at j1
    cases j1
    rw [j2] at h2
    subst h2
    exact Trace.acts_snoc i2 (nextOrFail_acts_trans j3 ha)

/-! ## Statements -/

/-- From `P`, traces of `L` lead to `R` when they are complete, and always to bindings above `b₀`. -/
def Hoare (b₀ : BSt) (L : Lang) (P R : Contents × BSt → Prop) : Prop :=
  ∀ tr o x y, L tr o → tr.acts x y → P x → Above b₀ y.2 ∧ (o = .done → R y)

/-- Assertions about stacks and bindings. -/
structure Assertion (b₀ : BSt) (P : Contents × BSt → Prop) : Prop where
  idle : ∀ x y, Idle x y → P x → P y
  above : ∀ x, P x → Above b₀ x.2

namespace Hoare
open Lang

variable {b₀ : BSt} {A B L : Lang} {P M M' R : Contents × BSt → Prop}

theorem skip (hP : Assertion b₀ P) : Hoare b₀ skip P P := by
  rintro _ _ x y ⟨rfl, rfl⟩ ha hx
  have := hP.idle x y ha hx
  exact ⟨hP.above _ this, fun _ => this⟩

theorem ins {f : InstrF} (hP : Assertion b₀ P) (hR : Assertion b₀ R) (h : ∀ x y, P x → f.acts x y → R y) : Hoare b₀ (ins f) P R := by
  intro tr o x y hl ha hx
  cases hl with
  | part => exact ⟨hP.above _ (hP.idle x y ha hx), nofun⟩
  | done =>
    obtain ⟨u, v, h1, h2, h3⟩ := ha
    have := hR.idle _ _ h3 (h _ _ (hP.idle _ _ h1 hx) h2)
    exact ⟨hR.above _ this, fun _ => this⟩
  | failed =>
    obtain ⟨u, v, h1, h2, h3⟩ := ha
    have := hR.idle _ _ h3 (h _ _ (hP.idle _ _ h1 hx) h2)
    exact ⟨hR.above _ this, fun _ => this⟩

theorem seq (hA : Hoare b₀ A P M) (hB : Hoare b₀ B M R) : Hoare b₀ (seq A B) P R := by
  intro tr o x y hl ha hx
  cases hl with
  | first h h' => exact ⟨(hA _ _ _ _ h ha hx).1, fun ho => absurd ho h'⟩
  | both h h' =>
    obtain ⟨z, h1, h2⟩ := (Trace.acts_append _ _ _ _).1 ha
    exact hB _ _ _ _ h' h2 ((hA _ _ _ _ h h1 hx).2 rfl)

theorem cond (hP : Assertion b₀ P) (hn : ∀ x y, P x → InstrF.nextOrFail.acts x y → M y) (hA : Hoare b₀ A M R) (hB : Hoare b₀ B M R) :
    Hoare b₀ (cond A B) P R := by
  intro tr o x y hl ha hx
  cases hl with
  | part => exact ⟨hP.above _ (hP.idle x y ha hx), nofun⟩
  | yes h =>
    obtain ⟨u, v, h1, h2, h3⟩ := ha
    exact hA _ _ _ _ h h3 (hn _ _ (hP.idle _ _ h1 hx) h2)
  | no h =>
    obtain ⟨u, v, h1, h2, h3⟩ := ha
    exact hB _ _ _ _ h h3 (hn _ _ (hP.idle _ _ h1 hx) h2)

theorem loop (hM : Assertion b₀ M) (hL : Hoare b₀ L P M) (hn : ∀ x y, M x → InstrF.nextOrFail.acts x y → M' y) (hA : Hoare b₀ A M' P)
    (hB : Hoare b₀ B M' R) : Hoare b₀ (loop L A B) P R := by
  intro tr o x y hl
  induction hl generalizing x with
  | before h h' => exact fun ha hx => ⟨(hL _ _ _ _ h ha hx).1, fun ho => absurd ho h'⟩
  | test h => exact fun ha hx => ⟨(hL _ _ _ _ h ha hx).1, nofun⟩
  | stop h h' h'' =>
    intro ha hx
    obtain ⟨z, h1, u, v, h2, h3, h4⟩ := (Trace.acts_append _ _ _ _).1 ha
    exact ⟨(hA _ _ _ _ h' h4 (hn _ _ (hM.idle _ _ h2 ((hL _ _ _ _ h h1 hx).2 rfl)) h3)).1, fun ho => absurd ho h''⟩
  | again h h' _ ih =>
    intro ha hx
    obtain ⟨z, h1, u, v, h2, h3, h4⟩ := (Trace.acts_append _ _ _ _).1 ha
    obtain ⟨z', h5, h6⟩ := (Trace.acts_append _ _ _ _).1 h4
    exact ih _ h6 ((hA _ _ _ _ h' h5 (hn _ _ (hM.idle _ _ h2 ((hL _ _ _ _ h h1 hx).2 rfl)) h3)).2 rfl)
  | leave h h' =>
    intro ha hx
    obtain ⟨z, h1, u, v, h2, h3, h4⟩ := (Trace.acts_append _ _ _ _).1 ha
    exact hB _ _ _ _ h' h4 (hn _ _ (hM.idle _ _ h2 ((hL _ _ _ _ h h1 hx).2 rfl)) h3)

end Hoare

/-- The stacks, and bindings above `b₀`. -/
def At (Q : List (Gen Act ActGen)) (C : List Nat) (b₀ : BSt) (x : Contents × BSt) : Prop := x.1 = (Q, C) ∧ Above b₀ x.2

/-- A query that was started in `b₀` is on top. -/
def AtQ (Q : List (Gen Act ActGen)) (C : List Nat) (b₀ : BSt) (x : Contents × BSt) : Prop := ∃ g, x.1 = (g :: Q, C) ∧ Asked g b₀ x.2

/-- In the body of `while`. -/
def AtW (Q : List (Gen Act ActGen)) (C : List Nat) (b₀ : BSt) (x : Contents × BSt) : Prop :=
  ∃ b₁, Above b₀ b₁ ∧ x.1 = (Q, b₁.ncp :: C) ∧ Above b₁.mark x.2

/-- At the query of `while`. -/
def AtWQ (Q : List (Gen Act ActGen)) (C : List Nat) (b₀ : BSt) (x : Contents × BSt) : Prop :=
  ∃ b₁ g, Above b₀ b₁ ∧ x.1 = (g :: Q, b₁.ncp :: C) ∧ Asked g b₁.mark x.2

/-- A finished query is on top. -/
def AtG (Q : List (Gen Act ActGen)) (C : List Nat) (b₀ : BSt) (x : Contents × BSt) : Prop := ∃ g, x.1 = (g :: Q, C) ∧ Above b₀ x.2

theorem Asked.above {g : Gen Act ActGen} {b₀ b : BSt} (h : Asked g b₀ b) : Above b₀ b := h.1.above

section
variable {Q : List (Gen Act ActGen)} {C : List Nat} {b₀ : BSt}

omit [Host] in
theorem At.assertion : Assertion b₀ (At Q C b₀) :=
  ⟨fun _ _ h h' => ⟨h.1.trans h'.1, h'.2.trans h.2⟩, fun _ h => h.2⟩

theorem AtQ.assertion : Assertion b₀ (AtQ Q C b₀) :=
  ⟨fun _ _ h ⟨g, h1, h2⟩ => ⟨g, h.1.trans h1, h2.mono h.2⟩, fun _ ⟨_, _, h⟩ => h.above⟩

omit [Host] in
theorem AtW.assertion : Assertion b₀ (AtW Q C b₀) :=
  ⟨fun _ _ h ⟨b₁, h1, h2, h3⟩ => ⟨b₁, h1, h.1.trans h2, h3.trans h.2⟩, fun _ ⟨b₁, h1, _, h3⟩ => h1.trans ((above_mark b₁).trans h3)⟩

theorem AtWQ.assertion : Assertion b₀ (AtWQ Q C b₀) :=
  ⟨fun _ _ h ⟨b₁, g, h1, h2, h3⟩ => ⟨b₁, g, h1, h.1.trans h2, h3.mono h.2⟩, fun _ ⟨b₁, _, h1, _, h3⟩ => h1.trans ((above_mark b₁).trans h3.above)⟩

omit [Host] in
theorem AtG.assertion : Assertion b₀ (AtG Q C b₀) :=
  ⟨fun _ _ h ⟨g, h1, h2⟩ => ⟨g, h.1.trans h1, h2.trans h.2⟩, fun _ ⟨_, _, h⟩ => h⟩

theorem asked_start {q : Query Act} (hq : q.Clean fun a _ => a.trailed) {b : BSt} (h : Above b₀ b) : Asked (.start q) b₀ b :=
  ⟨⟨hq, nofun, h⟩, .inr ⟨q, rfl⟩⟩

theorem at_push {q : Query Act} (hq : q.Clean fun a _ => a.trailed) : Hoare b₀ (.ins (.pushQuery q)) (At Q C b₀) (AtQ Q C b₀) :=
  .ins At.assertion AtQ.assertion fun x y h ha => by
    obtain ⟨⟨qs, cs⟩, b⟩ := x
    obtain ⟨h1, h2⟩ := h
    cases h1
    cases ha
    exact ⟨_, rfl, asked_start hq h2⟩

theorem atQ_next (x y : Contents × BSt) (h : AtQ Q C b₀ x) (ha : InstrF.nextOrFail.acts x y) : AtQ Q C b₀ y := by
  obtain ⟨⟨qs, cs⟩, b⟩ := x
  obtain ⟨⟨qs', cs'⟩, b'⟩ := y
  obtain ⟨g, h1, h2⟩ := h
  obtain ⟨h3, g₁, g', r, h4, h5, h6⟩ := ha
  simp only at h1 h2 h3 h4 h5 h6
  cases h1
  cases h4
  subst h3 h5
  exact ⟨g', rfl, h6 _ h2⟩

theorem atWQ_next (x y : Contents × BSt) (h : AtWQ Q C b₀ x) (ha : InstrF.nextOrFail.acts x y) : AtWQ Q C b₀ y := by
  obtain ⟨b₁, g, h1, h2, h3⟩ := h
  obtain ⟨g', h4, h5⟩ := atQ_next (Q := Q) (C := b₁.ncp :: C) (b₀ := b₁.mark) x y ⟨g, h2, h3⟩ ha
  exact ⟨b₁, g', h1, h4, h5⟩

theorem atG_pop : Hoare b₀ (.ins .popQuery) (AtG Q C b₀) (At Q C b₀) :=
  .ins AtG.assertion At.assertion fun x y h ha => by
    obtain ⟨⟨qs, cs⟩, b⟩ := x
    obtain ⟨g, h1, h2⟩ := h
    obtain ⟨g', r, h3, rfl⟩ := ha
    simp only at h1 h2 h3
    cases h1
    cases h3
    exact ⟨rfl, h2⟩

theorem atQ_pop : Hoare b₀ (.ins .popQuery) (AtQ Q C b₀) (At Q C b₀) := fun tr o x y hl ha ⟨g, h1, h2⟩ =>
  atG_pop tr o x y hl ha ⟨g, h1, h2.above⟩

end

mutual
theorem sem_holds : ∀ (x : Stmt), x.Keeping → ∀ (Q : List (Gen Act ActGen)) (C : List Nat) (b₀ : BSt), Hoare b₀ x.sem (At Q C b₀) (At Q C b₀)
  | .add t, _, Q, C, b₀ => by rw [Stmt.sem]; exact .ins At.assertion At.assertion fun x y h ha => At.assertion.idle x y ha h
  | .remove t, _, Q, C, b₀ => by rw [Stmt.sem]; exact .ins At.assertion At.assertion fun x y h ha => At.assertion.idle x y ha h
  | .test t, _, Q, C, b₀ => by rw [Stmt.sem]; exact .ins At.assertion At.assertion fun x y h ha => At.assertion.idle x y ha h
  | .replace p t, _, Q, C, b₀ => by
    rw [Stmt.sem]
    exact .seq (.ins At.assertion At.assertion fun x y h ha => At.assertion.idle x y ha h) (.ins At.assertion At.assertion fun x y h ha => At.assertion.idle x y ha h)
  | .achieve t, _, Q, C, b₀ => by rw [Stmt.sem]; exact .ins At.assertion At.assertion fun x y h ha => At.assertion.idle x y ha h
  | .achieveLater t, _, Q, C, b₀ => by rw [Stmt.sem]; exact .ins At.assertion At.assertion fun x y h ha => At.assertion.idle x y ha h
  | .query q, hq, Q, C, b₀ => by
    rw [Stmt.Keeping] at hq
    rw [Stmt.sem]
    exact .seq (at_push hq) (.seq (.ins AtQ.assertion AtQ.assertion atQ_next) atQ_pop)
  | .forall_ q body, hq, Q, C, b₀ => by
    rw [Stmt.Keeping] at hq
    rw [Stmt.sem]
    refine .seq (at_push hq.1) (.loop (M := AtQ Q C b₀) (M' := AtQ Q C b₀) AtQ.assertion (.skip AtQ.assertion) atQ_next ?_ atQ_pop)
    intro tr o x y hl ha ⟨g, h1, h2⟩
    have := semL_holds body hq.2 (g :: Q) C x.2 tr o x y hl ha ⟨h1, .refl _⟩
    exact ⟨h2.above.trans this.1, fun ho => ⟨g, (this.2 ho).1, h2.mono (this.2 ho).2⟩⟩
  | .ite q thn els, hq, Q, C, b₀ => by
    rw [Stmt.Keeping] at hq
    rw [Stmt.sem]
    refine .seq (at_push hq.1) (.seq (M := AtG Q C b₀) (.cond (M := AtQ Q C b₀) AtQ.assertion atQ_next ?_ ?_) atG_pop)
    · intro tr o x y hl ha ⟨g, h1, h2⟩
      have := semThen_holds thn hq.2.1 (g :: Q) C b₀ tr o x y hl ha ⟨h1, h2.above⟩
      exact ⟨this.1, fun ho => ⟨g, this.2 ho⟩⟩
    · intro tr o x y hl ha ⟨g, h1, h2⟩
      have := semElse_holds els hq.2.2 (g :: Q) C b₀ tr o x y hl ha ⟨h1, h2.above⟩
      exact ⟨this.1, fun ho => ⟨g, this.2 ho⟩⟩
  | .while_ q body, hq, Q, C, b₀ => by
    rw [Stmt.Keeping] at hq
    rw [Stmt.sem]
    refine .loop (M := AtWQ Q C b₀) (M' := AtWQ Q C b₀) AtWQ.assertion ?_ atWQ_next ?_ ?_
    · refine .seq (M := At (.start q :: Q) C b₀) (.ins At.assertion At.assertion fun x y h ha => ?_)
        (.ins At.assertion AtWQ.assertion fun x y h ha => ?_)
      · obtain ⟨⟨qs, cs⟩, b⟩ := x
        obtain ⟨h1, h2⟩ := h
        cases h1
        cases ha
        exact ⟨rfl, h2⟩
      · obtain ⟨⟨qs, cs⟩, b⟩ := x
        obtain ⟨h1, h2⟩ := h
        cases h1
        cases ha
        exact ⟨b, _, h2, rfl, asked_start hq.1 (.refl _)⟩
    · refine .seq (M := AtW Q C b₀) ?_ (.seq (M := AtW Q C b₀) ?_ (.ins AtW.assertion At.assertion fun x y h ha => ?_))
      · intro tr o x y hl ha ⟨b₁, g, h1, h2, h3⟩
        have := atQ_pop (Q := Q) (C := b₁.ncp :: C) (b₀ := b₁.mark) tr o x y hl ha ⟨g, h2, h3⟩
        exact ⟨h1.trans ((above_mark b₁).trans this.1), fun ho => ⟨b₁, h1, this.2 ho⟩⟩
      · intro tr o x y hl ha ⟨b₁, h1, h2, h3⟩
        have := semL_holds body hq.2 Q (b₁.ncp :: C) b₁.mark tr o x y hl ha ⟨h2, h3⟩
        exact ⟨h1.trans ((above_mark b₁).trans this.1), fun ho => ⟨b₁, h1, this.2 ho⟩⟩
      · obtain ⟨⟨qs, cs⟩, b⟩ := x
        obtain ⟨b₁, h1, h2, h3⟩ := h
        obtain ⟨c, r, h4, rfl⟩ := ha
        simp only at h2 h3 h4
        cases h2
        cases h4
        exact ⟨rfl, h1.trans (same_reroll h3).above⟩
    · refine .seq (M := AtG Q C b₀) (.ins AtWQ.assertion AtG.assertion fun x y h ha => ?_) atG_pop
      obtain ⟨⟨qs, cs⟩, b⟩ := x
      obtain ⟨b₁, g, h1, h2, h3⟩ := h
      obtain ⟨c, r, h4, rfl⟩ := ha
      simp only at h2 h3 h4
      cases h2
      cases h4
      exact ⟨g, rfl, h1.trans (same_reroll h3.above).above⟩
theorem semL_holds : ∀ (xs : List Stmt), Stmt.KeepingL xs → ∀ (Q : List (Gen Act ActGen)) (C : List Nat) (b₀ : BSt),
    Hoare b₀ (Stmt.semL xs) (At Q C b₀) (At Q C b₀)
  | [], _, Q, C, b₀ => by rw [Stmt.semL]; exact .skip At.assertion
  | x :: xs, h, Q, C, b₀ => by
    rw [Stmt.KeepingL] at h
    rw [Stmt.semL]
    exact .seq (sem_holds x h.1 Q C b₀) (semL_holds xs h.2 Q C b₀)
theorem semThen_holds : ∀ (o : Option (List Stmt)), Stmt.KeepingO o → ∀ (Q : List (Gen Act ActGen)) (C : List Nat) (b₀ : BSt),
    Hoare b₀ (Stmt.semThen o) (At Q C b₀) (At Q C b₀)
  | none, _, Q, C, b₀ => by rw [Stmt.semThen]; exact .skip At.assertion
  | some xs, h, Q, C, b₀ => by
    rw [Stmt.KeepingO] at h
    rw [Stmt.semThen]
    exact semL_holds xs h Q C b₀
theorem semElse_holds : ∀ (o : Option (List Stmt)), Stmt.KeepingO o → ∀ (Q : List (Gen Act ActGen)) (C : List Nat) (b₀ : BSt),
    Hoare b₀ (Stmt.semElse o) (At Q C b₀) (At Q C b₀)
  | none, _, Q, C, b₀ => by rw [Stmt.semElse]; exact .skip At.assertion
  | some xs, h, Q, C, b₀ => by
    rw [Stmt.KeepingO] at h
    rw [Stmt.semElse]
    exact .seq (.ins At.assertion At.assertion fun x y h ha => At.assertion.idle x y ha h) (semL_holds xs h Q C b₀)
end

theorem bodyLang_holds {body : List Stmt} (h : Stmt.KeepingL body) (Q : List (Gen Act ActGen)) (C : List Nat) (b₀ : BSt) :
    Hoare b₀ (bodyLang body) (At Q C b₀) (At Q C b₀) :=
  .seq (.ins At.assertion At.assertion fun x y h ha => At.assertion.idle x y ha h) (semL_holds body h Q C b₀)

/-! ## Reachable states -/

theorem lits_inv : Inv fun w => ∀ k, ∀ b ∈ w.sets k, b.isLiteral = true where
  init _ k b h := by cases h
  frame h hw := by rw [h.sets]; exact hw
  prim h hw := h.bels hw
  agent _ hw := hw
  copy _ _ hw := hw
  rule a r hw := by
    unfold addRule
    split <;> exact hw
  register _ hw := hw

theorem Reachable.orderly {s : QSt World} (hr : Reachable s) (h : RulesKeep s.w) : Orderly s.w :=
  ⟨hr.stacksOK.below, h, hr.inv lits_inv⟩

end

end Verif
