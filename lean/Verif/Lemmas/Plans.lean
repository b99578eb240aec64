import Verif.Spec.Plans
import Verif.Lemmas.QEnum
import Verif.Lemmas.Step

/-! Lemmas about choosing plans. -/

namespace Verif

section
variable [Host]

theorem findPlan_spec {n : Nat} {e : Term} : ∀ {ps : List Plan} {s : QSt World},
    (∃ pre p post s₁ s', ps = pre ++ p :: post ∧ RejectsAll n e pre s s₁ ∧ Accepts n e p s₁ s' ∧
      findPlan n (gnext n) e ps s = .ok (some p) s') ∨
    (∃ s', RejectsAll n e ps s s' ∧ findPlan n (gnext n) e ps s = .ok none s') ∨
    (∃ pre p post s₁ x s', ps = pre ++ p :: post ∧ RejectsAll n e pre s s₁ ∧ Raises n e p s₁ x s' ∧
      findPlan n (gnext n) e ps s = .err x s') ∨
    findPlan n (gnext n) e ps s = .oof
  | [], s => .inr (.inl ⟨s, .nil, rfl⟩)
  | p :: ps, s => by
    have next : ∀ {s₁}, Rejects n e p s s₁ → findPlan n (gnext n) e (p :: ps) s = findPlan n (gnext n) e ps s₁ →
        (∃ pre q post s₁ s', p :: ps = pre ++ q :: post ∧ RejectsAll n e pre s s₁ ∧ Accepts n e q s₁ s' ∧
          findPlan n (gnext n) e (p :: ps) s = .ok (some q) s') ∨
        (∃ s', RejectsAll n e (p :: ps) s s' ∧ findPlan n (gnext n) e (p :: ps) s = .ok none s') ∨
        (∃ pre q post s₁ x s', p :: ps = pre ++ q :: post ∧ RejectsAll n e pre s s₁ ∧ Raises n e q s₁ x s' ∧
          findPlan n (gnext n) e (p :: ps) s = .err x s') ∨
        findPlan n (gnext n) e (p :: ps) s = .oof := by
      intro s₁ hr he
      rw [he]
      rcases findPlan_spec (n := n) (e := e) (ps := ps) (s := s₁) with
        ⟨pre, q, post, s₂, s', h1, h2, h3, h4⟩ | ⟨s', h1, h2⟩ | ⟨pre, q, post, s₂, x, s', h1, h2, h3, h4⟩ | h
      · exact .inl ⟨p :: pre, q, post, s₂, s', by rw [h1]; rfl, .cons hr h2, h3, h4⟩
      · exact .inr (.inl ⟨s', .cons hr h1, h2⟩)
      · exact .inr (.inr (.inl ⟨p :: pre, q, post, s₂, x, s', by rw [h1]; rfl, .cons hr h2, h3, h4⟩))
      · exact .inr (.inr (.inr h))
    cases hu : uaStart n p.head e s.b with
    | oof => exact .inr (.inr (.inr (by simp [findPlan, QSt.onB, hu, Res.onNext])))
    | err x b =>
      exact .inr (.inr (.inl ⟨[], p, ps, s, x, { s with b := b }, rfl, .nil, .head hu, by simp [findPlan, QSt.onB, hu, Res.onNext]⟩))
    | ok o b =>
      cases o with
      | none => exact next (.head hu) (by simp [findPlan, QSt.onB, hu, Res.onNext])
      | some c =>
        cases hg : gnext n (.start p.context) { s with b := b } with
        | oof => exact .inr (.inr (.inr (by simp [findPlan, QSt.onB, hu, Res.onNext, hg])))
        | err x s' =>
          exact .inr (.inr (.inl ⟨[], p, ps, s, x, s', rfl, .nil, .context hu hg, by simp [findPlan, QSt.onB, hu, Res.onNext, hg]⟩))
        | ok o s' =>
          cases o with
          | none => exact next (.context hu hg) (by simp [findPlan, QSt.onB, hu, Res.onNext, hg])
          | some g => exact .inl ⟨[], p, ps, s, s', rfl, .nil, .mk hu hg, by simp [findPlan, QSt.onB, hu, Res.onNext, hg]⟩

theorem evaluate_literal {n : Nat} {sc : Scope} {t t' : Term} (ht : t.isLiteral = true) (h : evaluate n sc t = .ok t') :
    t' ≠ .wild ∧ ∀ y, t' ≠ .var y := by
  cases t <;> simp [Term.isLiteral] at ht
  cases n with
  | zero => simp [evaluate] at h
  | succ n =>
    simp [evaluate] at h
    subst h
    exact ⟨nofun, nofun⟩

/-- The contract of queries without actions in world `w`. -/
def fixedWorld (w : World) (hw : Plain w) : ActTrail World Act ActGen :=
  noActs (fun w' => w' = w) (fun _ h => h ▸ hw.rules) (fun _ h => h ▸ hw.bels)

theorem context_out {n : Nat} {p : Plan} {s : QSt World} (hw : Plain s.w) (hp : p.Clean) :
    Out (fixedWorld s.w hw) true true s.b (gnext n (.start p.context) s) :=
  gnext_trail (T := fixedWorld s.w hw) noActs_good n (.start p.context) s true true s.b rfl ⟨hp.2, fun _ => Query.settles_clean hp.2, rel_refl _ _⟩

theorem Rejects.same {n : Nat} {e : Term} {p : Plan} {s s' : QSt World} (hw : Plain s.w) (hp : p.Clean) (he : e.isLiteral = true)
    (h : Rejects n e p s s') : s'.w = s.w ∧ Same s.b s'.b := by
  have tr := ua_trail n p.head e s.b
  cases h with
  | head h => exact ⟨rfl, tr.none _ h⟩
  | @context c b s₁ h1 h2 =>
    obtain ⟨rfl, _, h3⟩ := tr.some _ _ h1
    have h3 : Above s.b.mark b := by
      rcases h3 with h3 | ⟨_, m, r', h4, h5⟩
      · exact h3
      · have := evaluate_literal he h4
        rcases h5 with rfl | ⟨y, rfl⟩
        · exact absurd rfl this.1
        · exact absurd rfl (this.2 y)
    obtain ⟨h6, h7⟩ := (context_out (s := { s with b := b }) hw hp).onNone _ h2
    exact ⟨h6, same_reroll (h3.trans (rel_above h7))⟩

theorem RejectsAll.same {n : Nat} {e : Term} {ps : List Plan} {s s' : QSt World} (hw : Plain s.w) (hp : ∀ p ∈ ps, p.Clean)
    (he : e.isLiteral = true) (h : RejectsAll n e ps s s') : s'.w = s.w ∧ Same s.b s'.b := by
  induction h with
  | nil => exact ⟨rfl, .refl _⟩
  | @cons p ps s s₁ s' h1 h2 ih =>
    obtain ⟨h3, h4⟩ := h1.same hw (hp _ (by simp)) he
    obtain ⟨h5, h6⟩ := ih (h3 ▸ hw) fun p hm => hp p (by simp [hm])
    exact ⟨h5.trans h3, h4.trans h6⟩

theorem RejectsAll.inapplicable {n : Nat} {e : Term} {ps : List Plan} {s s' : QSt World} (hw : Plain s.w) (hp : ∀ p ∈ ps, p.Clean)
    (he : e.isLiteral = true) (hb : Same BSt.init s.b) (h : RejectsAll n e ps s s') : ∀ p ∈ ps, Inapplicable n e s.w p := by
  induction h with
  | nil => simp
  | @cons p ps s s₁ s' h1 h2 ih =>
    obtain ⟨h3, h4⟩ := h1.same hw (hp _ (by simp)) he
    intro q hq
    rcases List.mem_cons.1 hq with rfl | hq
    · exact ⟨s, s₁, hb, rfl, h1⟩
    · exact h3 ▸ ih (h3 ▸ hw) (fun p hm => hp p (by simp [hm])) (hb.trans h4) q hq

theorem Accepts.world {n : Nat} {e : Term} {p : Plan} {s s' : QSt World} (hw : Plain s.w) (hp : p.Clean) (h : Accepts n e p s s') :
    s'.w = s.w := by
  cases h with
  | @mk c b g h1 h2 => exact ((context_out (s := { s with b := b }) hw hp).onSome _ _ h2).1

end

theorem attach_spec {i c : Nat} : ∀ (sts : List (List Nat)),
    (∃ l st r, sts = l ++ (c :: st) :: r ∧ (∀ st', (c :: st') ∉ l) ∧ attach i c sts = .ok (some (l ++ (i :: c :: st) :: r))) ∨
    ((∀ st, (c :: st) ∉ sts) ∧ attach i c sts = .ok none) ∨
    ([] ∈ sts ∧ attach i c sts = .err (.py "IndexError"))
  | [] => .inr (.inl ⟨by simp, rfl⟩)
  | [] :: rest => .inr (.inr ⟨by simp, rfl⟩)
  | (j :: st) :: rest => by
    by_cases hj : j = c
    · subst hj
      exact .inl ⟨[], st, rest, rfl, by simp, by simp [attach]⟩
    · rcases attach_spec (i := i) (c := c) rest with ⟨l, st', r, h1, h2, h3⟩ | ⟨h1, h2⟩ | ⟨h1, h2⟩
      · refine .inl ⟨(j :: st) :: l, st', r, by rw [h1]; rfl, fun st'' => ?_, by simp [attach, hj, h3, Ev.map, Ev.bind]⟩
        simp only [List.mem_cons, List.cons.injEq, not_or, not_and]
        exact ⟨fun h => absurd h.symm hj, h2 st''⟩
      · refine .inr (.inl ⟨fun st'' => ?_, by simp [attach, hj, h2, Ev.map, Ev.bind]⟩)
        simp only [List.mem_cons, List.cons.injEq, not_or, not_and]
        exact ⟨fun h => absurd h.symm hj, h1 st''⟩
      · exact .inr (.inr ⟨by simp [h1], by simp [attach, hj, h2, Ev.map, Ev.bind]⟩)

section
variable [Host]

omit [Host] in
theorem startPlan_cases {a i calling : Nat} {delayed : Bool} {t e : Term} {p : Plan} {b : BSt} {w : World} {s : QSt World}
    (hi : i = w.nint) (hs : s.w = { w.setInt w.nint {} with nint := w.nint + 1 }) :
    (∃ s', startPlan a i calling delayed t e p b s = .ok true s' ∧ Begun a t e p b calling delayed w s'.w ∧ s'.b = s.b) ∨
    delayed = false ∧ [] ∈ (w.ags a).intentions ∧ ∃ s', startPlan a i calling delayed t e p b s = .err (.py "IndexError") s' := by
  subst hi
  have hag : s.w.ags = w.ags := by rw [hs]; rfl
  have hints : ∀ j, j ≠ w.nint → s.w.ints j = w.ints j := fun j hj => by
    rw [hs]; exact ints_setInt hj
  have hnew : s.w.ints w.nint = {} := by rw [hs]; simp [World.setInt]
  have key : ∀ (sts : List (List Nat)), Placed w.nint calling delayed (w.ags a).intentions sts →
      Begun a t e p b calling delayed w ((s.w.setInt w.nint { s.w.ints w.nint with
        headTerm := some e, instr := some p.body, callingTerm := some t, b := b }).setAg a
          { s.w.ags a with intentions := sts }) := by
    intro sts hst
    refine ⟨?_, ?_, ?_, ?_, ?_, ?_, ?_, ?_, ?_, ?_⟩
    · rw [hs]; rfl
    · simp [World.setAg, World.setInt, hnew]
    · intro j hj
      simp only [World.setAg, World.setInt, if_neg hj]
      exact hints j hj
    · simpa [World.setAg, hag] using hst
    · simp [World.setAg, hag]
    · intro a' ha
      simp only [World.setAg, World.setInt, if_neg ha, hag]
    · rw [hs]; rfl
    · rw [hs]; rfl
    · rw [hs]; rfl
    · rw [hs]; rfl
  unfold startPlan
  simp only
  have hst : ((s.w.setInt w.nint { s.w.ints w.nint with
      headTerm := some e, instr := some p.body, callingTerm := some t, b := b }).ags a).intentions = (w.ags a).intentions := by
    simp [World.setInt, hag]
  rw [hst]
  cases delayed with
  | true =>
    refine .inl ⟨_, rfl, key _ (.new (.inl rfl)), rfl⟩
  | false =>
    simp only [Bool.false_eq_true, if_false]
    rcases attach_spec (i := w.nint) (c := calling) (w.ags a).intentions with ⟨l, st, r, h1, h2, h3⟩ | ⟨h1, h2⟩ | ⟨h1, h2⟩
    · rw [h3]
      exact .inl ⟨_, rfl, key _ (h1 ▸ .onTop rfl h2), rfl⟩
    · rw [h2]
      exact .inl ⟨_, rfl, key _ (.new (.inr h1)), rfl⟩
    · rw [h2]
      exact .inr ⟨trivial, h1, _, rfl⟩

omit [Host] in
theorem startPlan_ok {a i calling : Nat} {delayed r : Bool} {t e : Term} {p : Plan} {b : BSt} {s s' : QSt World}
    (h : startPlan a i calling delayed t e p b s = .ok r s') : r = true ∧
      s'.w.ints i = { s.w.ints i with headTerm := some e, instr := some p.body, callingTerm := some t, b := b } ∧
      (∀ j, j ≠ i → s'.w.ints j = s.w.ints j) ∧ Placed i calling delayed (s.w.ags a).intentions (s'.w.ags a).intentions ∧
      (∀ a', a' ≠ a → s'.w.ags a' = s.w.ags a') ∧ s'.w.sets = s.w.sets := by
  unfold startPlan at h
  simp only at h
  have hst : ((s.w.setInt i { s.w.ints i with
      headTerm := some e, instr := some p.body, callingTerm := some t, b := b }).ags a).intentions = (s.w.ags a).intentions := rfl
  rw [hst] at h
  have key : ∀ sts, Placed i calling delayed (s.w.ags a).intentions sts → .ok true ({ s with w :=
      ((s.w.setInt i { s.w.ints i with headTerm := some e, instr := some p.body, callingTerm := some t, b := b }).setAg a
        { s.w.ags a with intentions := sts }) } : QSt World) = Res.ok r s' → r = true ∧
      s'.w.ints i = { s.w.ints i with headTerm := some e, instr := some p.body, callingTerm := some t, b := b } ∧
      (∀ j, j ≠ i → s'.w.ints j = s.w.ints j) ∧ Placed i calling delayed (s.w.ags a).intentions (s'.w.ags a).intentions ∧
      (∀ a', a' ≠ a → s'.w.ags a' = s.w.ags a') ∧ s'.w.sets = s.w.sets := fun sts hst h => by
    simp only [Res.ok.injEq] at h
    obtain ⟨rfl, rfl⟩ := h
    refine ⟨rfl, ?_, ?_, ?_, ?_, rfl⟩
    · simp [World.setAg, World.setInt]
    · intro j hj
      simp [World.setAg, World.setInt, hj]
    · simpa [World.setAg] using hst
    · intro a' ha
      simp [World.setAg, World.setInt, ha]
  cases delayed with
  | true => exact key _ (.new (.inl rfl)) h
  | false =>
    simp only [Bool.false_eq_true, if_false] at h
    rcases attach_spec (i := i) (c := calling) (s.w.ags a).intentions with ⟨l, st, q, g1, g2, g3⟩ | ⟨g1, g2⟩ | ⟨g1, g2⟩
    · rw [g3] at h
      exact key _ (by rw [g1]; exact .onTop rfl g2) h
    · rw [g2] at h
      exact key _ (.new (.inr g1)) h
    · rw [g2] at h
      cases h

omit [Host] in
theorem nest_ok {α : Type} {s s' : QSt World} {a i : Nat} {b : BSt} {f : QSt World → Res (QSt World) α} {x : α}
    (h : f { s with b := b, w := { s.w with cur := a, curInt := i } } = .ok x s') :
    s.nest a i b f = .ok (x, s'.b) { s' with b := s.b, w := { s'.w with cur := s.w.cur, curInt := s.w.curInt } } := by
  simp only [QSt.nest, h]

omit [Host] in
theorem nest_err {α : Type} {s s' : QSt World} {a i : Nat} {b : BSt} {f : QSt World → Res (QSt World) α} {x : Err}
    (h : f { s with b := b, w := { s.w with cur := a, curInt := i } } = .err x s') :
    s.nest a i b f = .err x { s' with b := s.b, w := { s'.w with cur := s.w.cur, curInt := s.w.curInt } } := by
  simp only [QSt.nest, h]

omit [Host] in
theorem nest_oof {α : Type} {s : QSt World} {a i : Nat} {b : BSt} {f : QSt World → Res (QSt World) α}
    (h : f { s with b := b, w := { s.w with cur := a, curInt := i } } = .oof) : s.nest a i b f = .oof := by
  simp only [QSt.nest, h]

/-- What happens if no plan is applicable. -/
def unhandled (n a calling : Nat) (gt : GoalType) (t : Term) (s : QSt World) : Res (QSt World) Bool :=
  match gt with
  | .achievement => .err (.asl "no applicable plan") s
  | .test => testBelief n (gnext n) a calling t s
  | _ => .ok true s

theorem callPlans_cases {n a calling : Nat} {tr : Trigger} {gt : GoalType} {t e : Term} {delayed : Bool} {s : QSt World}
    (hw : PlainAgent s.w a) (hp : ∀ p ∈ s.w.plansFor a (planKey tr gt e), p.Clean) (he : e.isLiteral = true) :
    (∃ pre p post b, s.w.plansFor a (planKey tr gt e) = pre ++ p :: post ∧ (∀ q ∈ pre, Inapplicable n e (s.w.forNew a) q) ∧
      Applicable n e (s.w.forNew a) p b ∧
      ((∃ s', callPlans n (gnext n) a tr gt t e calling delayed s = .ok true s' ∧ Begun a t e p b calling delayed s.w s'.w ∧ s'.b = s.b) ∨
       delayed = false ∧ [] ∈ (s.w.ags a).intentions ∧
        ∃ s', callPlans n (gnext n) a tr gt t e calling delayed s = .err (.py "IndexError") s')) ∨
    ((∀ q ∈ s.w.plansFor a (planKey tr gt e), Inapplicable n e (s.w.forNew a) q) ∧
      ∃ s', Quiet s.w s'.w ∧ s'.b = s.b ∧ s'.w.cur = s.w.cur ∧ s'.w.curInt = s.w.curInt ∧ s'.w.nint = s.w.nint + 1 ∧
        ((∀ a, ∀ st ∈ (s.w.ags a).intentions, ∀ i ∈ st, i < s.w.nint) → s.nv ≤ s'.nv) ∧
        callPlans n (gnext n) a tr gt t e calling delayed s = unhandled n a calling gt t s') ∨
    (∃ pre p post x s', s.w.plansFor a (planKey tr gt e) = pre ++ p :: post ∧ (∀ q ∈ pre, Inapplicable n e (s.w.forNew a) q) ∧
      RaisesIn n e (s.w.forNew a) p x ∧ callPlans n (gnext n) a tr gt t e calling delayed s = .err x s') ∨
    callPlans n (gnext n) a tr gt t e calling delayed s = .oof := by
  let s₀ : QSt World := ⟨BSt.init, s.nv, s.w.forNew a⟩
  have hw₀ : Plain (W := World) (A := Act) (G := ActGen) s₀.w := ⟨fun g r hr => (hw g).1 r hr, fun g b hb => (hw g).2 b hb⟩
  have hcall : callPlans n (gnext n) a tr gt t e calling delayed s =
      (QSt.nest { s with w := { s.w.setInt s.w.nint {} with nint := s.w.nint + 1 } } a s.w.nint BSt.init
        (findPlan n (gnext n) e (s.w.plansFor a (planKey tr gt e)))).bind fun ob s' =>
          match ob with
          | (some p, b) => startPlan a s.w.nint calling delayed t e p b s'
          | (none, _) => unhandled n a calling gt t s' := rfl
  rcases findPlan_spec (n := n) (e := e) (ps := s.w.plansFor a (planKey tr gt e)) (s := s₀) with
    ⟨pre, p, post, s₁, s₂, h1, h2, h3, h4⟩ | ⟨s₁, h1, h2⟩ | ⟨pre, p, post, s₁, x, s₂, h1, h2, h3, h4⟩ | h
  · left
    have hpre : ∀ q ∈ pre, q.Clean := fun q hq => hp q (by simp [h1, hq])
    have hpp : p.Clean := hp p (by simp [h1])
    obtain ⟨g1, g2⟩ := h2.same hw₀ hpre he
    have g3 := h3.world (g1 ▸ hw₀) hpp
    refine ⟨pre, p, post, s₂.b, h1, h2.inapplicable hw₀ hpre he (.refl _), ⟨s₁, s₂, g2, g1, h3, rfl⟩, ?_⟩
    rw [hcall, nest_ok h4]
    simp only [Res.bind]
    exact startPlan_cases rfl (by simp only [g3, g1, s₀, World.forNew])
  · right; left
    obtain ⟨g1, g2⟩ := h1.same hw₀ hp he
    refine ⟨h1.inapplicable hw₀ hp he (.refl _), { s₁ with b := s.b, w := { s₁.w with cur := s.w.cur, curInt := s.w.curInt } }, ?_, rfl, rfl, rfl, ?_, ?_, ?_⟩
    · simp only [g1, s₀, World.forNew]
      exact ⟨rfl, fun j hj => ints_setInt hj, rfl, rfl, rfl⟩
    · simp only [g1, s₀, World.forNew]
    · intro hst
      have hP : Stable s₀.w fun s' => Base s₀.w s'.w ∧ s.nv ≤ s'.nv :=
        ⟨fun _ _ h hp => ⟨hp.base h.1, by
          cases hp <;> first | exact h.2 | exact Nat.le_trans h.2 (by assumption) | exact Nat.le_trans h.2 (by simp [buildPlan])⟩, fun _ h => h.1⟩
      exact ((findPlan_keeps hP (gnext_keeps n) _ s₀ ⟨⟨Nat.le_refl _, Nat.le_refl _,
        fun a st hs i hi => Nat.lt_succ_of_lt (hst a st hs i hi), .inl rfl, fun r _ hp => .inl ⟨r, hp⟩, .refl _⟩, Nat.le_refl _⟩).of_ok h2).2
    · rw [hcall, nest_ok h2]
      rfl
  · right; right; left
    have hpre : ∀ q ∈ pre, q.Clean := fun q hq => hp q (by simp [h1, hq])
    obtain ⟨g1, g2⟩ := h2.same hw₀ hpre he
    refine ⟨pre, p, post, x, { s₂ with b := s.b, w := { s₂.w with cur := s.w.cur, curInt := s.w.curInt } }, h1, h2.inapplicable hw₀ hpre he (.refl _), ⟨s₁, s₂, g2, g1, h3⟩, ?_⟩
    rw [hcall, nest_err h4]
    rfl
  · right; right; right
    rw [hcall, nest_oof h]
    rfl

theorem wake_ok {n : Nat} {tr : Trigger} {gt : GoalType} {e : Term} :
    ∀ {sts : List (List Nat)} {s s' : QSt World}, wake n tr gt e sts s = .ok () s' →
      ∃ ints, s' = { s with w := { s.w with ints := ints } } ∧
        ∀ j, ints j = s.w.ints j ∨ ∃ x, (s.w.ints j).waiter = some x ∧ ints j = { s.w.ints j with waiter := none }
  | [], s, s', h => by cases h; exact ⟨_, rfl, fun _ => .inl rfl⟩
  | [] :: rest, s, s', h => wake_ok (sts := rest) h
  | (i :: st) :: rest, s, s', h => by
    unfold wake at h
    split at h
    · next ev d hx =>
      split at h
      · exact wake_ok (sts := rest) h
      · split at h
        · obtain ⟨ints, h1, h2⟩ := wake_ok (sts := rest) h
          refine ⟨ints, h1, fun j => ?_⟩
          by_cases hj : j = i
          · subst hj
            have hi : (s.w.setWaiter j none).ints j = { s.w.ints j with waiter := none } := by simp [World.setWaiter, World.setInt]
            rcases h2 j with h2 | ⟨x, h2, h3⟩
            · exact .inr ⟨_, hx, h2.trans hi⟩
            · rw [hi] at h2
              cases h2
          · have hi : (s.w.setWaiter i none).ints j = s.w.ints j := ints_setInt hj
            rcases h2 j with h2 | ⟨x, h2, h3⟩
            · exact .inl (h2.trans hi)
            · exact .inr ⟨x, hi ▸ h2, h3.trans (by rw [hi])⟩
        · exact wake_ok (sts := rest) h
        · cases h
        · cases h
    · exact wake_ok (sts := rest) h

theorem callFrozen_ok {n a : Nat} {tr : Trigger} {gt : GoalType} {t e : Term} {s s' : QSt World}
    (h : callFrozen n a tr gt t s = .ok e s') : Announced n a tr gt t e s s' := by
  unfold callFrozen at h
  simp only [Res.bind_eq_ok] at h
  obtain ⟨f, s₁, h1, h⟩ := h
  unfold QSt.freeze at h1
  split at h1 <;> cases h1
  next m hf =>
  split at h
  · next hl =>
    simp only [Res.bind_eq_ok] at h
    obtain ⟨_, s₂, h2, h⟩ := h
    cases h
    obtain ⟨ints, rfl, h3⟩ := wake_ok h2
    exact ⟨⟨m, hf, rfl⟩, hl, rfl, rfl, rfl, h3, rfl, rfl, rfl, rfl, rfl⟩
  · cases h

theorem call_plans {n a calling : Nat} {tr : Trigger} {gt : GoalType} {t e : Term} {delayed : Bool} {s s₀ s₁ : QSt World}
    (hk : planEvent tr gt = true) (hb : callBeliefs n a tr gt t s = .ok true s₀) (hf : callFrozen n a tr gt t s₀ = .ok e s₁) :
    call n (gnext n) a tr gt t calling delayed s = callPlans n (gnext n) a tr gt t e calling delayed s₁ := by
  unfold call
  simp only [hb, hf, Res.bind_ok]
  cases tr <;> cases gt <;> simp_all [planEvent]

end

end Verif
