import Verif.Lemmas.Messages
import Verif.Lemmas.Env
import Verif.Props.Plans

/-!
# C32, C33: messages between agents

`.send(Receivers, Force, Message)` and `.broadcast(Force, Message)`.  What an agent does with
a message is in `Received`; that is for rules and plan contexts without actions
(`NoActions`), which might do anything else.
-/

namespace Verif

section
variable [Host]

/-- **C32, C33.** The hypothesis `EnvOK` of the following theorems holds in all reachable
states, … -/
theorem C32_reachable {s : QSt World} (hr : Reachable s) : EnvOK s.w :=
  ⟨hr.inv beliefsOK_inv, hr.stacksOK, hr.inv regOK_inv⟩

/-- … and is kept by every atomic change in the course of a step. -/
theorem C32_during {w₀ : World} {s s' : QSt World} (h : EnvOK s.w) (hp : Prim w₀ s s') : EnvOK s'.w :=
  ⟨beliefsOK_inv.prim hp h.beliefs, hp.stacksOK h.stacks, regOK_inv.prim hp h.reg⟩

theorem SentTo.ok {n : Nat} {tr : Trigger} {gt : GoalType} {m : Term} {as : List Nat} {s s' : QSt World} (h : SentTo n tr gt m as s s')
    (hs : EnvOK s.w) : EnvOK s'.w := by
  induction h with
  | nil => exact hs
  | cons h _ ih => exact ih (callNew_envOK hs h)

theorem freeze_content {n : Nat} {t c : Term} {s s' : QSt World} (h : s.freeze n t = .ok c s') :
    ∃ nv', s' = { s with nv := nv' } ∧ ∃ ρ : VarId → VarId, (∀ x y, ρ x = ρ y → x = y) ∧ Copy s.b.scope (fun x y => y = ρ x) t c := by
  unfold QSt.freeze at h
  split at h <;> cases h
  next fm hfz =>
  obtain ⟨ρ, g1, _, g2, _⟩ := C10_freeze_copy hfz
  exact ⟨_, rfl, ρ, g1, g2⟩

/-- **C32.** If `.send` succeeds, all names stand for registered agents, and the message,
a fresh copy signed by the sender, is called on exactly these agents, in this order. -/
theorem C32_send {n : Nat} {F : String} {x y z : Term} {xs : List Term} {s s' : QSt World} {g : ActGen}
    (h : send n (gnext n) (.lit F [x, y, z] xs) s = .ok (some g) s') :
    ∃ r ts as f tr gt c m nv', grounded n s.b.scope x = .ok r ∧ NameList r ts ∧ Named s.w.reg ts as ∧
      grounded n s.b.scope y = .ok (.lit f [] []) ∧ Force f tr gt ∧ Content s.b.scope z gt c ∧
      Signed (s.w.ags s.w.cur).name c m ∧ SentTo n tr gt m as { s with nv := nv' } s' := by
  unfold send at h
  simp only [Res.bind_eq_ok, Res.lift_eq_ok, argAt, List.getElem?_cons_zero, List.getElem?_cons_succ, Ev.bind_eq_ok, Ev.ok.injEq,
    exists_eq_left'] at h
  obtain ⟨r, _, ⟨h1, rfl⟩, ts, _, ⟨h2, rfl⟩, as, _, ⟨h3, rfl⟩, ilf, _, ⟨h4, rfl⟩, h⟩ := h
  have hn := receiverTerms_iff.1 h2
  split at h
  · next f =>
    split at h
    · cases h
    · next tr gt hf =>
      simp only [Res.bind_eq_ok, Res.lift_eq_ok] at h
      obtain ⟨_, _, ⟨h5, rfl⟩, c, s₁, h6, m, _, ⟨h7, rfl⟩, _, s₂, h8, h9⟩ := h
      cases h5
      cases h9
      have h8 := deliver_sentTo.1 h8
      have key : ∃ nv', s₁ = { s with nv := nv' } ∧ Content s.b.scope z gt c := by
        split at h6
        · next hg => cases h6; exact ⟨s.nv, rfl, .text hg⟩
        · next hg =>
          simp only [not_or] at hg
          obtain ⟨nv', rfl, ρ, g1, g2⟩ := freeze_content h6
          exact ⟨_, rfl, .copy hg.1 hg.2 g1 g2⟩
      obtain ⟨nv', rfl, hc⟩ := key
      exact ⟨r, ts, as, f, tr, gt, c, m, nv', h1, hn, findReceivers_named.1 h3, h4, force_iff.1 hf, hc, withAnnotation_signed h7, h8⟩
  · cases h

/-- **C32.** An unknown receiver: `.send` raises, and nothing has changed. -/
theorem C32_unknown_receiver {n : Nat} {F : String} {x y z r : Term} {xs ts : List Term} {s : QSt World}
    (hr : grounded n s.b.scope x = .ok r) (hn : NameList r ts) (hu : Unknown s.w.reg ts) :
    send n (gnext n) (.lit F [x, y, z] xs) s = .err (.py "KeyError") s := by
  have h2 := receiverTerms_iff.2 hn
  unfold send
  simp only [argAt, List.getElem?_cons_zero, Ev.bind, hr, Res.lift, Res.bind]
  rw [h2]
  simp only [findReceivers_unknown hu]

/-- **C32.** An unknown force: `.send` raises, and nothing has changed. -/
theorem C32_unknown_force {n : Nat} {F f : String} {x y z r : Term} {xs ts : List Term} {as : List Nat} {s : QSt World}
    (hr : grounded n s.b.scope x = .ok r) (hn : NameList r ts) (hk : Named s.w.reg ts as)
    (hy : grounded n s.b.scope y = .ok (.lit f [] [])) (hf : ∀ tr gt, ¬ Force f tr gt) :
    ∃ e, send n (gnext n) (.lit F [x, y, z] xs) s = .err e s := by
  have h2 := receiverTerms_iff.2 hn
  have h3 : force false f = none := by
    cases h : force false f with
    | none => rfl
    | some p => exact absurd (force_iff.1 h) (hf _ _)
  unfold send
  simp only [argAt, List.getElem?_cons_zero, List.getElem?_cons_succ, Ev.bind, hr, Res.lift, Res.bind]
  rw [h2]
  simp only [findReceivers_named.2 hk, hy, h3]
  exact ⟨_, rfl⟩

omit [Host] in
theorem Signed.lit {name : String} {c m : Term} (h : Signed name c m) : m.isLiteral = true ∧ sourceAnnot name ∈ m.annots ∧
    ∃ f us zs zs', c = .lit f us zs ∧ m = .lit f us zs' := by
  cases h with
  | new => exact ⟨rfl, by simp [Term.annots], _, _, _, _, rfl, rfl⟩
  | old h => exact ⟨rfl, h, _, _, _, _, rfl, rfl⟩

theorem Content.norm {sc : Scope} {t c : Term} {gt : GoalType} (h : Content sc t gt c) (h1 : gt ≠ .tellHow) (h2 : gt ≠ .askHow) : c.Norm := by
  cases h with
  | text h => rcases h with h | h <;> contradiction
  | copy _ _ _ h => exact h.norm

omit [Host] in
theorem lookup_mem {d : List (String × Nat)} {k : String} {a : Nat} (h : d.lookup k = some a) : (k, a) ∈ d := by
  rw [List.lookup_eq_some_iff] at h
  obtain ⟨l₁, l₂, rfl, _⟩ := h
  simp

omit [Host] in
theorem Named.mem {reg : List (String × Nat)} {ts : List Term} {as : List Nat} (h : Named reg ts as) {a : Nat} (ha : a ∈ as) :
    ∃ name, (name, a) ∈ reg := by
  induction h with
  | nil => simp at ha
  | atom h _ ih =>
    rcases List.mem_cons.1 ha with rfl | ha
    · exact ⟨_, lookup_mem h⟩
    · exact ih ha
  | str h _ ih =>
    rcases List.mem_cons.1 ha with rfl | ha
    · exact ⟨_, lookup_mem h⟩
    · exact ih ha

/-- The events grow. -/
theorem events_stable {w₀ : World} (l : List (Nat × Event)) :
    Stable w₀ fun s => Base w₀ s.w ∧ ∃ pre, s.w.events = pre ++ l where
  prim s s' h hp := by
    refine ⟨hp.base h.1, ?_⟩
    obtain ⟨pre, h⟩ := h.2
    cases hp with
    | event a ev => exact ⟨(a, ev) :: pre, by simp [h]⟩
    | add a f as xs _ => exact ⟨pre, by rw [← h]; exact (setBeliefs_ints (a' := a)).2.1⟩
    | del a g xs _ => exact ⟨pre, by rw [← h]; exact (setBeliefs_ints (a' := a)).2.1⟩
    | plan a src =>
      refine ⟨pre, ?_⟩
      rw [← h]
      exact (buildPlan_ints (a' := a)).2.1
    | _ => exact ⟨pre, h⟩
  base _ h := h.1

/-- **C32.** What a call of `SentTo` does first, whatever is in the rules and plans of the
receiver: the beliefs change (from `s` to `s₀`), and unless there was nothing to remove the
event is on record (from `s₀` to `s₁`).  Then a plan is searched (C23, C24), and no event is
lost. -/
theorem C32_call {n a : Nat} {tr : Trigger} {gt : GoalType} {m : Term} {s s' : QSt World} {r : Bool}
    (hk : gt = .belief ∨ gt = .achievement ∧ tr = .addition) (hr : EnvOK s.w) (hm : m.Norm) (hl : m.isLiteral = true)
    (h : callNew n (gnext n) a tr gt m false s = .ok r s') :
    ∃ o, ∃ s₀ : QSt World, BeliefChange a m tr gt o s.w s₀.w ∧ (∀ a', a' ≠ a → s₀.w.ags a' = s.w.ags a') ∧
      (∃ bs, s₀.w.ags a = { s.w.ags a with beliefs := bs } ∧ NewSets s.w a bs) ∧ s₀.w.events = s.w.events ∧
      (o = none → s'.w.ags = s₀.w.ags ∧ s'.w.sets = s₀.w.sets ∧ s'.w.events = s₀.w.events) ∧
      ∀ sc, o = some sc → s₀.b.scope = sc ∧ ∃ e s₁, Announced n a tr gt m e s₀ s₁ ∧
        ∃ pre, s'.w.events = pre ++ (a, ⟨tr, gt, e⟩) :: s.w.events := by
  unfold callNew QSt.nest at h
  simp only [Res.bind_eq_ok] at h
  obtain ⟨⟨r', b'⟩, s₁, h1, h⟩ := h
  split at h1 <;> cases h1
  next x s₂ h2 =>
  cases h
  have hbase : Base s.w { s.w.setInt s.w.nint {} with nint := s.w.nint + 1 } :=
    ⟨Nat.le_succ _, Nat.le_refl _, fun a st hs i hi => Nat.lt_succ_of_lt (hr.stacks.below a st hs i hi), .inl rfl, fun r _ hp => .inl ⟨r, hp⟩, .refl _⟩
  unfold call at h2
  simp only [Res.bind_eq_ok] at h2
  obtain ⟨go, s₀, g1, h2⟩ := h2
  have hw : BeliefsOK { s.w.setInt s.w.nint {} with nint := s.w.nint + 1 } := hr.beliefs.congr (fun _ => rfl) rfl (Nat.le_refl _)
  obtain ⟨hch, hok, hbc⟩ := callBeliefs_change (s := ⟨BSt.init, s.nv, { s.w.setInt s.w.nint {} with nint := s.w.nint + 1 }⟩) rfl hw hm hl g1
  obtain ⟨bs, hag, hns⟩ := hch.agent
  refine ⟨_, s₀, hbc.left rfl rfl, hch.others, ⟨bs, hag, hns⟩, hch.events, fun ho => ?_, fun sc ho => ?_⟩
  · cases go with
    | true => simp at ho
    | false =>
      simp only [Bool.not_false, if_true] at h2
      cases h2
      exact ⟨rfl, rfl, rfl⟩
  · cases go with
    | false => simp at ho
    | true =>
      simp only [if_true, Option.some.injEq] at ho
      refine ⟨ho, ?_⟩
      simp only [Bool.not_true, Bool.false_eq_true, if_false, Res.bind_eq_ok] at h2
      obtain ⟨e, s₁, h3, h4⟩ := h2
      have hpe : planEvent tr gt = true := by
        rcases hk with rfl | ⟨rfl, rfl⟩
        · cases tr <;> rfl
        · rfl
      have h4 : callPlans n (gnext n) a tr gt m e s.w.nint false s₁ = .ok r' s₂ := by
        rw [← h4]
        cases tr <;> cases gt <;> simp_all [planEvent]
      have ha := callFrozen_ok h3
      have hev := ha.events
      rw [hch.events] at hev
      have hb1 := callFrozen_keeps (s := s₀) (n := n) (a := a) (tr := tr) (gt := gt) (t := m) (events_stable (w₀ := s.w) [])
        (((callBeliefs_keeps (events_stable (w₀ := s.w) []) ⟨hbase, _, (List.append_nil _).symm⟩)).of_ok g1)
      have hb2 := (hb1.of_ok h3).1
      exact ⟨e, s₁, ha, ((callPlans_keeps (events_stable (w₀ := s.w) s₁.w.events) (gnext_keeps n) (.inr (Nat.le_refl _))
        ⟨hb2, [], rfl⟩).of_ok h4).2.imp fun pre hp => hp.trans (by rw [hev]; rfl)⟩

/-- **C32 (tell).** Every receiver believes the message signed by the sender afterwards (or
an equal belief it had already), nobody loses beliefs, nobody gets any other belief, and
agents that share no beliefs with receivers (see C38) get none.  Every receiver got
exactly one event. -/
theorem C32_tell {n : Nat} {F : String} {x y z : Term} {xs : List Term} {s s' : QSt World} {g : ActGen}
    (h : send n (gnext n) (.lit F [x, y, z] xs) s = .ok (some g) s') (hy : grounded n s.b.scope y = .ok (.lit "tell" [] []))
    (hr : EnvOK s.w) (hn : ∀ name a, (name, a) ∈ s.w.reg → NoActions s.w a) :
    ∃ r ts as c m f us zs, grounded n s.b.scope x = .ok r ∧ NameList r ts ∧ Named s.w.reg ts as ∧
      Content s.b.scope z .belief c ∧ Signed (s.w.ags s.w.cur).name c m ∧ m = .lit f us zs ∧
      (∀ a ∈ as, ∃ b ∈ s'.w.beliefs a (f, us.length), b = m ∨ pyEqB b m = true) ∧
      (∀ a k b, b ∈ s.w.beliefs a k → b ∈ s'.w.beliefs a k) ∧
      (∀ a k b, b ∈ s'.w.beliefs a k → b ∈ s.w.beliefs a k ∨ b = m) ∧
      (∀ a k, (∀ a' ∈ as, a ≠ a' ∧ ¬ Shares s.w a' a k) → s'.w.beliefs a k = s.w.beliefs a k) ∧
      (as ≠ [] → m.Ground) ∧ s'.w.events = (as.map fun a => (a, ⟨.addition, .belief, m⟩)).reverse ++ s.w.events := by
  obtain ⟨r, ts, as, f, tr, gt, c, m, nv', h1, h2, h3, h4, h5, h6, h7, h8⟩ := C32_send h
  rw [hy] at h4
  cases h4
  obtain ⟨rfl, rfl⟩ := h5.is_tell
  have hm := h7.norm (h6.norm (by simp) (by simp))
  obtain ⟨hl, hs, f, us, zs, zs', rfl, rfl⟩ := h7.lit
  obtain ⟨h9, _, _⟩ := h8.received (s := { s with nv := nv' }) (.inl rfl) hm hl hr.beliefs hr.stacks fun a ha => (h3.mem ha).elim fun name hm => hn name a hm
  obtain ⟨i1, i2, i3, i4⟩ := h9.told rfl
  exact ⟨r, ts, as, _, _, f, us, zs', h1, h2, h3, h6, h7, rfl, i1, i2, i3, fun a k ha => h9.apart ha, i4, h9.tellEvents hm⟩

/-- **C32 (achieve).** Every receiver, in turn, gets the event for the message signed by the
sender, and a new intention with a plan for it; nothing else happens. -/
theorem C32_achieve {n : Nat} {F : String} {x y z : Term} {xs : List Term} {s s' : QSt World} {g : ActGen}
    (h : send n (gnext n) (.lit F [x, y, z] xs) s = .ok (some g) s') (hy : grounded n s.b.scope y = .ok (.lit "achieve" [] []))
    (hr : EnvOK s.w) (hn : ∀ name a, (name, a) ∈ s.w.reg → NoActions s.w a) :
    ∃ r ts as c m, grounded n s.b.scope x = .ok r ∧ NameList r ts ∧ Named s.w.reg ts as ∧
      Content s.b.scope z .achievement c ∧ Signed (s.w.ags s.w.cur).name c m ∧ ReceivedAll .addition .achievement m as s.w s'.w ∧
      ∀ a, ∃ is : List Nat, (s'.w.ags a).intentions = (s.w.ags a).intentions ++ is.map (fun i => [i]) ∧ is.length = as.count a := by
  obtain ⟨r, ts, as, f, tr, gt, c, m, nv', h1, h2, h3, h4, h5, h6, h7, h8⟩ := C32_send h
  rw [hy] at h4
  cases h4
  obtain ⟨rfl, rfl⟩ := h5.is_achieve
  obtain ⟨h9, _, _⟩ := h8.received (s := { s with nv := nv' }) (.inr ⟨rfl, rfl⟩) (h7.norm (h6.norm (by simp) (by simp))) h7.lit.1 hr.beliefs hr.stacks
    fun a ha => (h3.mem ha).elim fun name hm => hn name a hm
  exact ⟨r, ts, as, c, m, h1, h2, h3, h6, h7, h9, h9.stacks⟩

/-- **C32 (untell).** `untell` only removes beliefs that have the sender as a source, and
agents that share no beliefs with receivers lose none. -/
theorem C32_untell {n : Nat} {F : String} {x y z : Term} {xs : List Term} {s s' : QSt World} {g : ActGen}
    (h : send n (gnext n) (.lit F [x, y, z] xs) s = .ok (some g) s') (hy : grounded n s.b.scope y = .ok (.lit "untell" [] []))
    (hr : EnvOK s.w) (hn : ∀ name a, (name, a) ∈ s.w.reg → NoActions s.w a) :
    ∃ r ts as c m, grounded n s.b.scope x = .ok r ∧ NameList r ts ∧ Named s.w.reg ts as ∧
      Content s.b.scope z .belief c ∧ Signed (s.w.ags s.w.cur).name c m ∧ ReceivedAll .removal .belief m as s.w s'.w ∧
      (∀ a k, (s'.w.beliefs a k).Sublist (s.w.beliefs a k)) ∧
      (∀ a k b, b ∈ s.w.beliefs a k → b ∈ s'.w.beliefs a k ∨ HasSource (s.w.ags s.w.cur).name b) ∧
      (∀ a k, (∀ a' ∈ as, a ≠ a' ∧ ¬ Shares s.w a' a k) → s'.w.beliefs a k = s.w.beliefs a k) := by
  obtain ⟨r, ts, as, f, tr, gt, c, m, nv', h1, h2, h3, h4, h5, h6, h7, h8⟩ := C32_send h
  rw [hy] at h4
  cases h4
  obtain ⟨rfl, rfl⟩ := h5.is_untell
  obtain ⟨h9, _, _⟩ := h8.received (s := { s with nv := nv' }) (.inl rfl) (h7.norm (h6.norm (by simp) (by simp))) h7.lit.1 hr.beliefs hr.stacks
    fun a ha => (h3.mem ha).elim fun name hm => hn name a hm
  obtain ⟨i1, i2⟩ := h9.untold h7.lit.2.1
  exact ⟨r, ts, as, c, m, h1, h2, h3, h6, h7, h9, i1, i2, fun a k ha => h9.apart ha⟩

omit [Host] in
/-- Lookup finds exactly the registered agents. -/
theorem RegOK.lookup {w : World} (h : RegOK w) (a : Nat) : a ∈ w.reg.map (·.2) ↔ ∃ name, w.reg.lookup name = some a := by
  have key : ∀ (d : List (String × Nat)), (d.map (·.1)).Nodup → (a ∈ d.map (·.2) ↔ ∃ name, d.lookup name = some a) := by
    intro d
    induction d with
    | nil => simp
    | cons p d ih =>
      obtain ⟨k, v⟩ := p
      intro hn
      simp only [List.map_cons, List.nodup_cons] at hn
      have ih := ih hn.2
      simp only [List.map_cons, List.mem_cons, List.lookup_cons]
      constructor
      · rintro (rfl | hm)
        · exact ⟨k, by simp⟩
        · obtain ⟨name, hl⟩ := ih.1 hm
          refine ⟨name, ?_⟩
          have : name ≠ k := by
            rintro rfl
            rw [List.lookup_eq_some_iff] at hl
            obtain ⟨l₁, l₂, rfl, _⟩ := hl
            exact hn.1 (by simp)
          have : (name == k) = false := by simpa using this
          rw [this]
          exact hl
      · rintro ⟨name, hl⟩
        split at hl
        · cases hl; exact .inl rfl
        · exact .inr (ih.2 ⟨name, hl⟩)
  exact key _ h.keys

/-- **C33.** If `.broadcast` succeeds, the message, a fresh copy signed by the sender, is
called on all registered agents except the sender, in the order of registration, once on
each. -/
theorem C33_broadcast {n : Nat} {F : String} {y z : Term} {xs : List Term} {s s' : QSt World} {g : ActGen}
    (h : broadcast n (gnext n) (.lit F [y, z] xs) s = .ok (some g) s') (hr : EnvOK s.w) :
    ∃ f tr gt c m nv' as, grounded n s.b.scope y = .ok (.lit f [] []) ∧ Force f tr gt ∧ (f = "tell" ∨ f = "untell" ∨ f = "achieve") ∧
      Content s.b.scope z gt c ∧ Signed (s.w.ags s.w.cur).name c m ∧ as.Sublist (s.w.reg.map (·.2)) ∧ as.Nodup ∧
      (∀ a, a ∈ as ↔ a ≠ s.w.cur ∧ ∃ name, s.w.reg.lookup name = some a) ∧ SentTo n tr gt m as { s with nv := nv' } s' := by
  have hreg := hr.reg
  unfold broadcast at h
  simp only [Res.bind_eq_ok, Res.lift_eq_ok, argAt, List.getElem?_cons_zero, List.getElem?_cons_succ, Ev.bind_eq_ok, Ev.ok.injEq,
    exists_eq_left'] at h
  obtain ⟨ilf, _, ⟨h1, rfl⟩, h⟩ := h
  split at h
  · next f =>
    split at h
    · cases h
    · next tr gt hf =>
      simp only [Res.bind_eq_ok, Res.lift_eq_ok] at h
      obtain ⟨_, _, ⟨h5, rfl⟩, c, s₁, h6, m, _, ⟨h7, rfl⟩, _, s₂, h8, h9⟩ := h
      cases h5
      cases h9
      have h8 := deliver_sentTo.1 h8
      obtain ⟨nv', rfl, ρ, g1, g2⟩ := freeze_content h6
      obtain ⟨hf1, hf2⟩ := force_broadcast hf
      refine ⟨f, tr, gt, c, m, nv', _, h1, hf1, hf2, .copy ?_ ?_ g1 g2, withAnnotation_signed h7, List.filter_sublist,
        hreg.values.filter _, fun a => ?_, h8⟩
      · cases hf1 <;> simp at hf2 ⊢
      · cases hf1 <;> simp at hf2 ⊢
      · simp only [List.mem_filter, decide_eq_true_eq, ← hreg.lookup]
        exact And.comm
  · cases h

/-- **C33.** Broadcasting a belief: exactly the other agents get the event, in the order of
registration, and believe the message afterwards. -/
theorem C33_tell {n : Nat} {F : String} {y z : Term} {xs : List Term} {s s' : QSt World} {g : ActGen}
    (h : broadcast n (gnext n) (.lit F [y, z] xs) s = .ok (some g) s') (hy : grounded n s.b.scope y = .ok (.lit "tell" [] []))
    (hr : EnvOK s.w) (hn : ∀ name a, (name, a) ∈ s.w.reg → NoActions s.w a) :
    ∃ c m f us zs, ∃ as : List Nat, Content s.b.scope z .belief c ∧ Signed (s.w.ags s.w.cur).name c m ∧ m = .lit f us zs ∧
      as.Sublist (s.w.reg.map (·.2)) ∧ as.Nodup ∧ (∀ a, a ∈ as ↔ a ≠ s.w.cur ∧ ∃ name, s.w.reg.lookup name = some a) ∧
      s'.w.events = (as.map fun a => (a, ⟨.addition, .belief, m⟩)).reverse ++ s.w.events ∧
      ∀ a ∈ as, ∃ b ∈ s'.w.beliefs a (f, us.length), b = m ∨ pyEqB b m = true := by
  obtain ⟨f, tr, gt, c, m, nv', as, h1, h2, _, h3, h4, h5, h6, h7, h8⟩ := C33_broadcast h hr
  rw [hy] at h1
  cases h1
  obtain ⟨rfl, rfl⟩ := h2.is_tell
  have hm := h4.norm (h3.norm (by simp) (by simp))
  obtain ⟨hl, hs, f, us, zs, zs', rfl, rfl⟩ := h4.lit
  obtain ⟨h9, _, _⟩ := h8.received (s := { s with nv := nv' }) (.inl rfl) hm hl hr.beliefs hr.stacks fun a ha => ((h7 a).1 ha).2.elim fun name hm => hn name a (lookup_mem hm)
  exact ⟨_, _, f, us, zs', as, h3, h4, rfl, h5, h6, h7, h9.tellEvents hm, (h9.told rfl).1⟩

end

/-! ## Examples -/

section examples
attribute [local instance] exactHost

theorem noActions_of {w : World} {a : Nat} (h1 : ∀ g, (w.ags a).rules g = []) (h2 : ∀ kr ∈ (w.ags a).plans, ∀ p ∈ w.plists kr.2, p.Clean) :
    NoActions w a := by
  refine ⟨fun g r hr => by simp [h1] at hr, fun k p hp => ?_⟩
  unfold World.plansFor at hp
  split at hp
  · next r h =>
    rw [List.lookup_eq_some_iff] at h
    obtain ⟨l₁, l₂, h, _⟩ := h
    exact h2 (k, r) (by simp [h]) p hp
  · simp at hp

/-- Three agents running `+!go.` -/
def trio : Option (QSt World) :=
  match buildAgents 20 { plans := [simplePlan "go" []] } 3 "a" "b" ⟨BSt.init, 0, World.init fun _ => 0⟩ with
  | .ok _ s => some s
  | _ => none

theorem trio_reachable {s : QSt World} (h : trio = some s) : Reachable s := by
  unfold trio at h
  split at h
  · next hb => cases h; exact .builds (.init _) (.inl ⟨_, hb⟩)
  · cases h

/-- The trio satisfies the hypotheses of the theorems. -/
theorem trio_ok : ∃ s, trio = some s ∧ EnvOK s.w ∧ s.w.cur = 0 ∧ s.w.reg = [("a", 0), ("b", 1), ("b1", 2)] ∧
    ∀ name a, (name, a) ∈ s.w.reg → NoActions s.w a := by
  have h : ∃ s, trio = some s ∧ s.w.cur = 0 ∧ s.w.reg = [("a", 0), ("b", 1), ("b1", 2)] ∧ (∀ g, (s.w.ags 0).rules g = []) ∧
      (∀ g, (s.w.ags 1).rules g = []) ∧ (∀ g, (s.w.ags 2).rules g = []) ∧
      (s.w.ags 0).plans = [((.addition, .achievement, "go", 0), 0)] ∧ (s.w.ags 1).plans = [((.addition, .achievement, "go", 0), 0)] ∧
      (s.w.ags 2).plans = [((.addition, .achievement, "go", 0), 0)] ∧ ∃ p, s.w.plists 0 = [p] ∧ p.head = goalNamed "go" ∧ p.context = .tru :=
    ⟨_, rfl, rfl, rfl, fun _ => rfl, fun _ => rfl, fun _ => rfl, rfl, rfl, rfl, _, rfl, rfl, rfl⟩
  obtain ⟨s, h0, h1, h2, r0, r1, r2, p0, p1, p2, p, hp, hh, hc⟩ := h
  have hcl : ∀ q ∈ s.w.plists 0, q.Clean := by
    rw [hp]
    intro q hq
    simp at hq
    subst hq
    exact ⟨by rw [hh]; rfl, by rw [hc]; simp [Query.Clean]⟩
  refine ⟨s, h0, C32_reachable (trio_reachable h0), h1, h2, fun name a hm => ?_⟩
  rw [h2] at hm
  simp at hm
  rcases hm with ⟨_, rfl⟩ | ⟨_, rfl⟩ | ⟨_, rfl⟩
  · exact noActions_of r0 (by rw [p0]; simpa using hcl)
  · exact noActions_of r1 (by rw [p1]; simpa using hcl)
  · exact noActions_of r2 (by rw [p2]; simpa using hcl)

/-- `.send([b, "b1"], Force, t)`. -/
def sendBoth (f : String) (t : Term) : Term := .lit ".send" [.tup [.lit "b" [] [], .str "b1"], .lit f [] [], t] []

/-- C32: `.send([b, "b1"], tell, p(1))`. -/
example : ∃ s s' : QSt World, ∃ g, EnvOK s.w ∧ (∀ name a, (name, a) ∈ s.w.reg → NoActions s.w a) ∧
    send 20 (gnext 20) (sendBoth "tell" (.lit "p" [.num 1] [])) s = .ok (some g) s' ∧
    s'.w.beliefs 1 ("p", 1) = [.lit "p" [.num 1] [sourceAnnot "a"]] ∧ s'.w.beliefs 2 ("p", 1) = [.lit "p" [.num 1] [sourceAnnot "a"]] := by
  obtain ⟨s, h, h1, h2, h3, h4⟩ := trio_ok
  have : ∃ s s' g, trio = some s ∧ send 20 (gnext 20) (sendBoth "tell" (.lit "p" [.num 1] [])) s = .ok (some g) s' ∧
    s'.w.beliefs 1 ("p", 1) = [.lit "p" [.num 1] [sourceAnnot "a"]] ∧ s'.w.beliefs 2 ("p", 1) = [.lit "p" [.num 1] [sourceAnnot "a"]] :=
    ⟨_, _, _, rfl, rfl, rfl, rfl⟩
  obtain ⟨s₁, s', g, h5, h6⟩ := this
  rw [h] at h5
  cases h5
  exact ⟨s, s', g, h1, h4, h6⟩

/-- C32: `.send([b, "b1"], achieve, go)` starts an intention in both agents. -/
example : ∃ s s' : QSt World, ∃ g, EnvOK s.w ∧ (∀ name a, (name, a) ∈ s.w.reg → NoActions s.w a) ∧
    send 20 (gnext 20) (sendBoth "achieve" (goalNamed "go")) s = .ok (some g) s' ∧
    (s.w.ags 1).intentions = [] ∧ ∃ i j, (s'.w.ags 1).intentions = [[i]] ∧ (s'.w.ags 2).intentions = [[j]] := by
  obtain ⟨s, h, h1, h2, h3, h4⟩ := trio_ok
  have : ∃ s s' g, trio = some s ∧ send 20 (gnext 20) (sendBoth "achieve" (goalNamed "go")) s = .ok (some g) s' ∧
    (s.w.ags 1).intentions = [] ∧ ∃ i j, (s'.w.ags 1).intentions = [[i]] ∧ (s'.w.ags 2).intentions = [[j]] :=
    ⟨_, _, _, rfl, rfl, rfl, _, _, rfl, rfl⟩
  obtain ⟨s₁, s', g, h5, h6⟩ := this
  rw [h] at h5
  cases h5
  exact ⟨s, s', g, h1, h4, h6⟩

/-- C32: `.send([b, "b1"], tell, p(1))`, then `.send([b, "b1"], untell, p(_))`. -/
example : ∃ s s' : QSt World, ∃ g, EnvOK s.w ∧ (∀ name a, (name, a) ∈ s.w.reg → NoActions s.w a) ∧
    send 20 (gnext 20) (sendBoth "untell" (.lit "p" [.wild] [])) s = .ok (some g) s' ∧
    s.w.beliefs 1 ("p", 1) = [.lit "p" [.num 1] [sourceAnnot "a"]] ∧ s'.w.beliefs 1 ("p", 1) = [] ∧
    s.w.beliefs 2 ("p", 1) = [.lit "p" [.num 1] [sourceAnnot "a"]] ∧ s'.w.beliefs 2 ("p", 1) = [] := by
  obtain ⟨s, h, h1, h2, h3, h4⟩ := trio_ok
  have : ∃ s s₁ s₂ g g', trio = some s ∧ send 20 (gnext 20) (sendBoth "tell" (.lit "p" [.num 1] [])) s = .ok (some g) s₁ ∧
    send 20 (gnext 20) (sendBoth "untell" (.lit "p" [.wild] [])) s₁ = .ok (some g') s₂ ∧
    s₁.w.beliefs 1 ("p", 1) = [.lit "p" [.num 1] [sourceAnnot "a"]] ∧ s₂.w.beliefs 1 ("p", 1) = [] ∧
    s₁.w.beliefs 2 ("p", 1) = [.lit "p" [.num 1] [sourceAnnot "a"]] ∧ s₂.w.beliefs 2 ("p", 1) = [] ∧ s₁.w.reg = s.w.reg ∧
      grounded 20 s.b.scope (.lit "tell" [] []) = .ok (.lit "tell" [] []) :=
    ⟨_, _, _, _, _, rfl, rfl, rfl, rfl, rfl, rfl, rfl, rfl, rfl⟩
  obtain ⟨s₀, s₁, s₂, g, g', h5, h6, h7, i1, i2, i3, i4, h8, h9⟩ := this
  rw [h] at h5
  cases h5
  obtain ⟨_, _, as, _, _, _, _, m, nv', _, _, h10, k4, k5, k6, k7, k8⟩ := C32_send h6
  rw [h9] at k4
  cases k4
  obtain ⟨rfl, rfl⟩ := k5.is_tell
  have hk := k8.received (s := { s with nv := nv' }) (.inl rfl) (k7.norm (k6.norm (by simp) (by simp))) k7.lit.1 h1.beliefs h1.stacks
    fun a ha => (h10.mem ha).elim fun name hm => h4 name a hm
  have hok := k8.ok (s := { s with nv := nv' }) h1
  refine ⟨s₁, s₂, g', hok, fun name a hm => ?_, h7, i1, i2, i3, i4⟩
  rw [h8] at hm
  have := hk.1.same a
  exact (h4 name a hm).congr this.1 this.2.1 this.2.2.2

/-- C33: `.broadcast(tell, p(1))` by agent 0 reaches agents 1 and 2. -/
example : ∃ s s' : QSt World, ∃ g, EnvOK s.w ∧ (∀ name a, (name, a) ∈ s.w.reg → NoActions s.w a) ∧ s.w.cur = 0 ∧
    broadcast 20 (gnext 20) (.lit ".broadcast" [goalNamed "tell", .lit "p" [.num 1] []] []) s = .ok (some g) s' ∧
    s'.w.events.map (·.1) = [2, 1] ++ s.w.events.map (·.1) := by
  obtain ⟨s, h, h1, h2, h3, h4⟩ := trio_ok
  have : ∃ s s' g, trio = some s ∧
    broadcast 20 (gnext 20) (.lit ".broadcast" [goalNamed "tell", .lit "p" [.num 1] []] []) s = .ok (some g) s' ∧
    s'.w.events.map (·.1) = [2, 1] ++ s.w.events.map (·.1) := ⟨_, _, _, rfl, rfl, rfl⟩
  obtain ⟨s₁, s', g, h5, h6⟩ := this
  rw [h] at h5
  cases h5
  exact ⟨s, s', g, h1, h4, h2, h6⟩

/-- C32: unknown receivers and forces. -/
example : ∃ s : QSt World, trio = some s ∧ Unknown s.w.reg [.lit "b" [] [], .str "c"] ∧ Named s.w.reg [.lit "b" [] [], .str "b1"] [1, 2] ∧
    (∀ tr gt, ¬ Force "shout" tr gt) := by
  obtain ⟨s, h, _, _, h3, _⟩ := trio_ok
  refine ⟨s, h, ⟨.str "c", by simp, fun f hf => ?_⟩, ?_, fun tr gt hf => ?_⟩
  · rcases hf with hf | hf <;> cases hf
    rw [h3]; rfl
  · rw [h3]
    exact .atom rfl (.str rfl .nil)
  · have := force_iff.2 hf
    cases this

end examples

end Verif
