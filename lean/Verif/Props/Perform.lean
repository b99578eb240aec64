import Verif.Spec.Perform
import Verif.Props.Env
import Verif.Props.Unify

/-!
# C34, C35, C36: the performatives unachieve, untellHow, askHow
-/

namespace Verif

section
variable [Host]

/-! ## C34 -/

theorem unify_le {n m : Nat} (h : n ≤ m) (l r : Term) (b : BSt) : (unify n l r b).le (unify m l r b) := by
  induction h with
  | refl => exact .refl _
  | step _ ih =>
    rcases ih with h | h
    · exact .inl h
    · rw [h]; exact unify_succ _ _ _ _

/-- Unification with a ground term is matching. -/
theorem unifies_closed {n : Nat} {l r : Term} {a : Bool} (hl : l.NoExpr) (hr : r.NoExpr) (hc : l.Closed ∨ r.Closed)
    (h : unifies n l r = .ok a) : a = true ↔ ∃ σ : Asg, Agree σ l r := by
  have hac : Acyclic BSt.init.scope := ⟨fun x => ⟨x, fun y h => by obtain ⟨t, h, _⟩ := h; cases h⟩⟩
  have he : ScopeNoExpr BSt.init.scope := by intro x t h; cases h
  have hsc : ScopeOK false BSt.init.scope := by intro x t h; cases h
  let σ₀ : Asg := fun _ => .nil
  have hd : Done fun n => unify n l r BSt.init := by
    rcases hc with hc | hc
    · obtain ⟨v, hv⟩ := den_exists (σ := σ₀) l hc
      exact unify_done (σ := σ₀) v.size l r BSt.init hl hr he hac (.inl ⟨hc, v, hv, Nat.le_refl _⟩)
    · obtain ⟨v, hv⟩ := den_exists (σ := σ₀) r hc
      exact unify_done (σ := σ₀) v.size l r BSt.init hl hr he hac (.inr (.inl ⟨hc, v, hv, Nat.le_refl _⟩))
  obtain ⟨N, a', b', hN, he', hac'⟩ := hd
  have ha : ∃ b, unify n l r BSt.init = .ok a b := by
    unfold unifies at h
    split at h <;> cases h
    exact ⟨_, ‹_›⟩
  obtain ⟨b, ha⟩ := ha
  have h1 := unify_le (Nat.le_max_left n N) l r BSt.init
  rw [ha, show unify (max n N) l r BSt.init = _ from hN _ (Nat.le_max_right n N)] at h1
  have h2 : a = a' ∧ b = b' := by
    rcases h1 with h1 | h1 <;> cases h1
    exact ⟨rfl, rfl⟩
  obtain ⟨rfl, rfl⟩ := h2
  have hok := unify_ok (c := false) n l r BSt.init hsc hl.tame hr.tame (.inr hc)
  cases a with
  | true =>
    have y := hok.yes b ha
    exact ⟨fun _ => ⟨_, ((y.2 _).1 (modelOf_models hac' he' fun x t h => (y.1 x t h).1)).2⟩, fun _ => rfl⟩
  | false =>
    simp only [Bool.false_eq_true, false_iff]
    rintro ⟨σ, h2⟩
    exact hok.no b ha σ (by intro x t h; cases h) h2

theorem unachieveGo_ok {n : Nat} {w : World} {f : String} {args : List Term} : ∀ {sts sts' : List (List Nat)},
    (Term.tup args).NoExpr →
    (∀ st ∈ sts, ∀ i ∈ st.head?, ∀ f args' ys, (w.ints i).headTerm = some (.lit f args' ys) →
      (Term.tup args').NoExpr ∧ ((Term.tup args).Closed ∨ (Term.tup args').Closed)) →
    unachieveGo n w f args sts = .ok sts' → DropTops (Pursues w f args) sts sts'
  | [], sts', _, _, h => by cases h; exact .nil
  | [] :: rest, sts', ha, hg, h => by
    rw [unachieveGo, Ev.map_eq_ok] at h
    obtain ⟨x, h, rfl⟩ := h
    exact .empty (unachieveGo_ok ha (fun st hs => hg st (by simp [hs])) h)
  | (i :: st) :: rest, sts', ha, hg, h => by
    have ih := fun {x} => unachieveGo_ok (n := n) (f := f) (sts' := x) ha (fun st hs => hg st (List.mem_cons_of_mem _ hs))
    rw [unachieveGo] at h
    split at h
    · next g args' ys he =>
      split at h
      · next hgf =>
        subst hgf
        simp only [Ev.bind_eq_ok, Ev.map_eq_ok] at h
        obtain ⟨ok, h1, x, h2, rfl⟩ := h
        obtain ⟨h3, h4⟩ := hg (i :: st) (by simp) i (by simp) _ _ _ he
        have h5 := unifies_closed ha h3 h4 h1
        cases ok with
        | true => exact .drop ⟨args', ys, he, h5.1 rfl⟩ (ih h2)
        | false =>
          refine .keep ?_ (ih h2)
          rintro ⟨a2, y2, e2, e3⟩
          rw [he] at e2
          cases e2
          exact absurd (h5.2 e3) (by simp)
      · next hgf =>
        rw [Ev.map_eq_ok] at h
        obtain ⟨x, h, rfl⟩ := h
        refine .keep ?_ (ih h)
        rintro ⟨a2, y2, e2, e3⟩
        rw [he] at e2
        cases e2
        exact hgf rfl
    · cases h

/-- **C34, partial.** `unachieve` drops the top-most intention of exactly those stacks of the
agent whose current goal matches; the event is on record; everything else is as before,
except that intentions waiting for this event may have been woken up.  Missing: matching of two non-ground goals (for
which there are no solutions in finite values if the bindings are cyclic), and the agent's
ability to receive events afterwards, see `C34_stuck`. -/
theorem C34_unachieve_partial {n : Nat} {rec : Rec} {a : Nat} {f : String} {args xs : List Term} {calling : Nat} {delayed : Bool}
    {s s' : QSt World} {r : Bool} (hg : GoalsOK s.w a args)
    (h : call n rec a .removal .achievement (.lit f args xs) calling delayed s = .ok r s') :
    r = true ∧ DropTops (Pursues s.w f args) (s.w.ags a).intentions (s'.w.ags a).intentions ∧
      (∃ sts, s'.w.ags a = { s.w.ags a with intentions := sts }) ∧ (∀ a', a' ≠ a → s'.w.ags a' = s.w.ags a') ∧
      s'.w.sets = s.w.sets ∧ s'.w.plists = s.w.plists ∧ s'.w.reg = s.w.reg ∧ s'.w.nint = s.w.nint ∧ s'.b = s.b ∧
      (∃ e, s'.w.events = (a, ⟨.removal, .achievement, e⟩) :: s.w.events) ∧
      ∀ j, s'.w.ints j = s.w.ints j ∨ ∃ x, (s.w.ints j).waiter = some x ∧ s'.w.ints j = { s.w.ints j with waiter := none } := by
  simp only [call, callBeliefs, Res.bind_ok, Bool.not_true, Bool.false_eq_true, if_false, Res.bind_eq_ok] at h
  obtain ⟨e, s₁, h1, _, s₂, h2, h3⟩ := h
  cases h3
  have ha := callFrozen_ok h1
  simp only [unachieve, Res.bind_eq_ok, Res.lift_eq_ok] at h2
  obtain ⟨sts, _, ⟨h2, rfl⟩, h3⟩ := h2
  cases h3
  have hh : ∀ i, (s₁.w.ints i).headTerm = (s.w.ints i).headTerm := by
    intro i
    rcases ha.ints i with h | ⟨x, _, h⟩ <;> rw [h]
  have h4 := unachieveGo_ok hg.1 (fun st hs i hi f args' ys he => hg.2 st (by rw [← ha.ags]; exact hs) i hi f args' ys (by rw [← hh]; exact he)) h2
  have hp : Pursues s₁.w f args = Pursues s.w f args := by
    funext i
    simp only [Pursues, hh]
  rw [ha.ags, hp] at h4
  refine ⟨rfl, by simpa [World.setAg] using h4, ⟨sts, by simp [World.setAg, ha.ags]⟩, fun a' hne => ?_, ha.sets, ha.plans, ha.reg, ha.nint, ha.bindings,
    ⟨e, ha.events⟩, ha.ints⟩
  simp [World.setAg, hne, ha.ags]

omit [Host] in
theorem attach_nonempty {i c : Nat} : ∀ {sts : List (List Nat)}, (∀ st ∈ sts, st ≠ []) → ∃ o, attach i c sts = .ok o
  | [], _ => ⟨_, rfl⟩
  | [] :: rest, h => absurd rfl (h [] (by simp))
  | (j :: st) :: rest, h => by
    rw [attach]
    split
    · exact ⟨_, rfl⟩
    · obtain ⟨o, ho⟩ := attach_nonempty (i := i) (c := c) fun st hs => h st (List.mem_cons_of_mem _ hs)
      rw [ho]
      exact ⟨_, rfl⟩

omit [Host] in
/-- **C34, partial.** As long as `unachieve` leaves no empty stack behind, plans can be
started. -/
theorem C34_usable_partial {a i calling : Nat} {delayed : Bool} {t e : Term} {p : Plan} {b : BSt} {s : QSt World}
    (h : ∀ st ∈ (s.w.ags a).intentions, st ≠ []) : ∃ s', startPlan a i calling delayed t e p b s = .ok true s' := by
  unfold startPlan
  simp only
  split
  · exact ⟨_, rfl⟩
  · obtain ⟨o, ho⟩ := attach_nonempty (i := i) (c := calling) h
    simp only [World.setInt] at ho ⊢
    rw [ho]
    cases o <;> exact ⟨_, rfl⟩

/-! ## C35 -/

omit [Host] in
theorem foldl_filter (keep : Plan → Bool) : ∀ (ps : List (PlanKey × Nat)) (w : World),
    let w' := ps.foldl (fun w kr => w.setPlist kr.2 ((w.plists kr.2).filter keep)) w
    w' = { w with plists := w'.plists } ∧ (∀ r, r ∈ ps.map (·.2) → w'.plists r = (w.plists r).filter keep) ∧
      ∀ r, r ∉ ps.map (·.2) → w'.plists r = w.plists r
  | [], w => by simp
  | (k, r₀) :: ps, w => by
    simp only [List.foldl_cons]
    obtain ⟨h1, h2, h3⟩ := foldl_filter keep ps (w.setPlist r₀ ((w.plists r₀).filter keep))
    refine ⟨?_, fun r hr => ?_, fun r hr => ?_⟩
    · rw [h1]; rfl
    · by_cases hm : r ∈ ps.map (·.2)
      · rw [h2 r hm]
        simp only [World.setPlist]
        split
        · next e => subst e; simp
        · rfl
      · rw [h3 r hm]
        simp only [List.map_cons, List.mem_cons] at hr
        rcases hr with rfl | hr
        · simp [World.setPlist]
        · exact absurd hr hm
    · simp only [List.map_cons, List.mem_cons, not_or] at hr
      rw [h3 r hr.2]
      simp [World.setPlist, hr.1]

/-- **C35.** `untellHow` with `@l` removes all plans labelled `l` and keeps all others, in
order.  Nothing else changes, except that agents sharing plan lists with this one (made by
`build_agents`) lose these plans, too, and that intentions waiting for this event may have been woken up. -/
theorem C35_untellHow {n : Nat} {rec : Rec} {a : Nat} {f l : String} {us xs : List Term} {calling : Nat} {delayed : Bool}
    {s s' : QSt World} {r : Bool} (h : call n rec a .removal .tellHow (.lit f (.str ("@" ++ l) :: us) xs) calling delayed s = .ok r s') :
    r = true ∧ (∀ k, s'.w.plansFor a k = (s.w.plansFor a k).filter fun p => p.label ≠ some l) ∧
      (∀ a', ¬ SharesPlans s.w a a' → ∀ k, s'.w.plansFor a' k = s.w.plansFor a' k) ∧
      s'.w.ags = s.w.ags ∧ s'.w.sets = s.w.sets ∧ s'.w.reg = s.w.reg ∧ s'.b = s.b ∧ s'.w.code = s.w.code ∧
      (∃ e, s'.w.events = (a, ⟨.removal, .tellHow, e⟩) :: s.w.events) ∧
      ∀ j, s'.w.ints j = s.w.ints j ∨ ∃ x, (s.w.ints j).waiter = some x ∧ s'.w.ints j = { s.w.ints j with waiter := none } := by
  simp only [call, callBeliefs, Res.bind_ok, Bool.not_true, Bool.false_eq_true, if_false, Res.bind_eq_ok] at h
  obtain ⟨e, s₁, h1, _, s₂, h2, h3⟩ := h
  cases h3
  have ha := callFrozen_ok h1
  simp only [untellHow] at h2
  cases h2
  simp only
  have hkeep : keepsPlan (.str ("@" ++ l)) = fun p => decide (p.label ≠ some l) := by
    funext p
    unfold keepsPlan
    cases p.label <;> simp
  have hf := foldl_filter (fun p => decide (p.label ≠ some l)) (s₁.w.ags a).plans s₁.w
  rw [hkeep]
  revert hf
  generalize (s₁.w.ags a).plans.foldl _ s₁.w = w'
  rintro ⟨h3, h4, h5⟩
  have hags : w'.ags = s.w.ags := by rw [h3]; exact ha.ags
  refine ⟨trivial, fun k => ?_, fun a' hs k => ?_, hags, by rw [h3]; exact ha.sets, by rw [h3]; exact ha.reg, ha.bindings, by rw [h3]; exact ha.code,
    ⟨e, by rw [h3]; exact ha.events⟩, by rw [h3]; exact ha.ints⟩
  · unfold World.plansFor
    rw [hags]
    split
    · next r hr =>
      rw [h4 r, ha.plans]
      rw [ha.ags]
      rw [List.lookup_eq_some_iff] at hr
      obtain ⟨l₁, l₂, hr, _⟩ := hr
      simp [hr]
    · rfl
  · unfold World.plansFor
    rw [hags]
    split
    · next r hr =>
      rw [h5 r, ha.plans]
      intro hm
      rw [ha.ags] at hm
      obtain ⟨⟨k', r'⟩, hm', rfl⟩ := List.mem_map.1 hm
      rw [List.lookup_eq_some_iff] at hr
      obtain ⟨l₁, l₂, hr, _⟩ := hr
      exact hs ⟨k', k, r', hm', by simp [hr]⟩
    · rfl

/-! ## C36 -/

omit [Host] in
theorem contains_iff {needle : List Char} : ∀ {hay : List Char}, contains needle hay = true ↔ ∃ pre post, hay = pre ++ needle ++ post
  | [] => by
    simp only [contains, List.isEmpty_iff]
    constructor
    · rintro rfl; exact ⟨[], [], rfl⟩
    · rintro ⟨pre, post, h⟩
      have := congrArg List.length h
      simp at this
      exact List.length_eq_zero_iff.1 (by omega)
  | c :: hay => by
    simp only [contains, Bool.or_eq_true, List.isPrefixOf_iff_prefix]
    rw [contains_iff]
    constructor
    · rintro (⟨post, h⟩ | ⟨pre, post, h⟩)
      · exact ⟨[], post, h.symm⟩
      · exact ⟨c :: pre, post, by simp [h]⟩
    · rintro ⟨pre, post, h⟩
      cases pre with
      | nil => exact .inl ⟨post, h.symm⟩
      | cons c' pre =>
        simp only [List.cons_append, List.cons.injEq] at h
        exact .inr ⟨pre, post, by simp [h.2]⟩

omit [Host] in
theorem contains_str {f text : String} : contains f.toList text.toList = true ↔ ∃ pre post, text = pre ++ f ++ post := by
  rw [contains_iff]
  constructor
  · rintro ⟨pre, post, h⟩
    refine ⟨String.ofList pre, String.ofList post, ?_⟩
    rw [← String.toList_inj]
    simpa using h
  · rintro ⟨pre, post, rfl⟩
    exact ⟨pre.toList, post.toList, by simp⟩

/-- The test in `plansWanted`. -/
def named (text : String) (p : Plan) : Bool :=
  match p.head with
  | .lit f _ _ => contains f.toList text.toList
  | _ => false

omit [Host] in
theorem named_iff {text : String} {p : Plan} : named text p = true ↔ NameIn text p := by
  unfold named NameIn
  split
  · next f as xs h => simp [contains_str, h]
  · next h => simp; intro f as xs h'; exact absurd h' (h f as xs)

omit [Host] in
theorem askSender_some {name : String} : ∀ {xs : List Term} {acc : Option String}, askSender xs acc = .ok (some name) →
    acc = some name ∨ ∃ us zs more ws, .lit "source" (.lit name us zs :: more) ws ∈ xs
  | [], acc, h => by simp [askSender] at h; exact .inl h
  | .lit f args ws :: rest, acc, h => by
    unfold askSender at h
    split at h
    · next hf =>
      subst hf
      split at h
      · next g us zs more =>
        rcases askSender_some h with h | ⟨us', zs', more', ws', h⟩
        · cases h
          exact .inr ⟨us, zs, more, ws, by simp⟩
        · exact .inr ⟨us', zs', more', ws', by simp [h]⟩
      · cases h
      · cases h
    · rcases askSender_some h with h | ⟨us', zs', more', ws', h⟩
      · exact .inl h
      · exact .inr ⟨us', zs', more', ws', by simp [h]⟩
  | .bool _ :: _, _, h => by simp [askSender] at h
  | .num _ :: _, _, h => by simp [askSender] at h
  | .str _ :: _, _, h => by simp [askSender] at h
  | .wild :: _, _, h => by simp [askSender] at h
  | .var _ :: _, _, h => by simp [askSender] at h
  | .un _ _ :: _, _, h => by simp [askSender] at h
  | .bin _ _ _ :: _, _, h => by simp [askSender] at h
  | .tup _ :: _, _, h => by simp [askSender] at h
  | .cons _ _ :: _, _, h => by simp [askSender] at h

/-- The event that tells a plan. -/
def tellPlan (recv : Nat) (p : Plan) : Nat × Event := (recv, ⟨.addition, .tellHow, .lit "plain_text" [.str p.text] []⟩)

theorem askSend_ok {n recv : Nat} : ∀ {pss : List (List Plan)} {s s' : QSt World}, askSend n recv pss s = .ok () s' →
    s'.w.events = ((pss.filterMap List.getLast?).map (tellPlan recv)).reverse ++ s.w.events
  | [], s, s', h => by cases h; rfl
  | ps :: rest, s, s', h => by
    rw [askSend] at h
    split at h
    · next hl => rw [askSend_ok h]; simp [hl]
    · next p hl =>
      simp only [Res.bind_eq_ok] at h
      obtain ⟨e, s₁, h1, _, s₂, h2, h3⟩ := h
      have ha := callFrozen_ok h1
      obtain ⟨m, hf, _⟩ := ha.frozen
      obtain ⟨ρ, _, _, hc, _⟩ := C10_freeze_copy hf
      have he : e = .lit "plain_text" [.str p.text] [] := by
        cases hc with
        | lit k1 k2 =>
          cases k2
          cases k1 with
          | cons k1 k3 =>
            cases k1
            cases k3
            rfl
      subst he
      have h4 : s₂.w.events = s₁.w.events := by
        simp only [tellHow, Res.bind_eq_ok, Res.lift_eq_ok] at h2
        obtain ⟨src, _, ⟨_, rfl⟩, h2⟩ := h2
        cases h2
        exact (buildPlan_ints (a' := 0)).2.1
      rw [askSend_ok h3, h4, ha.events]
      simp [hl, tellPlan]

/-- **C36, partial.** If `askHow` succeeds, plans are told to the agent that asked, and to nobody else.
The plans told are plans whose name occurs in the text, and these are all told that are
the last ones for their event.  Missing: only plans for the requested
goal (`C36_other_plan`), all plans for it (`C36_last_only`), and an answer if there is
none (`C36_no_plan_raises`). -/
theorem C36_answer_partial {n : Nat} {rec : Rec} {a : Nat} {f text : String} {us xs : List Term} {calling : Nat} {delayed : Bool}
    {s s' : QSt World} {r : Bool} (h : call n rec a .addition .askHow (.lit f (.str text :: us) xs) calling delayed s = .ok r s') :
    ∃ sender recv e, ∃ ps : List Plan, (∃ us zs more ws, .lit "source" (.lit sender us zs :: more) ws ∈ xs) ∧
      s.w.reg.lookup sender = some recv ∧
      s'.w.events = (ps.map (tellPlan recv)).reverse ++ (a, ⟨.addition, .askHow, e⟩) :: s.w.events ∧ ps ≠ [] ∧
      (∀ p ∈ ps, PlanOf s.w a p ∧ NameIn text p) ∧ ∀ p, p ∈ ps ↔ LastNamed s.w a text p := by
  simp only [call, callBeliefs, Res.bind_ok, Bool.not_true, Bool.false_eq_true, if_false, Res.bind_eq_ok] at h
  obtain ⟨e, s₁, h1, _, s₂, h2, h3⟩ := h
  cases h3
  have ha := callFrozen_ok h1
  simp only [askHow, Res.bind_eq_ok, Res.lift_eq_ok] at h2
  obtain ⟨o, _, ⟨h2, rfl⟩, h3⟩ := h2
  cases o with
  | none => cases h3
  | some sender =>
  simp only at h3
  have hpw : plansWanted s₁.w a text = ((s.w.ags a).plans.map fun kr => (s.w.plists kr.2).filter (named text)).filter (!·.isEmpty) := by
    unfold plansWanted
    rw [ha.ags, ha.plans]
    rfl
  split at h3
  · cases h3
  · next wanted hw =>
    split at h3
    · cases h3
    · next recv hl =>
      have hlast : ∀ p, p ∈ (plansWanted s₁.w a text).filterMap List.getLast? ↔ LastNamed s.w a text p := by
        intro p
        rw [hpw]
        simp only [List.mem_filterMap, List.mem_filter, List.mem_map, LastNamed]
        constructor
        · rintro ⟨ps, ⟨⟨kr, hk, rfl⟩, hne⟩, hgl⟩
          refine ⟨kr, hk, ?_⟩
          rw [List.getLast?_eq_some_iff] at hgl
          obtain ⟨ys, hy⟩ := hgl
          rw [List.filter_eq_append_iff] at hy
          obtain ⟨l₁, l₂, h4, h5, h6⟩ := hy
          rw [List.filter_eq_cons_iff] at h6
          obtain ⟨l₃, l₄, h7, h8, h9, h10⟩ := h6
          refine ⟨l₁ ++ l₃, l₄, by rw [h4, h7]; simp, named_iff.1 h9, fun q hq hn => ?_⟩
          have := List.filter_eq_nil_iff.1 h10 q hq
          exact this (named_iff.2 hn)
        · rintro ⟨kr, hk, pre, post, h4, h5, h6⟩
          refine ⟨_, ⟨⟨kr, hk, rfl⟩, ?_⟩, ?_⟩
          · rw [h4]
            simp [named_iff.2 h5]
          · have : post.filter (named text) = [] := by
              rw [List.filter_eq_nil_iff]
              intro q hq hn
              exact h6 q hq (named_iff.1 hn)
            rw [h4]
            simp [named_iff.2 h5, this]
      refine ⟨sender, recv, e, (plansWanted s₁.w a text).filterMap List.getLast?, ?_, by rw [← ha.reg]; exact hl, ?_, ?_, fun p hp => ?_, hlast⟩
      · rcases askSender_some h2 with h | h
        · cases h
        · exact h
      · rw [askSend_ok h3, ha.events]
      · intro hnil
        rw [List.filterMap_eq_nil_iff] at hnil
        cases hww : plansWanted s₁.w a text with
        | nil => exact hw hww
        | cons ps rest =>
          have h4 := hnil ps (by rw [hww]; simp)
          have h5 : ps ∈ plansWanted s₁.w a text := by rw [hww]; simp
          rw [hpw, List.mem_filter] at h5
          cases ps with
          | nil => simp at h5
          | cons p ps => simp at h4
      · obtain ⟨kr, hk, pre, post, h4, h5, _⟩ := (hlast p).1 hp
        exact ⟨⟨kr, hk, by rw [h4]; simp⟩, h5⟩

end

/-! ## Examples and witnesses -/

section examples
attribute [local instance] exactHost

/-- `.wait(1000000)` -/
def waitLong : Stmt := .query (.act .wait (.lit ".wait" [.num 1000000] []))

/-- `.send(ag, unachieve, go)` -/
def unachieveGoal : Stmt := .query (.act .send (.lit ".send" [goalNamed "ag", goalNamed "unachieve", goalNamed "go"] []))

/-- `!w. !go. !main. +!w <- .wait(1000000). +!go <- .wait(1000000). +!main <- .send(ag, unachieve, go); !sub. +!sub.` -/
def dropping : AgentSrc where
  plans := [simplePlan "w" [waitLong], simplePlan "go" [waitLong], simplePlan "main" [unachieveGoal, .achieve (goalNamed "sub")], simplePlan "sub" []]
  goals := [goalNamed "w", goalNamed "go", goalNamed "main"]

unseal Rat.mul Rat.inv Rat.add Rat.sub

/-- **C34 is false of the code** (usable afterwards).  In the program `dropping`, `.send(ag, unachieve, go)` drops
intention 3, which leaves an empty stack between the other two.  Then `!sub` raises
(`IndexError` in `Agent.call`), although there is a plan for it, and raises again in the
next step. -/
theorem C34_stuck : ∃ s s₁ s₂ s₃ s₄ : QSt World, Reachable s ∧ (s.w.ags 0).intentions = [[1], [3], [5]] ∧
    step 20 0 s = .ok true s₁ ∧ (s₁.w.ags 0).intentions = [[1], [], [5]] ∧
    stepsOf 20 0 1 s₁ = some s₂ ∧ (s₂.w.plansFor 0 (.addition, .achievement, "sub", 0)).length = 1 ∧
    step 20 0 s₂ = .err (.py "AggregatedError") s₃ ∧ (s₃.w.ags 0).intentions = [[1], [], [5]] ∧
    step 20 0 s₃ = .err (.py "AggregatedError") s₄ := by
  have h : ∃ s₀ s s₁ s₂ s₃ s₄ : QSt World, started (fun _ => 0) dropping = some s₀ ∧ stepsOf 20 0 8 s₀ = some s ∧
      (s.w.ags 0).intentions = [[1], [3], [5]] ∧
      step 20 0 s = .ok true s₁ ∧ (s₁.w.ags 0).intentions = [[1], [], [5]] ∧
      stepsOf 20 0 1 s₁ = some s₂ ∧ (s₂.w.plansFor 0 (.addition, .achievement, "sub", 0)).length = 1 ∧
      step 20 0 s₂ = .err (.py "AggregatedError") s₃ ∧ (s₃.w.ags 0).intentions = [[1], [], [5]] ∧
      step 20 0 s₃ = .err (.py "AggregatedError") s₄ := ⟨_, _, _, _, _, _, rfl, rfl, rfl, rfl, rfl, rfl, rfl, rfl, rfl, rfl⟩
  obtain ⟨s₀, s, s₁, s₂, s₃, s₄, h0, h1, h2⟩ := h
  exact ⟨s, s₁, s₂, s₃, s₄, (started_reachable h0).steps (stepsOf_steps h1), h2⟩

/-- `!go(1). !go(2). !go(1). +!go(X) <- .wait(1000000).` -/
def pursuing : AgentSrc where
  plans := [{ trigger := .addition, goalType := .achievement, head := .lit "go" [.var 0] [], body := [waitLong] }]
  goals := [.lit "go" [.num 1] [], .lit "go" [.num 2] [], .lit "go" [.num 1] []]

/-- C34: three intentions pursue `go(1)`, `go(2)`, `go(1)`; `unachieve` of `go(1)` drops the
first and the last. -/
example : ∃ s s' : QSt World, GoalsOK s.w 0 [.num 1] ∧
    call 20 (gnext 20) 0 .removal .achievement (.lit "go" [.num 1] []) 7 false s = .ok true s' ∧
    (s.w.ags 0).intentions = [[1], [3], [5]] ∧ (s'.w.ags 0).intentions = [[], [3], []] := by
  have h : ∃ s s' : QSt World, started (fun _ => 0) pursuing = some s ∧
      call 20 (gnext 20) 0 .removal .achievement (.lit "go" [.num 1] []) 7 false s = .ok true s' ∧
      (s.w.ags 0).intentions = [[1], [3], [5]] ∧ (s'.w.ags 0).intentions = [[], [3], []] ∧
      (s.w.ints 1).headTerm = some (.lit "go" [.num 1] []) ∧ (s.w.ints 3).headTerm = some (.lit "go" [.num 2] []) ∧
      (s.w.ints 5).headTerm = some (.lit "go" [.num 1] []) :=
    ⟨_, _, rfl, rfl, rfl, rfl, rfl, rfl, rfl⟩
  obtain ⟨s, s', _, h1, h2, h3, h4, h5, h6⟩ := h
  refine ⟨s, s', ⟨by simp, fun st hs i hi f args' ys he => ?_⟩, h1, h2, h3⟩
  rw [h2] at hs
  simp at hs
  rcases hs with rfl | rfl | rfl <;> simp at hi <;> subst hi
  · rw [h4] at he; cases he; simp
  · rw [h5] at he; cases he; simp
  · rw [h6] at he; cases he; simp

/-- A plan `@label +!go` with a text. -/
def labelled (label : Option String) (text : String) : PlanSrc :=
  { trigger := .addition, goalType := .achievement, head := goalNamed "go", label := label, text := text }

/-- C35: of three plans for `go`, the one labelled `b` is removed. -/
example : ∃ s s' : QSt World,
    call 20 (gnext 20) 0 .removal .tellHow (.lit "plain_text" [.str "@b"] [sourceAnnot "x"]) 7 false s = .ok true s' ∧
    (s.w.plansFor 0 (.addition, .achievement, "go", 0)).map (·.label) = [none, some "b", some "a"] ∧
    (s'.w.plansFor 0 (.addition, .achievement, "go", 0)).map (·.label) = [none, some "a"] := by
  have h : ∃ s s' : QSt World, started (fun _ => 0) { plans := [labelled none "", labelled (some "b") "", labelled (some "a") ""] } = some s ∧
    call 20 (gnext 20) 0 .removal .tellHow (.lit "plain_text" [.str "@b"] [sourceAnnot "x"]) 7 false s = .ok true s' ∧
    (s.w.plansFor 0 (.addition, .achievement, "go", 0)).map (·.label) = [none, some "b", some "a"] ∧
    (s'.w.plansFor 0 (.addition, .achievement, "go", 0)).map (·.label) = [none, some "a"] := ⟨_, _, rfl, rfl, rfl, rfl⟩
  obtain ⟨s, s', _, h⟩ := h
  exact ⟨s, s', h⟩

end examples

section asking

/-- A host whose parser takes every text for a plan for `told`. -/
@[reducible] def askHost : Host := { exactArith with
  parsePlan := fun s => .ok { trigger := .addition, goalType := .achievement, head := goalNamed "told", text := s }
  parseEvent := fun _ => .err (.asl "no parser")
  str := fun _ => "" }

attribute [local instance] askHost

/-- Agent 0 (`ag`) with two plans for `go`. -/
def twoPlans : Option (QSt World) :=
  match buildAgents 20 { plans := [labelled none "first", labelled none "second"] } 2 "ag" "b" ⟨BSt.init, 0, World.init fun _ => 0⟩ with
  | .ok _ s => some s
  | _ => none

/-- Agent `ag` receives a question from `b`. -/
def ask (text : String) (s : QSt World) : Res (QSt World) Bool :=
  call 20 (gnext 20) 0 .addition .askHow (.lit "plain_text" [.str text] [sourceAnnot "b"]) 7 false s

/-- **C36 is false of the code** (every plan).  Asked for `go`, the agent has two plans and
sends the second one only. -/
theorem C36_last_only : ∃ s s' : QSt World, ask "+!go" s = .ok false s' ∧
    (s.w.plansFor 0 (.addition, .achievement, "go", 0)).map (·.text) = ["first", "second"] ∧
    ∃ e, s'.w.events = (1, ⟨.addition, .tellHow, .lit "plain_text" [.str "second"] []⟩) :: (0, e) :: s.w.events := by
  have h : ∃ s s' : QSt World, twoPlans = some s ∧ ask "+!go" s = .ok false s' ∧
    (s.w.plansFor 0 (.addition, .achievement, "go", 0)).map (·.text) = ["first", "second"] ∧
    ∃ e, s'.w.events = (1, ⟨.addition, .tellHow, .lit "plain_text" [.str "second"] []⟩) :: (0, e) :: s.w.events := ⟨_, _, rfl, rfl, rfl, _, rfl⟩
  obtain ⟨s, s', _, h⟩ := h
  exact ⟨s, s', h⟩

/-- **C36 is false of the code** (no other plan).  Asked for `go_home`, for which it has no
plan, the agent sends a plan for `go`. -/
theorem C36_other_plan : ∃ s s' : QSt World, ask "+!go_home" s = .ok false s' ∧
    s.w.plansFor 0 (.addition, .achievement, "go_home", 0) = [] ∧
    (s.w.plansFor 0 (.addition, .achievement, "go", 0)).map (·.text) = ["first", "second"] ∧
    ∃ e, s'.w.events = (1, ⟨.addition, .tellHow, .lit "plain_text" [.str "second"] []⟩) :: (0, e) :: s.w.events := by
  have h : ∃ s s' : QSt World, twoPlans = some s ∧ ask "+!go_home" s = .ok false s' ∧
    s.w.plansFor 0 (.addition, .achievement, "go_home", 0) = [] ∧
    (s.w.plansFor 0 (.addition, .achievement, "go", 0)).map (·.text) = ["first", "second"] ∧
    ∃ e, s'.w.events = (1, ⟨.addition, .tellHow, .lit "plain_text" [.str "second"] []⟩) :: (0, e) :: s.w.events := ⟨_, _, rfl, rfl, rfl, rfl, _, rfl⟩
  obtain ⟨s, s', _, h⟩ := h
  exact ⟨s, s', h⟩

/-- **C36 is false of the code** (no plan).  Asked for a goal for which it has no plan, the
agent raises `IndexError` instead of a warning. -/
theorem C36_no_plan_raises : ∃ s s' : QSt World, ask "+!stop" s = .err (.py "IndexError") s' ∧
    s.w.plansFor 0 (.addition, .achievement, "stop", 0) = [] := by
  have h : ∃ s s' : QSt World, twoPlans = some s ∧ ask "+!stop" s = .err (.py "IndexError") s' ∧
    s.w.plansFor 0 (.addition, .achievement, "stop", 0) = [] := ⟨_, _, rfl, rfl, rfl⟩
  obtain ⟨s, s', _, h⟩ := h
  exact ⟨s, s', h⟩

end asking

end Verif
