import Verif.Lemmas.Dump
import Verif.Props.Assign

/-!
# C81, C82: the control flow graph of `.control_flow`, and the variables at the prompt

`C81_graph` (what is written), `C81_order` (the order of visits does not matter), `C81_runs`
(intentions move along the edges); `C82_lines` (what is printed), `C82_prompt` (after the
commands of a session).
-/

namespace Verif

section
variable [Host]

omit [Host] in
/-- The instructions of a plan are a closed part of the code. -/
theorem BuiltFrom.inside {c : Code} {p : Plan} {src : PlanSrc} {k : Nat} {c₀ : Code} (h : BuiltFrom c p src k c₀) :
    ∃ hi, p.body < hi ∧ hi ≤ c.size ∧ ∀ i, p.body ≤ i → i < hi → ∀ j, (c.instr i).Next j → p.body ≤ j ∧ j < hi := by
  have hb : p.body = c₀.size := by rw [h.plan]
  refine ⟨_, hb ▸ compileBody_size _ c₀, h.ext.size, ?_⟩
  intro i h1 h2 j hj
  rw [hb] at h1 ⊢
  rw [Instr.Next, h.ext.old i h2] at hj
  exact compileBody_links _ c₀ i j h1 h2 hj

omit [Host] in
theorem graphLoop_right {pop : List Nat → Nat} {c : Code} {n : Nat} {p : Plan} {es : List Edge} (h : graphLoop pop c n [p.body] [] = some es) :
    PlanGraph.Right c ⟨p, es⟩ := by
  obtain ⟨is, rfl, g1, _, g3, g4, g5⟩ := graphLoop_visits h (by simp) (by simp) (by simp)
  have hin : ∀ i, i ∈ is ↔ Connected c p.body i := by
    intro i
    constructor
    · intro hi
      obtain ⟨j, hj, h⟩ := g5 i hi
      rwa [List.mem_singleton.1 hj] at h
    · intro hi
      induction hi with
      | refl => exact g3 _ (by simp)
      | success _ h ih => exact (g4 _ ih _ (.inl h)).resolve_left (by simp)
      | failure _ h ih => exact (g4 _ ih _ (.inr h)).resolve_left (by simp)
  refine ⟨fun e => ?_, visits_nodup g1⟩
  simp only [List.mem_flatMap, hin, edges_mem]
  constructor
  · rintro ⟨i, hi, ⟨j, h, rfl⟩ | ⟨j, h, rfl⟩⟩ <;> exact ⟨h, hi⟩
  · rintro ⟨h, hi⟩
    cases e with
    | success i j => exact ⟨i, hi, .inl ⟨j, h, rfl⟩⟩
    | failure i j => exact ⟨i, hi, .inr ⟨j, h, rfl⟩⟩

omit [Host] in
theorem mapM_some {α β : Type} {f : α → Option β} : ∀ {l : List α}, (∀ x ∈ l, ∃ y, f x = some y) → ∃ ys, l.mapM f = some ys
  | [], _ => ⟨[], rfl⟩
  | x :: l, h => by
    obtain ⟨y, hy⟩ := h x (by simp)
    obtain ⟨ys, hys⟩ := mapM_some fun z hz => h z (List.mem_cons_of_mem _ hz)
    exact ⟨y :: ys, by simp [List.mapM_cons, hy, hys]⟩

omit [Host] in
theorem controlFlow_right {pop : List Nat → Nat} {c : Code} {n : Nat} : ∀ {ps : List Plan} {gs : List PlanGraph},
    (ps.mapM fun p => (graphLoop pop c n [p.body] []).map (PlanGraph.mk p)) = some gs → gs.map (·.plan) = ps ∧ ∀ g ∈ gs, g.Right c
  | [], gs, h => by
    cases h
    exact ⟨rfl, nofun⟩
  | p :: ps, gs, h => by
    simp only [List.mapM_cons] at h
    cases h1 : graphLoop pop c n [p.body] [] with
    | none => simp [h1] at h
    | some es =>
      cases h2 : ps.mapM fun p => (graphLoop pop c n [p.body] []).map (PlanGraph.mk p) with
      | none => rw [h2] at h; simp [h1] at h
      | some gs' =>
        rw [h2] at h
        simp only [h1, Option.map_some, Option.bind_eq_bind, Option.bind_some, Option.pure_def, Option.some.injEq] at h
        subst h
        obtain ⟨i1, i2⟩ := controlFlow_right h2
        refine ⟨by rw [List.map_cons, i1], fun g hg => ?_⟩
        rcases List.mem_cons.1 hg with rfl | hg
        · exact graphLoop_right h1
        · exact i2 g hg

/-- **C81.** In every reachable state `.control_flow` comes to an end, and writes one part per
plan of the agent, in their order: exactly the references between the instructions that can be
reached from the body of the plan, each once. -/
theorem C81_graph {s : QSt World} (hr : Reachable s) (pop : List Nat → Nat) (a : Nat) {n : Nat} (hn : s.w.code.size ≤ n) :
    ∃ gs, controlFlow pop n a s.w = some gs ∧ gs.map (·.plan) = s.w.allPlans a ∧ ∀ g ∈ gs, g.Right s.w.code := by
  have h : ∃ gs, controlFlow pop n a s.w = some gs := by
    refine mapM_some fun p hp => ?_
    simp only [World.allPlans, List.mem_flatMap] at hp
    obtain ⟨r, _, hp⟩ := hp
    obtain ⟨src, k, c₀, hb⟩ := hr.codeOK.plans r.2 p hp
    obtain ⟨hi, h1, h2, h3⟩ := hb.inside
    obtain ⟨es, he⟩ := graphLoop_total (pop := pop) h3 (n := n) (opened := [p.body]) (closed := []) (by simp [h1]) (by simp) (by simp)
      (by
        refine Nat.le_trans List.countP_le_length ?_
        rw [List.length_range]
        omega)
    exact ⟨_, by rw [he]; rfl⟩
  obtain ⟨gs, h⟩ := h
  exact ⟨gs, h, controlFlow_right h⟩

omit [Host] in
/-- **C81.** The picture does not depend on the order in which the set of open instructions gives
its items. -/
theorem C81_order {pop pop' : List Nat → Nat} {n n' a : Nat} {w : World} {gs gs' : List PlanGraph} (h : controlFlow pop n a w = some gs)
    (h' : controlFlow pop' n' a w = some gs') {k : Nat} {g g' : PlanGraph} (hk : gs[k]? = some g) (hk' : gs'[k]? = some g') :
    g'.plan = g.plan ∧ g.edges.Perm g'.edges := by
  obtain ⟨h1, h2⟩ := controlFlow_right h
  obtain ⟨h1', h2'⟩ := controlFlow_right h'
  have hp : g'.plan = g.plan := by
    have e : (gs.map (·.plan))[k]? = (gs'.map (·.plan))[k]? := by rw [h1, h1']
    simpa [hk, hk', eq_comm] using e
  refine ⟨hp, ?_⟩
  have r := h2 g (List.mem_of_getElem? hk)
  have r' := h2' g' (List.mem_of_getElem? hk')
  refine (List.perm_ext_iff_of_nodup r.once r'.once).2 fun e => ?_
  rw [r.edge, r'.edge, hp]

omit [Host] in
theorem Path.connected {c : Code} {l : Option Nat} {tr : Trace} {z : Stop} (h : Path c l tr z) :
    ∀ {i pc}, l = some i → z = .at (some pc) → Connected c i pc := by
  induction h with
  | here l => intro i pc h1 h2; subst h1; cases h2; exact .refl
  | @yes pc' tr e h ih =>
    intro i pc h1 h2
    cases h1
    cases hs : (c.instr pc').success with
    | none =>
      rw [hs] at h
      subst h2
      cases h
    | some j => exact (Connected.success .refl hs).trans (ih hs h2)
  | no h1 h2 _ ih =>
    intro i pc h3 h4
    cases h3
    exact (Connected.failure .refl h2).trans (ih rfl h4)
  | fail => intro i pc _ h; cases h

omit [Host] in
theorem Connected.ext {c c' : Code} {lo i pc : Nat} (hl : Links lo c) (he : c.Ext c') (hi : lo ≤ i ∧ i < c.size) (h : Connected c i pc) :
    Connected c' i pc ∧ lo ≤ pc ∧ pc < c.size := by
  induction h with
  | refl => exact ⟨.refl, hi⟩
  | @success j k _ h ih => exact ⟨.success ih.1 (by rw [he.old j ih.2.2, h]), hl j k ih.2.1 ih.2.2 (.inl h)⟩
  | @failure j k _ h ih => exact ⟨.failure ih.1 (by rw [he.old j ih.2.2, h]), hl j k ih.2.1 ih.2.2 (.inr h)⟩

/-- **C81.** The picture, drawn in state `s`, shows all moves of an intention that runs the plan:
whenever it runs an instruction after that, whatever happens in between, it moves along an edge,
marked as a failure exactly when the instruction answers `False`. -/
theorem C81_runs {s s₁ s₂ : QSt World} (hr : Reachable s) {pop : List Nat → Nat} {n a : Nat} {gs : List PlanGraph}
    (h : controlFlow pop n a s.w = some gs) {g : PlanGraph} (hg : g ∈ gs) {i b pc j : Nat} {tr : Trace} {f : InstrF} {ok : Bool}
    (hi : i < s.w.nint) (h0 : (s.w.ints i).instr = some g.plan.body) (hh : History i s tr s₁) (hs : Runs b i f ok s₁ s₂)
    (h1 : (s₁.w.ints i).instr = some pc) (h2 : (s₂.w.ints i).instr = some j) :
    (if ok then Edge.success pc j else .failure pc j) ∈ g.edges := by
  obtain ⟨e1, e2⟩ := controlFlow_right h
  have hp : g.plan ∈ s.w.allPlans a := by
    unfold World.allPlans
    have : g.plan ∈ gs.map (·.plan) := List.mem_map.2 ⟨g, hg, rfl⟩
    rwa [e1] at this
  simp only [World.allPlans, List.mem_flatMap] at hp
  obtain ⟨r, _, hp⟩ := hp
  obtain ⟨src, k, c₀, hb⟩ := hr.codeOK.plans r.2 _ hp
  have hbody : g.plan.body = c₀.size := by rw [hb.plan]
  rw [hbody] at h0
  obtain ⟨w1, _, i2, i3⟩ := hh.path hr.stacksOK hi hb.ext h0
  rw [h1] at i3
  rcases i3 with i3 | ⟨_, i3⟩
  · obtain ⟨c1, _, c3⟩ := (i3.connected rfl rfl).ext (compileBody_links _ c₀) hb.ext ⟨Nat.le_refl _, compileBody_size _ c₀⟩
    obtain ⟨_, _, pc', d1, d2, d3, d4, d5⟩ := hs.spec w1
    rw [h1] at d1
    cases d1
    rw [h2, i2.old pc (Nat.lt_of_lt_of_le c3 hb.ext.size)] at d5
    rw [(e2 g hg).edge, hbody]
    cases ok with
    | true => exact ⟨d5.symm, c1⟩
    | false => exact ⟨d5.symm, c1⟩
  · cases i3

/-! ## Variables at the prompt -/

omit [Host] in
theorem names_lookup {x : List Char} {t : Term} : ∀ {l : List (List Char × Term)}, (l.map (·.1)).Nodup → (x, t) ∈ l → l.lookup x = some t
  | (y, u) :: l, hk, h => by
    rw [List.map_cons, List.nodup_cons] at hk
    rcases List.mem_cons.1 h with h | h
    · cases h
      simp
    · have : x ≠ y := fun e => hk.1 (List.mem_map.2 ⟨_, h, e⟩)
      rw [List.lookup_cons, beq_eq_false_iff_ne.2 this]
      exact names_lookup hk.2 h

omit [Host] in
theorem textLe_iff : ∀ {x y : List Char}, textLe x y = true ↔ x ≤ y
  | [], _ => by simp [textLe]
  | _ :: _, [] => by simp [textLe]
  | c :: cs, d :: ds => by
    rw [textLe, List.cons_le_cons_iff]
    split
    · next h =>
      subst h
      rw [textLe_iff]
      exact ⟨fun h => .inr ⟨rfl, h⟩, fun h => h.elim (fun h => absurd h (Char.lt_irrefl _)) (·.2)⟩
    · next h => simp [h]

omit [Host] in
theorem insertName_perm (x : List Char × Term) : ∀ l, (insertName x l).Perm (x :: l)
  | [] => .refl _
  | y :: l => by
    rw [insertName]
    split
    · exact .refl _
    · exact ((insertName_perm x l).cons y).trans (.swap x y l)

omit [Host] in
theorem sortNames_perm : ∀ l, (sortNames l).Perm l
  | [] => .refl _
  | x :: l => (insertName_perm x _).trans ((sortNames_perm l).cons x)

omit [Host] in
theorem insertName_sorted {x : List Char × Term} : ∀ {l}, l.Pairwise (fun x y : List Char × Term => x.1 ≤ y.1) →
    (insertName x l).Pairwise (fun x y => x.1 ≤ y.1)
  | [], _ => List.pairwise_singleton _ _
  | y :: l, h => by
    rw [insertName]
    rw [List.pairwise_cons] at h
    split
    · next hx =>
      refine List.pairwise_cons.2 ⟨fun z hz => ?_, List.pairwise_cons.2 h⟩
      rcases List.mem_cons.1 hz with rfl | hz
      · exact textLe_iff.1 hx
      · exact List.le_trans (textLe_iff.1 hx) (h.1 z hz)
    · next hx =>
      refine List.pairwise_cons.2 ⟨fun z hz => ?_, insertName_sorted h.2⟩
      rcases List.mem_cons.1 ((insertName_perm x l).mem_iff.1 hz) with rfl | hz
      · exact (List.le_total _ _).resolve_left fun h => hx (textLe_iff.2 h)
      · exact h.1 z hz

omit [Host] in
theorem sortNames_sorted : ∀ l, (sortNames l).Pairwise (fun x y => x.1 ≤ y.1)
  | [] => .nil
  | _ :: l => insertName_sorted (sortNames_sorted l)

omit [Host] in
theorem showVars_right {n : Nat} {sc : Scope} : ∀ {names : List (List Char × Term)} {r : Shown}, showVars n sc names = .ok r →
    (names.map (·.1)).Pairwise (· < ·) → Shown.Right n names sc r
  | [], r, h, _ => by
    cases h
    exact ⟨by simp, by simp, .nil, .nil⟩
  | (x, t) :: names, r, h, hs => by
    rw [List.map_cons, List.pairwise_cons] at hs
    have below : ∀ (r : Shown), Shown.Right n names sc r → (∀ y ∈ r.bound.map (·.1), x < y) ∧ ∀ y ∈ r.unbound.map (·.1), x < y := by
      intro r hr
      constructor
      · intro y hy
        obtain ⟨⟨y, u⟩, h, rfl⟩ := List.mem_map.1 hy
        obtain ⟨v, w, h, _⟩ := (hr.bound y u).1 h
        exact hs.1 _ (List.mem_map.2 ⟨_, h, rfl⟩)
      · intro y hy
        obtain ⟨⟨y, u⟩, h, rfl⟩ := List.mem_map.1 hy
        exact hs.1 _ (List.mem_map.2 ⟨_, ((hr.unbound y u).1 h).1, rfl⟩)
    have free : ∀ r, showVars n sc names = .ok r → (∀ v, t = .var v → sc v = none) →
        Shown.Right n ((x, t) :: names) sc { r with unbound := (x, t) :: r.unbound } := by
      intro r hr ht
      have ih := showVars_right hr hs.2
      refine ⟨fun y u => ?_, fun y u => ?_, ih.sorted, List.pairwise_cons.2 ⟨(below r ih).2, ih.sorted'⟩⟩
      · rw [ih.bound]
        constructor
        · rintro ⟨v, w, h1, h2⟩
          exact ⟨v, w, .tail _ h1, h2⟩
        · rintro ⟨v, w, h1, h2, h3⟩
          rcases List.mem_cons.1 h1 with h1 | h1
          · cases h1
            rw [ht v rfl] at h2
            cases h2
          · exact ⟨v, w, h1, h2, h3⟩
      · rw [List.mem_cons, List.mem_cons, ih.unbound]
        constructor
        · rintro (h | h)
          · cases h
            exact ⟨.inl rfl, ht⟩
          · exact ⟨.inr h.1, h.2⟩
        · rintro ⟨h | h, h'⟩
          · exact .inl h
          · exact .inr ⟨h, h'⟩
    cases hn : showVars n sc names with
    | ok r' =>
      cases t with
      | var v =>
        rw [showVars] at h
        cases hv : sc v with
        | none =>
          rw [hv, hn] at h
          cases h
          exact free r' hn fun v' e => by cases e; exact hv
        | some w =>
          rw [hv] at h
          dsimp only at h
          cases hd : deref n sc (.var v) with
          | ok u =>
            rw [hd, hn] at h
            cases h
            have ih := showVars_right hn hs.2
            refine ⟨fun y u' => ?_, fun y u' => ?_, List.pairwise_cons.2 ⟨(below r' ih).1, ih.sorted⟩, ih.sorted'⟩
            · rw [List.mem_cons, ih.bound]
              constructor
              · rintro (h | ⟨v, w, h1, h2⟩)
                · cases h
                  exact ⟨v, w, .head _, hv, hd⟩
                · exact ⟨v, w, .tail _ h1, h2⟩
              · rintro ⟨v', w', h1, h2, h3⟩
                rcases List.mem_cons.1 h1 with h1 | h1
                · cases h1
                  rw [hd] at h3
                  cases h3
                  exact .inl rfl
                · exact .inr ⟨v', w', h1, h2, h3⟩
            · rw [ih.unbound, List.mem_cons]
              constructor
              · exact fun h => ⟨.inr h.1, h.2⟩
              · rintro ⟨h | h, h'⟩
                · cases h
                  rw [h' v rfl] at hv
                  cases hv
                · exact ⟨h, h'⟩
          | err e => rw [hd] at h; cases h
          | oof => rw [hd] at h; cases h
      | _ =>
        rw [showVars, hn] at h
        · cases h
          exact free r' hn nofun
        all_goals simp
    | err e =>
      exfalso
      cases t with
      | var v =>
        rw [showVars] at h
        cases hv : sc v with
        | none => rw [hv, hn] at h; cases h
        | some w =>
          rw [hv] at h
          dsimp only at h
          cases hd : deref n sc (.var v) with
          | ok u => rw [hd, hn] at h; cases h
          | err e => rw [hd] at h; cases h
          | oof => rw [hd] at h; cases h
      | _ =>
        rw [showVars, hn] at h
        · cases h
        all_goals simp
    | oof =>
      exfalso
      cases t with
      | var v =>
        rw [showVars] at h
        cases hv : sc v with
        | none => rw [hv, hn] at h; cases h
        | some w =>
          rw [hv] at h
          dsimp only at h
          cases hd : deref n sc (.var v) with
          | ok u => rw [hd, hn] at h; cases h
          | err e => rw [hd] at h; cases h
          | oof => rw [hd] at h; cases h
      | _ =>
        rw [showVars, hn] at h
        · cases h
        all_goals simp

omit [Host] in
/-- **C82.** All names are shown: those of variables in the scope with the value that the chain
of references leads to, all others in the list of unbound ones; both in strictly increasing order, so
each name once. -/
theorem C82_lines {n : Nat} {names : List (List Char × Term)} {sc : Scope} {r : Shown} (hd : (names.map (·.1)).Nodup)
    (h : dumpVariables n names sc = .ok r) : Shown.Right n names sc r := by
  have hp := sortNames_perm names
  have hm : ∀ z, z ∈ sortNames names ↔ z ∈ names := fun z => hp.mem_iff
  have hs : ((sortNames names).map (·.1)).Pairwise (· < ·) := by
    have h2 : ((sortNames names).map (·.1)).Nodup := (hp.map _).nodup_iff.2 hd
    exact (List.pairwise_map.2 (sortNames_sorted names)).imp₂ (fun a b h h' => (List.le_iff_lt_or_eq.1 h).resolve_right h') h2
  have := showVars_right h hs
  refine ⟨fun x u => ?_, fun x t => ?_, this.sorted, this.sorted'⟩
  · rw [this.bound]
    simp only [hm]
  · rw [this.unbound]
    simp only [hm]

/-- **C82.** After the commands of a session, the variables shown are right, whatever the commands
did: no name is there twice, and every name other than `_` is that of a variable. -/
theorem C82_prompt [Unicode] [Floats] {acts : Lookup} {n m k a l : Nat} {s₀ : QSt World}
    (hb : ∀ a, ∀ st ∈ (s₀.w.ags a).intentions, ∀ i ∈ st, i < s₀.w.nint) {ls : List (List Char)} {s : ReplSt}
    (h : (replSession n (replExec acts m k a) ls [] (replStart s₀)).leaves s) {r : Shown} (hr : s.shown l = .ok r) :
    Shown.Right l s.names (s.st.w.ints s.int).b.scope r ∧ (s.names.map (·.1)).Nodup ∧
      ∀ x t, (x, t) ∈ s.names → x ≠ ['_'] → ∃ v : Nat, t = .var v := by
  have hP : Prompt (replStart s₀) :=
    ⟨⟨fun v h => (by cases h), fun x v _ h => (by cases h), fun x y n h => (by cases h), Nat.zero_le _, .nil⟩,
      fun a st hst i hi => Nat.lt_succ_of_lt (hb a st hst i hi), Nat.lt_succ_self _⟩
  have h1 := replSession_keeps (P := Prompts (replStart s₀)) (fun b s' h s'' h'' => h.trans (replExec_prompts h.ok s'' h'')) ls [] _
    ⟨hP, fun _ _ h => h, rfl⟩ s h
  have hk := h1.ok.tab.keys
  refine ⟨C82_lines hk hr, hk, fun x t hx hn => ?_⟩
  obtain ⟨v, e, _⟩ := h1.ok.tab.var x t hn (names_lookup hk hx)
  exact ⟨v, e⟩

end

/-! ### Examples -/

section examples
attribute [local instance] exactHost

/-- A plan with an `if` within a `while`. -/
def drawn : Code :=
  compileBody [.while_ pX [.ite (.term (goalNamed "r")) (some [.add (goalNamed "yes")]) (some [.add (goalNamed "no")])]] ⟨fun _ => ⟨.noop, none, none⟩, 0⟩

/-- C81: there are cycles, and the order of visits shows in the order of the lines. -/
example : drawn.size = 14 ∧ (∃ es, graphLoop (fun _ => 0) drawn 14 [0] [] = some es ∧ es.length = 15 ∧ Edge.failure 4 1 ∈ es ∧ Edge.success 12 2 ∈ es) ∧
    graphLoop (fun _ => 0) drawn 14 [0] [] ≠ graphLoop (fun l => l.length - 1) drawn 14 [0] [] := by
  refine ⟨rfl, ⟨_, rfl, ?_⟩, ?_⟩ <;> decide +kernel

/-- C81: intention 5 runs the plan of `loops`, after the graph was written; here it leaves the first loop. -/
example : ∃ (s s₁ s₂ : QSt World) (gs : List PlanGraph) (g : PlanGraph) (tr : Trace) (f : InstrF) (pc j : Nat), Reachable s ∧
    controlFlow (fun _ => 0) 30 0 s.w = some gs ∧ g ∈ gs ∧ 5 < s.w.nint ∧ (s.w.ints 5).instr = some g.plan.body ∧ History 5 s tr s₁ ∧
    Runs 0 5 f false s₁ s₂ ∧ (s₁.w.ints 5).instr = some pc ∧ (s₂.w.ints 5).instr = some j ∧ tr.length = 6 := by
  have h : ∃ s s₁ s₂ gs g tr f pc j t, started (fun _ => 0) loops = some s ∧ controlFlow (fun _ => 0) 30 0 s.w = some (g :: gs) ∧ 5 < s.w.nint ∧
      (s.w.ints 5).instr = some g.plan.body ∧ historyOf 20 0 5 6 s = some (tr, s₁) ∧ stepTrace 20 0 5 s₁ = [(f, false)] ∧ step 20 0 s₁ = .ok t s₂ ∧
      (s₁.w.ints 5).instr = some pc ∧ (s₂.w.ints 5).instr = some j ∧ tr.length = 6 :=
    ⟨_, _, _, _, _, _, _, _, _, _, rfl, rfl, by decide, rfl, rfl, rfl, rfl, rfl, rfl, rfl⟩
  obtain ⟨s, s₁, s₂, gs, g, tr, f, pc, j, t, h0, h1, h2, h3, h4, h5, h6, h7, h8, h9⟩ := h
  exact ⟨s, s₁, s₂, _, g, tr, f, pc, j, started_reachable h0, h1, .head _, h2, h3, historyOf_history h4, stepTrace_runs (.inl ⟨_, h6⟩) h5, h7, h8, h9⟩

attribute [local instance] asciiText toyFloats

/-- C82: after `p(X); _ = Y; X = Z.` at the prompt. -/
example : ∃ (s₀ : QSt World) (pend : List Tok) (s : ReplSt) (r : Shown), (∀ a, ∀ st ∈ (s₀.w.ags a).intentions, ∀ i ∈ st, i < s₀.w.nint) ∧
    replSession 60 (replExec (fun _ _ => none) 20 30 0) ["p(Z); _ = Y; X = Z.".toList] [] (replStart s₀) = .ok pend s ∧
    s.shown 5 = .ok r ∧ r.bound.map (·.1) = [['X'], ['Z']] ∧ r.unbound.map (·.1) = [['Y'], ['_']] := by
  have h : (match started (fun _ => 0) keeps with
      | none => false
      | some s₀ => match replSession 60 (replExec (fun _ _ => none) 20 30 0) ["p(Z); _ = Y; X = Z.".toList] [] (replStart s₀) with
        | .ok _ s => match s.shown 5 with
          | .ok r => r.bound.map (·.1) == [['X'], ['Z']] && r.unbound.map (·.1) == [['Y'], ['_']]
          | _ => false
        | _ => false) = true := by decide +kernel
  split at h
  · cases h
  · next s₀ h0 =>
    split at h
    · next pend s h1 =>
      split at h
      · next r h2 =>
        rw [Bool.and_eq_true, beq_iff_eq, beq_iff_eq] at h
        exact ⟨s₀, pend, s, r, (started_reachable h0).stacksOK.below, h1, h2, h⟩
      · cases h
    · cases h

end examples

end Verif
