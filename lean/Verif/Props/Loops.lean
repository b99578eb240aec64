import Verif.Lemmas.Loops
import Verif.Props.Loop
import Verif.Props.Assign

/-!
# C78: statements follow the answers of their queries

`C29` says which instructions a plan body executes, in terms of the answers of the instructions;
here these are the answers of the queries.  All theorems hold whatever other intentions and
agents do meanwhile; `K` is an arbitrary condition on the states in between.
-/

namespace Verif

open Lang

section
variable [Host] {a i : Nat} {K : QSt World → Prop}

/-- A query in a plan body that has been executed had an answer, in the bindings of which the plan goes on. -/
theorem C78_query {s s' : QSt World} {tr : Trace} {q : Query Act} (hr : Reachable s) (hi : i < s.w.nint) (h : Calm a i K s tr s')
    (hx : (Stmt.query q).sem tr .done) :
    ∃ u g u', Calm a i K s [(.pushQuery q, true)] u ∧ Asks a i (.start q) (some g) u u' ∧ Calm a i K u' [(.popQuery, true)] s' := by
  rw [Stmt.sem] at hx
  cases hx with
  | first _ h => exact absurd rfl h
  | both h1 h2 =>
    cases h1
    cases h2 with
    | first _ h => exact absurd rfl h
    | both h1 h2 =>
      cases h1
      cases h2
      obtain ⟨m, c1, c2⟩ := h.split rfl
      obtain ⟨m', c3, c4⟩ := c2.split rfl
      obtain ⟨hm, hq⟩ := c1.pushed hr hi
      obtain ⟨u, u', n, t, t', o, a1, a2, a3, a4, a5, a6, ak, a7, _⟩ := c3.asks (c1.reachable hr) hm hq
      cases o with
      | none => cases a6
      | some g => exact ⟨u, g, u', by simpa using c1.trans a1, ⟨n, t, t', a2, a3, a4, a5⟩, a7.trans c4⟩

/-- A query at which the plan failed had no answer. -/
theorem C78_query_fails {s s' : QSt World} {tr : Trace} {q : Query Act} (hr : Reachable s) (hi : i < s.w.nint) (h : Calm a i K s tr s')
    (hx : (Stmt.query q).sem tr .failed) :
    ∃ u u', Calm a i K s [(.pushQuery q, true)] u ∧ Asks a i (.start q) none u u' ∧ Calm a i K u' [] s' := by
  rw [Stmt.sem] at hx
  cases hx with
  | first h _ => cases h with | failed hc => cases hc
  | both h1 h2 =>
    cases h1
    cases h2 with
    | first h1 _ =>
      cases h1
      obtain ⟨m, c1, c2⟩ := h.split rfl
      obtain ⟨hm, hq⟩ := c1.pushed hr hi
      obtain ⟨u, u', n, t, t', o, a1, a2, a3, a4, a5, a6, ak, a7, _⟩ := c2.asks (c1.reachable hr) hm hq
      cases o with
      | none => exact ⟨u, u', by simpa using c1.trans a1, ⟨n, t, t', a2, a3, a4, a5⟩, a7⟩
      | some g => cases a6
    | both _ h2 => cases h2 with | failed hc => cases hc

/-- `if`: the query is asked once; the first branch is executed if it has an answer (and with the
bindings of the answer), the second branch otherwise. -/
theorem C78_if {s s' : QSt World} {tr : Trace} {q : Query Act} {thn els : Option (List Stmt)} (hr : Reachable s) (hi : i < s.w.nint)
    (h : Calm a i K s tr s') (hx : (Stmt.ite q thn els).sem tr .done) :
    ∃ u o u' tr' s₁, Calm a i K s [(.pushQuery q, true)] u ∧ Asks a i (.start q) o u u' ∧ Calm a i K u' tr' s₁ ∧
      (if o.isSome then Stmt.semThen thn tr' .done else Stmt.semElse els tr' .done) ∧ Calm a i K s₁ [(.popQuery, true)] s' := by
  rw [Stmt.sem] at hx
  cases hx with
  | first _ h => exact absurd rfl h
  | both h1 h2 =>
    cases h1
    cases h2 with
    | first _ h => exact absurd rfl h
    | both h1 h2 =>
      cases h2
      obtain ⟨m, c1, c2⟩ := h.split rfl
      obtain ⟨s₁, c3, c4⟩ := c2.split rfl
      obtain ⟨hm, hq⟩ := c1.pushed hr hi
      cases h1 with
      | yes hb =>
        obtain ⟨m', d1, d2⟩ := c3.split (tr := [(.nextOrFail, true)]) rfl
        obtain ⟨u, u', n, t, t', o, a1, a2, a3, a4, a5, a6, ak, a7, _⟩ := d1.asks (c1.reachable hr) hm hq
        exact ⟨u, o, u', _, s₁, by simpa using c1.trans a1, ⟨n, t, t', a2, a3, a4, a5⟩, a7.trans d2, by rw [← a6]; exact hb, c4⟩
      | no hb =>
        obtain ⟨m', d1, d2⟩ := c3.split (tr := [(.nextOrFail, false)]) rfl
        obtain ⟨u, u', n, t, t', o, a1, a2, a3, a4, a5, a6, ak, a7, _⟩ := d1.asks (c1.reachable hr) hm hq
        exact ⟨u, o, u', _, s₁, by simpa using c1.trans a1, ⟨n, t, t', a2, a3, a4, a5⟩, a7.trans d2, by rw [← a6]; exact hb, c4⟩

/-- `for`: the body is executed once for every answer of the query; it is a consumer of the answers
(`Drain`), that is, the query is asked for the next answer in the state in which the body was left. -/
theorem C78_for {s s' : QSt World} {tr : Trace} {q : Query Act} {body : List Stmt} (hr : Reachable s) (hi : i < s.w.nint)
    (h : Calm a i K s tr s') (hx : (Stmt.forall_ q body).sem tr .done) :
    ∃ u t l t' u', Calm a i K s [(.pushQuery q, true)] u ∧ Sees a i t u ∧ t.w.cur = a ∧ Drain (Round a i K body) (.start q) t l t' ∧
      Sees a i t' u' ∧ Calm a i K u' [(.popQuery, true)] s' := by
  rw [Stmt.sem] at hx
  cases hx with
  | first _ h => exact absurd rfl h
  | both h1 h2 =>
    cases h1
    obtain ⟨m, c1, c2⟩ := h.split rfl
    obtain ⟨hm, hq⟩ := c1.pushed hr hi
    obtain ⟨u, t, l, t', u', a1, a2, a3, a4, a5, a6⟩ := c2.rounds h2 rfl (c1.reachable hr) hm hq
    exact ⟨u, t, l, t', u', by simpa using c1.trans a1, a2, a3, a4, a5, a6⟩

/-- `while`: in every round the query is executed anew; the body is executed if it has an answer,
otherwise the loop ends. -/
theorem C78_while {s s' : QSt World} {tr : Trace} {q : Query Act} {body : List Stmt} (hr : Reachable s) (hi : i < s.w.nint)
    (h : Calm a i K s tr s') (hx : (Stmt.while_ q body).sem tr .done) : ∃ k, Whiles a i K q body s k s' := by
  rw [Stmt.sem] at hx
  exact h.whiles hx rfl hr hi

/-- `for (p(…)) { … }`, where `p` has no rules and nobody changes the beliefs about `p` while the loop is
executed: the body is executed once for every belief that matches, in their order and with
the bindings of the match.

`_partial`: the queries of the body and the rules must not contain `.unbind_all` or `literal = variable`. -/
theorem C78_for_beliefs_partial {s s' : QSt World} {tr : Trace} {f : String} {as xs bs : List Term} {body : List Stmt} (hr : Reachable s)
    (ho : RulesKeep s.w) (hi : i < s.w.nint) (hk : Stmt.KeepingL body)
    (hK : ∀ u, K u → (u.w.ags a).rules (f, as.length) = [] ∧ u.w.beliefs a (f, as.length) = bs) (hs : K s) (h : Calm a i K s tr s')
    (hx : (Stmt.forall_ (.term (.lit f as xs)) body).sem tr .done) :
    ∃ u t l t' u', Calm a i K s [(.pushQuery (.term (.lit f as xs)), true)] u ∧ Sees a i t u ∧
      Drain (Round a i K body) (.start (.term (.lit f as xs))) t l t' ∧ Sees a i t' u' ∧ Calm a i K u' [(.popQuery, true)] s' ∧
      OnePerMatch (.lit f as xs) (u.w.ints i).b bs l ∧ (u'.w.ints i).b.scope = (u.w.ints i).b.scope := by
  obtain ⟨u, t, l, t', u', h1, h2, h3, h4, h5, h6⟩ := C78_for hr hi (h.strong hr (hr.orderly ho) hi) hx
  have hu := h1.keeps ⟨hs, hr, hr.orderly ho, hi⟩
  have see : ∀ {t u : QSt World}, Sees a i t u → K u → t.w.cur = a →
      (QWorld.rules t.w (f, as.length) : List (Rule Act)) = [] ∧ QWorld.beliefs (A := Act) (G := ActGen) t.w (f, as.length) = bs := by
    intro t u hs hk hc
    refine ⟨?_, ?_⟩
    · show (t.w.ags t.w.cur).rules _ = _
      rw [hc, hs.rules]
      exact (hK u hk).1
    · show t.w.beliefs t.w.cur _ = _
      rw [hc, hs.beliefs]
      exact (hK u hk).2
  have ht := see h2 hu.1 h3
  have hlit : ∀ x ∈ QWorld.beliefs (A := Act) (G := ActGen) t.w (f, as.length), x.isLiteral = true := by
    intro x hx
    rw [ht.2, ← (hK u hu.1).2] at hx
    unfold World.beliefs at hx
    split at hx
    · exact hu.2.2.1.bels _ x hx
    · cases hx
  obtain ⟨_, e1, e2⟩ := bel_drain_start (A := Act) (G := ActGen) (I := fun w => (QWorld.rules w (f, as.length) : List (Rule Act)) = [] ∧
      QWorld.beliefs (A := Act) (G := ActGen) w (f, as.length) = bs) (fun w hw => ⟨hw.1, by rw [hw.2, ht.2]⟩) (fun t₁ t₂ hb _ => by
      obtain ⟨v, tr', v', b1, b2, b3, b4, b5, b6⟩ := hb
      have hv := b3.keeps b2
      refine ⟨see b5 hv.1 b6, ?_⟩
      rw [b1.b, b5.b]
      exact (semL_holds body hk _ _ _ _ _ _ _ b4 (b3.acts b2.2.1 b2.2.2.1 b2.2.2.2) ⟨rfl, .refl _⟩).1) hlit ht h4
  refine ⟨u, t, l, t', u', h1.mono fun _ h => h.1, h2, h4.mono fun t₁ t₂ ⟨v, tr', v', b1, b2, b3, b4, b5, b6⟩ =>
    ⟨v, tr', v', b1, b2.1, b3.mono fun _ h => h.1, b4, b5, b6⟩, h5, h6.mono fun _ h => h.1, ?_, ?_⟩
  · rw [← h2.b, ← ht.2]; exact e2
  · rw [← h2.b, ← h5.b]; exact e1.scope

end

/-! ### Examples -/

section examples
attribute [local instance] exactHost

/-- The beliefs `p(b)`, `p(c)`, and no rules for `p`. -/
private def twoP (s : QSt World) : Bool :=
  match s.w.beliefs 0 ("p", 1), (s.w.ags 0).rules ("p", 1) with
  | [.lit "p" [.atom "b"] [], .lit "p" [.atom "c"] []], [] => true
  | _, _ => false

private theorem twoP_spec {s : QSt World} (h : twoP s = true) :
    (s.w.ags 0).rules ("p", 1) = [] ∧ s.w.beliefs 0 ("p", 1) = [.lit "p" [.atom "b"] [], .lit "p" [.atom "c"] []] := by
  unfold twoP at h
  split at h
  · next h1 h2 => exact ⟨h2, h1⟩
  · cases h

/-- C78_for, C78_for_beliefs_partial: the loop of `keeps` (see C77); two rounds. -/
example : ∃ (s s' : QSt World) (tr : Trace) (x : Term), Reachable s ∧ RulesKeep s.w ∧ 5 < s.w.nint ∧ twoP s = true ∧
    Calm 0 5 (fun s => twoP s = true) s tr s' ∧ Stmt.KeepingL [.add x] ∧
    (Stmt.forall_ (.term (.lit "p" [.var 1] [])) [.add x]).sem tr .done ∧
    s'.w.beliefs 0 ("q", 2) = [.lit "q" [.atom "b", .atom "b"] [], .lit "q" [.atom "c", .atom "b"] []] := by
  have h : ∃ s₀ s s' tr, started (fun _ => 0) keeps = some s₀ ∧ stepsOf 20 0 1 s₀ = some s ∧ 5 < s.w.nint ∧ twoP s = true ∧
      calmOf 20 0 5 twoP 7 s = some (tr, s') ∧
      (∃ b, tr = [(.pushQuery (.term (.lit "p" [.var 1] [])), true), (.nextOrFail, true), (.addBelief b, true), (.nextOrFail, true),
        (.addBelief b, true), (.nextOrFail, false), (.popQuery, true)]) ∧
      s'.w.beliefs 0 ("q", 2) = [.lit "q" [.atom "b", .atom "b"] [], .lit "q" [.atom "c", .atom "b"] []] ∧ ∀ a grp, (s.w.ags a).rules grp = [] :=
    ⟨_, _, _, _, rfl, rfl, by decide, rfl, rfl, ⟨_, rfl⟩, rfl, fun a grp => match a with | 0 => rfl | _ + 1 => rfl⟩
  obtain ⟨s₀, s, s', tr, h0, h1, h2, h3, h4, ⟨b, h5⟩, h6, h7⟩ := h
  refine ⟨s, s', tr, b, (started_reachable h0).steps (stepsOf_steps h1), fun a grp r h => (by rw [h7] at h; cases h), h2, h3, calmOf_calm h4,
    ⟨trivial, trivial⟩, ?_, h6⟩
  rw [h5, Stmt.sem]
  have hb : Stmt.semL [.add b] [(.addBelief b, true)] .done := by
    rw [Stmt.semL, Stmt.semL, Stmt.sem]
    exact Lang.seq.both (tr := [_]) (tr' := []) .done ⟨rfl, rfl⟩
  exact Lang.seq.both (tr := [_]) .done (.again (tr := []) ⟨rfl, rfl⟩ hb (.again (tr := []) ⟨rfl, rfl⟩ hb (.leave (tr := []) ⟨rfl, rfl⟩ .done)))

/-- C78_while, C78_if: the statements of `loops` (see C29): `while (p(X)) { -p(X) }` with two rounds, then the second branch
of `if (r) { +yes } else { +no }`. -/
example : ∃ (s s₁ s₂ : QSt World) (tr tr' : Trace) (q q' : Query Act) (x y z : Term), Reachable s ∧ 5 < s.w.nint ∧
    Calm 0 5 (fun _ => true = true) s tr s₁ ∧ (Stmt.while_ q [.remove x]).sem tr .done ∧ Reachable s₁ ∧ 5 < s₁.w.nint ∧
    Calm 0 5 (fun _ => true = true) s₁ tr' s₂ ∧ (Stmt.ite q' (some [.add y]) (some [.add z])).sem tr' .done ∧
    s₂.w.beliefs 0 ("no", 0) = [goalNamed "no"] := by
  have h : ∃ s₀ s s₁ s₂ tr tr', started (fun _ => 0) loops = some s₀ ∧ stepsOf 20 0 8 s₀ = some s ∧ 5 < s.w.nint ∧
      calmOf 20 0 5 (fun _ => true) 17 s = some (tr, s₁) ∧ 5 < s₁.w.nint ∧ calmOf 20 0 5 (fun _ => true) 5 s₁ = some (tr', s₂) ∧
      (∃ q x, tr = [(.pushQuery q, true), (.pushChoicepoint, true), (.nextOrFail, true), (.popQuery, true), (.removeBelief x, true),
        (.popChoicepoint, true), (.pushQuery q, true), (.pushChoicepoint, true), (.nextOrFail, true), (.popQuery, true), (.removeBelief x, true),
        (.popChoicepoint, true), (.pushQuery q, true), (.pushChoicepoint, true), (.nextOrFail, false), (.popChoicepoint, true), (.popQuery, true)]) ∧
      (∃ q z, tr' = [(.pushQuery q, true), (.nextOrFail, false), (.noop, true), (.addBelief z, true), (.popQuery, true)]) ∧
      s₂.w.beliefs 0 ("no", 0) = [goalNamed "no"] :=
    ⟨_, _, _, _, _, _, rfl, rfl, by decide, rfl, by decide, rfl, ⟨_, _, rfl⟩, ⟨_, _, rfl⟩, rfl⟩
  obtain ⟨s₀, s, s₁, s₂, tr, tr', h0, h1, h2, h3, h4, h5, ⟨q, x, h6⟩, ⟨q', z, h7⟩, h8⟩ := h
  have hr := (started_reachable h0).steps (stepsOf_steps h1)
  refine ⟨s, s₁, s₂, tr, tr', q, q', x, x, z, hr, h2, calmOf_calm h3, ?_, (calmOf_calm h3).reachable hr, h4, calmOf_calm h5, ?_, h8⟩
  · rw [h6, Stmt.sem]
    have hb : Stmt.semL [.remove x] [(.removeBelief x, true)] .done := by
      rw [Stmt.semL, Stmt.semL, Stmt.sem]
      exact Lang.seq.both (tr := [_]) (tr' := []) .done ⟨rfl, rfl⟩
    have hp : (seq (ins (.pushQuery q)) (ins .pushChoicepoint)) [(.pushQuery q, true), (.pushChoicepoint, true)] .done :=
      Lang.seq.both (tr := [_]) .done .done
    have ha : (seq (ins .popQuery) (seq (Stmt.semL [.remove x]) (ins .popChoicepoint)))
        [(.popQuery, true), (.removeBelief x, true), (.popChoicepoint, true)] .done :=
      Lang.seq.both (tr := [_]) .done (Lang.seq.both (tr := [_]) hb .done)
    exact .again (tr := [_, _]) hp (tr' := [_, _, _]) ha (.again (tr := [_, _]) (tr' := [_, _, _]) hp ha
      (.leave (tr := [_, _]) hp (Lang.seq.both (tr := [_]) .done .done)))
  · rw [h7, Stmt.sem]
    have hb : Stmt.semElse (some [.add z]) [(.noop, true), (.addBelief z, true)] .done := by
      rw [Stmt.semElse, Stmt.semL, Stmt.semL, Stmt.sem]
      exact Lang.seq.both (tr := [_]) .done (Lang.seq.both (tr := [_]) (tr' := []) .done ⟨rfl, rfl⟩)
    exact Lang.seq.both (tr := [_]) .done (Lang.seq.both (tr := [_, _, _]) (.no hb) .done)

/-- `p(1). !main.  +!main <- p(X); q(X); +done.` -/
def asks : AgentSrc where
  beliefs := [.lit "p" [.num 1] []]
  plans := [simplePlan "main" [.query pX, .query (.term (fX "q")), .add (goalNamed "done")]]
  goals := [goalNamed "main"]

/-- C78_query, C78_query_fails: the first query has an answer, the second one has none. -/
example : ∃ (s s₁ s₂ : QSt World) (tr tr' : Trace) (q q' : Query Act), Reachable s ∧ 3 < s.w.nint ∧
    Calm 0 3 (fun _ => true = true) s tr s₁ ∧ (Stmt.query q).sem tr .done ∧ Reachable s₁ ∧ 3 < s₁.w.nint ∧
    Calm 0 3 (fun _ => true = true) s₁ tr' s₂ ∧ (Stmt.query q').sem tr' .failed ∧ (s₂.w.ints 3).b.scope 0 = some (.num 1) := by
  have h : ∃ s₀ s s₁ s₂ tr tr', started (fun _ => 0) asks = some s₀ ∧ stepsOf 20 0 1 s₀ = some s ∧ 3 < s.w.nint ∧
      calmOf 20 0 3 (fun _ => true) 3 s = some (tr, s₁) ∧ 3 < s₁.w.nint ∧ calmOf 20 0 3 (fun _ => true) 2 s₁ = some (tr', s₂) ∧
      (∃ q, tr = [(.pushQuery q, true), (.nextOrFail, true), (.popQuery, true)]) ∧
      (∃ q, tr' = [(.pushQuery q, true), (.nextOrFail, false)]) ∧ (s₂.w.ints 3).b.scope 0 = some (.num 1) :=
    ⟨_, _, _, _, _, _, rfl, rfl, by decide, rfl, by decide, rfl, ⟨_, rfl⟩, ⟨_, rfl⟩, rfl⟩
  obtain ⟨s₀, s, s₁, s₂, tr, tr', h0, h1, h2, h3, h4, h5, ⟨q, h6⟩, ⟨q', h7⟩, h8⟩ := h
  have hr := (started_reachable h0).steps (stepsOf_steps h1)
  refine ⟨s, s₁, s₂, tr, tr', q, q', hr, h2, calmOf_calm h3, ?_, (calmOf_calm h3).reachable hr, h4, calmOf_calm h5, ?_, h8⟩
  · rw [h6, Stmt.sem]
    exact Lang.seq.both (tr := [_]) .done (Lang.seq.both (tr := [_]) .done .done)
  · rw [h7, Stmt.sem]
    exact Lang.seq.both (tr := [_]) .done (.first (.failed rfl) (by simp))

end examples

end Verif
