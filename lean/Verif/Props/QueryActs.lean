import Verif.Lemmas.ActTrail
import Verif.Spec.ExactHost

/-!
# Properties C13 and C16 for queries with actions

`Query.settles` says for which queries and consumers nothing is left behind.
-/

namespace Verif

section
variable [Host]

/-- **C13** with actions (any but `.unbind_all`): scope and stack are as before when the
query is exhausted, if the consumer restores them between the answers, and the actions
that bind their result are followed back over a choicepoint (`settles`). -/
theorem C13_actions_restore {q : Query Act} {s s' : QSt World} {l : List (QSt World)}
    (hq : q.Clean fun a _ => a.trailed) (hg : q.settles (fun a _ r => a.settles r) true = true) (hw : Orderly s.w)
    (h : Drain (fun s s' => Orderly s'.w ∧ Same s.b s'.b) (.start q) s l s') :
    s'.b.scope = s.b.scope ∧ s'.b.stack = s.b.stack := by
  have := drain_trail (T := stdActs) (r := true) (e := true) (b₀ := s.b) stdActs_good (fun s s' hR _ => hR) h hw
    ⟨hq, fun _ => hg, rel_refl _ _⟩
  exact ⟨Same.scope this.2, Same.stack this.2⟩

/-- **C13** with actions: queries whose every answer is given after a choicepoint also undo
the bindings of the consumer. -/
theorem C13_actions_undo_consumer {q : Query Act} {s s' : QSt World} {l : List (QSt World)}
    (hq : q.Clean fun a _ => a.trailed) (hg : q.settles (fun a _ r => a.settles r) false = true) (hw : Orderly s.w)
    (h : Drain (fun s s' => Orderly s'.w ∧ Above s.b s'.b) (.start q) s l s') :
    s'.b.scope = s.b.scope ∧ s'.b.stack = s.b.stack := by
  have := drain_trail (T := stdActs) (r := false) (e := true) (b₀ := s.b) stdActs_good (fun s s' hR _ => hR) h hw
    ⟨hq, fun _ => hg, rel_refl _ _⟩
  exact ⟨Same.scope this.2, Same.stack this.2⟩

/-- **C13** with actions: whatever the query and the consumer, only trailed bindings are
left, which the choicepoint of a surrounding query undoes. -/
theorem C13_actions_trailed {q : Query Act} {s s' : QSt World} {l : List (QSt World)}
    (hq : q.Clean fun a _ => a.trailed) (hw : Orderly s.w)
    (h : Drain (fun s s' => Orderly s'.w ∧ Above s.b s'.b) (.start q) s l s') : Above s.b s'.b :=
  (drain_trail (T := stdActs) (r := false) (e := false) (b₀ := s.b) stdActs_good (fun s s' hR _ => hR) h hw
    ⟨hq, by simp, rel_refl _ _⟩).2

/-- **C16** with actions (any but `.unbind_all`): `not q` is true exactly if `q` has no
answer; the bindings are restored in both cases. -/
theorem C16_negation_actions {q : Query Act} {s : QSt World} (hq : q.Clean fun a _ => a.trailed) (hw : Orderly s.w) (n : Nat) :
    (∀ g s₁, gnext n (.start q : Gen Act ActGen) { s with b := s.b.mark } = .ok (some g) s₁ →
      ∃ s', gnext (n + 1) (.start (.not q)) s = .ok none s' ∧ s'.b.scope = s.b.scope ∧ s'.b.stack = s.b.stack) ∧
    (∀ s₁, gnext n (.start q : Gen Act ActGen) { s with b := s.b.mark } = .ok none s₁ →
      ∃ g' s', gnext (n + 1) (.start (.not q)) s = .ok (some g') s' ∧ s'.b.scope = s.b.scope ∧ s'.b.stack = s.b.stack ∧
        ∀ m (s'' : QSt World), gnext (m + 1) g' s'' = .ok none s'') := by
  have tr := gnext_trail (T := stdActs) stdActs_good n (.start q) { s with b := s.b.mark } true false s.b.mark hw
    ⟨hq, by simp, rel_refl _ _⟩
  constructor
  · intro g s₁ h
    obtain ⟨_, _, h3⟩ := tr.onSome _ _ h
    have hs : Same s.b (reroll s₁.b s.b.ncp) := same_reroll h3.above
    exact ⟨{ s₁ with b := reroll s₁.b s.b.ncp }, by simp [gnext, gstep, h, Res.onNext], hs.scope, hs.stack⟩
  · intro s₁ h
    have hs : Same s.b (reroll s₁.b s.b.ncp) := same_reroll (rel_above (tr.onNone _ h).2)
    exact ⟨.done, { s₁ with b := reroll s₁.b s.b.ncp }, by simp [gnext, gstep, h, Res.onNext], hs.scope, hs.stack,
      fun m s'' => rfl⟩

end

section counterexamples
attribute [local instance] exactHost

/-- One agent `me` that believes `p(b)`. -/
def pbWorld : World :=
  { World.init fun _ => 0 with
    ags := fun _ => { name := "me", beliefs := fun g => if g = ("p", 1) then some 0 else none }
    sets := fun k => if k = 0 then [.lit "p" [.atom "b"] []] else []
    nset := 1 }

theorem pbWorld_orderly : Orderly pbWorld where
  below := by intro a st hst; cases hst
  rules := by intro a grp r hr; cases hr
  bels := by
    intro k b hb
    simp only [pbWorld] at hb
    split at hb
    · simp at hb; subst hb; rfl
    · cases hb

/-- Nothing is bound, `X` is in use. -/
def pbState : QSt World := ⟨BSt.init, 1, pbWorld⟩

/-- `.my_name(X)` -/
abbrev myNameX : Query Act := .act .myName (.lit ".my_name" [.var 0] [])

/-- `p(X)` -/
abbrev askPX : Query Act := .term (.lit "p" [.var 0] [])

/-- **C13 is false of the code** for actions that bind their result: `ActionQuery` sets no
choicepoint.  After `.my_name(X)` is exhausted, `X` is still bound. -/
theorem C13_action_keeps_binding : ∃ (s' : QSt World) (l : List (QSt World)),
    Drain (fun s s' => s' = s) (.start myNameX : Gen Act ActGen) pbState l s' ∧
      pbState.b.scope 0 = none ∧ s'.b.scope 0 = some (.atom "me") :=
  ⟨_, _, .next (n := 9) rfl rfl (.stop (n := 9) rfl), rfl, rfl⟩

/-- **C13 is false of the code**: a failed alternative changes the answers of the next one.
Agent `me` believes `p(b)`; `p(X)` has an answer, but `(.my_name(X) & false) | p(X)` has
none. -/
theorem C13_failed_alternative_binds : ∃ (s₁ s₂ s' : QSt World),
    Drain (fun s s' => s' = s) (.start askPX : Gen Act ActGen) pbState [s₁] s₂ ∧ s₁.b.scope 0 = some (.atom "b") ∧
    Drain (fun s s' => s' = s) (.start (.or (.and myNameX .fls) askPX) : Gen Act ActGen) pbState [] s' :=
  ⟨_, _, _, .next (n := 9) rfl rfl (.stop (n := 9) rfl), rfl, .stop (n := 9) rfl⟩

/-- **C13 is false of the code** for `.unbind_all`, which empties the scope without
trail. -/
theorem C13_unbind_all : ∃ (s s' : QSt World) (l : List (QSt World)),
    Drain (fun s s' => s' = s) (.start (.act .unbindAll (.lit ".unbind_all" [] [])) : Gen Act ActGen) s l s' ∧
      s.b.scope 0 = some (.atom "a") ∧ s'.b.scope 0 = none ∧ ¬ Above s.b s'.b := by
  refine ⟨⟨⟨Scope.empty.set 0 (.atom "a"), [.v 0], 0⟩, 1, pbWorld⟩, _, _, .next (n := 9) rfl rfl (.stop (n := 9) rfl), rfl, rfl, ?_⟩
  rintro ⟨δ, h1, h2, -, -⟩
  have hd : δ = [] := by simpa using h1
  subst hd
  have := congrFun h2 0
  simp [undo, Scope.empty, Scope.set] at this

/-- The hypotheses of `C13_actions_restore` can be met: in `p(X) & .my_name(Y)` the choicepoint
of the belief undoes also the result of the action; the query has an answer. -/
example : ∃ (s₁ s' : QSt World),
    Drain (fun s s' => Orderly s'.w ∧ Same s.b s'.b)
      (.start (.and askPX (.act .myName (.lit ".my_name" [.var 1] []))) : Gen Act ActGen) pbState [s₁] s' ∧
    s₁.b.scope 0 = some (.atom "b") ∧ s₁.b.scope 1 = some (.atom "me") ∧ s'.b.scope = Scope.empty := by
  have hd : ∃ (s₁ s' : QSt World), Drain (fun s s' => Orderly s'.w ∧ Same s.b s'.b)
      (.start (.and askPX (.act .myName (.lit ".my_name" [.var 1] []))) : Gen Act ActGen) pbState [s₁] s' ∧
      s₁.b.scope 0 = some (.atom "b") ∧ s₁.b.scope 1 = some (.atom "me") :=
    ⟨_, _, .next (n := 9) rfl ⟨pbWorld_orderly, .refl _⟩ (.stop (n := 9) rfl), rfl, rfl⟩
  obtain ⟨s₁, s', h, h1, h2⟩ := hd
  exact ⟨s₁, s', h, h1, h2, (C13_actions_restore (q := .and askPX (.act .myName (.lit ".my_name" [.var 1] []))) ⟨trivial, trivial⟩ rfl
    pbWorld_orderly h).1⟩

/-- `.member(X, [1, 2])` undoes the bindings of its consumer, `.print(X)` does not. -/
example : Act.settles .member false = true ∧ Act.settles .print false = false ∧ Act.settles .print true = true := ⟨rfl, rfl, rfl⟩

/-- The hypotheses of `C13_actions_undo_consumer` can be met: `.member(X, [1, 2])`. -/
example : ∃ (s₁ s₂ s' : QSt World),
    Drain (fun s s' => Orderly s'.w ∧ Above s.b s'.b)
      (.start (.act .member (.lit ".member" [.var 0, .tup [.num 1, .num 2]] [])) : Gen Act ActGen) pbState [s₁, s₂] s' ∧
    s₂.b.scope 0 = some (.num 2) ∧ s'.b.scope = Scope.empty := by
  have hd : ∃ (s₁ s₂ s' : QSt World), Drain (fun s s' => Orderly s'.w ∧ Above s.b s'.b)
      (.start (.act .member (.lit ".member" [.var 0, .tup [.num 1, .num 2]] [])) : Gen Act ActGen) pbState [s₁, s₂] s' ∧
      s₂.b.scope 0 = some (.num 2) :=
    ⟨_, _, _, .next (n := 9) rfl ⟨pbWorld_orderly, .refl _⟩ (.next (n := 9) rfl ⟨pbWorld_orderly, .refl _⟩ (.stop (n := 9) rfl)), rfl⟩
  obtain ⟨s₁, s₂, s', h, h1⟩ := hd
  exact ⟨s₁, s₂, s', h, h1, (C13_actions_undo_consumer (q := .act .member (.lit ".member" [.var 0, .tup [.num 1, .num 2]] []))
    trivial rfl pbWorld_orderly h).1⟩

/-- The hypotheses of `C13_actions_trailed` can be met: `.my_name(X)` leaves a trailed binding. -/
example : ∃ s' l, Drain (fun s s' => Orderly s'.w ∧ Above s.b s'.b) (.start myNameX : Gen Act ActGen) pbState l s' ∧
    Above pbState.b s'.b := by
  have hd : ∃ s' l, Drain (fun s s' => Orderly s'.w ∧ Above s.b s'.b) (.start myNameX : Gen Act ActGen) pbState l s' :=
    ⟨_, _, .next (n := 9) rfl ⟨pbWorld_orderly, .refl _⟩ (.stop (n := 9) rfl)⟩
  obtain ⟨s', l, h⟩ := hd
  exact ⟨s', l, h, C13_actions_trailed (q := myNameX) trivial pbWorld_orderly h⟩

/-- The hypotheses of `C16_negation_actions` can be met: `not (.my_name(X) & false)` is true and leaves `X`
unbound. -/
example : ∃ g' s', gnext 9 (.start (.not (.and myNameX .fls)) : Gen Act ActGen) pbState = .ok (some g') s' ∧
    s'.b.scope = Scope.empty := by
  have hd : ∃ s₁, gnext 8 (.start (.and myNameX .fls) : Gen Act ActGen) { pbState with b := pbState.b.mark } = .ok none s₁ :=
    ⟨_, rfl⟩
  obtain ⟨s₁, h⟩ := hd
  obtain ⟨g', s', h1, h2, _⟩ := (C16_negation_actions (q := .and myNameX .fls) ⟨trivial, trivial⟩ pbWorld_orderly 8).2 _ h
  exact ⟨g', s', h1, h2⟩

end counterexamples

end Verif
