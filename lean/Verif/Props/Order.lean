import Verif.Lemmas.Order
import Verif.Lemmas.Rules
import Verif.Lemmas.Collect
import Verif.Props.Env

/-! # C86: answers come in program order -/

namespace Verif

section
variable [Host]

/-- **C86.** The answers of a query come in the order of the program: the beliefs before the rules, the rules one after
the other, for each answer of the left side of `&` all answers of the right side, the left side of `|` before
the right side.  (`InOrder` says so without generators; both ways: there are exactly these runs.) -/
theorem C86_order {q : Query Act} {s s' : QSt World} {ps : List (QSt World × QSt World)} :
    Visits (.start q : Gen Act ActGen) s ps s' ↔ InOrder q s ps s' :=
  ⟨fun h => h.rest, fun h => h.visits fun h hm => gnext_mono h hm⟩

/-- **C86**, for the consumers of the other properties: `R` is what the consumer may do between two answers. -/
theorem C86_answers {R : QSt World → QSt World → Prop} {q : Query Act} {s s' : QSt World} {l : List (QSt World)} :
    Drain R (.start q : Gen Act ActGen) s l s' ↔ ∃ ps, InOrder q s ps s' ∧ l = ps.map (·.1) ∧ ∀ p ∈ ps, R p.1 p.2 := by
  simp only [drain_visits, C86_order]

theorem Visits.unique {f : QSt World → QSt World} {g : Gen Act ActGen} {s s₁ s₂ : QSt World} {ps qs : List (QSt World × QSt World)}
    (h : Visits g s ps s₁) (h' : Visits g s qs s₂) (hp : ∀ p ∈ ps, p.2 = f p.1) (hq : ∀ p ∈ qs, p.2 = f p.1) : ps = qs ∧ s₁ = s₂ := by
  induction h generalizing qs with
  | @stop n g s s₁ h =>
    cases h' with
    | @stop m _ _ _ h' =>
      have := (gnext_mono h (Nat.le_max_left n m)).symm.trans (gnext_mono h' (Nat.le_max_right n m))
      cases this
      exact ⟨rfl, rfl⟩
    | @next m _ _ _ _ _ _ _ h' =>
      cases (gnext_mono h (Nat.le_max_left n m)).symm.trans (gnext_mono h' (Nat.le_max_right n m))
  | @next n g s g' t t' ps s₁ h _ ih =>
    cases h' with
    | @stop m _ _ _ h' => cases (gnext_mono h (Nat.le_max_left n m)).symm.trans (gnext_mono h' (Nat.le_max_right n m))
    | @next m _ _ _ _ u' _ _ h' h'' =>
      cases (gnext_mono h (Nat.le_max_left n m)).symm.trans (gnext_mono h' (Nat.le_max_right n m))
      have e1 : t' = f t := hp _ List.mem_cons_self
      have e2 : u' = f t := hq _ List.mem_cons_self
      subst e1; subst e2
      obtain ⟨rfl, rfl⟩ := ih h'' (fun p hp' => hp p (List.mem_cons_of_mem _ hp')) fun p hp' => hq p (List.mem_cons_of_mem _ hp')
      exact ⟨rfl, rfl⟩

/-- **C86.** There is only one such sequence of answers for a given consumer. -/
theorem C86_unique {f : QSt World → QSt World} {q : Query Act} {s s₁ s₂ : QSt World} {ps qs : List (QSt World × QSt World)}
    (h : InOrder q s ps s₁) (h' : InOrder q s qs s₂) (hp : ∀ p ∈ ps, p.2 = f p.1) (hq : ∀ p ∈ qs, p.2 = f p.1) : ps = qs ∧ s₁ = s₂ :=
  (C86_order.2 h).unique (C86_order.2 h') hp hq

/-- **C86.** The rules that an agent uses for a predicate are those of its program, in program order, whatever has happened since it
was built. -/
theorem C86_program {n : Nat} {src : AgentSrc} {base : String} {s s₁ s₂ : QSt World} {a : Nat} (hr : Reachable s)
    (h : buildAgent n src base s = .ok a s₁) (hl : Later s₁ s₂) (g : String × Nat) :
    (s₂.w.ags a).rules g = src.rules.filter (·.isFor g) := by
  obtain ⟨h1, h2⟩ := buildAgent_rules hr.stacksOK (.inl ⟨_, h⟩)
  have h3 := buildAgent_index h
  rw [(hl.rules (.build hr (.inl ⟨_, h⟩))).2 a (by omega), h2, if_pos h3]

/-- **C86.** The same for agents made by `build_agents`. -/
theorem C86_programs {n k : Nat} {src : AgentSrc} {base₀ base : String} {s s₁ s₂ : QSt World} {as : List Nat} (hr : Reachable s)
    (h : buildAgents n src k base₀ base s = .ok as s₁) (hl : Later s₁ s₂) {a : Nat} (ha : a ∈ as) (g : String × Nat) :
    (s₂.w.ags a).rules g = src.rules.filter (·.isFor g) := by
  obtain ⟨h1, h2⟩ := buildAgents_rules hr.stacksOK (.inl ⟨_, h⟩)
  obtain ⟨_, h3, h4, _, _⟩ := C37_builds hr h
  have h5 : s.w.nag ≤ a := by rw [h3, List.mem_range'_1] at ha; exact ha.1
  have h6 : a < s₁.w.nag := by
    have := ((hr.builds (.inl ⟨_, h⟩)).inv regOK_inv).named (name := (s₁.w.ags a).name) (a := a)
      (by rw [h4]; exact List.mem_append_right _ (List.mem_map.2 ⟨a, ha, rfl⟩))
    exact this.2
  rw [(hl.rules (.builds hr (.inl ⟨_, h⟩))).2 a h6, h2 a g h6, if_pos h5]

end

section examples
attribute [local instance] exactHost

/-- `q(2). p(1). p(X) :- q(X). r(X) :- p(X). p(X) :- X = 3.` -/
def ordered : AgentSrc where
  beliefs := [.lit "q" [.num 2] [], .lit "p" [.num 1] []]
  rules := [⟨.lit "p" [.var 0] [], .term (.lit "q" [.var 0] [])⟩, ⟨.lit "r" [.var 0] [], .term (.lit "p" [.var 0] [])⟩,
    ⟨.lit "p" [.var 0] [], .unify (.var 0) (.num 3)⟩]

/-- C86_program: the rules for `p`. -/
example : ∃ s : QSt World, ∃ a, Reachable s ∧ buildAgent 20 ordered "a" ⟨BSt.init, 0, World.init fun _ => 0⟩ = .ok a s ∧
    (s.w.ags a).rules ("p", 1) = [⟨.lit "p" [.var 0] [], .term (.lit "q" [.var 0] [])⟩, ⟨.lit "p" [.var 0] [], .unify (.var 0) (.num 3)⟩] := by
  have h : ∃ s a, buildAgent 20 ordered "a" ⟨BSt.init, 0, World.init fun _ => 0⟩ = .ok a s := ⟨_, _, rfl⟩
  obtain ⟨s, a, h⟩ := h
  exact ⟨s, a, .build (.init _) (.inl ⟨_, h⟩), h, (C86_program (.init _) h .refl ("p", 1)).trans rfl⟩

/-- The values of a variable in the answers. -/
private def valuesOf (x : VarId) (ps : List (QSt World × QSt World)) : List (Option Term) :=
  ps.map fun p => match deref 20 p.1.b.scope (.var x) with | .ok t => some t | _ => none

/-- C86_order: `r(X) & not X = 2 | q(X)` has the answers 1, 3, 2 in this order. -/
example : ∃ (s s' : QSt World) (ps : List (QSt World × QSt World)), Reachable s ∧
    InOrder (.or (.and (.term (.lit "r" [.var 90] [])) (.not (.unify (.var 90) (.num 2)))) (.term (.lit "q" [.var 90] [])))
      { s with b := BSt.init, nv := 91 } ps s' ∧ (∀ p ∈ ps, p.2 = p.1) ∧ valuesOf 90 ps = [some (.num 1), some (.num 3), some (.num 2)] := by
  have h : ∃ s a, buildAgent 20 ordered "a" ⟨BSt.init, 0, World.init fun _ => 0⟩ = .ok a s ∧
      ∃ g₁ s₁ g₂ s₂ g₃ s₃ s', gnext 40 (.start (.or (.and (.term (.lit "r" [.var 90] [])) (.not (.unify (.var 90) (.num 2))))
          (.term (.lit "q" [.var 90] []))) : Gen Act ActGen) { s with b := BSt.init, nv := 91 } = .ok (some g₁) s₁ ∧
        gnext 40 g₁ s₁ = .ok (some g₂) s₂ ∧ gnext 40 g₂ s₂ = .ok (some g₃) s₃ ∧ gnext 40 g₃ s₃ = .ok none s' ∧
        valuesOf 90 [(s₁, s₁), (s₂, s₂), (s₃, s₃)] = [some (.num 1), some (.num 3), some (.num 2)] :=
    ⟨_, _, rfl, _, _, _, _, _, _, _, rfl, rfl, rfl, rfl, rfl⟩
  obtain ⟨s, a, h, g₁, s₁, g₂, s₂, g₃, s₃, s', h1, h2, h3, h4, h5⟩ := h
  exact ⟨s, s', [(s₁, s₁), (s₂, s₂), (s₃, s₃)], .build (.init _) (.inl ⟨_, h⟩), C86_order.1 (.next h1 (.next h2 (.next h3 (.stop h4)))),
    by simp, h5⟩

end examples

end Verif
