import Verif.Lemmas.Resolve
import Verif.Lemmas.Registry
import Verif.Props.Optimize
import Verif.Props.Ground
import Verif.Spec.ExactHost

/-!
# Actions that are declared to bind a parameter (C67)
-/

namespace Verif

theorem functionLike_doBind {n i : Nat} (hi : i < n) :
    Effect.doBind ∈ Evilness.functionLike.find (.nth i) n ↔ i + 1 = n := by
  rw [C64_find (by omega)]
  simp only [Evilness.functionLike, Affect.nth, List.mem_cons, Prod.mk.injEq, List.not_mem_nil, or_false]
  constructor
  · rintro ⟨af, ⟨_, h⟩ | ⟨rfl, _⟩, ha⟩
    · exact absurd h (by decide)
    · simp only [Affect.AboutParam] at ha
      omega
  · intro h
    refine ⟨_, .inr ⟨rfl, trivial⟩, ?_⟩
    simp only [Affect.AboutParam]
    omega

theorem find_of_mem {e : Evilness} {i n : Nat} (h : ∀ af, (af, Effect.doBind) ∉ e) : Effect.doBind ∉ e.find (.nth i) n := by
  rw [C64_find (by omega)]
  rintro ⟨af, hm, -⟩
  exact h af hm

theorem standard_cases : ∀ i ∈ standardActions,
    (i.evilness.getD .functionLike = .functionLike ∧
      ((∃ p ∈ bindsLast, p.1.toList = i.name ∧ (p.2 : Int) = i.arity) ∨ (i.name = ".concat".toList ∧ i.arity = -1))) ∨
    (i.evilness = some [(.paramAll, .doBind)] ∧ i.arity = 3 ∧ (i.name = ".date".toList ∨ i.name = ".time".toList)) ∨
    ∀ p ∈ i.evilness.getD .functionLike, p.2 ≠ Effect.doBind := by decide

/-- What is declared for an action. -/
def declared (f : List Char) (n : Nat) : Evilness :=
  match standardActions.reverse.find? (fun i => decide (i.name = f ∧ i.arity = (n : Int))) with
  | some i => i.evilness.getD .functionLike
  | none => match standardActions.reverse.find? (fun i => decide (i.name = f ∧ i.arity = -1)) with
    | some i => i.evilness.getD .functionLike
    | none => [(.everything, .all)]

theorem declared_last : ∀ p ∈ bindsLast, declared p.1.toList p.2 = .functionLike := by decide

theorem declared_concat (n : Nat) : declared ".concat".toList n = .functionLike := by
  have h : standardActions.reverse.find? (fun i => decide (i.name = ".concat".toList ∧ i.arity = (n : Int))) = none := by
    rw [List.find?_eq_none]
    intro i hi
    have : i.name = ".concat".toList → i.arity = -1 := by
      revert i
      simp only [List.mem_reverse]
      decide
    simp only [decide_eq_true_eq]
    rintro ⟨h1, h2⟩
    have := this h1
    omega
  rw [declared, h]
  decide

theorem declared_time : declared ".date".toList 3 = [(.paramAll, .doBind)] ∧ declared ".time".toList 3 = [(.paramAll, .doBind)] := by decide

theorem declared_cases (f : List Char) (n : Nat) :
    (∃ i ∈ standardActions, i.name = f ∧ (i.arity = n ∨ i.arity = -1) ∧ declared f n = i.evilness.getD .functionLike) ∨
      declared f n = [(.everything, .all)] := by
  rw [declared]
  split
  · next i h =>
    have h1 := List.find?_some h
    simp only [decide_eq_true_eq] at h1
    exact .inl ⟨i, List.mem_reverse.1 (List.mem_of_find?_eq_some h), h1.1, .inl h1.2, rfl⟩
  · split
    · next i h =>
      have h1 := List.find?_some h
      simp only [decide_eq_true_eq] at h1
      exact .inl ⟨i, List.mem_reverse.1 (List.mem_of_find?_eq_some h), h1.1, .inr h1.2, rfl⟩
    · exact .inr rfl

/-- **C67.** The parameters that standard actions are declared to bind: the last one of most of
them, and all those of `.date` and `.time`. -/
theorem C67_declares {t : ActionTable} {s s' : Nat} (h : registerActions standardActions [] s = .ok t s') (f : String) {n i : Nat} (hi : i < n) :
    Effect.doBind ∈ (t.get f.toList n).find (.nth i) n ↔
      (i + 1 = n ∧ ((f, n) ∈ bindsLast ∨ f = ".concat")) ∨ (n = 3 ∧ (f = ".date" ∨ f = ".time")) := by
  have inj : ∀ {g : String}, g.toList = f.toList → f = g := fun h => String.toList_inj.1 h.symm
  have he : t.get f.toList n = declared f.toList n := C64_registered h _ _
  rw [he]
  constructor
  · intro hb
    rcases declared_cases f.toList n with ⟨a, hm, e1, e2, e3⟩ | e
    · rw [e3] at hb
      rcases standard_cases a hm with ⟨h1, ⟨p, h2, h3, h4⟩ | ⟨h2, h3⟩⟩ | ⟨h1, h2, h3⟩ | h1
      · rw [h1, functionLike_doBind hi] at hb
        have hn : p.2 = n := by omega
        exact .inl ⟨hb, .inl (by rw [inj (h3.trans e1), ← hn]; exact h2)⟩
      · rw [h1, functionLike_doBind hi] at hb
        exact .inl ⟨hb, .inr (inj (h2.symm.trans e1))⟩
      · exact .inr ⟨by omega, h3.imp (fun h => inj (h.symm.trans e1)) (fun h => inj (h.symm.trans e1))⟩
      · exact absurd hb (find_of_mem fun af hm => h1 _ hm rfl)
    · rw [e] at hb
      exact absurd hb (find_of_mem fun af hm => by
        simp only [List.mem_singleton, Prod.mk.injEq] at hm
        exact absurd hm.2 (by decide))
  · rintro (⟨h1, h2 | rfl⟩ | ⟨rfl, rfl | rfl⟩)
    · rw [declared_last _ h2, functionLike_doBind hi]; exact h1
    · rw [declared_concat, functionLike_doBind hi]; exact h1
    · rw [declared_time.1, C64_find (by omega)]; exact ⟨_, List.mem_singleton.2 rfl, trivial⟩
    · rw [declared_time.2, C64_find (by omega)]; exact ⟨_, List.mem_singleton.2 rfl, trivial⟩

/-- **C67.** The optimiser knows all actions of the standard library, with their numbers of
parameters (-1 if they take any number). -/
theorem C67_names (random : List Term → Ev Term) :
    (standardActions.map fun i => (i.name, i.arity)).Perm
      ((stdRegistrations random).map fun r =>
        (r.key.1.toList, match r.key.2 with | some k => (k : Int) | none => -1)) := by
  simp only [stdRegistrations, List.map_cons, List.map_nil, Registration.key, List.length_cons, List.length_nil]
  decide

/-! ## Binding -/

variable [Host] {random randint : List Term → Ev Term} {R : QSt World → QSt World → Prop} {f : String} {as : List Term} {x : VarId}
  {s s' s₁ : QSt World} {m : Nat} {g : ActGen}

omit [Host] in
theorem lastOf_var {args : List Term} {i : Nat} (h : args[i]? = some (.var x)) (hi : i + 1 = args.length) : lastOf args = .ok (.var x) := by
  rw [lastOf, List.getLast?_eq_getElem?, show args.length - 1 = i by omega, h]

/-- An action with at most one answer. -/
theorem once {a : Act} {t : Term} {P : QSt World → Prop} (h : Answer R (.start (.act a t) : Gen Act ActGen) s s')
    (hp : ∀ m rec g s₁, actNext m rec (.start a t) s = .ok (some g) s₁ → g = .fin ∧ P s₁) : P s' := by
  obtain ⟨m, g, s₁, h1, h2⟩ := answer_start h
  obtain ⟨rfl, h3⟩ := hp _ _ _ _ h1
  rcases h2 with rfl | ⟨s₂, _, h4⟩
  · exact h3
  · exact (answer_fin h4).elim

theorem unifyThenYield_fin {n : Nat} {l r : Term} (h : unifyThenYield n l r s = .ok (some g) s') : g = .fin := by
  simp only [unifyThenYield, QSt.onB] at h
  cases hu : unify n l r s.b with
  | oof => rw [hu] at h; cases h
  | err e b => rw [hu] at h; cases h
  | ok a b => rw [hu] at h; cases a <;> cases h; rfl

omit [Host] in
theorem Res.lift_bind_ok {α β σ : Type} {y : Ev α} {s s' : σ} {k : α → σ → Res σ β} {b : β} (h : (Res.lift y s).bind k = .ok b s') :
    ∃ a, y = .ok a ∧ k a s = .ok b s' := by
  cases y <;> simp at h
  exact ⟨_, rfl, h⟩

theorem binds_fn {specs : List Spec} {fn : List Term → Ev Term} {args : List Term} (hl : lastOf args = .ok (.var x))
    (hf : ∀ n vs r s₁, zipSpecs n specs args (fun _ => none) s = .ok vs s₁ → fn vs = .ok r → r.solid = true)
    (h : Answer R (.start (.act (.fn specs fn) (.lit f args as)) : Gen Act ActGen) s s') : Resolved s'.b.scope x := by
  refine once (P := fun s' => Resolved s'.b.scope x) h fun m rec g s₁ h => ?_
  rw [actNext] at h
  obtain ⟨vs, s₂, h1, h⟩ := Res.bind_eq_ok.1 h
  obtain ⟨r, h2, h⟩ := Res.lift_bind_ok h
  obtain ⟨y, h3, h⟩ := Res.lift_bind_ok h
  simp only [argList, hl] at h3
  cases h3
  exact ⟨unifyThenYield_fin h, unifyThenYield_resolves (hf _ _ _ _ h1 h2) h⟩

theorem binds_pred {p : Term → Bool} (hp : ∀ y, p (.var y) = false)
    (h : Answer R (.start (.act (.pred [.any] (predOf p)) (.lit f [.var x] as)) : Gen Act ActGen) s s') : Resolved s'.b.scope x := by
  refine once (P := fun s' => Resolved s'.b.scope x) h fun m rec g s₁ h => ?_
  rw [actNext] at h
  simp only [argList, zipSpecs] at h
  cases hf : freeze m s.b.scope (.var x) ⟨fun _ => none, s.nv⟩ with
  | oof => simp only [hf] at h; cases h
  | err e m => simp only [hf] at h; cases h
  | ok v m' =>
    simp only [hf, convert, Res.lift_ok, Res.bind_ok, predOf] at h
    cases hv : p v with
    | false => simp only [hv] at h; cases h
    | true =>
      simp only [hv] at h
      cases h
      exact ⟨rfl, freeze_resolves rfl hf fun y e => by rw [e, hp] at hv; cases hv⟩

theorem freeze_lit {n : Nat} {t : Term} (h : s.freeze n (.var x) = .ok t s₁) (ht : ∀ y, t ≠ .var y) : Resolved s.b.scope x ∧ s₁.b = s.b := by
  have hb : s₁.b = s.b := freeze_b.of_ok h
  unfold QSt.freeze at h
  cases hf : freezeNew n s.b.scope (.var x) s.nv with
  | oof => rw [hf] at h; cases h
  | err e m => rw [hf] at h; cases h
  | ok v m' =>
    rw [hf] at h
    cases h
    exact ⟨freeze_resolves rfl hf ht, hb⟩

theorem binds_broadcast {y : Term} (h : Answer R (.start (.act .broadcast (.lit f [y, .var x] as)) : Gen Act ActGen) s s') :
    Resolved s'.b.scope x := by
  refine once (P := fun s' => Resolved s'.b.scope x) h fun m rec g s₁ h => ?_
  rw [actNext, broadcast] at h
  obtain ⟨ilf, h1, h⟩ := Res.lift_bind_ok h
  split at h
  · split at h
    · cases h
    · obtain ⟨t, h2, h⟩ := Res.lift_bind_ok h
      cases h2
      obtain ⟨t, s₂, h3, h⟩ := Res.bind_eq_ok.1 h
      obtain ⟨t', h4, h⟩ := Res.lift_bind_ok h
      obtain ⟨_, s₃, h5, h⟩ := Res.bind_eq_ok.1 h
      cases h
      obtain ⟨h6, h7⟩ := freeze_lit h3 fun y e => by rw [e] at h4; cases h4
      have : s₁.b = s.b := ((deliver_b _ s₂ rfl).of_ok h5 : s₁.b = s₂.b).trans h7
      exact ⟨rfl, by rw [this]; exact h6⟩
  · cases h

theorem binds_send {y z : Term} (hz : ∀ k f', grounded k s.b.scope z = .ok (.atom f') → f' ∉ ["tellHow", "untellHow", "askHow"])
    (h : Answer R (.start (.act .send (.lit f [y, z, .var x] as)) : Gen Act ActGen) s s') : Resolved s'.b.scope x := by
  refine once (P := fun s' => Resolved s'.b.scope x) h fun m rec g s₁ h => ?_
  rw [actNext, send] at h
  obtain ⟨r, -, h⟩ := Res.lift_bind_ok h
  obtain ⟨rs, -, h⟩ := Res.lift_bind_ok h
  obtain ⟨rc, -, h⟩ := Res.lift_bind_ok h
  obtain ⟨ilf, h1, h⟩ := Res.lift_bind_ok h
  split at h
  · next f' =>
    have hf := hz _ _ h1
    simp only [List.mem_cons, List.not_mem_nil, or_false, not_or] at hf
    split at h
    · cases h
    · next tr gt hfo =>
      have hgt : ¬(gt = .tellHow ∨ gt = .askHow) := by
        simp only [force, hf, if_false, Bool.false_eq_true] at hfo
        split at hfo
        · cases hfo; simp
        · split at hfo
          · cases hfo; simp
          · split at hfo
            · cases hfo; simp
            · split at hfo
              · cases hfo; simp
              · cases hfo
      obtain ⟨t, h2, h⟩ := Res.lift_bind_ok h
      cases h2
      rw [if_neg hgt] at h
      obtain ⟨t, s₂, h3, h⟩ := Res.bind_eq_ok.1 h
      obtain ⟨t', h4, h⟩ := Res.lift_bind_ok h
      obtain ⟨_, s₃, h5, h⟩ := Res.bind_eq_ok.1 h
      cases h
      obtain ⟨h6, h7⟩ := freeze_lit h3 fun y e => by rw [e] at h4; cases h4
      have : s₁.b = s.b := ((deliver_b _ s₂ rfl).of_ok h5 : s₁.b = s₂.b).trans h7
      exact ⟨rfl, by rw [this]; exact h6⟩
  · cases h

theorem binds_abolish (h : Answer R (.start (.act .abolish (.lit f [.var x] as)) : Gen Act ActGen) s s') : Resolved s'.b.scope x := by
  refine once (P := fun s' => Resolved s'.b.scope x) h fun m rec g s₁ h => ?_
  rw [actNext] at h
  obtain ⟨t, h2, h⟩ := Res.lift_bind_ok h
  cases h2
  obtain ⟨t, s₂, h3, h⟩ := Res.bind_eq_ok.1 h
  split at h
  · obtain ⟨keep, -, h⟩ := Res.lift_bind_ok h
    cases h
    obtain ⟨h6, h7⟩ := freeze_lit h3 nofun
    exact ⟨rfl, by rw [← h7] at h6; exact h6⟩
  · cases h

theorem binds_myName (h : Answer R (.start (.act .myName (.lit f [.var x] as)) : Gen Act ActGen) s s') : Resolved s'.b.scope x := by
  refine once (P := fun s' => Resolved s'.b.scope x) h fun m rec g s₁ h => ?_
  rw [actNext] at h
  obtain ⟨t, h2, h⟩ := Res.lift_bind_ok h
  cases h2
  exact ⟨unifyThenYield_fin h, unifyThenYield_resolves rfl h⟩

theorem binds_concat {args : List Term} (hl : lastOf args = .ok (.var x))
    (h : Answer R (.start (.act .concat (.lit f args as)) : Gen Act ActGen) s s') : Resolved s'.b.scope x := by
  refine once (P := fun s' => Resolved s'.b.scope x) h fun m rec g s₁ h => ?_
  rw [actNext, concat] at h
  obtain ⟨ts, -, h⟩ := Res.lift_bind_ok h
  obtain ⟨y, h3, h⟩ := Res.lift_bind_ok h
  simp only [argList, hl] at h3
  cases h3
  exact ⟨unifyThenYield_fin h, unifyThenYield_resolves (by split <;> rfl) h⟩

theorem binds_findall {y z : Term} (h : Answer R (.start (.act .findall (.lit f [y, z, .var x] as)) : Gen Act ActGen) s s') :
    Resolved s'.b.scope x := by
  refine once (P := fun s' => Resolved s'.b.scope x) h fun m rec g s₁ h => ?_
  rw [actNext] at h
  obtain ⟨p, -, h⟩ := Res.lift_bind_ok h
  obtain ⟨q, -, h⟩ := Res.lift_bind_ok h
  obtain ⟨ts, s₂, -, h⟩ := Res.bind_eq_ok.1 h
  obtain ⟨t, h2, h⟩ := Res.lift_bind_ok h
  cases h2
  exact ⟨unifyThenYield_fin h, unifyThenYield_resolves' rfl rfl h⟩

theorem binds_count {y : Term} (h : Answer R (.start (.act .count (.lit f [y, .var x] as)) : Gen Act ActGen) s s') :
    Resolved s'.b.scope x := by
  refine once (P := fun s' => Resolved s'.b.scope x) h fun m rec g s₁ h => ?_
  rw [actNext] at h
  obtain ⟨q, -, h⟩ := Res.lift_bind_ok h
  obtain ⟨k, s₂, -, h⟩ := Res.bind_eq_ok.1 h
  obtain ⟨t, h2, h⟩ := Res.lift_bind_ok h
  cases h2
  exact ⟨unifyThenYield_fin h, unifyThenYield_resolves' rfl rfl h⟩

omit [Host] in
theorem onB_ok {α : Type} {u : BSt → Res BSt α} {a : α} (h : s.onB u = .ok a s') : u s.b = .ok a s'.b ∧ s' = { s with b := s'.b } := by
  unfold QSt.onB at h
  cases hx : u s.b with
  | oof => rw [hx] at h; cases h
  | err e b => rw [hx] at h; cases h
  | ok a b => rw [hx] at h; cases h; exact ⟨rfl, rfl⟩

/-- An answer of `.date` or `.time`. -/
theorem stamp_ok {n : Nat} {v : Rat × Rat × Rat} {y z u : Term} (h : stamp n v (.lit f [y, z, u] as) s = .ok (some g) s') :
    g = .fin ∧ ∃ b₁ b₂, unify n y (.num v.1) s.b = .ok true b₁ ∧ unify n z (.num v.2.1) b₁ = .ok true b₂ ∧
      unify n u (.num v.2.2) b₂ = .ok true s'.b ∧ s'.w = s.w := by
  unfold stamp at h
  obtain ⟨_, e, h⟩ := Res.lift_bind_ok h
  cases e
  obtain ⟨ok, s₁, h1, h⟩ := Res.bind_eq_ok.1 h
  obtain ⟨h1, e1⟩ := onB_ok h1
  cases ok with
  | false => cases h
  | true =>
    rw [if_pos rfl] at h
    obtain ⟨_, e, h⟩ := Res.lift_bind_ok h
    cases e
    obtain ⟨ok, s₂, h2, h⟩ := Res.bind_eq_ok.1 h
    obtain ⟨h2, e2⟩ := onB_ok h2
    cases ok with
    | false => cases h
    | true =>
      rw [if_pos rfl] at h
      obtain ⟨_, e, h⟩ := Res.lift_bind_ok h
      cases e
      have hf := unifyThenYield_fin h
      obtain ⟨h3, e3⟩ := unifyThenYield_ok h
      exact ⟨hf, s₁.b, s₂.b, h1, h2, h3, e3.trans ((show s₂.w = s₁.w by rw [e2]).trans (by rw [e1]))⟩

/-- **C66.** `.date` and `.time`: an answer unifies the arguments with the three parts of one reading of the
clock. -/
theorem C66_stamp {n : Nat} {y z u : Term} {o : Gen Act ActGen} {act : Act} {v : Rat × Rat × Rat}
    (ha : (act = .date ∧ v = Host.date s.w.ticks) ∨ (act = .time ∧ v = Host.time s.w.ticks))
    (h : gnext n (.start (.act act (.lit f [y, z, u] as)) : Gen Act ActGen) s = .ok (some o) s') :
    ∃ k b₁ b₂, unify k y (.num v.1) s.b = .ok true b₁ ∧ unify k z (.num v.2.1) b₁ = .ok true b₂ ∧ unify k u (.num v.2.2) b₂ = .ok true s'.b ∧ s'.w = s.w := by
  replace h := act_start h
  obtain ⟨m, o', e, h⟩ := h
  cases o' with
  | none => cases e
  | some g =>
    rcases ha with ⟨rfl, rfl⟩ | ⟨rfl, rfl⟩
    · obtain ⟨-, b₁, b₂, h1, h2, h3, h4⟩ := stamp_ok h
      exact ⟨m, b₁, b₂, h1, h2, h3, h4⟩
    · obtain ⟨-, b₁, b₂, h1, h2, h3, h4⟩ := stamp_ok h
      exact ⟨m, b₁, b₂, h1, h2, h3, h4⟩

theorem binds_stamp {a : Act} {v : Nat → Rat × Rat × Rat} {args : List Term} {i : Nat}
    (ha : ∀ m rec s, actNext m rec (.start a (.lit f args as)) s = stamp m (v s.w.ticks) (.lit f args as) s)
    (hn : args.length = 3) (hx : args[i]? = some (.var x))
    (h : Answer R (.start (.act a (.lit f args as)) : Gen Act ActGen) s s') : Resolved s'.b.scope x := by
  refine once (P := fun s' => Resolved s'.b.scope x) h fun m rec g s₁ h => ?_
  rw [ha] at h
  match args, hn with
  | [y, z, u], _ =>
    obtain ⟨hf, b₁, b₂, h1, h2, h3, -⟩ := stamp_ok h
    refine ⟨hf, ?_⟩
    have g2 := (unify_grow m _ _ _ _ (Or.inl ⟨_, h2⟩)).above
    have g3 := (unify_grow m _ _ _ _ (Or.inl ⟨_, h3⟩)).above
    match i, hx with
    | 0, hx => cases hx; exact ((unify_resolves rfl m h1).above g2).above g3
    | 1, hx => cases hx; exact (unify_resolves rfl m h2).above g3
    | 2, hx => cases hx; exact unify_resolves rfl m h3

theorem binds_member {y : Term} (hR : ∀ s s', R s s' → Above s.b s'.b)
    (h : Answer R (.start (.act .member (.lit f [y, .var x] as)) : Gen Act ActGen) s s') : Resolved s'.b.scope x := by
  obtain ⟨m, g, s₁, h1, h2⟩ := answer_start h
  rw [actNext] at h1
  obtain ⟨l, h3, h1⟩ := Res.lift_bind_ok h1
  obtain ⟨t, h4, h1⟩ := Res.lift_bind_ok h1
  obtain ⟨h5, h6, -⟩ := items_answer_start hR h1 h2
  exact (evaluate_resolves (n := m) h3 h6).above h5

theorem binds_range {y : Term} (hR : ∀ s s', R s s' → Above s.b s'.b)
    (h : Answer R (.start (.act .range (.lit f [y, .var x] as)) : Gen Act ActGen) s s') : Resolved s'.b.scope x := by
  obtain ⟨m, g, s₁, h1, h2⟩ := answer_start h
  rw [actNext] at h1
  obtain ⟨k, -, h1⟩ := Res.lift_bind_ok h1
  obtain ⟨t, h4, h1⟩ := Res.lift_bind_ok h1
  cases h4
  obtain ⟨-, -, h5⟩ := items_answer_start hR h1 h2
  obtain ⟨z, hz, n, b, hu⟩ := h5 _ rfl
  obtain ⟨j, -, rfl⟩ := List.mem_map.1 hz
  exact unify_resolves rfl n hu

theorem binds_substring {y z : Term} (hR : ∀ s s', R s s' → Above s.b s'.b)
    (h : Answer R (.start (.act .substring (.lit f [y, z, .var x] as)) : Gen Act ActGen) s s') : Resolved s'.b.scope x := by
  obtain ⟨m, g, s₁, h1, h2⟩ := answer_start h
  rw [actNext] at h1
  obtain ⟨k, -, h1⟩ := Res.lift_bind_ok h1
  obtain ⟨k', -, h1⟩ := Res.lift_bind_ok h1
  obtain ⟨t, h4, h1⟩ := Res.lift_bind_ok h1
  cases h4
  obtain ⟨-, -, h5⟩ := items_answer_start hR h1 h2
  obtain ⟨z, hz, n, b, hu⟩ := h5 _ rfl
  obtain ⟨j, -, rfl⟩ := List.mem_map.1 hz
  exact unify_resolves rfl n hu

/-! ## Items -/

omit [Host] in
theorem ground_solid {t : Term} (h : t.Ground) : t.solid = true := by
  cases t <;> first | rfl | (simp [Term.Ground, Term.All] at h)

omit [Host] in
theorem allL_mem {p : Term → Prop} : ∀ {ts : List Term}, Term.AllL p ts → ∀ t ∈ ts, t.All p
  | _ :: _, h, _, .head _ => h.1
  | _ :: _, h, _, .tail _ hm => allL_mem h.2 _ hm

omit [Host] in
theorem iter_solid : ∀ {t : Term} {xs : List Term}, t.Ground → iter t = .ok xs → ∀ y ∈ xs, y.solid = true
  | .tup ys, xs, h, e => by
    cases e
    intro y hy
    exact ground_solid (allL_mem h.2 y hy)
  | .cons a t, xs, h, e => by
    simp only [iter, Ev.map_eq_ok] at e
    obtain ⟨ys, h1, rfl⟩ := e
    intro y hy
    rcases List.mem_cons.1 hy with rfl | hy
    · exact ground_solid h.2.1
    · exact iter_solid h.2.2 h1 y hy
  | .str q, xs, h, e => by
    cases e
    intro y hy
    obtain ⟨c, -, rfl⟩ := List.mem_map.1 hy
    rfl

omit [Host] in
theorem minGo_mem : ∀ {xs : List Term} {a r : Term}, minGo a xs = .ok r → r = a ∨ r ∈ xs
  | [], _, _, h => by cases h; exact .inl rfl
  | y :: ys, a, r, h => by
    rw [minGo, Ev.bind_eq_ok] at h
    obtain ⟨b, -, h⟩ := h
    rcases minGo_mem h with h | h
    · cases b
      · exact .inl h
      · exact .inr (by simp at h; simp [h])
    · exact .inr (by simp [h])

omit [Host] in
theorem maxGo_mem : ∀ {xs : List Term} {a r : Term}, maxGo a xs = .ok r → r = a ∨ r ∈ xs
  | [], _, _, h => by cases h; exact .inl rfl
  | y :: ys, a, r, h => by
    rw [maxGo, Ev.bind_eq_ok] at h
    obtain ⟨b, -, h⟩ := h
    rcases maxGo_mem h with h | h
    · cases b
      · exact .inl h
      · exact .inr (by simp at h; simp [h])
    · exact .inr (by simp [h])

/-- A converted list that is ground. -/
theorem tuple_solid {k : Nat} {a g v : Term} {sc : Scope} (hg : grounded k sc a = .ok g) (h : convert .tuple g = .ok v) :
    ∃ xs, v = .tup xs ∧ ∀ y ∈ xs, y.solid = true := by
  simp only [convert, Ev.map_eq_ok] at h
  obtain ⟨xs, h1, rfl⟩ := h
  exact ⟨xs, rfl, iter_solid (C09_grounded_closed hg).2.1 h1⟩

/-- **C67**, except for the cases below: wherever a standard action is declared to bind a
parameter, and there is a variable, this has a value after each answer.  For `.nth`, `.min` and `.max`
the other arguments must be ground; `.send` must not be about plans. -/
theorem C67_partial {t : ActionTable} {k k' : Nat} (ht : registerActions standardActions [] k = .ok t k') {args : List Term} {i : Nat} {a : Act}
    (hrandom : ∀ vs r, random vs = .ok r → ∃ q, r = .num q)
    (hitems : f ∈ [".nth", ".min", ".max"] → ∀ y ∈ args.dropLast, ∃ n v, grounded n s.b.scope y = .ok v)
    (hsend : f = ".send" → ∀ y ∈ args[1]?, ∀ n f', grounded n s.b.scope y = .ok (.atom f') → f' ∉ ["tellHow", "untellHow", "askHow"])
    (ha : stdLookup random randint 0 f args.length = some a) (hb : Effect.doBind ∈ (t.get f.toList args.length).find (.nth i) args.length)
    (hx : args[i]? = some (.var x)) (hR : ∀ s s', R s s' → Above s.b s'.b)
    (h : Answer R (.start (.act a (.lit f args as)) : Gen Act ActGen) s s') : Resolved s'.b.scope x := by
  have hi : i < args.length := (List.getElem?_eq_some_iff.1 hx).1
  rw [stdLookup_zero] at ha
  rcases (C67_declares ht f hi).1 hb with ⟨hl, hm | rfl⟩ | ⟨hn, rfl | rfl⟩
  · have hlast := lastOf_var hx hl
    have one : args.length = 1 → args = [.var x] := fun e => by
      match args, e with
      | [y], _ => obtain rfl : i = 0 := by simp at hi; omega
                  cases hx; rfl
    have two : args.length = 2 → ∃ y, args = [y, .var x] := fun e => by
      match args, e with
      | [y, z], _ => obtain rfl : i = 1 := by simp at hl; omega
                     cases hx; exact ⟨y, rfl⟩
    have three : args.length = 3 → ∃ y z, args = [y, z, .var x] := fun e => by
      match args, e with
      | [y, z, u], _ => obtain rfl : i = 2 := by simp at hl; omega
                        cases hx; exact ⟨y, z, rfl⟩
    simp only [bindsLast, List.mem_cons, Prod.mk.injEq, List.not_mem_nil, or_false] at hm
    rcases hm with ⟨rfl, e⟩ | ⟨rfl, e⟩ | ⟨rfl, e⟩ | ⟨rfl, e⟩ | ⟨rfl, e⟩ | ⟨rfl, e⟩ | ⟨rfl, e⟩ | ⟨rfl, e⟩ | ⟨rfl, e⟩ | ⟨rfl, e⟩ | ⟨rfl, e⟩ |
      ⟨rfl, e⟩ | ⟨rfl, e⟩ | ⟨rfl, e⟩ | ⟨rfl, e⟩ | ⟨rfl, e⟩ | ⟨rfl, e⟩ | ⟨rfl, e⟩ | ⟨rfl, e⟩ | ⟨rfl, e⟩ | ⟨rfl, e⟩ <;> rw [e] at ha <;> cases ha
    · obtain ⟨y, rfl⟩ := two e; exact binds_broadcast h
    · obtain ⟨y, z, rfl⟩ := three e
      exact binds_send (fun n f' => hsend rfl z (by simp) n f') h
    · rw [one e] at h; exact binds_myName h
    · exact binds_fn hlast (fun n vs r s₁ _ hr => by obtain ⟨q, rfl⟩ := hrandom _ _ hr; rfl) h
    · obtain ⟨y, rfl⟩ := two e
      refine binds_fn hlast (fun n vs r s₁ hz hr => ?_) h
      obtain ⟨gs, h1, h2⟩ := zipSpecs_of_ground (fun b hb => hitems (by simp) b (by simpa using hb)) hz
      cases h1 with | cons hg h1 => cases h1 with | nil =>
      simp only [convertAll, Ev.bind_eq_ok, Ev.map_eq_ok] at h2
      obtain ⟨v, h3, _, e', rfl⟩ := h2
      cases e'
      obtain ⟨_, hg⟩ := hg
      obtain ⟨xs, rfl, h4⟩ := tuple_solid hg h3
      cases xs with
      | nil => cases hr
      | cons z zs => rcases minGo_mem hr with rfl | hm <;> exact h4 _ (by simp [*])
    · obtain ⟨y, rfl⟩ := two e
      refine binds_fn hlast (fun n vs r s₁ hz hr => ?_) h
      obtain ⟨gs, h1, h2⟩ := zipSpecs_of_ground (fun b hb => hitems (by simp) b (by simpa using hb)) hz
      cases h1 with | cons hg h1 => cases h1 with | nil =>
      simp only [convertAll, Ev.bind_eq_ok, Ev.map_eq_ok] at h2
      obtain ⟨v, h3, _, e', rfl⟩ := h2
      cases e'
      obtain ⟨_, hg⟩ := hg
      obtain ⟨xs, rfl, h4⟩ := tuple_solid hg h3
      cases xs with
      | nil => cases hr
      | cons z zs => rcases maxGo_mem hr with rfl | hm <;> exact h4 _ (by simp [*])
    · refine binds_fn hlast (fun n vs r s₁ _ hr => ?_) h
      unfold fnLength at hr
      split at hr
      · obtain ⟨c, -, rfl⟩ := Ev.map_eq_ok.1 hr; rfl
      · cases hr
    · obtain ⟨y, z, rfl⟩ := three e
      refine binds_fn hlast (fun n vs r s₁ hz hr => ?_) h
      obtain ⟨gs, h1, h2⟩ := zipSpecs_of_ground (fun b hb => hitems (by simp) b (by simpa using hb)) hz
      cases h1 with | cons hg h1 => cases h1 with | cons hg' h1 => cases h1 with | nil =>
      simp only [convertAll, Ev.bind_eq_ok, Ev.map_eq_ok] at h2
      obtain ⟨v, h3, _, ⟨v', h3', _, e', rfl⟩, rfl⟩ := h2
      cases e'
      obtain ⟨_, hg'⟩ := hg'
      obtain ⟨xs, rfl, h4⟩ := tuple_solid hg' h3'
      unfold fnNth at hr
      split at hr
      · next e =>
        cases e
        split at hr
        · split at hr
          · next hm => cases hr; exact h4 _ (List.mem_of_getElem? hm)
          · cases hr
        · cases hr
      · cases hr
    · refine binds_fn hlast (fun n vs r s₁ _ hr => ?_) h
      unfold fnSort at hr
      split at hr
      · obtain ⟨c, -, rfl⟩ := Ev.map_eq_ok.1 hr; rfl
      · cases hr
    · obtain ⟨y, z, rfl⟩ := three e; exact binds_substring hR h
    · obtain ⟨y, rfl⟩ := two e; exact binds_member hR h
    · rw [one e] at h; exact binds_pred (fun _ => rfl) h
    · rw [one e] at h; exact binds_pred (fun _ => rfl) h
    · rw [one e] at h; exact binds_pred (fun _ => rfl) h
    · rw [one e] at h; exact binds_pred (fun _ => rfl) h
    · rw [one e] at h; exact binds_pred (fun _ => rfl) h
    · rw [one e] at h; exact binds_pred (fun _ => rfl) h
    · obtain ⟨y, z, rfl⟩ := three e; exact binds_findall h
    · obtain ⟨y, rfl⟩ := two e; exact binds_count h
    · rw [one e] at h; exact binds_abolish h
    · obtain ⟨y, rfl⟩ := two e; exact binds_range hR h
  · have : findStd random ".concat" args.length = some .concat := rfl
    rw [this] at ha
    cases ha
    exact binds_concat (lastOf_var hx hl) h
  · rw [hn] at ha; cases ha; exact binds_stamp (v := Host.date) (fun _ _ _ => rfl) hn hx h
  · rw [hn] at ha; cases ha; exact binds_stamp (v := Host.time) (fun _ _ _ => rfl) hn hx h

omit [Host] in
theorem not_resolved {sc : Scope} {z : VarId} (hz : sc z = none) (hx : sc x = some (.var z)) : ¬Resolved sc x := by
  rintro ⟨n, v, h, hv⟩
  obtain ⟨u, h1, ⟨-, rfl⟩ | ⟨h2, h3⟩⟩ := deref_ends n h
  · exact hv u rfl
  · cases h1 with
    | stop h => exact h z hx
    | step e h1 =>
      rw [hx] at e
      cases e
      cases h1 with
      | stop _ => rw [hz] at h2; cases h2
      | step e _ => rw [hz] at e; cases e

/-- **C67 fails** for `.nth(0, [Y], X)`, `.min([Y], X)` and `.max([Y], X)`: the answer is an
unbound variable. -/
theorem C67_item (w : World) :
    ∀ f ∈ [(".nth", [Term.num 0, .tup [.var 1], .var 0]), (".min", [.tup [.var 1], .var 0]), (".max", [.tup [.var 1], .var 0])],
      ∃ a s', stdLookup random randint 0 f.1 f.2.length = some a ∧
        Answer (fun s s' => s' = s) (.start (.act a (.lit f.1 f.2 [])) : Gen Act ActGen) ⟨BSt.init, 2, w⟩ s' ∧ ¬Resolved s'.b.scope 0 := by
  intro f hf
  simp only [List.mem_cons, List.not_mem_nil, or_false] at hf
  rcases hf with rfl | rfl | rfl
  · refine ⟨_, _, by rw [stdLookup_zero]; rfl, .now (n := 9) (g' := .act .fin) (by with_unfolding_all rfl), not_resolved (z := 2) rfl rfl⟩
  · refine ⟨_, _, by rw [stdLookup_zero]; rfl, .now (n := 9) (g' := .act .fin) (by with_unfolding_all rfl), not_resolved (z := 2) rfl rfl⟩
  · refine ⟨_, _, by rw [stdLookup_zero]; rfl, .now (n := 9) (g' := .act .fin) (by with_unfolding_all rfl), not_resolved (z := 2) rfl rfl⟩

/-- **C67 fails** for `.send([], tellHow, X)`: there is an answer, and `X` has no value. -/
theorem C67_send (w : World) :
    ∃ a s', stdLookup random randint 0 ".send" 3 = some a ∧
      Answer (fun s s' => s' = s) (.start (.act a (.lit ".send" [.tup [], .atom "tellHow", .var 0] [])) : Gen Act ActGen) ⟨BSt.init, 1, w⟩ s' ∧
      ¬Resolved s'.b.scope 0 := by
  refine ⟨_, _, by rw [stdLookup_zero]; rfl, .now (n := 9) (g' := .act .fin) (by with_unfolding_all rfl), ?_⟩
  rintro ⟨n, v, h, hv⟩
  cases n with
  | zero => cases h
  | succ n => cases h; exact hv 0 rfl

section examples
attribute [local instance] exactHost

/-- `.range(3, X)` and `.sort([2, 1], X)`, `X` being unbound: the hypotheses hold, and there are answers. -/
example (w : World) : ∃ (t : ActionTable) (a a' : Act) (s₁ s₂ : QSt World), registerActions standardActions [] 0 = .ok t 0 ∧
    Effect.doBind ∈ (t.get ".range".toList 2).find (.nth 1) 2 ∧ Effect.doBind ∈ (t.get ".sort".toList 2).find (.nth 1) 2 ∧
    stdLookup random randint 0 ".range" 2 = some a ∧ stdLookup random randint 0 ".sort" 2 = some a' ∧
    Answer (fun s s' => s' = s) (.start (.act a (.lit ".range" [.num 3, .var 0] [])) : Gen Act ActGen) ⟨BSt.init, 1, w⟩ s₁ ∧
    s₁.b.scope 0 = some (.num 1) ∧
    Answer (fun s s' => s' = s) (.start (.act a' (.lit ".sort" [.tup [.num 2, .num 1], .var 0] [])) : Gen Act ActGen) ⟨BSt.init, 1, w⟩ s₂ ∧
    s₂.b.scope 0 = some (.tup [.num 1, .num 2]) := by
  obtain ⟨t, ht⟩ := registerActions_standard 0
  refine ⟨t, _, _, _, _, ht, (C67_declares ht ".range" (by decide)).2 (.inl (by decide)), (C67_declares ht ".sort" (by decide)).2 (.inl (by decide)),
    by rw [stdLookup_zero]; rfl, by rw [stdLookup_zero]; rfl,
    .later (n := 9) (g' := .act (.items 0 (.var 0) (.tup [.num 1, .num 2]))) (by with_unfolding_all rfl) rfl
      (.now (n := 9) (g' := .act (.items 0 (.var 0) (.tup [.num 2]))) (by with_unfolding_all rfl)), ?_,
    .now (n := 9) (g' := .act .fin) (by with_unfolding_all rfl), ?_⟩
  · with_unfolding_all rfl
  · with_unfolding_all rfl

/-- `.date(Y, M, D)` -/
example : ∃ s' g, gnext 9 (.start (.act .date (.lit ".date" [.var 0, .var 1, .var 2] [])) : Gen Act ActGen) ⟨BSt.init, 3, World.init fun _ => 0⟩ =
    .ok (some g) s' ∧ s'.b.scope 2 = some (.num (Host.date 0).2.2) := ⟨_, _, rfl, rfl⟩

end examples

end Verif
