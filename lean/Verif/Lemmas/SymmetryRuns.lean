import Verif.Lemmas.Symmetry

/-!
# Lemmas: if unification returns, so it does with the sides swapped

Where no wildcards occur, `Unifies` also says when `unify` returns.
-/

namespace Verif

section
variable [Arith]

theorem evaluate_fuel {sc : Scope} {t v : Term} {n m : Nat} (h : evaluate n sc t = .ok v) (hm : n ≤ m) : evaluate m sc t = .ok v := by
  rw [← h]
  exact Ev.mono (f := fun n => evaluate n sc t) (fun n => evaluate_succ n sc t) hm (by simp [h])

theorem grounded_fuel {sc : Scope} {t v : Term} {n m : Nat} (h : grounded n sc t = .ok v) (hm : n ≤ m) : grounded m sc t = .ok v := by
  rw [← h]
  exact Ev.mono (f := fun n => grounded n sc t) (fun n => grounded_succ n sc t) hm (by simp [h])

omit [Arith] in
theorem compare_fuel {op : BinOp} {l r : Term} {v : Bool} {n m : Nat} (h : pyCompare n op l r = .ok v) (hm : n ≤ m) : pyCompare m op l r = .ok v := by
  rw [← h]
  exact Ev.mono (f := fun n => pyCompare n op l r) (fun n => pyCompare_succ n op l r) hm (by simp [h])

theorem unify_fuel {l r : Term} {b b' : BSt} {a : Bool} {n m : Nat} (h : unify n l r b = .ok a b') (hm : n ≤ m) : unify m l r b = .ok a b' := by
  rw [← h]
  exact Res.mono (f := fun n => unify n l r b) (fun n => unify_succ n l r b) hm (by simp [h])

theorem unifyAll_fuel {ls rs : List Term} {b b' : BSt} {a : Bool} {n m : Nat} (h : unifyAll (unify n) ls rs b = .ok a b') (hm : n ≤ m) :
    unifyAll (unify m) ls rs b = .ok a b' := by
  rw [← h]
  exact Res.mono (f := fun n => unifyAll (unify n) ls rs b) (fun n => unifyAll_le (fun l r b => unify_succ n l r b) ls rs b) hm (by simp [h])

omit [Arith] in
theorem deref_fuel {sc : Scope} {t v : Term} {n m : Nat} (h : deref n sc t = .ok v) (hm : n ≤ m) : deref m sc t = .ok v := by
  rw [← h]
  exact Ev.mono (f := fun n => deref n sc t) (fun n => deref_succ n sc t) hm (by simp [h])

omit [Arith] in
theorem EndsAt.deref {sc : Scope} {x z : VarId} (h : EndsAt sc x z) : ∃ n, deref n sc (.var x) = .ok ((sc z).getD (.var z)) := by
  induction h with
  | @stop x h =>
    cases hx : sc x with
    | none => exact ⟨1, by rw [Verif.deref, hx]; rfl⟩
    | some t =>
      refine ⟨2, ?_⟩
      rw [Verif.deref]
      simp only [hx]
      cases t with
      | var y => exact absurd hx (h y)
      | _ => rw [Verif.deref] <;> first | rfl | exact nofun
  | step hx _ ih =>
    obtain ⟨n, ih⟩ := ih
    refine ⟨n + 1, ?_⟩
    rw [Verif.deref]
    simp only [hx]
    exact ih

/-- A bound variable evaluates as the term at the end. -/
theorem EndsAt.weak {sc : Scope} {x z : VarId} (h : EndsAt sc x z) {s t : Term} (hz : sc z = some s) (hs : Weak sc s t) : Weak sc (.var x) t := by
  obtain ⟨n, h1⟩ := h.deref
  rw [hz] at h1
  cases hx : sc x with
  | none =>
    cases h.det (endsAt_free hx)
    rw [hx] at hz
    cases hz
  | some u => exact weak_deref hx h1 hs

theorem EndsAt.weak_free {sc : Scope} {x z : VarId} (h : EndsAt sc x z) (hz : sc z = none) : Weak sc (.var x) (.var z) := by
  obtain ⟨n, h1⟩ := h.deref
  rw [hz] at h1
  have hv : Weak sc (.var z) (.var z) := weak_self (by rintro _ e; cases e; exact hz) nofun nofun
  cases hx : sc x with
  | none =>
    cases h.det (endsAt_free hx)
    exact hv
  | some u => exact weak_deref hx h1 hv

theorem mapL_exists {sc sc' : Scope} {n : Nat} : ∀ {ts us : List Term}, (∀ t u, grounded n sc t = .ok u → ∃ m, grounded m sc' t = .ok u) →
    Ev.mapL (grounded n sc) ts = .ok us → ∃ m, ∀ k, m ≤ k → Ev.mapL (grounded k sc') ts = .ok us
  | [], _, _, h => by
    simp only [Ev.mapL] at h
    cases h
    exact ⟨0, fun _ _ => rfl⟩
  | t :: ts, us, hf, h => by
    simp only [Ev.mapL] at h
    obtain ⟨u, h1, h2⟩ := Ev.bind_eq_ok.1 h
    obtain ⟨us', h3, rfl⟩ := Ev.map_eq_ok.1 h2
    obtain ⟨m, hm⟩ := hf _ _ h1
    obtain ⟨m', hm'⟩ := mapL_exists hf h3
    refine ⟨max m m', fun k hk => ?_⟩
    simp only [Ev.mapL]
    exact Ev.bind_eq_ok.2 ⟨u, grounded_fuel hm (by omega), Ev.map_eq_ok.2 ⟨us', hm' k (by omega), rfl⟩⟩

mutual
/-- If a term can be evaluated, it can be evaluated in a scope with the same bindings. -/
theorem evaluate_exists {sc sc' : Scope} (hs : SameBindings sc sc') : ∀ (n : Nat) {t v : Term}, evaluate n sc t = .ok v → ∃ v', Weak sc' t v'
  | 0, _, _, h => by cases h
  | n + 1, .var x, v, h => by
    obtain ⟨z, h1, h2⟩ := evaluate_var h
    obtain ⟨z', h3, h4⟩ := (hs.bears x _).1 ⟨z, h1, rfl⟩
    rcases h2 with ⟨h5, _⟩ | ⟨s, h5, _, h6⟩
    · exact ⟨_, h3.weak_free (h4.trans h5)⟩
    · obtain ⟨v', hv⟩ := evaluate_exists hs n h6
      exact ⟨v', h3.weak (h4.trans h5) hv⟩
  | n + 1, .un op t, v, h => by
    rw [evaluate] at h
    obtain ⟨u, h1, h2⟩ := Ev.bind_eq_ok.1 h
    obtain ⟨u', k⟩ := evaluate_exists hs n h1
    have : u = u' := by
      rcases Weak.same hs ⟨n, h1⟩ k with ⟨e, _⟩ | ⟨_, _, rfl, _⟩
      · exact e
      · exact absurd h2 unFunc_var
    subst this
    obtain ⟨m, hm⟩ := k
    exact ⟨v, m + 1, by rw [evaluate]; exact Ev.bind_eq_ok.2 ⟨u, hm, h2⟩⟩
  | n + 1, .bin op l r, v, h => by
    rw [evaluate] at h
    obtain ⟨u, h1, h2⟩ := Ev.bind_eq_ok.1 h
    obtain ⟨w, h3, h4⟩ := Ev.bind_eq_ok.1 h2
    obtain ⟨u', k1⟩ := evaluate_exists hs n h1
    obtain ⟨w', k2⟩ := evaluate_exists hs n h3
    have notvar : ∀ {x}, sc x = none → ∀ {q}, grounded n sc (.var x) ≠ .ok q := by
      intro x hx q e
      cases n with
      | zero => cases e
      | succ n => rw [grounded, hx] at e; cases e
    have e1 : u = u' := by
      rcases Weak.same hs ⟨n, h1⟩ k1 with ⟨e, _⟩ | ⟨_, _, rfl, _, hx, _⟩
      · exact e
      · split at h4
        · obtain ⟨q, h5, _⟩ := Ev.bind_eq_ok.1 h4
          exact absurd h5 (notvar hx)
        · exact absurd h4 binFunc_var
    have e2 : w = w' := by
      rcases Weak.same hs ⟨n, h3⟩ k2 with ⟨e, _⟩ | ⟨_, _, rfl, _, hx, _⟩
      · exact e
      · split at h4
        · obtain ⟨q, _, h5⟩ := Ev.bind_eq_ok.1 h4
          obtain ⟨q', h6, _⟩ := Ev.bind_eq_ok.1 h5
          exact absurd h6 (notvar hx)
        · exact absurd h4 binFunc_var'
    subst e1; subst e2
    obtain ⟨m1, k1⟩ := k1
    obtain ⟨m2, k2⟩ := k2
    split at h4
    · next hc =>
      obtain ⟨q, h5, h6⟩ := Ev.bind_eq_ok.1 h4
      obtain ⟨q', h7, h8⟩ := Ev.bind_eq_ok.1 h6
      obtain ⟨c, h9, h10⟩ := Ev.map_eq_ok.1 h8
      obtain ⟨m3, k3⟩ := grounded_exists hs n h5
      obtain ⟨m4, k4⟩ := grounded_exists hs n h7
      refine ⟨v, max (max m1 m2) (max (max m3 m4) n) + 1, ?_⟩
      rw [evaluate]
      refine Ev.bind_eq_ok.2 ⟨u, evaluate_fuel k1 (by omega), Ev.bind_eq_ok.2 ⟨w, evaluate_fuel k2 (by omega), ?_⟩⟩
      rw [if_pos hc]
      exact Ev.bind_eq_ok.2 ⟨q, grounded_fuel k3 (by omega), Ev.bind_eq_ok.2 ⟨q', grounded_fuel k4 (by omega), Ev.map_eq_ok.2 ⟨c, compare_fuel h9 (by omega), h10⟩⟩⟩
    · next hc =>
      refine ⟨v, max m1 m2 + 1, ?_⟩
      rw [evaluate]
      refine Ev.bind_eq_ok.2 ⟨u, evaluate_fuel k1 (by omega), Ev.bind_eq_ok.2 ⟨w, evaluate_fuel k2 (by omega), ?_⟩⟩
      rw [if_neg hc]
      exact h4
  | n + 1, .bool _, _, _ => ⟨_, weak_self nofun nofun nofun⟩
  | n + 1, .num _, _, _ => ⟨_, weak_self nofun nofun nofun⟩
  | n + 1, .str _, _, _ => ⟨_, weak_self nofun nofun nofun⟩
  | n + 1, .lit .., _, _ => ⟨_, weak_self nofun nofun nofun⟩
  | n + 1, .tup _, _, _ => ⟨_, weak_self nofun nofun nofun⟩
  | n + 1, .cons .., _, _ => ⟨_, weak_self nofun nofun nofun⟩
  | n + 1, .wild, _, _ => ⟨_, weak_self nofun nofun nofun⟩

/-- If a term is ground, it is ground in a scope with the same bindings. -/
theorem grounded_exists {sc sc' : Scope} (hs : SameBindings sc sc') : ∀ (n : Nat) {t v : Term}, grounded n sc t = .ok v → ∃ m, grounded m sc' t = .ok v
  | 0, _, _, h => by cases h
  | n + 1, .var x, v, h => by
    obtain ⟨z, s, h1, h2, h3, h4⟩ := grounded_var h
    obtain ⟨z', k1, k2⟩ := (hs.bears x _).1 ⟨z, h1, rfl⟩
    obtain ⟨m, hm⟩ := grounded_exists hs n h4
    obtain ⟨m', hm'⟩ := k1.deref
    rw [k2, h2] at hm'
    refine ⟨max m m' + 1, ?_⟩
    rw [grounded]
    cases hx : sc' x with
    | none =>
      cases k1.det (endsAt_free hx)
      rw [hx, h2] at k2
      cases k2
    | some _ =>
      exact Ev.bind_eq_ok.2 ⟨s, deref_fuel hm' (by omega), grounded_fuel hm (by omega)⟩
  | n + 1, .un op t, v, h => by
    rw [grounded] at h
    obtain ⟨u, h1, h2⟩ := Ev.bind_eq_ok.1 h
    obtain ⟨u', k⟩ := evaluate_exists hs n h1
    have : u = u' := by
      rcases Weak.same hs ⟨n, h1⟩ k with ⟨e, _⟩ | ⟨_, _, rfl, _⟩
      · exact e
      · rcases evaluate_expr (.inl ⟨_, _, rfl⟩) h1 with ⟨_, e⟩ | ⟨_, e⟩ <;> cases e
    subst this
    obtain ⟨m, hm⟩ := k
    obtain ⟨m', hm'⟩ := grounded_exists hs n h2
    exact ⟨max m m' + 1, by rw [grounded]; exact Ev.bind_eq_ok.2 ⟨u, evaluate_fuel hm (by omega), grounded_fuel hm' (by omega)⟩⟩
  | n + 1, .bin op l r, v, h => by
    rw [grounded] at h
    obtain ⟨u, h1, h2⟩ := Ev.bind_eq_ok.1 h
    obtain ⟨u', k⟩ := evaluate_exists hs n h1
    have : u = u' := by
      rcases Weak.same hs ⟨n, h1⟩ k with ⟨e, _⟩ | ⟨_, _, rfl, _⟩
      · exact e
      · rcases evaluate_expr (.inr ⟨_, _, _, rfl⟩) h1 with ⟨_, e⟩ | ⟨_, e⟩ <;> cases e
    subst this
    obtain ⟨m, hm⟩ := k
    obtain ⟨m', hm'⟩ := grounded_exists hs n h2
    exact ⟨max m m' + 1, by rw [grounded]; exact Ev.bind_eq_ok.2 ⟨u, evaluate_fuel hm (by omega), grounded_fuel hm' (by omega)⟩⟩
  | n + 1, .lit f as ns, v, h => by
    rw [grounded] at h
    obtain ⟨us, h1, h2⟩ := Ev.bind_eq_ok.1 h
    obtain ⟨vs, h3, h4⟩ := Ev.bind_eq_ok.1 h2
    obtain ⟨m, hm⟩ := mapL_exists (fun t u => grounded_exists hs n) h1
    obtain ⟨m', hm'⟩ := mapL_exists (fun t u => grounded_exists hs n) h3
    refine ⟨max m m' + 1, ?_⟩
    rw [grounded]
    exact Ev.bind_eq_ok.2 ⟨us, hm _ (by omega), Ev.bind_eq_ok.2 ⟨vs, hm' _ (by omega), h4⟩⟩
  | n + 1, .cons x xs, v, h => by
    rw [grounded] at h
    obtain ⟨u, h1, h2⟩ := Ev.bind_eq_ok.1 h
    obtain ⟨w, h3, h4⟩ := Ev.bind_eq_ok.1 h2
    obtain ⟨m, hm⟩ := grounded_exists hs n h1
    obtain ⟨m', hm'⟩ := grounded_exists hs n h3
    refine ⟨max m m' + 1, ?_⟩
    rw [grounded]
    exact Ev.bind_eq_ok.2 ⟨u, grounded_fuel hm (by omega), Ev.bind_eq_ok.2 ⟨w, grounded_fuel hm' (by omega), h4⟩⟩
  | n + 1, .tup xs, v, h => by
    rw [grounded] at h
    obtain ⟨us, h1, h2⟩ := Ev.map_eq_ok.1 h
    obtain ⟨m, hm⟩ := mapL_exists (fun t u => grounded_exists hs n) h1
    refine ⟨m + 1, ?_⟩
    rw [grounded]
    exact Ev.map_eq_ok.2 ⟨us, hm _ (by omega), h2⟩
  | n + 1, .bool _, _, h => ⟨1, by rw [grounded] at h ⊢ <;> first | exact h | exact nofun⟩
  | n + 1, .num _, _, h => ⟨1, by rw [grounded] at h ⊢ <;> first | exact h | exact nofun⟩
  | n + 1, .str _, _, h => ⟨1, by rw [grounded] at h ⊢ <;> first | exact h | exact nofun⟩
  | n + 1, .wild, _, h => by rw [grounded] at h; cases h
end

/-! ## Runs -/

/-- Some run of `unify` returns this. -/
def Gives (l r : Term) (b : BSt) (a : Bool) : Prop := ∃ n b', unify n l r b = .ok a b'

/-- Some run over the lists returns this. -/
def GivesL (ls rs : List Term) (b : BSt) (a : Bool) : Prop := ∃ n b', unifyAll (unify n) ls rs b = .ok a b'

/-- What is left to do for evaluated terms. -/
def Settles (l r : Term) (b : BSt) (a : Bool) : Prop :=
  (((∃ x, l = .var x) ∨ ∃ y, r = .var y) ∧ a = true) ∨
  ((∀ x, l ≠ .var x) ∧ (∀ y, r ≠ .var y) ∧ pieces l r = none ∧ a = false) ∨
  ((∀ x, l ≠ .var x) ∧ (∀ y, r ≠ .var y) ∧ ∃ ls rs, pieces l r = some (ls, rs) ∧ GivesL ls rs b a ∧ GivesL rs ls b a)

theorem Settles.symm {l r : Term} {b : BSt} {a : Bool} (h : Settles l r b a) : Settles r l b a := by
  rcases h with ⟨h, e⟩ | ⟨h1, h2, h3, e⟩ | ⟨h1, h2, ls, rs, h3, h4, h5⟩
  · exact .inl ⟨h.symm, e⟩
  · exact .inr (.inl ⟨h2, h1, by rw [pieces_symm, h3]; rfl, e⟩)
  · exact .inr (.inr ⟨h2, h1, rs, ls, by rw [pieces_symm, h3]; rfl, h5, h4⟩)

theorem unify_obj {n : Nat} {l r : Term} {b : BSt} (h : l.isObj = true) : unify (n + 1) l r b = methUnify n (unify n) l r b := by
  rw [unify, if_pos h]

/-- It suffices to unify what the left side evaluates to. -/
theorem Gives.left {l l' r : Term} {b : BSt} {a : Bool} (hw : Weak b.scope l l') (hl' : l' ≠ .wild) (h : Gives l' r b a) : Gives l r b a := by
  obtain ⟨n, b', h⟩ := h
  have expr : ∀ {t : Term}, ((∃ op s, t = .un op s) ∨ ∃ op u s, t = .bin op u s) → Weak b.scope t l' → Gives t r b a := by
    rintro t ht ⟨m, hm⟩
    have hmeth : methUnify (max n m) (unify (max n m)) t r b =
        (Res.lift (evaluate (max n m) b.scope t) b).bind fun v b => unify (max n m) v r b := by
      rcases ht with ⟨op, s, rfl⟩ | ⟨op, u, s, rfl⟩ <;> rfl
    refine ⟨max n m + 1, b', ?_⟩
    rw [unify_obj (by rcases ht with ⟨op, s, rfl⟩ | ⟨op, u, s, rfl⟩ <;> rfl), hmeth]
    exact Res.bind_eq_ok.2 ⟨l', b, Res.lift_eq_ok.2 ⟨evaluate_fuel hm (by omega), rfl⟩, unify_fuel h (by omega)⟩
  have other : ∀ {t : Term}, (∀ x, t ≠ .var x) → Weak b.scope t l' → Gives t r b a := by
    intro t ht ht'
    by_cases he : (∃ op s, t = .un op s) ∨ ∃ op u s, t = .bin op u s
    · exact expr he ht'
    · have ws : Weak b.scope t t := weak_self (fun x e => absurd e (ht x)) (fun op s e => he (.inl ⟨_, _, e⟩)) (fun op u s e => he (.inr ⟨_, _, _, e⟩))
      rcases ws.same (SameBindings.refl _) ht' with ⟨rfl, _⟩ | ⟨x, _, e, _⟩
      · exact ⟨n, b', h⟩
      · exact absurd e (ht x)
  cases l with
  | var x =>
    cases hx : b.scope x with
    | none =>
      obtain ⟨m, hm⟩ := hw
      have : l' = .var x := by
        cases m with
        | zero => cases hm
        | succ m => rw [evaluate, hx] at hm; cases hm; rfl
      exact this ▸ ⟨n, b', h⟩
    | some s =>
      obtain ⟨m, hm⟩ := hw
      have hd : ∃ t k, deref k b.scope (.var x) = .ok t ∧ Gives t r b a := by
        cases m with
        | zero => cases hm
        | succ m =>
          rw [evaluate] at hm
          simp only [hx] at hm
          obtain ⟨t, h1, h2⟩ := Ev.bind_eq_ok.1 hm
          refine ⟨t, m, h1, ?_⟩
          obtain ⟨z, _, ⟨hz, rfl⟩ | ⟨hz, hv⟩⟩ := deref_ends _ h1
          · have : l' = .var z := by
              cases m with
              | zero => cases h2
              | succ m => rw [evaluate, hz] at h2; cases h2; rfl
            exact this ▸ ⟨n, b', h⟩
          · exact other hv ⟨m, h2⟩
      obtain ⟨t, k, h1, n', b'', h2⟩ := hd
      refine ⟨max k n' + 1, b'', ?_⟩
      rw [unify_obj rfl]
      show varUnify _ _ _ _ _ = _
      unfold varUnify
      simp only [hx]
      exact Res.bind_eq_ok.2 ⟨t, b, Res.lift_eq_ok.2 ⟨deref_fuel h1 (by omega), rfl⟩, unify_fuel h2 (by omega)⟩
  | _ => exact other nofun hw

/-- An unbound variable unifies with everything that can be evaluated. -/
theorem varUnify_free {n : Nat} {f : Term → Term → BSt → Res BSt Bool} {x : VarId} {r r' : Term} {b : BSt} (hx : b.scope x = none) (hr : r ≠ .wild)
    (h : evaluate n b.scope r = .ok r') : ∃ b', varUnify n f x r b = .ok true b' := by
  have e : varUnify n f x r b = (Res.lift (evaluate n b.scope r) b).bind fun t b => (bindVar x t b).bind fun _ b => .ok true b := by
    cases r <;> first | exact absurd rfl hr | simp only [varUnify, hx]
  have hb : ∃ b', bindVar x r' b = .ok () b' := by
    by_cases hv : ∃ y, r' = .var y
    · obtain ⟨y, rfl⟩ := hv
      by_cases hy : y = x
      · exact ⟨b, by simp only [bindVar, if_pos hy]⟩
      · exact ⟨_, by simp only [bindVar, if_neg hy, hx]; rfl⟩
    · cases r' with
      | var y => exact absurd ⟨y, rfl⟩ hv
      | _ => exact ⟨_, by simp only [bindVar, hx]; rfl⟩
  obtain ⟨b', hb⟩ := hb
  exact ⟨b', by rw [e, h]; exact Res.bind_eq_ok.2 ⟨r', b, rfl, Res.bind_eq_ok.2 ⟨(), b', hb, rfl⟩⟩⟩

theorem pair_gives {h t h' t' : Term} {b b' : BSt} {a : Bool} {n : Nat} (e : unifyAll (unify n) [h, t] [h', t'] b = .ok a b') :
    ((unify n h h' b).bind fun ok b => if ok then unify n t t' b else .ok false b) = .ok a b' := by
  rw [unifyAll] at e
  obtain ⟨ok, b1, h1, h2⟩ := Res.bind_eq_ok.1 e
  refine Res.bind_eq_ok.2 ⟨ok, b1, h1, ?_⟩
  cases ok with
  | false => exact h2
  | true =>
    simp only [if_true] at h2 ⊢
    rw [unifyAll] at h2
    obtain ⟨ok2, b2, h3, h4⟩ := Res.bind_eq_ok.1 h2
    rw [h3]
    cases ok2 with
    | false => exact h4
    | true =>
      simp only [if_true] at h4
      rw [unifyAll] at h4 <;> first | exact h4 | exact nofun

/-- The left side is evaluated and an object. -/
theorem gives_obj {l r r' : Term} {b : BSt} {a : Bool} (hl : l.isObj = true) (hw : Weak b.scope l l) (hr : Weak b.scope r r') (nl : l ≠ .wild) (nr : r' ≠ .wild)
    (h : Settles l r' b a) : Gives l r b a := by
  have nr0 : r ≠ .wild := by rintro rfl; exact nr (weak_wild hr)
  obtain ⟨m, hm⟩ := hr
  cases l with
  | var x =>
    have hx : b.scope x = none := hw.free
    obtain ⟨b', hb⟩ := varUnify_free (f := unify m) hx nr0 hm
    rcases h with ⟨_, rfl⟩ | ⟨h, _⟩ | ⟨h, _⟩
    · exact ⟨m + 1, b', by rw [unify_obj rfl]; exact hb⟩
    · exact absurd rfl (h x)
    · exact absurd rfl (h x)
  | lit f as ns =>
    have hm0 : m ≠ 0 := by rintro rfl; cases hm
    by_cases hv : ∃ y, r' = .var y
    · obtain ⟨y, rfl⟩ := hv
      have hy : b.scope y = none := Weak.free ⟨m, hm⟩
      have ha : a = true := by
        rcases h with ⟨_, h⟩ | ⟨_, h, _⟩ | ⟨_, h, _⟩
        · exact h
        · exact absurd rfl (h y)
        · exact absurd rfl (h y)
      obtain ⟨b', hb⟩ := varUnify_free (f := unify m) (r := .lit f as ns) (r' := .lit f as ns) (n := m) hy nofun (by
        obtain ⟨k, hk⟩ := Nat.exists_eq_succ_of_ne_zero hm0
        subst hk
        rw [evaluate] <;> exact nofun)
      refine ⟨m + 1, b', ?_⟩
      rw [unify_obj rfl, ha]
      show litUnify _ _ _ _ _ _ _ = _
      unfold litUnify
      exact Res.bind_eq_ok.2 ⟨_, b, Res.lift_eq_ok.2 ⟨hm, rfl⟩, hb⟩
    · have hv' : ∀ y, r' ≠ .var y := fun y e => hv ⟨y, e⟩
      rcases h with ⟨⟨_, h⟩ | ⟨_, h⟩, _⟩ | ⟨_, _, h1, rfl⟩ | ⟨_, _, ls, rs, h1, ⟨k, b', h2⟩, _⟩
      · cases h
      · exact absurd h (hv' _)
      · refine ⟨m + 1, b, ?_⟩
        rw [unify_obj rfl]
        show litUnify _ _ _ _ _ _ _ = _
        unfold litUnify
        refine Res.bind_eq_ok.2 ⟨_, b, Res.lift_eq_ok.2 ⟨hm, rfl⟩, ?_⟩
        cases r' with
        | lit g bs ms =>
          rw [pieces] at h1
          split at h1
          · cases h1
          · next hc =>
            simp only
            by_cases h3 : f = g
            · have h4 : as.length ≠ bs.length := fun e => hc ⟨h3, e⟩
              rw [if_neg (fun e => e h3), if_pos h4]
            · rw [if_pos h3]
        | var y => exact absurd rfl (hv' y)
        | wild => exact absurd rfl nr
        | _ => rfl
      · cases r' with
        | lit g bs ms =>
          rw [pieces] at h1
          split at h1
          · next hc =>
            cases h1
            refine ⟨max m k + 1, b', ?_⟩
            rw [unify_obj rfl]
            show litUnify _ _ _ _ _ _ _ = _
            unfold litUnify
            refine Res.bind_eq_ok.2 ⟨_, b, Res.lift_eq_ok.2 ⟨evaluate_fuel hm (by omega), rfl⟩, ?_⟩
            simp only
            rw [if_neg (fun e => e hc.1), if_neg (fun e => e hc.2)]
            exact unifyAll_fuel h2 (by omega)
          · cases h1
        | _ => cases h1
  | cons x xs =>
    have hm0 : m ≠ 0 := by rintro rfl; cases hm
    by_cases hv : ∃ y, r' = .var y
    · obtain ⟨y, rfl⟩ := hv
      have hy : b.scope y = none := Weak.free ⟨m, hm⟩
      have ha : a = true := by
        rcases h with ⟨_, h⟩ | ⟨_, h, _⟩ | ⟨_, h, _⟩
        · exact h
        · exact absurd rfl (h y)
        · exact absurd rfl (h y)
      obtain ⟨b', hb⟩ := varUnify_free (f := unify m) (r := .cons x xs) (r' := .cons x xs) (n := m) hy nofun (by
        obtain ⟨k, hk⟩ := Nat.exists_eq_succ_of_ne_zero hm0
        subst hk
        rw [evaluate] <;> exact nofun)
      refine ⟨m + 1, b', ?_⟩
      rw [unify_obj rfl, ha]
      show consUnify _ _ _ _ _ _ = _
      unfold consUnify
      exact Res.bind_eq_ok.2 ⟨_, b, Res.lift_eq_ok.2 ⟨hm, rfl⟩, hb⟩
    · have hv' : ∀ y, r' ≠ .var y := fun y e => hv ⟨y, e⟩
      rcases h with ⟨⟨_, h⟩ | ⟨_, h⟩, _⟩ | ⟨_, _, h1, rfl⟩ | ⟨_, _, ls, rs, h1, ⟨k, b', h2⟩, _⟩
      · cases h
      · exact absurd h (hv' _)
      · refine ⟨m + 1, b, ?_⟩
        rw [unify_obj rfl]
        show consUnify _ _ _ _ _ _ = _
        unfold consUnify
        refine Res.bind_eq_ok.2 ⟨_, b, Res.lift_eq_ok.2 ⟨hm, rfl⟩, ?_⟩
        cases r' with
        | cons y ys => cases h1
        | tup ys =>
          cases ys with
          | nil => rfl
          | cons y ys => cases h1
        | var y => exact absurd rfl (hv' y)
        | wild => exact absurd rfl nr
        | _ => rfl
      · refine ⟨max m k + 1, b', ?_⟩
        rw [unify_obj rfl]
        show consUnify _ _ _ _ _ _ = _
        unfold consUnify
        refine Res.bind_eq_ok.2 ⟨_, b, Res.lift_eq_ok.2 ⟨evaluate_fuel hm (by omega), rfl⟩, ?_⟩
        cases r' with
        | cons y ys =>
          cases h1
          exact pair_gives (unifyAll_fuel h2 (by omega))
        | tup ys =>
          cases ys with
          | nil => cases h1
          | cons y ys =>
            cases h1
            exact pair_gives (unifyAll_fuel h2 (by omega))
        | _ => cases h1
  | wild => exact absurd rfl nl
  | un op t =>
    obtain ⟨k, hk⟩ := hw
    rcases evaluate_expr (.inl ⟨_, _, rfl⟩) hk with ⟨_, e⟩ | ⟨_, e⟩ <;> cases e
  | bin op t u =>
    obtain ⟨k, hk⟩ := hw
    rcases evaluate_expr (.inr ⟨_, _, _, rfl⟩) hk with ⟨_, e⟩ | ⟨_, e⟩ <;> cases e
  | _ => cases hl

/-- Both sides are plain values. -/
theorem gives_plain {l r : Term} {b : BSt} {a : Bool} (hl : l.isObj = false) (hr : r.isObj = false) (h : Settles l r b a) : Gives l r b a := by
  have hu : ∀ n, unify (n + 1) l r b = plainUnify (unify n) l r b := fun n => by
    rw [unify, if_neg (by simp [hl]), if_neg (by simp [hr])]
  have atom : ∀ {p : Prop} [Decidable p], pieces l r = (if p then some ([], []) else none) → (∀ n, plainUnify (unify n) l r b = .ok (decide p) b) → Gives l r b a := by
    intro p _ e1 e2
    refine ⟨1, b, ?_⟩
    rw [hu, e2]
    rcases h with ⟨⟨_, h⟩ | ⟨_, h⟩, _⟩ | ⟨_, _, h1, rfl⟩ | ⟨_, _, ls, rs, h1, ⟨k, b', h2⟩, _⟩
    · rw [h] at hl; cases hl
    · rw [h] at hr; cases hr
    · by_cases hp : p
      · rw [h1, if_pos hp] at e1; cases e1
      · simp [hp]
    · by_cases hp : p
      · rw [h1, if_pos hp] at e1
        cases e1
        rw [unifyAll] at h2
        · cases h2; simp [hp]
        · exact nofun
      · rw [h1, if_neg hp] at e1; cases e1
  have clash : pieces l r = none → (∀ n, plainUnify (unify n) l r b = .ok false b) → Gives l r b a := by
    intro e1 e2
    refine ⟨1, b, ?_⟩
    rw [hu, e2]
    rcases h with ⟨⟨_, h⟩ | ⟨_, h⟩, _⟩ | ⟨_, _, h1, rfl⟩ | ⟨_, _, ls, rs, h1, _⟩
    · rw [h] at hl; cases hl
    · rw [h] at hr; cases hr
    · rfl
    · rw [h1] at e1; cases e1
  cases l with
  | bool p => cases r <;> first | (cases hr; done) | exact atom rfl fun _ => rfl | exact clash rfl fun _ => rfl
  | num p => cases r <;> first | (cases hr; done) | exact atom rfl fun _ => rfl | exact clash rfl fun _ => rfl
  | str p => cases r <;> first | (cases hr; done) | exact atom rfl fun _ => rfl | exact clash rfl fun _ => rfl
  | tup xs =>
    cases r with
    | tup ys =>
      rcases h with ⟨⟨_, h⟩ | ⟨_, h⟩, _⟩ | ⟨_, _, h1, rfl⟩ | ⟨_, _, ls, rs, h1, ⟨k, b', h2⟩, _⟩
      · cases h
      · cases h
      · refine ⟨1, b, ?_⟩
        rw [hu]
        rw [pieces] at h1
        split at h1
        · cases h1
        · next hc => simp only [plainUnify]; rw [if_pos hc]
      · rw [pieces] at h1
        split at h1
        · next hc =>
          cases h1
          refine ⟨k + 1, b', ?_⟩
          rw [hu]
          simp only [plainUnify]
          rw [if_neg (fun e => e hc)]
          exact h2
        · cases h1
    | _ => first | (cases hr; done) | exact clash rfl fun _ => rfl
  | _ => cases hl

/-- Evaluated terms. -/
theorem gives_of {l l' r r' : Term} {b : BSt} {a : Bool} (hl : Weak b.scope l l') (hr : Weak b.scope r r') (nl : l' ≠ .wild) (nr : r' ≠ .wild)
    (h : Settles l' r' b a) : Gives l r b a := by
  have self : ∀ {t t' : Term}, Weak b.scope t t' → Weak b.scope t' t' := by
    rintro t t' ⟨n, ht⟩
    refine weak_self (fun x e => Weak.free ⟨n, e ▸ ht⟩) ?_ ?_
    · rintro op s rfl
      exact (evaluate_not_expr ht).1 op s rfl
    · rintro op u s rfl
      exact (evaluate_not_expr ht).2 op u s rfl
  refine Gives.left hl nl ?_
  cases ho : l'.isObj with
  | true => exact gives_obj ho (self hl) hr nl nr h
  | false =>
    cases hr0 : r.isObj with
    | true =>
      have : Gives r l' b a := by
        refine Gives.left hr nr ?_
        cases ho' : r'.isObj with
        | true => exact gives_obj ho' (self hr) (self hl) nr nl h.symm
        | false => exact gives_plain ho' ho h.symm
      obtain ⟨n, b', hn⟩ := this
      cases n with
      | zero => cases hn
      | succ n =>
        rw [unify_obj hr0] at hn
        exact ⟨n + 1, b', by rw [unify, if_neg (by simp [ho]), if_pos hr0]; exact hn⟩
    | false =>
      have : r' = r := by
        have wr : Weak b.scope r r := weak_self (by rintro _ rfl; cases hr0) (by rintro _ _ rfl; cases hr0) (by rintro _ _ _ rfl; cases hr0)
        rcases wr.same (SameBindings.refl _) hr with ⟨e, _⟩ | ⟨_, _, rfl, _⟩
        · exact e.symm
        · cases hr0
      subst this
      exact gives_plain ho hr0 h

/-! ## Without wildcards -/

/-- No wildcard occurs in what variables are bound to. -/
def CleanScope (sc : Scope) : Prop := ∀ x t, sc x = some t → t.NoWild

theorem Weak.clean {sc : Scope} (hs : CleanScope sc) {t v : Term} (ht : t.NoWild) (h : Weak sc t v) : v.NoWild := by
  obtain ⟨n, h⟩ := h
  induction n generalizing t v with
  | zero => cases h
  | succ n ih =>
    cases t with
    | var x =>
      obtain ⟨z, _, ⟨_, rfl⟩ | ⟨s, h1, _, h2⟩⟩ := evaluate_var h
      · simp
      · exact ih (hs _ _ h1) h2
    | un op s => rcases evaluate_expr (.inl ⟨_, _, rfl⟩) h with ⟨_, rfl⟩ | ⟨_, rfl⟩ <;> simp
    | bin op s u => rcases evaluate_expr (.inr ⟨_, _, _, rfl⟩) h with ⟨_, rfl⟩ | ⟨_, rfl⟩ <;> simp
    | _ => rw [evaluate] at h <;> first | (cases h; exact ht) | exact nofun

omit [Arith] in
theorem pieces_clean {l r : Term} {ls rs : List Term} (hl : l.NoWild) (hr : r.NoWild) (h : pieces l r = some (ls, rs)) :
    (∀ t ∈ ls, t.NoWild) ∧ ∀ t ∈ rs, t.NoWild := by
  unfold pieces at h
  split at h
  · split at h <;> cases h; simp
  · split at h <;> cases h; simp
  · split at h <;> cases h; simp
  · split at h <;> cases h
    exact ⟨by simpa using hl, by simpa using hr⟩
  · split at h <;> cases h
    exact ⟨by simpa using hl, by simpa using hr⟩
  · cases h
    exact ⟨by simpa using hl, by simpa using hr⟩
  · cases h
    exact ⟨by simpa using hl, by simpa using hr⟩
  · cases h
    exact ⟨by simpa using hl, by simpa using hr⟩
  · cases h

omit [Arith] in
theorem cleanScope_set {sc : Scope} {x : VarId} {t : Term} (h : CleanScope sc) (ht : t.NoWild) : CleanScope (sc.set x t) := by
  intro y s hy
  unfold Scope.set at hy
  split at hy
  · cases hy; exact ht
  · exact h y s hy

omit [Arith] in
theorem Meets.clean {l r : Term} {sc sc' : Scope} {a : Bool} (hs : CleanScope sc) (hl : l.NoWild) (hr : r.NoWild) (h : Meets l r sc (.done a sc')) : CleanScope sc' := by
  cases h with
  | same => exact hs
  | linkL => exact cleanScope_set hs hr
  | linkR => exact cleanScope_set hs hl
  | bindL => exact cleanScope_set hs hr
  | bindR => exact cleanScope_set hs hl
  | clash => exact hs

mutual
theorem Unifies.clean {l r : Term} {sc sc' : Scope} {a : Bool} (hs : CleanScope sc) (hl : l.NoWild) (hr : r.NoWild) : Unifies l r sc a sc' → CleanScope sc'
  | .wildL => hs
  | .wildR => hs
  | .done h1 h2 _ _ h3 => h3.clean hs (h1.clean hs hl) (h2.clean hs hr)
  | .more h1 h2 _ _ h3 h4 => by
    cases h3 with
    | deep _ _ e =>
      obtain ⟨c1, c2⟩ := pieces_clean (h1.clean hs hl) (h2.clean hs hr) e
      exact h4.clean hs c1 c2
theorem UnifiesL.clean {ls rs : List Term} {sc sc' : Scope} {a : Bool} (hs : CleanScope sc) (hl : ∀ t ∈ ls, t.NoWild) (hr : ∀ t ∈ rs, t.NoWild) :
    UnifiesL ls rs sc a sc' → CleanScope sc'
  | .nil => hs
  | .stop h => h.clean hs (hl _ (by simp)) (hr _ (by simp))
  | .cons h1 h2 => h2.clean (h1.clean hs (hl _ (by simp)) (hr _ (by simp))) (fun t ht => hl _ (by simp [ht])) (fun t ht => hr _ (by simp [ht]))
end

omit [Arith] in
theorem CleanScope.noneWild {sc : Scope} (h : CleanScope sc) : NoneWild sc := fun x e => by
  have := h x _ e
  simp at this

mutual
/-- What the relation says of terms without wildcards is what `unify` returns, in a scope with the
same bindings. -/
theorem Unifies.returns {l r : Term} {sc sc' : Scope} {a : Bool} (hs : CleanScope sc) (hl : l.NoWild) (hr : r.NoWild) :
    Unifies l r sc a sc' → ∀ b : BSt, CleanScope b.scope → SameBindings sc b.scope → Gives l r b a ∧ Gives r l b a
  | .wildL => by simp at hl
  | .wildR => by simp at hr
  | .done h1 h2 n1 n2 h3 => fun b hb hsb => by
    obtain ⟨l₂, k1⟩ := evaluate_exists hsb _ h1.choose_spec
    obtain ⟨r₂, k2⟩ := evaluate_exists hsb _ h2.choose_spec
    have m1 : l₂ ≠ .wild := by rintro rfl; have := k1.clean hb hl; simp at this
    have m2 : r₂ ≠ .wild := by rintro rfl; have := k2.clean hb hr; simp at this
    have ha : Settles l₂ r₂ b a := by
      have s1 := h1.same hsb k1
      have s2 := h2.same hsb k2
      rcases s1 with ⟨rfl, v1⟩ | ⟨x, x', rfl, rfl, _⟩
      · rcases s2 with ⟨rfl, v2⟩ | ⟨x, x', rfl, rfl, _⟩
        · cases h3 with
          | same => exact absurd rfl (v1 _)
          | linkL => exact absurd rfl (v1 _)
          | linkR => exact absurd rfl (v1 _)
          | bindL => exact absurd rfl (v1 _)
          | bindR => exact absurd rfl (v2 _)
          | clash _ _ e => exact .inr (.inl ⟨v1, v2, e, rfl⟩)
        · refine .inl ⟨.inr ⟨_, rfl⟩, ?_⟩
          cases h3 with
          | clash _ h => exact absurd rfl (h _)
          | _ => rfl
      · refine .inl ⟨.inl ⟨_, rfl⟩, ?_⟩
        cases h3 with
        | clash h => exact absurd rfl (h _)
        | _ => rfl
    exact ⟨gives_of k1 k2 m1 m2 ha, gives_of k2 k1 m2 m1 ha.symm⟩
  | .more h1 h2 n1 n2 h3 h4 => fun b hb hsb => by
    obtain ⟨l₂, k1⟩ := evaluate_exists hsb _ h1.choose_spec
    obtain ⟨r₂, k2⟩ := evaluate_exists hsb _ h2.choose_spec
    have m1 : l₂ ≠ .wild := by rintro rfl; have := k1.clean hb hl; simp at this
    have m2 : r₂ ≠ .wild := by rintro rfl; have := k2.clean hb hr; simp at this
    have ha : Settles l₂ r₂ b a := by
      cases h3 with
      | deep v1 v2 e =>
        rcases h1.same hsb k1 with ⟨rfl, _⟩ | ⟨_, _, e, _⟩
        case inr => exact absurd e (v1 _)
        rcases h2.same hsb k2 with ⟨rfl, _⟩ | ⟨_, _, e, _⟩
        case inr => exact absurd e (v2 _)
        obtain ⟨c1, c2⟩ := pieces_clean (h1.clean hs hl) (h2.clean hs hr) e
        obtain ⟨g1, g2⟩ := h4.returns hs c1 c2 b hb hsb
        exact .inr (.inr ⟨v1, v2, _, _, e, g1, g2⟩)
    exact ⟨gives_of k1 k2 m1 m2 ha, gives_of k2 k1 m2 m1 ha.symm⟩
theorem UnifiesL.returns {ls rs : List Term} {sc sc' : Scope} {a : Bool} (hs : CleanScope sc) (hl : ∀ t ∈ ls, t.NoWild) (hr : ∀ t ∈ rs, t.NoWild) :
    UnifiesL ls rs sc a sc' → ∀ b : BSt, CleanScope b.scope → SameBindings sc b.scope → GivesL ls rs b a ∧ GivesL rs ls b a
  | .nil => fun b _ _ => ⟨⟨0, b, rfl⟩, ⟨0, b, rfl⟩⟩
  | .stop h => fun b hb hsb => by
    obtain ⟨⟨n, b1, h1⟩, ⟨m, b2, h2⟩⟩ := h.returns hs (hl _ (by simp)) (hr _ (by simp)) b hb hsb
    exact ⟨⟨n, b1, by rw [unifyAll, h1]; rfl⟩, ⟨m, b2, by rw [unifyAll, h2]; rfl⟩⟩
  | .cons h h' => fun b hb hsb => by
    have cl := hl _ List.mem_cons_self
    have cr := hr _ List.mem_cons_self
    obtain ⟨⟨n, b1, h1⟩, ⟨m, b2, h2⟩⟩ := h.returns hs cl cr b hb hsb
    have u1 := (unify_related n _ _ _ _ _ hb.noneWild h1).1
    have u2 := (unify_related m _ _ _ _ _ hb.noneWild h2).1
    have sc1 := h.clean hs cl cr
    obtain ⟨⟨n', b1', k1⟩, _⟩ := h'.returns sc1 (fun t ht => hl _ (by simp [ht])) (fun t ht => hr _ (by simp [ht])) b1
      (u1.clean hb cl cr) (Unifies.det hsb u1 h).2
    obtain ⟨_, ⟨m', b2', k2⟩⟩ := h'.returns sc1 (fun t ht => hl _ (by simp [ht])) (fun t ht => hr _ (by simp [ht])) b2
      (u2.clean hb cr cl) (Unifies.det hsb u2.symm h).2
    refine ⟨⟨max n n', b1', ?_⟩, ⟨max m m', b2', ?_⟩⟩
    · rw [unifyAll, unify_fuel h1 (by omega : n ≤ max n n')]
      exact unifyAll_fuel k1 (by omega)
    · rw [unifyAll, unify_fuel h2 (by omega : m ≤ max m m')]
      exact unifyAll_fuel k2 (by omega)
end

/-- The other direction returns as well. -/
theorem unify_returns {n : Nat} {l r : Term} {b b' : BSt} {a : Bool} (hs : CleanScope b.scope) (hl : l.NoWild) (hr : r.NoWild)
    (h : unify n l r b = .ok a b') : ∃ m b'', unify m r l b = .ok a b'' :=
  ((unify_related n l r b a b' hs.noneWild h).1.returns hs hl hr b hs (SameBindings.refl _)).2

end

end Verif
