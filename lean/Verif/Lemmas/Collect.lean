import Verif.Lemmas.Items
import Verif.Lemmas.ActTrail
import Verif.Lemmas.Freeze
import Verif.Lemmas.FuelAll

/-! The loops of `.findall` and `.count`. -/

namespace Verif

variable [Host]

/-- A consumer that leaves the bindings and the world alone. -/
def Watches (s s' : QSt World) : Prop := s'.b = s.b ∧ s'.w = s.w

theorem freeze_of_grounded {sc : Scope} {p v t : Term} {m m' : FSt} {n k : Nat} (hm : ∀ x, m.memo x = none)
    (hg : grounded k sc p = .ok v) (h : freeze n sc p m = .ok t m') : t = v ∧ m' = m := by
  have h1 := freeze_ground (m := m) (by simp [hm]) _ _ _ (grounded_mono hg (Nat.le_max_left k n))
  have h2 := Res.mono (f := fun n => freeze n sc p m) (fun n => freeze_succ n sc p m) (Nat.le_max_right k n) (by simp [h])
  simp only [h, h1, Res.ok.injEq] at h2
  exact ⟨h2.1.symm, h2.2.symm⟩

theorem findall_drain {n m : Nat} {p : Term} : ∀ (k : Nat) (g : Gen Act ActGen) (memo : VarId → Option VarId) (s s' : QSt World)
    (ts : List Term), findallGo n (gnext m) p k g memo s = .ok ts s' →
    ∃ l, Drain Watches g s l s' ∧ ts.length = l.length ∧
      ((∀ x, memo x = none) → (∀ a ∈ l, ∃ k v, grounded k a.b.scope p = .ok v) →
        AllOf (fun a t => ∃ k, grounded k a.b.scope p = .ok t) l ts)
  | 0, _, _, _, _, _, h => by cases h
  | k + 1, g, memo, s, s', ts, h => by
    rw [findallGo] at h
    cases hg : gnext m g s with
    | oof => rw [hg] at h; cases h
    | err e s₁ => rw [hg] at h; cases h
    | ok o s₁ =>
      cases o with
      | none =>
        rw [hg] at h
        simp only [Res.onNext] at h
        cases h
        exact ⟨[], .stop hg, rfl, fun _ _ => .nil⟩
      | some g₁ =>
        rw [hg] at h
        simp only [Res.onNext] at h
        cases hf : freeze n s₁.b.scope p ⟨memo, s₁.nv⟩ with
        | oof => rw [hf] at h; cases h
        | err e m => rw [hf] at h; cases h
        | ok t m' =>
          rw [hf] at h
          simp only [Res.bind_eq_ok] at h
          obtain ⟨ts', s₂, h1, h2⟩ := h
          simp at h2
          obtain ⟨rfl, rfl⟩ := h2
          obtain ⟨l, j1, j2, j3⟩ := findall_drain k g₁ m'.memo _ _ _ h1
          refine ⟨s₁ :: l, .next (s₂ := { s₁ with nv := m'.nv }) hg ⟨rfl, rfl⟩ j1, by simp [j2], fun hm hgr => ?_⟩
          obtain ⟨k', v, hv⟩ := hgr s₁ (by simp)
          obtain ⟨rfl, rfl⟩ := freeze_of_grounded (m := ⟨memo, s₁.nv⟩) hm hv hf
          exact .cons ⟨k', hv⟩ (j3 hm fun a ha => hgr a (by simp [ha]))

theorem count_drain {R : QSt World → QSt World → Prop} {m : Nat} (hR : ∀ s, R s s) : ∀ (k : Nat) (g : Gen Act ActGen) (s s' : QSt World) (c : Nat),
    countGo (gnext m) k g s = .ok c s' → ∃ l, Drain R g s l s' ∧ c = l.length
  | 0, _, _, _, _, h => by cases h
  | k + 1, g, s, s', c, h => by
    rw [countGo] at h
    cases hg : gnext m g s with
    | oof => rw [hg] at h; cases h
    | err e s₁ => rw [hg] at h; cases h
    | ok o s₁ =>
      cases o with
      | none =>
        rw [hg] at h
        simp only [Res.onNext] at h
        cases h
        exact ⟨[], .stop hg, rfl⟩
      | some g₁ =>
        rw [hg] at h
        simp only [Res.onNext, Res.bind_eq_ok] at h
        obtain ⟨c', s₂, h1, h2⟩ := h
        simp at h2
        obtain ⟨rfl, rfl⟩ := h2
        obtain ⟨l, j1, j2⟩ := count_drain hR k g₁ _ _ _ h1
        exact ⟨s₁ :: l, .next hg (hR _) j1, by simp [j2]⟩

theorem sum_drain {n m : Nat} {p : Term} : ∀ (k : Nat) (g : Gen Act ActGen) (t t' : Rat) (s s' : QSt World),
    sumGo n (gnext m) p k g t s = .ok t' s' →
    ∃ l vs, Drain (fun s s' => s' = s) g s l s' ∧ AllOf (fun a v => ∃ k, grounded k a.b.scope p = .ok v) l vs ∧ AddsUp t vs t'
  | 0, _, _, _, _, _, h => by cases h
  | k + 1, g, t, t', s, s', h => by
    rw [sumGo] at h
    cases hg : gnext m g s with
    | oof => rw [hg] at h; cases h
    | err e s₁ => rw [hg] at h; cases h
    | ok o s₁ =>
      cases o with
      | none =>
        rw [hg] at h
        simp only [Res.onNext] at h
        cases h
        exact ⟨[], [], .stop hg, .nil, .nil⟩
      | some g₁ =>
        rw [hg] at h
        simp only [Res.onNext, Res.bind_eq_ok, Res.lift_eq_ok, Ev.bind_eq_ok] at h
        obtain ⟨t₁, s₂, ⟨⟨v, hv, ha⟩, rfl⟩, h⟩ := h
        obtain ⟨l, vs, j1, j2, j3⟩ := sum_drain k g₁ _ _ _ _ h
        refine ⟨s₁ :: l, v :: vs, .next hg rfl j1, .cons ⟨_, hv⟩ j2, ?_⟩
        unfold pyAdd at ha
        cases v with
        | num q =>
          simp only at ha
          split at ha
          · next r hr => cases ha; exact .cons (.num q) hr j3
          · cases ha
        | bool b =>
          simp only at ha
          split at ha
          · next r hr => cases ha; exact .cons (.bool b) hr j3
          · cases ha
        | _ => cases ha

theorem gnext_mono {n m : Nat} {g : Gen Act ActGen} {s s' : QSt World} {o : Option (Gen Act ActGen)} (h : gnext n g s = .ok o s')
    (hm : n ≤ m) : gnext m g s = .ok o s' := by
  rw [← h]
  exact Res.mono (f := fun n => gnext n g s) (fun n => gnext_succ n g s) hm (by simp [h])

theorem unify_mono {n m : Nat} {l r : Term} {b b' : BSt} {o : Bool} (h : unify n l r b = .ok o b') (hm : n ≤ m) :
    unify m l r b = .ok o b' := by
  rw [← h]
  exact Res.mono (f := fun n => unify n l r b) (fun n => unify_succ n l r b) hm (by simp [h])

theorem drain_count {g : Gen Act ActGen} {s s' : QSt World} {l : List (QSt World)} (h : Drain (fun s s' => s' = s) g s l s') :
    ∃ N, ∀ n k, N ≤ n → N ≤ k → countGo (gnext n) k g s = .ok l.length s' := by
  induction h with
  | @stop n g s s' h =>
    refine ⟨n + 1, fun m k hm hk => ?_⟩
    obtain ⟨k, rfl⟩ : ∃ j, k = j + 1 := ⟨k - 1, by omega⟩
    rw [countGo, gnext_mono h (by omega)]
    rfl
  | @next n g s g' s₁ s₂ l s' h hR _ ih =>
    subst hR
    obtain ⟨N, ih⟩ := ih
    refine ⟨n + N + 1, fun m k hm hk => ?_⟩
    obtain ⟨k, rfl⟩ : ∃ j, k = j + 1 := ⟨k - 1, by omega⟩
    rw [countGo, gnext_mono h (by omega)]
    simp only [Res.onNext]
    rw [ih m k (by omega) (by omega)]
    rfl

theorem drain_findall {g : Gen Act ActGen} {s s' : QSt World} {l : List (QSt World)} {p : Term}
    (h : Drain (fun s s' => s' = s) g s l s') :
    ∀ ts, AllOf (fun a t => ∃ k, grounded k a.b.scope p = .ok t) l ts → ∃ N, ∀ n k, N ≤ n → N ≤ k →
      findallGo n (gnext n) p k g (fun _ => none) s = .ok ts s' := by
  induction h with
  | @stop n g s s' h =>
    intro ts hts
    cases hts
    refine ⟨n + 1, fun m k hm hk => ?_⟩
    obtain ⟨k, rfl⟩ : ∃ j, k = j + 1 := ⟨k - 1, by omega⟩
    rw [findallGo, gnext_mono h (by omega)]
    rfl
  | @next n g s g' s₁ s₂ l s' h hR _ ih =>
    subst hR
    intro ts hts
    cases hts with
    | @cons _ t _ ts ht hts =>
      obtain ⟨N, ih⟩ := ih ts hts
      obtain ⟨j, ht⟩ := ht
      refine ⟨n + N + j + 1, fun m k hm hk => ?_⟩
      obtain ⟨k, rfl⟩ : ∃ j, k = j + 1 := ⟨k - 1, by omega⟩
      rw [findallGo, gnext_mono h (by omega)]
      simp only [Res.onNext]
      rw [freeze_ground (by simp) _ _ _ (grounded_mono ht (by omega))]
      simp only
      rw [ih m k (by omega) (by omega)]
      rfl

theorem drain_sum {g : Gen Act ActGen} {s s' : QSt World} {l : List (QSt World)} {p : Term}
    (h : Drain (fun s s' => s' = s) g s l s') :
    ∀ vs t t', AllOf (fun a t => ∃ k, grounded k a.b.scope p = .ok t) l vs → AddsUp t vs t' → ∃ N, ∀ n k, N ≤ n → N ≤ k →
      sumGo n (gnext n) p k g t s = .ok t' s' := by
  induction h with
  | @stop n g s s' h =>
    intro vs t t' hvs hs
    cases hvs
    cases hs
    refine ⟨n + 1, fun m k hm hk => ?_⟩
    obtain ⟨k, rfl⟩ : ∃ j, k = j + 1 := ⟨k - 1, by omega⟩
    rw [sumGo, gnext_mono h (by omega)]
    rfl
  | @next n g s g' s₁ s₂ l s' h hR _ ih =>
    subst hR
    intro vs t t' hvs hs
    cases hvs with
    | @cons _ v _ vs hv hvs =>
      cases hs with
      | @cons _ q _ t₁ _ _ hq hadd hs =>
        obtain ⟨N, ih⟩ := ih vs t₁ t' hvs hs
        obtain ⟨j, hv⟩ := hv
        refine ⟨n + N + j + 1, fun m k hm hk => ?_⟩
        obtain ⟨k, rfl⟩ : ∃ j, k = j + 1 := ⟨k - 1, by omega⟩
        rw [sumGo, gnext_mono h (by omega)]
        simp only [Res.onNext]
        rw [grounded_mono hv (by omega)]
        have : pyAdd t v = .ok t₁ := by
          cases hq <;> simp only [pyAdd] <;> rw [hadd]
        rw [Ev.bind_ok, this]
        simp only [Res.lift, Res.bind]
        exact ih m k (by omega) (by omega)

/-- The first `next` of an action, the other way round. -/
theorem start_act {a : Act} {t : Term} {n : Nat} {s s' : QSt World} {o : Option ActGen}
    (h : actNext n (gnext n) (.start a t) s = .ok o s') : gnext (n + 2) (.start (.act a t) : Gen Act ActGen) s = .ok (o.map Gen.act) s' := by
  simp only [gnext, gstep, QWorld.actGen, QWorld.actNext, h]
  cases o <;> rfl

/-- The first `next` of an action. -/
theorem gnext_act {a : Act} {t : Term} {s : QSt World} {n : Nat} :
    gnext (n + 2) (.start (.act a t) : Gen Act ActGen) s =
      (actNext n (gnext n) (.start a t) s).onNext (fun g s => .ok (some (.act g)) s) (.ok none) := rfl

theorem act_start {a : Act} {t : Term} {n : Nat} {s s' : QSt World} {o : Option (Gen Act ActGen)}
    (h : gnext n (.start (.act a t) : Gen Act ActGen) s = .ok o s') :
    ∃ m o', o = o'.map Gen.act ∧ actNext m (gnext m) (.start a t) s = .ok o' s' := by
  cases n with
  | zero => cases h
  | succ n =>
    cases n with
    | zero => cases h
    | succ n =>
      simp only [gnext, gstep, QWorld.actGen, QWorld.actNext] at h
      cases hr : actNext n (gnext n) (.start a t) s with
      | oof => simp only [hr] at h; cases h
      | err e b => simp only [hr] at h; cases h
      | ok o' s₂ =>
        refine ⟨n, o', ?_, ?_⟩ <;> cases o' <;> simp only [hr] at h <;> cases h <;> first | rfl | exact hr

theorem unifyThenYield_ok {n : Nat} {l r : Term} {s s' : QSt World} {o : Option ActGen}
    (h : unifyThenYield n l r s = .ok o s') : unify n l r s.b = .ok o.isSome s'.b ∧ s'.w = s.w := by
  simp only [unifyThenYield, QSt.onB] at h
  cases hu : unify n l r s.b with
  | oof => rw [hu] at h; cases h
  | err e b => rw [hu] at h; cases h
  | ok a b =>
    rw [hu] at h
    cases a <;> cases h <;> exact ⟨rfl, rfl⟩

/-- Bindings are restored by a query that is only watched. -/
theorem watched_same {Q : Term} {s s' : QSt World} {ans : List (QSt World)} (hw : Orderly s.w)
    (h : Drain Watches (.start (.term Q) : Gen Act ActGen) s ans s') : Orderly s'.w ∧ Same s.b s'.b :=
  drain_trail (T := stdActs) (r := true) (e := true) (b₀ := s.b) stdActs_good
    (fun s s' hR hs => by
      obtain ⟨h1, h2⟩ := hR
      rw [h2, h1]
      exact ⟨hs, rel_refl _ _⟩) h hw ⟨trivial, fun _ => rfl, rel_refl _ _⟩

theorem watched {Q : Term} {s s' : QSt World} {ans : List (QSt World)} (hw : Orderly s.w)
    (h : Drain Watches (.start (.term Q) : Gen Act ActGen) s ans s') :
    s'.b.scope = s.b.scope ∧ s'.b.stack = s.b.stack := by
  have := (watched_same hw h).2
  rw [this.1]
  exact ⟨rfl, rfl⟩

end Verif
