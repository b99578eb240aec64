import Verif.Spec.Items
import Verif.Lemmas.QEnum

/-! The loop of `.member`, `.range` and `.substring`. -/

namespace Verif

theorem iterNext_nil {it : Term} (h : iter it = .ok []) : iterNext it = .ok none := by
  cases it with
  | tup xs => simp [iter] at h; subst h; rfl
  | cons a t =>
    simp only [iter, Ev.map_eq_ok] at h
    obtain ⟨_, _, h⟩ := h
    cases h
  | str s => simp [iter] at h; subst h; rfl
  | _ => simp [iter] at h

theorem iterNext_cons {it y : Term} {ys : List Term} (h : iter it = .ok (y :: ys)) :
    ∃ it', iterNext it = .ok (some (y, it')) ∧ iter it' = .ok ys := by
  cases it with
  | tup xs => simp [iter] at h; subst h; exact ⟨_, rfl, rfl⟩
  | cons a t =>
    simp only [iter, Ev.map_eq_ok] at h
    obtain ⟨zs, h1, h⟩ := h
    cases h
    exact ⟨_, rfl, h1⟩
  | str s =>
    simp only [iter, Ev.ok.injEq] at h
    cases hs : s.toList with
    | nil => simp [hs] at h
    | cons c cs =>
      simp only [hs, List.map_cons, List.cons.injEq] at h
      obtain ⟨rfl, rfl⟩ := h
      refine ⟨.str (String.ofList cs), by simp [iterNext, hs], by simp [iter]⟩
  | _ => simp [iter] at h

theorem ListOf.iter {l : Term} {xs : List Term} (h : ListOf l xs) : iter l = .ok xs := by
  induction h with
  | tup xs => rfl
  | cons _ ih => simp [Verif.iter, ih]

variable [Host]

/-- One round of the loop over the items. -/
theorem items_next {x : Term} {n : Nat} {b : BSt} : ∀ (k : Nat) (it : Term) (ys : List Term) (s : QSt World),
    iter it = .ok ys → s.b.scope = b.scope → s.b.stack = b.stack → b.ncp < s.b.ncp →
    (∀ s', itemsGo n b.ncp x k it s = .ok none s' →
      s'.b.scope = b.scope ∧ s'.b.stack = b.stack ∧ b.ncp < s'.b.ncp ∧ OnePerItem (W := World) x b.scope ys []) ∧
    (∀ g' s', itemsGo n b.ncp x k it s = .ok (some g') s' →
      ∃ it' ys', g' = .items b.ncp x it' ∧ iter it' = .ok ys' ∧ Above b.mark s'.b ∧
        ∀ l : List (QSt World), OnePerItem x b.scope ys' l → OnePerItem x b.scope ys (s' :: l))
  | 0, _, _, _, _, _, _, _ => ⟨nofun, nofun⟩
  | k + 1, it, ys, s, hit, h1, h2, h3 => by
    rw [itemsGo]
    cases ys with
    | nil =>
      rw [iterNext_nil hit]
      refine ⟨fun s' h => ?_, nofun⟩
      cases h
      exact ⟨h1, h2, h3, .nil⟩
    | cons y ys =>
      obtain ⟨it', he, hit'⟩ := iterNext_cons hit
      simp only [he, Res.lift_ok, Res.bind_ok, QSt.onB]
      have hm : Above b.mark (s.b.pushCp b.ncp) := by
        have : s.b.pushCp b.ncp = { b.mark with ncp := s.b.ncp } := by
          cases hsb : s.b
          simp_all [BSt.pushCp, BSt.mark, BSt.newCp]
        rw [this]
        exact above_same (b := b.mark) h3
      cases hu : unify n x y (s.b.pushCp b.ncp) with
      | oof => exact ⟨nofun, nofun⟩
      | err e b' => exact ⟨nofun, nofun⟩
      | ok r b' =>
        have ha : Above b.mark b' := hm.trans (unify_grow n x y _ b' (by simp [hu])).above
        simp only [Res.bind_ok]
        cases r with
        | true =>
          simp only [if_true]
          refine ⟨nofun, fun g' s' h => ?_⟩
          cases h
          exact ⟨it', ys, rfl, hit', ha, fun l hl => .hit ⟨n, s.b.pushCp b.ncp, h1, hu⟩ hl⟩
        | false =>
          simp only [Bool.false_eq_true, if_false]
          have hr := reroll_mark ha
          have hk : b.ncp < b'.ncp := above_ncp ha
          obtain ⟨i1, i2⟩ := items_next (x := x) (n := n) (b := b) k it' ys { s with b := reroll b' b.ncp } hit'
            (by rw [hr]) (by rw [hr]) (by rw [hr]; exact hk)
          have hmiss : Miss x y b.scope := ⟨n, s.b.pushCp b.ncp, _, h1, hu⟩
          refine ⟨fun s' h => ?_, fun g' s' h => ?_⟩
          · obtain ⟨j1, j2, j3, j4⟩ := i1 s' h
            exact ⟨j1, j2, j3, .miss hmiss j4⟩
          · obtain ⟨it'', ys', j1, j2, j3, j4⟩ := i2 g' s' h
            exact ⟨it'', ys', j1, j2, j3, fun l hl => .miss hmiss (j4 l hl)⟩

/-- The loop, from a suspended generator to the end. -/
theorem items_drain {x : Term} {b : BSt} {R : QSt World → QSt World → Prop} (hR : ∀ s s', R s s' → Above s.b s'.b)
    {g : Gen Act ActGen} {s s' : QSt World} {l : List (QSt World)} (h : Drain R g s l s') :
    ∀ it ys, g = .act (.items b.ncp x it) → iter it = .ok ys → Above b.mark s.b →
      s'.b.scope = b.scope ∧ s'.b.stack = b.stack ∧ OnePerItem x b.scope ys l := by
  induction h with
  | @stop n g s s' hn =>
    rintro it ys rfl hit ha
    cases n with
    | zero => cases hn
    | succ n =>
      have hr := reroll_mark ha
      have hk : b.ncp < s.b.ncp := above_ncp ha
      obtain ⟨i1, -⟩ := items_next (x := x) (n := n) (b := b) n it ys { s with b := reroll s.b b.ncp } hit
        (by rw [hr]) (by rw [hr]) (by rw [hr]; exact hk)
      simp only [gnext, gstep, QWorld.actNext, actNext] at hn
      generalize hi : itemsGo n b.ncp x n it { s with b := reroll s.b b.ncp } = r at hn i1
      cases r with
      | oof => cases hn
      | err e b => cases hn
      | ok o s₁ =>
        cases o with
        | some _ => cases hn
        | none =>
          cases hn
          obtain ⟨j1, j2, _, j4⟩ := i1 _ rfl
          exact ⟨j1, j2, j4⟩
  | @next n g s g' s₁ s₂ l s' hn hr _ ih =>
    rintro it ys rfl hit ha
    cases n with
    | zero => cases hn
    | succ n =>
      have hrr := reroll_mark ha
      have hk : b.ncp < s.b.ncp := above_ncp ha
      obtain ⟨-, i2⟩ := items_next (x := x) (n := n) (b := b) n it ys { s with b := reroll s.b b.ncp } hit
        (by rw [hrr]) (by rw [hrr]) (by rw [hrr]; exact hk)
      simp only [gnext, gstep, QWorld.actNext, actNext] at hn
      generalize hi : itemsGo n b.ncp x n it { s with b := reroll s.b b.ncp } = r at hn i2
      cases r with
      | oof => cases hn
      | err e b => cases hn
      | ok o s₁ =>
        cases o with
        | none => cases hn
        | some g₁ =>
          cases hn
          obtain ⟨it', ys', rfl, j2, j3, j4⟩ := i2 _ _ rfl
          obtain ⟨k1, k2, k3⟩ := ih it' ys' rfl j2 (j3.trans (hR _ _ hr))
          exact ⟨k1, k2, j4 _ k3⟩

/-- The whole loop, when the generator of the action starts it after some checks. -/
theorem items_drain_start {a : Act} {t x it : Term} {ys : List Term} {R : QSt World → QSt World → Prop}
    (hR : ∀ s s', R s s' → Above s.b s'.b) {s s' : QSt World} {l : List (QSt World)}
    (hstart : ∀ n rec o s₁, actNext n rec (.start a t) s = .ok o s₁ → itemsStart n x it s = .ok o s₁)
    (hit : iter it = .ok ys) (h : Drain R (.start (.act a t)) s l s') :
    s'.b.scope = s.b.scope ∧ s'.b.stack = s.b.stack ∧ OnePerItem x s.b.scope ys l := by
  have key : ∀ n o s₁, gnext n (.start (.act a t) : Gen Act ActGen) s = .ok o s₁ →
      ∃ m o', o = o'.map Gen.act ∧ itemsGo m s.b.ncp x m it { s with b := s.b.newCp.2 } = .ok o' s₁ := by
    intro n o s₁ h
    cases n with
    | zero => cases h
    | succ n =>
      cases n with
      | zero => cases h
      | succ n =>
        simp only [gnext, gstep, QWorld.actGen, QWorld.actNext] at h
        cases hr : actNext n (gnext n) (.start a t) s with
        | oof => simp only [hr] at h; cases h
        | err e b => simp only [hr] at h; cases h
        | ok o' s₂ =>
          refine ⟨n, o', ?_, ?_⟩ <;> cases o' <;> simp only [hr] at h <;> cases h <;> first | rfl | exact hstart _ _ _ _ hr
  have nx := fun m => items_next (x := x) (n := m) (b := s.b) m it ys { s with b := s.b.newCp.2 } hit rfl rfl (Nat.lt_succ_self _)
  cases h with
  | stop hn =>
    obtain ⟨m, o', ho, hm⟩ := key _ _ _ hn
    cases o' with
    | some _ => cases ho
    | none =>
      obtain ⟨j1, j2, _, j4⟩ := (nx m).1 _ hm
      exact ⟨j1, j2, j4⟩
  | next hn hr hd =>
    obtain ⟨m, o', ho, hm⟩ := key _ _ _ hn
    cases o' with
    | none => cases ho
    | some g₁ =>
      cases ho
      obtain ⟨it', ys', rfl, j2, j3, j4⟩ := (nx m).2 _ _ hm
      obtain ⟨k1, k2, k3⟩ := items_drain hR hd it' ys' rfl j2 (j3.trans (hR _ _ hr))
      exact ⟨k1, k2, j4 _ k3⟩

/-- Unifying a variable without value never fails. -/
theorem hit_unbound {x : VarId} {y : Term} {sc : Scope} {b : BSt} (hx : sc x = none) (h : Hit (.var x) y sc b) :
    StandsFor x y sc b.scope := by
  obtain ⟨n, b₁, rfl, h⟩ := h
  cases n with
  | zero => cases h
  | succ n =>
    simp only [unify, Term.isObj, if_true, methUnify, varUnify, hx] at h
    by_cases hy : y = .wild
    · subst hy
      cases h
      exact .wild
    · have h : ((Res.lift (evaluate n b₁.scope y) b₁).bind fun t b => (bindVar x t b).bind fun _ b => .ok true b) = .ok true b := by
        cases y <;> first | exact h | exact absurd rfl hy
      cases he : evaluate n b₁.scope y with
      | oof => simp [he] at h
      | err e => simp [he] at h
      | ok v =>
        simp only [he, Res.lift_ok, Res.bind_ok] at h
        cases v with
        | var z =>
          simp only [bindVar, hx] at h
          split at h
          · simp at h; subst h; subst z; exact .itself hy he
          · simp at h; subst h; exact .value hy he (by simpa)
        | _ => simp [bindVar, hx] at h; subst h; exact .value hy he (by simp)

theorem miss_unbound {x : VarId} {y : Term} {sc : Scope} (hx : sc x = none) : ¬Miss (.var x) y sc := by
  rintro ⟨n, b₁, b, rfl, h⟩
  cases n with
  | zero => cases h
  | succ n =>
    simp only [unify, Term.isObj, if_true, methUnify, varUnify, hx] at h
    by_cases hy : y = .wild
    · subst hy; cases h
    · have h : ((Res.lift (evaluate n b₁.scope y) b₁).bind fun t b => (bindVar x t b).bind fun _ b => .ok true b) = .ok false b := by
        cases y <;> first | exact h | exact absurd rfl hy
      simp only [Res.bind_eq_ok] at h
      obtain ⟨_, _, _, _, _, _, h⟩ := h
      simp at h

theorem onePerItem_unbound {x : VarId} {sc : Scope} {ys : List Term} {l : List (QSt World)} (hx : sc x = none)
    (h : OnePerItem (.var x) sc ys l) : AllOf (fun y a => StandsFor x y sc a.b.scope) ys l := by
  induction h with
  | nil => exact .nil
  | hit h _ ih => exact .cons (hit_unbound hx h) ih
  | miss h _ _ => exact absurd h (miss_unbound hx)

theorem evaluate_mono {sc : Scope} {t v : Term} {n m : Nat} (h : evaluate n sc t = .ok v) (hm : n ≤ m) :
    evaluate m sc t = .ok v := by
  rw [← h]
  exact Ev.mono (f := fun n => evaluate n sc t) (fun n => evaluate_succ n sc t) hm (by simp [h])

theorem grounded_mono {sc : Scope} {t v : Term} {n m : Nat} (h : grounded n sc t = .ok v) (hm : n ≤ m) :
    grounded m sc t = .ok v := by
  rw [← h]
  exact Ev.mono (f := fun n => grounded n sc t) (fun n => grounded_succ n sc t) hm (by simp [h])

/-- A variable without value unifies with everything that can be evaluated. -/
theorem unify_unbound {x : VarId} {y : Term} {b : BSt} {m : Nat} (hx : b.scope x = none)
    (hy : y = .wild ∨ ∃ v, evaluate m b.scope y = .ok v) : ∃ b', unify (m + 1) (.var x) y b = .ok true b' := by
  simp only [unify, Term.isObj, if_true, methUnify, varUnify, hx]
  by_cases hw : y = .wild
  · subst hw; exact ⟨_, rfl⟩
  · obtain ⟨v, hv⟩ := hy.resolve_left hw
    suffices h : ∃ b', ((Res.lift (evaluate m b.scope y) b).bind fun t b =>
        (bindVar x t b).bind fun _ b => .ok true b) = .ok true b' by
      cases y <;> first | exact h | exact absurd rfl hw
    rw [hv]
    simp only [Res.lift_ok, Res.bind_ok]
    cases v with
    | var z => simp only [bindVar, hx]; split <;> exact ⟨_, rfl⟩
    | _ => simp only [bindVar, hx]; exact ⟨_, rfl⟩

/-- With enough fuel, the loop reaches its end or the next item. -/
theorem items_step {x : VarId} {it : Term} {ys : List Term} {s : QSt World} {c m : Nat} (hx : s.b.scope x = none)
    (hit : iter it = .ok ys) (hy : ∀ y ∈ ys.head?, y = .wild ∨ ∃ v, evaluate m s.b.scope y = .ok v) :
    ∃ o s', itemsGo (m + 1) c (.var x) (m + 1) it s = .ok o s' := by
  rw [itemsGo]
  cases ys with
  | nil => rw [iterNext_nil hit]; exact ⟨_, _, rfl⟩
  | cons y ys =>
    obtain ⟨it', he, -⟩ := iterNext_cons hit
    obtain ⟨b', hb⟩ := unify_unbound (b := s.b.pushCp c) hx (hy y (by simp))
    simp only [he, Res.lift_ok, Res.bind_ok, QSt.onB, hb, if_true]
    exact ⟨_, _, rfl⟩

theorem Evaluates.fuel {sc : Scope} {ys : List Term} (k : Nat) (h : ∀ y ∈ ys, Evaluates sc y) :
    ∃ m, k ≤ m ∧ ∀ y ∈ ys.head?, y = .wild ∨ ∃ v, evaluate m sc y = .ok v := by
  cases ys with
  | nil => exact ⟨k, Nat.le_refl _, nofun⟩
  | cons y ys =>
    rcases h y (by simp) with rfl | ⟨n, v, hv⟩
    · exact ⟨k, Nat.le_refl _, fun y hy => by simp at hy; exact .inl hy.symm⟩
    · exact ⟨max k n, Nat.le_max_left _ _, fun y hy => by
        simp at hy; subst hy; exact .inr ⟨v, evaluate_mono hv (Nat.le_max_right _ _)⟩⟩

theorem items_total {x : VarId} {b : BSt} (hx : b.scope x = none) : ∀ (ys : List Term) (it : Term) (s : QSt World),
    iter it = .ok ys → (∀ y ∈ ys, Evaluates b.scope y) → Above b.mark s.b →
    ∃ l s', Drain (fun s s' => s' = s) (.act (.items b.ncp (.var x) it) : Gen Act ActGen) s l s'
  | ys, it, s, hit, hy, ha => by
    have hr := reroll_mark ha
    have hk : b.ncp < s.b.ncp := above_ncp ha
    obtain ⟨m, -, hm⟩ := Evaluates.fuel 0 hy
    have hsc : (reroll s.b b.ncp).scope = b.scope := by rw [hr]
    obtain ⟨o, s', hgo⟩ := items_step (x := x) (it := it) (ys := ys) (s := { s with b := reroll s.b b.ncp }) (c := b.ncp) (m := m)
      (by rw [hsc]; exact hx) hit (by rw [hsc]; exact hm)
    have hn : gnext (m + 2) (.act (.items b.ncp (.var x) it) : Gen Act ActGen) s = .ok (o.map Gen.act) s' := by
      simp only [gnext, gstep, QWorld.actNext, actNext, hgo]
      cases o <;> rfl
    obtain ⟨-, i2⟩ := items_next (x := .var x) (n := m + 1) (b := b) (m + 1) it ys { s with b := reroll s.b b.ncp } hit
      (by rw [hr]) (by rw [hr]) (by rw [hr]; exact hk)
    cases o with
    | none => exact ⟨_, _, .stop hn⟩
    | some g =>
      cases ys with
      | nil => rw [itemsGo, iterNext_nil hit] at hgo; cases hgo
      | cons y ys =>
        obtain ⟨it', he, hit'⟩ := iterNext_cons hit
        obtain ⟨it'', ys', rfl, j2, j3, -⟩ := i2 _ _ hgo
        have : it'' = it' := by
          obtain ⟨b', hb⟩ := unify_unbound (b := BSt.pushCp (reroll s.b b.ncp) b.ncp) (by show (reroll s.b b.ncp).scope x = none; rw [hsc]; exact hx)
            (by show _ ∨ ∃ v, evaluate m (reroll s.b b.ncp).scope y = .ok v; rw [hsc]; exact hm y (by simp))
          rw [itemsGo] at hgo
          simp only [he, Res.lift_ok, Res.bind_ok, QSt.onB, hb, if_true] at hgo
          cases hgo; rfl
        subst this
        obtain ⟨l, s₂, hd⟩ := items_total hx ys it'' s' hit' (fun z hz => hy z (by simp [hz])) j3
        exact ⟨_, _, .next hn rfl hd⟩

/-- The whole loop runs to its end, when the generator of the action starts it after some checks. -/
theorem items_total_start {a : Act} {t it : Term} {x : VarId} {ys : List Term} {s : QSt World} (hx : s.b.scope x = none)
    {k : Nat} (hstart : ∀ n rec, k ≤ n → actNext n rec (.start a t) s = itemsStart n (.var x) it s)
    (hit : iter it = .ok ys) (hy : ∀ y ∈ ys, Evaluates s.b.scope y) :
    ∃ l s', Drain (fun s s' => s' = s) (.start (.act a t) : Gen Act ActGen) s l s' := by
  obtain ⟨m, hkm, hm⟩ := Evaluates.fuel k hy
  obtain ⟨o, s', hgo⟩ := items_step (x := x) (it := it) (ys := ys) (s := { s with b := s.b.newCp.2 }) (c := s.b.ncp) (m := m) hx hit hm
  have hn : gnext (m + 3) (.start (.act a t) : Gen Act ActGen) s = .ok (o.map Gen.act) s' := by
    simp only [gnext, gstep, QWorld.actGen, QWorld.actNext]
    rw [hstart _ _ (by omega), itemsStart, hgo]
    cases o <;> rfl
  obtain ⟨-, i2⟩ := items_next (x := .var x) (n := m + 1) (b := s.b) (m + 1) it ys { s with b := s.b.newCp.2 } hit rfl rfl
    (Nat.lt_succ_self _)
  cases o with
  | none => exact ⟨_, _, .stop hn⟩
  | some g =>
    obtain ⟨it', ys', rfl, j2, j3, j4⟩ := i2 _ _ hgo
    have hsub : ∀ y ∈ ys', Evaluates s.b.scope y := by
      cases ys with
      | nil => rw [itemsGo, iterNext_nil hit] at hgo; cases hgo
      | cons y ys =>
        obtain ⟨it₁, he, hit'⟩ := iterNext_cons hit
        obtain ⟨b', hb⟩ := unify_unbound (b := BSt.pushCp s.b.newCp.2 s.b.ncp) hx (hm y (by simp))
        rw [itemsGo] at hgo
        simp only [he, Res.lift_ok, Res.bind_ok, QSt.onB, hb, if_true] at hgo
        cases hgo
        rw [hit'] at j2
        cases j2
        exact fun z hz => hy z (by simp [hz])
    obtain ⟨l, s₂, hd⟩ := items_total hx ys' it' s' j2 hsub j3
    exact ⟨_, _, .next hn rfl hd⟩

omit [Host] in
/-- The positions found are exactly those at which the needle occurs, in ascending order. -/
theorem positions_spec (needle : List Char) : ∀ (hay : List Char) (pos : Nat),
    (positions needle pos hay).Pairwise (· < ·) ∧
    ∀ p, p ∈ positions needle pos hay ↔ ∃ q, p = pos + q ∧ OccursAt needle hay q
  | [], pos => by
    rw [positions]
    constructor
    · split <;> simp
    · intro p
      cases needle with
      | nil =>
        simp only [List.isEmpty_nil, if_true, List.mem_singleton]
        constructor
        · rintro rfl; exact ⟨0, rfl, [], [], rfl, rfl⟩
        · rintro ⟨q, rfl, pre, post, h, rfl⟩
          have : pre = [] := by cases pre <;> simp_all
          simp [this]
      | cons c cs =>
        simp only [List.isEmpty_cons, Bool.false_eq_true, if_false, List.not_mem_nil, false_iff]
        rintro ⟨q, rfl, pre, post, h, rfl⟩
        simp at h
  | c :: hay, pos => by
    obtain ⟨ih1, ih2⟩ := positions_spec needle hay (pos + 1)
    rw [positions]
    constructor
    · rw [List.pairwise_append]
      refine ⟨by split <;> simp, ih1, fun a ha b hb => ?_⟩
      have : a = pos := by
        split at ha <;> simp at ha
        exact ha
      obtain ⟨q, rfl, -⟩ := (ih2 b).1 hb
      omega
    · intro p
      rw [List.mem_append, ih2]
      constructor
      · rintro (h | ⟨q, rfl, pre, post, rfl, rfl⟩)
        · split at h
          · rename_i hp
            simp at h
            obtain ⟨post, hp⟩ := List.isPrefixOf_iff_prefix.1 hp
            exact ⟨0, h, [], post, by simp [hp], rfl⟩
          · simp at h
        · exact ⟨pre.length + 1, by omega, c :: pre, post, by simp, by simp⟩
      · rintro ⟨q, rfl, pre, post, h, rfl⟩
        cases pre with
        | nil =>
          left
          have : needle.isPrefixOf (c :: hay) = true := List.isPrefixOf_iff_prefix.2 ⟨post, by simpa using h.symm⟩
          simp [this]
        | cons d pre =>
          simp only [List.cons_append, List.cons.injEq] at h
          exact .inr ⟨pre.length, by simp; omega, pre, post, h.2, rfl⟩

/-! ## How the actions start the loop -/

theorem evaluate_det {sc : Scope} {t v w : Term} {n m : Nat} (h : evaluate n sc t = .ok v) (h' : evaluate m sc t = .ok w) :
    v = w := by
  have h1 := evaluate_mono h (Nat.le_max_left n m)
  have h2 := evaluate_mono h' (Nat.le_max_right n m)
  simpa [h1] using h2

theorem grounded_det {sc : Scope} {t v w : Term} {n m : Nat} (h : grounded n sc t = .ok v) (h' : grounded m sc t = .ok w) :
    v = w := by
  have h1 := grounded_mono h (Nat.le_max_left n m)
  have h2 := grounded_mono h' (Nat.le_max_right n m)
  simpa [h1] using h2

/-- The numbers as a tuple. -/
def numTup (ps : List Nat) : Term := .tup (ps.map fun (p : Nat) => .num (p : Rat))

omit [Host] in
theorem iter_numTup (ps : List Nat) : iter (numTup ps) = .ok (ps.map fun (p : Nat) => .num (p : Rat)) := rfl

theorem allOf_nums {x : VarId} {sc : Scope} : ∀ {ps : List Nat} {l : List (QSt World)},
    AllOf (fun y a => StandsFor x y sc a.b.scope) (ps.map fun (p : Nat) => Term.num (p : Rat)) l →
    AllOf (fun (p : Nat) (a : QSt World) => a.b.scope = sc.set x (.num (p : Rat))) ps l
  | [], l, h => by cases h; exact .nil
  | p :: ps, l, h => by
    cases h with
    | cons h hs =>
      refine .cons ?_ (allOf_nums hs)
      generalize hsc : (QSt.b _).scope = sc' at h ⊢
      cases h with
      | @value _ v n _ _ he _ =>
        cases n with
        | zero => cases he
        | succ n => simp [evaluate] at he; rw [he]
      | @itself _ n _ _ he =>
        cases n with
        | zero => cases he
        | succ n => simp [evaluate] at he

theorem evaluates_nums {sc : Scope} (ps : List Nat) : ∀ y ∈ ps.map (fun (p : Nat) => Term.num (p : Rat)), Evaluates sc y := by
  intro y hy
  simp only [List.mem_map] at hy
  obtain ⟨p, _, rfl⟩ := hy
  exact .inr ⟨1, _, rfl⟩

theorem fun_member {f : String} {p L l : Term} {as : List Term} {k : Nat} {s : QSt World}
    (hl : evaluate k s.b.scope L = .ok l) (n : Nat) (rec : Rec) (o : Option ActGen) (s₁ : QSt World)
    (h : actNext n rec (.start .member (.lit f [p, L] as)) s = .ok o s₁) : itemsStart n p l s = .ok o s₁ := by
  simp only [actNext, argAt, List.getElem?_cons_succ, List.getElem?_cons_zero, Ev.bind_ok, Res.bind_eq_ok, Res.lift_eq_ok] at h
  obtain ⟨v, _, ⟨hv, rfl⟩, x', _, ⟨hx', rfl⟩, h⟩ := h
  cases hx'
  rw [evaluate_det hv hl] at h
  exact h

theorem run_member {f : String} {p L l : Term} {as : List Term} {k : Nat} {s : QSt World}
    (hl : evaluate k s.b.scope L = .ok l) (n : Nat) (rec : Rec) (hn : k ≤ n) :
    actNext n rec (.start .member (.lit f [p, L] as)) s = itemsStart n p l s := by
  simp [actNext, argAt, evaluate_mono hl hn]

omit [Host] in
theorem pyInt_intCast (i : Int) : pyInt (.num i) = .ok i := by
  simp [pyInt]

theorem fun_range {f : String} {p N : Term} {i : Int} {as : List Term} {k : Nat} {s : QSt World}
    (hN : grounded k s.b.scope N = .ok (.num i)) (n : Nat) (rec : Rec) (o : Option ActGen) (s₁ : QSt World)
    (h : actNext n rec (.start .range (.lit f [N, p] as)) s = .ok o s₁) :
    itemsStart n p (numTup (List.range i.toNat)) s = .ok o s₁ := by
  simp only [actNext, argAt, List.getElem?_cons_succ, List.getElem?_cons_zero, Ev.bind_ok, Res.bind_eq_ok, Res.lift_eq_ok,
    Ev.bind_eq_ok] at h
  obtain ⟨j, _, ⟨⟨v, hv, hj⟩, rfl⟩, x', _, ⟨hx', rfl⟩, h⟩ := h
  cases hx'
  cases grounded_det hv hN
  rw [pyInt_intCast] at hj
  cases hj
  exact h

theorem run_range {f : String} {p N : Term} {i : Int} {as : List Term} {k : Nat} {s : QSt World}
    (hN : grounded k s.b.scope N = .ok (.num i)) (n : Nat) (rec : Rec) (hn : k ≤ n) :
    actNext n rec (.start .range (.lit f [N, p] as)) s = itemsStart n p (numTup (List.range i.toNat)) s := by
  simp [actNext, argAt, grounded_mono hN hn, pyInt_intCast, numTup]

theorem fun_substring {f a b : String} {p A B : Term} {as : List Term} {k : Nat} {s : QSt World}
    (hA : grounded k s.b.scope A = .ok (.str a)) (hB : grounded k s.b.scope B = .ok (.str b))
    (n : Nat) (rec : Rec) (o : Option ActGen) (s₁ : QSt World)
    (h : actNext n rec (.start .substring (.lit f [A, B, p] as)) s = .ok o s₁) :
    itemsStart n p (numTup (positions a.toList 0 b.toList)) s = .ok o s₁ := by
  simp only [actNext, argAt, List.getElem?_cons_succ, List.getElem?_cons_zero, Ev.bind_ok, Res.bind_eq_ok, Res.lift_eq_ok] at h
  obtain ⟨v, _, ⟨hv, rfl⟩, w, _, ⟨hw, rfl⟩, x', _, ⟨hx', rfl⟩, h⟩ := h
  cases hx'
  cases grounded_det hv hA
  cases grounded_det hw hB
  exact h

theorem run_substring {f a b : String} {p A B : Term} {as : List Term} {k : Nat} {s : QSt World}
    (hA : grounded k s.b.scope A = .ok (.str a)) (hB : grounded k s.b.scope B = .ok (.str b))
    (n : Nat) (rec : Rec) (hn : k ≤ n) :
    actNext n rec (.start .substring (.lit f [A, B, p] as)) s = itemsStart n p (numTup (positions a.toList 0 b.toList)) s := by
  simp [actNext, argAt, grounded_mono hA hn, grounded_mono hB hn, numTup, aslStr]

end Verif
