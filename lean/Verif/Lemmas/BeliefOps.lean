import Verif.Lemmas.Beliefs
import Verif.Lemmas.PyEq
import Verif.Lemmas.AnnotGround
import Verif.Lemmas.QTrail
import Verif.Lemmas.Fuel

/-!
# Lemmas: adding and removing beliefs
-/

namespace Verif

theorem Term.Ground.args {f : String} {as xs : List Term} (h : (Term.lit f as xs).Ground) :
    (∀ t ∈ as, t.Ground) ∧ ∀ t ∈ xs, t.Ground := by
  simp only [Term.Ground, Term.All] at h
  exact ⟨fun t ht => Term.allL_iff.1 h.2.1 t ht, fun t ht => Term.allL_iff.1 h.2.2 t ht⟩

theorem simple_ground : ∀ t : Term, t.Simple → t.Ground := by
  intro t
  induction t using Term.ind with
  | lit f as xs ih _ =>
    rintro ⟨rfl, h⟩
    simp only [Term.Ground, Term.All, Term.allL_iff]
    exact ⟨trivial, fun t ht => ih t ht (simpleL_mem h t ht), by simp⟩
  | tup xs ih =>
    intro h
    simp only [Term.Ground, Term.All, Term.allL_iff]
    exact ⟨trivial, fun t ht => ih t ht (simpleL_mem h t ht)⟩
  | _ => simp [Term.Simple, Term.Ground, Term.All]

theorem Term.Simple.flat {t : Term} (h : t.Simple) : t.Flat := by
  cases t <;> simp [Term.Flat, Term.annots]
  obtain ⟨rfl, _⟩ := h
  simp

theorem simple_val : ∀ (k : Nat) (x y : Term), x.size + y.size ≤ k → x.Simple → y.Simple → x.val = y.val → x = y := by
  have list : ∀ (k : Nat) (xs ys : List Term), (∀ x ∈ xs, ∀ y ∈ ys, x.val = y.val → x = y) →
      (∀ x ∈ xs, ∃ v, x.val = some v) → (∀ x ∈ ys, ∃ v, x.val = some v) → Term.valL xs = Term.valL ys → xs = ys := by
    intro k xs
    induction xs with
    | nil =>
      intro ys _ _ hy h
      cases ys with
      | nil => rfl
      | cons y ys =>
        obtain ⟨v, hv⟩ := hy y (by simp)
        obtain ⟨w, hw⟩ := valL_some_of (ts := ys) fun t ht => hy t (by simp [ht])
        simp [Term.valL, hv, hw] at h
    | cons x xs ih =>
      intro ys he hx hy h
      obtain ⟨v, hv⟩ := hx x (by simp)
      obtain ⟨w, hw⟩ := valL_some_of (ts := xs) fun t ht => hx t (by simp [ht])
      cases ys with
      | nil => simp [Term.valL, hv, hw] at h
      | cons y ys =>
        obtain ⟨v', hv'⟩ := hy y (by simp)
        obtain ⟨w', hw'⟩ := valL_some_of (ts := ys) fun t ht => hy t (by simp [ht])
        simp [Term.valL, hv, hw, hv', hw'] at h
        obtain ⟨rfl, rfl⟩ := h
        rw [he x (by simp) y (by simp) (hv.trans hv'.symm),
          ih ys (fun x hx y hy => he x (by simp [hx]) y (by simp [hy])) (fun t ht => hx t (by simp [ht]))
            (fun t ht => hy t (by simp [ht])) (hw.trans hw'.symm)]
  intro k
  induction k with
  | zero => intro x y h; have := size_pos x; omega
  | succ k ih =>
    intro x y hk hx hy h
    have val : ∀ {ts : List Term}, Term.SimpleL ts → ∀ t ∈ ts, ∃ v, t.val = some v := fun hs t ht =>
      val_some t (simple_ground t (simpleL_mem hs t ht)).closed
    have isL : ∀ {ts : List Term} {f : String} {as : List Term}, Term.SimpleL ts → Term.SimpleL as →
        Term.valL ts ≠ (Term.valL as).map (.app f) := fun {ts f as} h1 h2 h => by
      obtain ⟨w, hw⟩ := valL_some_of (val h1)
      obtain ⟨w', hw'⟩ := valL_some_of (val h2)
      have := valL_isL hw
      simp [hw, hw'] at h
      subst h
      simp [Val.IsL] at this
    have plain : ∀ {ts : List Term} {v : Val}, Term.SimpleL ts → ¬ v.IsL → Term.valL ts ≠ some v := fun {ts v} h1 hv h =>
      hv (valL_isL h)
    cases x <;> simp only [Term.Simple] at hx <;> cases y <;> simp only [Term.Simple] at hy <;>
      simp only [Term.val, Option.some.injEq, reduceCtorEq, Val.num.injEq, Val.str.injEq] at h
    · rw [h]
    · obtain ⟨w, hw⟩ := valL_some_of (val hy.2); simp [hw] at h
    · exact absurd h.symm (plain hy (by simp [Val.IsL]))
    · rw [h]
    · obtain ⟨w, hw⟩ := valL_some_of (val hy.2); simp [hw] at h
    · exact absurd h.symm (plain hy (by simp [Val.IsL]))
    · obtain ⟨w, hw⟩ := valL_some_of (val hx.2); simp [hw] at h
    · obtain ⟨w, hw⟩ := valL_some_of (val hx.2); simp [hw] at h
    · next f as xs g bs ys =>
      obtain ⟨rfl, hx⟩ := hx
      obtain ⟨rfl, hy⟩ := hy
      obtain ⟨w, hw⟩ := valL_some_of (val hx)
      obtain ⟨w', hw'⟩ := valL_some_of (val hy)
      simp [hw, hw'] at h
      obtain ⟨rfl, rfl⟩ := h
      rw [list k as bs (fun x hx' y hy' => ih x y (by
        have := mem_size hx'; have := mem_size hy'; simp [Term.size] at hk; omega) (simpleL_mem hx x hx') (simpleL_mem hy y hy'))
        (val hx) (val hy) (hw.trans hw'.symm)]
    · exact absurd h.symm (isL hy hx.2)
    · exact absurd h (plain hx (by simp [Val.IsL]))
    · exact absurd h (plain hx (by simp [Val.IsL]))
    · exact absurd h (isL hx hy.2)
    · next xs ys =>
      rw [list k xs ys (fun x hx' y hy' => ih x y (by
        have := mem_size hx'; have := mem_size hy'; simp [Term.size] at hk; omega) (simpleL_mem hx x hx') (simpleL_mem hy y hy'))
        (val hx) (val hy) h]

theorem covers_simple {x y : Term} (hx : x.Simple) (hy : y.Simple) : Covers x y ↔ x = y := by
  have : x.annots = [] := by
    cases x <;> simp [Term.annots]
    exact hx.1
  constructor
  · exact fun h => simple_val _ x y (Nat.le_refl _) hx hy h.1
  · rintro rfl
    exact ⟨rfl, by simp [this]⟩

section
variable [Arith]

/-- Annotated unification of ground literals. -/
theorem ua_flat {f g : String} {as bs xs ys : List Term} (hl : (Term.lit f as xs).Ground) (hf : (Term.lit f as xs).Flat)
    (hr : (Term.lit g bs ys).Ground) :
    ∃ M, ∀ n, M ≤ n → ∀ b, ∃ y b', uaStart n (.lit f as xs) (.lit g bs ys) b = .ok y b' ∧
      (y.isSome = true ↔ Covers (.lit f as xs) (.lit g bs ys)) ∧ b'.scope = b.scope := by
  obtain ⟨N, hN⟩ := unify_says _ (.lit f as xs) (.lit g bs ys) rfl hl.closed hr.closed
  obtain ⟨M, hM⟩ := ua_ground_all (xs := xs) (ys := ys) (fun x hx => ⟨(hl.args.2 x hx).closed, hf.1 x hx⟩)
    (fun y hy => (hr.args.2 y hy).closed)
  refine ⟨N + M + 2, fun n hn b => ?_⟩
  obtain ⟨k, rfl⟩ : ∃ k, n = k + 2 := ⟨n - 2, by omega⟩
  have hl' : litUnify (k + 1) (unify (k + 1)) f as xs (.lit g bs ys) b.mark =
      .ok (decide ((Term.lit f as xs).val = (Term.lit g bs ys).val)) b.mark := by
    have := hN (k + 2) (by omega) b.mark
    simp only at this
    rw [← this, unify]; simp [Term.isObj, methUnify]
  have ht := ua_trail (k + 2) (.lit f as xs) (.lit g bs ys) b
  rw [uaLit_lit, hl'] at *
  by_cases hv : (Term.lit f as xs).val = (Term.lit g bs ys).val
  · simp only [hv, decide_true, Res.bind_ok, if_true] at ht ⊢
    obtain ⟨a, b₃, hs, h3, i⟩ := matchAnnots_ground (n := k + 1) xs ys (hM (k + 1) (by omega)) hf.2 b.mark
    rw [h3] at ht ⊢
    cases a with
    | true => exact ⟨some b.ncp, b₃, rfl, by simpa [Covers, hv, Term.annots] using i, hs⟩
    | false =>
      refine ⟨none, _, rfl, by simpa [Covers, hv, Term.annots] using i, ?_⟩
      exact (ht.none _ rfl).scope
  · simp only [hv, decide_false, Res.bind_ok, Bool.false_eq_true, if_false] at ht ⊢
    exact ⟨none, _, rfl, by simp [Covers, hv], (ht.none _ rfl).scope⟩

theorem ua_flat_all {t : Term} (ht : ∃ f as xs, t = .lit f as xs) (hl : t.Ground) (hf : t.Flat) :
    ∀ {rs : List Term}, (∀ r ∈ rs, r.Ground ∧ ∃ f as xs, r = .lit f as xs) →
    ∃ M, ∀ n, M ≤ n → ∀ r ∈ rs, ∀ b, ∃ y b', uaStart n t r b = .ok y b' ∧
      (y.isSome = true ↔ Covers t r) ∧ b'.scope = b.scope
  | [], _ => ⟨0, by simp⟩
  | r :: rs, h => by
    obtain ⟨M, hM⟩ := ua_flat_all ht hl hf (rs := rs) fun r hr => h r (by simp [hr])
    obtain ⟨f, as, xs, rfl⟩ := ht
    obtain ⟨hr, g, bs, ys, rfl⟩ := h r (by simp)
    obtain ⟨K, hK⟩ := ua_flat hl hf hr
    refine ⟨M + K, fun n hn z hz => ?_⟩
    rcases List.mem_cons.1 hz with rfl | hz
    · exact hK n (by omega)
    · exact hM n (by omega) z hz

theorem matches_flat {t x : Term} (ht : ∃ f as xs, t = .lit f as xs) (hl : t.Ground) (hf : t.Flat)
    (hx : x.Ground ∧ ∃ f as xs, x = .lit f as xs) {sc sc' : Scope} (h : Matches t x sc sc') : Covers t x ∧ sc' = sc := by
  obtain ⟨n, b, d, b', h1, h2, h3⟩ := h
  obtain ⟨M, hM⟩ := ua_flat_all ht hl hf (rs := [x]) (by simpa using hx)
  obtain ⟨y, b₁, e, i1, i2⟩ := hM (n + M) (by omega) x (by simp) b
  have := Res.mono (f := fun n => uaStart n t x b) (fun n => uaStart_succ n t x b) (n := n) (m := n + M) (by omega)
    (by simp [h2])
  simp only [h2, e, Res.ok.injEq] at this
  obtain ⟨rfl, rfl⟩ := this
  exact ⟨i1.1 rfl, by rw [← h3, i2, h1]⟩

theorem noMatch_flat {t x : Term} (ht : ∃ f as xs, t = .lit f as xs) (hl : t.Ground) (hf : t.Flat)
    (hx : x.Ground ∧ ∃ f as xs, x = .lit f as xs) {sc : Scope} (h : NoMatch t x sc) : ¬ Covers t x := by
  obtain ⟨n, b, b', h1, h2⟩ := h
  obtain ⟨M, hM⟩ := ua_flat_all ht hl hf (rs := [x]) (by simpa using hx)
  obtain ⟨y, b₁, e, i1, i2⟩ := hM (n + M) (by omega) x (by simp) b
  have := Res.mono (f := fun n => uaStart n t x b) (fun n => uaStart_succ n t x b) (n := n) (m := n + M) (by omega)
    (by simp [h2])
  simp only [h2, e, Res.ok.injEq] at this
  obtain ⟨rfl, rfl⟩ := this
  exact fun hc => by simpa using i1.2 hc

end

section
variable [Host]

/-- What `findBelief` does; `b₀` is the state before the choicepoint was created. -/
theorem findBelief_spec {n c : Nat} {t : Term} {b₀ : BSt} : ∀ {xs : List Term} {s s' : QSt World} {o : Option (List Term)},
    b₀.ncp ≤ c → c < s.b.ncp → Same b₀ s.b → findBelief n c t xs s = .ok o s' → s'.nv = s.nv ∧ s'.w = s.w ∧
      match o with
      | none => Same b₀ s'.b ∧ ∀ x ∈ xs, NoMatch t x b₀.scope
      | some keep => Above b₀ s'.b ∧ ∃ pre x post, xs = pre ++ x :: post ∧ keep = pre ++ post ∧
          (∀ y ∈ pre, NoMatch t y b₀.scope) ∧ Matches t x b₀.scope s'.b.scope
  | [], s, s', o, _, _, hb, h => by
    simp [findBelief] at h
    obtain ⟨rfl, rfl⟩ := h
    simp [hb]
  | x :: xs, s, s', o, h0, hc, hb, h => by
    rw [findBelief, Res.bind_eq_ok] at h
    obtain ⟨ok, s₁, h1, h⟩ := h
    obtain ⟨hu, hs⟩ := QSt.onB_w h1
    rw [unifiesAnnotated, Res.bind_eq_ok] at hu
    obtain ⟨y, b₁, hu, he⟩ := hu
    simp only [Res.ok.injEq] at he
    obtain ⟨rfl, hb₁⟩ := he
    have ht := ua_trail n t x (s.b.pushCp c)
    simp only at hu
    rw [hu] at ht
    have hw : s₁.w = s.w ∧ s₁.nv = s.nv := by rw [hs]; simp
    subst hb₁
    have hsc : (s.b.pushCp c).scope = b₀.scope := hb.scope
    cases y with
    | some d =>
      simp at h
      obtain ⟨rfl, rfl⟩ := h
      exact ⟨hw.2, hw.1, (above_push hc h0 hb.above).trans (ht.some d _ rfl).2.1, [], x, xs, rfl, rfl, by simp, n, _, d, _,
        hsc, hu, rfl⟩
    | none =>
      simp only [Option.isSome_none, Bool.false_eq_true, if_false, Res.bind_eq_ok] at h
      obtain ⟨o', s₂, h2, h⟩ := h
      simp only [Res.ok.injEq] at h
      obtain ⟨rfl, rfl⟩ := h
      have hr := reroll_push hc (ht.none _ rfl).above
      obtain ⟨i1, i2, i3⟩ := findBelief_spec (s := { s₁ with b := reroll s₁.b c }) h0 (Nat.lt_of_lt_of_le hc hr.2)
        (hb.trans hr) h2
      refine ⟨i1.trans hw.2, i2.trans hw.1, ?_⟩
      have hx : NoMatch t x b₀.scope := ⟨n, _, _, hsc, hu⟩
      cases o' with
      | none =>
        simp only [Option.map_none] at i3 ⊢
        exact ⟨i3.1, by simpa [hx] using i3.2⟩
      | some keep =>
        simp only [Option.map_some] at i3 ⊢
        obtain ⟨j1, pre, z, post, rfl, rfl, j2, j3⟩ := i3
        exact ⟨j1, x :: pre, z, post, rfl, rfl, by simpa [hx] using j2, j3⟩

/-- `removeBelief`, decomposed. -/
theorem removeBelief_ok {n a : Nat} {t : Term} {s s' : QSt World} {r : Bool} (h : removeBelief n a t s = .ok r s') :
    ∃ f as xs, evaluate n s.b.scope t = .ok (.lit f as xs) ∧ s'.nv = s.nv ∧
      match r with
      | false => s'.w = s.w ∧ Same s.b s'.b ∧ ∀ x ∈ s.w.beliefs a (f, as.length), NoMatch (.lit f as xs) x s.b.scope
      | true => Above s.b s'.b ∧ ∃ pre x post, s.w.beliefs a (f, as.length) = pre ++ x :: post ∧
          s'.w = s.w.setBeliefs a (f, as.length) (pre ++ post) ∧
          (∀ y ∈ pre, NoMatch (.lit f as xs) y s.b.scope) ∧ Matches (.lit f as xs) x s.b.scope s'.b.scope := by
  rw [removeBelief, Res.bind_eq_ok] at h
  obtain ⟨t', s₁, h1, h⟩ := h
  rw [Res.lift_eq_ok] at h1
  obtain ⟨h1, rfl⟩ := h1
  cases t' <;> simp only [reduceCtorEq] at h
  next f as xs =>
  rw [Res.bind_eq_ok] at h
  obtain ⟨o, s₂, h2, h⟩ := h
  refine ⟨f, as, xs, h1, ?_⟩
  obtain ⟨i1, i2, i3⟩ := findBelief_spec (s := { s with b := s.b.newCp.2 }) (b₀ := s.b) (Nat.le_refl _)
    (Nat.lt_succ_self s.b.ncp) ⟨rfl, Nat.le_succ s.b.ncp⟩ h2
  cases o with
  | none =>
    simp only [Res.ok.injEq] at h
    obtain ⟨rfl, rfl⟩ := h
    exact ⟨i1, i2, i3⟩
  | some keep =>
    simp only [Res.ok.injEq] at h
    obtain ⟨rfl, rfl⟩ := h
    obtain ⟨j1, pre, x, post, j2, rfl, j3, j4⟩ := i3
    exact ⟨i1, j1, pre, x, post, j2, by simp [i2], j3, j4⟩

/-- `addBelief`, decomposed. -/
theorem addBelief_ok {n a : Nat} {t : Term} {s s' : QSt World} (h : addBelief n a t s = .ok () s') :
    ∃ f as xs, grounded n s.b.scope t = .ok (.lit f as xs) ∧
      s' = { s with w := s.w.setBeliefs a (f, as.length) (pySetAdd (s.w.beliefs a (f, as.length)) (.lit f as xs)) } := by
  unfold addBelief at h
  split at h
  · cases h
  · cases h
  · cases h
  · cases h
  · rw [Res.bind_eq_ok] at h
    obtain ⟨t', s₁, h1, h⟩ := h
    rw [Res.lift_eq_ok] at h1
    obtain ⟨h1, rfl⟩ := h1
    cases t' <;> simp only [reduceCtorEq] at h
    next f as xs =>
    simp only [Res.ok.injEq, true_and] at h
    exact ⟨f, as, xs, h1, h.symm⟩

/-- Searching for a ground belief succeeds or fails, but does not raise. -/
theorem findBelief_total {n c : Nat} {t : Term} : ∀ {xs : List Term} (s : QSt World), c < s.b.ncp →
    (∀ x ∈ xs, ∀ b, ∃ y b', uaStart n t x b = .ok y b') → ∃ o s', findBelief n c t xs s = .ok o s'
  | [], s, _, _ => ⟨none, s, rfl⟩
  | x :: xs, s, hc, h => by
    obtain ⟨y, b', h1⟩ := h x (by simp) (s.b.pushCp c)
    have ht := ua_trail n t x (s.b.pushCp c)
    rw [h1] at ht
    cases y with
    | some d => exact ⟨some xs, { s with b := b' }, by simp [findBelief, QSt.onB, unifiesAnnotated, h1]⟩
    | none =>
      obtain ⟨o, s', h2⟩ := findBelief_total (n := n) (c := c) (t := t) (xs := xs) { s with b := reroll b' c }
        (Nat.lt_of_lt_of_le hc (reroll_push hc (ht.none _ rfl).above).2) fun x hx => h x (by simp [hx])
      exact ⟨o.map (x :: ·), s', by simp [findBelief, QSt.onB, unifiesAnnotated, h1, h2]⟩

theorem removeBelief_total {a : Nat} {f : String} {as xs : List Term} {s : QSt World} (hw : BeliefsOK s.w)
    (hg : (Term.lit f as xs).Ground) (hf : (Term.lit f as xs).Flat) :
    ∃ N, ∀ n, N ≤ n → ∃ r s', removeBelief n a (.lit f as xs) s = .ok r s' := by
  obtain ⟨M, hM⟩ := ua_flat_all (rs := s.w.beliefs a (f, as.length)) ⟨f, as, xs, rfl⟩ hg hf fun x hx => by
    obtain ⟨g, bs, ys, rfl, _⟩ := hw.lits hx
    exact ⟨hw.ground hx, _, _, _, rfl⟩
  refine ⟨M + 1, fun n hn => ?_⟩
  obtain ⟨k, rfl⟩ : ∃ k, n = k + 1 := ⟨n - 1, by omega⟩
  obtain ⟨o, s', h⟩ := findBelief_total (n := k + 1) (c := s.b.ncp) (t := .lit f as xs) (xs := s.w.beliefs a (f, as.length))
    { s with b := s.b.newCp.2 } (Nat.lt_succ_self s.b.ncp) fun x hx b => by
      obtain ⟨y, b', e, _⟩ := hM (k + 1) (by omega) x hx b
      exact ⟨y, b', e⟩
  cases o with
  | none => exact ⟨false, s', by simp [removeBelief, evaluate, h]⟩
  | some keep => exact ⟨true, _, by simp [removeBelief, evaluate, h]; rfl⟩

/-- A ground query is answered by the belief base if a belief covers it. -/
theorem belHead_yields {t : Term} {grp : String × Nat} {size M : Nat} : ∀ {rest : List Term} (n : Nat) (s : QSt World),
    (QWorld.beliefs s.w grp).length = size → M + rest.length + 1 ≤ n →
    (∀ k, M ≤ k → ∀ x ∈ rest, ∀ b, ∃ y b', uaStart k t x b = .ok y b' ∧ (y.isSome = true ↔ Covers t x) ∧ b'.scope = b.scope) →
    (∃ x ∈ rest, Covers t x) → ∃ g s', gnext n (.belHead grp t rest size : Gen Act ActGen) s = .ok (some g) s' ∧
      s'.b.scope = s.b.scope ∧ s'.w = s.w ∧ s'.nv = s.nv
  | [], _, _, _, _, _, h => by simp at h
  | x :: rest, 0, s, _, hn, _, _ => by omega
  | x :: rest, n + 1, s, hs, hn, hu, h => by
    obtain ⟨y, b', h1, i1, i2⟩ := hu n (by simp at hn; omega) x (by simp) s.b
    rw [gnext, gstep]
    simp only [hs, ne_eq, not_true_eq_false, if_false, QSt.onB, h1]
    cases y with
    | some c => exact ⟨_, _, rfl, i2, rfl, rfl⟩
    | none =>
      have hx : ¬ Covers t x := fun hc => by simpa using i1.2 hc
      obtain ⟨g, s', h2, j1, j2⟩ := belHead_yields (t := t) (grp := grp) (size := size) (M := M) (rest := rest) n
        { s with b := b' } hs (by simp at hn; omega) (fun k hk x hx => hu k hk x (by simp [hx]))
        (by obtain ⟨z, hz, hc⟩ := h
            rcases List.mem_cons.1 hz with rfl | hz
            · exact absurd hc hx
            · exact ⟨z, hz, hc⟩)
      exact ⟨g, s', h2, j1.trans i2, j2⟩

theorem query_covered {t : Term} {s : QSt World} (hw : BeliefsOK s.w) (hg : t.Ground) (hf : t.Flat) {f : String}
    {as xs : List Term} (ht : t = .lit f as xs) (h : ∃ x ∈ s.w.beliefs s.w.cur (f, as.length), Covers t x) :
    ∃ N, ∀ n, N ≤ n → ∃ g s', gnext n (.start (.term t) : Gen Act ActGen) s = .ok (some g) s' ∧
      s'.b.scope = s.b.scope ∧ s'.w = s.w ∧ s'.nv = s.nv := by
  obtain ⟨M, hM⟩ := ua_flat_all (rs := s.w.beliefs s.w.cur (f, as.length)) ⟨f, as, xs, ht⟩ hg hf fun x hx => by
    obtain ⟨g, bs, ys, rfl, _⟩ := hw.lits hx
    exact ⟨hw.ground hx, _, _, _, rfl⟩
  refine ⟨M + (s.w.beliefs s.w.cur (f, as.length)).length + 3, fun n hn => ?_⟩
  obtain ⟨k, rfl⟩ : ∃ k, n = k + 2 := ⟨n - 2, by omega⟩
  subst ht
  rw [gnext, gstep]
  simp only [evaluate, Res.lift_ok, Res.bind_ok]
  exact belHead_yields (M := M) (k + 1) s rfl (by simp only [QWorld.beliefs]; omega) (fun n hn x hx b => hM n hn x hx b) h

/-! ## Replacement patterns -/

omit [Host] in
theorem bindVar_closed {x : VarId} {r : Term} {b : BSt} (hr : r.Closed) (hx : b.scope x = none) :
    bindVar x r b = .ok () { b with scope := b.scope.set x r, stack := .v x :: b.stack } := by
  unfold bindVar
  split
  · simp at hr
  · simp [hx]

theorem unify_open_var {n : Nat} {x : VarId} {r : Term} {b : BSt} (hr : r.Closed) (hx : b.scope x = none) :
    unify (n + 2) (.var x) r b = .ok true { b with scope := b.scope.set x r, stack := .v x :: b.stack } := by
  have e : evaluate (n + 1) b.scope r = .ok r := by cases r <;> simp at hr <;> simp [evaluate]
  rw [unify]
  simp only [Term.isObj, if_true, methUnify, varUnify, hx]
  have h : (Res.lift (evaluate (n + 1) b.scope r) b).bind (fun t b => (bindVar x t b).bind fun _ b => Res.ok true b) =
      .ok true { b with scope := b.scope.set x r, stack := .v x :: b.stack } := by
    rw [e]; simp [bindVar_closed hr hx]
  exact Eq.trans (by cases r <;> first | rfl | simp at hr) h

theorem unifyAll_open {n k : Nat} : ∀ {as bs : List Term} {b : BSt}, OpenArgs as → (∀ t ∈ bs, t.Closed) →
    (∀ x, .var x ∈ as → b.scope (k + x) = none) →
    ∃ b', unifyAll (unify (n + 2)) (Term.replacePatternL k as) bs b = .ok true b'
  | [], _, b, _, _, _ => ⟨b, by simp [Term.replacePatternL, unifyAll]⟩
  | a :: as, [], b, _, _, _ => ⟨b, by simp [Term.replacePatternL, unifyAll]⟩
  | a :: as, r :: rs, b, ho, hr, hb => by
    have wild : OpenArgs as → a.replacePattern k = .wild →
        ∃ b', unifyAll (unify (n + 2)) (Term.replacePatternL k (a :: as)) (r :: rs) b = .ok true b' := by
      intro ho ha
      obtain ⟨b', h⟩ := unifyAll_open (n := n) (k := k) (as := as) (bs := rs) (b := b) ho (fun t ht => hr t (by simp [ht]))
        fun x hx => hb x (by simp [hx])
      have hu : unify (n + 2) .wild r b = .ok true b := by rw [unify]; simp [Term.isObj, methUnify]
      exact ⟨b', by simp [Term.replacePatternL, unifyAll, ha, hu, h]⟩
    cases a with
    | var x =>
      rw [OpenArgs] at ho
      obtain ⟨b', h⟩ := unifyAll_open (n := n) (k := k) (as := as) (bs := rs)
        (b := { b with scope := b.scope.set (k + x) r, stack := .v (k + x) :: b.stack }) ho.2 (fun t ht => hr t (by simp [ht]))
        fun y hy => by
          have : y ≠ x := by rintro rfl; exact ho.1 hy
          have h2 := hb y (by simp [hy])
          simp [Scope.set, this, h2]
      exact ⟨b', by simp [Term.replacePatternL, unifyAll, Term.replacePattern,
        unify_open_var (hr r (by simp)) (hb x (by simp)), h]⟩
    | wild => exact wild (by simpa [OpenArgs] using ho) (by simp [Term.replacePattern])
    | un o t => exact wild (by simpa [OpenArgs] using ho) (by simp [Term.replacePattern])
    | bin o l r => exact wild (by simpa [OpenArgs] using ho) (by simp [Term.replacePattern])
    | _ => simp [OpenArgs] at ho

omit [Host] in
theorem replacePatternL_length {k : Nat} : ∀ {as : List Term}, (Term.replacePatternL k as).length = as.length
  | [] => rfl
  | a :: as => by simp [Term.replacePatternL, replacePatternL_length (as := as)]

/-- The pattern of `-+b` removes the first belief of the predicate. -/
theorem removeBelief_open {n a k : Nat} {f : String} {as : List Term} {s : QSt World} (hw : BeliefsOK s.w) (ho : OpenArgs as)
    (hb : ∀ x, .var x ∈ as → s.b.scope (k + x) = none) :
    ∃ r s', removeBelief (n + 4) a ((Term.lit f as []).replacePattern k) s = .ok r s' ∧ s'.nv = s.nv ∧
      s'.w = (match s.w.beliefs a (f, as.length) with
        | [] => s.w
        | _ :: rest => s.w.setBeliefs a (f, as.length) rest) := by
  simp only [Term.replacePattern, Term.replacePatternL, removeBelief, evaluate, Res.lift_ok, Res.bind_ok, replacePatternL_length]
  cases hl : s.w.beliefs a (f, as.length) with
  | nil => exact ⟨false, _, rfl, rfl, rfl⟩
  | cons x rest =>
    obtain ⟨g, bs, ys, rfl, hg⟩ := hw.lits (a := a) (g := (f, as.length)) (x := x) (by simp [hl])
    have hcl := (hw.ground (a := a) (g := (f, as.length)) (x := .lit g bs ys) (by simp [hl])).args.1
    simp only [Prod.mk.injEq] at hg
    obtain ⟨rfl, hg⟩ := hg
    obtain ⟨b', h⟩ := unifyAll_open (n := n) (k := k) (as := as) (bs := bs)
      (b := (s.b.newCp.2.pushCp s.b.ncp).mark) ho (fun t ht => (hcl t ht).closed) hb
    refine ⟨true, { s with b := b', w := s.w.setBeliefs a (f, as.length) rest }, ?_, rfl, rfl⟩
    have hu : uaStart (n + 4) (.lit f (Term.replacePatternL k as) []) (.lit f bs ys) ((s.b.newCp.2).pushCp s.b.ncp) =
        .ok (some (s.b.ncp + 1)) b' := by
      rw [show n + 4 = (n + 2) + 2 from rfl, uaLit_lit]
      simp only [litUnify, evaluate, Res.lift_ok, Res.bind_ok, ne_eq, not_true_eq_false, if_false, replacePatternL_length,
        hg, BSt.mark, BSt.newCp, BSt.pushCp, matchAnnots] at h ⊢
      rw [show unifyAll (unify (n + 2 + 1)) (Term.replacePatternL k as) bs _ = _ from
        (Res.le.eq (unifyAll_le (unify_succ (n + 2)) _ _ _) (by rw [h]; simp)).trans h]
      rfl
    simp only [findBelief, QSt.onB, unifiesAnnotated, hu, Res.bind_ok, Option.isSome_some, if_true]

end

end Verif
