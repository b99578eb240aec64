import Verif.Lemmas.Terminate

/-! Unification of ground terms. -/

namespace Verif

theorem valL_some_of {ts : List Term} (h : ∀ t ∈ ts, ∃ v, t.val = some v) : ∃ w, Term.valL ts = some w := by
  induction ts with
  | nil => exact ⟨.nil, rfl⟩
  | cons t ts ih =>
    obtain ⟨v, hv⟩ := h t (by simp)
    obtain ⟨w, hw⟩ := ih fun t ht => h t (by simp [ht])
    exact ⟨.cons v w, by simp [Term.valL, hv, hw]⟩

theorem val_some : ∀ t : Term, t.Closed → ∃ v, t.val = some v := by
  intro t
  induction t using Term.ind with
  | lit f as xs ih _ =>
    intro h; simp at h
    obtain ⟨w, hw⟩ := valL_some_of fun t ht => ih t ht (h t ht)
    exact ⟨.app f w, by simp [Term.val, hw]⟩
  | tup xs ih =>
    intro h; simp at h
    exact valL_some_of fun t ht => ih t ht (h t ht)
  | cons h t i1 i2 =>
    intro hc; simp at hc
    obtain ⟨a, ha⟩ := i1 hc.1
    obtain ⟨w, hw⟩ := i2 hc.2
    exact ⟨.cons a w, by simp [Term.val, ha, hw]⟩
  | var => simp
  | wild => simp
  | un => simp
  | bin => simp
  | _ => exact fun _ => ⟨_, rfl⟩

theorem valL_some {ts : List Term} (h : ∀ t ∈ ts, t.Closed) : ∃ w, Term.valL ts = some w :=
  valL_some_of fun t ht => val_some t (h t ht)

theorem valL_isL : ∀ {ts : List Term} {w : Val}, Term.valL ts = some w → w.IsL
  | [], w, h => by simp [Term.valL] at h; subst h; trivial
  | t :: ts, w, h => by
    simp [Term.valL, Option.bind_eq_some_iff] at h
    obtain ⟨a, _, w', _, rfl⟩ := h
    trivial

theorem valL_len : ∀ {ts : List Term} {w : Val}, Term.valL ts = some w → w.len = ts.length
  | [], w, h => by simp [Term.valL] at h; subst h; rfl
  | t :: ts, w, h => by
    simp [Term.valL, Option.bind_eq_some_iff] at h
    obtain ⟨a, _, w', hw', rfl⟩ := h
    simp [Val.len, valL_len hw']

variable [Arith]

/-- For large fuel, `f` answers `a` and leaves every state alone. -/
def Says (f : Nat → BSt → Res BSt Bool) (a : Bool) : Prop := ∃ N, ∀ n, N ≤ n → ∀ b, f n b = .ok a b

omit [Arith] in
theorem Says.congr {f g : Nat → BSt → Res BSt Bool} {a : Bool} (h : Says g a) (N : Nat)
    (hf : ∀ n, N ≤ n → ∀ b, f (n + 1) b = g n b) : Says f a := by
  obtain ⟨M, h⟩ := h
  refine ⟨M + N + 1, fun n hn b => ?_⟩
  obtain ⟨k, rfl⟩ : ∃ k, n = k + 1 := ⟨n - 1, by omega⟩
  rw [hf k (by omega), h k (by omega)]

omit [Arith] in
theorem Says.and {f g : Nat → BSt → Res BSt Bool} {a a' : Bool} (h : Says f a) (h' : Says g a') :
    Says (fun n b => (f n b).bind fun ok b => if ok then g n b else .ok false b) (a && a') := by
  obtain ⟨N, h⟩ := h
  obtain ⟨M, h'⟩ := h'
  refine ⟨N + M, fun n hn b => ?_⟩
  simp only [h n (by omega : N ≤ n)]
  cases a
  · simp
  · simp [h' n (by omega)]

omit [Arith] in
theorem Says.ret (a : Bool) : Says (fun _ b => .ok a b) a := ⟨0, fun _ _ _ => rfl⟩

theorem unifyAll_says {k : Nat}
    (ih : ∀ l r : Term, l.size + r.size < k → l.Closed → r.Closed →
      Says (fun n b => unify n l r b) (decide (l.val = r.val))) :
    ∀ ls rs : List Term, Term.sizeL ls + Term.sizeL rs < k → (∀ l ∈ ls, l.Closed) → (∀ r ∈ rs, r.Closed) →
      ls.length = rs.length →
      Says (fun n b => unifyAll (unify n) ls rs b) (decide (Term.valL ls = Term.valL rs))
  | [], [], _, _, _, _ => by simpa [unifyAll] using Says.ret true
  | [], _ :: _, _, _, _, h => by simp at h
  | _ :: _, [], _, _, _, h => by simp at h
  | l :: ls, r :: rs, hk, hl, hr, hlen => by
    simp [Term.sizeL] at hk
    have h1 := ih l r (by omega) (hl l (by simp)) (hr r (by simp))
    have h2 := unifyAll_says ih ls rs (by omega) (fun l h => hl l (by simp [h])) (fun r h => hr r (by simp [h]))
      (by simpa using hlen)
    have := h1.and h2
    obtain ⟨a, ha⟩ := val_some l (hl l (by simp))
    obtain ⟨a', ha'⟩ := val_some r (hr r (by simp))
    obtain ⟨w, hw⟩ := valL_some (ts := ls) (fun l h => hl l (by simp [h]))
    obtain ⟨w', hw'⟩ := valL_some (ts := rs) (fun r h => hr r (by simp [h]))
    simpa only [unifyAll, Term.valL, ha, ha', hw, hw', Option.bind_some, Option.map_some, Option.some.injEq,
      Val.cons.injEq, Bool.decide_and] using this

theorem cons_says {k : Nat}
    (ih : ∀ l r : Term, l.size + r.size < k → l.Closed → r.Closed →
      Says (fun n b => unify n l r b) (decide (l.val = r.val))) {h t r : Term}
    (hk : (Term.cons h t).size + r.size ≤ k) (hl : (Term.cons h t).Closed) (hr : r.Closed) :
    Says (fun n b => consUnify n (unify n) h t r b) (decide ((Term.cons h t).val = r.val)) := by
  have hev : ∀ n, 1 ≤ n → ∀ sc, evaluate n sc r = .ok r := by
    intro n hn sc
    obtain ⟨k, rfl⟩ : ∃ k, n = k + 1 := ⟨n - 1, by omega⟩
    refine evaluate_whnf ?_ k
    cases r <;> simp [Whnf] at hr ⊢
  simp at hl
  obtain ⟨a, ha⟩ := val_some h hl.1
  obtain ⟨w, hw⟩ := val_some t hl.2
  have go : ∀ {g : Nat → BSt → Res BSt Bool} {d : Bool}, Says g d →
      (∀ n, 1 ≤ n → ∀ b, consUnify n (unify n) h t r b = g n b) → Says (fun n b => consUnify n (unify n) h t r b) d := by
    intro g d ⟨N, hN⟩ hg
    exact ⟨N + 1, fun n hn b => (hg n (by omega) b).trans (hN n (by omega) b)⟩
  cases r with
  | tup xs =>
    cases xs with
    | nil =>
      simpa [Term.val, Term.valL, ha, hw] using
        go (Says.ret false) fun n hn b => by simp [consUnify, hev n hn]
    | cons x xs =>
      simp at hr
      simp [Term.size, Term.sizeL] at hk
      have h1 := ih h x (by omega) hl.1 hr.1
      have h2 := ih t (.tup xs) (by simp [Term.size]; omega) hl.2 (by simpa using hr.2)
      obtain ⟨a', ha'⟩ := val_some x hr.1
      obtain ⟨w', hw'⟩ := valL_some hr.2
      have := go (h1.and h2) fun n hn b => by simp only [consUnify, hev n hn, Res.lift_ok, Res.bind_ok]
      simpa only [Term.val, Term.valL, ha, ha', hw, hw', Option.bind_some, Option.map_some, Option.some.injEq,
        Val.cons.injEq, Bool.decide_and] using this
  | cons h' t' =>
    simp at hr
    simp [Term.size] at hk
    have h1 := ih h h' (by omega) hl.1 hr.1
    have h2 := ih t t' (by omega) hl.2 hr.2
    obtain ⟨a', ha'⟩ := val_some h' hr.1
    obtain ⟨w', hw'⟩ := val_some t' hr.2
    have := go (h1.and h2) fun n hn b => by simp only [consUnify, hev n hn, Res.lift_ok, Res.bind_ok]
    simpa only [Term.val, Term.valL, ha, ha', hw, hw', Option.bind_some, Option.map_some, Option.some.injEq,
      Val.cons.injEq, Bool.decide_and] using this
  | lit g bs ys =>
    simp at hr
    obtain ⟨w', hw'⟩ := valL_some hr
    simpa [Term.val, ha, hw, hw'] using go (Says.ret false) fun n hn b => by simp [consUnify, hev n hn]
  | var => simp at hr
  | wild => simp at hr
  | un => simp at hr
  | bin => simp at hr
  | _ => simpa [Term.val, ha, hw] using go (Says.ret false) fun n hn b => by simp [consUnify, hev n hn]

theorem lit_says {k : Nat}
    (ih : ∀ l r : Term, l.size + r.size < k → l.Closed → r.Closed →
      Says (fun n b => unify n l r b) (decide (l.val = r.val))) {f : String} {as xs : List Term} {r : Term}
    (hk : (Term.lit f as xs).size + r.size ≤ k) (hl : (Term.lit f as xs).Closed) (hr : r.Closed) :
    Says (fun n b => litUnify n (unify n) f as xs r b) (decide ((Term.lit f as xs).val = r.val)) := by
  have hev : ∀ n, 1 ≤ n → ∀ sc, evaluate n sc r = .ok r := by
    intro n hn sc
    obtain ⟨k, rfl⟩ : ∃ k, n = k + 1 := ⟨n - 1, by omega⟩
    refine evaluate_whnf ?_ k
    cases r <;> simp [Whnf] at hr ⊢
  simp at hl
  obtain ⟨w, hw⟩ := valL_some hl
  have go : ∀ {g : Nat → BSt → Res BSt Bool} {d : Bool}, Says g d →
      (∀ n, 1 ≤ n → ∀ b, litUnify n (unify n) f as xs r b = g n b) →
      Says (fun n b => litUnify n (unify n) f as xs r b) d := by
    intro g d ⟨N, hN⟩ hg
    exact ⟨N + 1, fun n hn b => (hg n (by omega) b).trans (hN n (by omega) b)⟩
  cases r with
  | lit g bs ys =>
    simp at hr
    obtain ⟨w', hw'⟩ := valL_some hr
    by_cases h1 : f = g
    · by_cases h2 : as.length = bs.length
      · simp [Term.size] at hk
        have := go (unifyAll_says ih as bs (by omega) hl hr h2) fun n hn b => by
          simp [litUnify, hev n hn, h1, h2]
        simpa [Term.val, hw, hw', h1] using this
      · have hne : w ≠ w' := fun e => h2 (by rw [← valL_len hw, ← valL_len hw', e])
        simpa [Term.val, hw, hw', hne] using go (Says.ret false) fun n hn b => by
          simp [litUnify, hev n hn, h1, h2]
    · simpa [Term.val, hw, hw', h1] using go (Says.ret false) fun n hn b => by simp [litUnify, hev n hn, h1]
  | tup xs =>
    simp at hr
    obtain ⟨w', hw'⟩ := valL_some hr
    have hne : Val.app f w ≠ w' := fun e => by have := valL_isL hw'; rw [← e] at this; simp [Val.IsL] at this
    simpa [Term.val, hw, hw', hne] using go (Says.ret false) fun n hn b => by simp [litUnify, hev n hn]
  | cons h' t' =>
    simp at hr
    obtain ⟨a', ha'⟩ := val_some h' hr.1
    obtain ⟨w', hw'⟩ := val_some t' hr.2
    simpa [Term.val, hw, ha', hw'] using go (Says.ret false) fun n hn b => by simp [litUnify, hev n hn]
  | var => simp at hr
  | wild => simp at hr
  | un => simp at hr
  | bin => simp at hr
  | _ => simpa [Term.val, hw] using go (Says.ret false) fun n hn b => by simp [litUnify, hev n hn]

theorem unify_says : ∀ (k : Nat) (l r : Term), l.size + r.size = k → l.Closed → r.Closed →
    Says (fun n b => unify n l r b) (decide (l.val = r.val)) := by
  intro k
  induction k using Nat.strongRecOn with
  | ind k ih =>
    intro l r hk hl hr
    have ih' : ∀ l r : Term, l.size + r.size < k → l.Closed → r.Closed →
      Says (fun n b => unify n l r b) (decide (l.val = r.val)) := fun l r h => ih _ h l r rfl
    have sym : ∀ {f : Nat → BSt → Res BSt Bool}, Says f (decide (r.val = l.val)) → Says f (decide (l.val = r.val)) := by
      intro f h
      have e : decide (r.val = l.val) = decide (l.val = r.val) := decide_eq_decide.2 eq_comm
      rwa [e] at h
    cases l with
    | lit f as xs =>
      exact (lit_says ih' (by omega) hl hr).congr 0 fun n _ b => by simp [unify, Term.isObj, methUnify]
    | cons h t =>
      exact (cons_says ih' (by omega) hl hr).congr 0 fun n _ b => by simp [unify, Term.isObj, methUnify]
    | var => simp at hl
    | wild => simp at hl
    | un => simp at hl
    | bin => simp at hl
    | tup ls =>
      cases r with
      | lit f as xs =>
        exact sym ((lit_says ih' (by omega) hr hl).congr 0 fun n _ b => by simp [unify, Term.isObj, methUnify])
      | cons h t =>
        exact sym ((cons_says ih' (by omega) hr hl).congr 0 fun n _ b => by simp [unify, Term.isObj, methUnify])
      | var => simp at hr
      | wild => simp at hr
      | un => simp at hr
      | bin => simp at hr
      | tup rs =>
        simp at hl hr
        by_cases h : ls.length = rs.length
        · simp [Term.size] at hk
          exact (unifyAll_says ih' ls rs (by omega) hl hr h).congr 0 fun n _ b => by
            simp [unify, Term.isObj, plainUnify, h]
        · obtain ⟨w, hw⟩ := valL_some hl
          obtain ⟨w', hw'⟩ := valL_some hr
          have hne : w ≠ w' := fun e => h (by rw [← valL_len hw, ← valL_len hw', e])
          simpa [Term.val, hw, hw', hne] using (Says.ret false).congr (f := fun n b => unify n (.tup ls) (.tup rs) b) 0
            fun n _ b => by simp [unify, Term.isObj, plainUnify, h]
      | _ =>
        simp at hl
        obtain ⟨w, hw⟩ := valL_some hl
        have hi := valL_isL hw
        refine (Says.ret _).congr 0 fun n _ b => ?_
        simp [unify, Term.isObj, plainUnify, Term.val, hw]
        intro e; subst e; simp [Val.IsL] at hi
    | _ =>
      cases r with
      | lit f as xs =>
        exact sym ((lit_says ih' (by omega) hr hl).congr 0 fun n _ b => by simp [unify, Term.isObj, methUnify])
      | cons h t =>
        exact sym ((cons_says ih' (by omega) hr hl).congr 0 fun n _ b => by simp [unify, Term.isObj, methUnify])
      | var => simp at hr
      | wild => simp at hr
      | un => simp at hr
      | bin => simp at hr
      | tup rs =>
        simp at hr
        obtain ⟨w, hw⟩ := valL_some hr
        have hi := valL_isL hw
        refine (Says.ret _).congr 0 fun n _ b => ?_
        simp [unify, Term.isObj, plainUnify, Term.val, hw]
        intro e; subst e; simp [Val.IsL] at hi
      | _ =>
        refine (Says.ret _).congr 0 fun n _ b => ?_
        simp [unify, Term.isObj, plainUnify, Term.val]

end Verif
