import Verif.Spec.Ground
import Verif.Lemmas.Fuel
import Verif.Lemmas.Eval

/-! `grounded`, `is_ground` and `freeze`. -/

namespace Verif

theorem Term.allL_iff {p : Term → Prop} {ts : List Term} :
    Term.AllL p ts ↔ ∀ t ∈ ts, Term.All p t := by
  induction ts with
  | nil => simp [Term.AllL]
  | cons t ts ih => simp [Term.AllL, ih]

section simps
@[simp] theorem Term.ground_bool {b} : (Term.bool b).Ground := by simp [Term.Ground, Term.All]
@[simp] theorem Term.ground_num {b} : (Term.num b).Ground := by simp [Term.Ground, Term.All]
@[simp] theorem Term.ground_str {b} : (Term.str b).Ground := by simp [Term.Ground, Term.All]
@[simp] theorem Term.ground_var {b} : (Term.var b).Ground ↔ False := by simp [Term.Ground, Term.All]
@[simp] theorem Term.ground_wild : (Term.wild).Ground ↔ False := by simp [Term.Ground, Term.All]
@[simp] theorem Term.ground_lit {f as xs} :
    (Term.lit f as xs).Ground ↔ (∀ t ∈ as, t.Ground) ∧ ∀ t ∈ xs, t.Ground := by
  simp [Term.Ground, Term.All, Term.allL_iff]
@[simp] theorem Term.ground_tup {xs} : (Term.tup xs).Ground ↔ ∀ t ∈ xs, t.Ground := by
  simp [Term.Ground, Term.All, Term.allL_iff]
@[simp] theorem Term.ground_cons {h t} : (Term.cons h t).Ground ↔ h.Ground ∧ t.Ground := by
  simp [Term.Ground, Term.All]
@[simp] theorem Term.ground_un {o t} : (Term.un o t).Ground ↔ False := by simp [Term.Ground, Term.All]
@[simp] theorem Term.ground_bin {o l r} : (Term.bin o l r).Ground ↔ False := by simp [Term.Ground, Term.All]

@[simp] theorem Term.exprFree_lit {f as xs} :
    (Term.lit f as xs).ExprFree ↔ (∀ t ∈ as, t.ExprFree) ∧ ∀ t ∈ xs, t.ExprFree := by
  simp [Term.ExprFree, Term.All, Term.allL_iff]
@[simp] theorem Term.exprFree_tup {xs} : (Term.tup xs).ExprFree ↔ ∀ t ∈ xs, t.ExprFree := by
  simp [Term.ExprFree, Term.All, Term.allL_iff]
@[simp] theorem Term.exprFree_cons {h t} : (Term.cons h t).ExprFree ↔ h.ExprFree ∧ t.ExprFree := by
  simp [Term.ExprFree, Term.All]
@[simp] theorem Term.exprFree_un {o t} : (Term.un o t).ExprFree ↔ False := by simp [Term.ExprFree, Term.All]
@[simp] theorem Term.exprFree_bin {o l r} : (Term.bin o l r).ExprFree ↔ False := by simp [Term.ExprFree, Term.All]
@[simp] theorem Term.exprFree_var {x} : (Term.var x).ExprFree := by simp [Term.ExprFree, Term.All]
@[simp] theorem Term.exprFree_wild : (Term.wild).ExprFree := by simp [Term.ExprFree, Term.All]
@[simp] theorem Term.exprFree_bool {b} : (Term.bool b).ExprFree := by simp [Term.ExprFree, Term.All]
@[simp] theorem Term.exprFree_num {b} : (Term.num b).ExprFree := by simp [Term.ExprFree, Term.All]
@[simp] theorem Term.exprFree_str {b} : (Term.str b).ExprFree := by simp [Term.ExprFree, Term.All]

@[simp] theorem Term.varsIn_lit {p f as xs} :
    (Term.lit f as xs).VarsIn p ↔ (∀ t ∈ as, t.VarsIn p) ∧ ∀ t ∈ xs, t.VarsIn p := by
  simp [Term.VarsIn, Term.All, Term.allL_iff]
@[simp] theorem Term.varsIn_tup {p xs} : (Term.tup xs).VarsIn p ↔ ∀ t ∈ xs, t.VarsIn p := by
  simp [Term.VarsIn, Term.All, Term.allL_iff]
@[simp] theorem Term.varsIn_cons {p h t} : (Term.cons h t).VarsIn p ↔ h.VarsIn p ∧ t.VarsIn p := by
  simp [Term.VarsIn, Term.All]
@[simp] theorem Term.varsIn_un {p o t} : (Term.un o t).VarsIn p ↔ t.VarsIn p := by simp [Term.VarsIn, Term.All]
@[simp] theorem Term.varsIn_bin {p o l r} : (Term.bin o l r).VarsIn p ↔ l.VarsIn p ∧ r.VarsIn p := by
  simp [Term.VarsIn, Term.All]
@[simp] theorem Term.varsIn_var {p : VarId → Prop} {x} : (Term.var x).VarsIn p ↔ p x := by simp [Term.VarsIn, Term.All]
@[simp] theorem Term.varsIn_wild {p} : (Term.wild).VarsIn p := by simp [Term.VarsIn, Term.All]
@[simp] theorem Term.varsIn_bool {p b} : (Term.bool b).VarsIn p := by simp [Term.VarsIn, Term.All]
@[simp] theorem Term.varsIn_num {p b} : (Term.num b).VarsIn p := by simp [Term.VarsIn, Term.All]
@[simp] theorem Term.varsIn_str {p b} : (Term.str b).VarsIn p := by simp [Term.VarsIn, Term.All]
end simps

theorem Term.Ground.closed : ∀ {t : Term}, t.Ground → t.Closed := by
  intro t
  induction t using Term.ind with
  | lit f as xs ih _ => simp; exact fun h _ t ht => ih t ht (h t ht)
  | tup xs ih => simp; exact fun h t ht => ih t ht (h t ht)
  | cons h t i1 i2 => simp; exact fun h1 h2 => ⟨i1 h1, i2 h2⟩
  | _ => simp

theorem Term.Ground.exprFree : ∀ {t : Term}, t.Ground → t.ExprFree := by
  intro t
  induction t using Term.ind with
  | lit f as xs ih ih' => simp; exact fun h h' => ⟨fun t ht => ih t ht (h t ht), fun t ht => ih' t ht (h' t ht)⟩
  | tup xs ih => simp; exact fun h t ht => ih t ht (h t ht)
  | cons h t i1 i2 => simp; exact fun h1 h2 => ⟨i1 h1, i2 h2⟩
  | _ => simp

theorem Term.Ground.varsIn {p : VarId → Prop} : ∀ {t : Term}, t.Ground → t.VarsIn p := by
  intro t
  induction t using Term.ind with
  | lit f as xs ih ih' => simp; exact fun h h' => ⟨fun t ht => ih t ht (h t ht), fun t ht => ih' t ht (h' t ht)⟩
  | tup xs ih => simp; exact fun h t ht => ih t ht (h t ht)
  | cons h t i1 i2 => simp; exact fun h1 h2 => ⟨i1 h1, i2 h2⟩
  | _ => simp

theorem Term.VarsIn.imp {p q : VarId → Prop} (h : ∀ x, p x → q x) : ∀ {t : Term}, t.VarsIn p → t.VarsIn q := by
  intro t
  induction t using Term.ind with
  | lit f as xs ih ih' => simp; exact fun h h' => ⟨fun t ht => ih t ht (h t ht), fun t ht => ih' t ht (h' t ht)⟩
  | tup xs ih => simp; exact fun h t ht => ih t ht (h t ht)
  | cons h t i1 i2 => simp; exact fun h1 h2 => ⟨i1 h1, i2 h2⟩
  | var x => simpa using h x
  | un o t i => simpa using i
  | bin o l r i1 i2 => simp; exact fun h1 h2 => ⟨i1 h1, i2 h2⟩
  | _ => simp

/-! ## Sets -/

theorem pySet_sub : ∀ {xs : List Term} {t : Term}, t ∈ pySet xs → t ∈ xs
  | x :: xs, t, h => by
    simp only [pySet, List.mem_cons, List.mem_filter] at h
    rcases h with h | h
    · simp [h]
    · simp [pySet_sub h.1]

theorem pySet_pairwise : ∀ xs : List Term, (pySet xs).Pairwise fun x y => pyEqB x y = false
  | [] => .nil
  | x :: xs => by
    simp only [pySet]
    refine List.pairwise_cons.2 ⟨fun y hy => ?_, (pySet_pairwise xs).filter _⟩
    simpa using (List.mem_filter.1 hy).2

theorem pySet_of_pairwise : ∀ {xs : List Term}, xs.Pairwise (fun x y => pyEqB x y = false) → pySet xs = xs
  | [], _ => rfl
  | x :: xs, h => by
    rw [List.pairwise_cons] at h
    rw [pySet, pySet_of_pairwise h.2, List.filter_eq_self.2]
    intro y hy; simp [h.1 y hy]

theorem pySet_idem (xs : List Term) : pySet (pySet xs) = pySet xs := pySet_of_pairwise (pySet_pairwise xs)

/-! ## `is_ground` -/

/-- `is_ground(t, scope)` returns `True`. -/
def IsGround (sc : Scope) (t : Term) : Prop := ∃ n, isGround n sc t = .ok true

theorem isGround_mono {sc : Scope} {t : Term} {n m : Nat} {a : Bool} (h : isGround n sc t = .ok a) (hm : n ≤ m) :
    isGround m sc t = .ok a := by
  rw [← h]
  exact Ev.mono (f := fun n => isGround n sc t) (fun n => isGround_succ n sc t) hm (by simp [h])

theorem allL_ground {sc : Scope} : ∀ {ts : List Term}, (∀ t ∈ ts, IsGround sc t) →
    ∃ n, ∀ m, n ≤ m → Ev.allL (isGround m sc) ts = .ok true
  | [], _ => ⟨0, fun _ _ => rfl⟩
  | t :: ts, h => by
    obtain ⟨n, hn⟩ := h t (by simp)
    obtain ⟨k, hk⟩ := allL_ground (ts := ts) fun t ht => h t (by simp [ht])
    refine ⟨n + k, fun m hm => ?_⟩
    rw [Ev.allL, isGround_mono hn (by omega : n ≤ m)]
    simpa using hk m (by omega)

theorem IsGround.lit {sc : Scope} {f : String} {as xs : List Term} (h1 : ∀ t ∈ as, IsGround sc t)
    (h2 : ∀ t ∈ xs, IsGround sc t) : IsGround sc (.lit f as xs) := by
  obtain ⟨n, hn⟩ := allL_ground h1
  obtain ⟨k, hk⟩ := allL_ground h2
  exact ⟨n + k + 1, by rw [isGround]; simp [hn (n + k) (by omega), hk (n + k) (by omega)]⟩

theorem IsGround.tup {sc : Scope} {xs : List Term} (h1 : ∀ t ∈ xs, IsGround sc t) : IsGround sc (.tup xs) := by
  obtain ⟨n, hn⟩ := allL_ground h1
  exact ⟨n + 1, by rw [isGround]; simp [hn n (by omega)]⟩

theorem IsGround.cons {sc : Scope} {h t : Term} (h1 : IsGround sc h) (h2 : IsGround sc t) : IsGround sc (.cons h t) := by
  obtain ⟨n, hn⟩ := h1
  obtain ⟨k, hk⟩ := h2
  exact ⟨n + k + 1, by rw [isGround]; simp [isGround_mono hn (by omega : n ≤ n + k), isGround_mono hk (by omega : k ≤ n + k)]⟩

theorem IsGround.bin {sc : Scope} {o : BinOp} {h t : Term} (h1 : IsGround sc h) (h2 : IsGround sc t) :
    IsGround sc (.bin o h t) := by
  obtain ⟨n, hn⟩ := h1
  obtain ⟨k, hk⟩ := h2
  exact ⟨n + k + 1, by rw [isGround]; simp [isGround_mono hn (by omega : n ≤ n + k), isGround_mono hk (by omega : k ≤ n + k)]⟩

theorem IsGround.un {sc : Scope} {o : UnOp} {t : Term} (h1 : IsGround sc t) : IsGround sc (.un o t) := by
  obtain ⟨n, hn⟩ := h1
  exact ⟨n + 1, by rw [isGround]; exact hn⟩

theorem IsGround.var {sc : Scope} {x : VarId} {u t : Term} {n : Nat} (hx : sc x = some u)
    (hd : deref n sc (.var x) = .ok t) (h : IsGround sc t) : IsGround sc (.var x) := by
  obtain ⟨k, hk⟩ := h
  refine ⟨n + k + 1, ?_⟩
  rw [isGround]
  have : deref (n + k) sc (.var x) = .ok t := by
    rw [← hd]
    exact Ev.mono (f := fun n => deref n sc (.var x)) (fun n => deref_succ n sc _) (by omega) (by simp [hd])
  simp [hx, this, isGround_mono hk (by omega : k ≤ n + k)]

theorem isGround_plain {sc : Scope} {t : Term} (h : (∃ b, t = .bool b) ∨ ∃ q, t = .num q) : IsGround sc t := by
  rcases h with ⟨b, rfl⟩ | ⟨q, rfl⟩ <;> exact ⟨1, rfl⟩

theorem unFunc_operand {op : UnOp} {t t' : Term} (h : unFunc op t = .ok t') :
    (∃ b, t = .bool b) ∨ ∃ q, t = .num q := by
  unfold unFunc at h
  split at h
  all_goals first | (simp at h; done) | exact .inl ⟨_, rfl⟩ | exact .inr ⟨_, rfl⟩

variable [Arith]

theorem binFunc_operands {op : BinOp} {l r t' : Term} (h : binFunc op l r = .ok t') :
    ((∃ b, l = .bool b) ∨ ∃ q, l = .num q) ∧ ((∃ b, r = .bool b) ∨ ∃ q, r = .num q) := by
  unfold binFunc at h
  split at h
  · split at h <;> simp_all
  · split at h
    · split at h <;> simp_all
    · simp at h

theorem eval_grounded_isGround (sc : Scope) : ∀ (n : Nat),
    (∀ t t', evaluate n sc t = .ok t' → IsGround sc t' → IsGround sc t) ∧
    (∀ t g, grounded n sc t = .ok g → IsGround sc t)
  | 0 => ⟨fun t t' h => by simp [evaluate] at h, fun t g h => by simp [grounded] at h⟩
  | n + 1 => by
    obtain ⟨ihe, ihg⟩ := eval_grounded_isGround sc n
    have evalC : ∀ t t', evaluate (n + 1) sc t = .ok t' → IsGround sc t' → IsGround sc t := by
      intro t t' h hg
      rw [evaluate.eq_def] at h
      cases t with
      | var x =>
        simp only at h
        cases hx : sc x with
        | none => simp [hx] at h; subst h; exact hg
        | some u =>
          simp only [hx, Ev.bind_eq_ok] at h
          obtain ⟨d, hd, h⟩ := h
          exact .var hx hd (ihe _ _ h hg)
      | un op t =>
        simp only [Ev.bind_eq_ok] at h
        obtain ⟨u, hu, h⟩ := h
        exact .un (ihe _ _ hu (isGround_plain (unFunc_operand h)))
      | bin op l r =>
        simp only [Ev.bind_eq_ok] at h
        obtain ⟨l', hl, r', hr, h⟩ := h
        split at h
        · simp only [Ev.bind_eq_ok] at h
          obtain ⟨l'', hl', r'', hr', h⟩ := h
          exact .bin (ihe _ _ hl (ihg _ _ hl')) (ihe _ _ hr (ihg _ _ hr'))
        · have := binFunc_operands h
          exact .bin (ihe _ _ hl (isGround_plain this.1)) (ihe _ _ hr (isGround_plain this.2))
      | _ => simp at h; subst h; exact hg
    refine ⟨evalC, fun t g h => ?_⟩
    rw [grounded.eq_def] at h
    cases t with
    | var x =>
      simp only at h
      cases hx : sc x with
      | none => simp [hx] at h
      | some u =>
        simp only [hx, Ev.bind_eq_ok] at h
        obtain ⟨d, hd, h⟩ := h
        exact .var hx hd (ihg _ _ h)
    | wild => simp at h
    | un op t =>
      simp only [Ev.bind_eq_ok] at h
      obtain ⟨v, hv, h⟩ := h
      exact ihe _ _ hv (ihg _ _ h)
    | bin op l r =>
      simp only [Ev.bind_eq_ok] at h
      obtain ⟨v, hv, h⟩ := h
      exact ihe _ _ hv (ihg _ _ h)
    | lit f as xs =>
      simp only [Ev.bind_eq_ok] at h
      obtain ⟨as', ha, xs', hx, h⟩ := h
      exact .lit (fun t ht => by obtain ⟨g, hg⟩ := mapL_all ha t ht; exact ihg _ _ hg)
        (fun t ht => by obtain ⟨g, hg⟩ := mapL_all hx t ht; exact ihg _ _ hg)
    | cons hd tl =>
      simp only [Ev.bind_eq_ok] at h
      obtain ⟨h', hh, t', ht, h⟩ := h
      exact .cons (ihg _ _ hh) (ihg _ _ ht)
    | tup xs =>
      simp only [Ev.map_eq_ok] at h
      obtain ⟨xs', hx, h⟩ := h
      exact .tup (fun t ht => by obtain ⟨g, hg⟩ := mapL_all hx t ht; exact ihg _ _ hg)
    | _ => exact ⟨1, rfl⟩
where
  mapL_all {α β : Type} {f : α → Ev β} : ∀ {xs : List α} {ys : List β}, Ev.mapL f xs = .ok ys →
      ∀ x ∈ xs, ∃ y, f x = .ok y
    | x :: xs, ys, h, z, hz => by
      simp only [Ev.mapL, Ev.bind_eq_ok, Ev.map_eq_ok] at h
      obtain ⟨a, ha, _, hb, _⟩ := h
      simp at hz
      rcases hz with rfl | hz
      · exact ⟨a, ha⟩
      · exact mapL_all hb z hz

/-- Results of `grounded`: ground, with annotation sets in normal form. -/
def Settled (g : Term) : Prop := g.Ground ∧ ∀ sc, ∃ N, ∀ m, N ≤ m → grounded m sc g = .ok g

theorem mapL_settled {ts : List Term} (h : ∀ t ∈ ts, Settled t) (sc : Scope) :
    ∃ N, ∀ m, N ≤ m → Ev.mapL (grounded m sc) ts = .ok ts := by
  induction ts with
  | nil => exact ⟨0, fun _ _ => rfl⟩
  | cons t ts ih =>
    obtain ⟨N, hN⟩ := (h t (by simp)).2 sc
    obtain ⟨M, hM⟩ := ih fun t ht => h t (by simp [ht])
    exact ⟨N + M, fun m hm => by simp [Ev.mapL, hN m (by omega), hM m (by omega)]⟩

theorem grounded_settled {sc : Scope} : ∀ {n : Nat} {t g : Term}, grounded n sc t = .ok g → Settled g
  | 0, t, g, h => by simp [grounded] at h
  | n + 1, t, g, h => by
    rw [grounded.eq_def] at h
    have plain : ∀ t : Term, t.Ground → (∀ n sc, grounded (n + 1) sc t = .ok t) → Settled t := by
      intro t h1 h2
      refine ⟨h1, fun sc => ⟨1, fun m hm => ?_⟩⟩
      obtain ⟨k, rfl⟩ : ∃ k, m = k + 1 := ⟨m - 1, by omega⟩
      exact h2 k sc
    cases t with
    | var x =>
      simp only at h
      cases hx : sc x with
      | none => simp [hx] at h
      | some u =>
        simp only [hx, Ev.bind_eq_ok] at h
        obtain ⟨d, hd, h⟩ := h
        exact grounded_settled h
    | wild => simp at h
    | un op t =>
      simp only [Ev.bind_eq_ok] at h
      obtain ⟨v, hv, h⟩ := h
      exact grounded_settled h
    | bin op l r =>
      simp only [Ev.bind_eq_ok] at h
      obtain ⟨v, hv, h⟩ := h
      exact grounded_settled h
    | lit f as xs =>
      simp only [Ev.bind_eq_ok] at h
      obtain ⟨as', ha, xs', hx, h⟩ := h
      simp at h; subst h
      have h1 : ∀ t ∈ as', Settled t := fun t ht => by
        obtain ⟨s, _, hs⟩ := mapL_mem ha t ht; exact grounded_settled hs
      have h2 : ∀ t ∈ pySet xs', Settled t := fun t ht => by
        obtain ⟨s, _, hs⟩ := mapL_mem hx t (pySet_sub ht); exact grounded_settled hs
      refine ⟨by simp; exact ⟨fun t ht => (h1 t ht).1, fun t ht => (h2 t ht).1⟩, fun sc' => ?_⟩
      obtain ⟨N, hN⟩ := mapL_settled h1 sc'
      obtain ⟨M, hM⟩ := mapL_settled h2 sc'
      refine ⟨N + M + 1, fun m hm => ?_⟩
      obtain ⟨k, rfl⟩ : ∃ k, m = k + 1 := ⟨m - 1, by omega⟩
      rw [grounded]; simp [hN k (by omega), hM k (by omega), pySet_idem]
    | cons hd tl =>
      simp only [Ev.bind_eq_ok] at h
      obtain ⟨h', hh, t', ht, h⟩ := h
      simp at h; subst h
      have h1 := grounded_settled hh
      have h2 := grounded_settled ht
      refine ⟨by simp; exact ⟨h1.1, h2.1⟩, fun sc' => ?_⟩
      obtain ⟨N, hN⟩ := h1.2 sc'
      obtain ⟨M, hM⟩ := h2.2 sc'
      refine ⟨N + M + 1, fun m hm => ?_⟩
      obtain ⟨k, rfl⟩ : ∃ k, m = k + 1 := ⟨m - 1, by omega⟩
      rw [grounded]; simp [hN k (by omega), hM k (by omega)]
    | tup xs =>
      simp only [Ev.map_eq_ok] at h
      obtain ⟨xs', hx, h⟩ := h
      subst h
      have h1 : ∀ t ∈ xs', Settled t := fun t ht => by
        obtain ⟨s, _, hs⟩ := mapL_mem hx t ht; exact grounded_settled hs
      refine ⟨by simp; exact fun t ht => (h1 t ht).1, fun sc' => ?_⟩
      obtain ⟨N, hN⟩ := mapL_settled h1 sc'
      refine ⟨N + 1, fun m hm => ?_⟩
      obtain ⟨k, rfl⟩ : ∃ k, m = k + 1 := ⟨m - 1, by omega⟩
      rw [grounded]; simp [hN k (by omega)]
    | bool b => simp at h; subst h; exact plain _ (by simp) (fun n sc => by simp [grounded])
    | num b => simp at h; subst h; exact plain _ (by simp) (fun n sc => by simp [grounded])
    | str b => simp at h; subst h; exact plain _ (by simp) (fun n sc => by simp [grounded])

omit [Arith] in
theorem mapL_of_all {α β : Type} {f : α → Ev β} {p : α → Ev Bool} : ∀ {xs : List α},
    (∀ x ∈ xs, p x = .ok true → ∃ y, f x = .ok y) → Ev.allL p xs = .ok true → ∃ ys, Ev.mapL f xs = .ok ys
  | [], _, _ => ⟨[], rfl⟩
  | x :: xs, h, hp => by
    simp only [Ev.allL, Ev.bind_eq_ok] at hp
    obtain ⟨a, ha, hp⟩ := hp
    cases a
    · simp at hp
    · obtain ⟨y, hy⟩ := h x (by simp) ha
      obtain ⟨ys, hys⟩ := mapL_of_all (xs := xs) (fun x hx => h x (List.mem_cons_of_mem _ hx)) (by simpa using hp)
      exact ⟨y :: ys, by simp [Ev.mapL, hy, hys]⟩

omit [Arith] in
theorem deref_exprFree {sc : Scope} (hsc : ∀ x t, sc x = some t → t.ExprFree) : ∀ (n : Nat) (t t' : Term), t.ExprFree →
    deref n sc t = .ok t' → t'.ExprFree
  | 0, _, _, _, h => by simp [deref] at h
  | n + 1, t, t', ht, h => by
    cases t with
    | var x =>
      rw [deref] at h
      cases hx : sc x with
      | none => simp [hx] at h; subst h; exact ht
      | some u => simp [hx] at h; exact deref_exprFree hsc n u t' (hsc x u hx) h
    | _ => simp [deref] at h; subst h; exact ht

theorem grounded_of_isGround {sc : Scope} (hsc : ∀ x t, sc x = some t → t.ExprFree) : ∀ (n : Nat) (t : Term),
    t.ExprFree → isGround n sc t = .ok true → ∃ g, grounded n sc t = .ok g
  | 0, t, _, h => by simp [isGround] at h
  | n + 1, t, ht, h => by
    have ih := grounded_of_isGround hsc n
    rw [isGround.eq_def] at h
    rw [grounded.eq_def]
    cases t with
    | var x =>
      simp only at h ⊢
      cases hx : sc x with
      | none => simp [hx] at h
      | some u =>
        simp only [hx, Ev.bind_eq_ok] at h ⊢
        obtain ⟨d, hd, h⟩ := h
        obtain ⟨g, hg⟩ := ih d (deref_exprFree hsc n _ _ (by simp) hd) h
        exact ⟨g, d, hd, hg⟩
    | wild => simp at h
    | un => simp at ht
    | bin => simp at ht
    | lit f as xs =>
      simp at ht
      simp only [Ev.bind_eq_ok] at h
      obtain ⟨a, ha, h⟩ := h
      cases a
      · simp at h
      · obtain ⟨as', h1⟩ := mapL_of_all (fun t hm => ih t (ht.1 t hm)) ha
        obtain ⟨xs', h2⟩ := mapL_of_all (fun t hm => ih t (ht.2 t hm)) (by simpa using h)
        exact ⟨_, by simp [h1, h2]; rfl⟩
    | cons hd tl =>
      simp at ht
      simp only [Ev.bind_eq_ok] at h
      obtain ⟨a, ha, h⟩ := h
      cases a
      · simp at h
      · obtain ⟨g, h1⟩ := ih _ ht.1 ha
        obtain ⟨g', h2⟩ := ih _ ht.2 (by simpa using h)
        exact ⟨_, by simp [h1, h2]; rfl⟩
    | tup xs =>
      simp at ht
      obtain ⟨xs', h2⟩ := mapL_of_all (fun t hm => ih t (ht t hm)) h
      exact ⟨_, by simp [h2]; rfl⟩
    | _ => exact ⟨_, rfl⟩

/-! ## `freeze` -/

/-- Invariant of `freeze`'s memo: it maps unbound variables injectively to variables
numbered from `nv₀`. -/
structure MemoOK (sc : Scope) (nv₀ : Nat) (m : FSt) : Prop where
  free : ∀ x y, m.memo x = some y → sc x = none
  range : ∀ x y, m.memo x = some y → nv₀ ≤ y ∧ y < m.nv
  inj : ∀ x x' y, m.memo x = some y → m.memo x' = some y → x = x'
  le : nv₀ ≤ m.nv

/-- The memo only grows. -/
structure MemoLe (m m' : FSt) : Prop where
  memo : ∀ x y, m.memo x = some y → m'.memo x = some y
  nv : m.nv ≤ m'.nv

omit [Arith] in
theorem MemoLe.refl (m : FSt) : MemoLe m m := ⟨fun _ _ h => h, Nat.le_refl _⟩
omit [Arith] in
theorem MemoLe.trans {a b c : FSt} (h : MemoLe a b) (h' : MemoLe b c) : MemoLe a c :=
  ⟨fun x y hx => h'.memo x y (h.memo x y hx), Nat.le_trans h.nv h'.nv⟩

mutual
theorem Copy.imp {sc : Scope} {R S : VarId → VarId → Prop} (h : ∀ x y, R x y → S x y) :
    ∀ {t t'}, Copy sc R t t' → Copy sc S t t'
  | _, _, .bool b => .bool b
  | _, _, .num b => .num b
  | _, _, .str b => .str b
  | _, _, .wild => .wild
  | _, _, .free h1 h2 => .free h1 (h _ _ h2)
  | _, _, .bound h1 h2 => .bound h1 (h2.imp h)
  | _, _, .un h1 h2 => .un h1 (h2.imp h)
  | _, _, .bin h1 h2 => .bin h1 (h2.imp h)
  | _, _, .lit h1 h2 => .lit (h1.imp h) (h2.imp h)
  | _, _, .tup h1 => .tup (h1.imp h)
  | _, _, .cons h1 h2 => .cons (h1.imp h) (h2.imp h)
theorem CopyL.imp {sc : Scope} {R S : VarId → VarId → Prop} (h : ∀ x y, R x y → S x y) :
    ∀ {t t'}, CopyL sc R t t' → CopyL sc S t t'
  | _, _, .nil => .nil
  | _, _, .cons h1 h2 => .cons (h1.imp h) (h2.imp h)
end

theorem copy_deref {sc : Scope} {R : VarId → VarId → Prop} : ∀ {n : Nat} {t d t' : Term}, deref n sc t = .ok d →
    Copy sc R d t' → Copy sc R t t'
  | 0, _, _, _, h, _ => by simp [deref] at h
  | n + 1, t, d, t', h, hc => by
    cases t with
    | var x =>
      rw [deref] at h
      cases hx : sc x with
      | none => simp [hx] at h; subst h; exact hc
      | some u => simp [hx] at h; exact .bound hx (copy_deref h hc)
    | _ => simp [deref] at h; subst h; exact hc

/-- What a finished call of `freeze` guarantees. -/
structure FrozenOK (sc : Scope) (nv₀ : Nat) (m m' : FSt) (t t' : Term) : Prop where
  ok : MemoOK sc nv₀ m'
  le : MemoLe m m'
  copy : Copy sc (fun x y => m'.memo x = some y) t t'
  vars : t'.VarsIn fun y => nv₀ ≤ y ∧ y < m'.nv

theorem freezeAll_spec {sc : Scope} {nv₀ : Nat} {f : Term → FSt → Res FSt Term}
    (hf : ∀ t t' m m', MemoOK sc nv₀ m → f t m = .ok t' m' → FrozenOK sc nv₀ m m' t t') :
    ∀ (ts ts' : List Term) (m m' : FSt), MemoOK sc nv₀ m → freezeAll f ts m = .ok ts' m' →
      MemoOK sc nv₀ m' ∧ MemoLe m m' ∧ CopyL sc (fun x y => m'.memo x = some y) ts ts' ∧
      ∀ t' ∈ ts', t'.VarsIn fun y => nv₀ ≤ y ∧ y < m'.nv
  | [], ts', m, m', hm, h => by
    simp [freezeAll] at h; obtain ⟨rfl, rfl⟩ := h
    exact ⟨hm, .refl _, .nil, by simp⟩
  | t :: ts, ts', m, m', hm, h => by
    simp only [freezeAll, Res.bind_eq_ok] at h
    obtain ⟨a, m₁, h1, as, m₂, h2, h⟩ := h
    simp at h; obtain ⟨rfl, rfl⟩ := h
    have i := hf t a m m₁ hm h1
    obtain ⟨j1, j2, j3, j4⟩ := freezeAll_spec hf ts as m₁ m₂ i.ok h2
    refine ⟨j1, i.le.trans j2, .cons (i.copy.imp fun x y => j2.memo x y) j3, ?_⟩
    intro t' ht
    simp at ht
    rcases ht with rfl | ht
    · exact i.vars.imp fun y hy => ⟨hy.1, Nat.lt_of_lt_of_le hy.2 j2.nv⟩
    · exact j4 t' ht

theorem freeze_spec {sc : Scope} {nv₀ : Nat} : ∀ (n : Nat) (t t' : Term) (m m' : FSt), MemoOK sc nv₀ m →
    freeze n sc t m = .ok t' m' → FrozenOK sc nv₀ m m' t t'
  | 0, t, t', m, m', _, h => by simp [freeze] at h
  | n + 1, t, t', m, m', hm, h => by
    have ih := freeze_spec (sc := sc) (nv₀ := nv₀) n
    rw [freeze.eq_def] at h
    cases t with
    | var x =>
      simp only at h
      cases hmx : m.memo x with
      | some y =>
        simp [hmx] at h; obtain ⟨rfl, rfl⟩ := h
        exact ⟨hm, .refl _, .free (hm.free x y hmx) hmx, by simpa using hm.range x y hmx⟩
      | none =>
        simp only [hmx] at h
        cases hx : sc x with
        | some u =>
          simp only [hx, Res.bind_eq_ok, Res.lift_eq_ok] at h
          obtain ⟨d, _, ⟨hd, rfl⟩, h⟩ := h
          have i := ih _ _ _ _ hm h
          exact ⟨i.ok, i.le, copy_deref hd i.copy, i.vars⟩
        | none =>
          simp [hx] at h; obtain ⟨rfl, rfl⟩ := h
          refine ⟨⟨?_, ?_, ?_, ?_⟩, ⟨?_, Nat.le_succ _⟩, .free hx (by simp), ?_⟩
          · intro z y hz
            simp only at hz
            split at hz
            · rename_i e; subst e; exact hx
            · exact hm.free z y hz
          · intro z y hz
            simp only at hz
            split at hz
            · simp at hz; subst hz; exact ⟨hm.le, Nat.lt_succ_self _⟩
            · have := hm.range z y hz; exact ⟨this.1, Nat.lt_succ_of_lt this.2⟩
          · intro z z' y hz hz'
            simp only at hz hz'
            split at hz <;> split at hz'
            · simp_all
            · simp at hz; subst hz; exact absurd (hm.range z' _ hz').2 (Nat.lt_irrefl _)
            · simp at hz'; subst hz'; exact absurd (hm.range z _ hz).2 (Nat.lt_irrefl _)
            · exact hm.inj z z' y hz hz'
          · exact Nat.le_succ_of_le hm.le
          · intro z y hz
            have : z ≠ x := by rintro rfl; simp [hmx] at hz
            simp [this, hz]
          · simpa using hm.le
    | wild => simp at h; obtain ⟨rfl, rfl⟩ := h; exact ⟨hm, .refl _, .wild, by simp⟩
    | bool => simp at h; obtain ⟨rfl, rfl⟩ := h; exact ⟨hm, .refl _, .bool _, by simp⟩
    | num => simp at h; obtain ⟨rfl, rfl⟩ := h; exact ⟨hm, .refl _, .num _, by simp⟩
    | str => simp at h; obtain ⟨rfl, rfl⟩ := h; exact ⟨hm, .refl _, .str _, by simp⟩
    | un op t =>
      simp only [Res.bind_eq_ok, Res.lift_eq_ok] at h
      obtain ⟨v, _, ⟨hv, rfl⟩, h⟩ := h
      have i := ih _ _ _ _ hm h
      exact ⟨i.ok, i.le, .un hv i.copy, i.vars⟩
    | bin op l r =>
      simp only [Res.bind_eq_ok, Res.lift_eq_ok] at h
      obtain ⟨v, _, ⟨hv, rfl⟩, h⟩ := h
      have i := ih _ _ _ _ hm h
      exact ⟨i.ok, i.le, .bin hv i.copy, i.vars⟩
    | lit f as xs =>
      simp only [Res.bind_eq_ok] at h
      obtain ⟨as', m₁, h1, xs', m₂, h2, h⟩ := h
      simp at h; obtain ⟨rfl, rfl⟩ := h
      obtain ⟨i1, i2, i3, i4⟩ := freezeAll_spec ih as as' m m₁ hm h1
      obtain ⟨j1, j2, j3, j4⟩ := freezeAll_spec ih xs xs' m₁ m₂ i1 h2
      refine ⟨j1, i2.trans j2, .lit (i3.imp fun x y => j2.memo x y) j3, ?_⟩
      simp only [Term.varsIn_lit]
      exact ⟨fun t ht => (i4 t ht).imp fun y hy => ⟨hy.1, Nat.lt_of_lt_of_le hy.2 j2.nv⟩, fun t ht => j4 t (pySet_sub ht)⟩
    | cons hd tl =>
      simp only [Res.bind_eq_ok] at h
      obtain ⟨h', m₁, h1, t', m₂, h2, h⟩ := h
      simp at h; obtain ⟨rfl, rfl⟩ := h
      have i := ih _ _ _ _ hm h1
      have j := ih _ _ _ _ i.ok h2
      refine ⟨j.ok, i.le.trans j.le, .cons (i.copy.imp fun x y => j.le.memo x y) j.copy, ?_⟩
      simp only [Term.varsIn_cons]
      exact ⟨i.vars.imp fun y hy => ⟨hy.1, Nat.lt_of_lt_of_le hy.2 j.le.nv⟩, j.vars⟩
    | tup xs =>
      simp only [Res.bind_eq_ok] at h
      obtain ⟨xs', m₂, h2, h⟩ := h
      simp at h; obtain ⟨rfl, rfl⟩ := h
      obtain ⟨j1, j2, j3, j4⟩ := freezeAll_spec ih xs xs' m m₂ hm h2
      exact ⟨j1, j2, .tup j3, by simpa using j4⟩

omit [Arith] in
theorem freezeAll_ground {f : Term → FSt → Res FSt Term} {g : Term → Ev Term} {m : FSt}
    (hf : ∀ t t', g t = .ok t' → f t m = .ok t' m) : ∀ {ts ts' : List Term}, Ev.mapL g ts = .ok ts' →
      freezeAll f ts m = .ok ts' m
  | [], ts', h => by simp [Ev.mapL] at h; subst h; rfl
  | t :: ts, ts', h => by
    simp only [Ev.mapL, Ev.bind_eq_ok, Ev.map_eq_ok] at h
    obtain ⟨a, ha, as, has, rfl⟩ := h
    simp [freezeAll, hf t a ha, freezeAll_ground hf has]

/-- On ground terms `freeze` agrees with `grounded`. -/
theorem freeze_ground {sc : Scope} {m : FSt} (hm : ∀ x y, m.memo x = some y → sc x = none) : ∀ (n : Nat) (t g : Term),
    grounded n sc t = .ok g → freeze n sc t m = .ok g m
  | 0, t, g, h => by simp [grounded] at h
  | n + 1, t, g, h => by
    have ih := freeze_ground hm n
    rw [grounded.eq_def] at h
    rw [freeze.eq_def]
    cases t with
    | var x =>
      simp only at h ⊢
      cases hx : sc x with
      | none => simp [hx] at h
      | some u =>
        have : m.memo x = none := by
          cases hmx : m.memo x with
          | none => rfl
          | some y => rw [hm x y hmx] at hx; simp at hx
        simp only [hx, Ev.bind_eq_ok, this] at h ⊢
        obtain ⟨d, hd, h⟩ := h
        simp [hd, ih _ _ h]
    | wild => simp at h
    | un op t =>
      simp only [Ev.bind_eq_ok] at h
      obtain ⟨v, hv, h⟩ := h
      simp [hv, ih _ _ h]
    | bin op l r =>
      simp only [Ev.bind_eq_ok] at h
      obtain ⟨v, hv, h⟩ := h
      simp [hv, ih _ _ h]
    | lit f as xs =>
      simp only [Ev.bind_eq_ok] at h
      obtain ⟨as', ha, xs', hx, h⟩ := h
      simp at h; subst h
      simp [freezeAll_ground ih ha, freezeAll_ground ih hx]
    | cons hd tl =>
      simp only [Ev.bind_eq_ok] at h
      obtain ⟨h', hh, t', ht, h⟩ := h
      simp at h; subst h
      simp [ih _ _ hh, ih _ _ ht]
    | tup xs =>
      simp only [Ev.map_eq_ok] at h
      obtain ⟨xs', hx, h⟩ := h
      subst h
      simp [freezeAll_ground ih hx]
    | bool b => simp at h; subst h; rfl
    | num b => simp at h; subst h; rfl
    | str b => simp at h; subst h; rfl

end Verif
