import Verif.Lemmas.Fuel
import Verif.Lemmas.OrderLaws
import Verif.Spec.Folding

/-! Results of computations with enough fuel. -/

namespace Verif

/-- More fuel does not change the result. -/
def Mono {α : Type} (f : Nat → Ev α) : Prop := ∀ n, (f n).le (f (n + 1))

open Classical in
/-- The result with enough fuel. -/
noncomputable def limit {α : Type} (f : Nat → Ev α) : Ev α := if h : ∃ n, f n ≠ .oof then f h.choose else .oof

section
variable {α β : Type}

theorem Mono.le {f : Nat → Ev α} (h : Mono f) {n : Nat} (hn : f n ≠ .oof) : ∀ k, f (n + k) = f n
  | 0 => rfl
  | k + 1 => by
    have := h.le hn k
    rw [← this]
    exact (h (n + k)).eq (this ▸ hn)

theorem limit_eq {f : Nat → Ev α} (h : Mono f) {n : Nat} (hn : f n ≠ .oof) : limit f = f n := by
  have he : ∃ n, f n ≠ .oof := ⟨n, hn⟩
  rw [limit, dif_pos he]
  generalize hm : he.choose = m
  have h1 : f m ≠ .oof := hm ▸ he.choose_spec
  have e1 := h.le h1 n
  rw [Nat.add_comm] at e1
  rw [← e1, h.le hn m]

theorem limit_oof {f : Nat → Ev α} (h : ∀ n, f n = .oof) : limit f = .oof := by
  rw [limit, dif_neg]
  rintro ⟨n, hn⟩
  exact hn (h n)

theorem limit_cases {f : Nat → Ev α} (h : Mono f) : (limit f = .oof ∧ ∀ n, f n = .oof) ∨ ∃ n, f n ≠ .oof ∧ limit f = f n := by
  by_cases he : ∃ n, f n ≠ .oof
  · obtain ⟨n, hn⟩ := he
    exact .inr ⟨n, hn, limit_eq h hn⟩
  · have : ∀ n, f n = .oof := fun n => Classical.byContradiction fun hn => he ⟨n, hn⟩
    exact .inl ⟨limit_oof this, this⟩

theorem limit_const (x : Ev α) : limit (fun _ => x) = x := by
  rcases limit_cases (f := fun _ => x) fun _ => .refl _ with ⟨h1, h2⟩ | ⟨n, -, h⟩
  · rw [h1, h2 0]
  · exact h

theorem Mono.succ {f : Nat → Ev α} (h : Mono f) : Mono fun n => f (n + 1) := fun n => h (n + 1)

theorem limit_succ {f : Nat → Ev α} (h : Mono f) : limit f = limit fun n => f (n + 1) := by
  rcases limit_cases h with ⟨h1, h2⟩ | ⟨n, hn, h1⟩
  · rw [h1, limit_oof fun n => h2 (n + 1)]
  · have : f (n + 1) = f n := h.le hn 1
    rw [h1, limit_eq h.succ (n := n) (by simpa only [this] using hn)]
    exact this.symm

theorem Mono.bind {f : Nat → Ev α} {g : Nat → α → Ev β} (hf : Mono f) (hg : ∀ a, Mono fun n => g n a) :
    Mono fun n => (f n).bind (g n) := fun n => (hf n).bind fun a => hg a n

theorem Mono.map {f : Nat → Ev α} {g : α → β} (hf : Mono f) : Mono fun n => (f n).map g := fun n => (hf n).map

theorem limit_bind {f : Nat → Ev α} {g : Nat → α → Ev β} (hf : Mono f) (hg : ∀ a, Mono fun n => g n a) :
    limit (fun n => (f n).bind (g n)) = (limit f).bind fun a => limit fun n => g n a := by
  rcases limit_cases hf with ⟨h1, h2⟩ | ⟨n, hn, h1⟩
  · rw [h1, limit_oof]
    · rfl
    · intro n; rw [h2 n]; rfl
  · rw [h1]
    cases hfn : f n with
    | oof => exact absurd hfn hn
    | err e => exact (limit_eq (hf.bind hg) (n := n) (by rw [hfn]; simp)).trans (by rw [hfn]; rfl)
    | ok a =>
      show _ = limit fun n => g n a
      rcases limit_cases (hg a) with ⟨h3, h4⟩ | ⟨m, hm, h3⟩
      · rw [h3, limit_oof]
        intro k
        rcases hf.bind hg |>.le (n := k) with h
        apply Classical.byContradiction
        intro hk
        have := h hk n
        rw [Nat.add_comm, hf.le (n := n) (by rw [hfn]; simp), hfn] at this
        exact hk (this ▸ h4 (n + k))
      · rw [h3]
        have e1 := hf.le (n := n) (by rw [hfn]; simp) m
        have e2 := (hg a).le hm n
        rw [Nat.add_comm] at e2
        have e3 : (f (n + m)).bind (g (n + m)) = g m a := by rw [e1, hfn]; exact e2
        exact (limit_eq (hf.bind hg) (n := n + m) (by rw [e3]; exact hm)).trans e3

theorem limit_map {f : Nat → Ev α} {g : α → β} (hf : Mono f) : limit (fun n => (f n).map g) = (limit f).map g := by
  have := limit_bind (g := fun _ a => Ev.ok (g a)) hf fun a _ => .refl _
  refine this.trans ?_
  congr 1
  funext a
  exact limit_const _

theorem Mono.mapL {f : Nat → α → Ev β} (hf : ∀ a, Mono fun n => f n a) (xs : List α) : Mono fun n => Ev.mapL (f n) xs :=
  fun n => Ev.le.mapL (fun a => hf a n) xs

theorem limit_mapL {f : Nat → α → Ev β} (hf : ∀ a, Mono fun n => f n a) : ∀ xs : List α,
    limit (fun n => Ev.mapL (f n) xs) = Ev.mapL (fun a => limit fun n => f n a) xs
  | [] => limit_const _
  | x :: xs => by
    simp only [Ev.mapL]
    rw [limit_bind (g := fun n a => (Ev.mapL (f n) xs).map (a :: ·)) (hf x) fun a => (Mono.mapL hf xs).map]
    congr 1
    funext a
    rw [limit_map (Mono.mapL hf xs), limit_mapL hf xs]

theorem sameResult_of_limit {f g : Nat → Ev α} (hf : Mono f) (hg : Mono g) (h : limit f = limit g) : SameResult f g := by
  intro r hr
  constructor
  · rintro ⟨n, rfl⟩
    rw [limit_eq hf hr] at h
    rcases limit_cases hg with ⟨h1, -⟩ | ⟨m, -, h1⟩
    · exact absurd (h.trans h1) hr
    · exact ⟨m, (h.trans h1).symm⟩
  · rintro ⟨n, rfl⟩
    rw [limit_eq hg hr] at h
    rcases limit_cases hf with ⟨h1, -⟩ | ⟨m, -, h1⟩
    · exact absurd (h.symm.trans h1) hr
    · exact ⟨m, h1.symm.trans h⟩

end

/-! ## Evaluation -/

section
variable [Arith]

/-- The result of `evaluate`. -/
noncomputable def EV (sc : Scope) (t : Term) : Ev Term := limit fun n => evaluate n sc t
/-- The result of `grounded`. -/
noncomputable def GR (sc : Scope) (t : Term) : Ev Term := limit fun n => grounded n sc t

theorem evaluate_Mono (sc : Scope) (t : Term) : Mono fun n => evaluate n sc t := fun n => evaluate_succ n sc t
theorem grounded_Mono (sc : Scope) (t : Term) : Mono fun n => grounded n sc t := fun n => grounded_succ n sc t

omit [Arith] in
theorem pyCompare_Mono (op : BinOp) (a b : Term) : Mono fun n => pyCompare n op a b := by
  intro n
  by_cases h : pyCompare n op a b = .oof
  · exact .inl h
  · exact .inr (pyCompare_mono (by omega) h).symm

theorem EV_un (sc : Scope) (op : UnOp) (t : Term) : EV sc (.un op t) = (EV sc t).bind (unFunc op) := by
  rw [EV, limit_succ (evaluate_Mono _ _)]
  simp only [evaluate]
  rw [limit_bind (g := fun _ => unFunc op) (evaluate_Mono _ _) fun _ _ => .refl _]
  simp only [limit_const, EV]

theorem EV_bin (sc : Scope) (op : BinOp) (l r : Term) : EV sc (.bin op l r) =
    (EV sc l).bind fun l' => (EV sc r).bind fun r' =>
      if op.compOp then (GR sc l').bind fun l'' => (GR sc r').bind fun r'' => (limit fun n => pyCompare n op l'' r'').map .bool
      else binFunc op l' r' := by
  rw [EV, limit_succ (evaluate_Mono _ _)]
  simp only [evaluate]
  have m3 : ∀ l'' r'', Mono fun n => (pyCompare n op l'' r'').map Term.bool := fun l'' r'' => (pyCompare_Mono op l'' r'').map
  have m2 : ∀ l'' r', Mono fun n => (grounded n sc r').bind fun r'' => (pyCompare n op l'' r'').map Term.bool :=
    fun l'' r' => (grounded_Mono sc r').bind fun r'' => m3 l'' r''
  have m1 : ∀ l' r', Mono fun n => (grounded n sc l').bind fun l'' => (grounded n sc r').bind fun r'' => (pyCompare n op l'' r'').map Term.bool :=
    fun l' r' => (grounded_Mono sc l').bind fun l'' => m2 l'' r'
  cases hc : op.compOp with
  | false =>
    simp only [Bool.false_eq_true, if_false]
    rw [limit_bind (g := fun n l' => (evaluate n sc r).bind fun r' => binFunc op l' r') (evaluate_Mono _ _)
      fun l' => (evaluate_Mono sc r).bind fun r' _ => .refl _]
    show (EV sc l).bind _ = _
    congr 1; funext l'
    rw [limit_bind (g := fun _ r' => binFunc op l' r') (evaluate_Mono _ _) fun r' _ => .refl _]
    simp only [limit_const, EV]
  | true =>
    simp only [if_true]
    rw [limit_bind (g := fun n l' => (evaluate n sc r).bind fun r' => (grounded n sc l').bind fun l'' => (grounded n sc r').bind fun r'' =>
      (pyCompare n op l'' r'').map Term.bool) (evaluate_Mono _ _) fun l' => (evaluate_Mono sc r).bind fun r' => m1 l' r']
    show (EV sc l).bind _ = _
    congr 1; funext l'
    rw [limit_bind (g := fun n r' => (grounded n sc l').bind fun l'' => (grounded n sc r').bind fun r'' =>
      (pyCompare n op l'' r'').map Term.bool) (evaluate_Mono sc r) fun r' => m1 l' r']
    show (EV sc r).bind _ = _
    congr 1; funext r'
    rw [limit_bind (g := fun n l'' => (grounded n sc r').bind fun r'' => (pyCompare n op l'' r'').map Term.bool) (grounded_Mono sc l')
      fun l'' => m2 l'' r']
    show (GR sc l').bind _ = _
    congr 1; funext l''
    rw [limit_bind (g := fun n r'' => (pyCompare n op l'' r'').map Term.bool) (grounded_Mono sc r') fun r'' => m3 l'' r'']
    show (GR sc r').bind _ = _
    congr 1; funext r''
    exact limit_map (pyCompare_Mono op l'' r'')

/-- What `evaluate` returns unchanged. -/
def Term.isInert : Term → Bool
  | .un _ _ | .bin _ _ _ | .var _ => false
  | _ => true

theorem EV_inert (sc : Scope) {t : Term} (h : t.isInert = true) : EV sc t = .ok t := by
  rw [EV, limit_succ (evaluate_Mono _ _)]
  cases t <;> first | (simp only [evaluate]; exact limit_const _) | cases h

theorem GR_value (sc : Scope) {t : Term} (h : t.isValue = true) : GR sc t = .ok t := by
  rw [GR, limit_succ (grounded_Mono _ _)]
  cases t <;> first | (simp only [grounded]; exact limit_const _) | cases h

theorem GR_un (sc : Scope) (op : UnOp) (t : Term) : GR sc (.un op t) = (EV sc (.un op t)).bind (GR sc) := by
  rw [GR, limit_succ (grounded_Mono _ _)]
  simp only [grounded]
  exact limit_bind (g := fun n => grounded n sc) (evaluate_Mono _ _) fun _ => grounded_Mono _ _

theorem GR_bin (sc : Scope) (op : BinOp) (l r : Term) : GR sc (.bin op l r) = (EV sc (.bin op l r)).bind (GR sc) := by
  rw [GR, limit_succ (grounded_Mono _ _)]
  simp only [grounded]
  exact limit_bind (g := fun n => grounded n sc) (evaluate_Mono _ _) fun _ => grounded_Mono _ _

theorem GR_lit (sc : Scope) (f : String) (ts us : List Term) : GR sc (.lit f ts us) =
    (Ev.mapL (GR sc) ts).bind fun ts' => (Ev.mapL (GR sc) us).bind fun us' => .ok (.lit f ts' (pySet us')) := by
  rw [GR, limit_succ (grounded_Mono _ _)]
  simp only [grounded]
  have m : ∀ xs, Mono fun n => Ev.mapL (grounded n sc) xs := Mono.mapL fun t => grounded_Mono sc t
  rw [limit_bind (g := fun n ts' => (Ev.mapL (grounded n sc) us).bind fun us' => Ev.ok (Term.lit f ts' (pySet us'))) (m ts)
    fun ts' => (m us).bind fun us' _ => .refl _, limit_mapL fun t => grounded_Mono sc t]
  show (Ev.mapL (GR sc) ts).bind _ = _
  congr 1; funext ts'
  rw [limit_bind (g := fun _ us' => Ev.ok (Term.lit f ts' (pySet us'))) (m us) fun _ _ => .refl _, limit_mapL fun t => grounded_Mono sc t]
  simp only [limit_const]
  rfl

theorem GR_tup (sc : Scope) (ts : List Term) : GR sc (.tup ts) = (Ev.mapL (GR sc) ts).map .tup := by
  rw [GR, limit_succ (grounded_Mono _ _)]
  simp only [grounded]
  rw [limit_map (Mono.mapL (fun t => grounded_Mono sc t) ts), limit_mapL fun t => grounded_Mono sc t]
  rfl

theorem GR_cons (sc : Scope) (h t : Term) : GR sc (.cons h t) = (GR sc h).bind fun h' => (GR sc t).bind fun t' => .ok (.cons h' t') := by
  rw [GR, limit_succ (grounded_Mono _ _)]
  simp only [grounded]
  rw [limit_bind (g := fun n h' => (grounded n sc t).bind fun t' => Ev.ok (Term.cons h' t')) (grounded_Mono _ _)
    fun h' => (grounded_Mono sc t).bind fun t' _ => .refl _]
  show (GR sc h).bind _ = _
  congr 1; funext h'
  rw [limit_bind (g := fun _ t' => Ev.ok (Term.cons h' t')) (grounded_Mono _ _) fun _ _ => .refl _]
  simp only [limit_const]
  rfl

end

end Verif
