import Verif.Spec.Val

/-! Helper lemmas about terms and their denotations. -/

namespace Verif

/-- Induction over terms with the usual hypotheses for the items of lists. -/
theorem Term.ind {P : Term → Prop}
    (bool : ∀ b, P (.bool b)) (num : ∀ q, P (.num q)) (str : ∀ s, P (.str s))
    (lit : ∀ f args annots, (∀ t ∈ args, P t) → (∀ t ∈ annots, P t) → P (.lit f args annots))
    (tup : ∀ xs, (∀ t ∈ xs, P t) → P (.tup xs))
    (cons : ∀ h t, P h → P t → P (.cons h t))
    (var : ∀ x, P (.var x)) (wild : P .wild)
    (un : ∀ op t, P t → P (.un op t))
    (bin : ∀ op l r, P l → P r → P (.bin op l r)) : ∀ t, P t := by
  intro t
  refine Term.rec (motive_1 := P) (motive_2 := fun l => ∀ t ∈ l, P t)
    bool num str ?_ ?_ ?_ var wild ?_ ?_ ?_ ?_ t
  · intro f args annots h1 h2; exact lit f args annots h1 h2
  · intro xs h; exact tup xs h
  · intro h t h1 h2; exact cons h t h1 h2
  · intro op t h; exact un op t h
  · intro op l r h1 h2; exact bin op l r h1 h2
  · intro t ht; cases ht
  · intro a as ha has t ht
    cases ht with
    | head => exact ha
    | tail _ h => exact has t h

theorem Term.everyL_iff {ok : Term → Prop} {ts : List Term} :
    Term.EveryL ok ts ↔ ∀ t ∈ ts, Term.Every ok t := by
  induction ts with
  | nil => simp [Term.EveryL]
  | cons t ts ih => simp [Term.EveryL, ih]

theorem Term.Every.imp {p q : Term → Prop} (h : ∀ t, p t → q t) :
    ∀ t, Term.Every p t → Term.Every q t := by
  intro t
  induction t using Term.ind with
  | lit f args annots ih _ =>
    simp only [Term.Every, Term.everyL_iff]
    exact fun ⟨a, b⟩ => ⟨h _ a, fun t ht => ih t ht (b t ht)⟩
  | tup xs ih =>
    simp only [Term.Every, Term.everyL_iff]
    exact fun ⟨a, b⟩ => ⟨h _ a, fun t ht => ih t ht (b t ht)⟩
  | cons _ _ i1 i2 => exact fun ⟨a, b, c⟩ => ⟨h _ a, i1 b, i2 c⟩
  | un _ _ i => exact fun ⟨a, b⟩ => ⟨h _ a, i b⟩
  | bin _ _ _ i1 i2 => exact fun ⟨a, b, c⟩ => ⟨h _ a, i1 b, i2 c⟩
  | _ => exact h _

theorem Term.Every.node {p : Term → Prop} {t : Term} (h : Term.Every p t) : p t := by
  cases t <;> simp_all [Term.Every]

theorem Term.Closed.noWild {t : Term} (h : t.Closed) : t.NoWild :=
  Term.Every.imp (by intro t ht e; subst e; exact ht) t h

theorem Term.Closed.noCmp {t : Term} (h : t.Closed) : t.NoCmp :=
  Term.Every.imp (by intro t ht; cases t <;> simp_all) t h

section simps
@[simp] theorem Term.noWild_bool {b} : (Term.bool b).NoWild := by simp [Term.NoWild, Term.Every]
@[simp] theorem Term.noWild_num {b} : (Term.num b).NoWild := by simp [Term.NoWild, Term.Every]
@[simp] theorem Term.noWild_str {b} : (Term.str b).NoWild := by simp [Term.NoWild, Term.Every]
@[simp] theorem Term.noWild_var {b} : (Term.var b).NoWild := by simp [Term.NoWild, Term.Every]
@[simp] theorem Term.noWild_wild : (Term.wild).NoWild ↔ False := by simp [Term.NoWild, Term.Every]
@[simp] theorem Term.noWild_lit {f as xs} : (Term.lit f as xs).NoWild ↔ ∀ t ∈ as, t.NoWild := by
  simp [Term.NoWild, Term.Every, Term.everyL_iff]
@[simp] theorem Term.noWild_tup {xs} : (Term.tup xs).NoWild ↔ ∀ t ∈ xs, t.NoWild := by
  simp [Term.NoWild, Term.Every, Term.everyL_iff]
@[simp] theorem Term.noWild_cons {h t} : (Term.cons h t).NoWild ↔ h.NoWild ∧ t.NoWild := by
  simp [Term.NoWild, Term.Every]
@[simp] theorem Term.noWild_un {o t} : (Term.un o t).NoWild ↔ t.NoWild := by
  simp [Term.NoWild, Term.Every]
@[simp] theorem Term.noWild_bin {o l r} : (Term.bin o l r).NoWild ↔ l.NoWild ∧ r.NoWild := by
  simp [Term.NoWild, Term.Every]

@[simp] theorem Term.closed_bool {b} : (Term.bool b).Closed := by simp [Term.Closed, Term.Every]
@[simp] theorem Term.closed_num {b} : (Term.num b).Closed := by simp [Term.Closed, Term.Every]
@[simp] theorem Term.closed_str {b} : (Term.str b).Closed := by simp [Term.Closed, Term.Every]
@[simp] theorem Term.closed_var {b} : (Term.var b).Closed ↔ False := by simp [Term.Closed, Term.Every]
@[simp] theorem Term.closed_wild : (Term.wild).Closed ↔ False := by simp [Term.Closed, Term.Every]
@[simp] theorem Term.closed_lit {f as xs} : (Term.lit f as xs).Closed ↔ ∀ t ∈ as, t.Closed := by
  simp [Term.Closed, Term.Every, Term.everyL_iff]
@[simp] theorem Term.closed_tup {xs} : (Term.tup xs).Closed ↔ ∀ t ∈ xs, t.Closed := by
  simp [Term.Closed, Term.Every, Term.everyL_iff]
@[simp] theorem Term.closed_cons {h t} : (Term.cons h t).Closed ↔ h.Closed ∧ t.Closed := by
  simp [Term.Closed, Term.Every]
@[simp] theorem Term.closed_un {o t} : (Term.un o t).Closed ↔ False := by
  simp [Term.Closed, Term.Every]
@[simp] theorem Term.closed_bin {o l r} : (Term.bin o l r).Closed ↔ False := by
  simp [Term.Closed, Term.Every]

@[simp] theorem Term.noAnnots_bool {b} : (Term.bool b).NoAnnots := by simp [Term.NoAnnots, Term.Every]
@[simp] theorem Term.noAnnots_num {b} : (Term.num b).NoAnnots := by simp [Term.NoAnnots, Term.Every]
@[simp] theorem Term.noAnnots_str {b} : (Term.str b).NoAnnots := by simp [Term.NoAnnots, Term.Every]
@[simp] theorem Term.noAnnots_var {b} : (Term.var b).NoAnnots := by simp [Term.NoAnnots, Term.Every]
@[simp] theorem Term.noAnnots_wild : (Term.wild).NoAnnots := by simp [Term.NoAnnots, Term.Every]
@[simp] theorem Term.noAnnots_lit {f as xs} :
    (Term.lit f as xs).NoAnnots ↔ xs = [] ∧ ∀ t ∈ as, t.NoAnnots := by
  cases xs <;> simp [Term.NoAnnots, Term.Every, Term.everyL_iff]
@[simp] theorem Term.noAnnots_tup {xs} : (Term.tup xs).NoAnnots ↔ ∀ t ∈ xs, t.NoAnnots := by
  simp [Term.NoAnnots, Term.Every, Term.everyL_iff]
@[simp] theorem Term.noAnnots_cons {h t} : (Term.cons h t).NoAnnots ↔ h.NoAnnots ∧ t.NoAnnots := by
  simp [Term.NoAnnots, Term.Every]
@[simp] theorem Term.noAnnots_un {o t} : (Term.un o t).NoAnnots ↔ t.NoAnnots := by
  simp [Term.NoAnnots, Term.Every]
@[simp] theorem Term.noAnnots_bin {o l r} : (Term.bin o l r).NoAnnots ↔ l.NoAnnots ∧ r.NoAnnots := by
  simp [Term.NoAnnots, Term.Every]

@[simp] theorem Term.noCmp_bool {b} : (Term.bool b).NoCmp := by simp [Term.NoCmp, Term.Every]
@[simp] theorem Term.noCmp_num {b} : (Term.num b).NoCmp := by simp [Term.NoCmp, Term.Every]
@[simp] theorem Term.noCmp_str {b} : (Term.str b).NoCmp := by simp [Term.NoCmp, Term.Every]
@[simp] theorem Term.noCmp_var {b} : (Term.var b).NoCmp := by simp [Term.NoCmp, Term.Every]
@[simp] theorem Term.noCmp_wild : (Term.wild).NoCmp := by simp [Term.NoCmp, Term.Every]
@[simp] theorem Term.noCmp_lit {f as xs} :
    (Term.lit f as xs).NoCmp ↔ ∀ t ∈ as, t.NoCmp := by
  simp [Term.NoCmp, Term.Every, Term.everyL_iff]
@[simp] theorem Term.noCmp_tup {xs} : (Term.tup xs).NoCmp ↔ ∀ t ∈ xs, t.NoCmp := by
  simp [Term.NoCmp, Term.Every, Term.everyL_iff]
@[simp] theorem Term.noCmp_cons {h t} : (Term.cons h t).NoCmp ↔ h.NoCmp ∧ t.NoCmp := by
  simp [Term.NoCmp, Term.Every]
@[simp] theorem Term.noCmp_un {o t} : (Term.un o t).NoCmp ↔ t.NoCmp := by
  simp [Term.NoCmp, Term.Every]
@[simp] theorem Term.noCmp_bin {o l r} :
    (Term.bin o l r).NoCmp ↔ o.compOp = false ∧ l.NoCmp ∧ r.NoCmp := by
  simp [Term.NoCmp, Term.Every]
end simps

section den
variable [Arith]

theorem denL_unique_of {σ : Asg} {ts : List Term}
    (ih : ∀ t ∈ ts, ∀ v w, Den σ t v → Den σ t w → v = w) :
    ∀ v w, DenL σ ts v → DenL σ ts w → v = w := by
  induction ts with
  | nil => intro v w h1 h2; simp [DenL] at h1 h2; simp [h1, h2]
  | cons t ts iht =>
    intro v w h1 h2
    obtain ⟨a, u, ha, hu, rfl⟩ := h1
    obtain ⟨a', u', ha', hu', rfl⟩ := h2
    rw [ih t (by simp) a a' ha ha', iht (fun t ht => ih t (by simp [ht])) u u' hu hu']

/-- A wildcard-free term denotes at most one value. -/
theorem den_unique {σ : Asg} : ∀ t : Term, t.NoWild → ∀ v w, Den σ t v → Den σ t w → v = w := by
  intro t
  induction t using Term.ind with
  | bool | num | str | var => intro _ v w h1 h2; simp [Den] at h1 h2; simp [h1, h2]
  | wild => simp
  | lit f args annots ih _ =>
    intro hw v w ⟨a, ha, e1⟩ ⟨b, hb, e2⟩
    simp at hw
    rw [e1, e2, denL_unique_of (fun t ht => ih t ht (hw t ht)) a b ha hb]
  | tup xs ih =>
    intro hw v w h1 h2
    simp at hw
    exact denL_unique_of (fun t ht => ih t ht (hw t ht)) v w h1 h2
  | cons h t ih1 ih2 =>
    intro hw v w ⟨a, b, ha, hb, e1⟩ ⟨a', b', ha', hb', e2⟩
    simp at hw
    rw [e1, e2, ih1 hw.1 a a' ha ha', ih2 hw.2 b b' hb hb']
  | un op t ih =>
    intro hw v w ⟨a, ha, e1⟩ ⟨b, hb, e2⟩
    simp at hw
    rw [ih hw a b ha hb] at e1
    simpa [e1] using e2
  | bin op l r ih1 ih2 =>
    intro hw v w ⟨a, b, ha, hb, e1⟩ ⟨a', b', ha', hb', e2⟩
    simp at hw
    rw [ih1 hw.1 a a' ha ha', ih2 hw.2 b b' hb hb'] at e1
    simpa [e1] using e2

theorem denL_unique {σ : Asg} {ts : List Term} (h : ∀ t ∈ ts, t.NoWild) {v w : Val}
    (h1 : DenL σ ts v) (h2 : DenL σ ts w) : v = w :=
  denL_unique_of (fun t ht => den_unique t (h t ht)) v w h1 h2

theorem denL_exists_of {σ : Asg} {ts : List Term} (ih : ∀ t ∈ ts, ∃ v, Den σ t v) :
    ∃ v, DenL σ ts v := by
  induction ts with
  | nil => exact ⟨.nil, rfl⟩
  | cons t ts iht =>
    obtain ⟨a, ha⟩ := ih t (by simp)
    obtain ⟨w, hw⟩ := iht (fun t ht => ih t (by simp [ht]))
    exact ⟨.cons a w, a, w, ha, hw, rfl⟩

/-- A closed term denotes a value. -/
theorem den_exists {σ : Asg} : ∀ t : Term, t.Closed → ∃ v, Den σ t v := by
  intro t
  induction t using Term.ind with
  | bool b => exact fun _ => ⟨.bool b, rfl⟩
  | num b => exact fun _ => ⟨.num b, rfl⟩
  | str b => exact fun _ => ⟨.str b, rfl⟩
  | lit f args annots ih _ =>
    intro h; simp at h
    obtain ⟨v, hv⟩ := denL_exists_of (σ := σ) (fun t ht => ih t ht (h t ht))
    exact ⟨.app f v, v, hv, rfl⟩
  | tup xs ih =>
    intro h; simp at h
    exact denL_exists_of (fun t ht => ih t ht (h t ht))
  | cons a b i1 i2 =>
    intro h; simp at h
    obtain ⟨v, hv⟩ := i1 h.1
    obtain ⟨w, hw⟩ := i2 h.2
    exact ⟨.cons v w, v, w, hv, hw, rfl⟩
  | var | wild => simp
  | un op t => intro h; simp at h
  | bin op t => intro h; simp at h

theorem denL_indep_of {σ τ : Asg} {ts : List Term}
    (ih : ∀ t ∈ ts, ∀ v, Den σ t v ↔ Den τ t v) : ∀ v, DenL σ ts v ↔ DenL τ ts v := by
  induction ts with
  | nil => intro v; rfl
  | cons t ts iht =>
    intro v
    simp only [DenL, ih t (by simp), iht (fun t ht => ih t (by simp [ht]))]

/-- The value of a closed term does not depend on the assignment. -/
theorem den_indep {σ τ : Asg} : ∀ t : Term, t.Closed → ∀ v, Den σ t v ↔ Den τ t v := by
  intro t
  induction t using Term.ind with
  | bool b => exact fun _ _ => Iff.rfl
  | num b => exact fun _ _ => Iff.rfl
  | str b => exact fun _ _ => Iff.rfl
  | lit f args annots ih _ =>
    intro h v; simp at h
    simp only [Den, denL_indep_of (fun t ht => ih t ht (h t ht))]
  | tup xs ih =>
    intro h v; simp at h
    simp only [Den, denL_indep_of (fun t ht => ih t ht (h t ht))]
  | cons a b i1 i2 =>
    intro h v; simp at h
    simp only [Den, i1 h.1, i2 h.2]
  | var | wild => simp
  | un op t => intro h; simp at h
  | bin op t => intro h; simp at h

/-- A list value: built from `nil` and `cons` at the top. -/
def Val.IsL : Val → Prop
  | .nil | .cons _ _ => True
  | _ => False

theorem denL_isL {σ : Asg} {ts : List Term} {v : Val} (h : DenL σ ts v) : v.IsL := by
  cases ts with
  | nil => simp [DenL] at h; subst h; trivial
  | cons t ts => obtain ⟨a, w, _, _, rfl⟩ := h; trivial

theorem denL_len {σ : Asg} : ∀ {ts : List Term} {v : Val}, DenL σ ts v → v.len = ts.length
  | [], v, h => by simp [DenL] at h; subst h; rfl
  | t :: ts, v, h => by
    obtain ⟨a, w, _, hw, rfl⟩ := h
    simp [Val.len, denL_len hw]

omit [Arith] in
theorem Val.tailList_norm {v : Val} (h : v.IsL) : v.norm.tailList = v.norm := by
  cases v <;> simp_all [Val.IsL, Val.norm, Val.tailList]

end den

end Verif
