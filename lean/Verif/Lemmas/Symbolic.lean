import Verif.Spec.Symbolic
import Verif.Lemmas.Rename
import Verif.Lemmas.Unify

/-! Taking unifications apart. -/

namespace Verif

section
variable [Arith] {vars : List Char → Term} {base : Nat}

/-- All unifications of the list are true. -/
def OpsTrue (vars : List Char → Term) (σ : Asg) (os : List SOp) : Prop := ∀ o ∈ os, UnifyTrue vars σ o.left o.right

/-- The variables of the unifications are below `n`. -/
def OpsBelow (vars : List Char → Term) (n : Nat) (os : List SOp) : Prop :=
  ∀ o ∈ os, (o.left.build vars).bound ≤ n ∧ (o.right.build vars).bound ≤ n

theorem opsTrue_append {σ : Asg} {os ps : List SOp} : OpsTrue vars σ (os ++ ps) ↔ OpsTrue vars σ os ∧ OpsTrue vars σ ps := by
  simp only [OpsTrue, List.mem_append]
  exact ⟨fun h => ⟨fun o ho => h o (.inl ho), fun o ho => h o (.inr ho)⟩, fun h o ho => ho.elim (h.1 o) (h.2 o)⟩

omit [Arith] in
theorem opsBelow_append {n : Nat} {os ps : List SOp} : OpsBelow vars n (os ++ ps) ↔ OpsBelow vars n os ∧ OpsBelow vars n ps := by
  simp only [OpsBelow, List.mem_append]
  exact ⟨fun h => ⟨fun o ho => h o (.inl ho), fun o ho => h o (.inr ho)⟩, fun h o ho => ho.elim (h.1 o) (h.2 o)⟩

omit [Arith] in
theorem OpsBelow.mono {m n : Nat} {os : List SOp} (h : OpsBelow vars m os) (hmn : m ≤ n) : OpsBelow vars n os :=
  fun o ho => ⟨Nat.le_trans (h o ho).1 hmn, Nat.le_trans (h o ho).2 hmn⟩

omit [Arith] in
theorem EqOutside.refl {m n : Nat} {σ : Asg} : EqOutside m n σ σ := fun _ _ => rfl

omit [Arith] in
theorem EqOutside.trans {m n k : Nat} {σ τ υ : Asg} (h : EqOutside m n σ τ) (h' : EqOutside n k τ υ) (hmn : m ≤ n) (hnk : n ≤ k) :
    EqOutside m k σ υ := fun x hx => by
  rw [h' x (by omega), h x (by omega)]

omit [Arith] in
theorem EqOutside.below {m n : Nat} {σ τ : Asg} (h : EqOutside m n σ τ) {b : Nat} (hb : b ≤ m) : EqBelow b σ τ :=
  fun x hx => (h x (.inl (by omega))).symm

theorem den_outside {m n : Nat} {σ τ : Asg} (h : EqOutside m n σ τ) {t : Term} (hb : t.bound ≤ m) (v : Val) : Den σ t v ↔ Den τ t v :=
  den_congr t (h.below hb) v

theorem unifyTrue_outside {m n : Nat} {σ τ : Asg} (h : EqOutside m n σ τ) {a b : Ast} (ha : (a.build vars).bound ≤ m)
    (hb : (b.build vars).bound ≤ m) : UnifyTrue vars σ a b ↔ UnifyTrue vars τ a b := by
  have h1 : Agree σ (a.build vars) (b.build vars) ↔ Agree τ (a.build vars) (b.build vars) := by
    simp only [Agree, den_outside h ha, den_outside h hb]
  have h2 : AnnotsMatch σ (a.build vars).annots (b.build vars).annots ↔ AnnotsMatch τ (a.build vars).annots (b.build vars).annots := by
    have := annotsMatch_map (σ := σ) (τ := τ) (f := id) (g := id) (xs := (a.build vars).annots) (ys := (b.build vars).annots)
      (fun x hx v => den_outside h (Nat.le_trans (Term.annots_bound x hx) ha) v)
      (fun x hx v => den_outside h (Nat.le_trans (Term.annots_bound x hx) hb) v)
    simpa using this
  simp only [UnifyTrue, h1, h2]

theorem opsTrue_outside {m n : Nat} {σ τ : Asg} (h : EqOutside m n σ τ) {os : List SOp} (ho : OpsBelow vars m os) (ht : OpsTrue vars σ os) :
    OpsTrue vars τ os :=
  fun o hm => (unifyTrue_outside h (ho o hm).1 (ho o hm).2).1 (ht o hm)

omit [Arith] in
theorem NameOK.notLit (hn : NameOK vars base) (x : List Char) : (vars x).isLiteral = false := by
  rcases hn.shape x with ⟨n, h⟩ | h <;> simp [h, Term.isLiteral]

/-! ## New variables for operations -/

/-- What `constify` does: the new node has the same values if the new variables have theirs, and there are such values. -/
structure ConOK (vars : List Char → Term) (base : Nat) (a : Ast) (k : Nat) (r : Ast × List SOp × Nat) : Prop where
  le : k ≤ r.2.2
  bound : (r.1.build vars).bound ≤ base + r.2.2
  below : OpsBelow vars (base + r.2.2) r.2.1
  sound : ∀ σ, OpsTrue vars σ r.2.1 → ∀ v, Den σ (r.1.build vars) v → Den σ (a.build vars) v
  compl : ∀ σ v, Den σ (a.build vars) v → ∃ τ, EqOutside (base + k) (base + r.2.2) σ τ ∧ OpsTrue vars τ r.2.1 ∧ Den τ (r.1.build vars) v

structure ConOKL (vars : List Char → Term) (base : Nat) (as : List Ast) (k : Nat) (r : List Ast × List SOp × Nat) : Prop where
  le : k ≤ r.2.2
  bound : Term.boundL (Ast.builds vars r.1) ≤ base + r.2.2
  below : OpsBelow vars (base + r.2.2) r.2.1
  sound : ∀ σ, OpsTrue vars σ r.2.1 → ∀ v, DenL σ (Ast.builds vars r.1) v → DenL σ (Ast.builds vars as) v
  compl : ∀ σ v, DenL σ (Ast.builds vars as) v → ∃ τ, EqOutside (base + k) (base + r.2.2) σ τ ∧ OpsTrue vars τ r.2.1 ∧ DenL τ (Ast.builds vars r.1) v

theorem constify_new (hn : NameOK vars base) {a : Ast} {k : Nat} (hb : (a.build vars).bound ≤ base + k) :
    ConOK vars base a k (.var (infName k), [⟨.var (infName k), a, true⟩], k + 1) where
  le := Nat.le_succ k
  bound := by simp [Ast.build, hn.inf, Term.bound]; omega
  below := by
    intro o ho; simp only [List.mem_singleton] at ho; subst ho
    simp [Ast.build, hn.inf, Term.bound]; omega
  sound σ h v hv := by
    obtain ⟨⟨w, hw, hw'⟩, -⟩ := h _ (List.mem_singleton.2 rfl)
    simp only [Ast.build, hn.inf, Den] at hw hv
    subst hw; subst hv; exact hw'
  compl σ v hv := by
    refine ⟨fun x => if x = base + k then v else σ x, fun x hx => ?_, ?_, ?_⟩
    · show (if x = base + k then v else σ x) = σ x
      have hx' : x < base + k ∨ base + (k + 1) ≤ x := hx
      rw [if_neg]; omega
    · intro o ho; simp only [List.mem_singleton] at ho; subst ho
      refine ⟨⟨v, by simp [Ast.build, hn.inf, Den], ?_⟩, ?_⟩
      · refine (den_congr _ (fun x hx => ?_) v).1 hv
        show σ x = if x = base + k then v else σ x
        have hx' : x < (a.build vars).bound := hx
        rw [if_neg]; omega
      · simp [Ast.build, hn.notLit]
    · simp [Ast.build, hn.inf, Den]

mutual
theorem constify_ok (hn : NameOK vars base) : ∀ (a : Ast) (k : Nat), (a.build vars).bound ≤ base + k → ConOK vars base a k (constify a k)
  | .const v, k, hb => ⟨Nat.le_refl _, hb, fun _ h => by simp [constify] at h, fun _ _ _ h => h, fun σ v h => ⟨σ, .refl, fun _ h => by simp [constify] at h, h⟩⟩
  | .var v, k, hb => ⟨Nat.le_refl _, hb, fun _ h => by simp [constify] at h, fun _ _ _ h => h, fun σ v h => ⟨σ, .refl, fun _ h => by simp [constify] at h, h⟩⟩
  | .list ts, k, hb => by rw [constify]; exact constify_new hn hb
  | .linked _ _, k, hb => by rw [constify]; exact constify_new hn hb
  | .un _ _, k, hb => by rw [constify]; exact constify_new hn hb
  | .bin _ _ _, k, hb => by rw [constify]; exact constify_new hn hb
  | .lit f ts as, k, hb => by
    rw [constify]
    simp only [Ast.build, Term.bound] at hb
    have ih := constifyL_ok hn ts k (by omega)
    have hle := ih.le
    refine ⟨ih.le, ?_, ih.below, ?_, ?_⟩
    · have := ih.bound; simp only [Ast.build, Term.bound]; omega
    · intro σ ho v hv
      simp only [Ast.build, Den] at hv ⊢
      obtain ⟨w, hw, rfl⟩ := hv
      exact ⟨w, ih.sound σ ho w hw, rfl⟩
    · intro σ v hv
      simp only [Ast.build, Den] at hv ⊢
      obtain ⟨w, hw, rfl⟩ := hv
      obtain ⟨τ, h1, h2, h3⟩ := ih.compl σ w hw
      exact ⟨τ, h1, h2, w, h3, rfl⟩
theorem constifyL_ok (hn : NameOK vars base) : ∀ (as : List Ast) (k : Nat), Term.boundL (Ast.builds vars as) ≤ base + k →
    ConOKL vars base as k (constifyL as k)
  | [], k, hb => ⟨Nat.le_refl _, hb, fun _ h => by simp [constifyL] at h, fun _ _ _ h => h, fun σ v h => ⟨σ, .refl, fun _ h => by simp [constifyL] at h, h⟩⟩
  | t :: ts, k, hb => by
    rw [constifyL]
    simp only [Ast.builds, Term.boundL] at hb
    have h1 := constify_ok hn t k (by omega)
    have l1 := h1.le
    have h2 := constifyL_ok hn ts (constify t k).2.2 (by omega)
    have l2 := h2.le
    refine ⟨Nat.le_trans l1 l2, ?_, ?_, ?_, ?_⟩
    · have b1 := h1.bound; have b2 := h2.bound; simp only [Ast.builds, Term.boundL]; omega
    · exact opsBelow_append.2 ⟨h1.below.mono (Nat.add_le_add_left l2 base), h2.below⟩
    · intro σ ho v hv
      obtain ⟨o1, o2⟩ := opsTrue_append.1 ho
      simp only [Ast.builds, DenL] at hv ⊢
      obtain ⟨a, w, ha, hw, rfl⟩ := hv
      exact ⟨a, w, h1.sound σ o1 a ha, h2.sound σ o2 w hw, rfl⟩
    · intro σ v hv
      simp only [Ast.builds, DenL] at hv
      obtain ⟨a, w, ha, hw, rfl⟩ := hv
      obtain ⟨τ, e1, o1, d1⟩ := h1.compl σ a ha
      have hw' : DenL τ (Ast.builds vars ts) w := by
        have := (den_congr (.tup (Ast.builds vars ts)) (e1.below (by simp only [Term.bound]; omega)) w).1 (by simpa only [Den] using hw)
        simpa only [Den] using this
      obtain ⟨υ, e2, o2, d2⟩ := h2.compl τ w hw'
      refine ⟨υ, e1.trans e2 (Nat.add_le_add_left l1 base) (Nat.add_le_add_left l2 base), opsTrue_append.2 ⟨opsTrue_outside e2 h1.below o1, o2⟩, ?_⟩
      simp only [Ast.builds, DenL]
      exact ⟨a, w, (den_outside e2 h1.bound a).1 d1, d2, rfl⟩
end

/-! ## Taking apart -/

theorem agree_tup' {σ : Asg} {ts us : List Term} : Agree σ (.tup ts) (.tup us) ↔ AgreeL σ ts us := by
  simp only [AgreeL, Agree, Den]

theorem annotsMatch_nil {σ : Asg} {ys : List Term} : AnnotsMatch σ [] ys := ⟨[], ⟨ys, by simp⟩, by simp [AgreeEach]⟩

theorem unifyTrue_bare (hn : NameOK vars base) {σ : Asg} {a b : Ast} (ha : a.Bare) : UnifyTrue vars σ a b ↔ Agree σ (a.build vars) (b.build vars) := by
  refine ⟨fun h => h.1, fun h => ⟨h, fun hl _ => ?_⟩⟩
  cases a with
  | lit f ts as => simp only [Ast.Bare] at ha; rw [ha.1]; simp only [Ast.build, Ast.builds, Term.annots]; exact annotsMatch_nil
  | var x => simp [Ast.build, hn.notLit] at hl
  | const v => rcases v with b | (q | _) | s <;> simp [Ast.build, ConstV.term, Term.isLiteral] at hl
  | _ => simp [Ast.build, Term.isLiteral] at hl

theorem unifyTrue_notLit {σ : Asg} {a b : Ast} (h : (a.build vars).isLiteral = false ∨ (b.build vars).isLiteral = false) :
    UnifyTrue vars σ a b ↔ Agree σ (a.build vars) (b.build vars) := by
  refine ⟨fun h => h.1, fun h' => ⟨h', fun h1 h2 => ?_⟩⟩
  rcases h with h | h
  · rw [h] at h1; cases h1
  · rw [h] at h2; cases h2

omit [Arith] in
theorem Ast.Bare.top {a : Ast} (h : a.Bare) : a.TopBare := by
  cases a <;> simp only [Ast.Bare, Ast.TopBare] at h ⊢ <;> first | exact h | exact h.2

/-- What taking apart does. -/
structure SplitOK (vars : List Char → Term) (base : Nat) (P : Asg → Prop) (k : Nat) (r : List SOp × Nat) : Prop where
  le : k ≤ r.2
  below : OpsBelow vars (base + r.2) r.1
  sound : ∀ σ, OpsTrue vars σ r.1 → P σ
  compl : ∀ σ, P σ → ∃ τ, EqOutside (base + k) (base + r.2) σ τ ∧ OpsTrue vars τ r.1

theorem SplitOK.one {a b : Ast} {c : Bool} {k : Nat} (ha : (a.build vars).bound ≤ base + k) (hb : (b.build vars).bound ≤ base + k) :
    SplitOK vars base (fun σ => UnifyTrue vars σ a b) k ([⟨a, b, c⟩], k) where
  le := Nat.le_refl _
  below o ho := by simp only [List.mem_singleton] at ho; subst ho; exact ⟨ha, hb⟩
  sound σ h := h _ (List.mem_singleton.2 rfl)
  compl σ h := ⟨σ, .refl, fun o ho => by simp only [List.mem_singleton] at ho; subst ho; exact h⟩

theorem keepOp_ok {a b : Ast} {k : Nat} {r : List SOp × Nat} (ha : (a.build vars).bound ≤ base + k) (hb : (b.build vars).bound ≤ base + k)
    (h : keepOp a b k = .ok r) : SplitOK vars base (fun σ => UnifyTrue vars σ a b) k r := by
  cases b <;> simp only [keepOp] at h <;> first | cases h; exact .one ha hb | cases h

/-- A variable with a literal. -/
theorem SplitOK.con_left (hn : NameOK vars base) {a : Ast} {x : List Char} {c : Bool} {k : Nat} (ha : (a.build vars).bound ≤ base + k)
    (hx : (vars x).bound ≤ base + k) :
    SplitOK vars base (fun σ => UnifyTrue vars σ (.var x) a) k ((constify a k).2.1 ++ [⟨.var x, (constify a k).1, c⟩], (constify a k).2.2) where
  le := (constify_ok hn a k ha).le
  below := by
    have h := constify_ok hn a k ha
    have hle := h.le
    refine opsBelow_append.2 ⟨h.below, fun o ho => ?_⟩
    simp only [List.mem_singleton] at ho; subst ho
    exact ⟨by simp only [Ast.build]; omega, h.bound⟩
  sound σ ho := by
    obtain ⟨o1, o2⟩ := opsTrue_append.1 ho
    obtain ⟨⟨v, h1, h2⟩, -⟩ := o2 _ (List.mem_singleton.2 rfl)
    exact (unifyTrue_notLit (.inl (by simp only [Ast.build]; exact hn.notLit x))).2 ⟨v, h1, (constify_ok hn a k ha).sound σ o1 v h2⟩
  compl σ h := by
    obtain ⟨⟨v, h1, h2⟩, -⟩ := h
    obtain ⟨τ, e, o, d⟩ := (constify_ok hn a k ha).compl σ v h2
    refine ⟨τ, e, opsTrue_append.2 ⟨o, fun p hp => ?_⟩⟩
    simp only [List.mem_singleton] at hp; subst hp
    exact (unifyTrue_notLit (.inl (by simp only [Ast.build]; exact hn.notLit x))).2 ⟨v, (den_outside e (by simpa only [Ast.build] using hx) v).1 h1, d⟩

theorem SplitOK.con_right (hn : NameOK vars base) {a : Ast} {x : List Char} {c : Bool} {k : Nat} (ha : (a.build vars).bound ≤ base + k)
    (hx : (vars x).bound ≤ base + k) :
    SplitOK vars base (fun σ => UnifyTrue vars σ a (.var x)) k ((constify a k).2.1 ++ [⟨(constify a k).1, .var x, c⟩], (constify a k).2.2) where
  le := (constify_ok hn a k ha).le
  below := by
    have h := constify_ok hn a k ha
    have hle := h.le
    refine opsBelow_append.2 ⟨h.below, fun o ho => ?_⟩
    simp only [List.mem_singleton] at ho; subst ho
    exact ⟨h.bound, by simp only [Ast.build]; omega⟩
  sound σ ho := by
    obtain ⟨o1, o2⟩ := opsTrue_append.1 ho
    obtain ⟨⟨v, h1, h2⟩, -⟩ := o2 _ (List.mem_singleton.2 rfl)
    exact (unifyTrue_notLit (.inr (by simp only [Ast.build]; exact hn.notLit x))).2 ⟨v, (constify_ok hn a k ha).sound σ o1 v h1, h2⟩
  compl σ h := by
    obtain ⟨⟨v, h1, h2⟩, -⟩ := h
    obtain ⟨τ, e, o, d⟩ := (constify_ok hn a k ha).compl σ v h1
    refine ⟨τ, e, opsTrue_append.2 ⟨o, fun p hp => ?_⟩⟩
    simp only [List.mem_singleton] at hp; subst hp
    exact (unifyTrue_notLit (.inr (by simp only [Ast.build]; exact hn.notLit x))).2 ⟨v, d, (den_outside e (by simpa only [Ast.build] using hx) v).1 h2⟩

omit [Arith] in
theorem sameValue_eq {v w : ConstV} (hv : (Ast.const v).Bare) (hw : (Ast.const w).Bare) (h : v.sameValue w = true) : v = w := by
  rcases v with b | (q | _) | s <;> rcases w with c | (p | _) | t <;> simp_all [Ast.Bare, ConstV.sameValue]

omit [Arith] in
theorem dummy_below {n : Nat} {as bs : List Ast} (ha : Term.boundL (Ast.builds vars as) ≤ n) (hb : Term.boundL (Ast.builds vars bs) ≤ n) :
    OpsBelow vars n [dummyOp as bs] := fun o ho => by
  simp only [List.mem_singleton] at ho; subst ho
  simp only [dummyOp, Ast.build, Ast.builds, Term.bound, Term.boundL]
  omega

theorem dummy_true {σ : Asg} {as bs : List Ast} :
    OpsTrue vars σ [dummyOp as bs] ↔ AnnotsMatch σ (Ast.builds vars as) (Ast.builds vars bs) := by
  simp only [OpsTrue, List.mem_singleton, forall_eq, UnifyTrue, dummyOp, Ast.build, Term.annots, Term.isLiteral, forall_const, agree_lit, true_and]
  exact ⟨fun h => h.2, fun h => ⟨⟨.nil, by simp [Ast.builds, DenL]⟩, h⟩⟩

theorem annots_outside {m n : Nat} {σ τ : Asg} (h : EqOutside m n σ τ) {xs ys : List Term} (ha : Term.boundL xs ≤ m) (hb : Term.boundL ys ≤ m) :
    AnnotsMatch σ xs ys ↔ AnnotsMatch τ xs ys := by
  have := annotsMatch_map (σ := σ) (τ := τ) (f := id) (g := id) (xs := xs) (ys := ys)
    (fun x hx v => den_outside h ((Term.boundL_le.1 ha) x hx) v) (fun x hx v => den_outside h ((Term.boundL_le.1 hb) x hx) v)
  simpa using this

mutual
theorem splitUnify_ok (hn : NameOK vars base) {unb : List Char → Bool} : ∀ (l r : Ast) (k : Nat) (p : List SOp × Nat), l.TopBare → r.TopBare →
    (l.build vars).bound ≤ base + k → (r.build vars).bound ≤ base + k → splitUnify unb l r k = .ok p →
    SplitOK vars base (fun σ => UnifyTrue vars σ l r) k p
  | .linked _ _, _, k, p, _, _, _, _, h => by rw [splitUnify.eq_def] at h; cases h
  | .var x, r, k, p, hl, hr, bl, br, h => by
    rw [splitUnify.eq_def] at h
    cases r with
    | linked => cases h
    | lit g us bs => cases h; exact .con_left hn br bl
    | _ => cases h; exact .one bl br
  | .un op a, r, k, p, hl, hr, bl, br, h => by
    rw [splitUnify.eq_def] at h
    cases r with
    | var y => cases h; exact .one bl br
    | _ => exact keepOp_ok bl br h
  | .bin op a b, r, k, p, hl, hr, bl, br, h => by
    rw [splitUnify.eq_def] at h
    cases r with
    | var y => cases h; exact .one bl br
    | _ => exact keepOp_ok bl br h
  | .const v, r, k, p, hl, hr, bl, br, h => by
    rw [splitUnify.eq_def] at h
    cases r with
    | var y => cases h; exact .one bl br
    | const w =>
      cases h
      by_cases e : v.sameValue w = true
      · rw [if_pos e]
        have := sameValue_eq (by simpa only [Ast.TopBare] using hl) (by simpa only [Ast.TopBare] using hr) e
        subst this
        refine ⟨Nat.le_refl _, fun o ho => by simp at ho, fun σ _ => ?_, fun σ _ => ⟨σ, .refl, fun o ho => by simp at ho⟩⟩
        refine (unifyTrue_bare hn (by simpa only [Ast.TopBare] using hl)).2 ?_
        rcases v with b | (q | _) | s <;> simp [Agree, Ast.build, ConstV.term, Den]
      · rw [if_neg e]; exact .one bl br
    | _ => exact keepOp_ok bl br h
  | .list ts, r, k, p, hl, hr, bl, br, h => by
    rw [splitUnify.eq_def] at h
    cases r with
    | var y => cases h; exact .one bl br
    | list us =>
      simp only at h
      by_cases e : ts.length ≠ us.length
      · rw [if_pos e] at h; cases h; exact .one bl br
      · rw [if_neg e] at h
        have := splitAll_ok hn ts us k p (by simpa [Ast.TopBare, Ast.Bare] using hl) (by simpa [Ast.TopBare, Ast.Bare] using hr)
          (by simpa [Ast.build, Term.bound] using bl) (by simpa [Ast.build, Term.bound] using br) (by omega) h
        refine ⟨this.le, this.below, fun σ ho => ?_, fun σ ho => this.compl σ ?_⟩
        · exact (unifyTrue_notLit (.inl (by simp [Ast.build, Term.isLiteral]))).2 (by simp only [Ast.build]; exact agree_tup'.2 (this.sound σ ho))
        · have := ho.1; simp only [Ast.build] at this; exact agree_tup'.1 this
    | _ => exact keepOp_ok bl br h
  | .lit f ts as, r, k, p, hl, hr, bl, br, h => by
    rw [splitUnify.eq_def] at h
    cases r with
    | var y => cases h; exact .con_right hn bl br
    | lit g us bs =>
      simp only at h
      by_cases e : f ≠ g ∨ ts.length ≠ us.length ∨ as.length > bs.length
      · rw [if_pos e] at h; cases h; exact .one bl br
      · rw [if_neg e] at h
        simp only [not_or, Decidable.not_not] at e
        obtain ⟨rfl, el, -⟩ := e
        cases hs : splitAll unb ts us k with
        | oof => rw [hs] at h; cases h
        | err e => rw [hs] at h; cases h
        | ok q =>
          rw [hs] at h
          simp only [Ev.bind] at h
          simp only [Ast.build, Term.bound] at bl br
          have ih := splitAll_ok hn ts us k q (by simpa [Ast.TopBare] using hl) (by simpa [Ast.TopBare] using hr)
            (by omega) (by omega) el hs
          have hle := ih.le
          by_cases ea : as = []
          · rw [if_pos ea] at h; cases h; subst ea
            refine ⟨ih.le, ih.below, fun σ ho => ⟨?_, fun _ _ => ?_⟩, fun σ ho => ih.compl σ ?_⟩
            · simp only [Ast.build]; exact agree_lit.2 ⟨rfl, ih.sound σ ho⟩
            · simp only [Ast.build, Ast.builds, Term.annots]; exact annotsMatch_nil
            · have := ho.1; simp only [Ast.build] at this; exact (agree_lit.1 this).2
          · rw [if_neg ea] at h
            split at h
            · cases h
            · cases h
              refine ⟨ih.le, opsBelow_append.2 ⟨ih.below, dummy_below (by simp only; omega) (by simp only; omega)⟩, fun σ ho => ?_, fun σ ho => ?_⟩
              · obtain ⟨o1, o2⟩ := opsTrue_append.1 ho
                refine ⟨?_, fun _ _ => ?_⟩
                · simp only [Ast.build]; exact agree_lit.2 ⟨rfl, ih.sound σ o1⟩
                · simp only [Ast.build, Term.annots]; exact dummy_true.1 o2
              · obtain ⟨h1, h2⟩ := ho
                simp only [Ast.build, Term.annots, Term.isLiteral, forall_const] at h1 h2
                obtain ⟨τ, e1, o1⟩ := ih.compl σ (agree_lit.1 h1).2
                exact ⟨τ, e1, opsTrue_append.2 ⟨o1, dummy_true.2 ((annots_outside e1 (by omega) (by omega)).1 h2)⟩⟩
    | _ => exact keepOp_ok bl br h
theorem splitAll_ok (hn : NameOK vars base) {unb : List Char → Bool} : ∀ (ts us : List Ast) (k : Nat) (p : List SOp × Nat), Ast.BareL ts → Ast.BareL us →
    Term.boundL (Ast.builds vars ts) ≤ base + k → Term.boundL (Ast.builds vars us) ≤ base + k → ts.length = us.length →
    splitAll unb ts us k = .ok p →
    SplitOK vars base (fun σ => AgreeL σ (Ast.builds vars ts) (Ast.builds vars us)) k p
  | [], [], k, p, _, _, _, _, _, h => by
    rw [splitAll.eq_def] at h; cases h
    exact ⟨Nat.le_refl _, fun o ho => by simp at ho, fun σ _ => ⟨.nil, by simp [Ast.builds, DenL]⟩, fun σ _ => ⟨σ, .refl, fun o ho => by simp at ho⟩⟩
  | [], _ :: _, k, p, _, _, _, _, e, _ => by simp at e
  | _ :: _, [], k, p, _, _, _, _, e, _ => by simp at e
  | t :: ts, u :: us, k, p, ht, hu, bt, bu, e, h => by
    rw [splitAll.eq_def] at h
    simp only at h
    simp only [Ast.BareL] at ht hu
    simp only [Ast.builds, Term.boundL] at bt bu
    cases h1 : splitUnify unb t u k with
    | oof => rw [h1] at h; cases h
    | err e => rw [h1] at h; cases h
    | ok q =>
      rw [h1] at h
      simp only [Ev.bind] at h
      have i1 := splitUnify_ok hn t u k q ht.1.top hu.1.top (by omega) (by omega) h1
      have l1 := i1.le
      cases h2 : splitAll unb ts us q.2 with
      | oof => rw [h2] at h; cases h
      | err e => rw [h2] at h; cases h
      | ok s =>
        rw [h2] at h
        cases h
        have i2 := splitAll_ok hn ts us q.2 s ht.2 hu.2 (by omega) (by omega) (by simpa using e) h2
        have l2 := i2.le
        refine ⟨Nat.le_trans l1 l2, opsBelow_append.2 ⟨i1.below.mono (Nat.add_le_add_left l2 base), i2.below⟩, fun σ ho => ?_, fun σ ho => ?_⟩
        · obtain ⟨o1, o2⟩ := opsTrue_append.1 ho
          simp only [Ast.builds]
          exact agreeL_cons.2 ⟨(unifyTrue_bare hn ht.1).1 (i1.sound σ o1), i2.sound σ o2⟩
        · simp only [Ast.builds] at ho
          obtain ⟨a1, a2⟩ := agreeL_cons.1 ho
          obtain ⟨τ, e1, o1⟩ := i1.compl σ ((unifyTrue_bare hn ht.1).2 a1)
          have a2' : AgreeL τ (Ast.builds vars ts) (Ast.builds vars us) := by
            obtain ⟨w, d1, d2⟩ := a2
            have k1 := (den_outside e1 (t := .tup (Ast.builds vars ts)) (by simp only [Term.bound]; omega) w).1 (by simpa only [Den] using d1)
            have k2 := (den_outside e1 (t := .tup (Ast.builds vars us)) (by simp only [Term.bound]; omega) w).1 (by simpa only [Den] using d2)
            exact ⟨w, by simpa only [Den] using k1, by simpa only [Den] using k2⟩
          obtain ⟨υ, e2, o2⟩ := i2.compl τ a2'
          exact ⟨υ, e1.trans e2 (Nat.add_le_add_left l1 base) (Nat.add_le_add_left l2 base), opsTrue_append.2 ⟨opsTrue_outside e2 i1.below o1, o2⟩⟩
end

end

end Verif
