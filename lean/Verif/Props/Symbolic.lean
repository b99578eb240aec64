import Verif.Lemmas.Symbolic
import Verif.Lemmas.QLogic
import Verif.Spec.ExactArith
import Verif.Spec.KB

/-! # C84: unifications that the optimiser takes apart -/

namespace Verif

section
variable [Arith] {W A G : Type} [QWorld W A G] {w : W} {vars : List Char → Term} {base : Nat}

theorem holds_conjOps {σ : Asg} : ∀ os : List SOp, Holds (A := A) w σ ((conjOps os).1.unifyQuery vars) ↔ OpsTrue vars σ os
  | [] => by
    simp only [conjOps, Ast.unifyQuery]
    exact ⟨fun _ o ho => by simp at ho, fun _ => .tru⟩
  | [o] => by
    simp only [conjOps, SOp.node, Ast.unifyQuery, OpsTrue, List.mem_singleton, forall_eq]
    exact holds_unify_iff
  | o :: p :: os => by
    simp only [conjOps, SOp.node, Ast.unifyQuery, holds_and_iff, holds_conjOps (p :: os), holds_unify_iff]
    simp only [OpsTrue, List.mem_cons, forall_eq_or_imp, UnifyTrue]

/-- **C84** (partial: no annotations inside, no booleans).  The query that the optimiser puts in place of `l = r` is true for the same values of the
variables of the program; the variables that are new have suitable values. -/
theorem C84_split_partial {unb : List Char → Bool} {l r q : Ast} {k : Nat} {always : Bool} (hn : NameOK vars base)
    (hl : l.TopBare) (hr : r.TopBare) (bl : (l.build vars).bound ≤ base + k) (br : (r.build vars).bound ≤ base + k)
    (h : symUnify unb l r k = .ok (q, always)) (σ : Asg) :
    (∃ τ, EqBelow (base + k) σ τ ∧ Holds (A := A) w τ (q.unifyQuery vars)) ↔ Holds (A := A) w σ (.unify (l.build vars) (r.build vars)) := by
  rw [symUnify] at h
  cases hs : splitUnify unb l r k with
  | oof => rw [hs] at h; cases h
  | err e => rw [hs] at h; cases h
  | ok p =>
    rw [hs] at h
    simp only [Ev.map, Ev.bind, Ev.ok.injEq] at h
    have hq : q = (conjOps p.1).1 := by rw [h]
    subst hq
    have ok := splitUnify_ok hn l r k p hl hr bl br hs
    rw [holds_unify_iff]
    constructor
    · rintro ⟨τ, e, ht⟩
      have := ok.sound τ ((holds_conjOps p.1).1 ht)
      have e' : EqOutside (base + k) (base + k) τ (fun x => if x < base + k then σ x else τ x) := fun x hx => by
        dsimp only
        by_cases hx' : x < base + k
        · rw [if_pos hx']; exact e x hx'
        · rw [if_neg hx']
      have h1 := (unifyTrue_outside e' bl br).1 this
      have h3 : ∀ t : Term, t.bound ≤ base + k → ∀ v, Den (fun x => if x < base + k then σ x else τ x) t v ↔ Den σ t v := fun t ht v =>
        den_congr t (fun x hx => if_pos (Nat.lt_of_lt_of_le hx ht)) v
      obtain ⟨⟨v, d1, d2⟩, ha⟩ := h1
      refine ⟨⟨v, (h3 _ bl v).1 d1, (h3 _ br v).1 d2⟩, fun i1 i2 => ?_⟩
      have := (annotsMatch_map (f := id) (g := id) (τ := σ) (fun x hx v => h3 x (Nat.le_trans (Term.annots_bound x hx) bl) v)
        (fun x hx v => h3 x (Nat.le_trans (Term.annots_bound x hx) br) v)).1 (by simpa using ha i1 i2)
      exact this
    · intro ht
      obtain ⟨τ, e, ho⟩ := ok.compl σ ht
      exact ⟨τ, e.below (Nat.le_refl _), (holds_conjOps p.1).2 ho⟩

/-- Propagation of constants through the connectives does not change what is true. -/
theorem C84_connectives {σ : Asg} {op : BinOp} {l r : Ast} (hop : op = .and ∨ op = .or) :
    Holds (A := A) w σ ((propBool op l r).unifyQuery vars) ↔ Holds (A := A) w σ ((Ast.bin op l r).unifyQuery vars) := by
  have ht : Holds (A := A) w σ .tru := .tru
  have hf : ¬ Holds (A := A) w σ .fls := nofun
  have hor : ∀ p q : Query A, Holds w σ (.or p q) ↔ Holds w σ p ∨ Holds w σ q := fun p q =>
    ⟨fun h => by cases h with | orL h => exact .inl h | orR h => exact .inr h, fun h => h.elim .orL .orR⟩
  rcases hop with rfl | rfl
  · by_cases h : ∃ b, l = .const (.bool b)
    · obtain ⟨b, rfl⟩ := h
      cases b <;> simp [propBool, Ast.unifyQuery, holds_and_iff, ht, hf]
    · have : propBool .and l r = .bin .and l r := by
        rw [propBool.eq_def]; split <;> first | rfl | exact absurd ⟨_, rfl⟩ h
      rw [this]
  · by_cases h : ∃ b, l = .const (.bool b)
    · obtain ⟨b, rfl⟩ := h
      cases b <;> simp [propBool, Ast.unifyQuery, hor, ht, hf]
    · have : propBool .or l r = .bin .or l r := by
        rw [propBool.eq_def]; split <;> first | rfl | exact absurd ⟨_, rfl⟩ h
      rw [this]

/-- The formulas that replace a formula are together true for the same values (but see `C84_formulas_false`). -/
theorem C84_conjuncts {σ : Asg} : ∀ a : Ast, Holds (A := A) w σ (a.unifyQuery vars) ↔ ∀ c ∈ conjuncts a, Holds (A := A) w σ (c.unifyQuery vars)
  | .bin op l r => by
    by_cases e : op = .and
    · subst e
      simp only [conjuncts, if_true, List.mem_append, Ast.unifyQuery, holds_and_iff, C84_conjuncts l, C84_conjuncts r]
      exact ⟨fun h c hc => hc.elim (h.1 c) (h.2 c), fun h => ⟨fun c hc => h c (.inl hc), fun c hc => h c (.inr hc)⟩⟩
    · simp [conjuncts, e]
  | .const _ => by simp [conjuncts]
  | .var _ => by simp [conjuncts]
  | .lit _ _ _ => by simp [conjuncts]
  | .list _ => by simp [conjuncts]
  | .linked _ _ => by simp [conjuncts]
  | .un _ _ => by simp [conjuncts]

end

/-- A variable that is unbound can be unified with everything: if there is no exception, then the
unification succeeds, so that a unification with a single variable is marked correctly. -/
theorem C84_always [Arith] {n : Nat} {x : VarId} {r : Term} {b b' : BSt} (hx : b.scope x = none) : unify n (.var x) r b ≠ .ok false b' := by
  intro h
  cases n with
  | zero => cases h
  | succ n =>
    rw [unify, if_pos (by rfl)] at h
    simp only [methUnify, varUnify, hx] at h
    split at h
    · cases h
    · revert h
      cases evaluate n b.scope r with
      | oof => nofun
      | err e => nofun
      | ok t => 
        simp only [Res.lift, Res.bind]
        cases bindVar x t b <;> nofun

/-- A mark that is justified: one side is a variable that is unbound, or a new one. -/
def SOp.Justified (unb : List Char → Bool) (k k' : Nat) (o : SOp) : Prop :=
  o.always = true → ∃ x, (o.left = .var x ∨ o.right = .var x) ∧ (unb x = true ∨ ∃ j, k ≤ j ∧ j < k' ∧ x = infName j)

theorem SOp.Justified.mono {unb : List Char → Bool} {k k' m m' : Nat} {o : SOp} (h : o.Justified unb k k') (h1 : m ≤ k) (h2 : k' ≤ m') :
    o.Justified unb m m' := fun ha => by
  obtain ⟨x, hx, hu | ⟨j, h3, h4, rfl⟩⟩ := h ha
  · exact ⟨x, hx, .inl hu⟩
  · exact ⟨_, hx, .inr ⟨j, by omega, by omega, rfl⟩⟩

mutual
theorem constify_marked {unb : List Char → Bool} : ∀ (a : Ast) (k : Nat),
    k ≤ (constify a k).2.2 ∧ ∀ o ∈ (constify a k).2.1, o.Justified unb k (constify a k).2.2
  | .const v, k => by simp [constify]
  | .var x, k => by simp [constify]
  | .lit f ts as, k => by simpa only [constify] using constifyL_marked ts k
  | .list ts, k => by simp only [constify, List.mem_singleton, forall_eq]; exact ⟨by omega, fun _ => ⟨_, .inl rfl, .inr ⟨k, by omega, by omega, rfl⟩⟩⟩
  | .linked h t, k => by simp only [constify, List.mem_singleton, forall_eq]; exact ⟨by omega, fun _ => ⟨_, .inl rfl, .inr ⟨k, by omega, by omega, rfl⟩⟩⟩
  | .un op a, k => by simp only [constify, List.mem_singleton, forall_eq]; exact ⟨by omega, fun _ => ⟨_, .inl rfl, .inr ⟨k, by omega, by omega, rfl⟩⟩⟩
  | .bin op a b, k => by simp only [constify, List.mem_singleton, forall_eq]; exact ⟨by omega, fun _ => ⟨_, .inl rfl, .inr ⟨k, by omega, by omega, rfl⟩⟩⟩
theorem constifyL_marked {unb : List Char → Bool} : ∀ (as : List Ast) (k : Nat),
    k ≤ (constifyL as k).2.2 ∧ ∀ o ∈ (constifyL as k).2.1, o.Justified unb k (constifyL as k).2.2
  | [], k => by simp [constifyL]
  | a :: as, k => by
    have h1 := constify_marked (unb := unb) a k
    have h2 := constifyL_marked (unb := unb) as (constify a k).2.2
    simp only [constifyL]
    refine ⟨Nat.le_trans h1.1 h2.1, fun o ho => ?_⟩
    rcases List.mem_append.1 ho with ho | ho
    · exact (h1.2 o ho).mono (Nat.le_refl _) h2.1
    · exact (h2.2 o ho).mono h1.1 (Nat.le_refl _)
end

theorem keepOp_marked {unb : List Char → Bool} {l r : Ast} {k : Nat} {p : List SOp × Nat} (h : keepOp l r k = .ok p) :
    k ≤ p.2 ∧ ∀ o ∈ p.1, o.Justified unb k p.2 := by
  unfold keepOp at h
  split at h
  · cases h
  · cases h; exact ⟨Nat.le_refl _, fun o ho ha => by cases List.mem_singleton.1 ho; cases ha⟩

mutual
theorem splitUnify_marked {unb : List Char → Bool} : ∀ (l r : Ast) (k : Nat) (p : List SOp × Nat), splitUnify unb l r k = .ok p →
    k ≤ p.2 ∧ ∀ o ∈ p.1, o.Justified unb k p.2
  | .linked _ _, _, k, p, h => by rw [splitUnify.eq_def] at h; cases h
  | .var x, r, k, p, h => by
    rw [splitUnify.eq_def] at h
    cases r with
    | linked => cases h
    | var y =>
      cases h
      refine ⟨Nat.le_refl _, fun o ho ha => ?_⟩
      cases List.mem_singleton.1 ho
      rcases Bool.or_eq_true_iff.1 ha with h | h
      · exact ⟨x, .inl rfl, .inl h⟩
      · exact ⟨y, .inr rfl, .inl h⟩
    | lit g us bs =>
      cases h
      have hc := constify_marked (unb := unb) (.lit g us bs) k
      refine ⟨hc.1, fun o ho => ?_⟩
      rcases List.mem_append.1 ho with ho | ho
      · exact hc.2 o ho
      · cases List.mem_singleton.1 ho; exact fun ha => ⟨x, .inl rfl, .inl ha⟩
    | _ => cases h; exact ⟨Nat.le_refl _, fun o ho ha => by cases List.mem_singleton.1 ho; exact ⟨x, .inl rfl, .inl ha⟩⟩
  | .un op a, r, k, p, h => by
    rw [splitUnify.eq_def] at h
    cases r with
    | var y => cases h; exact ⟨Nat.le_refl _, fun o ho ha => by cases List.mem_singleton.1 ho; exact ⟨y, .inr rfl, .inl ha⟩⟩
    | _ => exact keepOp_marked h
  | .bin op a b, r, k, p, h => by
    rw [splitUnify.eq_def] at h
    cases r with
    | var y => cases h; exact ⟨Nat.le_refl _, fun o ho ha => by cases List.mem_singleton.1 ho; exact ⟨y, .inr rfl, .inl ha⟩⟩
    | _ => exact keepOp_marked h
  | .const v, r, k, p, h => by
    rw [splitUnify.eq_def] at h
    cases r with
    | var y => cases h; exact ⟨Nat.le_refl _, fun o ho ha => by cases List.mem_singleton.1 ho; exact ⟨y, .inr rfl, .inl ha⟩⟩
    | const w =>
      cases h
      refine ⟨Nat.le_refl _, fun o ho ha => ?_⟩
      dsimp only at ho
      split at ho
      · cases ho
      · cases List.mem_singleton.1 ho; cases ha
    | _ => exact keepOp_marked h
  | .list ts, r, k, p, h => by
    rw [splitUnify.eq_def] at h
    cases r with
    | var y => cases h; exact ⟨Nat.le_refl _, fun o ho ha => by cases List.mem_singleton.1 ho; exact ⟨y, .inr rfl, .inl ha⟩⟩
    | list us =>
      dsimp only at h
      split at h
      · cases h; exact ⟨Nat.le_refl _, fun o ho ha => by cases List.mem_singleton.1 ho; cases ha⟩
      · exact splitAll_marked ts us k p h
    | _ => exact keepOp_marked h
  | .lit f ts as, r, k, p, h => by
    rw [splitUnify.eq_def] at h
    cases r with
    | var y =>
      cases h
      have hc := constify_marked (unb := unb) (.lit f ts as) k
      refine ⟨hc.1, fun o ho => ?_⟩
      rcases List.mem_append.1 ho with ho | ho
      · exact hc.2 o ho
      · cases List.mem_singleton.1 ho; exact fun ha => ⟨y, .inr rfl, .inl ha⟩
    | lit g us bs =>
      dsimp only at h
      split at h
      · cases h; exact ⟨Nat.le_refl _, fun o ho ha => by cases List.mem_singleton.1 ho; cases ha⟩
      · obtain ⟨q, h1, h2⟩ := Ev.bind_eq_ok.1 h
        have hq := splitAll_marked ts us k q h1
        split at h2
        · cases h2; exact hq
        · split at h2
          · cases h2
          · cases h2
            refine ⟨hq.1, fun o ho => ?_⟩
            rcases List.mem_append.1 ho with ho | ho
            · exact hq.2 o ho
            · cases List.mem_singleton.1 ho; exact fun ha => by cases ha
    | _ => exact keepOp_marked h
theorem splitAll_marked {unb : List Char → Bool} : ∀ (ts us : List Ast) (k : Nat) (p : List SOp × Nat), splitAll unb ts us k = .ok p →
    k ≤ p.2 ∧ ∀ o ∈ p.1, o.Justified unb k p.2
  | [], us, k, p, h => by rw [splitAll.eq_def] at h; cases h; exact ⟨Nat.le_refl _, fun o ho => by cases ho⟩
  | t :: ts, [], k, p, h => by rw [splitAll.eq_def] at h; cases h; exact ⟨Nat.le_refl _, fun o ho => by cases ho⟩
  | t :: ts, u :: us, k, p, h => by
    rw [splitAll.eq_def] at h
    obtain ⟨q, h1, h2⟩ := Ev.bind_eq_ok.1 h
    obtain ⟨q', h3, h4⟩ := Ev.bind_eq_ok.1 h2
    cases h4
    have e1 := splitUnify_marked t u k q h1
    have e2 := splitAll_marked ts us q.2 q' h3
    refine ⟨Nat.le_trans e1.1 e2.1, fun o ho => ?_⟩
    rcases List.mem_append.1 ho with ho | ho
    · exact (e1.2 o ho).mono (Nat.le_refl _) e2.1
    · exact (e2.2 o ho).mono e1.1 (Nat.le_refl _)
end

/-- **C84.** A part is marked as always true only if one side is a variable that is unbound when the unification is visited, or a new variable
(for which `C84_always` applies, unless it has been bound by the parts before, `C84_not_false`). -/
theorem C84_marked {unb : List Char → Bool} {l r : Ast} {k : Nat} {p : List SOp × Nat} (h : splitUnify unb l r k = .ok p) {o : SOp}
    (ho : o ∈ p.1) (ha : o.always = true) :
    ∃ x, (o.left = .var x ∨ o.right = .var x) ∧ (unb x = true ∨ ∃ j, k ≤ j ∧ j < p.2 ∧ x = infName j) :=
  (splitUnify_marked l r k p h).2 o ho ha

/-- **C84.** The whole is marked only if all parts are. -/
theorem C84_marked_all {os : List SOp} : (conjOps os).2 = true ↔ ∀ o ∈ os, o.always = true := by
  induction os with
  | nil => simp [conjOps]
  | cons o os ih =>
    cases os with
    | nil => simp [conjOps]
    | cons p ps => simp only [conjOps, Bool.and_eq_true] at ih ⊢; simp [ih]

/-- There is a variable in the literal, in its arguments or annotations, or in those of a literal inside. -/
inductive Ast.Mentions : Ast → Prop where
  | var (x) : Ast.Mentions (.var x)
  | term {f ts as t} : t ∈ ts → t.Mentions → Ast.Mentions (.lit f ts as)
  | annot {f ts as t} : t ∈ as → t.Mentions → Ast.Mentions (.lit f ts as)

mutual
theorem hasVars_iff : ∀ a : Ast, a.hasVars = true ↔ a.Mentions
  | .var x => ⟨fun _ => .var x, fun _ => rfl⟩
  | .lit f ts as => by
    simp only [Ast.hasVars, Bool.or_eq_true, hasVarsL_iff ts, hasVarsL_iff as]
    constructor
    · rintro (⟨t, h, h'⟩ | ⟨t, h, h'⟩)
      · exact .term h h'
      · exact .annot h h'
    · intro h
      cases h with
      | term h h' => exact .inl ⟨_, h, h'⟩
      | annot h h' => exact .inr ⟨_, h, h'⟩
  | .const _ | .list _ | .linked _ _ | .un _ _ | .bin _ _ _ => ⟨fun h => by simp [Ast.hasVars] at h, fun h => nomatch h⟩
theorem hasVarsL_iff : ∀ as : List Ast, Ast.hasVarsL as = true ↔ ∃ a ∈ as, a.Mentions
  | [] => by simp [Ast.hasVarsL]
  | a :: as => by simp [Ast.hasVarsL, hasVars_iff a, hasVarsL_iff as]
end

/-- **C84.** Why annotations are left out in `C84_split_partial`: if the left literal has annotations and one of the two literals has a
variable anywhere, also in the annotations, then the optimiser raises `KeyError`. -/
theorem C84_annotations {unb : List Char → Bool} {f : List Char} {ts us as bs : List Ast} {k : Nat} {p : List SOp × Nat} (hl : ts.length = us.length)
    (hs : splitAll unb ts us k = .ok p) (ha : as ≠ []) (hb : as.length ≤ bs.length) :
    splitUnify unb (.lit f ts as) (.lit f us bs) k = .err (.py "KeyError") ↔ (Ast.lit f ts as).Mentions ∨ (Ast.lit f us bs).Mentions := by
  rw [splitUnify, if_neg (by simp only [ne_eq, not_true_eq_false, false_or, not_or]; exact ⟨fun h => h hl, by omega⟩), hs]
  simp only [Ev.bind, if_neg ha]
  rw [← hasVars_iff, ← hasVars_iff, ← Bool.or_eq_true]
  split
  · next h => exact ⟨fun _ => h, fun _ => rfl⟩
  · next h => exact ⟨fun h' => (by cases h'), fun h' => absurd h' h⟩

/-- `p[q(X)] = p[r]` -/
example : splitUnify (fun _ => true) (.lit ['p'] [] [.lit ['q'] [.var ['X']] []]) (.lit ['p'] [] [.lit ['r'] [] []]) 0 = .err (.py "KeyError") :=
  (C84_annotations rfl rfl (by simp) (by simp)).2 (.inl (.annot (List.mem_cons_self ..) (.term (List.mem_cons_self ..) (.var _))))

section examples
attribute [local instance] exactArith

/-- Names of the examples: `X`, `Y`, new names, and `_` for all others. -/
private def xyVars (x : List Char) : Term :=
  if x = ['X'] then .var 0 else if x = ['Y'] then .var 1
  else if x.take 5 = "_Inf_".toList then .var (2 + Nat.ofDigitChars 10 (x.drop 5) 0) else .wild

private theorem xyVars_ok : NameOK xyVars 2 where
  shape x := by
    simp only [xyVars]
    split
    · exact .inl ⟨_, rfl⟩
    · split
      · exact .inl ⟨_, rfl⟩
      · split
        · exact .inl ⟨_, rfl⟩
        · exact .inr rfl
  inf k := by
    have e : infName k = '_' :: 'I' :: 'n' :: 'f' :: '_' :: Nat.toDigits 10 k := rfl
    simp [xyVars, e, Nat.ofDigitChars_ten_toDigits]

private abbrev aX : Ast := .var ['X']
private abbrev aY : Ast := .var ['Y']
private abbrev aNum (q : Rat) : Ast := .const (.num (.fin q))
private abbrev aF (ts : List Ast) : Ast := .lit ['f'] ts []
private abbrev noKB : KB := { bels := fun _ => [], rules := fun _ => [] }
private abbrev nobody : List Char → Bool := fun _ => false

/-- What is put in place of `f(X, [1, Y]) = f(f(Y + 1), [1, 2])`:
`_Inf_0 = Y + 1 & (X = f(_Inf_0) & Y = 2)` -/
private theorem split_example : symUnify nobody (aF [aX, .list [aNum 1, aY]]) (aF [aF [.bin .add aY (aNum 1)], .list [aNum 1, aNum 2]]) 0 =
    .ok (.bin .and (.bin .unify (.var (infName 0)) (.bin .add aY (aNum 1)))
      (.bin .and (.bin .unify aX (aF [.var (infName 0)])) (.bin .unify aY (aNum 2))), false) := by
  rfl

/-- C84_marked: of `_Inf_0 = Y + 1`, `X = f(_Inf_0)` and `Y = 2` the first is marked, and the second if `X` is unbound. -/
example : (splitUnify nobody (aF [aX, aY]) (aF [aF [.bin .add aY (aNum 1)], aNum 2]) 0).map (fun p => p.1.map (·.always)) = .ok [true, false, false] ∧
    (splitUnify (fun x => x == ['X']) (aF [aX, aY]) (aF [aF [.bin .add aY (aNum 1)], aNum 2]) 0).map (fun p => p.1.map (·.always)) =
      .ok [true, true, false] := ⟨rfl, rfl⟩

/-- C84_split_partial: it has the solutions `X = f(3)`, `Y = 2`. -/
example (σ : Asg) (hx : σ 0 = .app "f" (.cons (.num 3) .nil)) (hy : σ 1 = .num 2) :
    ∃ τ, EqBelow 2 σ τ ∧ Holds (A := Empty) noKB τ (.and (.unify (.var 2) (.bin .add (.var 1) (.num 1)))
      (.and (.unify (.var 0) (.lit "f" [.var 2] [])) (.unify (.var 1) (.num 2)))) := by
  refine (C84_split_partial (A := Empty) (w := noKB) xyVars_ok ?_ ?_ ?_ ?_ split_example σ).2 (holds_unify_iff.2 ⟨?_, fun _ _ => ?_⟩)
  · simp [Ast.TopBare, Ast.BareL, Ast.Bare]
  · simp [Ast.TopBare, Ast.BareL, Ast.Bare]
  · decide
  · decide
  · refine ⟨.app "f" (.cons (.app "f" (.cons (.num 3) .nil)) (.cons (.cons (.num 1) (.cons (.num 2) .nil)) .nil)), ?_, ?_⟩
    · simp [Ast.build, Ast.builds, xyVars, Den, DenL, ConstV.term, hx, hy]
    · simp only [Ast.build, Ast.builds, xyVars, Den, DenL, ConstV.term]
      refine ⟨_, ⟨_, _, ⟨_, ⟨_, _, ⟨.num 2, .num 1, ?_, rfl, rfl⟩, rfl, rfl⟩, rfl⟩, ⟨_, _, ⟨_, _, rfl, ⟨_, _, rfl, rfl, rfl⟩, rfl⟩, rfl, rfl⟩, rfl⟩, ?_⟩
      · simp [Den, hy]
      · have : (2 : Rat) + 1 = 3 := by decide +kernel
        simp [this]
  · exact annotsMatch_nil

/-- C84_connectives: `true & X = 1` becomes `X = 1`. -/
example (σ : Asg) : propBool .and (.const (.bool true)) (.bin .unify aX (aNum 1)) = .bin .unify aX (aNum 1) ∧
    (Holds (A := Empty) noKB σ (.unify (.var 0) (.num 1)) ↔ Holds (A := Empty) noKB σ (.and .tru (.unify (.var 0) (.num 1)))) :=
  ⟨rfl, C84_connectives (vars := xyVars) (op := .and) (l := .const (.bool true)) (r := .bin .unify aX (aNum 1)) (.inl rfl)⟩

/-- C84_conjuncts: `X = 1 & (Y = 2 & f(X))` is replaced by three formulas. -/
example : conjuncts (.bin .and (.bin .unify aX (aNum 1)) (.bin .and (.bin .unify aY (aNum 2)) (aF [aX]))) =
    [.bin .unify aX (aNum 1), .bin .unify aY (aNum 2), aF [aX]] := rfl

/-- C84_always: an unbound variable with a list. -/
example : ∃ b, unify 3 (.var 0) (.tup [.num 1]) BSt.init = .ok true b := ⟨_, rfl⟩

/-- **C84** fails for booleans: `1 = true` is dropped, since `1 == True` in Python, but it is false. -/
theorem C84_bool_false : symUnify nobody (aNum 1) (.const (.bool true)) 0 = .ok (.const (.bool true), true) ∧
    (∀ τ, Holds (A := Empty) noKB τ .tru) ∧ ∀ σ, ¬ Holds (A := Empty) noKB σ (.unify (.num 1) (.bool true)) := by
  refine ⟨by with_unfolding_all rfl, fun _ => .tru, fun σ h => ?_⟩
  obtain ⟨⟨v, h1, h2⟩, -⟩ := holds_unify_iff.1 h
  simp only [Den] at h1 h2
  rw [h1] at h2; cases h2

/-- **C84** fails for annotations inside of terms, which unification ignores: `f(a[x]) = f(a[y])` is true, but it is
replaced by a comparison of the annotations. -/
theorem C84_annotations_false :
    symUnify nobody (aF [.lit ['a'] [] [.lit ['x'] [] []]]) (aF [.lit ['a'] [] [.lit ['y'] [] []]]) 0 =
      .ok (.bin .unify (.lit "_inf_dummy".toList [] [.lit ['x'] [] []]) (.lit "_inf_dummy".toList [] [.lit ['y'] [] []]), false) ∧
    (∀ σ, Holds (A := Empty) noKB σ (.unify (.lit "f" [.lit "a" [] [.atom "x"]] []) (.lit "f" [.lit "a" [] [.atom "y"]] []))) ∧
    ∀ τ, ¬ Holds (A := Empty) noKB τ (.unify (.lit "_inf_dummy" [] [.atom "x"]) (.lit "_inf_dummy" [] [.atom "y"])) := by
  refine ⟨rfl, fun σ => holds_unify_iff.2 ⟨⟨.app "f" (.cons (.app "a" .nil) .nil), ?_, ?_⟩, fun _ _ => annotsMatch_nil⟩, fun τ h => ?_⟩
  · simp [Den, DenL]
  · simp [Den, DenL]
  · obtain ⟨zs, ⟨rest, hp⟩, hlen, hz⟩ := (holds_unify_iff.1 h).2 rfl rfl
    simp only [Term.annots, List.length_singleton] at hlen hz hp
    match zs, hlen with
    | [z], _ =>
      have hm : z ∈ [Term.atom "y"] := hp.subset (by simp)
      simp only [List.mem_singleton] at hm
      subst hm
      obtain ⟨v, h1, h2⟩ := hz (.atom "x", .atom "y") (by simp)
      simp only [Den, DenL] at h1 h2
      obtain ⟨_, rfl, rfl⟩ := h1
      obtain ⟨_, rfl, h2⟩ := h2
      simp at h2

/-- **C84** fails for literals with annotations and variables: there is no result for `f(X)[a] = f(1)[a]`, which has a solution. -/
theorem C84_key_error_false :
    symUnify nobody (.lit ['f'] [aX] [.lit ['a'] [] []]) (.lit ['f'] [aNum 1] [.lit ['a'] [] []]) 0 = .err (.py "KeyError") ∧
    ∃ (g : Gen Empty Empty) (s : QSt KB), gnext 9 (.start (.unify (.lit "f" [.var 0] [.atom "a"]) (.lit "f" [.num 1] [.atom "a"]))) ⟨BSt.init, 1, noKB⟩ = .ok (some g) s ∧
      s.b.scope 0 = some (.num 1) :=
  ⟨rfl, _, _, rfl, rfl⟩

/-- There is no result for lists with a tail either: `X = [1 | Y]`. -/
theorem C84_linked_false {unb : List Char → Bool} {r h t : Ast} {k : Nat} : symUnify unb (.linked h t) r k = .err (.py "AssertionError") ∧
    symUnify unb aX (.linked h t) k = .err (.py "AssertionError") := by
  constructor <;> (rw [symUnify, splitUnify.eq_def]; rfl)

/-- `not f(X, X) = f(1, 2)` is replaced by `false`, because both unifications are with an unbound variable; but there is no solution of
`f(X, X) = f(1, 2)`. -/
theorem C84_not_false : symNotUnify (fun _ => true) (aF [aX, aX]) (aF [aNum 1, aNum 2]) 0 = .ok (.const (.bool false)) ∧
    ∀ σ, ¬ Holds (A := Empty) noKB σ (.unify (.lit "f" [.var 0, .var 0] []) (.lit "f" [.num 1, .num 2] [])) := by
  refine ⟨rfl, fun σ h => ?_⟩
  obtain ⟨⟨v, h1, h2⟩, -⟩ := holds_unify_iff.1 h
  simp only [Den, DenL] at h1 h2
  obtain ⟨_, ⟨_, _, rfl, ⟨_, _, rfl, rfl, rfl⟩, rfl⟩, rfl⟩ := h1
  obtain ⟨_, ⟨_, _, rfl, ⟨_, _, rfl, rfl, rfl⟩, rfl⟩, h2⟩ := h2
  simp only [Val.app.injEq, Val.cons.injEq, true_and, and_true] at h2
  have := h2.1.symm.trans h2.2
  simp at this

/-- The parts of `X = f(Y + 1)` raise if `Y` is unbound: `Y + 1` is evaluated first, while `X` may be bound to `f(Y + 1)`. -/
theorem C84_evaluated_false :
    symUnify nobody aX (aF [.bin .add aY (aNum 1)]) 0 = .ok (.bin .and (.bin .unify (.var (infName 0)) (.bin .add aY (aNum 1)))
      (.bin .unify aX (aF [.var (infName 0)])), false) ∧
    (∃ (g : Gen Empty Empty) (s : QSt KB), gnext 9 (.start (.unify (.var 0) (.lit "f" [.bin .add (.var 1) (.num 1)] []))) ⟨BSt.init, 3, noKB⟩ = .ok (some g) s) ∧
    ∃ (s : QSt KB), gnext (G := Empty) 9 (.start (.and (.unify (.var 2) (.bin .add (.var 1) (.num 1))) (.unify (.var 0) (.lit "f" [.var 2] [])) : Query Empty)) ⟨BSt.init, 3, noKB⟩ =
      .err (.asl "bad operand types") s :=
  ⟨rfl, ⟨_, _, rfl⟩, ⟨_, rfl⟩⟩

/-- Nothing keeps programs from using the names: `f(_Inf_0, X) = f(1, f(Y + 1))` has a solution with `Y = 2`, the parts
do not. -/
theorem C84_capture_false :
    symUnify nobody (aF [.var (infName 0), aX]) (aF [aNum 1, aF [.bin .add aY (aNum 1)]]) 0 =
      .ok (.bin .and (.bin .unify (.var (infName 0)) (aNum 1)) (.bin .and (.bin .unify (.var (infName 0)) (.bin .add aY (aNum 1)))
        (.bin .unify aX (aF [.var (infName 0)]))), false) ∧
    (∃ σ : Asg, σ 1 = .num 2 ∧ Holds (A := Empty) noKB σ (.unify (.lit "f" [.var 2, .var 0] []) (.lit "f" [.num 1, .lit "f" [.bin .add (.var 1) (.num 1)] []] []))) ∧
    ∀ σ : Asg, σ 1 = .num 2 → ¬ Holds (A := Empty) noKB σ (.and (.unify (.var 2) (.num 1)) (.and (.unify (.var 2) (.bin .add (.var 1) (.num 1)))
      (.unify (.var 0) (.lit "f" [.var 2] [])))) := by
  refine ⟨rfl, ⟨fun x => if x = 0 then .app "f" (.cons (.num 3) .nil) else if x = 1 then .num 2 else .num 1, rfl, ?_⟩, fun σ hy h => ?_⟩
  · refine holds_unify_iff.2 ⟨⟨.app "f" (.cons (.num 1) (.cons (.app "f" (.cons (.num 3) .nil)) .nil)), ?_, ?_⟩, fun _ _ => annotsMatch_nil⟩
    · simp [Den, DenL]
    · simp only [Den, DenL]
      exact ⟨_, ⟨_, _, rfl, ⟨_, _, ⟨_, ⟨_, _, ⟨.num 2, .num 1, rfl, rfl, rfl⟩, rfl, rfl⟩, rfl⟩, rfl, rfl⟩, rfl⟩, by
        have : (2 : Rat) + 1 = 3 := by decide +kernel
        simp [this]⟩
  · obtain ⟨h1, h2⟩ := holds_and_iff.1 h
    obtain ⟨⟨v, a1, a2⟩, -⟩ := holds_unify_iff.1 h1
    obtain ⟨⟨u, b1, b2⟩, -⟩ := holds_unify_iff.1 (holds_and_iff.1 h2).1
    simp only [Den] at a1 a2 b1 b2
    obtain ⟨_, _, rfl, rfl, b2⟩ := b2
    rw [hy] at b2
    subst b1
    rw [← a1, a2] at b2
    revert b2
    decide +kernel

/-- `p(1). p(2). q(2).` -/
private abbrev pqKB : KB where
  bels := fun g => if g = ("p", 1) then [.lit "p" [.num 1] [], .lit "p" [.num 2] []] else if g = ("q", 1) then [.lit "q" [.num 2] []] else []
  rules := fun _ => []

/-- A formula `?p(X) & q(X)` is replaced by two formulas; each of them takes its first answer.  With `p(1)`, `p(2)` and `q(2)`, the
formula has an answer, but there is none of `q(X)` after the first answer of `p(X)`. -/
theorem C84_formulas_false :
    conjuncts (.bin .and (.lit ['p'] [aX] []) (.lit ['q'] [aX] [])) = [.lit ['p'] [aX] [], .lit ['q'] [aX] []] ∧
    (∃ (g : Gen Empty Empty) (s : QSt KB), gnext 40 (.start (.and (.term (.lit "p" [.var 0] [])) (.term (.lit "q" [.var 0] [])))) ⟨BSt.init, 1, pqKB⟩ = .ok (some g) s) ∧
    ∃ (g : Gen Empty Empty) (s s' : QSt KB), gnext 40 (.start (.term (.lit "p" [.var 0] []))) ⟨BSt.init, 1, pqKB⟩ = .ok (some g) s ∧
      gnext (G := Empty) 40 (.start (.term (.lit "q" [.var 0] []) : Query Empty)) s = .ok none s' :=
  ⟨rfl, ⟨_, _, rfl⟩, ⟨_, _, _, rfl, rfl⟩⟩

end examples

end Verif
