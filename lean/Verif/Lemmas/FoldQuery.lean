import Verif.Lemmas.Folding
import Verif.Lemmas.Eval
import Verif.Lemmas.Compare
import Verif.Lemmas.Annot
import Verif.Spec.FoldQuery
import Verif.Spec.Build

/-! Folding queries: the meaning of a query is that of the folded query. -/

namespace Verif

section
variable [Arith]

/-! ## Terms -/

omit [Arith] in
theorem den_value [Arith] {σ : Asg} {t : Term} (h : t.isValue = true) : ∃ v, Den σ t v := by
  cases t <;> first | (cases h; done) | exact ⟨_, rfl⟩

omit [Arith] in
theorem data_value {t : Term} (h : t.isValue = true) : t.Data := by
  cases t <;> first | (cases h; done) | simp [Term.Data]

mutual
/-- A folded term has the same value under every assignment. -/
theorem Reduces.den (σ : Asg) : ∀ {t u : Term}, Reduces t u → ∀ v, Den σ t v ↔ Den σ u v
  | _, _, .refl t, _ => Iff.rfl
  | _, _, .lit h1 _, v => by
    simp only [Den]
    exact exists_congr fun w => and_congr (h1.den σ w) Iff.rfl
  | _, _, .tup h, v => by
    simp only [Den]
    exact h.den σ v
  | _, _, .cons h1 h2, v => by
    simp only [Den]
    exact exists_congr fun a => exists_congr fun w => and_congr (h1.den σ a) (and_congr (h2.den σ w) Iff.rfl)
  | _, _, .un h, v => by
    simp only [Den]
    exact exists_congr fun a => and_congr (h.den σ a) Iff.rfl
  | _, _, .bin h1 h2, v => by
    simp only [Den]
    exact exists_congr fun a => exists_congr fun w => and_congr (h1.den σ a) (and_congr (h2.den σ w) Iff.rfl)
  | _, _, .unValue h hf, v => by
    rw [(unFunc_spec hf).1 σ v]
    simp only [Den]
    exact exists_congr fun a => and_congr (h.den σ a) Iff.rfl
  | _, _, .binValue h1 h2 hc hf, v => by
    rw [(binFunc_spec hc hf).1 σ v]
    simp only [Den]
    exact exists_congr fun a => exists_congr fun w => and_congr (h1.den σ a) (and_congr (h2.den σ w) Iff.rfl)
  | _, _, .compValue (a := a) (b := b) h1 h2 ha hb hc hf, v => by
    simp only [Den]
    obtain ⟨x, hx⟩ := den_value (σ := σ) ha
    obtain ⟨y, hy⟩ := den_value (σ := σ) hb
    have e := pyCompare_den (data_value ha) (data_value hb) hx hy hf
    have ux : ∀ x', Den σ a x' → x' = x := fun x' hx' => by
      cases a <;> first | (cases ha; done) | (simp only [Den] at hx hx'; rw [hx, hx'])
    have uy : ∀ y', Den σ b y' → y' = y := fun y' hy' => by
      cases b <;> first | (cases hb; done) | (simp only [Den] at hy hy'; rw [hy, hy'])
    constructor
    · rintro ⟨x', y', h3, h4, h5⟩
      rw [ux x' ((h1.den σ x').1 h3), uy y' ((h2.den σ y').1 h4)] at h5
      simp only [Val.binSem, hc, if_true, e, Option.map_some, Option.some.injEq] at h5
      exact h5.symm
    · rintro rfl
      exact ⟨x, y, (h1.den σ x).2 hx, (h2.den σ y).2 hy, by simp [Val.binSem, hc, e]⟩

theorem ReducesL.den (σ : Asg) : ∀ {ts us : List Term}, ReducesL ts us → ∀ v, DenL σ ts v ↔ DenL σ us v
  | _, _, .nil, _ => Iff.rfl
  | _, _, .cons h hs, v => by
    simp only [DenL]
    exact exists_congr fun a => exists_congr fun w => and_congr (h.den σ a) (and_congr (hs.den σ w) Iff.rfl)
end

theorem Reduces.agree {σ : Asg} {l r l' r' : Term} (h1 : Reduces l l') (h2 : Reduces r r') : Agree σ l r ↔ Agree σ l' r' :=
  exists_congr fun v => and_congr (h1.den σ v) (h2.den σ v)

theorem ReducesL.refl : ∀ ts : List Term, ReducesL ts ts
  | [] => .nil
  | t :: ts => .cons (.refl t) (ReducesL.refl ts)

theorem ReducesL.length : ∀ {ts us : List Term}, ReducesL ts us → us.length = ts.length
  | _, _, .nil => rfl
  | _, _, .cons _ h => by simp only [List.length_cons, h.length]

omit [Arith] in
theorem annots_value {t : Term} (h : t.isValue = true) : t.annots = [] := by
  cases t <;> first | (cases h; done) | rfl

/-- What happens to the outermost constructor. -/
theorem Reduces.shape {t u : Term} (h : Reduces t u) :
    u = t ∨ (∃ f ts us ts' us', t = .lit f ts us ∧ u = .lit f ts' us' ∧ ReducesL ts ts' ∧ ReducesL us us') ∨
    (t.isLiteral = false ∧ u.isLiteral = false ∧ t.annots = [] ∧ u.annots = [] ∧ (∀ x, u ≠ .var x) ∧ u ≠ .wild) := by
  have val : ∀ w : Term, w.isValue = true → w.isLiteral = false ∧ w.annots = [] ∧ (∀ x, w ≠ .var x) ∧ w ≠ .wild := fun w hw => by
    cases w <;> first | (cases hw; done) | exact ⟨rfl, rfl, nofun, nofun⟩
  cases h with
  | refl => exact .inl rfl
  | lit h1 h2 => exact .inr (.inl ⟨_, _, _, _, _, rfl, rfl, h1, h2⟩)
  | unValue h hf =>
    obtain ⟨a, b, c, d⟩ := val _ (unFunc_ok hf).2
    exact .inr (.inr ⟨rfl, a, rfl, b, c, d⟩)
  | binValue h1 h2 hc hf =>
    obtain ⟨a, b, c, d⟩ := val _ (binFunc_ok hf).2.2
    exact .inr (.inr ⟨rfl, a, rfl, b, c, d⟩)
  | _ => exact .inr (.inr ⟨rfl, rfl, rfl, rfl, nofun, nofun⟩)

theorem Reduces.annots {t u : Term} (h : Reduces t u) : ReducesL t.annots u.annots := by
  rcases h.shape with rfl | ⟨f, ts, us, ts', us', rfl, rfl, -, h2⟩ | ⟨-, -, e1, e2, -⟩
  · exact .refl _
  · exact h2
  · rw [e1, e2]; exact .nil

theorem Reduces.isLiteral {t u : Term} (h : Reduces t u) : u.isLiteral = t.isLiteral := by
  rcases h.shape with rfl | ⟨f, ts, us, ts', us', rfl, rfl, -, h2⟩ | ⟨e1, e2, -⟩
  · rfl
  · rfl
  · rw [e1, e2]

/-- A condition on nodes that folding preserves. -/
structure Local (p : Term → Prop) : Prop where
  value : ∀ w : Term, w.isValue = true → p w
  lit : ∀ f ts us ts' us', ReducesL us us' → p (.lit f ts us) → p (.lit f ts' us')
  tup : ∀ ts ts', p (.tup ts) → p (.tup ts')
  cons : ∀ a b a' b', p (.cons a b) → p (.cons a' b')
  un : ∀ op a a', p (.un op a) → p (.un op a')
  bin : ∀ op a b a' b', p (.bin op a b) → p (.bin op a' b')

omit [Arith] in
theorem every_value {p : Term → Prop} (hp : ∀ w : Term, w.isValue = true → p w) {w : Term} (hw : w.isValue = true) : w.Every p := by
  have := hp w hw
  cases w <;> first | (cases hw; done) | exact this

mutual
theorem Reduces.every {p : Term → Prop} (hp : Local p) : ∀ {t u : Term}, Reduces t u → t.Every p → u.Every p
  | _, _, .refl t, h => h
  | _, _, .lit h1 h2, h => ⟨hp.lit _ _ _ _ _ h2 h.1, h1.every hp h.2⟩
  | _, _, .tup h1, h => ⟨hp.tup _ _ h.1, h1.every hp h.2⟩
  | _, _, .cons h1 h2, h => ⟨hp.cons _ _ _ _ h.1, h1.every hp h.2.1, h2.every hp h.2.2⟩
  | _, _, .un h1, h => ⟨hp.un _ _ _ h.1, h1.every hp h.2⟩
  | _, _, .bin h1 h2, h => ⟨hp.bin _ _ _ _ _ h.1, h1.every hp h.2.1, h2.every hp h.2.2⟩
  | _, _, .unValue _ hf, _ => every_value hp.value (unFunc_ok hf).2
  | _, _, .binValue _ _ _ hf, _ => every_value hp.value (binFunc_ok hf).2.2
  | _, _, .compValue _ _ _ _ _ _, _ => every_value hp.value rfl

theorem ReducesL.every {p : Term → Prop} (hp : Local p) : ∀ {ts us : List Term}, ReducesL ts us → Term.EveryL p ts → Term.EveryL p us
  | _, _, .nil, h => h
  | _, _, .cons h1 h2, h => ⟨h1.every hp h.1, h2.every hp h.2⟩
end

theorem Reduces.noWild {t u : Term} (h : Reduces t u) (ht : t.NoWild) : u.NoWild :=
  h.every ⟨fun w hw e => (by subst e; cases hw), fun _ _ _ _ _ _ _ => Term.noConfusion, fun _ _ _ => Term.noConfusion,
    fun _ _ _ _ _ => Term.noConfusion, fun _ _ _ _ => Term.noConfusion, fun _ _ _ _ _ _ => Term.noConfusion⟩ ht

theorem Reduces.tame {cmp : Bool} {t u : Term} (h : Reduces t u) (ht : t.Tame cmp) : u.Tame cmp := by
  cases cmp with
  | true =>
    refine h.every ⟨fun w hw => ?_, fun f ts us ts' us' h1 h2 => ?_, fun _ _ _ => trivial, fun _ _ _ _ _ => trivial,
      fun _ _ _ _ => trivial, fun _ _ _ _ _ _ => trivial⟩ ht
    · cases w <;> first | (cases hw; done) | trivial
    · cases h1 with
      | nil => trivial
      | cons => exact h2
  | false =>
    refine h.every ⟨fun w hw => ?_, fun f ts us ts' us' h1 h2 => trivial, fun _ _ _ => trivial, fun _ _ _ _ _ => trivial,
      fun _ _ _ _ => trivial, fun _ _ _ _ _ h => h⟩ ht
    cases w <;> first | (cases hw; done) | trivial

theorem Reduces.closed {t u : Term} (h : Reduces t u) (ht : t.Closed) : u.Closed :=
  h.every ⟨fun w hw => by cases w <;> first | (cases hw; done) | trivial, fun _ _ _ _ _ _ _ => trivial, fun _ _ _ => trivial,
    fun _ _ _ _ _ => trivial, fun _ _ _ h => h, fun _ _ _ _ _ h => h⟩ ht

mutual
/-- Folding changes nothing in ground terms, outside annotations. -/
theorem Reduces.val : ∀ {t u : Term}, Reduces t u → t.Closed → u.val = t.val
  | _, _, .refl t, _ => rfl
  | _, _, .lit h1 h2, h => by rw [Term.val, Term.val, h1.val (Term.everyL_iff.1 h.2)]
  | _, _, .tup h1, h => by rw [Term.val, Term.val, h1.val (Term.everyL_iff.1 h.2)]
  | _, _, .cons h1 h2, h => by rw [Term.val, Term.val, h1.val h.2.1, h2.val h.2.2]
  | _, _, .un h1, h => h.1.elim
  | _, _, .bin h1 h2, h => h.1.elim
  | _, _, .unValue _ hf, h => h.1.elim
  | _, _, .binValue _ _ _ hf, h => h.1.elim
  | _, _, .compValue _ _ _ _ _ _, h => h.1.elim

theorem ReducesL.val : ∀ {ts us : List Term}, ReducesL ts us → (∀ t ∈ ts, t.Closed) → Term.valL us = Term.valL ts
  | _, _, .nil, _ => rfl
  | _, _, .cons h1 h2, h => by rw [Term.valL, Term.valL, h1.val (h _ (.head _)), h2.val fun t ht => h t (.tail _ ht)]
end

mutual
theorem Reduces.bound : ∀ {t u : Term}, Reduces t u → u.bound ≤ t.bound
  | _, _, .refl t => Nat.le_refl _
  | _, _, .lit h1 h2 => by have := h1.bound; have := h2.bound; simp only [Term.bound]; omega
  | _, _, .tup h1 => by have := h1.bound; simp only [Term.bound]; omega
  | _, _, .cons h1 h2 => by have := h1.bound; have := h2.bound; simp only [Term.bound]; omega
  | _, _, .un h1 => by have := h1.bound; simp only [Term.bound]; omega
  | _, _, .bin h1 h2 => by have := h1.bound; have := h2.bound; simp only [Term.bound]; omega
  | _, _, .unValue (w := w) _ hf => by
    have hw := (unFunc_ok hf).2
    cases w <;> first | (cases hw; done) | exact Nat.zero_le _
  | _, _, .binValue (w := w) _ _ _ hf => by
    have hw := (binFunc_ok hf).2.2
    cases w <;> first | (cases hw; done) | exact Nat.zero_le _
  | _, _, .compValue _ _ _ _ _ _ => Nat.zero_le _

theorem ReducesL.bound : ∀ {ts us : List Term}, ReducesL ts us → Term.boundL us ≤ Term.boundL ts
  | _, _, .nil => Nat.le_refl _
  | _, _, .cons h1 h2 => by have := h1.bound; have := h2.bound; simp only [Term.boundL]; omega
end

theorem ReducesL.all {p : Term → Prop} (hp : ∀ t u, Reduces t u → p t → p u) : ∀ {ts us : List Term}, ReducesL ts us →
    (∀ t ∈ ts, p t) → ∀ u ∈ us, p u
  | _, _, .nil, _ => nofun
  | _, _, .cons h1 h2, h => by
    intro u hu
    cases hu with
    | head => exact hp _ _ h1 (h _ (.head _))
    | tail _ hu => exact h2.all hp (fun t ht => h t (.tail _ ht)) u hu

theorem Reduces.parts {p : Term → Prop} (hp : ∀ t u, Reduces t u → p t → p u) {t u : Term} (h : Reduces t u) (ht : t.Parts p) :
    u.Parts p := by
  rcases h.shape with rfl | ⟨f, ts, us, ts', us', rfl, rfl, h1, h2⟩ | ⟨e1, -⟩
  · exact ht
  · exact ⟨h1.all hp ht.1, h2.all hp ht.2⟩
  · cases t <;> first | (cases e1; done) | exact ht.elim

theorem Reduces.noAnnots {t u : Term} (h : Reduces t u) (ht : t.annots = []) : u.annots = [] := by
  have := h.annots.length
  rw [ht] at this
  exact List.eq_nil_of_length_eq_zero this

theorem Reduces.litOK {cmp : Bool} {t u : Term} (h : Reduces t u) (ht : t.LitOK cmp) : u.LitOK cmp := by
  rcases h.shape with rfl | ⟨f, ts, us, ts', us', rfl, rfl, h1, h2⟩ | ⟨e1, -⟩
  · exact ht
  · exact ⟨h1.all (fun t u h ht => h.tame ht) ht.1, h2.all (fun t u h ht => ⟨h.tame ht.1, h.noAnnots ht.2⟩) ht.2⟩
  · cases t <;> first | (cases e1; done) | exact ht.elim

theorem Reduces.group {t u : Term} (h : Reduces t u) : u.group = t.group := by
  rcases h.shape with rfl | ⟨f, ts, us, ts', us', rfl, rfl, h1, h2⟩ | ⟨e1, e2, -⟩
  · rfl
  · simp only [Term.group, h1.length]
  · cases t <;> first | (cases e1; done) | (cases u <;> first | (cases e2; done) | rfl)

theorem ReducesL.vals : ∀ {ts us : List Term}, ReducesL ts us → (∀ t ∈ ts, t.Closed) → us.map Term.val = ts.map Term.val
  | _, _, .nil, _ => rfl
  | _, _, .cons h1 h2, h => by rw [List.map_cons, List.map_cons, h1.val (h _ (.head _)), h2.vals fun t ht => h t (.tail _ ht)]

/-- Ground items with different values. -/
theorem ReducesL.different {ts us : List Term} (h : ReducesL ts us) (hc : ∀ t ∈ ts, t.Closed)
    (hd : ts.Pairwise (fun x y => x.val ≠ y.val)) : us.Pairwise (fun x y => x.val ≠ y.val) := by
  have h1 : (ts.map Term.val).Pairwise (· ≠ ·) := List.pairwise_map.2 hd
  rw [← h.vals hc] at h1
  exact List.pairwise_map.1 h1

/-! ## Annotations -/

/-- Items that have the same values, one by one. -/
abbrev SameDen (σ : Asg) : List Term → List Term → Prop := EachPair fun a b => ∀ v, Den σ a v ↔ Den σ b v

theorem ReducesL.same (σ : Asg) : ∀ {ts us : List Term}, ReducesL ts us → SameDen σ ts us
  | _, _, .nil => .nil
  | _, _, .cons h1 h2 => .cons (h1.den σ) (h2.same σ)

theorem SameDen.symm {σ : Asg} : ∀ {ts us : List Term}, SameDen σ ts us → SameDen σ us ts
  | _, _, .nil => .nil
  | _, _, .cons h1 h2 => .cons (fun v => (h1 v).symm) (SameDen.symm h2)

omit [Arith] in
theorem EachPair.perm {R : Term → Term → Prop} {l ys : List Term} (h : l.Perm ys) :
    ∀ {ys'}, EachPair R ys ys' → ∃ l', EachPair R l l' ∧ l'.Perm ys' := by
  induction h with
  | nil => exact fun h => ⟨_, h, .refl _⟩
  | cons x _ ih =>
    intro ys' h
    cases h with
    | cons h1 h2 =>
      obtain ⟨l', h3, h4⟩ := ih h2
      exact ⟨_, .cons h1 h3, h4.cons _⟩
  | swap x y l =>
    intro ys' h
    cases h with
    | cons h1 h2 => cases h2 with
      | cons h2 h3 => exact ⟨_, .cons h2 (.cons h1 h3), .swap ..⟩
  | trans _ _ ih1 ih2 =>
    intro ys' h
    obtain ⟨l1, h1, h2⟩ := ih2 h
    obtain ⟨l2, h3, h4⟩ := ih1 h1
    exact ⟨l2, h3, h4.trans h2⟩

omit [Arith] in
theorem EachPair.split {R : Term → Term → Prop} : ∀ {a b c : List Term}, EachPair R (a ++ b) c →
    ∃ a' b', c = a' ++ b' ∧ EachPair R a a' ∧ EachPair R b b'
  | [], _, c, h => ⟨[], c, rfl, .nil, h⟩
  | x :: a, b, _, .cons h1 h2 => by
    obtain ⟨a', b', rfl, h3, h4⟩ := EachPair.split h2
    exact ⟨_ :: a', b', rfl, .cons h1 h3, h4⟩

theorem agreeEach_same {σ : Asg} : ∀ {xs zs xs' zs' : List Term}, SameDen σ xs xs' → SameDen σ zs zs' → AgreeEach σ xs zs →
    AgreeEach σ xs' zs'
  | _, _, _, _, .nil, .nil, h => h
  | _, _, _, _, .nil, .cons _ _, h => by cases h.1
  | _, _, _, _, .cons _ _, .nil, h => by cases h.1
  | _, _, _, _, .cons h1 h2, .cons h3 h4, h => by
    rw [agreeEach_cons] at h ⊢
    obtain ⟨⟨v, h5, h6⟩, h7⟩ := h
    exact ⟨⟨v, (h1 v).1 h5, (h3 v).1 h6⟩, agreeEach_same h2 h4 h7⟩

theorem annotsMatch_same {σ : Asg} {xs ys xs' ys' : List Term} (hx : SameDen σ xs xs') (hy : SameDen σ ys ys')
    (h : AnnotsMatch σ xs ys) : AnnotsMatch σ xs' ys' := by
  obtain ⟨zs, ⟨rest, hp⟩, ha⟩ := h
  obtain ⟨l', h1, h2⟩ := EachPair.perm hp hy
  obtain ⟨a', b', rfl, h3, -⟩ := EachPair.split h1
  exact ⟨a', ⟨b', h2⟩, agreeEach_same hx h3 ha⟩

theorem ReducesL.match_iff {σ : Asg} {xs ys xs' ys' : List Term} (hx : ReducesL xs xs') (hy : ReducesL ys ys') :
    AnnotsMatch σ xs ys ↔ AnnotsMatch σ xs' ys' :=
  ⟨annotsMatch_same (hx.same σ) (hy.same σ), annotsMatch_same (hx.same σ).symm (hy.same σ).symm⟩

/-! ## Queries -/

section
variable {W A G : Type} [QWorld W A G]

omit [QWorld W A G] [Arith] in
@[simp] theorem Query.ofBool_true : (Query.ofBool true : Query A) = .tru := rfl
omit [QWorld W A G] [Arith] in
@[simp] theorem Query.ofBool_false : (Query.ofBool false : Query A) = .fls := rfl

theorem holds_ofBool {w : W} {σ : Asg} {b : Bool} : Holds w σ (.ofBool b : Query A) ↔ b = true := by
  cases b with
  | true => exact ⟨fun _ => rfl, fun _ => .tru⟩
  | false => exact ⟨nofun, nofun⟩

/-- Values of literals. -/
theorem den_parts {σ : Asg} {p : Term → Prop} {t : Term} (ht : t.Parts p) {v : Val} (h : Den σ t v) : ∀ b, v ≠ .bool b := by
  cases t <;> first | exact ht.elim | skip
  obtain ⟨w, -, rfl⟩ := h
  exact nofun

theorem holds_term {w : W} {σ : Asg} {t u : Term} (h : Reduces t u) (hh : Holds w σ (.term t : Query A)) :
    Holds w σ (.term u : Query A) := by
  cases hh with
  | bool h1 => exact .bool ((h.den σ _).1 h1)
  | belief h1 h2 h3 => exact .belief h1 ((h.agree (.refl _)).1 h2) ((h.annots.match_iff (.refl _)).1 h3)
  | rule h1 h2 h3 h4 => exact .rule h1 ((h.den σ _).1 h2) h3 h4

theorem holds_term' {w : W} {σ : Asg} {t u : Term} (h : Reduces t u) (hh : Holds w σ (.term u : Query A)) :
    Holds w σ (.term t : Query A) := by
  cases hh with
  | bool h1 => exact .bool ((h.den σ _).2 h1)
  | belief h1 h2 h3 => exact .belief h1 ((h.agree (.refl _)).2 h2) ((h.annots.match_iff (.refl _)).2 h3)
  | rule h1 h2 h3 h4 => exact .rule h1 ((h.den σ _).2 h2) h3 h4

/-- The folded query is true under the same assignments. -/
theorem QReduces.holds {cmp : Bool} {w : W} (hw : KBOK w cmp) {σ : Asg} {q q' : Query A} (h : QReduces q q') (hq : q.OK w cmp) :
    Holds w σ q ↔ Holds w σ q' := by
  induction h with
  | refl => exact Iff.rfl
  | act | not | notValue => exact hq.elim
  | term h => exact ⟨holds_term h, holds_term' h⟩
  | unify h1 h2 =>
    constructor
    · intro hh
      cases hh with
      | unify h3 h4 =>
        refine .unify ((h1.agree h2).1 h3) fun e1 e2 => (h1.annots.match_iff h2.annots).1 (h4 ?_ ?_)
        · rwa [h1.isLiteral] at e1
        · rwa [h2.isLiteral] at e2
    · intro hh
      cases hh with
      | unify h3 h4 =>
        refine .unify ((h1.agree h2).2 h3) fun e1 e2 => (h1.annots.match_iff h2.annots).2 (h4 ?_ ?_)
        · rwa [h1.isLiteral]
        · rwa [h2.isLiteral]
  | and _ _ ih1 ih2 =>
    have i1 := ih1 hq.1
    have i2 := ih2 hq.2
    exact ⟨fun h => by cases h with | and a b => exact .and (i1.1 a) (i2.1 b),
      fun h => by cases h with | and a b => exact .and (i1.2 a) (i2.2 b)⟩
  | or _ _ ih1 ih2 =>
    have i1 := ih1 hq.1
    have i2 := ih2 hq.2
    exact ⟨fun h => by cases h with | orL a => exact .orL (i1.1 a) | orR b => exact .orR (i2.1 b),
      fun h => by cases h with | orL a => exact .orL (i1.2 a) | orR b => exact .orR (i2.2 b)⟩
  | value h =>
    rw [holds_ofBool]
    constructor
    · intro hh
      have hb := holds_term h hh
      cases hb with
      | bool h1 => cases h1; rfl
      | belief h1 h2 h3 =>
        obtain ⟨v, h4, h5⟩ := h2
        exact absurd h4 (den_parts (hw.belief _ _ h1).2.1 h5 _)
      | rule h1 h2 h3 h4 => exact absurd h2 (den_parts (hw.rule _ _ h1).2.1 h3 _)
    · rintro rfl
      exact holds_term' h (.bool rfl)
  | andValue _ _ ih1 ih2 =>
    have i1 := (ih1 hq.1).trans holds_ofBool
    have i2 := (ih2 hq.2).trans holds_ofBool
    rw [holds_ofBool, Bool.and_eq_true]
    exact ⟨fun h => by cases h with | and a b => exact ⟨i1.1 a, i2.1 b⟩, fun h => .and (i1.2 h.1) (i2.2 h.2)⟩
  | orValue _ _ ih1 ih2 =>
    have i1 := (ih1 hq.1).trans holds_ofBool
    have i2 := (ih2 hq.2).trans holds_ofBool
    rw [holds_ofBool, Bool.or_eq_true]
    exact ⟨fun h => by cases h with | orL a => exact .inl (i1.1 a) | orR b => exact .inr (i2.1 b),
      fun h => h.elim (fun h => .orL (i1.2 h)) fun h => .orR (i2.2 h)⟩

omit [Arith] in
theorem ok_ofBool {w : W} {cmp b : Bool} : (Query.ofBool b : Query A).OK w cmp := by cases b <;> exact trivial

/-- Folding preserves the side conditions of the logical theorems. -/
theorem QReduces.ok {cmp : Bool} {w : W} {q q' : Query A} (h : QReduces q q') (hq : q.OK w cmp) : q'.OK w cmp := by
  induction h with
  | refl => exact hq
  | act | not | notValue => exact hq.elim
  | value | andValue | orValue => exact ok_ofBool
  | and _ _ ih1 ih2 => exact ⟨ih1 hq.1, ih2 hq.2⟩
  | or _ _ ih1 ih2 => exact ⟨ih1 hq.1, ih2 hq.2⟩
  | term h =>
    simp only [Query.OK] at hq ⊢
    rw [h.isLiteral, h.group]
    split
    · rename_i hl
      rw [if_pos hl] at hq
      exact ⟨h.litOK hq.1, hq.2.imp (h.parts fun t u h ht => h.noWild ht) id⟩
    · rename_i hl
      rw [if_neg hl] at hq
      exact ⟨hq.1, h.noWild hq.2.1, h.tame hq.2.2⟩
  | unify h1 h2 =>
    refine hq.imp (fun ⟨a, b, c, d, e, f⟩ => ⟨h1.noAnnots a, h1.tame b, h2.tame c, h1.noWild d, h2.noWild e, fun hl y hy => ?_⟩)
      (fun ⟨a, b, c, d⟩ => ⟨h1.litOK a, h2.parts (fun t u h ht => h.tame ht) b, h1.parts (fun t u h ht => h.noWild ht) c,
        h2.parts (fun t u h ht => h.noWild ht) d⟩)
    rw [h1.isLiteral] at hl
    rcases h2.shape with e | ⟨_, _, _, _, _, _, e, _⟩ | ⟨_, _, _, _, e, _⟩
    · exact f hl y (e ▸ hy)
    · rw [e] at hy; cases hy
    · exact e y hy

omit [QWorld W A G] in
theorem QReduces.ground {q q' : Query A} (h : QReduces q q') (hq : q.GroundAnnots) : q'.GroundAnnots := by
  have bool : ∀ b, (Query.ofBool b : Query A).GroundAnnots := fun b => by cases b <;> exact trivial
  induction h with
  | refl => exact hq
  | act => trivial
  | value | andValue | orValue | notValue => exact bool _
  | and _ _ ih1 ih2 => exact ⟨ih1 hq.1, ih2 hq.2⟩
  | or _ _ ih1 ih2 => exact ⟨ih1 hq.1, ih2 hq.2⟩
  | not _ ih => exact ih hq
  | term h => exact ⟨h.annots.all (fun t u h ht => h.closed ht) hq.1, h.annots.different hq.1 hq.2⟩
  | unify h1 h2 =>
    exact ⟨h1.annots.all (fun t u h ht => h.closed ht) hq.1, h1.annots.different hq.1 hq.2.1,
      h2.annots.all (fun t u h ht => h.closed ht) hq.2.2⟩

omit [QWorld W A G] in
theorem QReduces.bound {q q' : Query A} (h : QReduces q q') : q'.bound ≤ q.bound := by
  have bool : ∀ b, (Query.ofBool b : Query A).bound = 0 := fun b => by cases b <;> rfl
  induction h with
  | refl => exact Nat.le_refl _
  | act h => exact h.bound
  | term h => exact h.bound
  | not _ ih => exact ih
  | value | andValue | orValue | notValue => rw [bool]; exact Nat.zero_le _
  | and _ _ ih1 ih2 => simp only [Query.bound]; omega
  | or _ _ ih1 ih2 => simp only [Query.bound]; omega
  | unify h1 h2 => have := h1.bound; have := h2.bound; simp only [Query.bound]; omega

end

/-! ## The visitor -/

omit [Arith] in
theorem queryOf_bool {acts : Lookup} {vars : List Char → Term} {b : Bool} {q : Query Act} :
    QueryOf acts vars (.const (.bool b)) q ↔ q = .ofBool b := by
  constructor
  · intro h; cases h <;> rfl
  · rintro rfl; cases b <;> constructor

omit [Arith] in
theorem builds_length {vars : List Char → Term} : ∀ ts : List Ast, (Ast.builds vars ts).length = ts.length
  | [] => rfl
  | _ :: ts => by rw [Ast.builds, List.length_cons, List.length_cons, builds_length ts]

theorem fold_logical_and_or {op : BinOp} (hop : op.booleanOp = true) {l r a' : Ast} {s : Nat} (h : fold .logical (.bin op l r) s = .ok (some a') s) :
    ∃ l' r', fold .logical l s = .ok (some l') s ∧ fold .logical r s = .ok (some r') s ∧ boolBin op (some l') (some r') s = .ok (some a') s := by
  rw [fold.eq_def] at h
  simp only [Visitor.forBin] at h
  rw [if_neg (by simp [hop]), if_pos hop] at h
  obtain ⟨l', s1, h1, h2⟩ := Res.bind_eq_ok.1 h
  obtain ⟨r', s2, h3, h4⟩ := Res.bind_eq_ok.1 h2
  obtain ⟨a1, a2⟩ := fold_ok _ _ _ _ _ h1
  obtain ⟨b1, b2⟩ := fold_ok _ _ _ _ _ h3
  have c := (boolBin_ok hop h4).1
  obtain rfl : s1 = s := by omega
  obtain rfl : s2 = s1 := by omega
  obtain ⟨x, rfl, -⟩ := a2 rfl
  obtain ⟨y, rfl, -⟩ := b2 rfl
  exact ⟨x, y, h1, h3, h4⟩

/-- The query of the folded tree is the folded query. -/
theorem fold_query {acts : Lookup} {vars : List Char → Term} {a : Ast} {q : Query Act} (hq : QueryOf acts vars a q) :
    ∀ {s : Nat} {a' : Ast}, fold .logical a s = .ok (some a') s → ∃ q', QueryOf acts vars a' q' ∧ QReduces q q' := by
  have lit : ∀ {f : List Char} {ts as : List Ast} {s : Nat} {a' : Ast}, fold .logical (.lit f ts as) s = .ok (some a') s →
      ∃ ts' as', a' = .lit f ts' as' ∧ ts'.length = ts.length := by
    intro f ts as s a' h
    rw [fold.eq_def] at h
    obtain ⟨ts', s1, h1, h2⟩ := Res.bind_eq_ok.1 h
    obtain ⟨as', s2, h3, h4⟩ := Res.bind_eq_ok.1 h2
    obtain ⟨a1, a2⟩ := foldL_ok ts _ _ _ h1
    obtain ⟨b1, b2⟩ := foldL_ok as _ _ _ h3
    injection h4 with h5 h6
    obtain ⟨x, rfl, rx, -⟩ := a2 (by omega)
    obtain ⟨y, rfl, ry, -⟩ := b2 (by omega)
    injection h5 with h5
    have := (rx vars).length
    rw [builds_length, builds_length] at this
    exact ⟨_, _, h5.symm, this⟩
  have red : ∀ {a : Ast} {s : Nat} {a' : Ast}, fold .logical a s = .ok (some a') s → Reduces (a.build vars) (a'.build vars) := by
    intro a s a' h
    obtain ⟨b, h1, h2, -⟩ := (fold_ok a _ s _ s h).2 rfl
    cases h1
    exact h2 vars
  induction hq with
  | act ha =>
    intro s a' h
    have hr := red h
    obtain ⟨ts', as', rfl, e⟩ := lit h
    exact ⟨_, .act (by rw [e]; exact ha), .act hr⟩
  | belief ha =>
    intro s a' h
    have hr := red h
    obtain ⟨ts', as', rfl, e⟩ := lit h
    exact ⟨_, .belief (by rw [e]; exact ha), .term hr⟩
  | tru =>
    intro s a' h
    cases h
    exact ⟨_, .tru, .refl _⟩
  | fls =>
    intro s a' h
    cases h
    exact ⟨_, .fls, .refl _⟩
  | var =>
    intro s a' h
    rw [fold] at h
    cases h
    exact ⟨_, .var, .refl _⟩
  | and _ _ ih1 ih2 =>
    intro s a' h
    obtain ⟨l', r', h1, h2, h3⟩ := fold_logical_and_or rfl h
    obtain ⟨p', hp, rp⟩ := ih1 h1
    obtain ⟨q', hq, rq⟩ := ih2 h2
    rw [boolBin.eq_def] at h3
    split at h3
    · rename_i e1 e2
      cases e1; cases e2; cases h3
      rw [queryOf_bool] at hp hq
      subst hp; subst hq
      exact ⟨_, queryOf_bool.2 rfl, .andValue rp rq⟩
    · cases h3
      exact ⟨_, .and hp hq, .and rp rq⟩
  | or _ _ ih1 ih2 =>
    intro s a' h
    obtain ⟨l', r', h1, h2, h3⟩ := fold_logical_and_or rfl h
    obtain ⟨p', hp, rp⟩ := ih1 h1
    obtain ⟨q', hq, rq⟩ := ih2 h2
    rw [boolBin.eq_def] at h3
    split at h3
    · rename_i e1 e2
      cases e1; cases e2; cases h3
      rw [queryOf_bool] at hp hq
      subst hp; subst hq
      exact ⟨_, queryOf_bool.2 rfl, .orValue rp rq⟩
    · cases h3
      exact ⟨_, .or hp hq, .or rp rq⟩
  | not _ ih =>
    intro s a' h
    rw [fold] at h
    simp only [Visitor.forUn] at h
    rw [if_pos (by decide)] at h
    obtain ⟨b', s1, h1, h2⟩ := Res.bind_eq_ok.1 h
    obtain ⟨a1, a2⟩ := fold_ok _ _ _ _ _ h1
    have le : s1 ≤ s := by
      rw [foldUn.eq_def] at h2
      split at h2 <;> first | (injection h2 with _ h6; omega) | cases h2
    obtain rfl : s1 = s := by omega
    obtain ⟨x, rfl, -⟩ := a2 rfl
    obtain ⟨q', hq, rq⟩ := ih h1
    rw [foldUn.eq_def] at h2
    split at h2
    · rename_i e
      cases e; cases h2
      rw [queryOf_bool] at hq
      subst hq
      exact ⟨_, queryOf_bool.2 rfl, .notValue rq⟩
    · rename_i e1 e2; cases e1
    · rename_i e1 e2; cases e1
    · cases h2
    · cases h2
    · cases h2
      exact ⟨_, .not hq, .not rq⟩
  | unify =>
    intro s a' h
    rw [fold] at h
    simp only [Visitor.forBin] at h
    rw [if_pos (by decide)] at h
    obtain ⟨l', s1, h1, h2⟩ := Res.bind_eq_ok.1 h
    obtain ⟨r', s2, h3, h4⟩ := Res.bind_eq_ok.1 h2
    obtain ⟨a1, a2⟩ := fold_ok _ _ _ _ _ h1
    obtain ⟨b1, b2⟩ := fold_ok _ _ _ _ _ h3
    injection h4 with h5 h6
    obtain ⟨x, rfl, rx, -⟩ := a2 (by omega)
    obtain ⟨y, rfl, ry, -⟩ := b2 (by omega)
    injection h5 with h5
    subst h5
    exact ⟨_, .unify, .unify (rx vars) (ry vars)⟩
  | comp hc =>
    rename_i op l r
    intro s a' h
    have hr := red h
    rw [fold.eq_def] at h
    simp only [Visitor.forBin] at h
    rw [if_neg (by cases op <;> simp_all [BinOp.compOp, BinOp.queryOp]), if_neg (by cases op <;> simp_all [BinOp.compOp, BinOp.booleanOp]), if_pos hc] at h
    obtain ⟨l', s1, h1, h2⟩ := Res.bind_eq_ok.1 h
    obtain ⟨r', s2, h3, h4⟩ := Res.bind_eq_ok.1 h2
    obtain ⟨a1, a2⟩ := fold_ok _ _ _ _ _ h1
    obtain ⟨b1, b2⟩ := fold_ok _ _ _ _ _ h3
    obtain ⟨c1, c2⟩ := compBin_ok hc h4
    obtain ⟨x, rfl, rx, -⟩ := a2 (by omega)
    obtain ⟨y, rfl, ry, -⟩ := b2 (by omega)
    obtain ⟨z, ez, -, -, hz⟩ := (c2 (by omega) x y rfl rfl).out
    cases ez
    rcases hz with ⟨_, rfl, b, rfl⟩ | ⟨rfl, -⟩
    · exact ⟨_, queryOf_bool.2 rfl, .value hr⟩
    · exact ⟨_, .comp hc, .term hr⟩

end

end Verif
