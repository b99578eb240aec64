import Verif.Lemmas.Body

/-!
# Lemmas: the compiler
-/

namespace Verif

open Lang

namespace Code

@[simp] theorem set_instr (c : Code) (i j : Nat) (x : Instr) : (c.set i x).instr j = if j = i then x else c.instr j := rfl
@[simp] theorem set_size (c : Code) (i : Nat) (x : Instr) : (c.set i x).size = c.size := rfl
@[simp] theorem alloc_instr (c : Code) (f : InstrF) (j : Nat) :
    (c.alloc f).instr j = if j = c.size then ⟨f, none, none⟩ else c.instr j := rfl
@[simp] theorem alloc_size (c : Code) (f : InstrF) : (c.alloc f).size = c.size + 1 := rfl
@[simp] theorem setSuccess_instr (c : Code) (i j k : Nat) :
    (c.setSuccess i j).instr k = if k = i then { c.instr i with success := some j } else c.instr k := rfl
@[simp] theorem setSuccess_size (c : Code) (i j : Nat) : (c.setSuccess i j).size = c.size := rfl
@[simp] theorem setFailure_instr (c : Code) (i j k : Nat) :
    (c.setFailure i j).instr k = if k = i then { c.instr i with failure := some j } else c.instr k := rfl
@[simp] theorem setFailure_size (c : Code) (i j : Nat) : (c.setFailure i j).size = c.size := rfl

theorem alloc_old (c : Code) (f : InstrF) {i : Nat} (h : i < c.size) : (c.alloc f).instr i = c.instr i := by
  rw [alloc_instr, if_neg (by omega)]
theorem alloc_new (c : Code) (f : InstrF) : (c.alloc f).instr c.size = ⟨f, none, none⟩ := by
  rw [alloc_instr, if_pos rfl]
theorem setSuccess_ne (c : Code) (j : Nat) {i k : Nat} (h : k ≠ i) : (c.setSuccess i j).instr k = c.instr k := by
  rw [setSuccess_instr, if_neg h]
theorem setSuccess_self (c : Code) (i j : Nat) : (c.setSuccess i j).instr i = { c.instr i with success := some j } := by
  rw [setSuccess_instr, if_pos rfl]
theorem setFailure_ne (c : Code) (j : Nat) {i k : Nat} (h : k ≠ i) : (c.setFailure i j).instr k = c.instr k := by
  rw [setFailure_instr, if_neg h]
theorem setFailure_self (c : Code) (i j : Nat) : (c.setFailure i j).instr i = { c.instr i with failure := some j } := by
  rw [setFailure_instr, if_pos rfl]

end Code

/-- Compiling from `s` to `s'` adds instructions and links the old tail to them; nothing
else changes. -/
structure Grows (s s' : CSt) : Prop where
  size : s.code.size ≤ s'.code.size
  old : ∀ i, i < s.code.size → i ≠ s.tail → s'.code.instr i = s.code.instr i
  f : (s'.code.instr s.tail).f = (s.code.instr s.tail).f
  failure : (s'.code.instr s.tail).failure = (s.code.instr s.tail).failure
  tail : s'.tail = s.tail ∨ s.code.size ≤ s'.tail
  tail_lt : s'.tail < s'.code.size

theorem Grows.refl {s : CSt} (h : s.tail < s.code.size) : Grows s s :=
  ⟨Nat.le_refl _, fun _ _ _ => rfl, rfl, rfl, .inl rfl, h⟩

theorem Grows.trans {s s₁ s₂ : CSt} (hs : s.tail < s.code.size) (h : Grows s s₁) (h' : Grows s₁ s₂) : Grows s s₂ where
  size := Nat.le_trans h.size h'.size
  old i hi hn := by
    rw [h'.old i (Nat.lt_of_lt_of_le hi h.size) (by rcases h.tail with h | h <;> omega), h.old i hi hn]
  f := by
    by_cases he : s.tail = s₁.tail
    · rw [he, h'.f, ← he, h.f]
    · rw [h'.old _ (Nat.lt_of_lt_of_le hs h.size) he, h.f]
  failure := by
    by_cases he : s.tail = s₁.tail
    · rw [he, h'.failure, ← he, h.failure]
    · rw [h'.old _ (Nat.lt_of_lt_of_le hs h.size) he, h.failure]
  tail := by
    have := h.size
    rcases h'.tail with h1 | h1 <;> rcases h.tail with h2 | h2 <;> omega
  tail_lt := h'.tail_lt

/-- Later changes above the old instructions. -/
theorem Grows.patch {s s₁ s' : CSt} (hs : s.tail < s.code.size) (h : Grows s s₁) (h1 : s.code.size ≤ s'.code.size)
    (h2 : ∀ i, i < s.code.size → s'.code.instr i = s₁.code.instr i) (h3 : s.code.size ≤ s'.tail) (h4 : s'.tail < s'.code.size) :
    Grows s s' :=
  ⟨h1, fun i hi hn => by rw [h2 i hi, h.old i hi hn], by rw [h2 _ hs, h.f], by rw [h2 _ hs, h.failure], .inr h3, h4⟩

theorem add_grows {s : CSt} (hs : s.tail < s.code.size) (f : InstrF) : Grows s (s.add f) where
  size := by simp [CSt.add]
  old i hi hn := by simp [CSt.add, hn]; omega
  f := by simp [CSt.add]; split <;> first | omega | rfl
  failure := by simp [CSt.add]; split <;> first | omega | rfl
  tail := .inr (Nat.le_refl _)
  tail_lt := by simp [CSt.add]

@[simp] theorem add_size (s : CSt) (f : InstrF) : (s.add f).code.size = s.code.size + 1 := rfl
@[simp] theorem add_tail (s : CSt) (f : InstrF) : (s.add f).tail = s.code.size := rfl
@[simp] theorem add_instr (s : CSt) (f : InstrF) (i : Nat) : (s.add f).code.instr i =
    if i = s.tail then { (s.code.alloc f).instr s.tail with success := some s.code.size } else (s.code.alloc f).instr i := rfl

mutual
theorem compileS_grows : ∀ (x : Stmt) {s : CSt}, s.tail < s.code.size → Grows s (compileS x s) ∧ s.code.size ≤ (compileS x s).tail
  | .add t, s, hs => ⟨add_grows hs _, Nat.le_refl _⟩
  | .remove t, s, hs => ⟨add_grows hs _, Nat.le_refl _⟩
  | .test t, s, hs => ⟨add_grows hs _, Nat.le_refl _⟩
  | .replace p t, s, hs =>
    ⟨(add_grows hs _).trans hs (add_grows (by simp) _), by simp [compileS]⟩
  | .achieve t, s, hs => ⟨add_grows hs _, Nat.le_refl _⟩
  | .achieveLater t, s, hs => ⟨add_grows hs _, Nat.le_refl _⟩
  | .query q, s, hs =>
    ⟨((add_grows hs _).trans hs (add_grows (by simp) _)).trans hs (add_grows (by simp) _), by simp [compileS]; omega⟩
  | .forall_ q body, s, hs => by
    have h2 := (add_grows hs (.pushQuery q)).trans hs (add_grows (by simp) .nextOrFail)
    have h3 := compileL_grows body (s := (s.add (.pushQuery q)).add .nextOrFail) (by simp)
    have h4 := h2.trans hs h3
    have h5 := h3.size
    have h6 := h3.tail
    simp at h5 h6
    rw [compileS]
    refine ⟨h4.patch hs ?_ ?_ ?_ ?_, ?_⟩
    · simp; omega
    · intro i hi
      simp
      rw [if_neg (by omega), if_neg (by omega), if_neg (by omega)]
    · simp; omega
    · simp
    · simp; omega
  | .ite q thn els, s, hs => by
    have h2 := (add_grows hs (.pushQuery q)).trans hs (add_grows (by simp) .nextOrFail)
    obtain ⟨s2, e2⟩ : ∃ s2, s2 = (s.add (.pushQuery q)).add .nextOrFail := ⟨_, rfl⟩
    have h2s : s2.code.size = s.code.size + 2 := by rw [e2]; rfl
    have h2t : s2.tail = s.code.size + 1 := by rw [e2]; rfl
    rw [← e2] at h2
    obtain ⟨s3, e3⟩ : ∃ s3 : CSt, s3 = ⟨s2.code.alloc .popQuery, s2.tail⟩ := ⟨_, rfl⟩
    have h3s : s3.code.size = s.code.size + 3 := by rw [e3, show s.code.size + 3 = (s.code.size + 2) + 1 from rfl, ← h2s]; rfl
    have h3t : s3.tail = s.code.size + 1 := by rw [e3, ← h2t]
    have h3 : Grows s s3 := h2.patch hs (by omega) (fun i hi => by rw [e3, Code.alloc_old _ _ (by omega)]) (by omega) (by omega)
    have h4 := compileThen_grows thn (s.code.size + 2) (s := s3) (by omega)
    have h6 : compileS (.ite q thn els) s = ⟨(compileElse els (s.code.size + 1) (s.code.size + 2) (compileThen thn (s.code.size + 2) s3)).code, s.code.size + 2⟩ := by
      rw [compileS, e3, e2]; rfl
    have h4' := h3.trans hs h4
    have h4s := h4.size
    have h5 := compileElse_grows els (s.code.size + 1) (s.code.size + 2) (s := compileThen thn (s.code.size + 2) s3) (by omega)
    rw [h6]
    have h7 := h5.1
    exact ⟨h4'.patch hs (by dsimp only; omega) (fun i hi => h5.2 i (by omega) (by omega)) (by dsimp only; omega) (by dsimp only; omega),
      by dsimp only; omega⟩
  | .while_ q body, s, hs => by
    obtain ⟨s1, e1⟩ : ∃ s1 : CSt, s1 = ⟨s.code.alloc .popChoicepoint, s.tail⟩ := ⟨_, rfl⟩
    have h1s : s1.code.size = s.code.size + 1 := by rw [e1]; rfl
    have h1t : s1.tail = s.tail := by rw [e1]
    have h1 : ∀ i, i < s.code.size → s1.code.instr i = s.code.instr i := by
      intro i hi; rw [e1, Code.alloc_old _ _ hi]
    have h4 : Grows s1 (((s1.add (.pushQuery q)).add .pushChoicepoint).add .nextOrFail) :=
      ((add_grows (by omega) _).trans (by omega) (add_grows (by simp) _)).trans (by omega) (add_grows (by simp) _)
    obtain ⟨s4, e4⟩ : ∃ s4, s4 = ((s1.add (.pushQuery q)).add .pushChoicepoint).add .nextOrFail := ⟨_, rfl⟩
    have h4s : s4.code.size = s.code.size + 4 := by rw [e4, show s.code.size + 4 = (s.code.size + 1) + 3 from rfl, ← h1s]; rfl
    have h4t : s4.tail = s.code.size + 3 := by rw [e4, show s.code.size + 3 = (s.code.size + 1) + 2 from rfl, ← h1s]; rfl
    rw [← e4] at h4
    obtain ⟨s5, e5⟩ : ∃ s5 : CSt, s5 = ⟨s4.code.setFailure s4.tail s.code.size, s4.tail⟩ := ⟨_, rfl⟩
    have h5s : s5.code.size = s.code.size + 4 := by rw [e5, ← h4s]; rfl
    have h5t : s5.tail = s.code.size + 3 := by rw [e5, ← h4t]
    have h7 := (add_grows (s := s5) (by omega) .popQuery).trans (by omega) (compileL_grows body (s := s5.add .popQuery) (by simp))
    have e : compileS (.while_ q body) s = (CSt.mk (((compileL body (s5.add .popQuery)).add .popChoicepoint).code.setSuccess (compileL body (s5.add .popQuery)).code.size (s.code.size + 1)) s.code.size).add .popQuery := by
      rw [compileS, e5, e4, e1]; rfl
    rw [e]
    clear e
    generalize compileL body (s5.add .popQuery) = s7 at *
    have h8 := h7.trans (by omega) (add_grows h7.tail_lt .popChoicepoint)
    have h9 := h7.size
    have key : ∀ i, i < s.code.size → ((s7.add .popChoicepoint).code.instr i) = s4.code.instr i := by
      intro i hi
      rw [h8.old i (by omega) (by omega), e5, Code.setFailure_ne _ _ (by omega)]
    obtain ⟨s8, e8⟩ : ∃ s8 : CSt, s8 = ⟨(s7.add .popChoicepoint).code.setSuccess s7.code.size (s.code.size + 1), s.code.size⟩ := ⟨_, rfl⟩
    have h8s : s8.code.size = s7.code.size + 1 := by rw [e8]; rfl
    have h8t : s8.tail = s.code.size := by rw [e8]
    rw [← e8]
    have h10 := add_grows (s := s8) (by omega) .popQuery
    have key' : ∀ i, i < s.code.size → (s8.add .popQuery).code.instr i = s4.code.instr i := by
      intro i hi
      rw [h10.old i (by omega) (by omega), e8, Code.setSuccess_ne _ _ (by omega), key i hi]
    refine ⟨⟨?_, ?_, ?_, ?_, ?_, h10.tail_lt⟩, ?_⟩
    · rw [add_size]; omega
    · intro i hi hn
      rw [key' i hi, h4.old i (by omega) (by omega), h1 i hi]
    · rw [key' _ hs, ← h1t, h4.f, h1t, h1 _ hs]
    · rw [key' _ hs, ← h1t, h4.failure, h1t, h1 _ hs]
    · right; rw [add_tail]; omega
    · rw [add_tail]; omega
theorem compileL_grows : ∀ (xs : List Stmt) {s : CSt}, s.tail < s.code.size → Grows s (compileL xs s)
  | [], s, hs => .refl hs
  | x :: xs, s, hs => by
    have h := (compileS_grows x hs).1
    exact h.trans hs (compileL_grows xs h.tail_lt)
theorem compileThen_grows : ∀ (o : Option (List Stmt)) (tail : Nat) {s : CSt}, s.tail < s.code.size → Grows s (compileThen o tail s)
  | some body, tail, s, hs => by
    have h := compileL_grows body hs
    rw [compileThen]
    refine ⟨h.size, ?_, ?_, ?_, h.tail, h.tail_lt⟩
    · intro i hi hn
      simp only [Code.setSuccess_instr]
      rw [if_neg (by rcases h.tail with h | h <;> omega), h.old i hi hn]
    · simp only [Code.setSuccess_instr]
      split
      · next he => rw [← he, h.f]
      · exact h.f
    · simp only [Code.setSuccess_instr]
      split
      · next he => rw [← he, h.failure]
      · exact h.failure
  | none, tail, s, hs => by
    rw [compileThen]
    refine ⟨Nat.le_refl _, ?_, ?_, ?_, .inl rfl, hs⟩
    · intro i hi hn
      simp only [Code.setSuccess_instr]
      rw [if_neg hn]
    · simp
    · simp
theorem compileElse_grows : ∀ (o : Option (List Stmt)) (test tail : Nat) {s : CSt}, test < s.code.size →
    s.code.size ≤ (compileElse o test tail s).code.size ∧
    ∀ i, i < s.code.size → i ≠ test → (compileElse o test tail s).code.instr i = s.code.instr i
  | some body, test, tail, s, hs => by
    have h := compileL_grows body (s := ⟨(s.code.alloc .noop).setFailure test s.code.size, s.code.size⟩) (by simp)
    have h1 := h.size
    have h2 := h.tail
    simp at h1 h2
    rw [compileElse]
    refine ⟨by simp; omega, ?_⟩
    intro i hi hn
    simp only [Code.setSuccess_instr]
    rw [if_neg (by omega), h.old i (by simp; omega) (by simp; omega)]
    simp only [Code.setFailure_instr, Code.alloc_instr]
    rw [if_neg hn, if_neg (by omega)]
  | none, test, tail, s, hs => by
    rw [compileElse]
    refine ⟨Nat.le_refl _, ?_⟩
    intro i hi hn
    simp only [Code.setFailure_instr]
    rw [if_neg hn]
end

/-- `c` contains the instructions compiled from `s` to `s'`; the tail may have been linked to
something. -/
structure CodeFits (s s' : CSt) (c : Code) : Prop where
  f : ∀ i, s.code.size ≤ i → i < s'.code.size → (c.instr i).f = (s'.code.instr i).f
  failure : ∀ i, s.code.size ≤ i → i < s'.code.size → (c.instr i).failure = (s'.code.instr i).failure
  success : ∀ i, s.code.size ≤ i → i < s'.code.size → i ≠ s'.tail → (c.instr i).success = (s'.code.instr i).success
  entry : s'.tail ≠ s.tail → (c.instr s.tail).success = (s'.code.instr s.tail).success

theorem CodeFits.first {s s₁ s₂ : CSt} {c : Code} (hs : s.tail < s.code.size) (h₁ : Grows s s₁) (h₂ : Grows s₁ s₂) (h : CodeFits s s₂ c) :
    CodeFits s s₁ c := by
  have z1 := h₁.size
  have z2 := h₂.size
  have t1 := h₁.tail
  have t2 := h₂.tail
  refine ⟨fun i hi hl => ?_, fun i hi hl => ?_, fun i hi hl hn => ?_, fun hn => ?_⟩
  · rw [h.f i hi (by omega)]
    by_cases he : i = s₁.tail
    · rw [he, h₂.f]
    · rw [h₂.old i hl he]
  · rw [h.failure i hi (by omega)]
    by_cases he : i = s₁.tail
    · rw [he, h₂.failure]
    · rw [h₂.old i hl he]
  · rw [h.success i hi (by omega) (by omega), h₂.old i hl hn]
  · rw [h.entry (by omega), h₂.old _ (by omega) (by omega)]

theorem CodeFits.second {s s₁ s₂ : CSt} {c : Code} (h₁ : Grows s s₁) (h₂ : Grows s₁ s₂) (h : CodeFits s s₂ c) : CodeFits s₁ s₂ c := by
  have z1 := h₁.size
  have z2 := h₂.size
  have t1 := h₁.tail
  have l1 := h₁.tail_lt
  refine ⟨fun i hi => h.f i (by omega), fun i hi => h.failure i (by omega), fun i hi => h.success i (by omega), fun hn => ?_⟩
  by_cases he : s₁.tail = s.tail
  · rw [he] at hn ⊢; exact h.entry hn
  · exact h.success _ (by omega) (by omega) (Ne.symm hn)

theorem add_region {s : CSt} {f : InstrF} {c : Code} (hs : s.tail < s.code.size) (h : CodeFits s (s.add f) c) :
    (c.instr s.tail).success = some s.code.size ∧ Region c (c.instr s.tail).success (c.instr (s.add f).tail).success (ins f) := by
  have h1 : (c.instr s.tail).success = some s.code.size := by
    rw [h.entry (by rw [add_tail]; omega), add_instr, if_pos rfl]
  refine ⟨h1, ?_⟩
  have h2 := h.f s.code.size (Nat.le_refl _) (by simp)
  have h3 := h.failure s.code.size (Nat.le_refl _) (by simp)
  rw [add_instr, if_neg (by omega), Code.alloc_new] at h2 h3
  rw [h1, add_tail]
  refine .ins ?_
  generalize c.instr s.code.size = x at h2 h3
  cases x
  simp at h2 h3
  rw [h2, h3]

theorem compileThen_eq (o : Option (List Stmt)) (tail : Nat) (s : CSt) :
    compileThen o tail s = ⟨(compileL (o.getD []) s).code.setSuccess (compileL (o.getD []) s).tail tail, (compileL (o.getD []) s).tail⟩ := by
  cases o <;> simp [compileThen, compileL]

theorem semThen_eq (o : Option (List Stmt)) : Stmt.semThen o = Stmt.semL (o.getD []) := by
  cases o <;> simp [Stmt.semThen, Stmt.semL]

theorem compileElse_test (o : Option (List Stmt)) (test tail : Nat) {s : CSt} (h : test < s.code.size) :
    ((compileElse o test tail s).code.instr test).f = (s.code.instr test).f ∧
    ((compileElse o test tail s).code.instr test).success = (s.code.instr test).success ∧
    ∃ l, ((compileElse o test tail s).code.instr test).failure = some l := by
  cases o with
  | none =>
    rw [compileElse]
    dsimp only
    rw [Code.setFailure_self]
    exact ⟨rfl, rfl, _, rfl⟩
  | some body =>
    rw [compileElse]
    dsimp only
    obtain ⟨s5, e5⟩ : ∃ s5 : CSt, s5 = ⟨(s.code.alloc .noop).setFailure test s.code.size, s.code.size⟩ := ⟨_, rfl⟩
    have z5 : s5.code.size = s.code.size + 1 := by rw [e5]; rfl
    have t5 : s5.tail = s.code.size := by rw [e5]
    have hb := compileL_grows body (s := s5) (by omega)
    have t6 := hb.tail
    rw [← e5, Code.setSuccess_ne _ _ (by omega), hb.old _ (by omega) (by omega), e5, Code.setFailure_self, Code.alloc_old _ _ h]
    exact ⟨rfl, rfl, _, rfl⟩

theorem Region.ins' {c : Code} {i : Nat} {f : InstrF} (h : (c.instr i).f = f) (h' : (c.instr i).failure = none) :
    Region c (some i) (c.instr i).success (Lang.ins f) := by
  refine .ins ?_
  generalize c.instr i = x at h h'
  cases x
  simp at h h'
  rw [h, h']

theorem for_region {q : Query Act} {body : List Stmt} {s : CSt} {c : Code} (IH : ∀ {s : CSt} {c : Code}, s.tail < s.code.size → CodeFits s (compileL body s) c →
    Region c (c.instr s.tail).success (c.instr (compileL body s).tail).success (Stmt.semL body)) 
    (hs : s.tail < s.code.size) (h : CodeFits s (compileS (.forall_ q body) s) c) :
    Region c (c.instr s.tail).success (c.instr (compileS (.forall_ q body) s).tail).success (Stmt.forall_ q body).sem := by
  have g1 := add_grows hs (.pushQuery q)
  have hb := compileL_grows body (s := (s.add (.pushQuery q)).add .nextOrFail) (by simp)
  have ih : ∀ {c : Code}, CodeFits _ _ c → Region c _ _ _ := IH (s := (s.add (.pushQuery q)).add .nextOrFail) (by simp)
  rw [compileS] at h ⊢
  rw [Stmt.sem]
  dsimp only at h ⊢
  obtain ⟨s1, e1⟩ : ∃ s1, s1 = s.add (.pushQuery q) := ⟨_, rfl⟩
  have h1s : s1.code.size = s.code.size + 1 := by rw [e1]; rfl
  have h1t : s1.tail = s.code.size := by rw [e1]; rfl
  rw [← e1] at h g1 hb ih ⊢
  have g2 := add_grows g1.tail_lt .nextOrFail
  have t2 : ((s1.add .nextOrFail).code.instr s1.code.size) = ⟨.nextOrFail, none, none⟩ := by
    rw [add_instr, if_neg (by omega), Code.alloc_new]
  obtain ⟨s2, e2⟩ : ∃ s2, s2 = s1.add .nextOrFail := ⟨_, rfl⟩
  have h2s : s2.code.size = s1.code.size + 1 := by rw [e2]; rfl
  have h2t : s2.tail = s1.code.size := by rw [e2]; rfl
  rw [← e2] at h g2 hb t2 ih ⊢
  generalize compileL body s2 = s3 at h hb ih ⊢
  have h3s := hb.size
  have h3t := hb.tail
  have h3l := hb.tail_lt
  obtain ⟨s', e'⟩ : ∃ s' : CSt, s' = ⟨((s3.code.setSuccess s3.tail s2.tail).alloc .popQuery).setFailure s2.tail s3.code.size, s3.code.size⟩ := ⟨_, rfl⟩
  replace h : CodeFits s s' c := by rw [e']; exact h
  show Region c _ (c.instr s3.code.size).success _
  have hs' : s'.code.size = s3.code.size + 1 := by rw [e']; rfl
  have ht' : s'.tail = s3.code.size := by rw [e']
  have g' : Grows s1 s' := by
    refine (g2.trans g1.tail_lt hb).patch g1.tail_lt (by omega) ?_ (by omega) (by omega)
    intro i hi
    rw [e', Code.setFailure_ne _ _ (by omega), Code.alloc_old _ _ (by rw [Code.setSuccess_size]; omega), Code.setSuccess_ne _ _ (by omega)]
  have hf := h.second g1 g'
  have r1 := (add_region (f := .pushQuery q) hs (by rw [← e1]; exact h.first hs g1 g')).2
  rw [← e1] at r1
  -- the instructions of `s'`
  have i1 : ∀ i, i < s3.code.size → i ≠ s2.tail → i ≠ s3.tail → s'.code.instr i = s3.code.instr i := by
    intro i hi hn hm
    rw [e', Code.setFailure_ne _ _ hn, Code.alloc_old _ _ (by rw [Code.setSuccess_size]; exact hi), Code.setSuccess_ne _ _ hm]
  have i2 : (s'.code.instr s2.tail).f = .nextOrFail ∧ (s'.code.instr s2.tail).failure = some s3.code.size := by
    rw [e', Code.setFailure_self, Code.alloc_old _ _ (by rw [Code.setSuccess_size]; omega)]
    refine ⟨?_, rfl⟩
    show ((s3.code.setSuccess s3.tail s2.tail).instr s2.tail).f = _
    have : (s3.code.instr s2.tail).f = .nextOrFail := by rw [hb.f, h2t, t2]
    rw [Code.setSuccess_instr]
    split
    · next he => rw [← he]; exact this
    · exact this
  have i3 : (s'.code.instr s3.tail).success = some s2.tail := by
    have : (((s3.code.setSuccess s3.tail s2.tail).alloc .popQuery).instr s3.tail).success = some s2.tail := by
      rw [Code.alloc_old _ _ (by rw [Code.setSuccess_size]; omega), Code.setSuccess_self]
    rw [e', Code.setFailure_instr]
    split
    · next he => rw [← this, he]
    · exact this
  have i4 : ∀ i, i < s3.code.size → s2.code.size ≤ i → (s'.code.instr i).f = (s3.code.instr i).f ∧ (s'.code.instr i).failure = (s3.code.instr i).failure := by
    intro i hi hl
    rw [e', Code.setFailure_ne _ _ (by omega), Code.alloc_old _ _ (by rw [Code.setSuccess_size]; exact hi), Code.setSuccess_instr]
    split
    · next he => rw [← he]; exact ⟨rfl, rfl⟩
    · exact ⟨rfl, rfl⟩
  have i5 : s3.tail ≠ s2.tail → (s'.code.instr s2.tail).success = (s3.code.instr s2.tail).success := by
    intro hn
    rw [e', Code.setFailure_self, Code.alloc_old _ _ (by rw [Code.setSuccess_size]; omega), Code.setSuccess_ne _ _ (Ne.symm hn)]
  have i6 : s'.code.instr s3.code.size = ⟨.popQuery, none, none⟩ := by
    rw [e', Code.setFailure_ne _ _ (by omega)]
    exact Code.alloc_new _ _
  have fit : CodeFits s2 s3 c := by
    refine ⟨fun i hi hl => ?_, fun i hi hl => ?_, fun i hi hl hn => ?_, fun hn => ?_⟩
    · rw [hf.f i (by omega) (by omega), (i4 i hl hi).1]
    · rw [hf.failure i (by omega) (by omega), (i4 i hl hi).2]
    · rw [hf.success i (by omega) (by omega) (by omega), i1 i hl (by omega) hn]
    · rw [hf.success _ (by omega) (by omega) (by omega), i5 hn]
  have rb := ih fit
  have hh : (c.instr s3.tail).success = some s2.tail := by
    rw [hf.success _ (by omega) (by omega) (by omega), i3]
  have he : (c.instr s1.tail).success = some s2.tail := by
    rw [hf.entry (by omega), e', Code.setFailure_ne _ _ (by omega), Code.alloc_old _ _ (by rw [Code.setSuccess_size]; omega),
      Code.setSuccess_ne _ _ (by omega), hb.old _ (by omega) (by omega), e2, add_instr, if_pos rfl, add_tail]
  have br : Branch c s2.tail (c.instr s2.tail).success (some s3.code.size) := by
    refine ⟨?_, rfl, ?_⟩
    · rw [hf.f _ (by omega) (by omega), i2.1]
    · rw [hf.failure _ (by omega) (by omega), i2.2]
  have rl : Region c (some s3.code.size) (c.instr s3.code.size).success (ins .popQuery) := by
    refine .ins ?_
    have j1 := hf.f s3.code.size (by omega) (by omega)
    have j2 := hf.failure s3.code.size (by omega) (by omega)
    rw [i6] at j1 j2
    generalize c.instr s3.code.size = x at j1 j2
    cases x
    simp at j1 j2
    rw [j1, j2]
  rw [hh] at rb
  exact r1.seq (by rw [he]; exact Region.loop br (.skip _ _) rb rl)

theorem ite_region {q : Query Act} {thn els : Option (List Stmt)} {s : CSt} {c : Code}
    (IT : ∀ {s : CSt} {c : Code}, s.tail < s.code.size → CodeFits s (compileL (thn.getD []) s) c →
      Region c (c.instr s.tail).success (c.instr (compileL (thn.getD []) s).tail).success (Stmt.semL (thn.getD [])))
    (IE : ∀ (test tail : Nat) {s : CSt} {c : Code}, test < s.code.size →
      (∀ i, s.code.size ≤ i → i < (compileElse els test tail s).code.size → c.instr i = (compileElse els test tail s).code.instr i) →
      Region c ((compileElse els test tail s).code.instr test).failure (some tail) (Stmt.semElse els))
    (hs : s.tail < s.code.size) (h : CodeFits s (compileS (.ite q thn els) s) c) :
    Region c (c.instr s.tail).success (c.instr (compileS (.ite q thn els) s).tail).success (Stmt.ite q thn els).sem := by
  have g1 := add_grows hs (.pushQuery q)
  obtain ⟨s1, e1⟩ : ∃ s1, s1 = s.add (.pushQuery q) := ⟨_, rfl⟩
  have h1s : s1.code.size = s.code.size + 1 := by rw [e1]; rfl
  have h1t : s1.tail = s.code.size := by rw [e1]; rfl
  have g1' := g1
  rw [← e1] at g1'
  have g2 := add_grows g1'.tail_lt .nextOrFail
  have t2 : ((s1.add .nextOrFail).code.instr s1.code.size) = ⟨.nextOrFail, none, none⟩ := by
    rw [add_instr, if_neg (by omega), Code.alloc_new]
  obtain ⟨s2, e2⟩ : ∃ s2, s2 = s1.add .nextOrFail := ⟨_, rfl⟩
  have h2s : s2.code.size = s.code.size + 2 := by rw [e2, add_size]; omega
  have h2t : s2.tail = s.code.size + 1 := by rw [e2, add_tail]; omega
  rw [← e2] at g2 t2
  obtain ⟨s3, e3⟩ : ∃ s3 : CSt, s3 = ⟨s2.code.alloc .popQuery, s2.tail⟩ := ⟨_, rfl⟩
  have h3s : s3.code.size = s.code.size + 3 := by rw [e3, show s.code.size + 3 = (s.code.size + 2) + 1 from rfl, ← h2s]; rfl
  have h3t : s3.tail = s.code.size + 1 := by rw [e3, ← h2t]
  have h3 : Grows s1 s3 := g2.patch g1'.tail_lt (by omega) (fun i hi => by rw [e3, Code.alloc_old _ _ (by omega)]) (by omega) (by omega)
  have p3 : s3.code.instr (s.code.size + 2) = ⟨.popQuery, none, none⟩ := by
    rw [e3, ← h2s]; exact Code.alloc_new _ _
  have q3 : s3.code.instr (s.code.size + 1) = ⟨.nextOrFail, none, none⟩ := by
    rw [e3, Code.alloc_old _ _ (by omega), ← h1s, t2]
  have r3 : (s3.code.instr s1.tail).success = some (s.code.size + 1) := by
    rw [e3, Code.alloc_old _ _ (by omega), e2, add_instr, if_pos rfl, h1s]
  have g4 := compileThen_grows thn (s.code.size + 2) (s := s3) (by omega)
  have l4 := compileL_grows (thn.getD []) (s := s3) (by omega)
  have ih : ∀ {c : Code}, CodeFits _ _ c → Region c _ _ _ := IT (s := s3) (by omega)
  rw [compileThen_eq] at g4
  obtain ⟨s4, e4⟩ : ∃ s4, s4 = compileL (thn.getD []) s3 := ⟨_, rfl⟩
  rw [← e4] at l4 g4 ih
  have h6 : compileS (.ite q thn els) s = ⟨(compileElse els (s.code.size + 1) (s.code.size + 2) ⟨s4.code.setSuccess s4.tail (s.code.size + 2), s4.tail⟩).code, s.code.size + 2⟩ := by
    rw [compileS, e4, e3, e2, e1]
    show CSt.mk (compileElse els _ _ (compileThen thn _ _)).code _ = _
    rw [compileThen_eq]
    rfl
  have z4 := l4.size
  have l4' := l4.tail_lt
  have t4 := l4.tail
  obtain ⟨sT, eT⟩ : ∃ sT : CSt, sT = ⟨s4.code.setSuccess s4.tail (s.code.size + 2), s4.tail⟩ := ⟨_, rfl⟩
  have zT : sT.code.size = s4.code.size := by rw [eT]; rfl
  rw [← eT] at h6 g4
  have gE := compileElse_grows els (s.code.size + 1) (s.code.size + 2) (s := sT) (by omega)
  have zE := gE.1
  have ihE : ∀ {c : Code}, (∀ i, s4.code.size ≤ i → i < (compileElse els (s.code.size + 1) (s.code.size + 2) sT).code.size →
        c.instr i = (compileElse els (s.code.size + 1) (s.code.size + 2) sT).code.instr i) →
      Region c ((compileElse els (s.code.size + 1) (s.code.size + 2) sT).code.instr (s.code.size + 1)).failure (some (s.code.size + 2)) (Stmt.semElse els) := by
    intro c hc
    exact IE (s.code.size + 1) (s.code.size + 2) (s := sT) (by omega) (by rw [zT]; exact hc)
  have fE := compileElse_test els (s.code.size + 1) (s.code.size + 2) (s := sT) (by omega)
  rw [h6] at h ⊢
  rw [Stmt.sem, semThen_eq]
  generalize compileElse els (s.code.size + 1) (s.code.size + 2) sT = sE at h gE zE ihE fE ⊢
  have g' : Grows s1 ⟨sE.code, s.code.size + 2⟩ := by
    refine (h3.trans g1'.tail_lt g4).patch g1'.tail_lt (by dsimp only; omega) ?_ (by dsimp only; omega) (by dsimp only; omega)
    intro i hi
    exact gE.2 i (by omega) (by omega)
  have hf := h.second g1' g'
  have r1 := (add_region (f := .pushQuery q) hs (by rw [← e1]; exact h.first hs g1' g')).2
  rw [← e1] at r1
  have f1 := hf.f
  have f2 := hf.failure
  have f3 := hf.success
  have f4 := hf.entry
  dsimp only at f1 f2 f3 f4 ⊢
  have eS : ∀ i, i < s4.code.size → i ≠ s4.tail → sT.code.instr i = s4.code.instr i := by
    intro i hi hn
    rw [eT, Code.setSuccess_ne _ _ hn]
  have eF : ∀ i, (sT.code.instr i).f = (s4.code.instr i).f ∧ (sT.code.instr i).failure = (s4.code.instr i).failure := by
    intro i
    rw [eT, Code.setSuccess_instr]
    split
    · next he => rw [he]; exact ⟨rfl, rfl⟩
    · exact ⟨rfl, rfl⟩
  have eG : (sT.code.instr s4.tail).success = some (s.code.size + 2) := by
    rw [eT, Code.setSuccess_self]
  have eE : (sE.code.instr s4.tail).success = some (s.code.size + 2) := by
    by_cases hq : s4.tail = s.code.size + 1
    · rw [hq, fE.2.1, ← hq, eG]
    · rw [gE.2 _ (by omega) hq, eG]
  have he : (c.instr s1.tail).success = some (s.code.size + 1) := by
    rw [f4 (by omega), gE.2 _ (by omega) (by omega), eS _ (by omega) (by omega), l4.old _ (by omega) (by omega), r3]
  have hpop : sE.code.instr (s.code.size + 2) = ⟨.popQuery, none, none⟩ := by
    rw [gE.2 _ (by omega) (by omega), eS _ (by omega) (by omega), l4.old _ (by omega) (by omega), p3]
  have fit : CodeFits s3 s4 c := by
    refine ⟨fun i hi hl => ?_, fun i hi hl => ?_, fun i hi hl hn => ?_, fun hn => ?_⟩
    · rw [f1 i (by omega) (by omega), gE.2 _ (by omega) (by omega), (eF i).1]
    · rw [f2 i (by omega) (by omega), gE.2 _ (by omega) (by omega), (eF i).2]
    · rw [f3 i (by omega) (by omega) (by omega), gE.2 _ (by omega) (by omega), eS _ hl hn]
    · rw [h3t] at hn ⊢
      rw [f3 _ (by omega) (by omega) (by omega), fE.2.1, eS _ (by omega) (Ne.symm hn)]
  have rT := ih fit
  have xT : (c.instr s4.tail).success = some (s.code.size + 2) := by
    rw [f3 _ (by omega) (by omega) (by omega), eE]
  rw [xT, h3t] at rT
  obtain ⟨l, hl⟩ := fE.2.2
  have br : Branch c (s.code.size + 1) (c.instr (s.code.size + 1)).success (some l) := by
    refine ⟨?_, rfl, ?_⟩
    · rw [f1 (s.code.size + 1) (by omega) (by omega), fE.1, (eF _).1, ← h3t, l4.f, h3t, q3]
    · rw [f2 (s.code.size + 1) (by omega) (by omega), hl]
  have rE := ihE (c := c) (fun i hi hl => by
    have j1 := f1 i (by omega) hl
    have j2 := f2 i (by omega) hl
    have j3 := f3 i (by omega) hl (by omega)
    generalize c.instr i = x at j1 j2 j3 ⊢
    generalize sE.code.instr i = y at j1 j2 j3 ⊢
    cases x; cases y; simp at j1 j2 j3; rw [j1, j2, j3])
  rw [hl] at rE
  have rl : Region c (some (s.code.size + 2)) (c.instr (s.code.size + 2)).success (ins .popQuery) :=
    .ins' (by rw [f1 (s.code.size + 2) (by omega) (by omega), hpop]) (by rw [f2 (s.code.size + 2) (by omega) (by omega), hpop])
  refine r1.seq ?_
  rw [he]
  exact (Region.cond br rT rE).seq rl

/-- The instructions of a `while` loop: `s6` is the state before compiling the body, `s7` after
it, `N` is the first new instruction. -/
structure WhileLayout (q : Query Act) (N t : Nat) (s6 s7 s' : CSt) : Prop where
  z6 : s6.code.size = N + 5
  z' : s'.code.size = s7.code.size + 2
  t' : s'.tail = s7.code.size + 1
  k8 : ∀ i, N + 5 ≤ i → i < s7.code.size → (s'.code.instr i).f = (s7.code.instr i).f ∧ (s'.code.instr i).failure = (s7.code.instr i).failure
  k7 : ∀ i, N + 4 ≤ i → i < s7.code.size → i ≠ s7.tail → s'.code.instr i = s7.code.instr i
  n0 : s'.code.instr N = ⟨.popChoicepoint, some (s7.code.size + 1), none⟩
  n1 : s'.code.instr (N + 1) = ⟨.pushQuery q, some (N + 2), none⟩
  n2 : s'.code.instr (N + 2) = ⟨.pushChoicepoint, some (N + 3), none⟩
  n3 : s'.code.instr (N + 3) = ⟨.nextOrFail, some (N + 4), some N⟩
  n4 : (s'.code.instr (N + 4)).f = .popQuery ∧ (s'.code.instr (N + 4)).failure = none
  n5 : s'.code.instr s7.code.size = ⟨.popChoicepoint, some (N + 1), none⟩
  n6 : (s'.code.instr s7.tail).success = some s7.code.size
  n7 : (s'.code.instr t).success = some (N + 1)
  n8 : s'.code.instr (s7.code.size + 1) = ⟨.popQuery, none, none⟩

/-- The state before compiling the body of a `while` loop. -/
structure WhilePre (q : Query Act) (N t : Nat) (s6 : CSt) : Prop where
  z6 : s6.code.size = N + 5
  t6 : s6.tail = N + 4
  n0 : s6.code.instr N = ⟨.popChoicepoint, none, none⟩
  n1 : s6.code.instr (N + 1) = ⟨.pushQuery q, some (N + 2), none⟩
  n2 : s6.code.instr (N + 2) = ⟨.pushChoicepoint, some (N + 3), none⟩
  n3 : s6.code.instr (N + 3) = ⟨.nextOrFail, some (N + 4), some N⟩
  n4 : s6.code.instr (N + 4) = ⟨.popQuery, none, none⟩
  n7 : (s6.code.instr t).success = some (N + 1)

theorem while_pre (q : Query Act) (body : List Stmt) {s : CSt} (hs : s.tail < s.code.size) :
    ∃ s6 : CSt, WhilePre q s.code.size s.tail s6 ∧
      compileS (.while_ q body) s = (CSt.mk (((compileL body s6).add .popChoicepoint).code.setSuccess (compileL body s6).code.size (s.code.size + 1)) s.code.size).add .popQuery := by
  obtain ⟨s1, e1⟩ : ∃ s1 : CSt, s1 = ⟨s.code.alloc .popChoicepoint, s.tail⟩ := ⟨_, rfl⟩
  have z1 : s1.code.size = s.code.size + 1 := by rw [e1]; rfl
  have t1 : s1.tail = s.tail := by rw [e1]
  have a1 : s1.code.instr s.code.size = ⟨.popChoicepoint, none, none⟩ := by rw [e1, Code.alloc_new]
  obtain ⟨s2, e2⟩ : ∃ s2, s2 = s1.add (.pushQuery q) := ⟨_, rfl⟩
  have z2 : s2.code.size = s.code.size + 2 := by rw [e2, add_size]; omega
  have t2 : s2.tail = s.code.size + 1 := by rw [e2, add_tail]; omega
  have g2 := add_grows (s := s1) (by omega) (.pushQuery q)
  rw [← e2] at g2
  have a2 : s2.code.instr (s.code.size + 1) = ⟨.pushQuery q, none, none⟩ := by rw [e2, ← z1, add_instr, if_neg (by omega), Code.alloc_new]
  have b2 : (s2.code.instr s.tail).success = some (s.code.size + 1) := by rw [e2, ← t1, add_instr, if_pos rfl, z1]
  obtain ⟨s3, e3⟩ : ∃ s3, s3 = s2.add .pushChoicepoint := ⟨_, rfl⟩
  have z3 : s3.code.size = s.code.size + 3 := by rw [e3, add_size]; omega
  have t3 : s3.tail = s.code.size + 2 := by rw [e3, add_tail]; omega
  have g3 := add_grows (s := s2) (by omega) .pushChoicepoint
  rw [← e3] at g3
  have a3 : s3.code.instr (s.code.size + 2) = ⟨.pushChoicepoint, none, none⟩ := by rw [e3, ← z2, add_instr, if_neg (by omega), Code.alloc_new]
  have b3 : (s3.code.instr (s.code.size + 1)).success = some (s.code.size + 2) := by rw [e3, ← t2, add_instr, if_pos rfl, z2]
  obtain ⟨s4, e4⟩ : ∃ s4, s4 = s3.add .nextOrFail := ⟨_, rfl⟩
  have z4 : s4.code.size = s.code.size + 4 := by rw [e4, add_size]; omega
  have t4 : s4.tail = s.code.size + 3 := by rw [e4, add_tail]; omega
  have g4 := add_grows (s := s3) (by omega) .nextOrFail
  rw [← e4] at g4
  have a4 : s4.code.instr (s.code.size + 3) = ⟨.nextOrFail, none, none⟩ := by rw [e4, ← z3, add_instr, if_neg (by omega), Code.alloc_new]
  have b4 : (s4.code.instr (s.code.size + 2)).success = some (s.code.size + 3) := by rw [e4, ← t3, add_instr, if_pos rfl, z3]
  obtain ⟨s5, e5⟩ : ∃ s5 : CSt, s5 = ⟨s4.code.setFailure s4.tail s.code.size, s4.tail⟩ := ⟨_, rfl⟩
  have z5 : s5.code.size = s.code.size + 4 := by rw [e5, ← z4]; rfl
  have t5 : s5.tail = s.code.size + 3 := by rw [e5, ← t4]
  have c5 : ∀ i, i ≠ s.code.size + 3 → s5.code.instr i = s4.code.instr i := by
    intro i hi
    rw [e5, Code.setFailure_ne _ _ (by omega)]
  have a5 : s5.code.instr (s.code.size + 3) = ⟨.nextOrFail, none, some s.code.size⟩ := by
    rw [e5, ← t4, Code.setFailure_self, t4, a4]
  obtain ⟨s6, e6⟩ : ∃ s6, s6 = s5.add .popQuery := ⟨_, rfl⟩
  have z6 : s6.code.size = s.code.size + 5 := by rw [e6, add_size]; omega
  have t6 : s6.tail = s.code.size + 4 := by rw [e6, add_tail]; omega
  have g6 := add_grows (s := s5) (by omega) .popQuery
  rw [← e6] at g6
  have a6 : s6.code.instr (s.code.size + 4) = ⟨.popQuery, none, none⟩ := by rw [e6, ← z5, add_instr, if_neg (by omega), Code.alloc_new]
  have b6 : (s6.code.instr (s.code.size + 3)).success = some (s.code.size + 4) := by rw [e6, ← t5, add_instr, if_pos rfl, z5]
  have e : compileS (.while_ q body) s = (CSt.mk (((compileL body s6).add .popChoicepoint).code.setSuccess (compileL body s6).code.size (s.code.size + 1)) s.code.size).add .popQuery := by
    rw [compileS, e6, e5, e4, e3, e2, e1]; rfl
  refine ⟨s6, ?_, e⟩
  clear e e1 e2 e3 e4 e5 e6
  have k : ∀ i, i < s.code.size + 3 → s6.code.instr i = s4.code.instr i := by
    intro i hi
    rw [g6.old i (by omega) (by omega), c5 i (by omega)]
  refine ⟨z6, t6, ?_, ?_, ?_, ?_, a6, ?_⟩
  · rw [k s.code.size (by omega), g4.old s.code.size (by omega) (by omega), g3.old s.code.size (by omega) (by omega), g2.old s.code.size (by omega) (by omega), a1]
  · have j1 := g3.f
    have j2 := g3.failure
    rw [t2, a2] at j1 j2
    rw [k (s.code.size + 1) (by omega), g4.old (s.code.size + 1) (by omega) (by omega)]
    generalize s3.code.instr (s.code.size + 1) = x at j1 j2 b3
    cases x; simp at j1 j2 b3; rw [j1, j2, b3]
  · have j1 := g4.f
    have j2 := g4.failure
    rw [t3, a3] at j1 j2
    rw [k (s.code.size + 2) (by omega)]
    generalize s4.code.instr (s.code.size + 2) = x at j1 j2 b4
    cases x; simp at j1 j2 b4; rw [j1, j2, b4]
  · have j1 := g6.f
    have j2 := g6.failure
    rw [t5, a5] at j1 j2
    generalize s6.code.instr (s.code.size + 3) = x at j1 j2 b6
    cases x; simp at j1 j2 b6; rw [j1, j2, b6]
  · rw [k s.tail (by omega), g4.old s.tail (by omega) (by omega), g3.old s.tail (by omega) (by omega), b2]

theorem while_post {q : Query Act} {N t : Nat} {s6 s7 : CSt} (w : WhilePre q N t s6) (g7 : Grows s6 s7) (ht : t < N) :
    WhileLayout q N t s6 s7 ((CSt.mk ((s7.add .popChoicepoint).code.setSuccess s7.code.size (N + 1)) N).add .popQuery) := by
  obtain ⟨z6, t6, n0, n1, n2, n3, n4, n7⟩ := w
  have z7 := g7.size
  have t7 := g7.tail
  have l7 := g7.tail_lt
  have g8 := add_grows l7 .popChoicepoint
  obtain ⟨s8, e8⟩ : ∃ s8, s8 = s7.add .popChoicepoint := ⟨_, rfl⟩
  have z8 : s8.code.size = s7.code.size + 1 := by rw [e8]; rfl
  have t8 : s8.tail = s7.code.size := by rw [e8]; rfl
  rw [← e8] at g8 ⊢
  have a8 : s8.code.instr s7.code.size = ⟨.popChoicepoint, none, none⟩ := by rw [e8, add_instr, if_neg (by omega), Code.alloc_new]
  have b8 : (s8.code.instr s7.tail).success = some s7.code.size := by rw [e8, add_instr, if_pos rfl]
  obtain ⟨s9, e9⟩ : ∃ s9 : CSt, s9 = ⟨s8.code.setSuccess s7.code.size (N + 1), N⟩ := ⟨_, rfl⟩
  have z9 : s9.code.size = s7.code.size + 1 := by rw [e9, ← z8]; rfl
  have t9 : s9.tail = N := by rw [e9]
  have c9 : ∀ i, i ≠ s7.code.size → s9.code.instr i = s8.code.instr i := by
    intro i hi
    rw [e9, Code.setSuccess_ne _ _ hi]
  have a9 : s9.code.instr s7.code.size = ⟨.popChoicepoint, some (N + 1), none⟩ := by
    rw [e9, Code.setSuccess_self, a8]
  rw [← e9]
  clear e9 e8
  have g10 := add_grows (s := s9) (by omega) .popQuery
  obtain ⟨s', e'⟩ : ∃ s', s' = s9.add .popQuery := ⟨_, rfl⟩
  have z' : s'.code.size = s7.code.size + 2 := by rw [e', add_size]; omega
  have t' : s'.tail = s7.code.size + 1 := by rw [e', add_tail]; omega
  rw [← e'] at g10 ⊢
  have a' : s'.code.instr (s7.code.size + 1) = ⟨.popQuery, none, none⟩ := by rw [e', ← z9, add_instr, if_neg (by omega), Code.alloc_new]
  have b' : (s'.code.instr N).success = some (s7.code.size + 1) := by rw [e', ← t9, add_instr, if_pos rfl, z9]
  clear e'
  have k8 : ∀ i, i < s7.code.size → i ≠ N → s'.code.instr i = s8.code.instr i := by
    intro i hi hn
    rw [g10.old i (by omega) (by omega), c9 i (by omega)]
  have k7 : ∀ i, i < s7.code.size → i ≠ N → i ≠ s7.tail → s'.code.instr i = s7.code.instr i := by
    intro i hi hn hm
    rw [k8 i hi hn, g8.old i hi hm]
  have k6 : ∀ i, i < N + 4 → i ≠ N → s'.code.instr i = s6.code.instr i := by
    intro i hi hn
    rw [k7 i (by omega) hn (by omega), g7.old i (by omega) (by omega)]
  have kF : ∀ i, N + 4 ≤ i → i < s7.code.size → (s'.code.instr i).f = (s7.code.instr i).f ∧ (s'.code.instr i).failure = (s7.code.instr i).failure := by
    intro i hi hl
    rw [k8 i hl (by omega)]
    by_cases hq : i = s7.tail
    · rw [hq, g8.f, g8.failure]; exact ⟨rfl, rfl⟩
    · rw [g8.old i hl hq]; exact ⟨rfl, rfl⟩
  refine ⟨z6, z', t', fun i hi => kF i (by omega), fun i hi hl hn => k7 i hl (by omega) hn, ?_, ?_, ?_, ?_, ?_, ?_, ?_, ?_, a'⟩
  · have : s9.code.instr N = ⟨.popChoicepoint, none, none⟩ := by
      rw [c9 N (by omega), g8.old N (by omega) (by omega), g7.old N (by omega) (by omega), n0]
    have j1 := g10.f
    have j2 := g10.failure
    rw [t9, this] at j1 j2
    generalize s'.code.instr N = x at j1 j2 b'
    cases x; simp at j1 j2 b'; rw [j1, j2, b']
  · rw [k6 (N + 1) (by omega) (by omega), n1]
  · rw [k6 (N + 2) (by omega) (by omega), n2]
  · rw [k6 (N + 3) (by omega) (by omega), n3]
  · have j1 := g7.f
    have j2 := g7.failure
    rw [t6, n4] at j1 j2
    rw [(kF (N + 4) (by omega) (by omega)).1, (kF (N + 4) (by omega) (by omega)).2]
    exact ⟨j1, j2⟩
  · rw [g10.old s7.code.size (by omega) (by omega), a9]
  · rw [k8 s7.tail (by omega) (by omega), b8]
  · rw [k6 t (by omega) (by omega), n7]

theorem while_layout (q : Query Act) (body : List Stmt) {s : CSt} (hs : s.tail < s.code.size) :
    ∃ s6 : CSt, s6.tail < s6.code.size ∧ s6.tail = s.code.size + 4 ∧
      WhileLayout q s.code.size s.tail s6 (compileL body s6) (compileS (.while_ q body) s) := by
  obtain ⟨s6, w, e⟩ := while_pre q body hs
  have l6 : s6.tail < s6.code.size := by rw [w.z6, w.t6]; omega
  refine ⟨s6, l6, w.t6, ?_⟩
  rw [e]
  exact while_post w (compileL_grows body l6) hs

theorem while_region {q : Query Act} {body : List Stmt} {s : CSt} {c : Code} (IH : ∀ {s : CSt} {c : Code}, s.tail < s.code.size → CodeFits s (compileL body s) c →
    Region c (c.instr s.tail).success (c.instr (compileL body s).tail).success (Stmt.semL body)) 
    (hs : s.tail < s.code.size) (h : CodeFits s (compileS (.while_ q body) s) c) :
    Region c (c.instr s.tail).success (c.instr (compileS (.while_ q body) s).tail).success (Stmt.while_ q body).sem := by
  obtain ⟨s6, l6, t6, w⟩ := while_layout q body hs
  have g7 := compileL_grows body l6
  have ih : ∀ {c : Code}, CodeFits _ _ c → Region c _ _ _ := IH l6
  rw [Stmt.sem]
  generalize compileS (.while_ q body) s = s' at h w ⊢
  generalize compileL body s6 = s7 at w g7 ih
  have z7 := g7.size
  have t7 := g7.tail
  have l7 := g7.tail_lt
  obtain ⟨z6, z', t', k8, k7, n0, n1, n2, n3, n4, n5, n6, n7, n8⟩ := w
  have cf : ∀ i, s.code.size ≤ i → i ≤ s7.code.size → c.instr i = s'.code.instr i := by
    intro i hi hl
    have j1 := h.f i hi (by omega)
    have j2 := h.failure i hi (by omega)
    have j3 := h.success i hi (by omega) (by omega)
    generalize c.instr i = x at j1 j2 j3 ⊢
    generalize s'.code.instr i = y at j1 j2 j3 ⊢
    cases x; cases y; simp at j1 j2 j3; rw [j1, j2, j3]
  have fit : CodeFits s6 s7 c := by
    refine ⟨fun i hi hl => ?_, fun i hi hl => ?_, fun i hi hl hn => ?_, fun hn => ?_⟩
    · rw [cf i (by omega) (by omega), (k8 i (by omega) hl).1]
    · rw [cf i (by omega) (by omega), (k8 i (by omega) hl).2]
    · rw [cf i (by omega) (by omega), k7 i (by omega) hl hn]
    · rw [cf s6.tail (by omega) (by omega), k7 s6.tail (by omega) (by omega) (Ne.symm hn)]
  have rb := ih fit
  rw [cf s7.tail (by omega) (by omega), n6, t6] at rb
  have he : (c.instr s.tail).success = some (s.code.size + 1) := by rw [h.entry (by omega), n7]
  have br : Branch c (s.code.size + 3) (some (s.code.size + 4)) (some s.code.size) :=
    ⟨by rw [cf (s.code.size + 3) (by omega) (by omega), n3], by rw [cf (s.code.size + 3) (by omega) (by omega), n3], by rw [cf (s.code.size + 3) (by omega) (by omega), n3]⟩
  rw [he, t']
  refine Region.loop br (Region.seq (.ins (by rw [cf (s.code.size + 1) (by omega) (by omega), n1])) (.ins (by rw [cf (s.code.size + 2) (by omega) (by omega), n2])))
    (Region.seq (Region.ins' ?_ ?_) (rb.seq (.ins (by rw [cf s7.code.size (by omega) (by omega), n5]))))
    (Region.seq (m := some (s7.code.size + 1)) ?_ (Region.ins' ?_ ?_))
  · rw [cf (s.code.size + 4) (by omega) (by omega), n4.1]
  · rw [cf (s.code.size + 4) (by omega) (by omega), n4.2]
  · exact .ins (by rw [cf s.code.size (by omega) (by omega), n0])
  · rw [h.f (s7.code.size + 1) (by omega) (by omega), n8]
  · rw [h.failure (s7.code.size + 1) (by omega) (by omega), n8]

mutual
theorem compileS_region : ∀ (x : Stmt) {s : CSt} {c : Code}, s.tail < s.code.size → CodeFits s (compileS x s) c →
    Region c (c.instr s.tail).success (c.instr (compileS x s).tail).success x.sem
  | .add t, s, c, hs, h => by rw [compileS] at h ⊢; rw [Stmt.sem]; exact (add_region hs h).2
  | .remove t, s, c, hs, h => by rw [compileS] at h ⊢; rw [Stmt.sem]; exact (add_region hs h).2
  | .test t, s, c, hs, h => by rw [compileS] at h ⊢; rw [Stmt.sem]; exact (add_region hs h).2
  | .replace p t, s, c, hs, h => by
    rw [compileS] at h ⊢
    rw [Stmt.sem]
    have g1 := add_grows hs (.removeBelief p)
    have g2 := add_grows g1.tail_lt (.addBelief t)
    exact (add_region hs (h.first hs g1 g2)).2.seq (add_region g1.tail_lt (h.second g1 g2)).2
  | .achieve t, s, c, hs, h => by rw [compileS] at h ⊢; rw [Stmt.sem]; exact (add_region hs h).2
  | .achieveLater t, s, c, hs, h => by rw [compileS] at h ⊢; rw [Stmt.sem]; exact (add_region hs h).2
  | .query q, s, c, hs, h => by
    rw [compileS] at h ⊢
    rw [Stmt.sem]
    have g1 := add_grows hs (.pushQuery q)
    have g2 := add_grows g1.tail_lt .nextOrFail
    have g3 := add_grows g2.tail_lt .popQuery
    have h' := h.second g1 (g2.trans g1.tail_lt g3)
    exact (add_region hs (h.first hs g1 (g2.trans g1.tail_lt g3))).2.seq
      ((add_region g1.tail_lt (h'.first g1.tail_lt g2 g3)).2.seq (add_region g2.tail_lt (h'.second g2 g3)).2)
  | .forall_ q body, s, c, hs, h => for_region (compileL_region body) hs h
  | .ite q thn els, s, c, hs, h => ite_region (compileThen_region thn) (compileElse_region els) hs h
  | .while_ q body, s, c, hs, h => while_region (compileL_region body) hs h
theorem compileL_region : ∀ (xs : List Stmt) {s : CSt} {c : Code}, s.tail < s.code.size → CodeFits s (compileL xs s) c →
    Region c (c.instr s.tail).success (c.instr (compileL xs s).tail).success (Stmt.semL xs)
  | [], s, c, hs, h => by rw [compileL, Stmt.semL]; exact .skip _ _
  | x :: xs, s, c, hs, h => by
    rw [compileL] at h ⊢
    rw [Stmt.semL]
    have g1 := (compileS_grows x hs).1
    have g2 := compileL_grows xs g1.tail_lt
    exact (compileS_region x hs (h.first hs g1 g2)).seq (compileL_region xs g1.tail_lt (h.second g1 g2))
theorem compileThen_region : ∀ (o : Option (List Stmt)) {s : CSt} {c : Code}, s.tail < s.code.size → CodeFits s (compileL (o.getD []) s) c →
    Region c (c.instr s.tail).success (c.instr (compileL (o.getD []) s).tail).success (Stmt.semL (o.getD []))
  | none, s, c, hs, h => by
    show Region c _ (c.instr (compileL [] s).tail).success (Stmt.semL [])
    rw [compileL, Stmt.semL]; exact .skip _ _
  | some body, s, c, hs, h => compileL_region body hs h
theorem compileElse_region : ∀ (o : Option (List Stmt)) (test tail : Nat) {s : CSt} {c : Code}, test < s.code.size →
    (∀ i, s.code.size ≤ i → i < (compileElse o test tail s).code.size → c.instr i = (compileElse o test tail s).code.instr i) →
    Region c ((compileElse o test tail s).code.instr test).failure (some tail) (Stmt.semElse o)
  | none, test, tail, s, c, ht, h => by
    rw [compileElse, Stmt.semElse]
    dsimp only
    rw [Code.setFailure_self]
    exact .skip _ _
  | some body, test, tail, s, c, ht, h => by
    rw [compileElse] at h ⊢
    rw [Stmt.semElse]
    dsimp only at h ⊢
    obtain ⟨s5, e5⟩ : ∃ s5 : CSt, s5 = ⟨(s.code.alloc .noop).setFailure test s.code.size, s.code.size⟩ := ⟨_, rfl⟩
    have z5 : s5.code.size = s.code.size + 1 := by rw [e5]; rfl
    have t5 : s5.tail = s.code.size := by rw [e5]
    have hb := compileL_grows body (s := s5) (by omega)
    have ih : ∀ {c : Code}, CodeFits _ _ c → Region c _ _ _ := compileL_region body (s := s5) (by omega)
    rw [← e5] at h ⊢
    generalize compileL body s5 = s6 at *
    have z6 := hb.size
    have t6 := hb.tail
    have l6 := hb.tail_lt
    rw [Code.setSuccess_size] at h
    have hh : ((s6.code.setSuccess s6.tail tail).instr test).failure = some s.code.size := by
      rw [Code.setSuccess_ne _ _ (by omega), hb.old _ (by omega) (by omega), e5, Code.setFailure_self]
    rw [hh]
    have hc : (c.instr s6.tail).success = some tail := by
      rw [h _ (by omega) (by omega), Code.setSuccess_self]
    have hF : ∀ i, s.code.size ≤ i → i < s6.code.size → (c.instr i).f = (s6.code.instr i).f ∧ (c.instr i).failure = (s6.code.instr i).failure := by
      intro i hi hl
      rw [h i hi hl, Code.setSuccess_instr]
      split
      · next he => rw [he]; exact ⟨rfl, rfl⟩
      · exact ⟨rfl, rfl⟩
    have hn : s5.code.instr s.code.size = ⟨.noop, none, none⟩ := by
      rw [e5, Code.setFailure_ne _ _ (by omega), Code.alloc_new]
    have rb := ih (c := c) ⟨fun i hi hl => (hF i (by omega) hl).1, fun i hi hl => (hF i (by omega) hl).2,
      fun i hi hl hn => by rw [h i (by omega) hl, Code.setSuccess_ne _ _ hn],
      fun hn => by rw [h _ (by omega) (by omega), Code.setSuccess_ne _ _ (Ne.symm hn)]⟩
    rw [hc, t5] at rb
    refine Region.seq (Region.ins' ?_ ?_) rb
    · rw [(hF _ (by omega) (by omega)).1, ← t5, hb.f, t5, hn]
    · rw [(hF _ (by omega) (by omega)).2, ← t5, hb.failure, t5, hn]
end

theorem compileS_tail (x : Stmt) {s : CSt} (hs : s.tail < s.code.size) :
    ((compileS x s).code.instr (compileS x s).tail).success = none := by
  have hadd : ∀ {s : CSt} (f : InstrF), s.tail < s.code.size → ((s.add f).code.instr (s.add f).tail).success = none := by
    intro s f hs
    rw [add_tail, add_instr, if_neg (by omega), Code.alloc_new]
  cases x with
  | add t => rw [compileS]; exact hadd _ hs
  | remove t => rw [compileS]; exact hadd _ hs
  | test t => rw [compileS]; exact hadd _ hs
  | replace p t => rw [compileS]; exact hadd _ (by simp)
  | achieve t => rw [compileS]; exact hadd _ hs
  | achieveLater t => rw [compileS]; exact hadd _ hs
  | query q => rw [compileS]; exact hadd _ (by simp)
  | forall_ q body =>
    rw [compileS]
    have hb := compileL_grows body (s := (s.add (.pushQuery q)).add .nextOrFail) (by simp)
    dsimp only
    have z := hb.size
    generalize compileL body ((s.add (.pushQuery q)).add .nextOrFail) = s3 at z ⊢
    rw [add_size, add_size] at z
    rw [Code.setFailure_ne _ _ (by rw [add_tail, add_size, Code.setSuccess_size]; omega), Code.alloc_new]
  | ite q thn els =>
    obtain ⟨s2, e2⟩ : ∃ s2, s2 = (s.add (.pushQuery q)).add .nextOrFail := ⟨_, rfl⟩
    have z2 : s2.code.size = s.code.size + 2 := by rw [e2]; rfl
    have t2 : s2.tail = s.code.size + 1 := by rw [e2]; rfl
    obtain ⟨s3, e3⟩ : ∃ s3 : CSt, s3 = ⟨s2.code.alloc .popQuery, s2.tail⟩ := ⟨_, rfl⟩
    have z3 : s3.code.size = s.code.size + 3 := by rw [e3, show s.code.size + 3 = (s.code.size + 2) + 1 from rfl, ← z2]; rfl
    have t3 : s3.tail = s.code.size + 1 := by rw [e3, ← t2]
    have p3 : s3.code.instr (s.code.size + 2) = ⟨.popQuery, none, none⟩ := by
      rw [e3, ← z2]; exact Code.alloc_new _ _
    have e : compileS (.ite q thn els) s = ⟨(compileElse els (s.code.size + 1) (s.code.size + 2) (compileThen thn (s.code.size + 2) s3)).code, s.code.size + 2⟩ := by
      rw [compileS, e3, e2]; rfl
    rw [e]
    clear e e3 e2
    have g4 := compileThen_grows thn (s.code.size + 2) (s := s3) (by omega)
    have z4 := g4.size
    have g5 := (compileElse_grows els (s.code.size + 1) (s.code.size + 2) (s := compileThen thn (s.code.size + 2) s3) (by omega)).2
    dsimp only
    rw [g5 (s.code.size + 2) (by omega) (by omega), g4.old (s.code.size + 2) (by omega) (by omega), p3]
  | while_ q body =>
    obtain ⟨s6, l6, t6, w⟩ := while_layout q body hs
    rw [w.t', w.n8]

theorem compileL_tail : ∀ (xs : List Stmt) {s : CSt}, s.tail < s.code.size → (s.code.instr s.tail).success = none →
    ((compileL xs s).code.instr (compileL xs s).tail).success = none
  | [], s, _, h => h
  | x :: xs, s, hs, _ => by
    rw [compileL]
    exact compileL_tail xs (compileS_grows x hs).1.tail_lt (compileS_tail x hs)

/-- Whole plan bodies. -/
theorem compileBody_region {body : List Stmt} {c c' : Code}
    (h : ∀ i, c.size ≤ i → i < (compileBody body c).size → c'.instr i = (compileBody body c).instr i) :
    Region c' (some c.size) none (bodyLang body) := by
  have g := compileL_grows body (s := ⟨c.alloc .noop, c.size⟩) (by simp)
  have r : ∀ {c' : Code}, CodeFits _ _ c' → Region c' _ _ _ := compileL_region body (s := ⟨c.alloc .noop, c.size⟩) (by simp)
  have hl := compileL_tail body (s := ⟨c.alloc .noop, c.size⟩) (by simp) (by simp)
  unfold compileBody at h
  obtain ⟨s1, e1⟩ : ∃ s1 : CSt, s1 = ⟨c.alloc .noop, c.size⟩ := ⟨_, rfl⟩
  have z1 : s1.code.size = c.size + 1 := by rw [e1]; rfl
  have t1 : s1.tail = c.size := by rw [e1]
  have a1 : s1.code.instr c.size = ⟨.noop, none, none⟩ := by rw [e1, Code.alloc_new]
  rw [← e1] at h hl g r
  generalize compileL body s1 = s2 at h hl g r
  have z2 := g.size
  have t2 := g.tail
  have l2 := g.tail_lt
  have rb := r (c' := c') ⟨fun i hi hl => by rw [h i (by omega) hl], fun i hi hl => by rw [h i (by omega) hl],
    fun i hi hl _ => by rw [h i (by omega) hl], fun _ => by rw [h _ (by omega) (by omega)]⟩
  rw [h s2.tail (by omega) l2, hl, t1] at rb
  refine Region.seq (Region.ins' ?_ ?_) rb
  · rw [h _ (by omega) (by omega), ← t1, g.f, t1, a1]
  · rw [h _ (by omega) (by omega), ← t1, g.failure, t1, a1]

theorem compileBody_old (body : List Stmt) (c : Code) {i : Nat} (h : i < c.size) : (compileBody body c).instr i = c.instr i := by
  have g := compileL_grows body (s := ⟨c.alloc .noop, c.size⟩) (by simp)
  rw [compileBody, g.old i (by simp; omega) (by simp; omega)]
  exact Code.alloc_old _ _ h

theorem compileBody_size (body : List Stmt) (c : Code) : c.size < (compileBody body c).size := by
  have g := (compileL_grows body (s := ⟨c.alloc .noop, c.size⟩) (by simp)).size
  simp at g
  exact g

end Verif
