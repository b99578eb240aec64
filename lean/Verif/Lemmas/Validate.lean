import Verif.Spec.Script
import Verif.Props.Fold

/-! Validation of agents: what it does to the parts, and that doing it twice changes nothing. -/

namespace Verif

section
variable [Arith]

/-- No errors are taken back. -/
def LogGrows {α β : Type} (f : α → Nat → Res Nat β) : Prop := ∀ x s o s', f x s = .ok o s' → s ≤ s'

/-- Without errors, the second time nothing changes. -/
def Stable₂ {α : Type} (f : α → Nat → Res Nat (Option α)) : Prop := ∀ x y, f x 0 = .ok (some y) 0 → f y 0 = .ok (some y) 0

theorem fold_grows (v : Visitor) : LogGrows (fold v) := fun _ _ _ _ h => C40_errors h

theorem fold_stable (v : Visitor) : Stable₂ (fold v) := fun _ _ h => C40_idempotent h 0

omit [Arith] in
/-- Two steps, the first of which takes no errors back, without errors. -/
theorem bind_zero {α β : Type} {r : Res Nat α} {g : α → Nat → Res Nat β} {b : β} (hg : ∀ a s, g a s = .ok b 0 → s = 0) :
    r.bind g = .ok b 0 ↔ ∃ a, r = .ok a 0 ∧ g a 0 = .ok b 0 := by
  rw [Res.bind_eq_ok]
  constructor
  · rintro ⟨a, s, h1, h2⟩
    cases hg a s h2
    exact ⟨a, h1, h2⟩
  · rintro ⟨a, h1, h2⟩
    exact ⟨a, 0, h1, h2⟩

omit [Arith] in
theorem LogGrows.zero {α β : Type} {f : α → Nat → Res Nat β} (h : LogGrows f) {x : α} {s : Nat} {o : β} (hf : f x s = .ok o 0) : s = 0 := by
  have := h _ _ _ _ hf
  omega

/-! ## Lists and optional parts -/

omit [Arith] in
theorem mapFold_grows {α : Type} {f : α → Nat → Res Nat (Option α)} (hf : LogGrows f) : LogGrows (mapFold f)
  | [], s, o, s', h => by cases h; exact Nat.le_refl _
  | x :: xs, s, o, s', h => by
    rw [mapFold] at h
    obtain ⟨y, s1, h1, h2⟩ := Res.bind_eq_ok.1 h
    obtain ⟨ys, s2, h3, h4⟩ := Res.bind_eq_ok.1 h2
    cases h4
    have := hf _ _ _ _ h1
    have := mapFold_grows hf _ _ _ _ h3
    omega

omit [Arith] in
theorem mapFold_cons {α : Type} {f : α → Nat → Res Nat (Option α)} (hf : LogGrows f) {x : α} {xs ys : List α} :
    mapFold f (x :: xs) 0 = .ok (some ys) 0 ↔ ∃ y ys', ys = y :: ys' ∧ f x 0 = .ok (some y) 0 ∧ mapFold f xs 0 = .ok (some ys') 0 := by
  rw [mapFold]
  constructor
  · intro h
    obtain ⟨y, s1, h1, h2⟩ := Res.bind_eq_ok.1 h
    obtain ⟨ys', s2, h3, h4⟩ := Res.bind_eq_ok.1 h2
    have e : (y.bind fun y => ys'.map (y :: ·)) = some ys ∧ s2 = 0 := by injection h4 with e1 e2; exact ⟨e1, e2⟩
    obtain ⟨e, rfl⟩ := e
    cases (mapFold_grows hf).zero h3
    cases y with
    | none => cases e
    | some y =>
      cases ys' with
      | none => cases e
      | some ys' => cases e; exact ⟨y, ys', rfl, h1, h3⟩
  · rintro ⟨y, ys', rfl, h1, h3⟩
    rw [h1]
    show (mapFold f xs 0).bind _ = _
    rw [h3]
    rfl

omit [Arith] in
theorem mapFold_append {α : Type} {f : α → Nat → Res Nat (Option α)} (hf : LogGrows f) {xs ys zs : List α} :
    mapFold f (xs ++ ys) 0 = .ok (some zs) 0 ↔
      ∃ us vs, zs = us ++ vs ∧ mapFold f xs 0 = .ok (some us) 0 ∧ mapFold f ys 0 = .ok (some vs) 0 := by
  induction xs generalizing zs with
  | nil =>
    constructor
    · intro h; exact ⟨[], zs, rfl, rfl, h⟩
    · rintro ⟨us, vs, rfl, h1, h2⟩; cases h1; exact h2
  | cons x xs ih =>
    rw [List.cons_append, mapFold_cons hf]
    constructor
    · rintro ⟨y, ys', rfl, h1, h2⟩
      obtain ⟨us, vs, rfl, h3, h4⟩ := ih.1 h2
      exact ⟨y :: us, vs, rfl, (mapFold_cons hf).2 ⟨y, us, rfl, h1, h3⟩, h4⟩
    · rintro ⟨us, vs, rfl, h1, h2⟩
      obtain ⟨y, us', rfl, h3, h4⟩ := (mapFold_cons hf).1 h1
      exact ⟨y, us' ++ vs, rfl, h3, ih.2 ⟨us', vs, rfl, h4, h2⟩⟩

omit [Arith] in
theorem mapFold_stable {α : Type} {f : α → Nat → Res Nat (Option α)} (hf : LogGrows f) (hs : Stable₂ f) : Stable₂ (mapFold f)
  | [], ys, h => by cases h; rfl
  | x :: xs, ys, h => by
    obtain ⟨y, ys', rfl, h1, h2⟩ := (mapFold_cons hf).1 h
    exact (mapFold_cons hf).2 ⟨y, ys', rfl, hs _ _ h1, mapFold_stable hf hs _ _ h2⟩

omit [Arith] in
theorem optFold_grows {α : Type} {f : α → Nat → Res Nat (Option α)} (hf : LogGrows f) : LogGrows (optFold f) := by
  intro x s o s' h
  cases x with
  | none => cases h; exact Nat.le_refl _
  | some x =>
    rw [optFold] at h
    obtain ⟨y, s1, h1, h2⟩ := Res.bind_eq_ok.1 h
    cases h2
    exact hf _ _ _ _ h1

omit [Arith] in
theorem optFold_some {α : Type} {f : α → Nat → Res Nat (Option α)} {x : α} {o : Option α} :
    optFold f (some x) 0 = .ok (some o) 0 ↔ ∃ y, o = some y ∧ f x 0 = .ok (some y) 0 := by
  rw [optFold, Res.bind_eq_ok]
  constructor
  · rintro ⟨y, s1, h1, h2⟩
    cases y with
    | none => cases h2
    | some y => cases h2; exact ⟨y, rfl, h1⟩
  · rintro ⟨y, rfl, h1⟩
    exact ⟨_, _, h1, rfl⟩

omit [Arith] in
theorem optFold_stable {α : Type} {f : α → Nat → Res Nat (Option α)} (hs : Stable₂ f) : Stable₂ (optFold f) := by
  intro x y h
  cases x with
  | none => cases h; rfl
  | some x =>
    obtain ⟨y, rfl, h1⟩ := optFold_some.1 h
    exact optFold_some.2 ⟨y, rfl, hs _ _ h1⟩

omit [Arith] in
/-- A step with a result that must not be `None`, then others. -/
theorem step_zero {α β : Type} {f : α → Nat → Res Nat (Option α)} (hf : LogGrows f) {x : α} {s : Nat} {g : Option α → Nat → Res Nat β} {b : β}
    (hg : ∀ a s, g a s = .ok b 0 → s = 0 ∧ ∃ y, a = some y) :
    (f x s).bind g = .ok b 0 ↔ s = 0 ∧ ∃ y, f x 0 = .ok (some y) 0 ∧ g (some y) 0 = .ok b 0 := by
  rw [Res.bind_eq_ok]
  constructor
  · rintro ⟨a, s1, h1, h2⟩
    obtain ⟨rfl, y, rfl⟩ := hg a s1 h2
    cases hf.zero h1
    exact ⟨rfl, y, h1, h2⟩
  · rintro ⟨rfl, y, h1, h2⟩
    exact ⟨_, _, h1, h2⟩

/-! ## Statements -/

mutual

theorem foldStmt_grows : ∀ (a : AStmt) (s : Nat) (o : Option AStmt) (s' : Nat), foldStmt a s = .ok o s' → s ≤ s'
  | .formula ty t, s, o, s', h => by
    rw [foldStmt.eq_def] at h
    simp only at h
    split at h
    · obtain ⟨y, s1, h1, h2⟩ := Res.bind_eq_ok.1 h
      cases h2
      exact fold_grows _ _ _ _ _ h1
    · split at h
      · obtain ⟨y, s1, h1, h2⟩ := Res.bind_eq_ok.1 h
        cases h2
        exact fold_grows _ _ _ _ _ h1
      · obtain ⟨y, s1, h1, h2⟩ := Res.bind_eq_ok.1 h
        cases h2
        exact fold_grows _ _ _ _ _ h1
      · cases h; exact Nat.le_succ _
  | .while_ c b, s, o, s', h => by
    rw [foldStmt] at h
    obtain ⟨y, s1, h1, h2⟩ := Res.bind_eq_ok.1 h
    obtain ⟨ys, s2, h3, h4⟩ := Res.bind_eq_ok.1 h2
    cases h4
    exact Nat.le_trans (fold_grows _ _ _ _ _ h1) (foldStmts_grows _ _ _ _ h3)
  | .for_ c b, s, o, s', h => by
    rw [foldStmt] at h
    obtain ⟨y, s1, h1, h2⟩ := Res.bind_eq_ok.1 h
    obtain ⟨ys, s2, h3, h4⟩ := Res.bind_eq_ok.1 h2
    cases h4
    exact Nat.le_trans (fold_grows _ _ _ _ _ h1) (foldStmts_grows _ _ _ _ h3)
  | .if_ c b, s, o, s', h => by
    rw [foldStmt] at h
    obtain ⟨y, s1, h1, h2⟩ := Res.bind_eq_ok.1 h
    obtain ⟨ys, s2, h3, h4⟩ := Res.bind_eq_ok.1 h2
    cases h4
    exact Nat.le_trans (fold_grows _ _ _ _ _ h1) (foldStmts_grows _ _ _ _ h3)
  | .ifElse c b e, s, o, s', h => by
    rw [foldStmt] at h
    obtain ⟨y, s1, h1, h2⟩ := Res.bind_eq_ok.1 h
    obtain ⟨ys, s2, h3, h4⟩ := Res.bind_eq_ok.1 h2
    obtain ⟨zs, s3, h5, h6⟩ := Res.bind_eq_ok.1 h4
    cases h6
    exact Nat.le_trans (fold_grows _ _ _ _ _ h1) (Nat.le_trans (foldStmts_grows _ _ _ _ h3) (foldStmts_grows _ _ _ _ h5))

theorem foldStmts_grows : ∀ (b : List AStmt) (s : Nat) (o : Option (List AStmt)) (s' : Nat), foldStmts b s = .ok o s' → s ≤ s'
  | [], s, o, s', h => by rw [foldStmts] at h; cases h; exact Nat.le_refl _
  | x :: xs, s, o, s', h => by
    rw [foldStmts] at h
    obtain ⟨y, s1, h1, h2⟩ := Res.bind_eq_ok.1 h
    obtain ⟨ys, s2, h3, h4⟩ := Res.bind_eq_ok.1 h2
    cases h4
    exact Nat.le_trans (foldStmt_grows _ _ _ _ h1) (foldStmts_grows _ _ _ _ h3)

end

theorem foldStmts_eq : ∀ (b : List AStmt) (s : Nat), foldStmts b s = mapFold foldStmt b s
  | [], s => by rw [foldStmts, mapFold]
  | x :: xs, s => by
    rw [foldStmts, mapFold]
    congr 1
    funext y s
    rw [foldStmts_eq xs s]

omit [Arith] in
theorem pair_zero {α β γ : Type} {f : α → Nat → Res Nat (Option α)} {g : β → Nat → Res Nat (Option β)} (_ : LogGrows f) (hg : LogGrows g) {x : α}
    {y : β} {k : α → β → γ} {c : γ} :
    ((f x 0).bind fun a s => (g y s).bind fun b s => Res.ok (a.bind fun a => b.map fun b => k a b) s) = .ok (some c) 0 ↔
      ∃ a b, c = k a b ∧ f x 0 = .ok (some a) 0 ∧ g y 0 = .ok (some b) 0 := by
  constructor
  · intro h
    obtain ⟨a, s1, h1, h2⟩ := Res.bind_eq_ok.1 h
    obtain ⟨b, s2, h3, h4⟩ := Res.bind_eq_ok.1 h2
    have e : (a.bind fun a => b.map fun b => k a b) = some c ∧ s2 = 0 := by injection h4 with e1 e2; exact ⟨e1, e2⟩
    obtain ⟨e, rfl⟩ := e
    cases hg.zero h3
    cases a with
    | none => cases e
    | some a =>
      cases b with
      | none => cases e
      | some b => cases e; exact ⟨a, b, rfl, h1, h3⟩
  · rintro ⟨a, b, rfl, h1, h2⟩
    rw [h1]
    show (g y 0).bind _ = _
    rw [h2]
    rfl

theorem foldStmts_grows' : LogGrows foldStmts := foldStmts_grows

theorem foldRule_grows : LogGrows foldRule := by
  intro x s o s' h
  rw [foldRule] at h
  obtain ⟨y, s1, h1, h2⟩ := Res.bind_eq_ok.1 h
  obtain ⟨z, s2, h3, h4⟩ := Res.bind_eq_ok.1 h2
  cases h4
  exact Nat.le_trans (fold_grows _ _ _ _ _ h1) (fold_grows _ _ _ _ _ h3)

theorem foldPlan_grows : LogGrows foldPlan := by
  intro x s o s' h
  rw [foldPlan] at h
  obtain ⟨y, s1, h1, h2⟩ := Res.bind_eq_ok.1 h
  obtain ⟨z, s2, h3, h4⟩ := Res.bind_eq_ok.1 h2
  obtain ⟨u, s3, h5, h6⟩ := Res.bind_eq_ok.1 h4
  obtain ⟨v, s4, h7, h8⟩ := Res.bind_eq_ok.1 h6
  cases h8
  exact Nat.le_trans (optFold_grows (fold_grows _) _ _ _ _ h1) (Nat.le_trans (fold_grows _ _ _ _ _ h3)
    (Nat.le_trans (optFold_grows (fold_grows _) _ _ _ _ h5) (optFold_grows foldStmts_grows' _ _ _ _ h7)))

mutual

theorem foldStmt_stable : ∀ (a b : AStmt), foldStmt a 0 = .ok (some b) 0 → foldStmt b 0 = .ok (some b) 0
  | .formula ty t, b, h => by
    rw [foldStmt.eq_def] at h
    simp only at h
    split at h
    · rename_i hty
      obtain ⟨y, s1, h1, h2⟩ := Res.bind_eq_ok.1 h
      cases y with
      | none => cases h2
      | some y =>
        cases h2
        rw [foldStmt.eq_def]
        simp only
        rw [if_pos hty, fold_stable _ _ _ h1]
        rfl
    · rename_i hty
      split at h
      · obtain ⟨y, s1, h1, h2⟩ := Res.bind_eq_ok.1 h
        cases y with
        | none => cases h2
        | some y =>
          cases h2
          obtain ⟨ts', as', e, -, -⟩ := C40_structure h1
          cases e
          rw [foldStmt.eq_def]
          simp only
          rw [if_neg hty, fold_stable _ _ _ h1]
          rfl
      · cases h
        rw [foldStmt.eq_def]
        simp only
        rw [if_neg hty]
        rfl
      · cases h
  | .while_ c b, x, h => by
    rw [foldStmt] at h
    obtain ⟨c', b', rfl, h1, h2⟩ := (pair_zero (fold_grows _) foldStmts_grows').1 h
    rw [foldStmt]
    exact (pair_zero (fold_grows _) foldStmts_grows').2 ⟨c', b', rfl, fold_stable _ _ _ h1, foldStmts_stable _ _ h2⟩
  | .for_ c b, x, h => by
    rw [foldStmt] at h
    obtain ⟨c', b', rfl, h1, h2⟩ := (pair_zero (fold_grows _) foldStmts_grows').1 h
    rw [foldStmt]
    exact (pair_zero (fold_grows _) foldStmts_grows').2 ⟨c', b', rfl, fold_stable _ _ _ h1, foldStmts_stable _ _ h2⟩
  | .if_ c b, x, h => by
    rw [foldStmt] at h
    obtain ⟨c', b', rfl, h1, h2⟩ := (pair_zero (fold_grows _) foldStmts_grows').1 h
    rw [foldStmt]
    exact (pair_zero (fold_grows _) foldStmts_grows').2 ⟨c', b', rfl, fold_stable _ _ _ h1, foldStmts_stable _ _ h2⟩
  | .ifElse c b e, x, h => by
    rw [foldStmt] at h
    obtain ⟨c', s1, h1, h2⟩ := Res.bind_eq_ok.1 h
    obtain ⟨b', s2, h3, h4⟩ := Res.bind_eq_ok.1 h2
    obtain ⟨e', s3, h5, h6⟩ := Res.bind_eq_ok.1 h4
    have q : (c'.bind fun c => b'.bind fun b => e'.map fun e => AStmt.ifElse c b e) = some x ∧ s3 = 0 := by injection h6 with e1 e2; exact ⟨e1, e2⟩
    obtain ⟨q, rfl⟩ := q
    cases foldStmts_grows'.zero h5
    cases foldStmts_grows'.zero h3
    cases c' with
    | none => cases q
    | some c' =>
      cases b' with
      | none => cases q
      | some b' =>
        cases e' with
        | none => cases q
        | some e' =>
          cases q
          rw [foldStmt, fold_stable _ _ _ h1]
          show (foldStmts b' 0).bind _ = _
          rw [foldStmts_stable _ _ h3]
          show (foldStmts e' 0).bind _ = _
          rw [foldStmts_stable _ _ h5]
          rfl

theorem foldStmts_stable : ∀ (a b : List AStmt), foldStmts a 0 = .ok (some b) 0 → foldStmts b 0 = .ok (some b) 0
  | [], b, h => by rw [foldStmts] at h; cases h; rw [foldStmts]
  | x :: xs, b, h => by
    rw [foldStmts] at h
    obtain ⟨y, ys, rfl, h1, h2⟩ := (pair_zero foldStmt_grows foldStmts_grows').1 h
    rw [foldStmts]
    exact (pair_zero foldStmt_grows foldStmts_grows').2 ⟨y, ys, rfl, foldStmt_stable _ _ h1, foldStmts_stable _ _ h2⟩

end

theorem foldRule_stable : Stable₂ foldRule := by
  intro x y h
  rw [foldRule] at h
  obtain ⟨c', b', rfl, h1, h2⟩ := (pair_zero (fold_grows _) (fold_grows _)).1 h
  rw [foldRule]
  exact (pair_zero (fold_grows _) (fold_grows _)).2 ⟨c', b', rfl, fold_stable _ _ _ h1, fold_stable _ _ _ h2⟩

omit [Arith] in
/-- Four steps. -/
theorem quad_zero {α β γ δ ε : Type} {f : α → Nat → Res Nat (Option α)} {g : β → Nat → Res Nat (Option β)} {h : γ → Nat → Res Nat (Option γ)}
    {i : δ → Nat → Res Nat (Option δ)} (_ : LogGrows f) (hg : LogGrows g) (hh : LogGrows h) (hi : LogGrows i) {x : α} {y : β} {z : γ} {w : δ}
    {k : α → β → γ → δ → ε} {e : ε} :
    ((f x 0).bind fun a s => (g y s).bind fun b s => (h z s).bind fun c s => (i w s).bind fun d s =>
        Res.ok (a.bind fun a => b.bind fun b => c.bind fun c => d.map fun d => k a b c d) s) = .ok (some e) 0 ↔
      ∃ a b c d, e = k a b c d ∧ f x 0 = .ok (some a) 0 ∧ g y 0 = .ok (some b) 0 ∧ h z 0 = .ok (some c) 0 ∧ i w 0 = .ok (some d) 0 := by
  constructor
  · intro q
    obtain ⟨a, s1, h1, q⟩ := Res.bind_eq_ok.1 q
    obtain ⟨b, s2, h2, q⟩ := Res.bind_eq_ok.1 q
    obtain ⟨c, s3, h3, q⟩ := Res.bind_eq_ok.1 q
    obtain ⟨d, s4, h4, q⟩ := Res.bind_eq_ok.1 q
    have p : (a.bind fun a => b.bind fun b => c.bind fun c => d.map fun d => k a b c d) = some e ∧ s4 = 0 := by injection q with e1 e2; exact ⟨e1, e2⟩
    obtain ⟨p, rfl⟩ := p
    cases hi.zero h4
    cases hh.zero h3
    cases hg.zero h2
    cases a <;> first | (cases p; done) | skip
    cases b <;> first | (cases p; done) | skip
    cases c <;> first | (cases p; done) | skip
    cases d <;> first | (cases p; done) | skip
    cases p
    exact ⟨_, _, _, _, rfl, h1, h2, h3, h4⟩
  · rintro ⟨a, b, c, d, rfl, h1, h2, h3, h4⟩
    rw [h1]
    show (g y 0).bind _ = _
    rw [h2]
    show (h z 0).bind _ = _
    rw [h3]
    show (i w 0).bind _ = _
    rw [h4]
    rfl

theorem foldPlan_stable : Stable₂ foldPlan := by
  intro x y h
  have g1 := optFold_grows (fold_grows Visitor.term)
  have g2 := optFold_grows (fold_grows Visitor.logical)
  have g3 := optFold_grows foldStmts_grows'
  rw [foldPlan] at h
  obtain ⟨l, hd, c, b, rfl, h1, h2, h3, h4⟩ := (quad_zero g1 (fold_grows _) g2 g3).1 h
  rw [foldPlan]
  exact (quad_zero g1 (fold_grows _) g2 g3).2 ⟨l, hd, c, b, rfl, optFold_stable (fold_stable _) _ _ h1, fold_stable _ _ _ h2,
    optFold_stable (fold_stable _) _ _ h3, optFold_stable foldStmts_stable _ _ h4⟩

/-! ## Agents -/

theorem foldAgent_iff {a b : AAgent} : foldAgent a 0 = .ok (some b) 0 ↔
    mapFold foldRule a.rules 0 = .ok (some b.rules) 0 ∧ mapFold (fold .const) a.beliefs 0 = .ok (some b.beliefs) 0 ∧
      mapFold (fold .term) a.goals 0 = .ok (some b.goals) 0 ∧ mapFold foldPlan a.plans 0 = .ok (some b.plans) 0 := by
  rw [foldAgent]
  rw [quad_zero (mapFold_grows foldRule_grows) (mapFold_grows (fold_grows _)) (mapFold_grows (fold_grows _)) (mapFold_grows foldPlan_grows)]
  constructor
  · rintro ⟨r, s, g, p, rfl, h⟩; exact h
  · intro h; exact ⟨_, _, _, _, rfl, h⟩

omit [Arith] in
theorem checkBeliefs_grows {bs : List Ast} {s s' : Nat} (h : checkBeliefs bs s = .ok () s') : s ≤ s' := by
  induction bs generalizing s with
  | nil => cases h; exact Nat.le_refl _
  | cons b bs ih =>
    rw [checkBeliefs] at h
    obtain ⟨u, s1, h1, h2⟩ := Res.bind_eq_ok.1 h
    refine Nat.le_trans ?_ (ih h2)
    rw [checkBelief] at h1
    obtain ⟨vs, s2, h3, h4⟩ := Res.bind_eq_ok.1 h1
    split at h4
    · cases h4
    · cases h4
      cases hb : b.findVars with
      | ok x => rw [hb] at h3; cases h3; exact Nat.le_add_right _ _
      | err e => rw [hb] at h3; cases h3
      | oof => rw [hb] at h3; cases h3

omit [Arith] in
/-- A base belief without complaints. -/
theorem checkBelief_iff {b : Ast} : checkBelief b 0 = .ok () 0 ↔ b.ops = 0 ∧ ∃ vs, b.findVars = .ok vs ∧ none ∉ vs := by
  rw [checkBelief]
  cases hb : b.findVars with
  | err e => simp [Res.lift, Res.bind]
  | oof => simp [Res.lift, Res.bind]
  | ok vs =>
    simp only [Res.lift, Res.bind]
    split
    · rename_i hn; simp [hn]
    · rename_i hn; simp [hn]

omit [Arith] in
theorem checkBeliefs_iff {bs : List Ast} : checkBeliefs bs 0 = .ok () 0 ↔ ∀ b ∈ bs, checkBelief b 0 = .ok () 0 := by
  induction bs with
  | nil => simp [checkBeliefs]
  | cons b bs ih =>
    rw [checkBeliefs, Res.bind_eq_ok]
    simp only [List.mem_cons, forall_eq_or_imp]
    constructor
    · rintro ⟨⟨⟩, s, h1, h2⟩
      have := checkBeliefs_grows h2
      have : s = 0 := by omega
      subst this
      exact ⟨h1, ih.1 h2⟩
    · rintro ⟨h1, h2⟩
      exact ⟨(), 0, h1, ih.2 h2⟩

/-- Validation has no complaints. -/
def Validated (a b : AAgent) : Prop := validate a 0 = .ok (some b) 0

theorem validate_grows : LogGrows validate := by
  intro a s o s' h
  rw [validate] at h
  obtain ⟨b, s1, h1, h2⟩ := Res.bind_eq_ok.1 h
  have g : s ≤ s1 := by
    rw [foldAgent] at h1
    obtain ⟨_, _, g1, h1⟩ := Res.bind_eq_ok.1 h1
    obtain ⟨_, _, g2, h1⟩ := Res.bind_eq_ok.1 h1
    obtain ⟨_, _, g3, h1⟩ := Res.bind_eq_ok.1 h1
    obtain ⟨_, _, g4, h1⟩ := Res.bind_eq_ok.1 h1
    cases h1
    have := mapFold_grows foldRule_grows _ _ _ _ g1
    have := mapFold_grows (fold_grows _) _ _ _ _ g2
    have := mapFold_grows (fold_grows _) _ _ _ _ g3
    have := mapFold_grows foldPlan_grows _ _ _ _ g4
    omega
  cases b with
  | none => cases h2; exact g
  | some b =>
    obtain ⟨u, s2, h3, h4⟩ := Res.bind_eq_ok.1 h2
    have := checkBeliefs_grows h3
    cases h4
    omega

omit [Arith] in
theorem sum_zero {α : Type} {f : α → Nat} {xs : List α} : (xs.map f).sum = 0 ↔ ∀ x ∈ xs, f x = 0 := by
  induction xs with
  | nil => simp
  | cons x xs ih => simp [ih]

theorem validated_iff {a b : AAgent} : Validated a b ↔ foldAgent a 0 = .ok (some b) 0 ∧ (∀ x ∈ b.beliefs, checkBelief x 0 = .ok () 0) ∧
    (∀ r ∈ b.rules, r.head.ops = 0) ∧ ∀ p ∈ b.plans, p.event.head.ops = 0 := by
  rw [Validated, validate, ← checkBeliefs_iff, ← sum_zero (f := fun r : ARule => r.head.ops), ← sum_zero (f := fun p : APlan => p.event.head.ops)]
  constructor
  · intro h
    obtain ⟨c, s1, h1, h2⟩ := Res.bind_eq_ok.1 h
    cases c with
    | none => cases h2
    | some c =>
      obtain ⟨⟨⟩, s2, h3, h4⟩ := Res.bind_eq_ok.1 h2
      have hs := checkBeliefs_grows h3
      have e : c = b ∧ s2 + (c.rules.map fun r => r.head.ops).sum + (c.plans.map fun p => p.event.head.ops).sum = 0 := by
        injection h4 with e1 e2
        injection e1 with e1
        exact ⟨e1, e2⟩
      obtain ⟨rfl, e⟩ := e
      have : s2 = 0 := by omega
      subst this
      have : s1 = 0 := by omega
      subst this
      exact ⟨h1, h3, by omega, by omega⟩
  · rintro ⟨h1, h2, h3, h4⟩
    rw [h1]
    show (checkBeliefs b.beliefs 0).bind _ = _
    rw [h2]
    show Res.ok (some b) _ = _
    rw [h3, h4]

theorem Validated.stable {a b : AAgent} (h : Validated a b) : Validated b b := by
  obtain ⟨h1, h2, h3, h4⟩ := validated_iff.1 h
  obtain ⟨g1, g2, g3, g4⟩ := foldAgent_iff.1 h1
  exact validated_iff.2 ⟨foldAgent_iff.2 ⟨mapFold_stable foldRule_grows foldRule_stable _ _ g1,
    mapFold_stable (fold_grows _) (fold_stable _) _ _ g2, mapFold_stable (fold_grows _) (fold_stable _) _ _ g3,
    mapFold_stable foldPlan_grows foldPlan_stable _ _ g4⟩, h2, h3, h4⟩

theorem Validated.unique {a b c : AAgent} (h : Validated a b) (h' : Validated a c) : b = c := by
  rw [Validated] at h h'
  rw [h] at h'
  cases h'
  rfl

theorem validated_append {a b c : AAgent} : Validated (a.append b) c ↔ ∃ a' b', c = a'.append b' ∧ Validated a a' ∧ Validated b b' := by
  constructor
  · intro h
    obtain ⟨h1, h2, h3, h4⟩ := validated_iff.1 h
    obtain ⟨g1, g2, g3, g4⟩ := foldAgent_iff.1 h1
    obtain ⟨r1, r2, er, p1, q1⟩ := (mapFold_append foldRule_grows).1 g1
    obtain ⟨b1, b2, eb, p2, q2⟩ := (mapFold_append (fold_grows _)).1 g2
    obtain ⟨c1, c2, ec, p3, q3⟩ := (mapFold_append (fold_grows _)).1 g3
    obtain ⟨d1, d2, ed, p4, q4⟩ := (mapFold_append foldPlan_grows).1 g4
    refine ⟨⟨r1, b1, c1, d1⟩, ⟨r2, b2, c2, d2⟩, ?_, validated_iff.2 ⟨foldAgent_iff.2 ⟨p1, p2, p3, p4⟩, ?_, ?_, ?_⟩,
      validated_iff.2 ⟨foldAgent_iff.2 ⟨q1, q2, q3, q4⟩, ?_, ?_, ?_⟩⟩
    · obtain ⟨w, x, y, z⟩ := c; simp only at er eb ec ed; subst er eb ec ed; rfl
    · intro x hx; exact h2 x (by rw [eb]; exact List.mem_append_left _ hx)
    · intro x hx; exact h3 x (by rw [er]; exact List.mem_append_left _ hx)
    · intro x hx; exact h4 x (by rw [ed]; exact List.mem_append_left _ hx)
    · intro x hx; exact h2 x (by rw [eb]; exact List.mem_append_right _ hx)
    · intro x hx; exact h3 x (by rw [er]; exact List.mem_append_right _ hx)
    · intro x hx; exact h4 x (by rw [ed]; exact List.mem_append_right _ hx)
  · rintro ⟨a', b', rfl, ha, hb⟩
    obtain ⟨h1, h2, h3, h4⟩ := validated_iff.1 ha
    obtain ⟨g1, g2, g3, g4⟩ := foldAgent_iff.1 h1
    obtain ⟨h1', h2', h3', h4'⟩ := validated_iff.1 hb
    obtain ⟨g1', g2', g3', g4'⟩ := foldAgent_iff.1 h1'
    refine validated_iff.2 ⟨foldAgent_iff.2 ⟨(mapFold_append foldRule_grows).2 ⟨_, _, rfl, g1, g1'⟩,
      (mapFold_append (fold_grows _)).2 ⟨_, _, rfl, g2, g2'⟩, (mapFold_append (fold_grows _)).2 ⟨_, _, rfl, g3, g3'⟩,
      (mapFold_append foldPlan_grows).2 ⟨_, _, rfl, g4, g4'⟩⟩, ?_, ?_, ?_⟩
    · intro x hx; exact (List.mem_append.1 hx).elim (h2 x) (h2' x)
    · intro x hx; exact (List.mem_append.1 hx).elim (h3 x) (h3' x)
    · intro x hx; exact (List.mem_append.1 hx).elim (h4 x) (h4' x)

end

end Verif
