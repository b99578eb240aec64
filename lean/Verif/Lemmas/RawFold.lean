import Verif.Lemmas.ValidAgent
import Verif.Spec.Source

/-! Folding and printing: a folded term is folded to the same term after it has been printed
and read, and folding makes no new names. -/

namespace Verif

section
variable [Arith]

/-- Folding two operands, without errors. -/
theorem raw_two {w : Visitor} {l r : Ast} {k k' : Option Ast → Option Ast → Nat → Res Nat (Option Ast)} {s : Nat} {o : Option Ast}
    (il : ∀ s o, fold w l s = .ok o s → fold w l.raw s = .ok o s) (ir : ∀ s o, fold w r s = .ok o s → fold w r.raw s = .ok o s)
    (gk : ∀ l' r' s o s', k l' r' s = .ok o s' → s ≤ s') (hk : ∀ l' r' s o, k l' r' s = .ok o s → k' l' r' s = .ok o s)
    (h : ((fold w l s).bind fun l' s => (fold w r s).bind fun r' s => k l' r' s) = .ok o s) :
    ((fold w l.raw s).bind fun l' s => (fold w r.raw s).bind fun r' s => k' l' r' s) = .ok o s := by
  obtain ⟨l', s1, h1, h2⟩ := Res.bind_eq_ok.1 h
  obtain ⟨r', s2, h3, h4⟩ := Res.bind_eq_ok.1 h2
  have i1 := (fold_ok _ _ _ _ _ h1).1
  have i2 := (fold_ok _ _ _ _ _ h3).1
  have i3 := gk _ _ _ _ _ h4
  have e1 : s1 = s := by omega
  subst e1
  have e2 : s2 = s1 := by omega
  subst e2
  rw [il _ _ h1]
  show (fold w r.raw s2).bind _ = _
  rw [ir _ _ h3]
  exact hk _ _ _ _ h4

omit [Arith] in
theorem foldUn_grows {op : UnOp} {a : Option Ast} {s s' : Nat} {o : Option Ast} (h : foldUn op a s = .ok o s') : s ≤ s' := by
  rw [foldUn.eq_def] at h
  split at h <;> first | (cases h; exact Nat.le_refl _) | cases h

theorem numBin_raw {op : BinOp} {l r l2 r2 : Ast} {l' r' : Option Ast} {s : Nat} {o : Option Ast} (h : numBin op l r l' r' s = .ok o s) :
    numBin op l2 r2 l' r' s = .ok o s := by
  unfold numBin at h ⊢
  split
  · next a b =>
    simp only at h
    split
    · next p q =>
      simp only at h
      cases hb : Arith.bin op p q with
      | some x => rw [hb] at h; exact h
      | none =>
        rw [hb] at h
        simp only at h ⊢
        split at h
        · unfold logError at h
          injection h with _ h
          omega
        · cases h
    · next hn =>
      cases a with
      | fin p =>
        cases b with
        | fin q => exact (hn _ _ rfl rfl).elim
        | inf => cases h
      | inf => cases h
  · next hn =>
    split at h
    · next a b => exact (hn _ _ rfl rfl).elim
    · exact h

omit [Arith] in
theorem logError_not {a o : Option Ast} {s : Nat} (h : logError a s = .ok o s) : False := by
  unfold logError at h
  injection h with _ h
  omega

mutual
theorem fold_raw : ∀ (a : Ast) (v : Visitor) (s : Nat) (o : Option Ast), fold v a s = .ok o s → fold v a.raw s = .ok o s
  | .bin op l r, v, s, o, h => by
    rw [Ast.raw]
    by_cases hw : v.forBin op = .num
    · cases hop : op.numericOp with
      | true =>
        rw [fold.eq_def] at h ⊢
        simp only [hw, hop, if_true] at h ⊢
        exact raw_two (fold_raw l .num) (fold_raw r .num) (fun _ _ _ _ _ h => (numBin_ok hop h).1) (fun _ _ _ _ h => numBin_raw h) h
      | false =>
        rw [fold.eq_def] at h
        simp only [hw, hop] at h
        exact (logError_not h).elim
    · by_cases hq : v.forBin op = .logical ∧ op.queryOp = true ∧ ¬ op.booleanOp = true
      · rw [fold.eq_def] at h ⊢
        simp only at h ⊢
        rw [if_pos hq] at h ⊢
        exact raw_two (fold_raw l .term) (fold_raw r .term) (fun _ _ _ _ _ h => (rebuild_ok h).1) (fun _ _ _ _ h => h) h
      · by_cases hb : op.booleanOp = true
        · rw [fold.eq_def] at h ⊢
          simp only at h ⊢
          rw [if_neg hq, if_pos hb] at h ⊢
          exact raw_two (fold_raw l _) (fold_raw r _) (fun _ _ _ _ _ h => (boolBin_ok hb h).1) (fun _ _ _ _ h => h) h
        · by_cases hc : op.compOp = true
          · rw [fold.eq_def] at h ⊢
            simp only at h ⊢
            rw [if_neg hq, if_neg hb, if_pos hc] at h ⊢
            exact raw_two (fold_raw l _) (fold_raw r _) (fun _ _ _ _ _ h => (compBin_ok hc h).1) (fun _ _ _ _ h => h) h
          · rw [fold.eq_def] at h
            simp only at h
            rw [if_neg hq, if_neg hb, if_neg hc] at h
            exact (logError_not h).elim
  | .un op a, v, s, o, h => by
    rw [Ast.raw]
    have one : ∀ {w}, (fold w a s).bind (foldUn op) = .ok o s → (fold w a.raw s).bind (foldUn op) = .ok o s := by
      intro w h
      obtain ⟨a', s1, h1, h2⟩ := Res.bind_eq_ok.1 h
      have i1 := (fold_ok _ _ _ _ _ h1).1
      have i2 := foldUn_grows h2
      have e1 : s1 = s := by omega
      subst e1
      rw [fold_raw a _ _ _ h1]
      exact h2
    by_cases hw : v.forUn op = .num
    · cases hop : op.numericOp with
      | true =>
        rw [fold.eq_def] at h ⊢
        simp only [hw, hop, if_true] at h ⊢
        exact one h
      | false =>
        rw [fold.eq_def] at h
        simp only [hw, hop] at h
        exact (logError_not h).elim
    · by_cases hb : op.booleanOp = true
      · rw [fold.eq_def] at h ⊢
        simp only at h ⊢
        rw [if_pos hb] at h ⊢
        exact one h
      · rw [fold.eq_def] at h
        simp only at h
        rw [if_neg hb] at h
        exact (logError_not h).elim
  | .var x, v, s, o, h => by rw [Ast.raw]; exact h
  | .const (.bool b), v, s, o, h => by rw [Ast.raw]; exact h; simp
  | .const (.str b), v, s, o, h => by rw [Ast.raw]; exact h; simp
  | .const (.num .inf), v, s, o, h => by rw [Ast.raw]; exact h; simp
  | .const (.num (.fin q)), v, s, o, h => by
    rw [Ast.raw]
    split
    · have e : - -q = q := by simp
      cases v <;> first
        | exact (logError_not h).elim
        | (have h' : Res.ok (some (Ast.const (.num (.fin q)))) s = Res.ok o s := h
           cases h'
           show Res.ok (some (Ast.const (.num (.fin (- -q))))) s = _
           rw [e])
    · exact h
  | .lit f ts as, v, s, o, h => by
    rw [Ast.raw]
    have terms : (∀ ts as s, fold v (.lit f ts as) s = (foldL ts s).bind fun ts' s => (foldL as s).bind fun as' s =>
        .ok (ts'.bind fun ts' => as'.map fun as' => .lit f ts' as') s) → fold v (.lit f (Ast.raws ts) (Ast.raws as)) s = .ok o s := by
      intro hd
      rw [hd] at h ⊢
      obtain ⟨ts', s1, h1, h2⟩ := Res.bind_eq_ok.1 h
      obtain ⟨as', s2, h3, h4⟩ := Res.bind_eq_ok.1 h2
      cases h4
      have i1 := (foldL_ok _ _ _ _ h1).1
      have i2 := (foldL_ok _ _ _ _ h3).1
      have e1 : s1 = s := by omega
      subst e1
      rw [foldL_raw ts _ _ h1]
      show (foldL (Ast.raws as) s1).bind _ = _
      rw [foldL_raw as _ _ h3]
      rfl
    cases v <;> first | exact terms fun ts as s => rfl | exact (logError_not h).elim
  | .list ts, v, s, o, h => by
    rw [Ast.raw]
    have terms : (∀ ts s, fold v (.list ts) s = (foldL ts s).bind fun ts' s => .ok (ts'.map .list) s) →
        fold v (.list (Ast.raws ts)) s = .ok o s := by
      intro hd
      rw [hd] at h ⊢
      obtain ⟨ts', s1, h1, h2⟩ := Res.bind_eq_ok.1 h
      cases h2
      rw [foldL_raw ts _ _ h1]
      rfl
    cases v <;> first | exact terms fun ts s => rfl | exact (logError_not h).elim
  | .linked hd tl, v, s, o, h => by
    rw [Ast.raw]
    by_cases hv : v = .term
    · subst hv
      rw [fold] at h ⊢
      exact raw_two (k := fun h' t' s => .ok (h'.bind fun h' => t'.map fun t' => .linked h' t') s) (fold_raw hd .term) (fold_raw tl .term)
        (fun _ _ _ _ _ h => by cases h; exact Nat.le_refl _) (fun _ _ _ _ h => h) h
    · cases v <;> first | exact absurd rfl hv | cases h

theorem foldL_raw : ∀ (as : List Ast) (s : Nat) (o : Option (List Ast)), foldL as s = .ok o s → foldL (Ast.raws as) s = .ok o s
  | [], s, o, h => h
  | a :: as, s, o, h => by
    rw [Ast.raws]
    rw [foldL] at h ⊢
    obtain ⟨a', s1, h1, h2⟩ := Res.bind_eq_ok.1 h
    obtain ⟨as', s2, h3, h4⟩ := Res.bind_eq_ok.1 h2
    cases h4
    have i1 := (fold_ok _ _ _ _ _ h1).1
    have i2 := (foldL_ok _ _ _ _ h3).1
    have e1 : s1 = s := by omega
    subst e1
    rw [fold_raw a _ _ _ h1]
    show (foldL (Ast.raws as) s1).bind _ = _
    rw [foldL_raw as _ _ h3]
    rfl
end

omit [Arith] in
/-- The operands of `rebuild`. -/
theorem rebuild_some {op : BinOp} {l' r' : Option Ast} {b : Ast} (h : rebuild op l' r' = some b) :
    ∃ x y, l' = some x ∧ r' = some y ∧ b = .bin op x y := by
  cases l' with
  | none => cases h
  | some x =>
    cases r' with
    | none => cases h
    | some y => cases h; exact ⟨x, y, rfl, rfl, rfl⟩

omit [Arith] in
/-- A constant without names, or the two operands. -/
theorem named_bin {op : BinOp} {l' r' : Option Ast} {b : Ast} (hl : ∀ x, l' = some x → x.Named) (hr : ∀ x, r' = some x → x.Named)
    (h : (∃ q, b = .const (.num q)) ∨ (∃ q, b = .const (.bool q)) ∨ rebuild op l' r' = some b) : b.Named := by
  rcases h with ⟨q, rfl⟩ | ⟨q, rfl⟩ | h
  · trivial
  · trivial
  · obtain ⟨x, y, e1, e2, rfl⟩ := rebuild_some h
    exact ⟨hl _ e1, hr _ e2⟩

omit [Arith] in
theorem boolBin_out {op : BinOp} {l' r' : Option Ast} {s s' : Nat} {b : Ast} (h : boolBin op l' r' s = .ok (some b) s') :
    (∃ q, b = .const (.num q)) ∨ (∃ q, b = .const (.bool q)) ∨ rebuild op l' r' = some b := by
  unfold boolBin at h
  split at h
  · cases h; exact .inr (.inl ⟨_, rfl⟩)
  · injection h with h _; exact .inr (.inr h)

omit [Arith] in
theorem lift_bool {x : Ev Bool} {b : Ast} {s s' : Nat} (h : Res.lift (x.map fun x => some (Ast.const (.bool x))) s = .ok (some b) s') :
    ∃ q, b = .const (.bool q) := by
  cases x with
  | ok q => cases h; exact ⟨q, rfl⟩
  | err e => cases h
  | oof => cases h

omit [Arith] in
theorem compBin_out {op : BinOp} {l' r' : Option Ast} {s s' : Nat} {b : Ast} (h : compBin op l' r' s = .ok (some b) s') :
    (∃ q, b = .const (.num q)) ∨ (∃ q, b = .const (.bool q)) ∨ rebuild op l' r' = some b := by
  unfold compBin at h
  split at h
  · split at h
    · exact .inr (.inl (lift_bool h))
    · cases h
  · exact .inr (.inl (lift_bool h))
  · exact .inr (.inl (lift_bool h))
  · injection h with h _; exact .inr (.inr h)

theorem numBin_out {op : BinOp} {l r : Ast} {l' r' : Option Ast} {s s' : Nat} {b : Ast} (h : numBin op l r l' r' s = .ok (some b) s') :
    (∃ q, b = .const (.num q)) ∨ rebuild op l' r' = some b ∨ b = .bin op l r := by
  unfold numBin at h
  split at h
  · split at h
    · split at h
      · cases h; exact .inl ⟨_, rfl⟩
      · split at h
        · cases h; exact .inr (.inr rfl)
        · cases h
    · cases h
  · injection h with h _; exact .inr (.inl h)

omit [Arith] in
theorem foldUn_out {op : UnOp} {a : Option Ast} {s s' : Nat} {b : Ast} (h : foldUn op a s = .ok (some b) s') :
    (∃ q, b = .const (.num q)) ∨ (∃ q, b = .const (.bool q)) ∨ ∃ x, a = some x ∧ b = .un op x := by
  rw [foldUn.eq_def] at h
  split at h
  · cases h; exact .inr (.inl ⟨_, rfl⟩)
  · cases h; exact .inl ⟨_, rfl⟩
  · cases h; exact .inl ⟨_, rfl⟩
  · cases h
  · cases h
  · injection h with h _
    cases a with
    | none => cases h
    | some x => cases h; exact .inr (.inr ⟨x, rfl, rfl⟩)

mutual
/-- Folding makes no new names. -/
theorem fold_named : ∀ (a : Ast) (v : Visitor) (s : Nat) (b : Ast) (s' : Nat), a.Named → fold v a s = .ok (some b) s' → b.Named
  | .bin op l r, v, s, b, s', hn, h => by
    have two : ∀ {w} {k : Option Ast → Option Ast → Nat → Res Nat (Option Ast)},
        ((fold w l s).bind fun l' s => (fold w r s).bind fun r' s => k l' r' s) = .ok (some b) s' →
        (∀ {l' r' s}, k l' r' s = .ok (some b) s' →
          (∃ q, b = .const (.num q)) ∨ (∃ q, b = .const (.bool q)) ∨ rebuild op l' r' = some b) → b.Named := by
      intro w k h hk
      obtain ⟨l', s1, h1, h2⟩ := Res.bind_eq_ok.1 h
      obtain ⟨r', s2, h3, h4⟩ := Res.bind_eq_ok.1 h2
      exact named_bin (fun x e => fold_named l _ _ _ _ hn.1 (e ▸ h1)) (fun x e => fold_named r _ _ _ _ hn.2 (e ▸ h3)) (hk h4)
    by_cases hw : v.forBin op = .num
    · cases hop : op.numericOp with
      | true =>
        rw [fold.eq_def] at h
        simp only [hw, hop, if_true] at h
        obtain ⟨l', s1, h1, h2⟩ := Res.bind_eq_ok.1 h
        obtain ⟨r', s2, h3, h4⟩ := Res.bind_eq_ok.1 h2
        rcases numBin_out h4 with e | e | rfl
        · exact named_bin (op := op) (l' := l') (r' := r') (fun x e => fold_named l _ _ _ _ hn.1 (e ▸ h1)) (fun x e => fold_named r _ _ _ _ hn.2 (e ▸ h3)) (.inl e)
        · exact named_bin (op := op) (fun x e => fold_named l _ _ _ _ hn.1 (e ▸ h1)) (fun x e => fold_named r _ _ _ _ hn.2 (e ▸ h3)) (.inr (.inr e))
        · exact hn
      | false =>
        rw [fold.eq_def] at h
        simp only [hw, hop] at h
        cases h; exact hn
    · by_cases hq : v.forBin op = .logical ∧ op.queryOp = true ∧ ¬ op.booleanOp = true
      · rw [fold.eq_def] at h
        simp only at h
        rw [if_pos hq] at h
        exact two (k := fun l' r' s => .ok (rebuild op l' r') s) h fun h => by injection h with h _; exact .inr (.inr h)
      · by_cases hb : op.booleanOp = true
        · rw [fold.eq_def] at h
          simp only at h
          rw [if_neg hq, if_pos hb] at h
          exact two (k := boolBin op) h boolBin_out
        · by_cases hc : op.compOp = true
          · rw [fold.eq_def] at h
            simp only at h
            rw [if_neg hq, if_neg hb, if_pos hc] at h
            exact two (k := compBin op) h compBin_out
          · rw [fold.eq_def] at h
            simp only at h
            rw [if_neg hq, if_neg hb, if_neg hc] at h
            cases h; exact hn
  | .un op a, v, s, b, s', hn, h => by
    have one : ∀ {w}, (fold w a s).bind (foldUn op) = .ok (some b) s' → b.Named := by
      intro w h
      obtain ⟨a', s1, h1, h2⟩ := Res.bind_eq_ok.1 h
      rcases foldUn_out h2 with ⟨q, rfl⟩ | ⟨q, rfl⟩ | ⟨x, rfl, rfl⟩
      · trivial
      · trivial
      · have := fold_named a _ _ _ _ hn h1
        exact this
    by_cases hw : v.forUn op = .num
    · cases hop : op.numericOp with
      | true =>
        rw [fold.eq_def] at h
        simp only [hw, hop, if_true] at h
        exact one h
      | false =>
        rw [fold.eq_def] at h
        simp only [hw, hop] at h
        cases h; exact hn
    · by_cases hb : op.booleanOp = true
      · rw [fold.eq_def] at h
        simp only at h
        rw [if_pos hb] at h
        exact one h
      · rw [fold.eq_def] at h
        simp only at h
        rw [if_neg hb] at h
        cases h; exact hn
  | .var x, v, s, b, s', hn, h => by rw [fold] at h; cases h; exact hn
  | .const c, v, s, b, s', hn, h => by cases v <;> cases c <;> (cases h; exact hn)
  | .lit f ts as, v, s, b, s', hn, h => by
    have terms : (foldL ts s).bind (fun ts' s => (foldL as s).bind fun as' s =>
        .ok (ts'.bind fun ts' => as'.map fun as' => Ast.lit f ts' as') s) = .ok (some b) s' → b.Named := by
      intro h
      obtain ⟨ts', s1, h1, h2⟩ := Res.bind_eq_ok.1 h
      obtain ⟨as', s2, h3, h4⟩ := Res.bind_eq_ok.1 h2
      injection h4 with h4 _
      cases ts' with
      | none => cases h4
      | some ts' =>
        cases as' with
        | none => cases h4
        | some as' =>
          cases h4
          exact ⟨hn.1, foldL_named ts _ _ _ hn.2.1 h1, foldL_named as _ _ _ hn.2.2 h3⟩
    cases v <;> first | exact terms h | (cases h; exact hn)
  | .list ts, v, s, b, s', hn, h => by
    have terms : (foldL ts s).bind (fun ts' s => .ok (ts'.map Ast.list) s) = .ok (some b) s' → b.Named := by
      intro h
      obtain ⟨ts', s1, h1, h2⟩ := Res.bind_eq_ok.1 h
      injection h2 with h2 _
      cases ts' with
      | none => cases h2
      | some ts' =>
        cases h2
        have := foldL_named ts _ _ _ hn h1
        exact this
    cases v <;> first | exact terms h | (cases h; done) | (cases h; exact hn)
  | .linked hd tl, v, s, b, s', hn, h => by
    by_cases hv : v = .term
    · subst hv
      rw [fold] at h
      obtain ⟨h', s1, h1, h2⟩ := Res.bind_eq_ok.1 h
      obtain ⟨t', s2, h3, h4⟩ := Res.bind_eq_ok.1 h2
      injection h4 with h4 _
      cases h' with
      | none => cases h4
      | some h' =>
        cases t' with
        | none => cases h4
        | some t' =>
          cases h4
          exact ⟨fold_named hd _ _ _ _ hn.1 h1, fold_named tl _ _ _ _ hn.2 h3⟩
    · cases v <;> first | exact absurd rfl hv | cases h

theorem foldL_named : ∀ (as : List Ast) (s : Nat) (bs : List Ast) (s' : Nat), Ast.NamedL as → foldL as s = .ok (some bs) s' → Ast.NamedL bs
  | [], s, bs, s', _, h => by cases h; trivial
  | a :: as, s, bs, s', hn, h => by
    rw [foldL] at h
    obtain ⟨a', s1, h1, h2⟩ := Res.bind_eq_ok.1 h
    obtain ⟨as', s2, h3, h4⟩ := Res.bind_eq_ok.1 h2
    injection h4 with h4 _
    cases a' with
    | none => cases h4
    | some a' =>
      cases as' with
      | none => cases h4
      | some as' =>
        cases h4
        exact ⟨fold_named a _ _ _ _ hn.1 h1, foldL_named as _ _ _ hn.2 h3⟩
end

theorem FoldsTo.named {v : Visitor} {a b : Ast} (h : FoldsTo v a b) (hn : a.Named) : b.Named := fold_named a v 0 _ _ hn h

/-- Literals stay literals. -/
theorem FoldsTo.lit {v : Visitor} {f : List Char} {ts as : List Ast} {b : Ast} (h : FoldsTo v (.lit f ts as) b) :
    ∃ ts' as', b = .lit f ts' as' := by
  have terms : (foldL ts 0).bind (fun ts' s => (foldL as s).bind fun as' s =>
      .ok (ts'.bind fun ts' => as'.map fun as' => Ast.lit f ts' as') s) = .ok (some b) 0 → ∃ ts' as', b = .lit f ts' as' := by
    intro h
    obtain ⟨ts', s1, h1, h2⟩ := Res.bind_eq_ok.1 h
    obtain ⟨as', s2, h3, h4⟩ := Res.bind_eq_ok.1 h2
    injection h4 with h4 _
    cases ts' with
    | none => cases h4
    | some ts' =>
      cases as' with
      | none => cases h4
      | some as' => cases h4; exact ⟨_, _, rfl⟩
  cases v <;> first | exact terms h | exact (logError_not h).elim

theorem FoldsTo.raw {v : Visitor} {a b : Ast} (h : FoldsTo v a b) : FoldsTo v a.raw b := fold_raw a v 0 _ h

end

end Verif
