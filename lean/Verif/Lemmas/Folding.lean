import Verif.Lemmas.Limit

/-! Replacing constant expressions by their values preserves results; the visitors do only
that. -/

namespace Verif

section
variable [Arith]

/-- Literals and lists. -/
def Term.isStruct : Term → Bool
  | .lit _ _ _ | .tup _ | .cons _ _ => true
  | _ => false

/-- The same result, or structures that have the same result when grounded. -/
def Alike (sc : Scope) (x y : Ev Term) : Prop :=
  x = y ∨ ∃ a b, x = .ok a ∧ y = .ok b ∧ a.isStruct = true ∧ b.isStruct = true ∧ GR sc a = GR sc b

omit [Arith] in
theorem unFunc_struct {a b : Term} (ha : a.isStruct = true) (hb : b.isStruct = true) (op : UnOp) : unFunc op a = unFunc op b := by
  cases a <;> first | (cases ha; done) | (cases b <;> first | (cases hb; done) | (cases op <;> rfl))

theorem binFunc_left {a b : Term} (ha : a.isStruct = true) (hb : b.isStruct = true) (op : BinOp) (r : Term) :
    binFunc op a r = binFunc op b r := by
  cases a <;> first | (cases ha; done) | (cases b <;> first | (cases hb; done) | (cases op <;> rfl))

theorem binFunc_right {a b : Term} (ha : a.isStruct = true) (hb : b.isStruct = true) (op : BinOp) (l : Term) :
    binFunc op l a = binFunc op l b := by
  cases a <;> first | (cases ha; done) | (cases b <;> first | (cases hb; done) | (cases op <;> first | rfl | (cases l <;> rfl)))

theorem Alike.un {sc : Scope} {t t' : Term} (h : Alike sc (EV sc t) (EV sc t')) (op : UnOp) :
    EV sc (.un op t) = EV sc (.un op t') := by
  rw [EV_un, EV_un]
  rcases h with h | ⟨a, b, e1, e2, ha, hb, -⟩
  · rw [h]
  · rw [e1, e2]; exact unFunc_struct ha hb op

theorem Alike.bin {sc : Scope} {l r l' r' : Term} (h1 : Alike sc (EV sc l) (EV sc l')) (h2 : Alike sc (EV sc r) (EV sc r')) (op : BinOp) :
    EV sc (.bin op l r) = EV sc (.bin op l' r') := by
  have right : ∀ x, ((EV sc r).bind fun r' =>
        if op.compOp then (GR sc x).bind fun l'' => (GR sc r').bind fun r'' => (limit fun n => pyCompare n op l'' r'').map .bool
        else binFunc op x r') = (EV sc r').bind fun r' =>
        if op.compOp then (GR sc x).bind fun l'' => (GR sc r').bind fun r'' => (limit fun n => pyCompare n op l'' r'').map .bool
        else binFunc op x r' := by
    intro x
    rcases h2 with h | ⟨a, b, e1, e2, ha, hb, hg⟩
    · rw [h]
    · rw [e1, e2]
      show (if _ then _ else _) = (if _ then _ else _)
      rw [hg, binFunc_right ha hb]
  rw [EV_bin, EV_bin]
  rcases h1 with h | ⟨a, b, e1, e2, ha, hb, hg⟩
  · rw [h]
    congr 1
    funext x
    exact right x
  · rw [e1, e2]
    simp only [Ev.bind_ok]
    rw [right a, hg]
    congr 1
    funext r'
    rw [binFunc_left ha hb]

omit [Arith] in
theorem unFunc_ok {op : UnOp} {v w : Term} (h : unFunc op v = .ok w) : v.isValue = true ∧ w.isValue = true := by
  cases op <;> cases v <;> first | (cases h; done) | (cases h; exact ⟨rfl, rfl⟩)

theorem binFunc_ok {op : BinOp} {a b w : Term} (h : binFunc op a b = .ok w) : a.isValue = true ∧ b.isValue = true ∧ w.isValue = true := by
  rw [binFunc.eq_def] at h
  split at h
  · split at h
    · cases h; exact ⟨rfl, rfl, rfl⟩
    · cases h
  · split at h
    · split at h
      · split at h
        · cases h; exact ⟨rfl, rfl, rfl⟩
        · cases h
      · cases h
    · cases h

omit [Arith] in
theorem isValue_inert {t : Term} (h : t.isValue = true) : t.isInert = true := by cases t <;> first | (cases h; done) | rfl

theorem Alike.value {sc : Scope} {t v : Term} (hv : v.isValue = true) (h : Alike sc (EV sc t) (EV sc v)) : EV sc t = .ok v := by
  rw [EV_inert sc (isValue_inert hv)] at h
  rcases h with h | ⟨a, b, -, e2, -, hb, -⟩
  · exact h
  · cases e2; cases v <;> first | (cases hv; done) | (cases hb; done)

mutual
theorem Reduces.meaning (sc : Scope) : ∀ {t u : Term}, Reduces t u → GR sc t = GR sc u ∧ Alike sc (EV sc t) (EV sc u)
  | _, _, .refl t => ⟨rfl, .inl rfl⟩
  | _, _, .lit (f := f) (ts := ts) (us := us) (ts' := ts') (us' := us') h1 h2 => by
    have e : GR sc (.lit f ts us) = GR sc (.lit f ts' us') := by
      rw [GR_lit]
      rw [h1.meaning sc, h2.meaning sc]
      exact (GR_lit sc _ _ _).symm
    exact ⟨e, .inr ⟨_, _, EV_inert sc rfl, EV_inert sc rfl, rfl, rfl, e⟩⟩
  | _, _, .tup (ts := ts) (ts' := ts') h => by
    have e : GR sc (.tup ts) = GR sc (.tup ts') := by
      rw [GR_tup]
      rw [h.meaning sc]
      exact (GR_tup sc _).symm
    exact ⟨e, .inr ⟨_, _, EV_inert sc rfl, EV_inert sc rfl, rfl, rfl, e⟩⟩
  | _, _, .cons (h := h) (t := t) (h' := h') (t' := t') h1 h2 => by
    have e : GR sc (.cons h t) = GR sc (.cons h' t') := by
      rw [GR_cons]
      rw [(h1.meaning sc).1, (h2.meaning sc).1]
      exact (GR_cons sc _ _).symm
    exact ⟨e, .inr ⟨_, _, EV_inert sc rfl, EV_inert sc rfl, rfl, rfl, e⟩⟩
  | _, _, .un (op := op) h => by
    have e := (h.meaning sc).2.un op
    exact ⟨by rw [GR_un, GR_un, e], .inl e⟩
  | _, _, .bin (op := op) h1 h2 => by
    have e := Alike.bin (h1.meaning sc).2 (h2.meaning sc).2 op
    exact ⟨by rw [GR_bin, GR_bin, e], .inl e⟩
  | _, _, .unValue (op := op) (t := t) (w := w) h hf => by
    obtain ⟨hv, hw⟩ := unFunc_ok hf
    have e : EV sc (.un op t) = .ok w := by
      rw [EV_un]
      rw [(h.meaning sc).2.value hv]
      exact hf
    exact ⟨by rw [GR_un, e]; rfl, .inl (e.trans (EV_inert sc (isValue_inert hw)).symm)⟩
  | _, _, .binValue (op := op) (l := l) (r := r) (w := w) h1 h2 hc hf => by
    obtain ⟨ha, hb, hw⟩ := binFunc_ok hf
    have e : EV sc (.bin op l r) = .ok w := by
      rw [EV_bin]
      rw [(h1.meaning sc).2.value ha, (h2.meaning sc).2.value hb]
      simp only [Ev.bind_ok, hc, Bool.false_eq_true, if_false]
      exact hf
    exact ⟨by rw [GR_bin, e]; rfl, .inl (e.trans (EV_inert sc (isValue_inert hw)).symm)⟩
  | _, _, .compValue (op := op) (l := l) (r := r) (x := x) h1 h2 ha hb hc hf => by
    have e : EV sc (.bin op l r) = .ok (.bool x) := by
      rw [EV_bin]
      rw [(h1.meaning sc).2.value ha, (h2.meaning sc).2.value hb]
      simp only [Ev.bind_ok, hc, if_true, GR_value sc ha, GR_value sc hb]
      rw [limit_eq (pyCompare_Mono op _ _) (by rw [hf]; simp), hf]
      rfl
    exact ⟨by rw [GR_bin, e]; rfl, .inl (e.trans (EV_inert sc rfl).symm)⟩

theorem ReducesL.meaning (sc : Scope) : ∀ {ts us : List Term}, ReducesL ts us → Ev.mapL (GR sc) ts = Ev.mapL (GR sc) us
  | _, _, .nil => rfl
  | _, _, .cons h hs => by rw [Ev.mapL, Ev.mapL, (h.meaning sc).1, hs.meaning sc]
end

/-! ## The visitors -/

/-- The step from folded operands to the result of `visit_binary_op`. -/
structure BinOk (op : BinOp) (l' r' : Ast) (k : Option Ast → Option Ast → Nat → Res Nat (Option Ast)) (isC : ConstV → Prop)
    (o : Option Ast) : Prop where
  out : ∃ a', o = some a' ∧
    (∀ vars L R, Reduces L (l'.build vars) → Reduces R (r'.build vars) → Reduces (.bin op L R) (a'.build vars)) ∧
    a'.names = l'.names ++ r'.names ∧
    ((∃ c, a' = .const c ∧ isC c) ∨ (a' = .bin op l' r' ∧ ∀ s, k (some l') (some r') s = .ok (some (.bin op l' r')) s))

/-- The result is a node with these operands. -/
theorem BinOk.keep {op : BinOp} {l' r' : Ast} {k : Option Ast → Option Ast → Nat → Res Nat (Option Ast)} {isC : ConstV → Prop}
    (hk : ∀ s, k (some l') (some r') s = .ok (some (.bin op l' r')) s) : BinOk op l' r' k isC (some (.bin op l' r')) :=
  ⟨_, rfl, fun _ _ _ hl hr => .bin hl hr, rfl, .inr ⟨rfl, hk⟩⟩

theorem numBin_ok {op : BinOp} (hop : op.numericOp = true) {l r : Ast} {l' r' : Option Ast} {s s' : Nat} {o : Option Ast}
    (h : numBin op l r l' r' s = .ok o s') :
    s ≤ s' ∧ (s' = s → ∀ x y, l' = some x → r' = some y → BinOk op x y (numBin op x y) (∃ q, · = .num q) o) := by
  rw [numBin.eq_def] at h
  split at h
  · rename_i a b
    split at h
    · rename_i p q
      split at h
      · rename_i x hx
        cases h
        refine ⟨Nat.le_refl _, fun _ x y ex ey => ?_⟩
        cases ex; cases ey
        refine ⟨_, rfl, fun vars L R hL hR => .binValue hL hR (by cases op <;> first | rfl | cases hop) ?_, rfl, .inl ⟨_, rfl, _, rfl⟩⟩
        have hb : op.booleanOp = false := by cases op <;> first | rfl | cases hop
        simp [Ast.build, ConstV.term, binFunc, hb, hop, hx]
      · split at h
        · cases h
          exact ⟨by omega, fun e => by omega⟩
        · cases h
    · cases h
  · rename_i hn
    cases h
    refine ⟨Nat.le_refl _, fun _ x y ex ey => ?_⟩
    subst ex; subst ey
    refine BinOk.keep fun s => ?_
    rw [numBin.eq_def]
    split
    · rename_i a b ea eb; cases ea; cases eb; exact (hn a b rfl rfl).elim
    · rfl

theorem boolBin_ok {op : BinOp} (hop : op.booleanOp = true) {l' r' : Option Ast} {s s' : Nat} {o : Option Ast}
    (h : boolBin op l' r' s = .ok o s') :
    s ≤ s' ∧ (s' = s → ∀ x y, l' = some x → r' = some y → BinOk op x y (boolBin op) (∃ b, · = .bool b) o) := by
  rw [boolBin.eq_def] at h
  split at h
  · rename_i a b
    cases h
    refine ⟨Nat.le_refl _, fun _ x y ex ey => ?_⟩
    cases ex; cases ey
    refine ⟨_, rfl, fun vars L R hL hR => .binValue hL hR (by cases op <;> first | rfl | cases hop) ?_, rfl, .inl ⟨_, rfl, _, rfl⟩⟩
    simp [Ast.build, ConstV.term, binFunc, hop]
  · rename_i hn
    cases h
    refine ⟨Nat.le_refl _, fun _ x y ex ey => ?_⟩
    subst ex; subst ey
    refine BinOk.keep fun s => ?_
    rw [boolBin.eq_def]
    split
    · rename_i a b ea eb; cases ea; cases eb; exact (hn a b rfl rfl).elim
    · rfl

theorem compBin_ok {op : BinOp} (hop : op.compOp = true) {l' r' : Option Ast} {s s' : Nat} {o : Option Ast}
    (h : compBin op l' r' s = .ok o s') :
    s ≤ s' ∧ (s' = s → ∀ x y, l' = some x → r' = some y → BinOk op x y (compBin op) (∃ b, · = .bool b) o) := by
  have value : ∀ (a b : ConstV), a.term.isValue = true → b.term.isValue = true → l' = some (.const a) → r' = some (.const b) →
      Res.lift ((pyCompare 1 op a.term b.term).map fun x => some (.const (.bool x))) s = .ok o s' →
      s ≤ s' ∧ (s' = s → ∀ x y, l' = some x → r' = some y → BinOk op x y (compBin op) (∃ b, · = .bool b) o) := by
    intro a b ha hb el er h0
    subst el; subst er
    obtain ⟨h1, rfl⟩ := Res.lift_eq_ok.1 h0
    obtain ⟨x, hx, rfl⟩ := Ev.map_eq_ok.1 h1
    refine ⟨Nat.le_refl _, fun _ x y ex ey => ?_⟩
    cases ex; cases ey
    exact ⟨_, rfl, fun vars L R hL hR => .compValue hL hR ha hb hop hx, rfl, .inl ⟨_, rfl, _, rfl⟩⟩
  rw [compBin.eq_def] at h
  split at h
  · split at h
    · exact value _ _ rfl rfl rfl rfl h
    · cases h
  · exact value _ _ rfl rfl rfl rfl h
  · exact value _ _ rfl rfl rfl rfl h
  · rename_i hn1 hn2 hn3
    cases h
    refine ⟨Nat.le_refl _, fun _ x y ex ey => ?_⟩
    subst ex; subst ey
    refine BinOk.keep fun s => ?_
    rw [compBin.eq_def]
    split
    · rename_i a b ea eb; cases ea; cases eb; exact (hn1 a b rfl rfl).elim
    · rename_i a b ea eb; cases ea; cases eb; exact (hn2 a b rfl rfl).elim
    · rename_i a b ea eb; cases ea; cases eb; exact (hn3 a b rfl rfl).elim
    · rfl

/-- What folding without errors does. -/
def FoldOk (v : Visitor) (a : Ast) (o : Option Ast) : Prop :=
  ∃ a', o = some a' ∧ (∀ vars, Reduces (a.build vars) (a'.build vars)) ∧ a'.names = a.names ∧
    ∀ s, fold v a' s = .ok (some a') s

def FoldLOk (as : List Ast) (o : Option (List Ast)) : Prop :=
  ∃ as', o = some as' ∧ (∀ vars, ReducesL (Ast.builds vars as) (Ast.builds vars as')) ∧ Ast.namesL as' = Ast.namesL as ∧
    ∀ s, foldL as' s = .ok (some as') s

/-- Folding two operands. -/
theorem fold_two {v : Visitor} {l r : Ast} {k : Option Ast → Option Ast → Nat → Res Nat (Option Ast)} {s s' : Nat} {o : Option Ast}
    (il : ∀ s o s', fold v l s = .ok o s' → s ≤ s' ∧ (s' = s → FoldOk v l o))
    (ir : ∀ s o s', fold v r s = .ok o s' → s ≤ s' ∧ (s' = s → FoldOk v r o))
    (h : ((fold v l s).bind fun l' s => (fold v r s).bind fun r' s => k l' r' s) = .ok o s') :
    ∃ l' r' s2, k l' r' s2 = .ok o s' ∧ s ≤ s2 ∧ (s2 = s → FoldOk v l l' ∧ FoldOk v r r') := by
  obtain ⟨l', s1, h1, h2⟩ := Res.bind_eq_ok.1 h
  obtain ⟨r', s2, h3, h4⟩ := Res.bind_eq_ok.1 h2
  obtain ⟨a1, a2⟩ := il _ _ _ h1
  obtain ⟨b1, b2⟩ := ir _ _ _ h3
  exact ⟨l', r', s2, h4, by omega, fun e => ⟨a2 (by omega), b2 (by omega)⟩⟩

theorem fold_const_bool {v : Visitor} (h : v ≠ .num) (b : Bool) (s : Nat) :
    fold v (.const (.bool b)) s = .ok (some (.const (.bool b))) s := by
  cases v <;> first | rfl | exact absurd rfl h

theorem fold_const_num {v : Visitor} (h : v ≠ .bool) (h' : v ≠ .logical) (q : FloatV) (s : Nat) :
    fold v (.const (.num q)) s = .ok (some (.const (.num q))) s := by
  cases v <;> first | rfl | exact absurd rfl h | exact absurd rfl h'

/-- The result of a visitor, from that of the operands. -/
theorem fold_bin {v w : Visitor} {op : BinOp} {l r : Ast} {k : Ast → Ast → Option Ast → Option Ast → Nat → Res Nat (Option Ast)}
    {isC : ConstV → Prop}
    (il : ∀ s o s', fold w l s = .ok o s' → s ≤ s' ∧ (s' = s → FoldOk w l o))
    (ir : ∀ s o s', fold w r s = .ok o s' → s ≤ s' ∧ (s' = s → FoldOk w r o))
    (def_ : ∀ l r s, fold v (.bin op l r) s = (fold w l s).bind fun l' s => (fold w r s).bind fun r' s => k l r l' r' s)
    (hk : ∀ {l r l' r' s o s'}, k l r l' r' s = .ok o s' →
      s ≤ s' ∧ (s' = s → ∀ x y, l' = some x → r' = some y → BinOk op x y (k x y) isC o))
    (hc : ∀ c s, isC c → fold v (.const c) s = .ok (some (.const c)) s) {s s' : Nat} {o : Option Ast}
    (h : fold v (.bin op l r) s = .ok o s') : s ≤ s' ∧ (s' = s → FoldOk v (.bin op l r) o) := by
  rw [def_] at h
  obtain ⟨l', r', s2, h1, hs, h2⟩ := fold_two (k := k l r) il ir h
  obtain ⟨hs2, h3⟩ := hk h1
  refine ⟨by omega, fun e => ?_⟩
  obtain ⟨⟨x, rfl, rx, nx, fx⟩, y, rfl, ry, ny, fy⟩ := h2 (by omega)
  obtain ⟨a', ho, hr, hn, ha⟩ := (h3 (by omega) x y rfl rfl).out
  refine ⟨a', ho, fun vars => hr vars _ _ (rx vars) (ry vars), by rw [hn, nx, ny]; rfl, fun s => ?_⟩
  rcases ha with ⟨c, rfl, hc'⟩ | ⟨rfl, hk'⟩
  · exact hc c s hc'
  · rw [def_, fx]
    show (fold w y s).bind _ = _
    rw [fy]
    exact hk' s

theorem rebuild_ok {op : BinOp} {l' r' : Option Ast} {s s' : Nat} {o : Option Ast}
    (h : Res.ok (rebuild op l' r') s = (.ok o s' : Res Nat (Option Ast))) :
    s ≤ s' ∧ (s' = s → ∀ x y, l' = some x → r' = some y →
      BinOk op x y (fun l' r' s => .ok (rebuild op l' r') s) (fun _ => False) o) := by
  cases h
  refine ⟨Nat.le_refl _, fun _ x y ex ey => ?_⟩
  subst ex; subst ey
  exact BinOk.keep fun s => rfl

omit [Arith] in
theorem logError_ok {a o : Option Ast} {s s' : Nat} {P : Prop} (h : logError a s = .ok o s') : s ≤ s' ∧ (s' = s → P) := by
  cases h
  exact ⟨by omega, fun e => by omega⟩

theorem foldUn_ok {op : UnOp} {a' : Ast} {s s' : Nat} {o : Option Ast} (h : foldUn op (some a') s = .ok o s') :
    s' = s ∧ ∃ b, o = some b ∧ (∀ vars T, Reduces T (a'.build vars) → Reduces (.un op T) (b.build vars)) ∧ b.names = a'.names ∧
      ((∃ x, b = .const (.bool x) ∧ op.booleanOp = true) ∨ (∃ q, b = .const (.num q) ∧ op.numericOp = true) ∨
        (b = .un op a' ∧ ∀ s, foldUn op (some a') s = .ok (some (.un op a')) s)) := by
  rw [foldUn.eq_def] at h
  split at h
  · rename_i b ea
    cases ea; cases h
    exact ⟨rfl, _, rfl, fun vars T hT => .unValue hT rfl, rfl, .inl ⟨_, rfl, rfl⟩⟩
  · rename_i q ea
    cases ea; cases h
    exact ⟨rfl, _, rfl, fun vars T hT => .unValue hT rfl, rfl, .inr (.inl ⟨_, rfl, rfl⟩)⟩
  · rename_i q ea
    cases ea; cases h
    exact ⟨rfl, _, rfl, fun vars T hT => .unValue hT rfl, rfl, .inr (.inl ⟨_, rfl, rfl⟩)⟩
  · cases h
  · cases h
  · rename_i h1 h2 h3 h4 h5
    cases h
    refine ⟨rfl, _, rfl, fun vars T hT => .un hT, rfl, .inr (.inr ⟨rfl, fun s => ?_⟩)⟩
    rw [foldUn.eq_def]
    split
    · rename_i b ea; cases ea; exact (h1 _ rfl rfl).elim
    · rename_i b ea; cases ea; exact (h2 _ rfl rfl).elim
    · rename_i b ea; cases ea; exact (h3 _ rfl rfl).elim
    · rename_i ea; cases ea; exact (h4 rfl rfl).elim
    · rename_i ea; cases ea; exact (h5 rfl rfl).elim
    · rfl

theorem fold_un {v w : Visitor} {op : UnOp} {a : Ast}
    (ia : ∀ s o s', fold w a s = .ok o s' → s ≤ s' ∧ (s' = s → FoldOk w a o))
    (def_ : ∀ a s, fold v (.un op a) s = (fold w a s).bind (foldUn op))
    (hb : op.booleanOp = true → v ≠ .num) (hn : op.numericOp = true → v ≠ .bool ∧ v ≠ .logical) {s s' : Nat} {o : Option Ast}
    (h : fold v (.un op a) s = .ok o s') : s ≤ s' ∧ (s' = s → FoldOk v (.un op a) o) := by
  rw [def_] at h
  obtain ⟨a', s1, h1, h2⟩ := Res.bind_eq_ok.1 h
  obtain ⟨i1, i2⟩ := ia _ _ _ h1
  have le : s1 ≤ s' := by
    rw [foldUn.eq_def] at h2
    split at h2 <;> first | (cases h2; exact Nat.le_refl _) | cases h2
  refine ⟨by omega, fun e => ?_⟩
  obtain ⟨x, rfl, rx, nx, fx⟩ := i2 (by omega)
  obtain ⟨-, b, rfl, hr, hnm, hx⟩ := foldUn_ok h2
  refine ⟨b, rfl, fun vars => hr vars _ (rx vars), by rw [hnm, nx]; rfl, fun s => ?_⟩
  rcases hx with ⟨y, rfl, hy⟩ | ⟨y, rfl, hy⟩ | ⟨rfl, hk⟩
  · exact fold_const_bool (hb hy) y s
  · exact fold_const_num (hn hy).1 (hn hy).2 y s
  · rw [def_, fx]
    exact hk s

mutual
/-- Folding counts errors up; without errors it only replaces constant expressions. -/
theorem fold_ok : ∀ (a : Ast) (v : Visitor) (s : Nat) (o : Option Ast) (s' : Nat), fold v a s = .ok o s' →
    s ≤ s' ∧ (s' = s → FoldOk v a o)
  | .bin op l r, v, s, o, s', h => by
    by_cases hw : v.forBin op = .num
    · have hv : v ≠ .bool ∧ v ≠ .logical := by cases v <;> first | exact ⟨by decide, by decide⟩ | cases hw
      cases hop : op.numericOp with
      | true =>
        refine fold_bin (w := .num) (k := numBin op) (isC := (∃ q, · = .num q)) (fold_ok l .num) (fold_ok r .num) (fun l r s => ?_) (fun h => numBin_ok hop h) ?_ h
        · rw [fold.eq_def]; simp only [hw, hop, if_true]
        · rintro _ s ⟨q, rfl⟩
          exact fold_const_num hv.1 hv.2 q s
      | false =>
        rw [fold.eq_def] at h
        simp only [hw, hop] at h
        exact logError_ok h
    · have hv : v ≠ .num := by rintro rfl; exact hw rfl
      by_cases hq : v.forBin op = .logical ∧ op.queryOp = true ∧ ¬ op.booleanOp = true
      · refine fold_bin (w := .term) (k := fun _ _ l' r' s => .ok (rebuild op l' r') s) (isC := fun _ => False) (fold_ok l .term) (fold_ok r .term)
          (fun l r s => ?_) (fun h => rebuild_ok h) (fun c s hc => hc.elim) h
        rw [fold.eq_def]
        simp only
        rw [if_pos hq]
      · by_cases hb : op.booleanOp = true
        · refine fold_bin (w := v.forBin op) (k := fun _ _ => boolBin op) (isC := (∃ b, · = .bool b)) (fold_ok l _) (fold_ok r _)
            (fun l r s => ?_) (fun h => boolBin_ok hb h) ?_ h
          · rw [fold.eq_def]
            simp only
            rw [if_neg hq, if_pos hb]
          · rintro _ s ⟨b, rfl⟩
            exact fold_const_bool hv b s
        · by_cases hc : op.compOp = true
          · refine fold_bin (w := .term) (k := fun _ _ => compBin op) (isC := (∃ b, · = .bool b)) (fold_ok l _) (fold_ok r _)
              (fun l r s => ?_) (fun h => compBin_ok hc h) ?_ h
            · rw [fold.eq_def]
              simp only
              rw [if_neg hq, if_neg hb, if_pos hc]
            · rintro _ s ⟨b, rfl⟩
              exact fold_const_bool hv b s
          · rw [fold.eq_def] at h
            simp only at h
            rw [if_neg hq, if_neg hb, if_neg hc] at h
            exact logError_ok h
  | .un op a, v, s, o, s', h => by
    by_cases hw : v.forUn op = .num
    · cases hop : op.numericOp with
      | true =>
        refine fold_un (w := .num) (fold_ok a _) (fun a s => ?_) ?_ ?_ h
        · rw [fold.eq_def]; simp only [hw, hop, if_true]
        · intro hb; cases op <;> first | (cases hb; done) | (cases hop; done)
        · intro _; cases v <;> first | exact ⟨by decide, by decide⟩ | cases hw
      | false =>
        rw [fold.eq_def] at h
        simp only [hw, hop] at h
        exact logError_ok h
    · by_cases hb : op.booleanOp = true
      · refine fold_un (w := v.forUn op) (fold_ok a _) (fun a s => ?_) ?_ ?_ h
        · rw [fold.eq_def]
          simp only
          rw [if_pos hb]
        · rintro _ rfl; exact hw rfl
        · intro hn; cases op <;> first | (cases hb; done) | (cases hn; done)
      · rw [fold.eq_def] at h
        simp only at h
        rw [if_neg hb] at h
        exact logError_ok h
  | .var x, v, s, o, s', h => by
    rw [fold] at h
    cases h
    exact ⟨Nat.le_refl _, fun _ => ⟨_, rfl, fun vars => .refl _, rfl, fun s => by rw [fold]⟩⟩
  | .const c, v, s, o, s', h => by
    have keep : (∀ s, fold v (.const c) s = .ok (some (.const c)) s) → s ≤ s' ∧ (s' = s → FoldOk v (.const c) o) := by
      intro hk
      rw [hk] at h
      cases h
      exact ⟨Nat.le_refl _, fun _ => ⟨_, rfl, fun vars => .refl _, rfl, hk⟩⟩
    cases v <;> cases c <;> first | exact keep fun s => rfl | exact logError_ok h
  | .lit f ts as, v, s, o, s', h => by
    have terms : (∀ ts as s, fold v (.lit f ts as) s = (foldL ts s).bind fun ts' s => (foldL as s).bind fun as' s =>
        .ok (ts'.bind fun ts' => as'.map fun as' => .lit f ts' as') s) → s ≤ s' ∧ (s' = s → FoldOk v (.lit f ts as) o) := by
      intro hd
      rw [hd] at h
      obtain ⟨ts', s1, h1, h2⟩ := Res.bind_eq_ok.1 h
      obtain ⟨as', s2, h3, h4⟩ := Res.bind_eq_ok.1 h2
      cases h4
      obtain ⟨a1, a2⟩ := foldL_ok ts _ _ _ h1
      obtain ⟨b1, b2⟩ := foldL_ok as _ _ _ h3
      refine ⟨by omega, fun e => ?_⟩
      obtain ⟨x, rfl, rx, nx, fx⟩ := a2 (by omega)
      obtain ⟨y, rfl, ry, ny, fy⟩ := b2 (by omega)
      refine ⟨_, rfl, fun vars => .lit (rx vars) (ry vars), by simp only [Ast.names, nx, ny], fun s => ?_⟩
      rw [hd, fx]
      show (foldL y s).bind _ = _
      rw [fy]
      rfl
    cases v <;> first | exact terms fun ts as s => rfl | exact logError_ok h
  | .list ts, v, s, o, s', h => by
    have terms : (∀ ts s, fold v (.list ts) s = (foldL ts s).bind fun ts' s => .ok (ts'.map .list) s) →
        s ≤ s' ∧ (s' = s → FoldOk v (.list ts) o) := by
      intro hd
      rw [hd] at h
      obtain ⟨ts', s1, h1, h2⟩ := Res.bind_eq_ok.1 h
      cases h2
      obtain ⟨a1, a2⟩ := foldL_ok ts _ _ _ h1
      refine ⟨by omega, fun e => ?_⟩
      obtain ⟨x, rfl, rx, nx, fx⟩ := a2 (by omega)
      refine ⟨_, rfl, fun vars => .tup (rx vars), by simp only [Ast.names, nx], fun s => ?_⟩
      rw [hd, fx]
      rfl
    cases v <;> first | exact terms fun ts s => rfl | exact logError_ok h
  | .linked hd tl, v, s, o, s', h => by
    by_cases hv : v = .term
    · subst hv
      rw [fold] at h
      obtain ⟨h', s1, h1, h2⟩ := Res.bind_eq_ok.1 h
      obtain ⟨t', s2, h3, h4⟩ := Res.bind_eq_ok.1 h2
      cases h4
      obtain ⟨a1, a2⟩ := fold_ok hd _ _ _ _ h1
      obtain ⟨b1, b2⟩ := fold_ok tl _ _ _ _ h3
      refine ⟨by omega, fun e => ?_⟩
      obtain ⟨x, rfl, rx, nx, fx⟩ := a2 (by omega)
      obtain ⟨y, rfl, ry, ny, fy⟩ := b2 (by omega)
      refine ⟨_, rfl, fun vars => .cons (rx vars) (ry vars), by simp only [Ast.names, nx, ny], fun s => ?_⟩
      rw [fold, fx]
      show (fold .term y s).bind _ = _
      rw [fy]
      rfl
    · cases v <;> first | exact absurd rfl hv | cases h

theorem foldL_ok : ∀ (as : List Ast) (s : Nat) (o : Option (List Ast)) (s' : Nat), foldL as s = .ok o s' →
    s ≤ s' ∧ (s' = s → FoldLOk as o)
  | [], s, o, s', h => by
    rw [foldL] at h
    cases h
    exact ⟨Nat.le_refl _, fun _ => ⟨_, rfl, fun vars => .nil, rfl, fun s => by rw [foldL]⟩⟩
  | a :: as, s, o, s', h => by
    rw [foldL] at h
    obtain ⟨a', s1, h1, h2⟩ := Res.bind_eq_ok.1 h
    obtain ⟨as', s2, h3, h4⟩ := Res.bind_eq_ok.1 h2
    cases h4
    obtain ⟨a1, a2⟩ := fold_ok a _ _ _ _ h1
    obtain ⟨b1, b2⟩ := foldL_ok as _ _ _ h3
    refine ⟨by omega, fun e => ?_⟩
    obtain ⟨x, rfl, rx, nx, fx⟩ := a2 (by omega)
    obtain ⟨y, rfl, ry, ny, fy⟩ := b2 (by omega)
    refine ⟨_, rfl, fun vars => .cons (rx vars) (ry vars), by simp only [Ast.namesL, nx, ny], fun s => ?_⟩
    rw [foldL, fx]
    show (foldL y s).bind _ = _
    rw [fy]
    rfl
end

end

end Verif
