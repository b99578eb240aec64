import Verif.Spec.Build
import Verif.Lemmas.Validate

/-!
# Lemmas about building programs
-/

namespace Verif

/-! ## Tables of variables -/

/-- `_` is the wildcard, all other names have different variables, between the bounds. -/
structure VTab.WF (lo : Nat) (t : VTab) : Prop where
  wild : ∀ v, t.names.lookup ['_'] = some v → v = .wild
  var : ∀ x v, x ≠ ['_'] → t.names.lookup x = some v → ∃ n : Nat, v = .var n ∧ lo ≤ n ∧ n < t.next
  inj : ∀ x y (n : Nat), t.names.lookup x = some (.var n) → t.names.lookup y = some (.var n) → x = y
  le : lo ≤ t.next
  keys : (t.names.map (·.1)).Nodup

/-- A later table. -/
structure VTab.Ext (t t' : VTab) : Prop where
  keep : ∀ x v, t.names.lookup x = some v → t'.names.lookup x = some v
  new : ∀ x (n : Nat), t'.names.lookup x = some (.var n) → t.names.lookup x = some (.var n) ∨ t.next ≤ n
  le : t.next ≤ t'.next

theorem VTab.Ext.refl (t : VTab) : t.Ext t := ⟨fun _ _ h => h, fun _ _ h => .inl h, Nat.le_refl _⟩

theorem VTab.Ext.trans {t u v : VTab} (h : t.Ext u) (h' : u.Ext v) : t.Ext v where
  keep x w e := h'.keep x w (h.keep x w e)
  new x n e := by
    rcases h'.new x n e with e | e
    · exact h.new x n e
    · exact .inr (Nat.le_trans h.le e)
  le := Nat.le_trans h.le h'.le

/-- A naming that has all the items of a table. -/
def Agrees (vars : List Char → Term) (t : VTab) : Prop := ∀ x v, t.names.lookup x = some v → vars x = v

theorem Agrees.mono {vars : List Char → Term} {t t' : VTab} (h : Agrees vars t') (e : t.Ext t') : Agrees vars t :=
  fun x v hx => h x v (e.keep x v hx)

/-- What is known after a step. -/
structure VTab.Step (lo : Nat) (t t' : VTab) : Prop where
  wf : t'.WF lo
  ext : t.Ext t'

theorem VTab.get_spec {lo : Nat} {t t' : VTab} {x : List Char} {v : Term} (wf : t.WF lo) (h : t.get x = (v, t')) :
    VTab.Step lo t t' ∧ t'.names.lookup x = some v := by
  rw [VTab.get] at h
  split at h
  · rename_i w hw
    cases h
    exact ⟨⟨wf, .refl _⟩, hw⟩
  · rename_i hw
    have key : ∀ (ys : List (List Char × Term)) (y : List Char) (u : Term), ((x, u) :: ys).lookup y = if y = x then some u else ys.lookup y := by
      intro ys y u
      rw [List.lookup_cons]
      by_cases e : y = x
      · simp [e]
      · simp [e, beq_eq_false_iff_ne.2 e]
    have keys : x ∉ t.names.map (·.1) := by
      intro hk
      obtain ⟨p, hp, e⟩ := List.mem_map.1 hk
      have := List.lookup_eq_none_iff.1 hw p hp
      simp [e] at this
    split at h
    · rename_i hx
      cases h
      subst hx
      refine ⟨⟨⟨fun v => ?_, fun y v => ?_, fun y z n => ?_, wf.le, List.nodup_cons.2 ⟨keys, wf.keys⟩⟩, fun y v => ?_, fun y n => ?_, Nat.le_refl _⟩, by simp [key]⟩
      · rw [key, if_pos rfl]
        intro e
        cases e
        rfl
      · intro hy
        rw [key, if_neg hy]
        exact wf.var y v hy
      · rw [key, key]
        split
        · intro e; cases e
        · split
          · intro _ e; cases e
          · exact wf.inj y z n
      · intro e
        rw [key, if_neg]
        · exact e
        · rintro rfl
          rw [hw] at e
          cases e
      · rw [key]
        split
        · intro e; cases e
        · exact .inl
    · rename_i hx
      cases h
      refine ⟨⟨⟨fun v => ?_, fun y v => ?_, fun y z n => ?_, Nat.le_succ_of_le wf.le, List.nodup_cons.2 ⟨keys, wf.keys⟩⟩, fun y v => ?_, fun y n => ?_, Nat.le_succ _⟩, by simp [key]⟩
      · rw [key, if_neg (Ne.symm hx)]
        exact wf.wild v
      · intro hy
        rw [key]
        split
        · intro e
          cases e
          exact ⟨_, rfl, wf.le, Nat.lt_succ_self _⟩
        · intro e
          obtain ⟨n, e, h1, h2⟩ := wf.var y v hy e
          exact ⟨n, e, h1, Nat.lt_succ_of_lt h2⟩
      · rw [key, key]
        have old : ∀ w, t.names.lookup w ≠ some (.var t.next) := by
          intro w e
          by_cases hw : w = ['_']
          · subst hw
            cases wf.wild _ e
          · obtain ⟨n, e, -, h2⟩ := wf.var w _ hw e
            cases e
            exact absurd h2 (Nat.lt_irrefl _)
        split
        · rename_i e1
          intro e
          cases e
          split
          · rename_i e2
            intro _
            rw [e1, e2]
          · intro e
            exact absurd e (old z)
        · intro e
          split
          · intro e'
            cases e'
            exact absurd e (old y)
          · exact wf.inj y z n e
      · intro e
        rw [key, if_neg]
        · exact e
        · rintro rfl
          rw [hw] at e
          cases e
      · rw [key]
        split
        · intro e
          cases e
          exact .inr (Nat.le_refl _)
        · exact .inl

/-- What a term is, given the names. -/
def patOf (pat : Bool) (t : Term) : Term := if pat then t.replacePattern 0 else t

def patsOf (pat : Bool) (ts : List Term) : List Term := if pat then Term.replacePatternL 0 ts else ts

mutual
theorem makeTerm_spec {lo : Nat} {pat : Bool} : ∀ (a : Ast) {t t' : VTab} {x : Term}, t.WF lo → makeTerm pat a t = (x, t') →
    VTab.Step lo t t' ∧ ∀ vars, Naming vars → Agrees vars t' → x = patOf pat (a.build vars)
  | .const v, t, t', x, wf, h => by
    rw [makeTerm] at h
    cases h
    refine ⟨⟨wf, .refl _⟩, fun vars _ _ => ?_⟩
    cases v with
    | bool b => cases pat <;> rfl
    | num q => cases q <;> cases pat <;> rfl
    | str s => cases pat <;> rfl
  | .var y, t, t', x, wf, h => by
    rw [makeTerm] at h
    obtain ⟨hs, hx⟩ := VTab.get_spec wf h
    refine ⟨hs, fun vars hn ha => ?_⟩
    rw [Ast.build, ha _ _ hx, patOf]
    by_cases hy : y = ['_']
    · subst hy
      rw [hs.wf.wild _ hx]
      cases pat <;> rfl
    · obtain ⟨n, rfl, -⟩ := hs.wf.var y _ hy hx
      cases pat
      · rfl
      · simp [Term.replacePattern]
  | .lit f ts as, t, t', x, wf, h => by
    rw [makeTerm] at h
    cases h1 : makeTerms pat ts t with
    | mk us t1 =>
    cases h2 : makeTerms pat as t1 with
    | mk bs t2 =>
    simp only [h1, h2] at h
    cases h
    obtain ⟨s1, e1⟩ := makeTerms_spec ts wf h1
    obtain ⟨s2, e2⟩ := makeTerms_spec as s1.wf h2
    refine ⟨⟨s2.wf, s1.ext.trans s2.ext⟩, fun vars hn ha => ?_⟩
    rw [Ast.build, e1 vars hn (ha.mono s2.ext), e2 vars hn ha]
    cases pat <;> rfl
  | .list ts, t, t', x, wf, h => by
    rw [makeTerm] at h
    cases h1 : makeTerms pat ts t with
    | mk us t1 =>
    simp only [h1] at h
    cases h
    obtain ⟨s1, e1⟩ := makeTerms_spec ts wf h1
    refine ⟨s1, fun vars hn ha => ?_⟩
    rw [Ast.build, e1 vars hn ha]
    cases pat <;> rfl
  | .linked a b, t, t', x, wf, h => by
    rw [makeTerm] at h
    cases h1 : makeTerm pat a t with
    | mk us t1 =>
    cases h2 : makeTerm pat b t1 with
    | mk bs t2 =>
    simp only [h1, h2] at h
    cases h
    obtain ⟨s1, e1⟩ := makeTerm_spec a wf h1
    obtain ⟨s2, e2⟩ := makeTerm_spec b s1.wf h2
    refine ⟨⟨s2.wf, s1.ext.trans s2.ext⟩, fun vars hn ha => ?_⟩
    rw [Ast.build, e1 vars hn (ha.mono s2.ext), e2 vars hn ha]
    cases pat <;> rfl
  | .un op a, t, t', x, wf, h => by
    rw [makeTerm] at h
    cases pat with
    | true =>
      cases h
      exact ⟨⟨wf, .refl _⟩, fun vars hn ha => rfl⟩
    | false =>
      cases h1 : makeTerm false a t with
      | mk us t1 =>
      simp only [h1] at h
      cases h
      obtain ⟨s1, e1⟩ := makeTerm_spec a wf h1
      refine ⟨s1, fun vars hn ha => ?_⟩
      rw [Ast.build, e1 vars hn ha]
      rfl
  | .bin op a b, t, t', x, wf, h => by
    rw [makeTerm] at h
    cases pat with
    | true =>
      cases h
      exact ⟨⟨wf, .refl _⟩, fun vars hn ha => rfl⟩
    | false =>
      cases h1 : makeTerm false a t with
      | mk us t1 =>
      cases h2 : makeTerm false b t1 with
      | mk bs t2 =>
      simp only [h1, h2] at h
      cases h
      obtain ⟨s1, e1⟩ := makeTerm_spec a wf h1
      obtain ⟨s2, e2⟩ := makeTerm_spec b s1.wf h2
      refine ⟨⟨s2.wf, s1.ext.trans s2.ext⟩, fun vars hn ha => ?_⟩
      rw [Ast.build, e1 vars hn (ha.mono s2.ext), e2 vars hn ha]
      rfl
theorem makeTerms_spec {lo : Nat} {pat : Bool} : ∀ (as : List Ast) {t t' : VTab} {xs : List Term}, t.WF lo → makeTerms pat as t = (xs, t') →
    VTab.Step lo t t' ∧ ∀ vars, Naming vars → Agrees vars t' → xs = patsOf pat (Ast.builds vars as)
  | [], t, t', xs, wf, h => by
    rw [makeTerms] at h
    cases h
    exact ⟨⟨wf, .refl _⟩, fun vars _ _ => by cases pat <;> rfl⟩
  | a :: as, t, t', xs, wf, h => by
    rw [makeTerms] at h
    cases h1 : makeTerm pat a t with
    | mk us t1 =>
    cases h2 : makeTerms pat as t1 with
    | mk bs t2 =>
    simp only [h1, h2] at h
    cases h
    obtain ⟨s1, e1⟩ := makeTerm_spec a wf h1
    obtain ⟨s2, e2⟩ := makeTerms_spec as s1.wf h2
    refine ⟨⟨s2.wf, s1.ext.trans s2.ext⟩, fun vars hn ha => ?_⟩
    rw [Ast.builds, e1 vars hn (ha.mono s2.ext), e2 vars hn ha]
    cases pat <;> rfl
end

/-! ## Namings from tables -/

/-- A number for every name. -/
def nameCode : List Char → Nat
  | [] => 0
  | c :: cs => c.toNat + 1 + 1114112 * nameCode cs

theorem toNat_lt (c : Char) : c.toNat < 1114112 := by
  have h := c.valid
  rw [Char.toNat]
  rcases h with h | h <;> simp only [UInt32.toNat] at * <;> omega

theorem nameCode_inj : ∀ {xs ys : List Char}, nameCode xs = nameCode ys → xs = ys
  | [], [], _ => rfl
  | [], y :: ys, h => by simp only [nameCode] at h; omega
  | x :: xs, [], h => by simp only [nameCode] at h; omega
  | x :: xs, y :: ys, h => by
    simp only [nameCode] at h
    have hx := toNat_lt x
    have hy := toNat_lt y
    have e : x.toNat = y.toNat := by omega
    have e' : nameCode xs = nameCode ys := by omega
    rw [nameCode_inj e', Char.toNat_inj.1 e]

/-- The naming of a table: the names that are not in it have variables above `b`. -/
def VTab.naming (t : VTab) (b odd : Nat) (x : List Char) : Term :=
  if x = ['_'] then .wild else (t.names.lookup x).getD (.var (b + 2 * nameCode x + odd))

theorem VTab.naming_agrees {lo : Nat} {t : VTab} (wf : t.WF lo) (b odd : Nat) : Agrees (t.naming b odd) t := by
  intro x v h
  rw [VTab.naming]
  split
  · rename_i hx
    subst hx
    exact (wf.wild v h).symm
  · rw [h]
    rfl

/-- The variable of a name. -/
theorem VTab.naming_var {lo : Nat} {t : VTab} (wf : t.WF lo) {b odd : Nat} {x : List Char} {n : Nat} (h : t.naming b odd x = .var n) :
    (t.names.lookup x = some (.var n) ∧ lo ≤ n ∧ n < t.next) ∨ (t.names.lookup x = none ∧ n = b + 2 * nameCode x + odd) := by
  rw [VTab.naming] at h
  split at h
  · cases h
  · rename_i hx
    cases hl : t.names.lookup x with
    | none =>
      rw [hl] at h
      cases h
      exact .inr ⟨rfl, rfl⟩
    | some v =>
      rw [hl] at h
      cases h
      obtain ⟨m, e, h1, h2⟩ := wf.var x _ hx hl
      cases e
      exact .inl ⟨rfl, h1, h2⟩

theorem VTab.naming_ok {lo : Nat} {t : VTab} (wf : t.WF lo) {b : Nat} (hb : t.next ≤ b) (odd : Nat) : Naming (t.naming b odd) where
  wild := by rw [VTab.naming, if_pos rfl]
  var x hx := by
    rw [VTab.naming, if_neg hx]
    cases hl : t.names.lookup x with
    | none => exact ⟨_, rfl⟩
    | some v =>
      obtain ⟨m, e, -⟩ := wf.var x _ hx hl
      exact ⟨m, e⟩
  inj x y n ex ey := by
    rcases VTab.naming_var wf ex with ⟨h1, -, h2⟩ | ⟨h1, h2⟩ <;> rcases VTab.naming_var wf ey with ⟨h3, -, h4⟩ | ⟨h3, h4⟩
    · exact wf.inj x y n h1 h3
    · omega
    · omega
    · exact nameCode_inj (by omega)

theorem VTab.WF.empty (k : Nat) : VTab.WF k { next := k } where
  wild v h := by cases h
  var x v _ h := by cases h
  inj x y n h := by cases h
  le := Nat.le_refl _
  keys := .nil

/-! ## Queries -/

/-- A naming for the whole clause, seen from a table in the middle: names that are not in the
table get variables that do not exist yet; those above `b` are even. -/
structure Final (vars : List Char → Term) (b : Nat) (t : VTab) : Prop where
  naming : Naming vars
  agrees : Agrees vars t
  new : ∀ x (n : Nat), vars x = .var n → t.names.lookup x = some (.var n) ∨ t.next ≤ n
  high : ∀ x (n : Nat), vars x = .var n → n < b ∨ ∃ k, n = b + 2 * k
  le : t.next ≤ b

theorem Final.mono {vars : List Char → Term} {b : Nat} {t t' : VTab} (h : Final vars b t') (e : t.Ext t') : Final vars b t where
  naming := h.naming
  agrees := h.agrees.mono e
  new x n hx := by
    rcases h.new x n hx with h' | h'
    · exact e.new x n h'
    · exact .inr (Nat.le_trans e.le h')
  high := h.high
  le := Nat.le_trans e.le h.le

theorem Final.of {t : VTab} (wf : t.WF 0) : Final (t.naming t.next 0) t.next t where
  naming := VTab.naming_ok wf (Nat.le_refl _) 0
  agrees := VTab.naming_agrees wf _ _
  new x n h := by
    rcases VTab.naming_var wf h with h | h
    · exact .inl h.1
    · exact .inr (by omega)
  high x n h := by
    rcases VTab.naming_var wf h with h | h
    · exact .inl h.2.2
    · exact .inr ⟨nameCode x, by omega⟩
  le := Nat.le_refl _

/-- What is known after a step without errors. -/
structure Bld.Step (s s' : Bld) : Prop where
  tab : VTab.Step 0 s.tab s'.tab
  errs : s.errs ≤ s'.errs

theorem Bld.Step.trans {s t u : Bld} (h : Bld.Step s t) (h' : Bld.Step t u) : Bld.Step s u :=
  ⟨⟨h'.tab.wf, h.tab.ext.trans h'.tab.ext⟩, Nat.le_trans h.errs h'.errs⟩

theorem Bld.term_spec {s s' : Bld} {a : Ast} {x : Term} (wf : s.tab.WF 0) (h : s.term a = (x, s')) :
    Bld.Step s s' ∧ s'.errs = s.errs ∧ ∀ vars, Naming vars → Agrees vars s'.tab → x = a.build vars := by
  rw [Bld.term] at h
  cases h1 : makeTerm false a s.tab with
  | mk u t =>
  simp only [h1] at h
  cases h
  obtain ⟨hs, e⟩ := makeTerm_spec a wf h1
  exact ⟨⟨hs, Nat.le_refl _⟩, rfl, fun vars hn ha => e vars hn ha⟩

theorem makeQuery_spec {acts : Lookup} : ∀ (a : Ast) {s s' : Bld} {q : Query Act}, s.tab.WF 0 → makeQuery acts a s = .ok q s' →
    Bld.Step s s' ∧ (s'.errs = s.errs → ∀ vars, Naming vars → Agrees vars s'.tab → QueryOf acts vars a q)
  | .lit f ts as, s, s', q, wf, h => by
    rw [makeQuery] at h
    cases h1 : s.term (.lit f ts as) with
    | mk x t =>
    obtain ⟨hs, he, hx⟩ := Bld.term_spec wf h1
    simp only [h1] at h
    split at h
    · rename_i a ha
      cases h
      refine ⟨hs, fun _ vars hn hv => ?_⟩
      rw [hx vars hn hv]
      exact .act ha
    · rename_i ha
      cases h
      refine ⟨hs, fun _ vars hn hv => ?_⟩
      rw [hx vars hn hv]
      exact .belief ha
  | .const c, s, s', q, wf, h => by
    rw [makeQuery.eq_def] at h
    match c, h with
    | .bool true, h => cases h; exact ⟨⟨⟨wf, .refl _⟩, Nat.le_refl _⟩, fun _ _ _ _ => .tru⟩
    | .bool false, h => cases h; exact ⟨⟨⟨wf, .refl _⟩, Nat.le_refl _⟩, fun _ _ _ _ => .fls⟩
  | .var x, s, s', q, wf, h => by
    rw [makeQuery] at h
    cases h1 : s.term (.var x) with
    | mk u t =>
    obtain ⟨hs, he, hx⟩ := Bld.term_spec wf h1
    simp only [h1] at h
    cases h
    refine ⟨hs, fun _ vars hn hv => ?_⟩
    rw [hx vars hn hv]
    exact .var
  | .list _, s, s', q, wf, h => by cases h
  | .linked _ _, s, s', q, wf, h => by cases h
  | .un op a, s, s', q, wf, h => by
    cases op <;> first | (cases h; done) | skip
    rw [makeQuery] at h
    obtain ⟨p, s1, h1, h2⟩ := Res.bind_eq_ok.1 h
    cases h2
    obtain ⟨hs, hq⟩ := makeQuery_spec a wf h1
    exact ⟨hs, fun e vars hn hv => .not (hq e vars hn hv)⟩
  | .bin op l r, s, s', q, wf, h => by
    have other : ∀ (op : BinOp), op ≠ .and → op ≠ .or → op ≠ .unify → makeQuery acts (.bin op l r) s = .ok q s' →
        Bld.Step s s' ∧ (s'.errs = s.errs → ∀ vars, Naming vars → Agrees vars s'.tab → QueryOf acts vars (.bin op l r) q) := by
      intro op h1 h2 h3 h
      have h : (let s := if op.compOp then s else { s with errs := s.errs + 1 }
          let (x, s) := s.term (.bin op l r)
          Res.ok (Query.term x) s) = .ok q s' := by
        cases op <;> first | exact h | exact absurd rfl h1 | exact absurd rfl h2 | exact absurd rfl h3
      by_cases hc : op.compOp = true
      · simp only [hc, if_true] at h
        cases h4 : s.term (.bin op l r) with
        | mk u t =>
        obtain ⟨hs, he, hx⟩ := Bld.term_spec wf h4
        simp only [h4] at h
        cases h
        refine ⟨hs, fun _ vars hn hv => ?_⟩
        rw [hx vars hn hv]
        exact .comp hc
      · simp only [if_neg hc] at h
        cases h4 : Bld.term { s with errs := s.errs + 1 } (.bin op l r) with
        | mk u t =>
        obtain ⟨hs, he, hx⟩ := Bld.term_spec (s := { s with errs := s.errs + 1 }) wf h4
        simp only [h4] at h
        cases h
        simp only at he
        exact ⟨⟨hs.tab, by omega⟩, fun e => by omega⟩
    cases op
    case and | or =>
      rw [makeQuery] at h
      obtain ⟨p, s1, h1, h2⟩ := Res.bind_eq_ok.1 h
      obtain ⟨p', s2, h3, h4⟩ := Res.bind_eq_ok.1 h2
      cases h4
      obtain ⟨hs, hq⟩ := makeQuery_spec l wf h1
      obtain ⟨hs', hq'⟩ := makeQuery_spec r hs.tab.wf h3
      refine ⟨hs.trans hs', fun e vars hn hv => ?_⟩
      have := hs.errs
      have := hs'.errs
      first
        | exact .and (hq (by omega) vars hn (hv.mono hs'.tab.ext)) (hq' (by omega) vars hn hv)
        | exact .or (hq (by omega) vars hn (hv.mono hs'.tab.ext)) (hq' (by omega) vars hn hv)
    case unify =>
      rw [makeQuery] at h
      cases h1 : s.term l with
      | mk u t =>
      cases h2 : t.term r with
      | mk v t' =>
      obtain ⟨hs, he, hx⟩ := Bld.term_spec wf h1
      obtain ⟨hs', he', hx'⟩ := Bld.term_spec hs.tab.wf h2
      simp only [h1, h2] at h
      cases h
      refine ⟨hs.trans hs', fun _ vars hn hv => ?_⟩
      rw [hx vars hn (hv.mono hs'.tab.ext), hx' vars hn hv]
      exact .unify
    all_goals exact other _ (by decide) (by decide) (by decide) h

/-! ## Statements -/

theorem next_wf {t : VTab} {k : Nat} (wf : t.WF 0) (h : t.next ≤ k) : VTab.WF 0 { t with next := k } where
  wild := wf.wild
  var x v hx hv := by
    obtain ⟨n, e, h1, h2⟩ := wf.var x v hx hv
    exact ⟨n, e, h1, Nat.lt_of_lt_of_le h2 h⟩
  inj := wf.inj
  le := Nat.zero_le _
  keys := wf.keys

theorem next_ext {t : VTab} {k : Nat} (h : t.next ≤ k) : VTab.Ext t { t with next := k } := ⟨fun _ _ e => e, fun _ _ e => .inl e, h⟩

/-- A statement with one term. -/
theorem term_stmt {acts : Lookup} {s s' : Bld} {a : Ast} {ty : FType} {f : Term → Stmt} {x : Stmt} (wf : s.tab.WF 0)
    (hf : ∀ vars, StmtOf acts vars (.formula ty a) (f (a.build vars)))
    (h : (let (x, s) := s.term a; Res.ok (f x) s) = .ok x s') :
    Bld.Step s s' ∧ (s'.errs = s.errs → ∀ vars b, Final vars b s'.tab → StmtOf acts vars (.formula ty a) x) := by
  cases h1 : s.term a with
  | mk u t =>
  obtain ⟨hs, he, hx⟩ := Bld.term_spec wf h1
  simp only [h1] at h
  cases h
  refine ⟨hs, fun _ vars b hv => ?_⟩
  rw [hx vars hv.naming hv.agrees]
  exact hf vars

mutual
theorem makeStmt_spec {acts : Lookup} : ∀ (x : AStmt) {s s' : Bld} {y : Stmt}, s.tab.WF 0 → makeStmt acts x s = .ok y s' →
    Bld.Step s s' ∧ (s'.errs = s.errs → ∀ vars b, Final vars b s'.tab → StmtOf acts vars x y)
  | .formula .add a, s, s', y, wf, h => by rw [makeStmt] at h; exact term_stmt wf (fun _ => .add) h
  | .formula .remove a, s, s', y, wf, h => by rw [makeStmt] at h; exact term_stmt wf (fun _ => .remove) h
  | .formula .test a, s, s', y, wf, h => by rw [makeStmt] at h; exact term_stmt wf (fun _ => .test) h
  | .formula .achieve a, s, s', y, wf, h => by rw [makeStmt] at h; exact term_stmt wf (fun _ => .achieve) h
  | .formula .achieveLater a, s, s', y, wf, h => by rw [makeStmt] at h; exact term_stmt wf (fun _ => .achieveLater) h
  | .formula .replace a, s, s', y, wf, h => by
    rw [makeStmt] at h
    cases h1 : makeTerm true a { next := s.tab.next } with
    | mk p t =>
    obtain ⟨hs1, e1⟩ := makeTerm_spec a (VTab.WF.empty s.tab.next) h1
    have hle : s.tab.next ≤ t.next := hs1.ext.le
    simp only [h1] at h
    cases h2 : Bld.term { s with tab := { s.tab with next := t.next } } a with
    | mk u s2 =>
    obtain ⟨hs, he, hx⟩ := Bld.term_spec (s := { s with tab := { s.tab with next := t.next } }) (next_wf wf hle) h2
    simp only [h2] at h
    cases h
    refine ⟨⟨⟨hs.tab.wf, (next_ext hle).trans hs.tab.ext⟩, hs.errs⟩, fun _ vars b hv => ?_⟩
    have hb : t.next ≤ b := Nat.le_trans hs.tab.ext.le hv.le
    rw [hx vars hv.naming hv.agrees, e1 (t.naming b 1) (VTab.naming_ok hs1.wf hb 1) (VTab.naming_agrees hs1.wf b 1)]
    refine .replace (VTab.naming_ok hs1.wf hb 1) fun x z n hn hz => ?_
    rcases VTab.naming_var hs1.wf hn with ⟨-, h3, h4⟩ | ⟨-, h3⟩
    · rcases (hv.mono hs.tab.ext).new z n hz with h5 | h5
      · simp only at h5
        by_cases hz' : z = ['_']
        · subst hz'
          cases wf.wild _ h5
        · obtain ⟨m, e, -, h6⟩ := wf.var z _ hz' h5
          cases e
          omega
      · simp only at h5
        omega
    · rcases hv.high z n hz with h5 | ⟨k, h5⟩ <;> omega
  | .formula .term a, s, s', y, wf, h => by
    rw [makeStmt] at h
    obtain ⟨q, s1, h1, h2⟩ := Res.bind_eq_ok.1 h
    cases h2
    obtain ⟨hs, hq⟩ := makeQuery_spec a wf h1
    exact ⟨hs, fun e vars b hv => .query (hq e vars hv.naming hv.agrees)⟩
  | .for_ a b, s, s', y, wf, h => by
    rw [makeStmt] at h
    obtain ⟨q, s1, h1, h2⟩ := Res.bind_eq_ok.1 h
    obtain ⟨b', s2, h3, h4⟩ := Res.bind_eq_ok.1 h2
    cases h4
    obtain ⟨hs, hq⟩ := makeQuery_spec a wf h1
    obtain ⟨hs', hb⟩ := makeStmts_spec b hs.tab.wf h3
    have := hs.errs
    have := hs'.errs
    exact ⟨hs.trans hs', fun e vars c hv => .for_ (hq (by omega) vars hv.naming (hv.mono hs'.tab.ext).agrees) (hb (by omega) vars c hv)⟩
  | .while_ a b, s, s', y, wf, h => by
    rw [makeStmt] at h
    obtain ⟨q, s1, h1, h2⟩ := Res.bind_eq_ok.1 h
    obtain ⟨b', s2, h3, h4⟩ := Res.bind_eq_ok.1 h2
    cases h4
    obtain ⟨hs, hq⟩ := makeQuery_spec a wf h1
    obtain ⟨hs', hb⟩ := makeStmts_spec b hs.tab.wf h3
    have := hs.errs
    have := hs'.errs
    exact ⟨hs.trans hs', fun e vars c hv => .while_ (hq (by omega) vars hv.naming (hv.mono hs'.tab.ext).agrees) (hb (by omega) vars c hv)⟩
  | .if_ a b, s, s', y, wf, h => by
    rw [makeStmt] at h
    obtain ⟨q, s1, h1, h2⟩ := Res.bind_eq_ok.1 h
    obtain ⟨b', s2, h3, h4⟩ := Res.bind_eq_ok.1 h2
    cases h4
    obtain ⟨hs, hq⟩ := makeQuery_spec a wf h1
    obtain ⟨hs', hb⟩ := makeStmts_spec b hs.tab.wf h3
    have := hs.errs
    have := hs'.errs
    exact ⟨hs.trans hs', fun e vars c hv => .if_ (hq (by omega) vars hv.naming (hv.mono hs'.tab.ext).agrees) (hb (by omega) vars c hv)⟩
  | .ifElse a b c, s, s', y, wf, h => by
    rw [makeStmt] at h
    obtain ⟨q, s1, h1, h2⟩ := Res.bind_eq_ok.1 h
    obtain ⟨b', s2, h3, h4⟩ := Res.bind_eq_ok.1 h2
    obtain ⟨c', s3, h5, h6⟩ := Res.bind_eq_ok.1 h4
    cases h6
    obtain ⟨hs, hq⟩ := makeQuery_spec a wf h1
    obtain ⟨hs', hb⟩ := makeStmts_spec b hs.tab.wf h3
    obtain ⟨hs'', hc⟩ := makeStmts_spec c hs'.tab.wf h5
    have := hs.errs
    have := hs'.errs
    have := hs''.errs
    exact ⟨(hs.trans hs').trans hs'', fun e vars d hv => .ifElse
      (hq (by omega) vars hv.naming ((hv.mono hs''.tab.ext).mono hs'.tab.ext).agrees)
      (hb (by omega) vars d (hv.mono hs''.tab.ext)) (hc (by omega) vars d hv)⟩
theorem makeStmts_spec {acts : Lookup} : ∀ (xs : List AStmt) {s s' : Bld} {ys : List Stmt}, s.tab.WF 0 → makeStmts acts xs s = .ok ys s' →
    Bld.Step s s' ∧ (s'.errs = s.errs → ∀ vars b, Final vars b s'.tab → StmtsOf acts vars xs ys)
  | [], s, s', ys, wf, h => by
    rw [makeStmts] at h
    cases h
    exact ⟨⟨⟨wf, .refl _⟩, Nat.le_refl _⟩, fun _ _ _ _ => .nil⟩
  | x :: xs, s, s', ys, wf, h => by
    rw [makeStmts] at h
    obtain ⟨y, s1, h1, h2⟩ := Res.bind_eq_ok.1 h
    obtain ⟨ys', s2, h3, h4⟩ := Res.bind_eq_ok.1 h2
    cases h4
    obtain ⟨hs, hx⟩ := makeStmt_spec x wf h1
    obtain ⟨hs', hxs⟩ := makeStmts_spec xs hs.tab.wf h3
    have := hs.errs
    have := hs'.errs
    exact ⟨hs.trans hs', fun e vars c hv => .cons (hx (by omega) vars c (hv.mono hs'.tab.ext)) (hxs (by omega) vars c hv)⟩
end

/-! ## Clauses -/

theorem makePlan_spec {acts : Lookup} {text : APlan → String} {p : APlan} {e e' : Nat} {p' : PlanSrc} (h : makePlan acts text p e = .ok p' e') :
    e ≤ e' ∧ (e' = e → BuiltPlan acts p p') := by
  rw [makePlan] at h
  cases h1 : ({ errs := e } : Bld).term p.event.head with
  | mk x s1 =>
  obtain ⟨hs1, he1, hx⟩ := Bld.term_spec (VTab.WF.empty 0) h1
  simp only [h1] at h
  split at h <;> first | (cases h; done) | skip
  rename_i q s2 hq
  cases h
  obtain ⟨c, s3, h3, h4⟩ := Res.bind_eq_ok.1 hq
  obtain ⟨b, s4, h5, h6⟩ := Res.bind_eq_ok.1 h4
  split at h6 <;> cases h6
  have hc : Bld.Step s1 s3 ∧ (s3.errs = s1.errs → ∀ vars, Naming vars → Agrees vars s3.tab →
      (p.context = none → c = .tru) ∧ ∀ c', p.context = some c' → QueryOf acts vars c' c) := by
    cases hpc : p.context with
    | none =>
      rw [hpc] at h3
      cases h3
      exact ⟨⟨⟨hs1.tab.wf, .refl _⟩, Nat.le_refl _⟩, fun _ _ _ _ => ⟨fun _ => rfl, fun _ h => by cases h⟩⟩
    | some c' =>
      rw [hpc] at h3
      obtain ⟨hs, hq⟩ := makeQuery_spec c' hs1.tab.wf h3
      exact ⟨hs, fun e vars hn hv => ⟨fun h => (by cases h), fun _ h => (by cases h; exact hq e vars hn hv)⟩⟩
  have hb : Bld.Step s3 s2 ∧ (s2.errs = s3.errs → ∀ vars k, Final vars k s2.tab →
      (p.body = none → b = []) ∧ ∀ b', p.body = some b' → StmtsOf acts vars b' b) := by
    cases hpb : p.body with
    | none =>
      rw [hpb] at h5
      cases h5
      exact ⟨⟨⟨hc.1.tab.wf, .refl _⟩, Nat.le_refl _⟩, fun _ _ _ _ => ⟨fun _ => rfl, fun _ h => by cases h⟩⟩
    | some b' =>
      rw [hpb] at h5
      obtain ⟨hs, hq⟩ := makeStmts_spec b' hc.1.tab.wf h5
      exact ⟨hs, fun e vars k hv => ⟨fun h => (by cases h), fun _ h => (by cases h; exact hq e vars k hv)⟩⟩
  have l1 := hs1.errs
  have l2 := hc.1.errs
  have l3 := hb.1.errs
  simp only at l1 he1
  refine ⟨by omega, fun e => ?_⟩
  have fin := Final.of hb.1.tab.wf
  have fin3 := fin.mono hb.1.tab.ext
  obtain ⟨c1, c2⟩ := hc.2 (by omega) _ fin3.naming fin3.agrees
  obtain ⟨b1, b2⟩ := hb.2 (by omega) _ _ fin
  refine ⟨_, fin.naming, rfl, rfl, hx _ fin.naming (fin3.mono hc.1.tab.ext).agrees, c1, c2, b1, b2, fun h => ?_, fun f ts as h => ?_⟩
  · simp only [h, Option.map_none]
  · simp only [h, Option.map_some, Ast.functorName]

theorem makeRule_spec {acts : Lookup} {r : ARule} {e e' : Nat} {r' : Rule Act} (h : makeRule acts r e = .ok r' e') :
    e ≤ e' ∧ (e' = e → RuleOf acts r r') := by
  rw [makeRule] at h
  cases h1 : ({ errs := e } : Bld).term r.head with
  | mk x s1 =>
  obtain ⟨hs1, he1, hx⟩ := Bld.term_spec (VTab.WF.empty 0) h1
  simp only [h1] at h
  split at h <;> first | (cases h; done) | skip
  rename_i q s2 hq
  cases h
  obtain ⟨hs, hq⟩ := makeQuery_spec r.consequence hs1.tab.wf hq
  have l1 := hs1.errs
  have l2 := hs.errs
  simp only at l1 he1
  refine ⟨by omega, fun e => ?_⟩
  have fin := Final.of hs.tab.wf
  exact ⟨_, fin.naming, hx _ fin.naming (fin.mono hs.tab.ext).agrees, hq (by omega) _ fin.naming fin.agrees⟩

theorem makeFact_spec (a : Ast) : FactOf a (makeTerm false a {}).1 := by
  cases h : makeTerm false a {} with
  | mk x t =>
  obtain ⟨hs, hx⟩ := makeTerm_spec a (VTab.WF.empty 0) h
  have fin := Final.of hs.wf
  exact ⟨_, fin.naming, hx _ fin.naming fin.agrees⟩

theorem makeAll_spec {α β : Type} {f : α → Nat → Res Nat β} {R : α → β → Prop} (hf : ∀ x e y e', f x e = .ok y e' → e ≤ e' ∧ (e' = e → R x y)) :
    ∀ (xs : List α) {e e' : Nat} {ys : List β}, makeAll f xs e = .ok ys e' → e ≤ e' ∧ (e' = e → EachPair R xs ys)
  | [], e, e', ys, h => by
    cases h
    exact ⟨Nat.le_refl _, fun _ => .nil⟩
  | x :: xs, e, e', ys, h => by
    rw [makeAll] at h
    obtain ⟨y, s1, h1, h2⟩ := Res.bind_eq_ok.1 h
    obtain ⟨ys', s2, h3, h4⟩ := Res.bind_eq_ok.1 h2
    cases h4
    obtain ⟨l1, r1⟩ := hf _ _ _ _ h1
    obtain ⟨l2, r2⟩ := makeAll_spec hf xs h3
    exact ⟨by omega, fun e => .cons (r1 (by omega)) (r2 (by omega))⟩

theorem EachPair.map {α β : Type} {R : α → β → Prop} {f : α → β} (h : ∀ x, R x (f x)) : ∀ xs : List α, EachPair R xs (xs.map f)
  | [] => .nil
  | x :: xs => .cons (h x) (EachPair.map h xs)

theorem makeAgent_spec {acts : Lookup} {text : APlan → String} {a : AAgent} {src : AgentSrc} {e : Nat} (h : makeAgent acts text a = .ok src e) :
    e = 0 ∧ AgentOf acts a src := by
  rw [makeAgent] at h
  obtain ⟨rs, s1, h1, h2⟩ := Res.bind_eq_ok.1 h
  obtain ⟨ps, s2, h3, h4⟩ := Res.bind_eq_ok.1 h2
  simp only at h4
  split at h4 <;> cases h4
  rename_i h0
  subst h0
  obtain ⟨l1, r1⟩ := makeAll_spec (f := makeRule acts) (fun _ _ _ _ => makeRule_spec) _ h1
  obtain ⟨l2, r2⟩ := makeAll_spec (f := makePlan acts text) (fun _ _ _ _ => makePlan_spec) _ h3
  exact ⟨rfl, r1 (by omega), r2 (by omega), .map makeFact_spec _, .map makeFact_spec _⟩

/-! ## Building succeeds -/

/-- The result is a value; there are no new errors in the log if and only if `P`. -/
def Made {α : Type} (P : Prop) (r : Res Bld α) (s : Bld) : Prop :=
  ∃ v s', r = .ok v s' ∧ s.errs ≤ s'.errs ∧ (s'.errs = s.errs ↔ P)

theorem Made.bind {α β : Type} {P Q : Prop} {r : Res Bld α} {f : α → Bld → Res Bld β} {s : Bld} (h : Made P r s)
    (hf : ∀ v s, Made Q (f v s) s) : Made (P ∧ Q) (r.bind f) s := by
  obtain ⟨v, s1, rfl, h1, h2⟩ := h
  obtain ⟨w, s2, h3, h4, h5⟩ := hf v s1
  exact ⟨w, s2, h3, by omega, by rw [← h2, ← h5]; omega⟩

theorem Made.map {α β : Type} {P : Prop} {r : Res Bld α} {f : α → β} {s : Bld} (h : Made P r s) :
    Made P (r.bind fun v s => .ok (f v) s) s := by
  obtain ⟨v, s1, rfl, h1, h2⟩ := h
  exact ⟨_, s1, rfl, h1, h2⟩

theorem Made.iff {α : Type} {P Q : Prop} {r : Res Bld α} {s : Bld} (h : Made P r s) (e : P ↔ Q) : Made Q r s := by
  obtain ⟨v, s1, h0, h1, h2⟩ := h
  exact ⟨v, s1, h0, h1, h2.trans e⟩

theorem Bld.term_errs (s : Bld) (a : Ast) : (s.term a).2.errs = s.errs := by rw [Bld.term]

theorem made_ok {α : Type} {P : Prop} (hp : P) {v : α} {s s' : Bld} (h : s'.errs = s.errs) : Made P (.ok v s') s :=
  ⟨v, s', rfl, by omega, ⟨fun _ => hp, fun _ => h⟩⟩

section
variable [Arith]

/-- A query that can be folded without errors can be built. -/
theorem makeQuery_made {acts : Lookup} : ∀ (a : Ast) {b : Ast}, FoldsTo .logical a b → ∀ s, Made a.NoDecompose (makeQuery acts a s) s
  | .lit f ts as, b, h, s => by
    rw [makeQuery]
    have hp : Ast.NoDecompose (.lit f ts as) := fun l r h => by cases h
    have := s.term_errs (.lit f ts as)
    cases h1 : s.term (.lit f ts as) with
    | mk x t =>
    rw [h1] at this
    simp only
    split <;> exact made_ok hp this
  | .const c, b, h, s => by
    have hp : Ast.NoDecompose (.const c) := fun l r h => by cases h
    match c, h with
    | .bool true, h => rw [makeQuery]; exact made_ok hp rfl
    | .bool false, h => rw [makeQuery]; exact made_ok hp rfl
  | .var x, b, h, s => by
    rw [makeQuery]
    have hp : Ast.NoDecompose (.var x) := fun l r h => by cases h
    exact made_ok hp (s.term_errs (.var x))
  | .list _, b, h, s => by cases h
  | .linked _ _, b, h, s => by cases h
  | .un op a, b, h, s => by
    cases op <;> first | (cases h; done) | skip
    rw [FoldsTo, fold.eq_def] at h
    simp only [Visitor.forUn, UnOp.booleanOp, if_true] at h
    obtain ⟨a', s1, h1, h2⟩ := Res.bind_eq_ok.1 h
    have : s1 = 0 := by
      cases a' with
      | none => cases h2
      | some a' => exact (foldUn_ok h2).1.symm
    subst this
    obtain ⟨-, f⟩ := fold_ok _ _ _ _ _ h1
    obtain ⟨a'', rfl, -⟩ := f rfl
    rw [makeQuery]
    refine (makeQuery_made a h1 s).map.iff ⟨fun hp l r h => ?_, fun hp l r h => hp l r (.not h)⟩
    cases h with
    | not h => exact hp l r h
  | .bin op l r, b, h, s => by
    have logic : op.booleanOp = true → (∃ l', FoldsTo .logical l l') ∧ ∃ r', FoldsTo .logical r r' := by
      intro hb
      rw [FoldsTo, fold.eq_def] at h
      simp only [Visitor.forBin] at h
      rw [if_neg (by simp [hb]), if_pos hb] at h
      obtain ⟨l', s1, h1, h2⟩ := Res.bind_eq_ok.1 h
      obtain ⟨r', s2, h3, h4⟩ := Res.bind_eq_ok.1 h2
      have l1 := (boolBin_ok hb h4).1
      have l2 := (fold_ok _ _ _ _ _ h3).1
      have e1 : s1 = 0 := by omega
      have e2 : s2 = 0 := by omega
      subst e1 e2
      obtain ⟨x, rfl, -⟩ := (fold_ok _ _ _ _ _ h1).2 rfl
      obtain ⟨y, rfl, -⟩ := (fold_ok _ _ _ _ _ h3).2 rfl
      exact ⟨⟨x, h1⟩, y, h3⟩
    cases op
    case and | or =>
      obtain ⟨⟨l', hl⟩, r', hr⟩ := logic rfl
      rw [makeQuery]
      refine ((makeQuery_made l hl s).bind fun p s => (makeQuery_made r hr s).map).iff
        ⟨fun hp x y h => ?_, fun hp => ⟨fun x y h => hp x y ?_, fun x y h => hp x y ?_⟩⟩
      · cases h <;> first | exact hp.1 x y (by assumption) | exact hp.2 x y (by assumption)
      · first | exact .andL h | exact .orL h
      · first | exact .andR h | exact .orR h
    case unify =>
      rw [makeQuery]
      have hp : Ast.NoDecompose (.bin .unify l r) := fun l r h => by cases h
      exact made_ok hp rfl
    case decompose =>
      rw [makeQuery.eq_def]
      simp only
      refine ⟨_, _, rfl, ?_, ?_⟩
      · rw [Bld.term_errs]
        simp [BinOp.compOp]
      · rw [Bld.term_errs]
        simp only [BinOp.compOp]
        exact ⟨fun h => absurd h (by simp), fun hp => absurd .self (hp l r)⟩
    case lt | le | ne | eq | ge | gt =>
      rw [makeQuery.eq_def]
      simp only
      refine made_ok (fun l r h => by cases h) ?_
      rw [Bld.term_errs]
      rfl
    all_goals cases h

omit [Arith] in
theorem made_term {α : Type} {P : Prop} (hp : P) {s : Bld} {a : Ast} {f : Term → α} : Made P (let (x, s) := s.term a; Res.ok (f x) s) s :=
  made_ok hp (s.term_errs a)

mutual
theorem makeStmt_made {acts : Lookup} : ∀ (x : AStmt) {y : AStmt}, StmtFolds x y → ∀ s,
    Made (∀ q, x.Asks q → q.NoDecompose) (makeStmt acts x s) s
  | .formula ty a, y, h, s => by
    have none : ty ≠ .term → ∀ q, (AStmt.formula ty a).Asks q → q.NoDecompose := by
      intro ht q hq
      cases hq
      exact absurd rfl ht
    cases ty
    case term =>
      rw [makeStmt]
      cases h with
      | term h =>
        refine (makeQuery_made a h s).map.iff ⟨fun hp q hq => ?_, fun hp => hp _ .term⟩
        cases hq
        exact hp
      | lit ht => exact absurd rfl ht
      | var ht => exact absurd rfl ht
    case replace =>
      rw [makeStmt]
      exact made_ok (none (by decide)) (Bld.term_errs _ _)
    all_goals
      rw [makeStmt]
      exact made_term (none (by decide))
  | .for_ a b, y, h, s => by
    cases h with
    | for_ h1 h2 =>
      rw [makeStmt]
      refine ((makeQuery_made a h1 s).bind fun q s => (makeStmts_made b h2 s).map).iff
        ⟨fun hp q hq => ?_, fun hp => ⟨hp _ .for_, fun q hq => hp _ (.forBody hq)⟩⟩
      cases hq with
      | for_ => exact hp.1
      | forBody hq => exact hp.2 _ hq
  | .while_ a b, y, h, s => by
    cases h with
    | while_ h1 h2 =>
      rw [makeStmt]
      refine ((makeQuery_made a h1 s).bind fun q s => (makeStmts_made b h2 s).map).iff
        ⟨fun hp q hq => ?_, fun hp => ⟨hp _ .while_, fun q hq => hp _ (.whileBody hq)⟩⟩
      cases hq with
      | while_ => exact hp.1
      | whileBody hq => exact hp.2 _ hq
  | .if_ a b, y, h, s => by
    cases h with
    | if_ h1 h2 =>
      rw [makeStmt]
      refine ((makeQuery_made a h1 s).bind fun q s => (makeStmts_made b h2 s).map).iff
        ⟨fun hp q hq => ?_, fun hp => ⟨hp _ .if_, fun q hq => hp _ (.ifBody hq)⟩⟩
      cases hq with
      | if_ => exact hp.1
      | ifBody hq => exact hp.2 _ hq
  | .ifElse a b c, y, h, s => by
    cases h with
    | ifElse h1 h2 h3 =>
      rw [makeStmt]
      refine ((makeQuery_made a h1 s).bind fun q s => (makeStmts_made b h2 s).bind fun _ s => (makeStmts_made c h3 s).map).iff
        ⟨fun hp q hq => ?_, fun hp => ⟨hp _ .ifElse, fun q hq => hp _ (.ifElseThen hq), fun q hq => hp _ (.ifElseElse hq)⟩⟩
      cases hq with
      | ifElse => exact hp.1
      | ifElseThen hq => exact hp.2.1 _ hq
      | ifElseElse hq => exact hp.2.2 _ hq
theorem makeStmts_made {acts : Lookup} : ∀ (xs : List AStmt) {ys : List AStmt}, StmtsFold xs ys → ∀ s,
    Made (∀ q, StmtsAsk xs q → q.NoDecompose) (makeStmts acts xs s) s
  | [], _, _, s => by
    rw [makeStmts]
    exact made_ok (fun q hq => by cases hq) rfl
  | x :: xs, _, h, s => by
    cases h with
    | cons h1 h2 =>
      rw [makeStmts]
      refine ((makeStmt_made x h1 s).bind fun q s => (makeStmts_made xs h2 s).map).iff
        ⟨fun hp q hq => ?_, fun hp => ⟨fun q hq => hp _ (.head hq), fun q hq => hp _ (.tail hq)⟩⟩
      cases hq with
      | head hq => exact hp.1 _ hq
      | tail hq => exact hp.2 _ hq
end

omit [Arith] in
theorem annots_plain {h : Ast} : h.annotations.all Ast.hasTerms = true ↔ h.PlainAnnots := by
  rw [Ast.PlainAnnots]
  cases h with
  | lit f ts as =>
    simp only [Ast.annotations, List.all_eq_true]
    constructor
    · rintro h f ts as ⟨⟩ x hx
      have := h x hx
      cases x <;> first | (cases this; done) | exact .inl ⟨_, _, _, rfl⟩ | exact .inr ⟨_, rfl⟩
    · intro h x hx
      rcases h f ts as rfl x hx with ⟨g, us, bs, rfl⟩ | ⟨us, rfl⟩ <;> rfl
  | _ => simp [Ast.annotations]

/-- A plan that can be folded without errors. -/
theorem makePlan_made {acts : Lookup} {text : APlan → String} {p p' : APlan} (h : PlanFolds p p') (e : Nat) :
    (p.event.head.PlainAnnots → ∃ v e', makePlan acts text p e = .ok v e' ∧ e ≤ e' ∧ (e' = e ↔ ∀ q, p.Asks q → q.NoDecompose)) ∧
      (¬p.event.head.PlainAnnots → ∃ e', makePlan acts text p e = .err (.py "AttributeError") e') := by
  have hs1 := ({ errs := e } : Bld).term_errs p.event.head
  cases h1 : ({ errs := e } : Bld).term p.event.head with
  | mk x s1 =>
  rw [h1] at hs1
  simp only at hs1
  have hc : Made (∀ q, p.context = some q → q.NoDecompose)
      (makeContext acts p.context s1) s1 := by
    have := h.context
    cases hpc : p.context with
    | none => exact made_ok (fun q hq => by cases hq) rfl
    | some c =>
      rw [hpc] at this
      cases hpc' : p'.context with
      | none => rw [hpc'] at this; cases this
      | some c' =>
        rw [hpc'] at this
        cases this with
        | some this => exact (makeQuery_made c this s1).iff ⟨fun hp q hq => by cases hq; exact hp, fun hp => hp _ rfl⟩
  obtain ⟨c, s2, e2, l2, i2⟩ := hc
  have hb : Made (∀ q b, p.body = some b → StmtsAsk b q → q.NoDecompose)
      (makeBody acts p.body s2) s2 := by
    have := h.body
    cases hpb : p.body with
    | none => exact made_ok (fun q b hq => by cases hq) rfl
    | some b =>
      rw [hpb] at this
      cases hpb' : p'.body with
      | none => rw [hpb'] at this; cases this
      | some b' =>
        rw [hpb'] at this
        cases this with
        | some this => exact (makeStmts_made b this s2).iff ⟨fun hp q b hb hq => by cases hb; exact hp q hq, fun hp q hq => hp q b rfl hq⟩
  obtain ⟨b, s3, e3, l3, i3⟩ := hb
  have eq := makePlan.eq_def acts text p e
  simp only [h1] at eq
  rw [e2] at eq
  simp only [Res.bind] at eq
  rw [e3] at eq
  simp only at eq
  refine ⟨fun hp => ?_, fun hp => ?_⟩
  · rw [if_pos (annots_plain.2 hp)] at eq
    refine ⟨_, _, eq, by omega, ?_⟩
    constructor
    · intro he q hq
      have h2 : s2.errs = s1.errs := by omega
      have h3 : s3.errs = s2.errs := by omega
      rcases hq with hq | ⟨b', hb, hq⟩
      · exact i2.1 h2 q hq
      · exact i3.1 h3 q b' hb hq
    · intro hq
      have h2 := i2.2 fun q hq' => hq q (.inl hq')
      have h3 := i3.2 fun q b' hb hq' => hq q (.inr ⟨b', hb, hq'⟩)
      omega
  · rw [if_neg fun h => hp (annots_plain.1 h)] at eq
    exact ⟨_, eq⟩

theorem makeRule_made {acts : Lookup} {r r' : ARule} (h : RuleFolds r r') (e : Nat) :
    ∃ v e', makeRule acts r e = .ok v e' ∧ e ≤ e' ∧ (e' = e ↔ r.consequence.NoDecompose) := by
  have hs1 := ({ errs := e } : Bld).term_errs r.head
  cases h1 : ({ errs := e } : Bld).term r.head with
  | mk x s1 =>
  rw [h1] at hs1
  simp only at hs1
  obtain ⟨c, s2, e2, l2, i2⟩ := makeQuery_made (acts := acts) _ h.consequence s1
  have eq := makeRule.eq_def acts r e
  simp only [h1] at eq
  rw [e2] at eq
  refine ⟨_, _, eq, by omega, ?_⟩
  rw [← i2]
  omega

omit [Arith] in
/-- All can be made; without errors if and only if this is the case for each of them. -/
theorem makeAll_made {α β : Type} {f : α → Nat → Res Nat β} {P : α → Prop} :
    ∀ (xs : List α), (∀ x ∈ xs, ∀ e, ∃ v e', f x e = .ok v e' ∧ e ≤ e' ∧ (e' = e ↔ P x)) → ∀ e,
    ∃ vs e', makeAll f xs e = .ok vs e' ∧ e ≤ e' ∧ (e' = e ↔ ∀ x ∈ xs, P x)
  | [], _, e => ⟨[], e, rfl, Nat.le_refl _, by simp⟩
  | x :: xs, hf, e => by
    obtain ⟨v, e1, h1, l1, i1⟩ := hf x (.head _) e
    obtain ⟨vs, e2, h2, l2, i2⟩ := makeAll_made xs (fun y hy => hf y (.tail _ hy)) e1
    refine ⟨v :: vs, e2, ?_, by omega, ?_⟩
    · rw [makeAll, h1]
      simp only [Res.bind]
      rw [h2]
    · rw [List.forall_mem_cons, ← i1, ← i2]
      omega

/-- An `AttributeError` in one of them. -/
theorem makePlans_raise {acts : Lookup} {text : APlan → String} :
    ∀ (ps : List APlan), (∀ p ∈ ps, PlanFolds p p) → (∃ p ∈ ps, ¬p.event.head.PlainAnnots) → ∀ e,
    ∃ e', makeAll (makePlan acts text) ps e = .err (.py "AttributeError") e'
  | [], _, h, e => by obtain ⟨p, hp, -⟩ := h; cases hp
  | p :: ps, hf, h, e => by
    rw [makeAll]
    by_cases hp : p.event.head.PlainAnnots
    · obtain ⟨v, e1, h1, -⟩ := (makePlan_made (acts := acts) (text := text) (hf p (.head _)) e).1 hp
      obtain ⟨q, hq, hq'⟩ := h
      have hq : q ∈ ps := by
        cases hq with
        | head => exact absurd hp hq'
        | tail _ hq => exact hq
      obtain ⟨e2, h2⟩ := makePlans_raise (acts := acts) (text := text) ps (fun y hy => hf y (.tail _ hy)) ⟨q, hq, hq'⟩ e1
      rw [h1]
      simp only [Res.bind]
      rw [h2]
      exact ⟨_, rfl⟩
    · obtain ⟨e1, h1⟩ := (makePlan_made (acts := acts) (text := text) (hf p (.head _)) e).2 hp
      rw [h1]
      exact ⟨_, rfl⟩

end

end Verif
