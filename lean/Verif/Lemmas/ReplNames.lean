import Verif.Lemmas.Build
import Verif.Lemmas.Reach
import Verif.Model.Repl

/-!
# Lemmas: the variables of the prompt
-/

namespace Verif

/-! ## Building keeps the table of variables -/

/-- A later, well-formed table. -/
def Grown (t : VTab) (s : Bld) : Prop := VTab.Step 0 t s.tab

theorem Grown.term {t : VTab} {s : Bld} (h : Grown t s) (a : Ast) : Grown t (s.term a).2 :=
  ⟨(Bld.term_spec h.wf (a := a) rfl).1.tab.wf, h.ext.trans (Bld.term_spec h.wf (a := a) rfl).1.tab.ext⟩

theorem Grown.ok_term {α : Type} {t : VTab} {s : Bld} (h : Grown t s) (a : Ast) (f : Term → α) :
    (let (x, s) := s.term a; Res.ok (f x) s).Keeps (Grown t) := .ok (h.term a)

theorem makeQuery_later {acts : Lookup} {t : VTab} : ∀ (a : Ast) (s : Bld), Grown t s → (makeQuery acts a s).Keeps (Grown t)
  | .lit f ts as, s, h => by
    have := h.term (.lit f ts as)
    rw [makeQuery]
    cases acts (String.ofList f) ts.length <;> exact .ok this
  | .const v, s, h => by
    rw [makeQuery.eq_def]
    match v with
    | .bool true => exact .ok h
    | .bool false => exact .ok h
    | .num _ => exact .er h
    | .str _ => exact .er h
  | .bin op l r, s, h => by
    have other : ∀ (op : BinOp), op ≠ .and → op ≠ .or → op ≠ .unify → (makeQuery acts (.bin op l r) s).Keeps (Grown t) := by
      intro op h1 h2 h3
      have e : makeQuery acts (.bin op l r) s = (let s := if op.compOp then s else { s with errs := s.errs + 1 }
          let (x, s) := s.term (.bin op l r)
          Res.ok (Query.term x) s) := by
        cases op <;> first | rfl | exact absurd rfl h1 | exact absurd rfl h2 | exact absurd rfl h3
      rw [e]
      have h' : Grown t (if op.compOp then s else { s with errs := s.errs + 1 }) := by split <;> exact h
      exact h'.ok_term (.bin op l r) Query.term
    cases op
    case and | or =>
      rw [makeQuery]
      exact .bind (makeQuery_later l s h) fun _ s h => .bind (makeQuery_later r s h) fun _ s h => .ok h
    case unify =>
      rw [makeQuery]
      exact .ok ((h.term l).term r)
    all_goals exact other _ (by decide) (by decide) (by decide)
  | .un op a, s, h => by
    cases op
    case not =>
      rw [makeQuery]
      exact .bind (makeQuery_later a s h) fun _ s h => .ok h
    all_goals exact .er h
  | .var x, s, h => by
    rw [makeQuery]
    exact .ok (h.term (.var x))
  | .list _, s, h => by rw [makeQuery]; exact .er h
  | .linked _ _, s, h => by rw [makeQuery]; exact .er h

mutual
theorem makeStmt_later {acts : Lookup} {t : VTab} : ∀ (x : AStmt) (s : Bld), Grown t s → (makeStmt acts x s).Keeps (Grown t)
  | .formula .add a, s, h => by rw [makeStmt]; exact h.ok_term a _
  | .formula .remove a, s, h => by rw [makeStmt]; exact h.ok_term a _
  | .formula .test a, s, h => by rw [makeStmt]; exact h.ok_term a _
  | .formula .achieve a, s, h => by rw [makeStmt]; exact h.ok_term a _
  | .formula .achieveLater a, s, h => by rw [makeStmt]; exact h.ok_term a _
  | .formula .replace a, s, h => by
    rw [makeStmt]
    cases h1 : makeTerm true a { next := s.tab.next } with
    | mk p u =>
    have hle : s.tab.next ≤ u.next := (makeTerm_spec a (VTab.WF.empty s.tab.next) h1).1.ext.le
    have h' : Grown t { s with tab := { s.tab with next := u.next } } := ⟨next_wf h.wf hle, h.ext.trans (next_ext hle)⟩
    exact h'.ok_term a _
  | .formula .term a, s, h => by rw [makeStmt]; exact .bind (makeQuery_later a s h) fun _ s h => .ok h
  | .for_ a b, s, h => by
    rw [makeStmt]
    exact .bind (makeQuery_later a s h) fun _ s h => .bind (makeStmts_later b s h) fun _ s h => .ok h
  | .while_ a b, s, h => by
    rw [makeStmt]
    exact .bind (makeQuery_later a s h) fun _ s h => .bind (makeStmts_later b s h) fun _ s h => .ok h
  | .if_ a b, s, h => by
    rw [makeStmt]
    exact .bind (makeQuery_later a s h) fun _ s h => .bind (makeStmts_later b s h) fun _ s h => .ok h
  | .ifElse a b c, s, h => by
    rw [makeStmt]
    exact .bind (makeQuery_later a s h) fun _ s h => .bind (makeStmts_later b s h) fun _ s h => .bind (makeStmts_later c s h) fun _ s h => .ok h
theorem makeStmts_later {acts : Lookup} {t : VTab} : ∀ (xs : List AStmt) (s : Bld), Grown t s → (makeStmts acts xs s).Keeps (Grown t)
  | [], s, h => by rw [makeStmts]; exact .ok h
  | x :: xs, s, h => by
    rw [makeStmts]
    exact .bind (makeStmt_later x s h) fun _ s h => .bind (makeStmts_later xs s h) fun _ s h => .ok h
end

/-! ## Running keeps the counters -/

/-- The intentions on the stacks exist. -/
def Below (w : World) : Prop := ∀ a, ∀ st ∈ (w.ags a).intentions, ∀ i ∈ st, i < w.nint

/-- The intentions on the stacks exist; the counters are at least `nv` and `k`. -/
structure Counts (nv k : Nat) (s : QSt World) : Prop where
  below : Below s.w
  nv : nv ≤ s.nv
  nint : k ≤ s.w.nint

theorem Below.setStacks {w : World} (h : Below w) {a : Nat} {sts : List (List Nat)} (hs : ∀ st ∈ sts, ∀ i ∈ st, i < w.nint) :
    Below (w.setStacks a sts) := by
  intro a' st hst i hi
  simp only [World.setStacks, World.setAg] at hst
  split at hst
  · exact hs st hst i hi
  · exact h a' st hst i hi

section
variable [Host]

theorem finish_counts {nv k n a p i : Nat} {s : QSt World} (h : Counts nv k s) : (finish n a p i s).Keeps (Counts nv k) := by
  have hset : ∀ (s : QSt World) (j : Nat) (b : BSt) (m : Nat), Counts nv k s → nv ≤ m →
      Counts nv k { s with nv := m, w := s.w.modInt j fun x => { x with b := b } } := fun s j b m h hm => ⟨h.below, hm, h.nint⟩
  have hst : ∀ x ∈ (s.w.ags a).intentions.set p ((s.w.ags a).intentions[p]?.getD []).tail, ∀ i ∈ x, i < s.w.nint := by
    intro x hx i hi
    rcases List.mem_or_eq_of_mem_set hx with hx | rfl
    · exact h.below a x hx i hi
    · have hi := List.mem_of_mem_tail hi
      cases hp : (s.w.ags a).intentions[p]? with
      | none => rw [hp] at hi; cases hi
      | some st => rw [hp] at hi; exact h.below a st (List.mem_of_getElem? hp) i hi
  unfold finish
  simp only
  split
  · refine .ok ⟨h.below.setStacks fun x hx i hi => ?_, h.nv, h.nint⟩
    rcases List.mem_or_eq_of_mem_set (List.erase_subset hx) with hx | rfl
    · exact h.below a x hx i hi
    · cases hi
  · have h' : Counts nv k { s with w := s.w.setStacks a ((s.w.ags a).intentions.set p ((s.w.ags a).intentions[p]?.getD []).tail) } :=
      ⟨h.below.setStacks hst, h.nv, h.nint⟩
    split
    · exact .ok h'
    · exact .er h'
    · have hnv : ∀ m n sc t, (freezeNew n sc t s.nv).leaves m → nv ≤ m.nv := fun m n sc t hm =>
        Nat.le_trans h.nv (freeze_nv_le n sc t _ m hm)
      split
      · exact .oof
      · next hx => exact .er ⟨h'.below, hnv _ _ _ _ (.inr ⟨_, hx⟩), h'.nint⟩
      · next hx =>
        have hm := hnv _ _ _ _ (.inl ⟨_, hx⟩)
        split
        · exact .oof
        · exact .er (hset _ _ _ _ h' hm)
        · split
          · exact .ok (hset _ _ _ _ h' hm)
          · exact .er (hset _ _ _ _ h' hm)

theorem step_counts {nv k n a : Nat} {s : QSt World} (h : Counts nv k s) : (step n a s).Keeps (Counts nv k) := by
  have hd : ∀ st ∈ (s.w.ags a).intentions.dropWhile (·.isEmpty), ∀ i ∈ st, i < s.w.nint := fun st hst =>
    h.below a st ((List.dropWhile_sublist _).subset hst)
  rcases step_spec n a s with ⟨k', _, h1⟩ | ⟨pre, i, st, post, k', w₁, h1, h2, h3, h4⟩
  · rw [h1]
    exact .ok ⟨h.below.setStacks hd, h.nv, h.nint⟩
  obtain ⟨c1, c2, c3, c4, c5, c6, c7, c8, c9, c10⟩ := h3.spec
  have hw₁ : Counts nv k { s with w := w₁ } := by
    refine ⟨?_, h.nv, by rw [show w₁.nint = s.w.nint from c2]; exact h.nint⟩
    have := h.below.setStacks (a := a) hd
    unfold Below at this ⊢
    dsimp only
    rw [c1, c2]
    exact this
  rcases h4 with ⟨_, h4⟩ | ⟨pc, h4, h5⟩
  · rw [h4]
    exact finish_counts hw₁
  have hS : RunStable { w₁ with cur := a, curInt := i } i fun s => Base { w₁ with cur := a, curInt := i } s.w ∧ Counts nv k s := {
    prim := fun s s' h hp => ⟨hp.base h.1, (hp.base h.1).below, by
        cases hp <;> first | exact h.2.nv | exact Nat.le_trans h.2.nv (by assumption) | exact Nat.le_trans h.2.nv (by simp [buildPlan]),
        Nat.le_trans hw₁.nint (hp.base h.1).nint⟩
    base := fun _ h => h.1
    run := fun s x h _ _ _ _ => ⟨h.1.setInt i x, h.2.below, h.2.nv, h.2.nint⟩ }
  rw [h5]
  intro s' hs
  exact (exec_keeps hS rfl (n := n) (a := a) (pc := pc) (s := { s with w := w₁ })
    (fun s pc h => ⟨h.1.setInt i _, h.2.below, h.2.nv, h.2.nint⟩)
    ⟨.refl hw₁.below, hw₁.below, hw₁.nv, hw₁.nint⟩ s' hs).2

theorem runAgent_counts {nv k n a : Nat} : ∀ (m : Nat) (s : QSt World), Counts nv k s → (runAgent n a m s).Keeps (Counts nv k)
  | 0, s, h => .oof
  | m + 1, s, h => by
    rw [runAgent]
    refine .bind (step_counts h) fun more s h => ?_
    split
    · exact runAgent_counts m s h
    · split
      · exact .ok h
      · split
        · exact .ok h
        · refine .bind (fun s' hs => ?_) fun _ s h => runAgent_counts m s h
          rw [sleep_eq hs]
          exact ⟨h.below, h.nv, h.nint⟩

/-! ## The prompt -/

/-- The prompt: a table of variables, and an intention of its own. -/
structure Prompt (s : ReplSt) : Prop where
  tab : VTab.WF 0 ⟨s.names, s.st.nv⟩
  below : Below s.st.w
  int : s.int < s.st.w.nint

/-- A later prompt. -/
structure Prompts (s s' : ReplSt) : Prop where
  ok : Prompt s'
  keep : ∀ x v, s.names.lookup x = some v → s'.names.lookup x = some v
  int : s'.int = s.int

omit [Host] in
theorem Prompts.trans {s s₁ s' : ReplSt} (h : Prompts s s₁) (h' : Prompts s₁ s') : Prompts s s' :=
  ⟨h'.ok, fun x v e => h'.keep x v (h.keep x v e), h'.int.trans h.int⟩

theorem replExec_prompts {acts : Lookup} {n k a : Nat} {b : List AStmt} {s : ReplSt} (h : Prompt s) :
    (replExec acts n k a b s).Keeps (Prompts s) := by
  have hl := makeStmts_later (acts := acts) (t := ⟨s.names, s.st.nv⟩) b { tab := ⟨s.names, s.st.nv⟩ } ⟨h.tab, .refl _⟩
  have hbuilt : ∀ (t : Bld) (c : Code), Grown ⟨s.names, s.st.nv⟩ t → Prompts s (s.built t c) := fun t c ht =>
    ⟨⟨ht.wf, h.below, h.int⟩, ht.ext.keep, rfl⟩
  unfold replExec
  simp only
  split
  · exact .oof
  · next hx => exact .er (hbuilt _ _ (hl.of_err hx))
  · next ss t hx =>
    have ht := hl.of_ok hx
    split
    · exact .er (hbuilt _ _ ht)
    · have h1 := hbuilt t (compileBody ss s.st.w.code) ht
      have h2 : Counts t.tab.next s.st.w.nint ((s.built t (compileBody ss s.st.w.code)).world fun w => w.setStacks a ((w.ags a).intentions ++ [[s.int]])).st := by
        refine ⟨Below.setStacks h1.ok.below fun st hst i hi => ?_, Nat.le_refl _, Nat.le_refl _⟩
        rcases List.mem_append.1 hst with hst | hst
        · exact h1.ok.below a st hst i hi
        · simp at hst; subst hst; simp at hi; subst hi; exact h.int
      have hk := runAgent_counts (n := n) (a := a) k _ h2
      have done : ∀ st, Counts t.tab.next s.st.w.nint st →
          Prompts s { (s.built t (compileBody ss s.st.w.code)).world fun w => w.setStacks a ((w.ags a).intentions ++ [[s.int]]) with st := st } := fun st hc =>
        ⟨⟨next_wf ht.wf hc.nv, hc.below, Nat.lt_of_lt_of_le h.int hc.nint⟩, ht.ext.keep, rfl⟩
      split
      · next hx => exact .ok (done _ (hk.of_ok hx))
      · next hx => exact .er (done _ (hk.of_err hx))
      · exact .oof

end

section
variable [Unicode] [Floats]

theorem replLoop_keeps {σ : Type} {n : Nat} {exec : List AStmt → σ → Res σ Unit} {P : σ → Prop} (he : ∀ b s, P s → (exec b s).Keeps P) {bad : Bool} :
    ∀ (k : Nat) (ts : List Tok) (s : σ), P s → (replLoop n exec bad k ts s).Keeps P
  | _, [], s, h => by unfold replLoop; exact .ok h
  | 0, _ :: _, s, h => by unfold replLoop; exact .oof
  | k + 1, t :: ts, s, h => by
    unfold replLoop
    split
    · exact .oof
    · exact .ok h
    · split
      · exact .ok h
      · exact .er h
    · next b rest hx =>
      split
      · exact .ok h
      · have := he b s h
        split
        · exact .oof
        · next hx => exact replLoop_keeps he k _ _ (this.of_ok hx)
        · next hx => exact .ok (this.of_err hx)
        · next hx =>
          split
          · exact .ok (this.of_err hx)
          · exact .er (this.of_err hx)

theorem replSession_keeps {σ : Type} {n : Nat} {exec : List AStmt → σ → Res σ Unit} {P : σ → Prop} (he : ∀ b s, P s → (exec b s).Keeps P) :
    ∀ (ls : List (List Char)) (pend : List Tok) (s : σ), P s → (replSession n exec ls pend s).Keeps P
  | [], pend, s, h => .ok h
  | l :: ls, pend, s, h => by
    unfold replSession
    refine .bind ?_ fun pend s h => replSession_keeps he ls pend s h
    unfold replLine
    split
    · exact .oof
    · simp only
      split
      · exact .ok h
      · exact replLoop_keeps he _ _ s h

end

end Verif
