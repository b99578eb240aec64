import Verif.Lemmas.PrintAgent
import Verif.Lemmas.RawFold
import Verif.Lemmas.Sourced

/-! # Lemmas: accepted agents can be printed and read again -/

namespace Verif

/-! ## Agents that have been parsed -/

/-- The parts of a clause are those of a source text. -/
def Clause.Written : Clause → Prop
  | .rule r => r.head.IsLit ∧ r.head.Named ∧ r.consequence.Named
  | .belief b => b.IsLit ∧ b.Named
  | .goal g => g.IsLit ∧ g.Named
  | .plan p => p.Formed ∧ p.AllTerms Ast.Named

section
variable [Floats]

mutual
theorem source_named : ∀ (a : Ast), a.Source → a.Named
  | .const (.bool _), _ => trivial
  | .const (.num _), _ => trivial
  | .const (.str _), h => h
  | .var _, h => h
  | .lit _ ts as, h => ⟨h.1, sources_named ts h.2.1, sources_named as h.2.2⟩
  | .list ts, h => sources_named ts h
  | .linked a b, h => ⟨source_named a h.1, source_named b h.2⟩
  | .un _ a, h => source_named a h
  | .bin _ l r, h => ⟨source_named l h.1, source_named r h.2⟩
theorem sources_named : ∀ (as : List Ast), Ast.Sources as → Ast.NamedL as
  | [], _ => trivial
  | a :: as, h => ⟨source_named a h.1, sources_named as h.2⟩
end

mutual
theorem named_shown : ∀ (a : Ast), a.Named → a.Clear → a.Shown
  | .const (.bool _), _, _ => trivial
  | .const (.num .inf), _, h => h
  | .const (.num (.fin _)), _, h => h
  | .const (.str _), h, _ => h
  | .var _, h, _ => h
  | .lit _ ts as, h, h' => ⟨h.1, nameds_shown ts h.2.1 h'.1, nameds_shown as h.2.2 h'.2⟩
  | .list ts, h, h' => nameds_shown ts h h'
  | .linked a b, h, h' => ⟨named_shown a h.1 h'.1, named_shown b h.2 h'.2⟩
  | .un _ a, h, h' => named_shown a h h'
  | .bin _ l r, h, h' => ⟨named_shown l h.1 h'.1, named_shown r h.2 h'.2.1, h'.2.2⟩
theorem nameds_shown : ∀ (as : List Ast), Ast.NamedL as → Ast.ClearL as → Ast.ShownL as
  | [], _, _ => trivial
  | a :: as, h, h' => ⟨named_shown a h.1 h'.1, nameds_shown as h.2 h'.2⟩
end

section
variable [Unicode]

theorem phrase_named {l : Nat} {ts : List Tok} {a : Ast} (h : Phrase l ts a) (hg : AllGood ts) : a.Named := source_named a (phrase_source h hg)

theorem lit_named {ts : List Tok} {a : Ast} (h : LitPhrase ts a) (hg : AllGood ts) : a.IsLit ∧ a.Named := by
  cases h with
  | mk h1 h2 h3 =>
    refine ⟨⟨_, _, _, rfl⟩, ?_⟩
    have : Phrase 8 _ _ := .lit h1 h2 h3
    exact phrase_named this hg

theorem cond_named {ts : List Tok} {a : Ast} (h : CondPhrase ts a) (hg : AllGood ts) : a.Named := by
  cases h with
  | mk h1 h2 h3 => exact phrase_named h2 hg.tail.left

mutual
theorem stmt_named : ∀ {ts : List Tok} {s : AStmt}, StmtPhrase ts s → AllGood ts → s.AllTerms Ast.Named
  | _, _, .term h _ _, hg => phrase_named h hg
  | _, _, .formula _ h, hg => phrase_named h hg.tail
  | _, _, .while_ _ h1 h2, hg => ⟨cond_named h1 hg.tail.left, block_named h2 hg.tail.right⟩
  | _, _, .for_ _ h1 h2, hg => ⟨cond_named h1 hg.tail.left, block_named h2 hg.tail.right⟩
  | _, _, .if_ _ h1 h2, hg => ⟨cond_named h1 hg.tail.left, block_named h2 hg.tail.right⟩
  | _, _, .ifElse _ h1 h2 _ h3, hg => ⟨cond_named h1 hg.tail.left.left, block_named h2 hg.tail.left.right, block_named h3 hg.tail.right.tail⟩
theorem block_named : ∀ {ts : List Tok} {b : List AStmt}, BlockPhrase ts b → AllGood ts → AStmt.AllTermsL Ast.Named b
  | _, _, .mk _ h _, hg => stmts_named h hg.tail.left
theorem stmts_named : ∀ {ts : List Tok} {b : List AStmt}, StmtsPhrase ts b → AllGood ts → AStmt.AllTermsL Ast.Named b
  | _, _, .nil, _ => trivial
  | _, _, .last h, hg => ⟨stmt_named h hg, trivial⟩
  | _, _, .semi h _ h', hg => ⟨stmt_named h hg.left, stmts_named h' hg.right.tail⟩
  | _, _, .block h _ h', hg => ⟨stmt_named h hg.left, stmts_named h' hg.right⟩
end

theorem planBody_named : ∀ {ts : List Tok} {b : List AStmt}, PlanBodyPhrase ts b → AllGood ts → b ≠ [] ∧ AStmt.AllTermsL Ast.Named b
  | _, _, .last h, hg => ⟨by simp, stmt_named h hg, trivial⟩
  | _, _, .semi h _ h', hg => ⟨by simp, stmt_named h hg.left, (planBody_named h' hg.right.tail).2⟩
  | _, _, .block h _ h', hg => ⟨by simp, stmt_named h hg.left, (planBody_named h' hg.right).2⟩

theorem event_named {ts : List Tok} {e : AEvent} (h : EventPhrase ts e) (hg : AllGood ts) :
    e.head.IsLit ∧ e.head.Named ∧ (e.goalType = .belief ∨ e.goalType = .achievement ∨ e.goalType = .test) := by
  cases h with
  | belief _ h => exact ⟨(lit_named h hg.tail).1, (lit_named h hg.tail).2, .inl rfl⟩
  | achievement _ _ h => exact ⟨(lit_named h hg.tail.tail).1, (lit_named h hg.tail.tail).2, .inr (.inl rfl)⟩
  | test _ _ h => exact ⟨(lit_named h hg.tail.tail).1, (lit_named h hg.tail.tail).2, .inr (.inr rfl)⟩

omit [Floats] [Unicode] in
theorem OptPhrase.has {α : Type} {k : Kind} {P : List Tok → α → Prop} {ts : List Tok} {o : Option α} (h : OptPhrase k P ts o)
    (hg : AllGood ts) : ∀ x ∈ o, ∃ us, P us x ∧ AllGood us := by
  cases h with
  | none => intro x hx; cases hx
  | some _ h => intro x hx; cases hx; exact ⟨_, h, hg.tail⟩

theorem clause_written {ts : List Tok} {c : Clause} (h : ClausePhrase ts c) (hg : AllGood ts) : c.Written := by
  cases h with
  | belief h => exact lit_named h hg
  | goal _ h => exact lit_named h hg.tail
  | rule h _ h' => exact ⟨(lit_named h hg.left).1, (lit_named h hg.left).2, phrase_named h' hg.right.tail⟩
  | plan h =>
    cases h with
    | mk h1 h2 h3 h4 =>
      have k1 := h1.has hg.left.left.left
      have k2 := event_named h2 hg.left.left.right
      have k3 := h3.has hg.left.right
      have k4 := h4.has hg.right
      refine ⟨⟨?_, k2.1, k2.2.2, ?_⟩, ⟨?_, k2.2.1, ?_, ?_⟩⟩
      · intro l hl; obtain ⟨us, p, q⟩ := k1 l hl; exact (lit_named p q).1
      · intro e
        obtain ⟨us, p, q⟩ := k4 [] (by simpa using e)
        exact (planBody_named p q).1 rfl
      · intro l hl; obtain ⟨us, p, q⟩ := k1 l hl; exact (lit_named p q).2
      · intro l hl; obtain ⟨us, p, q⟩ := k3 l hl; exact phrase_named p q
      · intro l hl; obtain ⟨us, p, q⟩ := k4 l hl; exact (planBody_named p q).2

theorem script_written {files : List Char → Option (List Tok)} (hf : ∀ p ts, files p = some ts → AllGood ts) {inc : List (List Char)}
    {file : List Char} {ts : List Tok} {cs : List Clause} (h : Script files inc file ts cs) : AllGood ts → ∀ c ∈ cs, c.Written := by
  induction h with
  | nil => intro _ c hc; cases hc
  | clause h _ _ ih =>
    intro hg c hc
    rcases List.mem_cons.1 hc with rfl | hc
    · exact clause_written h hg.left
    · exact ih hg.right.tail c hc
  | incl _ _ _ _ _ _ _ _ hfile _ _ ih1 ih2 =>
    intro hg c hc
    rcases List.mem_append.1 hc with hc | hc
    · exact ih1 (hf _ _ hfile) c hc
    · exact ih2 hg.tail.tail.tail.tail.tail.tail c hc
  | directive _ _ _ _ _ _ _ _ _ ih1 ih2 =>
    intro hg c hc
    have hg := hg.tail.tail.right.tail
    rcases List.mem_append.1 hc with hc | hc
    · exact ih1 hg.left c hc
    · exact ih2 hg.right.tail.tail.tail c hc

end

omit [Floats] in
/-- The parts of an agent are those of its clauses. -/
theorem agentOf_written {cs : List Clause} (h : ∀ c ∈ cs, c.Written) : (agentOf cs).Formed ∧ (agentOf cs).AllTerms Ast.Named := by
  have rules : ∀ r ∈ (agentOf cs).rules, (Clause.rule r).Written := by
    intro r hr
    obtain ⟨c, hc, e⟩ := List.mem_filterMap.1 hr
    cases c <;> cases e
    exact h _ hc
  have beliefs : ∀ r ∈ (agentOf cs).beliefs, (Clause.belief r).Written := by
    intro r hr
    obtain ⟨c, hc, e⟩ := List.mem_filterMap.1 hr
    cases c <;> cases e
    exact h _ hc
  have goals : ∀ r ∈ (agentOf cs).goals, (Clause.goal r).Written := by
    intro r hr
    obtain ⟨c, hc, e⟩ := List.mem_filterMap.1 hr
    cases c <;> cases e
    exact h _ hc
  have plans : ∀ r ∈ (agentOf cs).plans, (Clause.plan r).Written := by
    intro r hr
    obtain ⟨c, hc, e⟩ := List.mem_filterMap.1 hr
    cases c <;> cases e
    exact h _ hc
  exact ⟨⟨fun r hr => (rules r hr).1, fun r hr => (beliefs r hr).1, fun r hr => (goals r hr).1, fun r hr => (plans r hr).1⟩,
    ⟨fun r hr => (rules r hr).2, fun r hr => (beliefs r hr).2, fun r hr => (goals r hr).2, fun r hr => (plans r hr).2⟩⟩

end

/-! ## Folding -/

theorem Each.mem {α : Type} {R : α → α → Prop} {xs ys : List α} (h : Each R xs ys) : ∀ y ∈ ys, ∃ x ∈ xs, R x y := by
  induction h with
  | nil => intro y hy; cases hy
  | cons h _ ih =>
    intro y hy
    rcases List.mem_cons.1 hy with rfl | hy
    · exact ⟨_, by simp, h⟩
    · obtain ⟨x, hx, hr⟩ := ih y hy
      exact ⟨x, by simp [hx], hr⟩

theorem EachOpt.mem {α : Type} {R : α → α → Prop} {x y : Option α} (h : EachOpt R x y) : ∀ b ∈ y, ∃ a ∈ x, R a b := by
  cases h with
  | none => intro y hy; cases hy
  | some h => intro y hy; cases hy; exact ⟨_, rfl, h⟩

theorem Each.same {α : Type} {R : α → α → Prop} : ∀ {xs : List α}, Each R xs xs → ∀ x ∈ xs, R x x
  | [], _, x, hx => by cases hx
  | y :: ys, .cons h h', x, hx => by
    rcases List.mem_cons.1 hx with rfl | hx
    · exact h
    · exact Each.same h' x hx

theorem Each.map {α : Type} {R : α → α → Prop} {f g : α → α} : ∀ {xs : List α}, (∀ x ∈ xs, R (f x) (g x)) → Each R (xs.map f) (xs.map g)
  | [], _ => .nil
  | x :: xs, h => .cons (h x (by simp)) (Each.map fun y hy => h y (List.mem_cons_of_mem _ hy))

theorem EachOpt.map {α : Type} {R : α → α → Prop} {f g : α → α} {x : Option α} (h : ∀ a ∈ x, R (f a) (g a)) : EachOpt R (x.map f) (x.map g) := by
  cases x with
  | none => exact .none
  | some a => exact .some (h a rfl)

section
variable [Arith]

omit [Arith] in
theorem IsLit.folds [Arith] {v : Visitor} {a b : Ast} (h : FoldsTo v a b) (hl : a.IsLit) : b.IsLit := by
  obtain ⟨f, ts, as, rfl⟩ := hl
  obtain ⟨ts', as', rfl⟩ := h.lit
  exact ⟨_, _, _, rfl⟩

mutual
theorem stmtFolds_named : ∀ {s s' : AStmt}, StmtFolds s s' → s.AllTerms Ast.Named → s'.AllTerms Ast.Named
  | _, _, .term h, hn => h.named hn
  | _, _, .lit _ h, hn => h.named hn
  | _, _, .var _, hn => hn
  | _, _, .while_ h h', hn => ⟨h.named hn.1, stmtsFold_named h' hn.2⟩
  | _, _, .for_ h h', hn => ⟨h.named hn.1, stmtsFold_named h' hn.2⟩
  | _, _, .if_ h h', hn => ⟨h.named hn.1, stmtsFold_named h' hn.2⟩
  | _, _, .ifElse h h' h'', hn => ⟨h.named hn.1, stmtsFold_named h' hn.2.1, stmtsFold_named h'' hn.2.2⟩
theorem stmtsFold_named : ∀ {s s' : List AStmt}, StmtsFold s s' → AStmt.AllTermsL Ast.Named s → AStmt.AllTermsL Ast.Named s'
  | _, _, .nil, _ => trivial
  | _, _, .cons h h', hn => ⟨stmtFolds_named h hn.1, stmtsFold_named h' hn.2⟩
end

theorem planFolds_formed {p q : APlan} (h : PlanFolds p q) (hf : p.Formed) (hn : p.AllTerms Ast.Named) : q.Formed ∧ q.AllTerms Ast.Named := by
  refine ⟨⟨?_, IsLit.folds h.head hf.head, ?_, ?_⟩, ⟨?_, h.head.named hn.head, ?_, ?_⟩⟩
  · intro l hl
    obtain ⟨x, hx, hr⟩ := h.label.mem l hl
    exact IsLit.folds hr (hf.label x hx)
  · rw [h.goalType]; exact hf.goalType
  · intro e
    obtain ⟨x, hx, hr⟩ := h.body.mem [] (by simpa using e)
    cases hr
    exact hf.body (by simpa using hx)
  · intro l hl
    obtain ⟨x, hx, hr⟩ := h.label.mem l hl
    exact hr.named (hn.label x hx)
  · intro l hl
    obtain ⟨x, hx, hr⟩ := h.context.mem l hl
    exact hr.named (hn.context x hx)
  · intro l hl
    obtain ⟨x, hx, hr⟩ := h.body.mem l hl
    exact stmtsFold_named hr (hn.body x hx)

/-- Folding keeps the form of an agent. -/
theorem validAgent_formed {a b : AAgent} (h : ValidAgent a b) (hf : a.Formed) (hn : a.AllTerms Ast.Named) : b.Formed ∧ b.AllTerms Ast.Named := by
  refine ⟨⟨?_, ?_, ?_, ?_⟩, ⟨?_, ?_, ?_, ?_⟩⟩
  · intro y hy
    obtain ⟨x, hx, hr⟩ := h.rules.mem y hy
    exact IsLit.folds hr.head (hf.rules x hx)
  · intro y hy
    obtain ⟨x, hx, hr⟩ := h.beliefs.mem y hy
    exact IsLit.folds hr (hf.beliefs x hx)
  · intro y hy
    obtain ⟨x, hx, hr⟩ := h.goals.mem y hy
    exact IsLit.folds hr (hf.goals x hx)
  · intro y hy
    obtain ⟨x, hx, hr⟩ := h.plans.mem y hy
    exact (planFolds_formed hr (hf.plans x hx) (hn.plans x hx)).1
  · intro y hy
    obtain ⟨x, hx, hr⟩ := h.rules.mem y hy
    exact ⟨hr.head.named (hn.rules x hx).1, hr.consequence.named (hn.rules x hx).2⟩
  · intro y hy
    obtain ⟨x, hx, hr⟩ := h.beliefs.mem y hy
    exact hr.named (hn.beliefs x hx)
  · intro y hy
    obtain ⟨x, hx, hr⟩ := h.goals.mem y hy
    exact hr.named (hn.goals x hx)
  · intro y hy
    obtain ⟨x, hx, hr⟩ := h.plans.mem y hy
    exact (planFolds_formed hr (hf.plans x hx) (hn.plans x hx)).2

/-- A negative number is no formula. -/
theorem logical_positive {b : Ast} (h : FoldsTo .logical b b) : ¬b.IsNegative := by
  intro hn
  match b, hn with
  | .const (.num (.fin q)), _ => exact logError_not h

section
variable [Floats]

mutual
theorem stmt_shown : ∀ (s : AStmt), StmtFolds s s → s.AllTerms Ast.Named → s.AllTerms Ast.Clear → s.Shown
  | .formula ty t, h, hn, hc => by
    refine ⟨named_shown t hn hc, ?_⟩
    rintro rfl
    cases h with
    | term h => exact logical_positive h
    | lit hne _ => exact absurd rfl hne
    | var hne => exact absurd rfl hne
  | .while_ c b, h, hn, hc => by cases h with | while_ h h' => exact ⟨named_shown c hn.1 hc.1, stmts_shown b h' hn.2 hc.2⟩
  | .for_ c b, h, hn, hc => by cases h with | for_ h h' => exact ⟨named_shown c hn.1 hc.1, stmts_shown b h' hn.2 hc.2⟩
  | .if_ c b, h, hn, hc => by cases h with | if_ h h' => exact ⟨named_shown c hn.1 hc.1, stmts_shown b h' hn.2 hc.2⟩
  | .ifElse c b e, h, hn, hc => by
    cases h with | ifElse h h' h'' => exact ⟨named_shown c hn.1 hc.1, stmts_shown b h' hn.2.1 hc.2.1, stmts_shown e h'' hn.2.2 hc.2.2⟩
theorem stmts_shown : ∀ (s : List AStmt), StmtsFold s s → AStmt.AllTermsL Ast.Named s → AStmt.AllTermsL Ast.Clear s → AStmt.ShownL s
  | [], _, _, _ => trivial
  | s :: ss, h, hn, hc => by cases h with | cons h h' => exact ⟨stmt_shown s h hn.1 hc.1, stmts_shown ss h' hn.2 hc.2⟩
end

theorem agent_shown {b : AAgent} (h : ValidAgent b b) (hf : b.Formed) (hn : b.AllTerms Ast.Named) (hc : b.AllTerms Ast.Clear) : b.Shown := by
  refine ⟨fun r hr => ?_, fun x hx => ?_, fun x hx => ?_, fun p hp => ?_⟩
  · exact ⟨hf.rules r hr, named_shown _ (hn.rules r hr).1 (hc.rules r hr).1, named_shown _ (hn.rules r hr).2 (hc.rules r hr).2⟩
  · exact ⟨hf.beliefs x hx, named_shown _ (hn.beliefs x hx) (hc.beliefs x hx)⟩
  · exact ⟨hf.goals x hx, named_shown _ (hn.goals x hx) (hc.goals x hx)⟩
  · have hn := hn.plans p hp
    have hc := hc.plans p hp
    have hv := h.plans.same p hp
    refine ⟨hf.plans p hp, fun l hl => named_shown _ (hn.label l hl) (hc.label l hl), named_shown _ hn.head hc.head,
      fun l hl => named_shown _ (hn.context l hl) (hc.context l hl), fun l hl => ?_⟩
    obtain ⟨x, hx, hr⟩ := hv.body.mem l hl
    have : x = l := by rw [Option.mem_def] at hx hl; rw [hl] at hx; injection hx with e; exact e.symm
    subst this
    exact stmts_shown x hr (hn.body x hl) (hc.body x hl)

end

mutual
theorem stmt_raw : ∀ (s : AStmt), StmtFolds s s → StmtFolds (s.read Ast.raw) (s.read id)
  | .formula ty t, h => by
    cases h with
    | term h => exact .term h.raw
    | lit hne h => exact .lit hne h.raw
    | var hne => exact .var hne
  | .while_ c b, h => by cases h with | while_ h h' => exact .while_ h.raw (stmts_raw b h')
  | .for_ c b, h => by cases h with | for_ h h' => exact .for_ h.raw (stmts_raw b h')
  | .if_ c b, h => by cases h with | if_ h h' => exact .if_ h.raw (stmts_raw b h')
  | .ifElse c b [], h => by cases h with | ifElse h h' _ => exact .if_ h.raw (stmts_raw b h')
  | .ifElse c b (e :: es), h => by
    cases h with
    | ifElse h h' h'' =>
      cases h'' with
      | cons k k' => exact .ifElse h.raw (stmts_raw b h') (.cons (stmt_raw e k) (stmts_raw es k'))
theorem stmts_raw : ∀ (s : List AStmt), StmtsFold s s → StmtsFold (AStmt.reads Ast.raw s) (AStmt.reads id s)
  | [], _ => .nil
  | s :: ss, h => by cases h with | cons h h' => exact .cons (stmt_raw s h) (stmts_raw ss h')
end

/-- What is read has the same constants when it is folded. -/
theorem agent_raw {b : AAgent} (h : ValidAgent b b) : ValidAgent (b.read Ast.raw) b.tidy := by
  have opt : ∀ {α : Type} {R : α → α → Prop} {x : Option α}, EachOpt R x x → ∀ a ∈ x, R a a := by
    intro α R x h a ha
    cases h with
    | none => cases ha
    | some h => cases ha; exact h
  refine ⟨.map fun r hr => ?_, .map fun r hr => (h.beliefs.same r hr).raw, .map fun r hr => (h.goals.same r hr).raw, .map fun p hp => ?_,
    fun x hx => ?_, fun x hx => ?_, fun x hx => ?_⟩
  · exact ⟨(h.rules.same r hr).head.raw, (h.rules.same r hr).consequence.raw⟩
  · have hv := h.plans.same p hp
    exact ⟨.map fun l hl => (opt hv.label l hl).raw, rfl, rfl, hv.head.raw, .map fun l hl => (opt hv.context l hl).raw,
      .map fun l hl => stmts_raw l (opt hv.body l hl)⟩
  · obtain ⟨y, hy, rfl⟩ := List.mem_map.1 hx
    exact h.plainBeliefs y hy
  · obtain ⟨y, hy, rfl⟩ := List.mem_map.1 hx
    exact h.plainHeads y hy
  · obtain ⟨y, hy, rfl⟩ := List.mem_map.1 hx
    exact h.plainEvents y hy

end

/-! ## Empty branches -/

mutual
theorem stmt_tidy : ∀ (s : AStmt), s.Branches → s.read id = s
  | .formula _ _, _ => rfl
  | .while_ c b, h => by rw [AStmt.read, stmts_tidy b h]; rfl
  | .for_ c b, h => by rw [AStmt.read, stmts_tidy b h]; rfl
  | .if_ c b, h => by rw [AStmt.read, stmts_tidy b h]; rfl
  | .ifElse c b [], h => absurd rfl h.2.2
  | .ifElse c b (e :: es), h => by rw [AStmt.read, stmts_tidy b h.1, stmt_tidy e h.2.1.1, stmts_tidy es h.2.1.2]; rfl
theorem stmts_tidy : ∀ (s : List AStmt), AStmt.BranchesL s → AStmt.reads id s = s
  | [], _ => rfl
  | s :: ss, h => by rw [AStmt.reads, stmt_tidy s h.1, stmts_tidy ss h.2]
end

theorem map_same {α : Type} {f : α → α} {xs : List α} (h : ∀ x ∈ xs, f x = x) : xs.map f = xs := by
  induction xs with
  | nil => rfl
  | cons x xs ih => rw [List.map_cons, h x (by simp), ih fun y hy => h y (List.mem_cons_of_mem _ hy)]

theorem agent_tidy {b : AAgent} (h : b.Branches) : b.tidy = b := by
  obtain ⟨rs, bs, gs, ps⟩ := b
  have hp : ∀ p ∈ ps, p.read id = p := by
    rintro ⟨l, ⟨t, g, hd⟩, c, bd⟩ hm
    have := h _ hm
    cases l <;> cases c <;> cases bd <;> simp_all [APlan.read, stmts_tidy]
  simp only [AAgent.tidy, AAgent.read, List.map_id, map_same hp]
  congr 1
  exact map_same fun _ _ => rfl

end Verif
