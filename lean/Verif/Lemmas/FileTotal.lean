import Verif.Lemmas.ScriptTotal

/-! Parsing files ends, if the included files are few, and raises only some exceptions. -/

namespace Verif

variable {z : Nat}

/-- A computation ended, with an answer satisfying `P` or an exception satisfying `E`; or, if `z` is 1, there was not
enough fuel. -/
def Halts {α : Type} (z : Nat) (E : Err → Nat → Prop) (P : α → Nat → Prop) : Res Nat α → Prop
  | .ok a s => P a s
  | .err e s => E e s
  | .oof => z = 1

theorem Halts.bind {α β : Type} {E : Err → Nat → Prop} {P : α → Nat → Prop} {Q : β → Nat → Prop} {r : Res Nat α} {f : α → Nat → Res Nat β}
    (h : Halts z E P r) (hf : ∀ a s, P a s → Halts z E Q (f a s)) : Halts z E Q (r.bind f) := by
  match r, h with
  | .ok a s, h => exact hf a s h
  | .err e s, h => exact h
  | .oof, h => exact h

theorem Halts.mono {α : Type} {E E' : Err → Nat → Prop} {P P' : α → Nat → Prop} {r : Res Nat α} (h : Halts z E P r)
    (he : ∀ e s, E e s → E' e s) (hp : ∀ a s, P a s → P' a s) : Halts z E' P' r := by
  match r, h with
  | .ok a s, h => exact hp a s h
  | .err e s, h => exact he e s h
  | .oof, h => exact h

/-! ## Validation -/

/-- Exceptions of validation.  `infinite` is arithmetic with infinite numbers, which is not modelled. -/
def FoldError (e : Err) : Prop := e = .py "AttributeError" ∨ e = .py "OverflowError" ∨ e = .py "infinite"

/-- Validation always ends. -/
abbrev Folded {α : Type} (r : Res Nat α) : Prop := Halts 0 (fun e _ => FoldError e) (fun _ _ => True) r

mutual
theorem findVars_folded : ∀ a : Ast, (∃ xs, a.findVars = .ok xs) ∨ a.findVars = .err (.py "AttributeError")
  | .const _ => .inl ⟨_, by rw [Ast.findVars]⟩
  | .var x => .inl ⟨_, by rw [Ast.findVars]⟩
  | .lit _ ts as => by
    rw [Ast.findVars]
    rcases findVarsL_folded ts with ⟨xs, h⟩ | h
    · rw [h, Ev.bind_ok]
      rcases findVarsL_folded as with ⟨ys, h⟩ | h
      · rw [h]; exact .inl ⟨_, rfl⟩
      · rw [h]; exact .inr rfl
    · rw [h]; exact .inr rfl
  | .list ts => by rw [Ast.findVars]; exact findVarsL_folded ts
  | .linked _ _ => .inr (by rw [Ast.findVars])
  | .un _ a => by
    rw [Ast.findVars]
    rcases findVars_folded a with ⟨xs, h⟩ | h
    · rw [h]; exact .inl ⟨_, rfl⟩
    · rw [h]; exact .inr rfl
  | .bin _ l r => by
    rw [Ast.findVars]
    rcases findVars_folded l with ⟨xs, h⟩ | h
    · rw [h, Ev.bind_ok]
      rcases findVars_folded r with ⟨ys, h⟩ | h
      · rw [h]; exact .inl ⟨_, rfl⟩
      · rw [h]; exact .inr rfl
    · rw [h]; exact .inr rfl
theorem findVarsL_folded : ∀ as : List Ast, (∃ xs, Ast.findVarsL as = .ok xs) ∨ Ast.findVarsL as = .err (.py "AttributeError")
  | [] => .inl ⟨_, by rw [Ast.findVarsL]⟩
  | a :: as => by
    rw [Ast.findVarsL]
    rcases findVars_folded a with ⟨xs, h⟩ | h
    · rw [h, Ev.bind_ok]
      rcases findVarsL_folded as with ⟨ys, h⟩ | h
      · rw [h]; exact .inl ⟨_, rfl⟩
      · rw [h]; exact .inr rfl
    · rw [h]; exact .inr rfl
end

section
variable [Arith]

omit [Arith] in
theorem Folded.bind {α β : Type} {r : Res Nat α} {f : α → Nat → Res Nat β} (h : Folded r) (hf : ∀ a s, Folded (f a s)) : Folded (r.bind f) :=
  Halts.bind h fun a s _ => hf a s

omit [Arith] in
theorem foldUn_folded {op : UnOp} {a : Option Ast} {s : Nat} : Folded (foldUn op a s) := by
  unfold foldUn
  split <;> first | trivial | exact .inr (.inr rfl)

theorem numBin_folded {op : BinOp} {l r : Ast} {l' r' : Option Ast} {s : Nat} : Folded (numBin op l r l' r' s) := by
  unfold numBin
  split
  · split
    · split
      · trivial
      · split
        · trivial
        · exact .inr (.inl rfl)
    · exact .inr (.inr rfl)
  · trivial

omit [Arith] in
theorem boolBin_folded {op : BinOp} {l' r' : Option Ast} {s : Nat} : Folded (boolBin op l' r' s) := by
  unfold boolBin
  split <;> trivial

omit [Arith] in
theorem compBin_folded {op : BinOp} (hc : op.compOp = true) {l' r' : Option Ast} {s : Nat} : Folded (compBin op l' r' s) := by
  unfold compBin
  split
  · split
    · cases op <;> first | (cases hc; done) | (simp [pyCompare, Ev.map, Res.lift]; trivial)
    · exact .inr (.inr rfl)
  · cases op <;> first | (cases hc; done) | (simp [pyCompare, Ev.map, Res.lift]; trivial)
  · cases op <;> first | (cases hc; done) | (simp [pyCompare, Ev.map, Res.lift]; trivial)
  · trivial

mutual
theorem fold_folded : ∀ (v : Visitor) (a : Ast) (s : Nat), Folded (fold v a s)
  | v, .bin op l r, s => by
    rw [fold.eq_def]
    simp only
    split
    · split
      · exact (fold_folded _ l s).bind fun l' s => (fold_folded _ r s).bind fun r' s => numBin_folded
      · trivial
    · split
      · exact (fold_folded _ l s).bind fun l' s => (fold_folded _ r s).bind fun _ _ => trivial
      · split
        · exact (fold_folded _ l s).bind fun l' s => (fold_folded _ r s).bind fun r' s => boolBin_folded
        · split
          · exact (fold_folded _ l s).bind fun l' s => (fold_folded _ r s).bind fun r' s => compBin_folded ‹_›
          · trivial
  | v, .un op a, s => by
    rw [fold.eq_def]
    simp only
    split
    · split
      · exact (fold_folded _ a s).bind fun l' s => foldUn_folded
      · trivial
    · split
      · exact (fold_folded _ a s).bind fun l' s => foldUn_folded
      · trivial
  | v, .var x, s => by rw [fold.eq_def]; trivial
  | v, .const c, s => by
    rw [fold.eq_def]
    simp only
    split <;> trivial
  | v, .lit f ts as, s => by
    rw [fold.eq_def]
    simp only
    split
    · trivial
    · trivial
    · exact (foldL_folded ts s).bind fun ts' s => (foldL_folded as s).bind fun _ _ => trivial
  | v, .list ts, s => by
    rw [fold.eq_def]
    simp only
    split
    · trivial
    · trivial
    · trivial
    · exact (foldL_folded ts s).bind fun _ _ => trivial
  | v, .linked h t, s => by
    rw [fold.eq_def]
    simp only
    split
    · exact (fold_folded _ h s).bind fun l' s => (fold_folded _ t s).bind fun _ _ => trivial
    · exact .inl rfl
theorem foldL_folded : ∀ (as : List Ast) (s : Nat), Folded (foldL as s)
  | [], s => by rw [foldL]; trivial
  | a :: as, s => by
    rw [foldL]
    exact (fold_folded _ a s).bind fun a' s => (foldL_folded as s).bind fun _ _ => trivial
end

omit [Arith] in
theorem mapFold_folded {α : Type} {f : α → Nat → Res Nat (Option α)} (hf : ∀ x s, Folded (f x s)) : ∀ (xs : List α) (s : Nat), Folded (mapFold f xs s)
  | [], _ => trivial
  | x :: xs, s => by
    rw [mapFold]
    exact (hf x s).bind fun y s => (mapFold_folded hf xs s).bind fun _ _ => trivial

omit [Arith] in
theorem optFold_folded {α : Type} {f : α → Nat → Res Nat (Option α)} (hf : ∀ x s, Folded (f x s)) : ∀ (x : Option α) (s : Nat), Folded (optFold f x s)
  | none, _ => trivial
  | some x, s => (hf x s).bind fun _ _ => trivial

mutual
theorem foldStmt_folded : ∀ (x : AStmt) (s : Nat), Folded (foldStmt x s)
  | .formula ty t, s => by
    rw [foldStmt.eq_def]
    simp only
    split
    · exact (fold_folded _ t s).bind fun _ _ => trivial
    · split
      · exact (fold_folded _ _ s).bind fun _ _ => trivial
      · exact (fold_folded _ _ s).bind fun _ _ => trivial
      · trivial
  | .while_ c b, s => by rw [foldStmt]; exact (fold_folded _ c s).bind fun c' s => (foldStmts_folded b s).bind fun _ _ => trivial
  | .for_ c b, s => by rw [foldStmt]; exact (fold_folded _ c s).bind fun c' s => (foldStmts_folded b s).bind fun _ _ => trivial
  | .if_ c b, s => by rw [foldStmt]; exact (fold_folded _ c s).bind fun c' s => (foldStmts_folded b s).bind fun _ _ => trivial
  | .ifElse c b e, s => by
    rw [foldStmt]
    exact (fold_folded _ c s).bind fun c' s => (foldStmts_folded b s).bind fun b' s => (foldStmts_folded e s).bind fun _ _ => trivial
theorem foldStmts_folded : ∀ (xs : List AStmt) (s : Nat), Folded (foldStmts xs s)
  | [], s => by rw [foldStmts]; trivial
  | x :: xs, s => by rw [foldStmts]; exact (foldStmt_folded x s).bind fun y s => (foldStmts_folded xs s).bind fun _ _ => trivial
end

theorem foldRule_folded (r : ARule) (s : Nat) : Folded (foldRule r s) :=
  (fold_folded _ _ s).bind fun _ s => (fold_folded _ _ s).bind fun _ _ => trivial

theorem foldPlan_folded (p : APlan) (s : Nat) : Folded (foldPlan p s) :=
  (optFold_folded (fold_folded _) _ s).bind fun _ s => (fold_folded _ _ s).bind fun _ s =>
    (optFold_folded (fold_folded _) _ s).bind fun _ s => (optFold_folded foldStmts_folded _ s).bind fun _ _ => trivial

theorem foldAgent_folded (a : AAgent) (s : Nat) : Folded (foldAgent a s) :=
  (mapFold_folded foldRule_folded _ s).bind fun _ s => (mapFold_folded (fold_folded _) _ s).bind fun _ s =>
    (mapFold_folded (fold_folded _) _ s).bind fun _ s => (mapFold_folded foldPlan_folded _ s).bind fun _ _ => trivial

omit [Arith] in
theorem checkBelief_folded (b : Ast) (s : Nat) : Folded (checkBelief b s) := by
  rw [checkBelief]
  rcases findVars_folded b with ⟨xs, h⟩ | h
  · rw [h]
    show Folded (if _ then _ else _)
    split
    · exact .inl rfl
    · trivial
  · rw [h]; exact .inl rfl

omit [Arith] in
theorem checkBeliefs_folded : ∀ (bs : List Ast) (s : Nat), Folded (checkBeliefs bs s)
  | [], _ => trivial
  | b :: bs, s => (checkBelief_folded b s).bind fun _ s => checkBeliefs_folded bs s

theorem validate_folded (a : AAgent) (s : Nat) : Folded (validate a s) := by
  rw [validate]
  refine (foldAgent_folded a s).bind fun a s => ?_
  cases a with
  | none => trivial
  | some a => exact (checkBeliefs_folded _ s).bind fun _ _ => trivial

end

/-! ## Files -/

/-- An exception of `parse`: an error that has been logged, or one of these. -/
def Uncaught (e : Err) (s : Nat) : Prop := ((∃ m, e = .asl m) ∧ 0 < s) ∨ FoldError e ∨ e = .py "UnicodeDecodeError"

theorem parsing_halts {α : Type} {ts : List Tok} {x : PR α} (h : Parses z ts x) (s : Nat) :
    Halts z Uncaught (fun r _ => r.2 <:+ ts ∧ r.2.length < ts.length) (parsing x s) := by
  match x, h with
  | .ok (a, rs), h => exact h
  | .oof, h => exact h
  | .err _, .inl ⟨m, rfl⟩ => exact .inl ⟨⟨m, rfl⟩, Nat.succ_pos _⟩
  | .err _, .inr (.inl rfl) => exact .inl ⟨⟨_, rfl⟩, Nat.succ_pos _⟩
  | .err _, .inr (.inr rfl) => exact .inr (.inr rfl)

section
variable [Unicode] [Floats]

omit [Floats] in
theorem include_done {ts : List Tok} (hq : Quoted ts) : Parses z ts (parseInclude ts) := by
  rw [parseInclude]
  refine done_advance fun us hs hl _ => ?_
  refine Parses.suffix (us := us) ?_ hs
  refine done_expect fun vs hs2 hl2 hne => ?_
  cases vs with
  | nil => exact absurd rfl hne
  | cons t vs =>
    simp only
    split
    · rename_i hk
      rcases parseString_done (hq t ((hs2.trans hs).subset (by simp)) hk) with ⟨u, h⟩ | h
      · rw [h, Ev.bind_ok]
        refine Parses.suffix (us := t :: vs) ?_ hs2
        refine done_advance fun ws hs3 hl3 _ => ?_
        refine Parses.suffix (us := ws) ?_ hs3
        refine done_expect fun xs hs4 hl4 _ => ?_
        split
        · exact ⟨hs4, hl4⟩
        · exact done_syntax
      · rw [h]; exact .inr (.inr rfl)
    · exact done_syntax

theorem begin_done {n : Nat} {ts : List Tok} (hq : Quoted ts) (hn : 10 * ts.length + 1 ≤ n ∨ z = 1) : Parses z ts (parseBegin n ts) := by
  rw [parseBegin]
  refine done_advance fun us hs hl _ => ?_
  refine Parses.bind (((totalAt n).literal us (hq.suffix hs) (by omega)).suffix hs) fun a vs hs2 hl2 => ?_
  simp only
  split
  · exact ⟨hs2, hl2⟩
  · exact done_syntax

omit [Unicode] [Floats] in
theorem end_done {ts : List Tok} : Parses z ts (parseEnd ts) := by
  rw [parseEnd]
  refine done_advance fun us hs hl _ => ?_
  split
  · exact ⟨hs, hl⟩
  · exact done_syntax

variable [Arith]

omit [Unicode] [Floats] in
theorem close_halts {acc : Option AAgent} {rest ts : List Tok} (h : rest <:+ ts) (s : Nat) :
    Halts z Uncaught (fun r _ => r.2 <:+ ts) (closeAgent acc rest s) := by
  cases acc with
  | none => exact h
  | some a =>
    rw [closeAgent]
    have hv := validate_folded a s
    match validate a s, hv with
    | .ok b s', _ => exact h
    | .err e s', hv => exact .inr (.inl hv)
    | .oof, hv => cases hv

/-- How many of these paths may still be included. -/
def pathsLeft (D included : List (List Char)) : Nat := (D.filter fun p => decide (p ∉ included)).length

omit [Unicode] [Floats] [Arith] in
theorem pathsLeft_cons {D included : List (List Char)} {p : List Char} (hp : p ∈ D) (hi : p ∉ included) :
    pathsLeft D (p :: included) < pathsLeft D included := by
  have sub : ∀ E : List (List Char), pathsLeft E (p :: included) ≤ pathsLeft E included := by
    intro E
    unfold pathsLeft
    rw [← List.countP_eq_length_filter, ← List.countP_eq_length_filter]
    refine List.countP_mono_left fun q _ hq => ?_
    simp only [decide_eq_true_eq, List.mem_cons, not_or] at hq ⊢
    exact hq.2
  induction D with
  | nil => cases hp
  | cons q D ih =>
    unfold pathsLeft at ih sub ⊢
    rcases List.mem_cons.1 hp with rfl | hp
    · rw [List.filter_cons_of_neg (by simp), List.filter_cons_of_pos (by simp [hi])]
      simp only [List.length_cons]
      have := sub D
      omega
    · have := ih hp
      have := sub [q]
      simp only [List.filter_cons, List.filter_nil] at this ⊢
      split <;> split <;> simp_all <;> omega

/-- The files that can be included: under normalised names they are among `D` and have at most `L` tokens.  `Inv file ts`
says of the tokens to read from a file that included files have normalised names. -/
structure FewFiles (files : List Char → Option (List Tok)) (D : List (List Char)) (L : Nat) (Inv : List Char → List Tok → Prop) : Prop where
  mem : ∀ p ts, files p = some ts → normpath p = p → p ∈ D
  short : ∀ p ts, files p = some ts → normpath p = p → ts.length ≤ L
  suffix : ∀ file ts us, Inv file ts → us <:+ ts → Inv file us
  step : ∀ file us name rest ts, Inv file us → at? "include".toList us = true → parseInclude us = .ok (name, rest) →
    files (joinPath (dirname file) name) = some ts →
      normpath (joinPath (dirname file) name) = joinPath (dirname file) name ∧ Inv (joinPath (dirname file) name) ts

theorem agent_halts {files : List Char → Option (List Tok)} (hf : ∀ p ts, files p = some ts → Quoted ts) {D : List (List Char)} {L : Nat}
    {Inv : List Char → List Tok → Prop} (hD : FewFiles files D L Inv ∨ z = 1) : ∀ (n : Nat) (included : List (List Char)) (file : List Char) (dir : Bool) (acc : Option AAgent) (ts : List Tok)
      (s : Nat), Quoted ts → (10 * ts.length + 13 + pathsLeft D included * (10 * L + 14) ≤ n ∧ Inv file ts ∨ z = 1) →
      Halts z Uncaught (fun r _ => r.2 <:+ ts) (parseAgent files n included file dir acc ts s)
  | 0, included, file, dir, acc, ts, s, hq, hn => by show z = 1; omega
  | n + 1, included, file, dir, acc, ts, s, hq, hn => by
    have ih := agent_halts hf hD n
    have inv : ∀ us, us <:+ ts → Inv file us ∨ z = 1 := fun us hs => by
      rcases hD with hD | hz
      · exact hn.imp (fun h => hD.suffix _ _ _ h.2 hs) id
      · exact .inr hz
    have go : ∀ acc us s, us <:+ ts → us.length < ts.length → Halts z Uncaught (fun r _ => r.2 <:+ ts) (parseAgent files n included file dir acc us s) :=
      fun acc us s hs hl => (ih included file dir acc us s (hq.suffix hs) (by
        rcases hn with hn | hz
        · exact (inv us hs).imp (fun h => ⟨by omega, h⟩) id
        · exact .inr hz)).mono (fun _ _ h => h) (fun _ _ h => h.trans hs)
    have tail : ∀ {us vs : List Tok}, us <:+ vs → us.tail <:+ vs := fun h => (List.tail_suffix _).trans h
    have shorter : ∀ us : List Tok, us.tail.length ≤ us.length := fun us => by rw [List.length_tail]; omega
    rw [parseAgent.eq_def]
    cases ts with
    | nil =>
      simp only
      split
      · exact .inl ⟨⟨_, rfl⟩, Nat.succ_pos _⟩
      · exact close_halts (List.suffix_refl _) s
    | cons t us =>
      have hs0 : us <:+ t :: us := List.suffix_cons _ _
      have hl0 : us.length < (t :: us).length := by simp
      simp only
      split
      · split
        · rename_i hinc
          have hpi : Halts z Uncaught (fun r _ => (r.2 <:+ us ∧ r.2.length < us.length) ∧ parseInclude us = .ok r) (parsing (parseInclude us) s) := by
            have := parsing_halts (z := z) (include_done (hq.suffix hs0)) s
            cases hp : parseInclude us with
            | ok r => rw [hp] at this; exact ⟨this, rfl⟩
            | err e =>
              rw [hp] at this
              cases e with
              | asl m => exact this
              | py k =>
                simp only [parsing, raised] at this ⊢
                split at this <;> rename_i hk
                · rw [if_pos hk]; exact this
                · rw [if_neg hk]; exact this
            | oof => rw [hp] at this; exact this
          refine hpi.bind fun ⟨name, rest⟩ s ⟨h, hpi⟩ => ?_
          have hs1 : rest.tail <:+ t :: us := tail (h.1.trans hs0)
          have hl1 : rest.tail.length < (t :: us).length := by have := shorter rest; have := h.2; simp only at this; omega
          simp only
          split
          · exact go _ _ _ hs1 hl1
          · rename_i hni
            split
            · exact go _ _ _ hs1 hl1
            · rename_i toks hfile
              refine Halts.bind (P := fun _ _ => True) ?_ fun ⟨sub, _⟩ s _ => go _ _ _ hs1 hl1
              refine (ih _ _ _ _ toks s (hf _ _ hfile) ?_).mono (fun _ _ h => h) (fun _ _ _ => trivial)
              rcases hD with hD | hz
              · rcases hn with hn | hz
                · left
                  obtain ⟨hnorm, hinv⟩ := hD.step _ _ _ _ _ (hD.suffix _ _ _ hn.2 hs0) hinc hpi hfile
                  have hlt := pathsLeft_cons (hD.mem _ _ hfile hnorm) hni
                  rw [hnorm]
                  have hsh := hD.short _ _ hfile hnorm
                  have := Nat.mul_le_mul_right (10 * L + 14) (Nat.succ_le_of_lt hlt)
                  rw [Nat.succ_mul] at this
                  exact ⟨by omega, hinv⟩
                · exact .inr hz
              · exact .inr hz
        · split
          · refine (parsing_halts (begin_done (n := n) (z := z) (hq.suffix hs0) (by omega)) s).bind fun ⟨_, rest⟩ s h => ?_
            have hs1 : rest.tail <:+ t :: us := tail (h.1.trans hs0)
            have hl1 : rest.tail.length < (t :: us).length := by have := shorter rest; have := h.2; simp only at this; omega
            simp only
            refine (ih included file true (some {}) rest.tail s (hq.suffix hs1) (by
              rcases hn with hn | hz
              · exact (inv _ hs1).imp (fun h => ⟨by omega, h⟩) id
              · exact .inr hz)).bind fun ⟨sub, rest2⟩ s h2 => ?_
            exact go _ _ _ (h2.trans hs1) (Nat.lt_of_le_of_lt h2.length_le hl1)
          · split
            · refine (parsing_halts (z := z) (end_done (ts := us)) s).bind fun ⟨_, rest⟩ s h => ?_
              have hs1 : rest.tail <:+ t :: us := tail (h.1.trans hs0)
              have hl1 : rest.tail.length < (t :: us).length := by have := shorter rest; have := h.2; simp only at this; omega
              simp only
              split
              · exact close_halts hs1 s
              · exact go _ _ _ hs1 hl1
            · split
              · exact .inl ⟨⟨_, rfl⟩, Nat.succ_pos _⟩
              · exact .inl ⟨⟨_, rfl⟩, Nat.succ_pos _⟩
      · split
        · refine (parsing_halts (clause_done (n := n) (z := z) hq (by omega)) s).bind fun ⟨c, rest⟩ s h => ?_
          have hs1 : rest.tail <:+ t :: us := tail h.1
          have hl1 : rest.tail.length < (t :: us).length := by have := shorter rest; have := h.2; simp only at this; omega
          exact go _ _ _ hs1 hl1
        · exact go _ _ _ hs0 hl0

end

end Verif
