import Verif.Spec.Repl
import Verif.Lemmas.Prefix
import Verif.Props.ParseErrors
import Verif.Props.Step
import Verif.Props.Lexer

/-!
# C69, C70: commands at the prompt

What is executed does not depend on the division into lines.  What errors at the prompt do.
-/

namespace Verif

section
variable [Unicode] [Floats]

theorem planBody_ok {ts : List Tok} {b : List AStmt} (h : PlanBodyPhrase ts b) {t : Tok} (ht : t.kind = .fullstop)
    (hp : AllProper (ts ++ [t])) : ∃ N, ∀ n, N ≤ n → ∀ rs, parsePlanBody n (ts ++ t :: rs) = .ok (b, t :: rs) := by
  obtain ⟨N, h⟩ := planBody_accepted h hp.left
  exact ⟨N, fun n hn rs => h n hn t rs ⟨hp.right.head, ht⟩⟩

/-- With enough fuel, the tokens of a list of commands are parsed as these commands. -/
inductive Readable (n : Nat) : List Tok → List (List AStmt) → List Tok → Prop where
  | nil : Readable n [] [] []
  | begun {rest more b t} : more ≠ [] → parsePlanBody n (rest ++ more) = .ok (b, [t]) → Readable n rest [] rest
  | command {ts b t us bs rest} : parsePlanBody n (ts ++ t :: us) = .ok (b, t :: us) → Readable n us bs rest →
      Readable n (ts ++ t :: us) (b :: bs) rest

theorem Commands.readable {ts : List Tok} {bs : List (List AStmt)} {rest : List Tok} (h : Commands ts bs rest) (hp : AllProper ts) :
    ∃ N, ∀ n, N ≤ n → Readable n ts bs rest := by
  induction h with
  | nil => exact ⟨0, fun _ _ => .nil⟩
  | @begun rest more ts b t he hm hp' hb ht =>
    have hp2 : AllProper (ts ++ [t]) := by
      rw [← he]
      intro x hx
      exact (List.mem_append.1 hx).elim (hp x) (hp' x)
    obtain ⟨N, hN⟩ := planBody_ok hb ht hp2
    exact ⟨N, fun n hn => .begun hm (by rw [he]; exact hN n hn [])⟩
  | @command ts b t us bs rest hb ht _ ih =>
    have hp2 : AllProper (ts ++ [t]) := fun x hx => hp x (by
      rcases List.mem_append.1 hx with h | h
      · exact List.mem_append_left _ h
      · rw [List.mem_singleton.1 h]; simp)
    obtain ⟨N, hN⟩ := planBody_ok hb ht hp2
    obtain ⟨M, hM⟩ := ih hp.right.tail
    exact ⟨max N M, fun n hn => .command (hN n (by omega) us) (hM n (by omega))⟩

/-- The loop stops here: there is nothing, or something is missing. -/
def Unended (n : Nat) (ts : List Tok) : Prop := ts = [] ∨ parsePlanBody n ts = .err (.py "StopIteration")

theorem Readable.waits {n : Nat} {ts : List Tok} {bs : List (List AStmt)} {rest : List Tok} (h : Readable n ts bs rest)
    (hw : Unended n ts) : bs = [] ∧ ts = rest := by
  cases h with
  | nil => exact ⟨rfl, rfl⟩
  | begun => exact ⟨rfl, rfl⟩
  | command h _ =>
    rcases hw with hw | hw
    · simp at hw
    · rw [h] at hw; cases hw

theorem parse_some {n : Nat} {ts : List Tok} (hq : Quoted ts) (hn : 10 * ts.length + 12 ≤ n) : parsePlanBody n ts ≠ .oof := by
  have := planBody_done (z := 0) hq (.inl hn)
  intro h
  rw [h] at this
  cases this

/-- The loop with the first tokens: some of the commands are executed. -/
theorem loop_reads {σ : Type} {exec : List AStmt → σ → Res σ Unit} {n : Nat} : ∀ (k : Nat) (ts later : List Tok) (bs : List (List AStmt))
    (rest : List Tok) (s s' : σ), ts.length ≤ k → Quoted ts → 10 * ts.length + 12 ≤ n → Readable n (ts ++ later) bs rest →
    Performed exec bs s s' →
    ∃ bs' p s₁, replLoop n exec false k ts s = .ok p s₁ ∧ Unended n p ∧ Readable n (p ++ later) bs' rest ∧ Performed exec bs' s₁ s' ∧
      Quoted p ∧ p.length ≤ ts.length
  | _, [], later, bs, rest, s, s', _, hq, _, hr, hx => ⟨bs, [], s, by simp [replLoop], .inl rfl, hr, hx, hq, Nat.le_refl _⟩
  | 0, _ :: _, _, _, _, _, _, hk, _, _, _, _ => by simp at hk
  | k + 1, t :: ts, later, bs, rest, s, s', hk, hq, hn, hr, hx => by
    have hl : ∀ us, Longer us (parsePlanBody n (t :: ts)) (parsePlanBody n (t :: ts ++ us)) :=
      fun us => planBody_streams n (t :: ts) us (by simp)
    have wait : parsePlanBody n (t :: ts) = .err (.py "StopIteration") →
        ∃ bs' p s₁, replLoop n exec false (k + 1) (t :: ts) s = .ok p s₁ ∧ Unended n p ∧ Readable n (p ++ later) bs' rest ∧
          Performed exec bs' s₁ s' ∧ Quoted p ∧ p.length ≤ (t :: ts).length := fun h =>
      ⟨bs, t :: ts, s, by rw [replLoop, h]; rfl, .inr h, hr, hx, hq, Nat.le_refl _⟩
    -- what the parser does is determined by what it does with all the tokens
    have key : ∀ (us : List Tok) (b : List AStmt) (r : List Tok), parsePlanBody n (t :: ts ++ us) = .ok (b, r) →
        parsePlanBody n (t :: ts) = .err (.py "StopIteration") ∨
        ∃ r', r' ≠ [] ∧ parsePlanBody n (t :: ts) = .ok (b, r') ∧ r = r' ++ us := by
      intro us b r h
      have h1 := hl us
      have h0 := parse_some hq hn
      revert h1 h0
      generalize parsePlanBody n (t :: ts) = x
      intro h1 h0
      match x, h1, h0 with
      | .ok (a, r'), h1, _ =>
        rw [h1.2] at h
        cases h
        exact .inr ⟨r', h1.1, rfl, rfl⟩
      | .err e, .inl h1, _ => exact .inl (by rw [h1])
      | .err e, .inr h1, _ => rw [h1] at h; cases h
      | .oof, _, h0 => exact absurd rfl h0
    generalize hw : t :: ts ++ later = w at hr
    cases hr with
    | nil => simp at hw
    | @begun _ more b t' hm h =>
      rw [← hw, List.append_assoc] at h
      rcases key (later ++ more) b [t'] h with h | ⟨r', h2, _, h3⟩
      · exact wait h
      · obtain ⟨x, xs, rfl⟩ := List.exists_cons_of_ne_nil h2
        have h4 : (xs ++ later ++ more) = [] := by
          have := (List.cons.inj h3).2
          simpa using this.symm
        exact absurd (List.append_eq_nil_iff.1 h4).2 hm
    | @command cs b t' us bs _ h hr' =>
      rw [← hw] at h
      rcases key later b (t' :: us) h with h | ⟨r', h2, h1, h3⟩
      · exact wait h
      · obtain ⟨x, xs, rfl⟩ := List.exists_cons_of_ne_nil h2
        obtain ⟨rfl, rfl⟩ := List.cons.inj h3
        cases hx with
        | @cons _ _ _ s₂ _ he hx =>
          have hs := planBody_done (z := 0) hq (.inl hn)
          rw [h1] at hs
          have hlen : xs.length + 1 ≤ ts.length := by
            have := hs.2
            simp only [List.length_cons] at this
            omega
          have hk' : ts.length + 1 ≤ k + 1 := hk
          have hn' : 10 * (ts.length + 1) + 12 ≤ n := hn
          obtain ⟨bs', p, s₁, g1, g2, g3, g4, g5, g6⟩ := loop_reads k xs later bs rest s₂ s' (by omega)
            (hq.suffix ((List.suffix_cons _ _).trans hs.1)) (by omega) hr' hx
          refine ⟨bs', p, s₁, ?_, g2, g3, g4, g5, ?_⟩
          · rw [replLoop, h1]
            simp only [he, Bool.false_eq_true, if_false]
            exact g1
          · simp only [List.length_cons]
            omega

omit [Floats] in
theorem Typed.good {ls : List (List Char)} {ts : List Tok} (h : Typed ls ts) : AllProper ts ∧ Quoted ts := by
  induction h with
  | nil => exact ⟨fun _ h => (by cases h), fun _ h => (by cases h)⟩
  | cons h _ _ ih =>
    exact ⟨fun x hx => (List.mem_append.1 hx).elim (C44_tokens h x) (ih.1 x),
      fun x hx => (List.mem_append.1 hx).elim (C56_tokens h x) (ih.2 x)⟩

theorem line_reads {σ : Type} {exec : List AStmt → σ → Res σ Unit} {n : Nat} {l : List Char} {evs : List (Nat × LexEv)}
    (h : tokenize 1 (fileLines l) = some evs) (hi : ∀ c col n, (n, LexEv.illegal c col) ∉ evs) (pend : List Tok) (s : σ) :
    replLine n exec l pend s =
      replLoop n exec false (pend ++ toksOf (evs.map Prod.snd)).length (pend ++ toksOf (evs.map Prod.snd)) s := by
  have h0 : evs.countP (·.2.isIllegal) = 0 := by
    rw [List.countP_eq_zero]
    rintro ⟨i, ev⟩ he
    cases ev with
    | tok t => exact Bool.false_ne_true
    | illegal c col => exact absurd he (hi c col i)
  unfold replLine
  rw [h]
  simp only [h0]
  rfl

theorem session_reads {σ : Type} {exec : List AStmt → σ → Res σ Unit} {n : Nat} {ls : List (List Char)} {ts : List Tok} (ht : Typed ls ts) :
    ∀ {pend : List Tok} {bs : List (List AStmt)} {rest : List Tok} {s s' : σ}, Quoted pend → 10 * (pend ++ ts).length + 12 ≤ n →
      Unended n pend → Readable n (pend ++ ts) bs rest → Performed exec bs s s' → replSession n exec ls pend s = .ok rest s' := by
  induction ht with
  | nil =>
    intro pend bs rest s s' _ _ hw hr hx
    rw [List.append_nil] at hr
    obtain ⟨rfl, rfl⟩ := hr.waits hw
    cases hx
    rfl
  | @cons l ls evs ts h hi _ ih =>
    intro pend bs rest s s' hq hn _ hr hx
    have hT := C56_tokens h
    have hl := fun s => line_reads (n := n) (exec := exec) h hi pend s
    rw [replSession, hl s]
    clear h hi hl
    generalize toksOf (evs.map Prod.snd) = T at *
    have hq2 : Quoted (pend ++ T) := fun x hx => (List.mem_append.1 hx).elim (hq x) (hT x)
    simp only [List.length_append] at hn
    obtain ⟨bs', p, s₁, g1, g2, g3, g4, g5, g6⟩ := loop_reads (exec := exec) (n := n) _ (pend ++ T) ts bs rest s s'
      (Nat.le_refl _) hq2 (by simp only [List.length_append]; omega) (by rw [List.append_assoc]; exact hr) hx
    rw [g1, Res.bind_ok]
    simp only [List.length_append] at g6
    exact ih g5 (by simp only [List.length_append]; omega) g2 g3 g4

/-- What is executed at the prompt does not depend on how the text is divided into lines:
if the tokens of all lines are commands, perhaps followed by the beginning of another one, then
exactly these commands are executed, and the beginning is kept.  Every line is read on its own (`Typed`). -/
theorem C69_partial {σ : Type} {exec : List AStmt → σ → Res σ Unit} {ls : List (List Char)} {ts : List Tok} (ht : Typed ls ts)
    {bs : List (List AStmt)} {rest : List Tok} (hc : Commands ts bs rest) {s s' : σ} (hx : Performed exec bs s s') :
    ∃ N, ∀ n, N ≤ n → replSession n exec ls [] s = .ok rest s' := by
  obtain ⟨N, hN⟩ := hc.readable ht.good.1
  refine ⟨max N (10 * ts.length + 12), fun n hn => ?_⟩
  exact session_reads ht (fun _ h => by cases h) (by rw [List.nil_append]; omega) (.inl rfl) (hN n (by omega)) hx

/-! ## Lines at the prompt and lines of a file -/

omit [Floats] in
theorem scanLines_closed {ls : List (List Char)} : ∀ {n : Nat} {evs : List (Nat × LexEv)}, scanLines false n ls = some evs →
    (∀ l ∈ ls, ∃ evs, scanLine false l = some (evs, false)) →
    evs.map Prod.snd = ls.flatMap fun l => ((scanLine false l).map Prod.fst).getD [] := by
  induction ls with
  | nil => intro n evs h _; cases h; rfl
  | cons l ls ih =>
    intro n evs h hc
    obtain ⟨evs', hl⟩ := hc l List.mem_cons_self
    rw [scanLines, hl] at h
    simp only at h
    obtain ⟨rest, hr, rfl⟩ := Option.map_eq_some_iff.1 h
    rw [List.flatMap_cons, hl, ← ih hr fun l hl => hc l (List.mem_cons_of_mem _ hl)]
    simp [List.map_append, Function.comp_def]

omit [Unicode] [Floats] in
theorem fileLines_single : ∀ {l : List Char}, '\n' ∉ l → l ≠ [] → fileLines l = [l]
  | [], _, h => absurd rfl h
  | [c], h, _ => by
    have : c ≠ '\n' := fun e => h (by simp [e])
    simp [fileLines, this]
  | c :: d :: cs, h, _ => by
    have h1 : c ≠ '\n' := fun e => h (by simp [e])
    have h2 := fileLines_single (l := d :: cs) (fun e => h (List.mem_cons_of_mem _ e)) (by simp)
    rw [fileLines, if_neg h1, h2]

omit [Floats] in
theorem line_toks {l : List Char} (hn : '\n' ∉ l) {evs : List (Nat × LexEv)} (h : tokenize 1 (fileLines l) = some evs) :
    evs.map Prod.snd = ((scanLine false l).map Prod.fst).getD [] := by
  by_cases hl : l = []
  · subst hl
    cases h
    rfl
  · rw [fileLines_single hn hl, tokenize, scanLines] at h
    cases hs : scanLine false l with
    | none => rw [hs] at h; cases h
    | some r =>
      rw [hs] at h
      obtain ⟨evs', b⟩ := r
      simp only [scanLines, Option.map_some, List.append_nil, Option.some.injEq] at h
      subst h
      simp [Function.comp_def]

omit [Floats] in
/-- If no line ends within a block comment, then the tokens at the prompt are those of a file with
the same lines. -/
theorem C69_file_partial {ls : List (List Char)} {ts : List Tok} (ht : Typed ls ts) (hn : ∀ l ∈ ls, '\n' ∉ l)
    (hc : ∀ l ∈ ls, ∃ evs, scanLine false l = some (evs, false)) :
    ∃ evs, tokenize 1 ls = some evs ∧ toksOf (evs.map Prod.snd) = ts := by
  obtain ⟨evs, h, hz⟩ := scanLines_covers ls false 1
  refine ⟨evs, h, ?_⟩
  rw [scanLines_closed h hc]
  clear h hz evs
  induction ht with
  | nil => rfl
  | @cons l ls evs ts h _ _ ih =>
    rw [List.flatMap_cons, toksOf, List.filterMap_append, ← line_toks (hn l List.mem_cons_self) h]
    exact congrArg _ (ih (fun l hl => hn l (List.mem_cons_of_mem _ hl)) fun l hl => hc l (List.mem_cons_of_mem _ hl))

/-! ## C70: lines and commands that are rejected -/

theorem replLine_eq {σ : Type} {exec : List AStmt → σ → Res σ Unit} {n : Nat} {l : List Char} {evs : List (Nat × LexEv)}
    (h : tokenize 1 (fileLines l) = some evs) (pend : List Tok) (s : σ) :
    replLine n exec l pend s = if evs.countP (·.2.isIllegal) ≥ 3 then .ok [] s
      else replLoop n exec (evs.countP (·.2.isIllegal) ≠ 0) (pend ++ toksOf (evs.map Prod.snd)).length (pend ++ toksOf (evs.map Prod.snd)) s := by
  unfold replLine
  rw [h]

/-- After a line with an illegal character, nothing has been executed and nothing is pending, unless
the exception is that of an invalid string, which ends the session. -/
theorem C70_illegal_partial {σ : Type} {exec : List AStmt → σ → Res σ Unit} {n : Nat} {l : List Char} {evs : List (Nat × LexEv)}
    (h : tokenize 1 (fileLines l) = some evs) {i : Nat} {c : Char} {col : Nat} (hi : (i, LexEv.illegal c col) ∈ evs) {pend : List Tok}
    (hq : Quoted pend) (hn : 10 * (pend ++ toksOf (evs.map Prod.snd)).length + 12 ≤ n) (s : σ) :
    replLine n exec l pend s = .ok [] s ∨ replLine n exec l pend s = .err (.py "UnicodeDecodeError") s := by
  have hT := C56_tokens h
  have h0 : evs.countP (·.2.isIllegal) ≠ 0 := fun e => by
    rw [List.countP_eq_zero] at e
    exact e _ hi rfl
  rw [replLine_eq h]
  generalize toksOf (evs.map Prod.snd) = T at *
  split
  · exact .inl rfl
  · rw [show decide (evs.countP (·.2.isIllegal) ≠ 0) = true from decide_eq_true h0]
    have hq2 : Quoted (pend ++ T) := fun x hx => (List.mem_append.1 hx).elim (hq x) (hT x)
    generalize pend ++ T = ts at *
    match ts with
    | [] => exact .inl rfl
    | t :: ts =>
      rw [List.length_cons, replLoop]
      have := planBody_done (z := 0) hq2 (.inl hn)
      match hp : parsePlanBody n (t :: ts), this with
      | .ok (b, r), _ => exact .inl rfl
      | .err e, he =>
        rcases he with ⟨m, rfl⟩ | rfl | rfl
        · exact .inl rfl
        · exact .inl rfl
        · exact .inr rfl
      | .oof, he => cases he

/-- After a syntax error the session goes on as if the line had not been typed; nothing is pending. -/
theorem C70_syntax {σ : Type} {exec : List AStmt → σ → Res σ Unit} {n : Nat} {l : List Char} {evs : List (Nat × LexEv)}
    (h : tokenize 1 (fileLines l) = some evs) {pend : List Tok} {m : String}
    (hp : parsePlanBody n (pend ++ toksOf (evs.map Prod.snd)) = .err (.asl m)) (ls : List (List Char)) (s : σ) :
    replSession n exec (l :: ls) pend s = replSession n exec ls [] s := by
  have hl : replLine n exec l pend s = .ok [] s := by
    rw [replLine_eq h]
    generalize toksOf (evs.map Prod.snd) = T at *
    split
    · rfl
    · generalize pend ++ T = ts at *
      match ts with
      | [] => rfl
      | t :: ts => rw [List.length_cons, replLoop, hp]
  rw [replSession, hl, Res.bind_ok]

end

section
variable [Host]

/-- A command that cannot be built changes nothing but the variables that are known, and where the intention of the session
would go on. -/
theorem C70_rejected {acts : Lookup} {n k a : Nat} {b : List AStmt} {s : ReplSt}
    (h : (∃ e t, makeStmts acts b { tab := ⟨s.names, s.st.nv⟩ } = .err e t) ∨
      ∃ ss t, makeStmts acts b { tab := ⟨s.names, s.st.nv⟩ } = .ok ss t ∧ t.errs ≠ 0) :
    ∃ e s', replExec acts n k a b s = .err e s' ∧ s'.st.w.ags = s.st.w.ags ∧ s'.st.w.sets = s.st.w.sets ∧
      s'.st.w.plists = s.st.w.plists ∧ s'.st.w.reg = s.st.w.reg ∧ s'.st.w.events = s.st.w.events ∧ s'.st.w.ticks = s.st.w.ticks ∧
      (∀ i, i ≠ s.int → s'.st.w.ints i = s.st.w.ints i) ∧
      s'.st.w.ints s.int = { s.st.w.ints s.int with instr := (s'.st.w.ints s.int).instr } := by
  rcases h with ⟨e, t, h⟩ | ⟨ss, t, h, he⟩
  · refine ⟨e, s.built t (s.st.w.code.alloc .noop), by unfold replExec; rw [h], rfl, rfl, rfl, rfl, rfl, rfl, fun i hi => ?_, ?_⟩
    · exact if_neg hi
    · simp [ReplSt.built, World.modInt, World.setInt]
  · refine ⟨.asl "errors", s.built t (s.st.w.code.alloc .noop), by unfold replExec; rw [h]; simp only; rw [if_pos he], rfl, rfl, rfl, rfl, rfl, rfl,
      fun i hi => ?_, ?_⟩
    · exact if_neg hi
    · simp [ReplSt.built, World.modInt, World.setInt]

end

/-! ## Witnesses and examples -/

section examples
attribute [local instance] asciiText toyFloats exactHost

/-- A block comment that is open at the end of a line is not open in the next one: the file has no
tokens at all. -/
theorem C69_false : ¬∀ (ls : List (List Char)) (evs : List (Nat × LexEv)) (ts : List Tok), tokenize 1 ls = some evs → Typed ls ts →
    ts = toksOf (evs.map Prod.snd) := fun h => by
  have ht : Typed ["/* a".toList, "+b. */".toList]
      ([] ++ ([⟨['+'], .opPlus, 0, 1⟩, ⟨['b'], .functor, 1, 2⟩, ⟨['.'], .fullstop, 2, 3⟩, ⟨['*'], .opMult, 4, 5⟩, ⟨['/'], .opFdiv, 5, 6⟩] ++ [])) :=
    .cons (evs := []) (by rfl) (by simp) (.cons (evs := [(1, .tok ⟨['+'], .opPlus, 0, 1⟩), (1, .tok ⟨['b'], .functor, 1, 2⟩),
      (1, .tok ⟨['.'], .fullstop, 2, 3⟩), (1, .tok ⟨['*'], .opMult, 4, 5⟩), (1, .tok ⟨['/'], .opFdiv, 5, 6⟩)]) (by rfl) (by simp) .nil)
  have := h _ [] _ (by rfl) ht
  cases this

/-- Executing a command: it is noted. -/
private def noted (b : List AStmt) (s : List (List AStmt)) : Res (List (List AStmt)) Unit := .ok () (s ++ [b])

/-- Two commands and the beginning of another one in two lines. -/
example : replSession 40 noted ["+a; +".toList, "b. -c. ?d".toList] [] [] =
    .ok [⟨['?'], .question, 7, 8⟩, ⟨['d'], .functor, 8, 9⟩]
      [[.formula .add (.lit ['a'] [] []), .formula .add (.lit ['b'] [] [])], [.formula .remove (.lit ['c'] [] [])]] := by
  have h1 : tokenize 1 (fileLines "+a; +".toList) = some [(1, .tok ⟨['+'], .opPlus, 0, 1⟩), (1, .tok ⟨['a'], .functor, 1, 2⟩),
      (1, .tok ⟨[';'], .semicolon, 2, 3⟩), (1, .tok ⟨['+'], .opPlus, 4, 5⟩)] := by rfl
  have h2 : tokenize 1 (fileLines "b. -c. ?d".toList) = some [(1, .tok ⟨['b'], .functor, 0, 1⟩), (1, .tok ⟨['.'], .fullstop, 1, 2⟩),
      (1, .tok ⟨['-'], .opMinus, 3, 4⟩), (1, .tok ⟨['c'], .functor, 4, 5⟩), (1, .tok ⟨['.'], .fullstop, 5, 6⟩),
      (1, .tok ⟨['?'], .question, 7, 8⟩), (1, .tok ⟨['d'], .functor, 8, 9⟩)] := by rfl
  have g1 : replLine 40 noted "+a; +".toList [] [] = .ok [⟨['+'], .opPlus, 0, 1⟩, ⟨['a'], .functor, 1, 2⟩, ⟨[';'], .semicolon, 2, 3⟩,
      ⟨['+'], .opPlus, 4, 5⟩] [] := by
    rw [line_reads h1 (by simp)]
    with_unfolding_all rfl
  rw [replSession, g1, Res.bind_ok, replSession, line_reads h2 (by simp)]
  with_unfolding_all rfl

/-- The tokens of `+a; +` / `b. ?d` are a command and the beginning of another one. -/
example : ∃ ts rest, Typed ["+a; +".toList, "b. ?d".toList] ts ∧
    Commands ts [[.formula .add (.lit ['a'] [] []), .formula .add (.lit ['b'] [] [])]] rest ∧ rest ≠ [] := by
  refine ⟨_, [⟨['?'], .question, 3, 4⟩, ⟨['d'], .functor, 4, 5⟩],
    .cons (evs := [(1, .tok ⟨['+'], .opPlus, 0, 1⟩), (1, .tok ⟨['a'], .functor, 1, 2⟩), (1, .tok ⟨[';'], .semicolon, 2, 3⟩),
        (1, .tok ⟨['+'], .opPlus, 4, 5⟩)]) (by rfl) (by simp)
      (.cons (evs := [(1, .tok ⟨['b'], .functor, 0, 1⟩), (1, .tok ⟨['.'], .fullstop, 1, 2⟩), (1, .tok ⟨['?'], .question, 3, 4⟩),
        (1, .tok ⟨['d'], .functor, 4, 5⟩)]) (by rfl) (by simp) .nil), ?_, by simp⟩
  have hp : AllProper [⟨['+'], .opPlus, 0, 1⟩, ⟨['a'], .functor, 1, 2⟩, ⟨[';'], .semicolon, 2, 3⟩, ⟨['+'], .opPlus, 4, 5⟩, ⟨['b'], .functor, 0, 1⟩,
      ⟨['.'], .fullstop, 1, 2⟩] := C44_tokens (l := 1) (lines := ["+a; +".toList, "b.".toList])
        (evs := [(1, .tok ⟨['+'], .opPlus, 0, 1⟩), (1, .tok ⟨['a'], .functor, 1, 2⟩), (1, .tok ⟨[';'], .semicolon, 2, 3⟩),
        (1, .tok ⟨['+'], .opPlus, 4, 5⟩), (2, .tok ⟨['b'], .functor, 0, 1⟩), (2, .tok ⟨['.'], .fullstop, 1, 2⟩)]) (by rfl)
  have hq : AllProper [⟨['?'], .question, 3, 4⟩, ⟨['d'], .functor, 4, 5⟩, ⟨['.'], .fullstop, 0, 1⟩] :=
    C44_tokens (l := 1) (lines := ["   ?d".toList, ".".toList])
        (evs := [(1, .tok ⟨['?'], .question, 3, 4⟩), (1, .tok ⟨['d'], .functor, 4, 5⟩), (2, .tok ⟨['.'], .fullstop, 0, 1⟩)]) (by rfl)
  obtain ⟨us, hu, hb⟩ := planBody_sound (n := 40) hp (a := [.formula .add (.lit ['a'] [] []), .formula .add (.lit ['b'] [] [])])
    (rs := [⟨['.'], .fullstop, 1, 2⟩]) (by with_unfolding_all rfl)
  obtain ⟨vs, hv, hd⟩ := planBody_sound (n := 40) hq (a := [.formula .test (.lit ['d'] [] [])])
    (rs := [⟨['.'], .fullstop, 0, 1⟩]) (by with_unfolding_all rfl)
  have h1 := Commands.command hb (t := ⟨['.'], .fullstop, 1, 2⟩) rfl
    (.begun (rest := [⟨['?'], .question, 3, 4⟩, ⟨['d'], .functor, 4, 5⟩]) (more := [⟨['.'], .fullstop, 0, 1⟩]) hv (by simp)
      (fun x hx => hq x (by simp at hx; simp [hx])) hd rfl)
  rw [show us ++ ⟨['.'], .fullstop, 1, 2⟩ :: [⟨['?'], .question, 3, 4⟩, ⟨['d'], .functor, 4, 5⟩] =
    (us ++ [⟨['.'], .fullstop, 1, 2⟩]) ++ [⟨['?'], .question, 3, 4⟩, ⟨['d'], .functor, 4, 5⟩] by simp, ← hu] at h1
  exact h1

/-- An invalid string ends the session. -/
theorem C70_string_false {σ : Type} (exec : List AStmt → σ → Res σ Unit) (s : σ) :
    replLine 60 exec "p(\"\\x\").".toList [] s = .err (.py "UnicodeDecodeError") s := by
  have h : tokenize 1 (fileLines "p(\"\\x\").".toList) = some [(1, .tok ⟨['p'], .functor, 0, 1⟩), (1, .tok ⟨['('], .parenOpen, 1, 2⟩),
      (1, .tok ⟨['\"', '\\', 'x', '\"'], .string, 2, 6⟩), (1, .tok ⟨[')'], .parenClose, 6, 7⟩), (1, .tok ⟨['.'], .fullstop, 7, 8⟩)] := by rfl
  rw [line_reads h (by simp)]
  with_unfolding_all rfl

/-- A list as a command ends the session as well: there is no method for it. -/
theorem C70_list_false (acts : Lookup) (n k a : Nat) (s : ReplSt) :
    ∃ s', replExec acts n k a [.formula .term (.list [])] s = .err (.py "AttributeError") s' := ⟨_, rfl⟩

/-- `+!g <- +b(X).` -/
private def raising : AgentSrc where
  plans := [simplePlan "g" [.add (.lit "b" [.var 0] [])]]

/-- The world with an agent that runs `raising`, at the beginning of a session. -/
private def prompt₀ : ReplSt := replStart ((started (fun _ => 0) raising).getD ⟨BSt.init, 0, World.init fun _ => 0⟩)

/-- `+a; X + X.` is rejected; `a` is not added. -/
example (n k a : Nat) (s : ReplSt) : ∃ e s', replExec (fun _ _ => none) n k a [.formula .add (.lit ['a'] [] []), .formula .term (.bin .add (.var ['X']) (.var ['X']))] s = .err e s' ∧
    s'.st.w.ags = s.st.w.ags :=
  have ⟨e, s', h, h1, _⟩ := C70_rejected (n := n) (k := k) (a := a) (s := s) (acts := fun _ _ => none)
    (b := [.formula .add (.lit ['a'] [] []), .formula .term (.bin .add (.var ['X']) (.var ['X']))]) (.inr ⟨_, _, rfl, Nat.succ_ne_zero 0⟩)
  ⟨e, s', h, h1⟩

/-- Nothing of `+a. ^` is executed, but everything of `+a. !.` before the error. -/
example : replLine 60 noted "+a. ^".toList [] [] = .ok [] [] ∧
    replLine 60 noted "+a. !.".toList [] [] = .ok [] [[.formula .add (.lit ['a'] [] [])]] := by
  refine ⟨(C70_illegal_partial (evs := [(1, .tok ⟨['+'], .opPlus, 0, 1⟩), (1, .tok ⟨['a'], .functor, 1, 2⟩), (1, .tok ⟨['.'], .fullstop, 2, 3⟩),
    (1, .illegal '^' 4)]) (by rfl) (i := 1) (c := '^') (col := 4) (by simp) (pend := []) (fun _ h => (by cases h)) (by decide) _).resolve_right ?_, ?_⟩
  · rw [replLine_eq (evs := [(1, .tok ⟨['+'], .opPlus, 0, 1⟩), (1, .tok ⟨['a'], .functor, 1, 2⟩), (1, .tok ⟨['.'], .fullstop, 2, 3⟩),
      (1, .illegal '^' 4)]) (by rfl)]
    intro h
    have : Res.ok (σ := List (List AStmt)) ([] : List Tok) [] = .err (.py "UnicodeDecodeError") [] := (by with_unfolding_all exact h)
    cases this
  · rw [line_reads (evs := [(1, .tok ⟨['+'], .opPlus, 0, 1⟩), (1, .tok ⟨['a'], .functor, 1, 2⟩), (1, .tok ⟨['.'], .fullstop, 2, 3⟩),
      (1, .tok ⟨['!'], .exclam, 4, 5⟩), (1, .tok ⟨['.'], .fullstop, 5, 6⟩)]) (by rfl) (by simp)]
    with_unfolding_all rfl

private def outcome : Res ReplSt Unit → Option (Option Err)
  | .ok _ _ => some none
  | .err e _ => some (some e)
  | .oof => none

private def afterwards : Res ReplSt Unit → ReplSt
  | .ok _ s => s
  | .err _ s => s
  | .oof => prompt₀

private theorem outcome_err {r : Res ReplSt Unit} {e : Err} (h : outcome r = some (some e)) : r = .err e (afterwards r) := by
  cases r <;> cases h; rfl

private theorem outcome_ok {r : Res ReplSt Unit} (h : outcome r = some none) : r = .ok () (afterwards r) := by
  cases r <;> cases h; rfl

/-- After `!g.`, whose plan raises, the command `+c.` is not executed any more: the error is
reported again.  Without the first command, it is executed. -/
theorem C70_false : ∃ s₁ s₂ s₃ : ReplSt,
    replExec (fun _ _ => none) 9 9 0 [.formula .achieve (.lit ['g'] [] [])] prompt₀ = .err (.py "AggregatedError") s₁ ∧
    replExec (fun _ _ => none) 9 9 0 [.formula .add (.lit ['c'] [] [])] s₁ = .err (.py "AggregatedError") s₂ ∧
    s₂.st.w.beliefs 0 ("c", 0) = [] ∧
    replExec (fun _ _ => none) 9 9 0 [.formula .add (.lit ['c'] [] [])] prompt₀ = .ok () s₃ ∧
    s₃.st.w.beliefs 0 ("c", 0) = [goalNamed "c"] :=
  ⟨_, _, _, outcome_err (by rfl), outcome_err (by rfl), by rfl, outcome_ok (by rfl), by rfl⟩

end examples

end Verif
