import Verif.Spec.Main
import Verif.Props.Build
import Verif.Props.Strings
import Verif.Props.Step
import Verif.Props.Env

/-!
# C88: running a program from the command line
-/

namespace Verif

section
variable [Unicode] [Floats] [Host]
variable {acts : Lookup} {text : APlan → String} {files : List Char → Option (List Tok)} {n k : Nat}
  {args : List (List Char)} {stdin : List Tok}

omit [Unicode] [Floats] in
/-- Steps neither make nor register nor rename agents. -/
theorem Steps.agents {s s' : QSt World} (h : Steps s s') (hr : Reachable s) : SameAgents s.w s'.w := by
  induction h with
  | refl => exact .refl _
  | step h _ ih => exact .trans (step_agents hr.stacksOK h) (ih (hr.step h))
  | sleep h _ ih => exact .trans (sleep_prim (w₀ := World.init fun _ => 0) h).agents (ih (hr.sleep h))

omit [Unicode] [Floats] in
/-- Nothing changes the clock. -/
theorem clock_kept (clock : Nat → Rat) : WBuild fun w => w.clock = clock where
  prim _ _ hp h := hp.clock.2.trans h
  step hs h hl := (step_ran hs hl).2.2.2.1.trans h
  agent _ h := h
  rule a r h := by
    unfold addRule
    split <;> exact h
  register _ h := h

theorem mainBody_named {s : QSt World} {path : List Char} {ts : List Tok} (h : GivenSource files stdin args path ts) :
    mainBody acts text files n k args stdin s = runSource acts text files n k path ts s := by
  cases h with
  | file h => simp [mainBody, h]
  | stdin => rfl

/-- **C88.** If the process ends with status 0, then the source that is named first is a valid
program.  The environment has one agent, built from it, with a name derived from the name of the
source.  It was run by steps until all its intentions wait for events (if the clock is positive).

Missing: what "all files" would be, see `C88_all_false`. -/
theorem C88_status_partial (hf : ∀ p ts, files p = some ts → AllProper ts) (hi : AllProper stdin) {clock : Nat → Rat} {o : Option String}
    (h : mainExit acts text files n k args stdin clock = some (0, o)) :
    ∃ path ts src s s', GivenSource files stdin args path ts ∧ IsProgram acts files path ts src ∧
      buildAgent n src (String.ofList (agentBase path)) ⟨BSt.init, 0, World.init clock⟩ = .ok 0 s ∧ Steps s s' ∧
      mainBody acts text files n k args stdin ⟨BSt.init, 0, World.init clock⟩ = .ok () s' ∧
      FreshName [] (String.ofList (agentBase path)) (s'.w.ags 0).name ∧ s'.w.reg = [((s'.w.ags 0).name, 0)] ∧ s'.w.nag = 1 ∧
      ((∀ t, 0 < clock t) → OnlyEvents s'.w 0) := by
  obtain ⟨path, ts, hnm⟩ : ∃ path ts, GivenSource files stdin args path ts := by
    match args with
    | [] => exact ⟨_, _, .stdin⟩
    | p :: ps =>
      cases hp : files p with
      | some ts => exact ⟨_, _, .file hp⟩
      | none => simp [mainExit, mainBody, hp, exitOf] at h
  have hts : AllProper ts := by
    cases hnm with
    | file h => exact hf _ _ h
    | stdin => exact hi
  rw [mainExit] at h
  obtain ⟨s', hb⟩ : ∃ s', mainBody acts text files n k args stdin ⟨BSt.init, 0, World.init clock⟩ = .ok () s' := by
    match hb : mainBody acts text files n k args stdin ⟨BSt.init, 0, World.init clock⟩, h with
    | .ok () s', _ => exact ⟨_, rfl⟩
    | .oof, h => simp [exitOf] at h
    | .err (.asl _) _, h => simp [exitOf] at h
    | .err (.py e) _, h =>
      rw [exitOf] at h
      split at h <;> simp at h
  have hb' := hb
  rw [mainBody_named hnm, runSource] at hb'
  match hm : makeSource acts text files n path ts, hb' with
  | .oof, hb' => simp at hb'
  | .err e _, hb' => simp at hb'
  | .ok src e, hb' =>
    obtain ⟨a, s, h1, h2⟩ := Res.bind_eq_ok.1 hb'
    have hr0 : Reachable ⟨BSt.init, 0, World.init clock⟩ := .init clock
    have hr : Reachable s := hr0.build (.inl ⟨_, h1⟩)
    have hg := (buildAgent_reg hr0.stacksOK).1 a h1
    have ha : a = 0 := hg.new
    subst ha
    have hst := C52_run_agent_steps (.inl ⟨_, h2⟩)
    obtain ⟨q1, q2, q3⟩ := hst.agents hr
    refine ⟨path, ts, src, s, s', hnm, C58_source hf hts hm, h1, hst, hb, ?_, ?_, ?_, fun hc => ?_⟩
    · rw [q3]; exact hg.name
    · rw [q2, q3, hg.reg]; rfl
    · rw [q1, hg.nag]; rfl
    · refine C28_run_agent_partial (fun t => ?_) hr.stacksOK h2
      rw [(clock_kept clock).buildAgent hr0.stacksOK rfl (.inl ⟨_, h1⟩)]
      exact hc t

/-- Only the first argument matters. -/
theorem C88_first_only {path : List Char} {rest : List (List Char)} {s : QSt World} :
    mainBody acts text files n k (path :: rest) stdin s = mainBody acts text files n k [path] stdin s := rfl

/-- **C88.** A file that cannot be opened, or that is no valid program, is never run with status 0. -/
theorem C88_invalid (hf : ∀ p ts, files p = some ts → AllProper ts) (hi : AllProper stdin)
    (h : ∀ path ts src, GivenSource files stdin args path ts → ¬IsProgram acts files path ts src) {clock : Nat → Rat} {o : Option String} :
    mainExit acts text files n k args stdin clock ≠ some (0, o) := fun he => by
  obtain ⟨path, ts, src, _, _, h1, h2, _⟩ := C88_status_partial hf hi he
  exact h path ts src h1 h2

/-- **C88.** A valid program is run if its events and queries can be built (`C59_exact`): all else
is building the agent and running it. -/
theorem C88_runs (hf : ∀ p ts, files p = some ts → AllProper ts) (hi : AllProper stdin) {path : List Char} {ts : List Tok}
    (hn : GivenSource files stdin args path ts) {cs : List Clause} (hs : Script files [normpath path] path ts cs) {a : AAgent}
    (hv : ValidAgent (agentOf cs) a) (hB : Buildable a) :
    ∃ src N, AgentOf acts a src ∧ ∀ n k s, N ≤ n → mainBody acts text files n k args stdin s =
      (buildAgent n src (String.ofList (agentBase path)) s).bind fun a s => runAgent n a k s := by
  have hts : AllProper ts := by
    cases hn with
    | file h => exact hf _ _ h
    | stdin => exact hi
  obtain ⟨N, hN⟩ := C55_complete hf hts hs hv
  obtain ⟨src, hm⟩ := (C59_exact (acts := acts) (text := text) hv).2 hB
  have hsrc : ∀ n, N ≤ n → makeSource acts text files n path ts = .ok src 0 := fun n h => by
    rw [makeSource, hN n h]
    exact hm
  refine ⟨src, N, (C58_agent hm).2, fun n k s h => ?_⟩
  rw [mainBody_named hn, runSource, hsrc n h]

omit [Unicode] [Floats] [Host] in
theorem word_ascii {c : Char} (h : isWord c = true) : c.toNat < 128 := by
  simp only [isWord, isLow, isUp, Bool.or_eq_true, decide_eq_true_eq, Char.le_def] at h
  rcases h with ((⟨_, h⟩ | ⟨_, h⟩) | ⟨_, h⟩) | rfl
  · have h : c.toNat ≤ 122 := h
    omega
  · have h : c.toNat ≤ 90 := h
    omega
  · have h : c.toNat ≤ 57 := h
    omega
  · decide

omit [Unicode] [Floats] [Host] in
theorem word_alnum : ∀ n < 128, isWord (Char.ofNat n) = true → (if (Char.ofNat n).isAlphanum then Char.ofNat n else '_') = Char.ofNat n ∧
    Char.ofNat n ≠ '.' ∧ Char.ofNat n ≠ '/' := by decide

omit [Unicode] [Floats] [Host] in
theorem low_lower : ∀ n < 128, isLow (Char.ofNat n) = true → (Char.ofNat n).toLower = Char.ofNat n := by decide

omit [Floats] [Host] in
theorem sanitize_low {w : List Char} (h : LowWord w) (hk : w ∉ keywords) : sanitizeFunctor w = w := by
  have hmap : w.map (fun x => if Unicode.alnum x then x else '_') = w := by
    conv => rhs; rw [← List.map_id w]
    refine List.map_congr_left fun x hx => ?_
    have hx := h.words x hx
    rw [Unicode.alnum_ascii x (word_ascii hx)]
    have := (word_alnum x.toNat (word_ascii hx) (by rwa [Char.ofNat_toNat])).1
    rwa [Char.ofNat_toNat] at this
  obtain ⟨c, v, rfl, hc, hv⟩ := h
  have hne : c ≠ '_' := by rintro rfl; revert hc; decide
  have ha := word_ascii (isWord_of_isLow hc)
  have hlow : Unicode.lower c = [c] := by
    have := low_lower c.toNat ha (by rwa [Char.ofNat_toNat])
    rw [Char.ofNat_toNat] at this
    rw [Unicode.lower_ascii c ha, this]
  rw [sanitizeFunctor, hmap]
  simp only [List.dropWhile_cons_of_neg (p := fun x => decide (x = '_')) (a := c) (by simpa using hne)]
  simp [hlow, hk]

omit [Unicode] [Floats] [Host] in
theorem takeWhile_stops {α : Type} {p : α → Bool} {xs ys : List α} (hx : ∀ x ∈ xs, p x = true) (hy : ∀ y ∈ ys.head?, p y = false) :
    (xs ++ ys).takeWhile p = xs ∧ (xs ++ ys).dropWhile p = ys := by
  induction xs with
  | nil =>
    cases ys with
    | nil => simp
    | cons y ys =>
      have := hy y (by simp)
      simp [this]
  | cons x xs ih =>
    have h1 := hx x (by simp)
    have h2 := ih fun x h => hx x (by simp [h])
    simp [h1, h2]

omit [Floats] [Host] in
/-- **C88.** The agent for the file `dir/word.ext` is called `word`. -/
theorem C88_name {dir w ext : List Char} (hd : dir = [] ∨ dir.getLast? = some '/') (hw : LowWord w) (hk : w ∉ keywords)
    (he : ∀ x ∈ ext, x ≠ '.' ∧ x ≠ '/') : agentBase (dir ++ w ++ '.' :: ext) = w := by
  have hws : ∀ x ∈ w, x ≠ '.' ∧ x ≠ '/' := fun x hx => by
    have hx := hw.words x hx
    have := (word_alnum x.toNat (word_ascii hx) (by rwa [Char.ofNat_toNat])).2
    rwa [Char.ofNat_toNat] at this
  have h1 : basename (dir ++ w ++ '.' :: ext) = w ++ '.' :: ext := by
    have h := takeWhile_stops (p := fun x => decide (x ≠ '/')) (xs := (w ++ '.' :: ext).reverse) (ys := dir.reverse)
      (fun x hx => by
        simp only [List.mem_reverse, List.mem_append, List.mem_cons] at hx
        rcases hx with hx | rfl | hx
        · simpa using (hws x hx).2
        · decide
        · simpa using (he x hx).2)
      (fun y hy => by
        rw [List.head?_reverse] at hy
        rcases hd with rfl | hd
        · simp at hy
        · rw [hd] at hy
          simpa using hy.symm)
    rw [basename, List.append_assoc, List.reverse_append, h.1, List.reverse_reverse]
  have h2 : stem (w ++ '.' :: ext) = w := by
    have h3 := takeWhile_stops (p := fun x => decide (x ≠ '.')) (xs := ext.reverse) (ys := '.' :: w.reverse)
      (fun x hx => by simpa using (he x (by simpa using hx)).1) (by simp)
    obtain ⟨c, v, rfl, hc, hv⟩ := hw
    have hne := (hws c (by simp)).1
    have h4 : (c :: v ++ '.' :: ext).reverse = ext.reverse ++ '.' :: (c :: v).reverse := by simp
    simp only [stem, List.cons_append, List.takeWhile_cons, List.dropWhile_cons, hne, decide_false, Bool.false_eq_true, if_false]
    rw [← List.cons_append, h4, h3.2]
    simp
  rw [agentBase, h1, h2, sanitize_low hw hk]

end

section examples
attribute [local instance] asciiText toyFloats exactHost

private def lexed (s : String) : List Tok := ((tokenize 1 [s.toList]).map fun evs => toksOf (evs.map Prod.snd)).getD []

private theorem lexed_proper (s : String) : AllProper (lexed s) := by
  unfold lexed
  cases h : tokenize 1 [s.toList] with
  | none => intro t ht; cases ht
  | some evs => exact C44_tokens h

/-- `!go. +!go <- +p; .print(1).` -/
private def toksA : List Tok :=
  [⟨['!'], .exclam, 0, 1⟩, ⟨['g', 'o'], .functor, 1, 3⟩, ⟨['.'], .fullstop, 3, 4⟩, ⟨['+'], .opPlus, 5, 6⟩, ⟨['!'], .exclam, 6, 7⟩,
   ⟨['g', 'o'], .functor, 7, 9⟩, ⟨['<', '-'], .arrow, 10, 12⟩, ⟨['+'], .opPlus, 13, 14⟩, ⟨['p'], .functor, 14, 15⟩,
   ⟨[';'], .semicolon, 15, 16⟩, ⟨['.', 'p', 'r', 'i', 'n', 't'], .functor, 17, 23⟩, ⟨['('], .parenOpen, 23, 24⟩,
   ⟨['1'], .numeric, 24, 25⟩, ⟨[')'], .parenClose, 25, 26⟩, ⟨['.'], .fullstop, 26, 27⟩]
private theorem lexA : lexed "!go. +!go <- +p; .print(1)." = toksA := by rfl

/-- `!go.` -/
private def toksB : List Tok := [⟨['!'], .exclam, 0, 1⟩, ⟨['g', 'o'], .functor, 1, 3⟩, ⟨['.'], .fullstop, 3, 4⟩]
private theorem lexB : lexed "!go." = toksB := by rfl

/-- The file `x/a.asl`. -/
private def oneFile : List Char → Option (List Tok) := fun p => if p = "x/a.asl".toList then some toksA else none

private theorem oneProper : ∀ p ts, oneFile p = some ts → AllProper ts := fun p ts h => by
  unfold oneFile at h
  split at h
  · cases h; exact lexA ▸ lexed_proper _
  · cases h

private def printOnly : Lookup := fun f _ => if f = ".print" then some .print else none

private def noText : APlan → String := fun _ => ""

/-- The file is run: one agent, `a`, with the belief `p`, and one line of output; no goal is left. -/
example : (match mainBody printOnly noText oneFile 60 60 ["x/a.asl".toList] [] ⟨BSt.init, 0, World.init fun _ => 1⟩ with
    | .ok () s => some (s.w.reg, (s.w.ags 0).intentions, (s.w.beliefs 0 ("p", 0)).length, s.w.out.length)
    | _ => none) = some ([("a", 0)], [], 1, 1) := by with_unfolding_all rfl

private theorem exitA (rest : List (List Char)) :
    mainExit printOnly noText oneFile 60 60 ("x/a.asl".toList :: rest) [] (fun _ => 1) = some (0, none) := by with_unfolding_all rfl

/-- `C88_status_partial` applies to it. -/
example : ∃ (path : List Char) (ts : List Tok) (src : AgentSrc) (s' : QSt World), GivenSource oneFile [] ["x/a.asl".toList] path ts ∧ IsProgram printOnly oneFile path ts src ∧ OnlyEvents s'.w 0 := by
  obtain ⟨path, ts, src, _, s', h1, h2, _, _, _, _, _, _, h3⟩ :=
    C88_status_partial oneProper (by intro t ht; cases ht) (exitA [])
  exact ⟨path, ts, src, s', h1, h2, h3 fun _ => by decide⟩

/-- So does `C88_runs`. -/
example : ∃ cs a, Script oneFile [normpath "x/a.asl".toList] "x/a.asl".toList toksA cs ∧ ValidAgent (agentOf cs) a ∧ Buildable a := by
  have hp : AllProper toksA := lexA ▸ lexed_proper _
  have hm : ∃ a src, parseFile oneFile 60 "x/a.asl".toList toksA = .ok (some a) 0 ∧ makeAgent printOnly noText a = .ok src 0 :=
    ⟨_, _, by with_unfolding_all rfl, by with_unfolding_all rfl⟩
  obtain ⟨a, src, h1, h2⟩ := hm
  obtain ⟨cs, hs, hv⟩ := C55_sound oneProper hp h1
  exact ⟨cs, a, hs, hv, (C59_exact hv).1 ⟨src, h2⟩⟩

/-- It is not true that all arguments are run: the others are ignored, they need not even be
files. -/
theorem C88_all_false : ¬∀ (files : List Char → Option (List Tok)) (args : List (List Char)) (n k : Nat) (clock : Nat → Rat),
    mainExit printOnly noText files n k args [] clock = some (0, none) → ∀ p ∈ args, (files p).isSome := fun h => by
  have := h oneFile ["x/a.asl".toList, "y.asl".toList] 60 60 (fun _ => 1) (exitA _) "y.asl".toList (by simp)
  revert this
  decide

/-- A missing file ends with a traceback, a goal without a plan with an error message. -/
example : mainExit printOnly noText oneFile 60 60 ["y.asl".toList] [] (fun _ => 1) = some (1, some "FileNotFoundError") ∧
    mainExit printOnly noText oneFile 60 60 [] toksB (fun _ => 1) = some (1, none) := ⟨by with_unfolding_all rfl, by with_unfolding_all rfl⟩

/-- `C88_name`; the agent of the standard input is not called `stdin`. -/
example : agentBase "x/a.asl".toList = ['a'] ∧ agentBase "<stdin>".toList = "stdin_".toList :=
  ⟨C88_name (dir := ['x', '/']) (w := ['a']) (ext := ['a', 's', 'l']) (.inr rfl) ⟨'a', [], rfl, by decide, by simp⟩ (by decide) (by decide),
    by decide⟩

/-- Names that begin with dots or end with several extensions. -/
example : stem ".hidden".toList = ".hidden".toList ∧ stem "..a.b".toList = "..a".toList ∧ stem "a.tar.gz".toList = "a.tar".toList ∧
    stem "...".toList = "...".toList ∧ basename "a/b/".toList = [] := by decide

end examples

end Verif
