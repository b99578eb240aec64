import Verif.Model.MainPrompt
import Verif.Props.Main
import Verif.Props.Repl

/-!
# C88: the prompt after the program
-/

namespace Verif

section
variable [Unicode] [Floats] [Host]
variable {acts : Lookup} {text : APlan → String} {files : List Char → Option (List Tok)} {n k : Nat}

/-- **C88.** With files on the command line: the program is run as without the prompt, and then the prompt is for the agent that was
built; errors of the program come before the prompt. -/
theorem C88_then_prompt {arg : List Char} {rest lines : List (List Char)} {stdin : List Tok} {s : QSt World} (hs : StacksOK s.w) :
    mainPrompt acts text files n k (arg :: rest) lines s =
      (mainBody acts text files n k (arg :: rest) stdin s).bind fun _ s' => promptFor acts n k s.w.nag lines s' := by
  unfold mainPrompt mainBody
  dsimp only
  cases files arg with
  | none => rfl
  | some ts =>
    dsimp only
    unfold runSource
    cases makeSource acts text files n arg ts with
    | oof => rfl
    | err e _ => rfl
    | ok src e =>
      dsimp only
      cases hb : buildAgent n src (String.ofList (agentBase arg)) s with
      | oof => rfl
      | err e s' => rfl
      | ok a s' =>
        have ha : a = s.w.nag := ((buildAgent_reg hs).1 a hb).new
        subst ha
        rfl

/-- **C88.** If the prompt is left with exit status 0, then the program was valid, and it has been run to its end before. -/
theorem C88_prompt_status {arg : List Char} {rest lines : List (List Char)} {stdin : List Tok} {clock : Nat → Rat} {o : Option String}
    (h : promptExit acts text files n k (arg :: rest) lines clock = some (0, o)) :
    mainExit acts text files n k (arg :: rest) stdin clock = some (0, none) ∧
    ∃ s s', mainBody acts text files n k (arg :: rest) stdin ⟨BSt.init, 0, World.init clock⟩ = .ok () s ∧
      promptFor acts n k 0 lines s = .ok () s' := by
  rw [promptExit, C88_then_prompt (stdin := stdin) (Reachable.init clock).stacksOK] at h
  rw [mainExit]
  cases hb : mainBody acts text files n k (arg :: rest) stdin ⟨BSt.init, 0, World.init clock⟩ with
  | oof => rw [hb] at h; cases h
  | err e s =>
    rw [hb] at h
    cases e with
    | asl m => cases h
    | py m => simp only [Res.bind, exitOf] at h; split at h <;> cases h
  | ok _ s =>
    refine ⟨rfl, s, ?_⟩
    rw [hb] at h
    change exitOf (promptFor acts n k 0 lines s) = some (0, o) at h
    cases hp : promptFor acts n k 0 lines s with
    | oof => rw [hp] at h; cases h
    | ok _ s' => exact ⟨s', rfl, rfl⟩
    | err e s' =>
      rw [hp] at h
      cases e with
      | asl m => cases h
      | py m => simp only [exitOf] at h; split at h <;> cases h

/-- Leaving the prompt at once is as if there were no prompt, whatever becomes of the program. -/
theorem C88_prompt_left {arg : List Char} {rest : List (List Char)} {stdin : List Tok} {clock : Nat → Rat} :
    promptExit acts text files n k (arg :: rest) [] clock = mainExit acts text files n k (arg :: rest) stdin clock := by
  rw [promptExit, C88_then_prompt (stdin := stdin) (Reachable.init clock).stacksOK, mainExit]
  cases mainBody acts text files n k (arg :: rest) stdin ⟨BSt.init, 0, World.init clock⟩ <;> rfl

/-- **C88.** A program that is not valid never gets to the prompt. -/
theorem C88_prompt_invalid (hf : ∀ p ts, files p = some ts → AllProper ts) {arg : List Char} {rest lines : List (List Char)}
    (h : ∀ path ts src, GivenSource files [] (arg :: rest) path ts → ¬IsProgram acts files path ts src) {clock : Nat → Rat} {o : Option String} :
    promptExit acts text files n k (arg :: rest) lines clock ≠ some (0, o) := fun he =>
  C88_invalid hf (by intro t ht; cases ht) h (C88_prompt_status (stdin := []) he).1

/-- Without files: an agent without beliefs, rules, plans and intentions, that nobody can send messages to, at the prompt. -/
theorem C88_no_files {lines : List (List Char)} {clock : Nat → Rat} :
    ∃ s : QSt World, mainPrompt acts text files n k [] lines ⟨BSt.init, 0, World.init clock⟩ = promptFor acts n k 0 lines s ∧
      (s.w.ags 0).name = "stdin" ∧ (∀ g, s.w.beliefs 0 g = []) ∧ (∀ g, (s.w.ags 0).rules g = []) ∧ (∀ key, s.w.plansFor 0 key = []) ∧
      (s.w.ags 0).intentions = [] ∧ s.w.reg = [] ∧ s.w.nag = 1 :=
  ⟨_, rfl, rfl, fun _ => rfl, fun _ => rfl, fun _ => rfl, rfl, rfl, rfl⟩

end

section examples
attribute [local instance] asciiText toyFloats exactHost

/-- `!go. +!go <- +p.` -/
private def toksP : List Tok :=
  [⟨['!'], .exclam, 0, 1⟩, ⟨['g', 'o'], .functor, 1, 3⟩, ⟨['.'], .fullstop, 3, 4⟩, ⟨['+'], .opPlus, 5, 6⟩, ⟨['!'], .exclam, 6, 7⟩,
   ⟨['g', 'o'], .functor, 7, 9⟩, ⟨['<', '-'], .arrow, 10, 12⟩, ⟨['+'], .opPlus, 13, 14⟩, ⟨['p'], .functor, 14, 15⟩, ⟨['.'], .fullstop, 15, 16⟩]

private def fileP : List Char → Option (List Tok) := fun p => if p = "a.asl".toList then some toksP else none

/-- The program adds `p`; then `+q.` is typed.  A goal without a plan is reported and does not end the prompt; `[].` ends it with a traceback. -/
example : (match mainPrompt (fun _ _ => none) (fun _ => "") fileP 60 60 ["a.asl".toList] ["+q.".toList] ⟨BSt.init, 0, World.init fun _ => 1⟩ with
    | .ok () s => some (s.w.reg, (s.w.beliefs 0 ("p", 0)).length, (s.w.beliefs 0 ("q", 0)).length)
    | _ => none) = some ([("a", 0)], 1, 1) ∧
    promptExit (fun _ _ => none) (fun _ => "") fileP 60 60 ["a.asl".toList] ["!h.".toList] (fun _ => 1) = some (0, none) ∧
    promptExit (fun _ _ => none) (fun _ => "") fileP 60 60 ["a.asl".toList] ["[].".toList] (fun _ => 1) = some (1, some "AttributeError") :=
  ⟨by decide +kernel, by decide +kernel, by decide +kernel⟩

/-- Without files the prompt is for a new agent. -/
example : (match mainPrompt (fun _ _ => none) (fun _ => "") fileP 60 60 [] ["+q.".toList] ⟨BSt.init, 0, World.init fun _ => 1⟩ with
    | .ok () s => some ((s.w.ags 0).name, s.w.reg, (s.w.beliefs 0 ("q", 0)).length)
    | _ => none) = some ("stdin", [], 1) := by decide +kernel

end examples

end Verif
