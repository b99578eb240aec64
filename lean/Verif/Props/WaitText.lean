import Verif.Lemmas.ScriptComplete
import Verif.Lemmas.ScriptTotal
import Verif.Lemmas.ValidAgent
import Verif.Lemmas.Build
import Verif.Props.Script

/-! # C87: the event in the text of `.wait` -/

namespace Verif

section
variable [Unicode] [Floats] [Arith]

/-- The event of a text: after folding constants, `h` is its head. -/
structure EventOf (e : AEvent) (h : Ast) (ev : Event) : Prop where
  folds : FoldsTo .term e.head h
  plain : h.NoOps
  trigger : ev.trigger = e.trigger
  goalType : ev.goalType = e.goalType
  head : FactOf h ev.head

omit [Unicode] [Floats] in
theorem makeEvent_ok {e : AEvent} {ev : Event} (h : makeEvent e = .ok ev) : ∃ a, EventOf e a ev := by
  rw [makeEvent] at h
  split at h
  · next a hf =>
    split at h
    · next ho => cases h; exact ⟨a, hf, (Ast.ops_zero a).1 ho, rfl, rfl, makeFact_spec a⟩
    · cases h
  all_goals cases h

omit [Unicode] [Floats] in
theorem makeEvent_of {e : AEvent} {a : Ast} (hf : FoldsTo .term e.head a) (hp : a.NoOps) : ∃ ev, makeEvent e = .ok ev ∧ EventOf e a ev := by
  refine ⟨⟨e.trigger, e.goalType, (makeTerm false a {}).1⟩, ?_, hf, hp, rfl, rfl, makeFact_spec a⟩
  have hf : fold .term e.head 0 = .ok (some a) 0 := hf
  simp only [makeEvent, hf, (Ast.ops_zero a).2 hp, if_true]

/-- **C87.** The event that `.wait` waits for is the one that is written in the text: trigger, kind of goal and literal, with the
constants folded; it has no operators then. -/
theorem C87_sound {n : Nat} {ts : List Tok} {ev : Event} (hp : AllProper ts) (h : waitEvent n ts = .ok ev) :
    ∃ us t vs e a, ts = us ++ t :: vs ∧ t.kind = .fullstop ∧ EventPhrase us e ∧ EventOf e a ev := by
  rw [waitEvent] at h
  obtain ⟨⟨e, rs⟩, h1, h2⟩ := Ev.bind_eq_ok.1 h
  obtain ⟨us, rfl, h3⟩ := event_sound hp h1
  simp only at h2
  split at h2
  · next hd =>
    cases rs with
    | nil => cases hd
    | cons t vs =>
      obtain ⟨a, ha⟩ := makeEvent_ok h2
      have hl : t.lexeme = ['.'] := by simpa [at?] using hd
      exact ⟨us, t, vs, e, a, rfl, (hp t (by simp)).only .fullstop (by rw [hl]; rfl), h3, ha⟩
  · cases h2

/-- **C87.** Every event is accepted whose literal has no operators after folding constants. -/
theorem C87_complete {us vs : List Tok} {t : Tok} {e : AEvent} {a : Ast} (hp : AllProper (us ++ t :: vs)) (ht : t.kind = .fullstop)
    (he : EventPhrase us e) (hf : FoldsTo .term e.head a) (ha : a.NoOps) :
    ∃ N ev, EventOf e a ev ∧ ∀ n, N ≤ n → waitEvent n (us ++ t :: vs) = .ok ev := by
  obtain ⟨N, h⟩ := event_accepted he fun t ht => hp t (by simp [ht])
  obtain ⟨ev, h1, h2⟩ := makeEvent_of hf ha
  have hpt : t.Proper := hp t (by simp)
  refine ⟨N, ev, h2, fun n hn => ?_⟩
  rw [waitEvent, h n hn t vs ⟨hpt, by simp [ht], by simp [ht]⟩]
  have hd : at? ['.'] (t :: vs) = true := by simp [at?, hpt.fixed ['.'] (by rw [ht]; rfl)]
  simp only [Ev.bind, hd, if_true, h1]

/-- **C87** is not quite what the code intends: *expected no further tokens after event*, but what comes after the full stop
is ignored. -/
theorem C87_ignored {us vs vs' : List Tok} {t : Tok} {e : AEvent} {a : Ast} (hp : AllProper (us ++ t :: vs))
    (ht : t.kind = .fullstop) (he : EventPhrase us e) (hf : FoldsTo .term e.head a) (ha : a.NoOps) :
    ∃ N, ∀ n, N ≤ n → ∃ ev, waitEvent n (us ++ t :: vs) = .ok ev ∧ waitEvent n (us ++ t :: vs') = .ok ev := by
  obtain ⟨N, h⟩ := event_accepted he fun t ht => hp t (by simp [ht])
  obtain ⟨ev, h1, h2⟩ := makeEvent_of hf ha
  have hpt : t.Proper := hp t (by simp)
  have key : ∀ n ws, N ≤ n → waitEvent n (us ++ t :: ws) = .ok ev := by
    intro n ws hn
    rw [waitEvent, h n hn t ws ⟨hpt, by simp [ht], by simp [ht]⟩]
    have hd : at? ['.'] (t :: ws) = true := by simp [at?, hpt.fixed ['.'] (by rw [ht]; rfl)]
    simp only [Ev.bind, hd, if_true, h1]
  exact ⟨N, fun n hn => ⟨ev, key n _ hn, key n _ hn⟩⟩

end

section examples
attribute [local instance] asciiText toyFloats exactArith

private def lexed (s : String) : List Tok := ((tokenize 1 [s.toList]).map fun evs => toksOf (evs.map Prod.snd)).getD []

private theorem lexed_proper (s : String) : AllProper (lexed s) := by
  unfold lexed
  cases h : tokenize 1 [s.toList] with
  | none => intro t ht; cases ht
  | some evs => exact C44_tokens h

/-- `+!go(X, _, X, 1 + 1).` -/
private def toksW : List Tok :=
  [⟨['+'], .opPlus, 0, 1⟩, ⟨['!'], .exclam, 1, 2⟩, ⟨['g', 'o'], .functor, 2, 4⟩, ⟨['('], .parenOpen, 4, 5⟩, ⟨['X'], .var, 5, 6⟩,
   ⟨[','], .comma, 6, 7⟩, ⟨['_'], .var, 8, 9⟩, ⟨[','], .comma, 9, 10⟩, ⟨['X'], .var, 11, 12⟩, ⟨[','], .comma, 12, 13⟩,
   ⟨['1'], .numeric, 14, 15⟩, ⟨['+'], .opPlus, 16, 17⟩, ⟨['1'], .numeric, 18, 19⟩, ⟨[')'], .parenClose, 19, 20⟩,
   ⟨['.'], .fullstop, 20, 21⟩]
private theorem lexW : lexed "+!go(X, _, X, 1 + 1)." = toksW := by rfl

private theorem waitW : waitEvent 60 toksW = .ok ⟨.addition, .achievement, .lit "go" [.var 0, .wild, .var 0, .num 2] []⟩ := by
  with_unfolding_all rfl

/-- The text has an event (`C87_sound`), and any amount of fuel above some bound is enough to read it (`C87_complete`). -/
example : ∃ N ev, (∀ n, N ≤ n → waitEvent n toksW = .ok ev) ∧ ev.trigger = .addition ∧ ev.goalType = .achievement := by
  have hp : AllProper toksW := lexW ▸ lexed_proper _
  obtain ⟨us, t, vs, e, a, h, ht, he, ha⟩ := C87_sound hp waitW
  rw [h] at hp ⊢
  obtain ⟨N, ev, h1, h2⟩ := C87_complete hp ht he ha.folds ha.plain
  exact ⟨N, ev, h2, h1.trigger.trans ha.trigger.symm, h1.goalType.trans ha.goalType.symm⟩

/-- `-p.` and `+?p.`, `+p(X + X).`, which has an operator, `+p;` without a full stop and `p.`, which is no event. -/
example :
    waitEvent 60 [⟨['-'], .opMinus, 0, 1⟩, ⟨['p'], .functor, 1, 2⟩, ⟨['.'], .fullstop, 2, 3⟩] = .ok ⟨.removal, .belief, .lit "p" [] []⟩ ∧
    waitEvent 60 [⟨['+'], .opPlus, 0, 1⟩, ⟨['?'], .question, 1, 2⟩, ⟨['p'], .functor, 2, 3⟩, ⟨['.'], .fullstop, 3, 4⟩] =
      .ok ⟨.addition, .test, .lit "p" [] []⟩ ∧
    waitEvent 60 [⟨['+'], .opPlus, 0, 1⟩, ⟨['p'], .functor, 1, 2⟩, ⟨['('], .parenOpen, 2, 3⟩, ⟨['X'], .var, 3, 4⟩, ⟨['+'], .opPlus, 5, 6⟩,
      ⟨['X'], .var, 7, 8⟩, ⟨[')'], .parenClose, 8, 9⟩, ⟨['.'], .fullstop, 9, 10⟩] = .err (.asl "errors") ∧
    waitEvent 60 [⟨['+'], .opPlus, 0, 1⟩, ⟨['p'], .functor, 1, 2⟩, ⟨[';'], .semicolon, 2, 3⟩] = syntaxError ∧
    waitEvent 60 [⟨['p'], .functor, 0, 1⟩, ⟨['.'], .fullstop, 1, 2⟩] = syntaxError :=
  ⟨by with_unfolding_all rfl, by with_unfolding_all rfl, by with_unfolding_all rfl, by with_unfolding_all rfl, by with_unfolding_all rfl⟩

/-- `C87_ignored`: `+a. b )` -/
example : waitEvent 60 [⟨['+'], .opPlus, 0, 1⟩, ⟨['a'], .functor, 1, 2⟩, ⟨['.'], .fullstop, 2, 3⟩, ⟨['b'], .functor, 4, 5⟩,
    ⟨[')'], .parenClose, 6, 7⟩] = .ok ⟨.addition, .belief, .lit "a" [] []⟩ := by with_unfolding_all rfl

end examples

end Verif
