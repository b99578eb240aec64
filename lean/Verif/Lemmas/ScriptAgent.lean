import Verif.Lemmas.ScriptComplete
import Verif.Lemmas.Validate

/-! Agents: what the parser accepts as the text of a file, and with which result. -/

namespace Verif

/-! ## Appending agents -/

theorem AAgent.append_assoc (a b c : AAgent) : (a.append b).append c = a.append (b.append c) := by
  simp [AAgent.append, List.append_assoc]

theorem AAgent.empty_append (a : AAgent) : AAgent.append {} a = a := by simp [AAgent.append]

theorem AAgent.append_empty (a : AAgent) : a.append {} = a := by simp [AAgent.append]

theorem agentOf_append (cs ds : List Clause) : agentOf (cs ++ ds) = (agentOf cs).append (agentOf ds) := by
  simp [agentOf, AAgent.append, List.filterMap_append]

theorem agentOf_add (a : AAgent) (c : Clause) (cs : List Clause) : (a.add c).append (agentOf cs) = a.append (agentOf (c :: cs)) := by
  cases c <;> simp [AAgent.add, AAgent.append, agentOf]

section
variable [Unicode] [Floats]

omit [Floats] in
theorem include_sound {us : List Tok} {name : List Char} {rest : List Tok} (hp : AllProper us) (hi : at? "include".toList us = true)
    (h : parseInclude us = .ok (name, rest)) :
    ∃ k p t q c vs nm, us = k :: p :: t :: q :: c :: vs ∧ rest = c :: vs ∧ k.kind = .incl ∧ p.kind = .parenOpen ∧ t.kind = .string ∧
      parseString t.lexeme = .ok nm ∧ name = nm.map Char.ofNat ∧ q.kind = .parenClose ∧ c.kind = .braceClose := by
  rw [parseInclude] at h
  obtain ⟨ts1, h1, g1⟩ := Ev.bind_eq_ok.1 h
  obtain ⟨ts2, h2, g2⟩ := Ev.bind_eq_ok.1 g1
  obtain ⟨k, rfl⟩ := advance_sound h1
  obtain ⟨p, rfl, hpk⟩ := expect_sound (k := .parenOpen) rfl hp.tail h2
  obtain ⟨_, _, e, hk⟩ := at?_cons (k := .incl) rfl hi hp
  cases e
  cases ts2 with
  | nil => cases g2
  | cons t ts =>
    simp only at g2
    split at g2
    · rename_i ht
      obtain ⟨nm, h3, g3⟩ := Ev.bind_eq_ok.1 g2
      obtain ⟨ts3, h4, g4⟩ := Ev.bind_eq_ok.1 g3
      obtain ⟨ts4, h5, g5⟩ := Ev.bind_eq_ok.1 g4
      obtain ⟨_, e⟩ := advance_sound h4
      cases e
      obtain ⟨q, rfl, hq⟩ := expect_sound (k := .parenClose) rfl hp.tail.tail.tail h5
      split at g5
      · rename_i hat
        obtain ⟨c, vs, rfl, hc⟩ := at?_cons (k := .braceClose) rfl hat hp.tail.tail.tail.tail
        cases g5
        exact ⟨k, p, t, q, c, vs, nm, rfl, rfl, hk, hpk, ht, h3, rfl, hq, hc⟩
      · cases g5
    · cases g2

theorem begin_sound {n : Nat} {us rest : List Tok} (hp : AllProper us) (hi : at? "begin".toList us = true)
    (h : parseBegin n us = .ok ((), rest)) :
    ∃ k ts a c vs, us = k :: (ts ++ c :: vs) ∧ rest = c :: vs ∧ k.kind = .begin ∧ LitPhrase ts a ∧ c.kind = .braceClose := by
  rw [parseBegin] at h
  obtain ⟨ts1, h1, g1⟩ := Ev.bind_eq_ok.1 h
  obtain ⟨⟨a, ts2⟩, h2, g2⟩ := Ev.bind_eq_ok.1 g1
  obtain ⟨k, rfl⟩ := advance_sound h1
  obtain ⟨_, _, e, hk⟩ := at?_cons (k := .begin) rfl hi hp
  cases e
  obtain ⟨ts, rfl, hl⟩ := lit_sound hp.tail h2
  simp only at g2
  split at g2
  · rename_i hat
    obtain ⟨c, vs, rfl, hc⟩ := at?_cons (k := .braceClose) rfl hat hp.tail.right
    cases g2
    exact ⟨k, ts, a, c, vs, rfl, rfl, hk, hl, hc⟩
  · cases g2

omit [Unicode] [Floats] in
theorem end_sound {us rest : List Tok} (hp : AllProper us) (hi : at? "end".toList us = true) (h : parseEnd us = .ok ((), rest)) :
    ∃ k c vs, us = k :: c :: vs ∧ rest = c :: vs ∧ k.kind = .end_ ∧ c.kind = .braceClose := by
  rw [parseEnd] at h
  obtain ⟨ts1, h1, g1⟩ := Ev.bind_eq_ok.1 h
  obtain ⟨k, rfl⟩ := advance_sound h1
  obtain ⟨_, _, e, hk⟩ := at?_cons (k := .end_) rfl hi hp
  cases e
  split at g1
  · rename_i hat
    obtain ⟨c, vs, rfl, hc⟩ := at?_cons (k := .braceClose) rfl hat hp.tail
    cases g1
    exact ⟨k, c, vs, rfl, rfl, hk, hc⟩
  · cases g1

omit [Unicode] [Floats] in
theorem parsing_ok {α : Type} {x : Ev α} {s s' : Nat} {a : α} (h : parsing x s = .ok a s') : x = .ok a ∧ s' = s := by
  unfold parsing at h
  cases x with
  | ok b => cases h; exact ⟨rfl, rfl⟩
  | err e =>
    simp only [raised] at h
    cases e with
    | asl m => cases h
    | py k => simp only at h; split at h <;> cases h
  | oof => cases h

variable [Arith]

/-- What is left after an agent: nothing at the end of a file, or what follows the end of a directive. -/
def Closed (dir : Bool) (ts us rest : List Tok) : Prop :=
  if dir then ∃ o k c, ts = us ++ o :: k :: c :: rest ∧ o.kind = .braceOpen ∧ k.kind = .end_ ∧ c.kind = .braceClose
  else ts = us ∧ rest = []

omit [Unicode] [Floats] [Arith] in
theorem Closed.cons {dir : Bool} {ts us rest : List Tok} (h : Closed dir ts us rest) (vs : List Tok) : Closed dir (vs ++ ts) (vs ++ us) rest := by
  unfold Closed at h ⊢
  split at h
  · obtain ⟨o, k, c, rfl, h⟩ := h
    rename_i hd
    rw [if_pos hd]
    exact ⟨o, k, c, by simp, h⟩
  · obtain ⟨rfl, rfl⟩ := h
    rename_i hd
    rw [if_neg hd]
    exact ⟨rfl, rfl⟩

omit [Unicode] [Floats] [Arith] in
theorem Closed.proper {dir : Bool} {ts us rest : List Tok} (h : Closed dir ts us rest) (hp : AllProper ts) : AllProper rest := by
  unfold Closed at h
  split at h
  · obtain ⟨o, k, c, rfl, h⟩ := h
    exact hp.right.tail.tail.tail
  · obtain ⟨rfl, rfl⟩ := h
    intro t ht
    cases ht

/-- What one run says about the text. -/
def Read (files : List Char → Option (List Tok)) (inc : List (List Char)) (file : List Char) (dir : Bool) (acc : Option AAgent)
    (ts : List Tok) (s : Nat) (o : Option AAgent) (rest : List Tok) (s' : Nat) : Prop :=
  s ≤ s' ∧ (s' = 0 → ∀ a, o = some a → ∃ us cs a0, acc = some a0 ∧ Script files inc file us cs ∧
    Validated (a0.append (agentOf cs)) a ∧ Closed dir ts us rest)

omit [Unicode] [Floats] in
theorem closeAgent_ok {acc : Option AAgent} {ts rest : List Tok} {s s' : Nat} {o : Option AAgent} (h : closeAgent acc ts s = .ok (o, rest) s') :
    rest = ts ∧ s ≤ s' ∧ (s' = 0 → ∀ a, o = some a → ∃ a0, acc = some a0 ∧ Validated a0 a) := by
  unfold closeAgent at h
  cases acc with
  | none => cases h; exact ⟨rfl, Nat.le_refl _, by intro _ a e; cases e⟩
  | some a0 =>
    simp only at h
    obtain ⟨a, s1, h1, h2⟩ := Res.bind_eq_ok.1 h
    cases h2
    have hs := validate_grows _ _ _ _ h1
    refine ⟨rfl, hs, fun e a' ea => ⟨a0, rfl, ?_⟩⟩
    subst e ea
    have : s = 0 := by omega
    subst this
    exact h1

/-- Errors are not taken back, and a tree with `None` in it stays one. -/
theorem agent_grows {files : List Char → Option (List Tok)} :
    ∀ (n : Nat) (inc : List (List Char)) (file : List Char) (dir : Bool) (acc : Option AAgent) (ts : List Tok) (s : Nat) (o : Option AAgent)
      (rest : List Tok) (s' : Nat), parseAgent files n inc file dir acc ts s = .ok (o, rest) s' → s ≤ s' ∧ (acc = none → o = none)
  | 0, _, _, _, _, _, _, _, _, _, h => by rw [parseAgent] at h; cases h
  | n + 1, inc, file, dir, acc, ts, s, o, rest, s', h => by
    have ih := agent_grows (files := files) n
    have close : ∀ {ts}, closeAgent acc ts s = .ok (o, rest) s' → s ≤ s' ∧ (acc = none → o = none) := by
      intro ts h
      refine ⟨(closeAgent_ok h).2.1, ?_⟩
      rintro rfl
      cases h
      rfl
    rw [parseAgent.eq_def] at h
    simp only at h
    cases ts with
    | nil =>
      simp only at h
      split at h
      · cases h
      · exact close h
    | cons t us =>
      simp only at h
      split at h
      · split at h
        · obtain ⟨⟨name, rest1⟩, s1, h1, g⟩ := Res.bind_eq_ok.1 h
          obtain ⟨h1, rfl⟩ := parsing_ok h1
          simp only at g
          split at g
          · have r := ih _ _ _ _ _ _ _ _ _ g
            exact ⟨Nat.le_of_succ_le r.1, r.2⟩
          · split at g
            · have r := ih _ _ _ _ _ _ _ _ _ g
              exact ⟨Nat.le_of_succ_le r.1, r.2⟩
            · obtain ⟨⟨sub, r1⟩, s2, h2, g2⟩ := Res.bind_eq_ok.1 g
              have r2 := ih _ _ _ _ _ _ _ _ _ h2
              have r3 := ih _ _ _ _ _ _ _ _ _ g2
              exact ⟨Nat.le_trans r2.1 r3.1, fun e => r3.2 (by rw [e]; rfl)⟩
        · split at h
          · obtain ⟨⟨⟨⟩, rest1⟩, s1, h1, g⟩ := Res.bind_eq_ok.1 h
            obtain ⟨h1, rfl⟩ := parsing_ok h1
            obtain ⟨⟨sub, r1⟩, s2, h2, g2⟩ := Res.bind_eq_ok.1 g
            have r2 := ih _ _ _ _ _ _ _ _ _ h2
            have r3 := ih _ _ _ _ _ _ _ _ _ g2
            exact ⟨Nat.le_trans r2.1 r3.1, fun e => r3.2 (by rw [e]; rfl)⟩
          · split at h
            · obtain ⟨⟨⟨⟩, rest1⟩, s1, h1, g⟩ := Res.bind_eq_ok.1 h
              obtain ⟨h1, rfl⟩ := parsing_ok h1
              simp only at g
              split at g
              · exact close g
              · have r := ih _ _ _ _ _ _ _ _ _ g
                exact ⟨Nat.le_of_succ_le r.1, r.2⟩
            · split at h
              · simp [raised] at h
              · simp [raised] at h
      · split at h
        · obtain ⟨⟨c, rest1⟩, s1, h1, g⟩ := Res.bind_eq_ok.1 h
          obtain ⟨h1, rfl⟩ := parsing_ok h1
          have r := ih _ _ _ _ _ _ _ _ _ g
          exact ⟨r.1, fun e => r.2 (by rw [e]; rfl)⟩
        · have r := ih _ _ _ _ _ _ _ _ _ h
          exact ⟨Nat.le_of_succ_le r.1, r.2⟩

theorem agent_sound {files : List Char → Option (List Tok)} (hf : ∀ p ts, files p = some ts → AllProper ts) :
    ∀ (n : Nat) (inc : List (List Char)) (file : List Char) (dir : Bool) (acc : Option AAgent) (ts : List Tok) (s : Nat) (o : Option AAgent)
      (rest : List Tok) (s' : Nat), AllProper ts → parseAgent files n inc file dir acc ts s = .ok (o, rest) s' →
      Read files inc file dir acc ts s o rest s'
  | 0, _, _, _, _, _, _, _, _, _, _, h => by rw [parseAgent] at h; cases h
  | n + 1, inc, file, dir, acc, ts, s, o, rest, s', hp, h => by
    have ih := agent_sound hf n
    rw [parseAgent.eq_def] at h
    simp only at h
    cases ts with
    | nil =>
      simp only at h
      split at h
      · cases h
      · rename_i hd
        obtain ⟨rfl, hs, hv⟩ := closeAgent_ok h
        refine ⟨hs, fun e a ea => ?_⟩
        obtain ⟨a0, e0, hv⟩ := hv e a ea
        refine ⟨[], [], a0, e0, .nil, ?_, ?_⟩
        · rw [show agentOf [] = {} from rfl, AAgent.append_empty]; exact hv
        · unfold Closed; rw [if_neg hd]; exact ⟨rfl, rfl⟩
    | cons t us =>
      simp only at h
      split at h
      · rename_i ht
        have hk : t.kind = .braceOpen := (hp.head.iff (k := .braceOpen) rfl).1 ht
        split at h
        · rename_i hi
          obtain ⟨⟨name, rest1⟩, s1, g1, g⟩ := Res.bind_eq_ok.1 h
          obtain ⟨h1, rfl⟩ := parsing_ok g1
          obtain ⟨k, p, x, q, c, vs, nm, rfl, rfl, hk1, hk2, hk3, hnm, rfl, hk4, hk5⟩ := include_sound hp.tail hi h1
          simp only [List.tail_cons] at g
          have hpv : AllProper vs := hp.tail.tail.tail.tail.tail.tail
          split at g
          · have r := ih _ _ _ _ _ _ _ _ _ hpv g
            exact ⟨Nat.le_of_succ_le r.1, fun e => absurd r.1 (by omega)⟩
          · rename_i hinc
            split at g
            · have r := ih _ _ _ _ _ _ _ _ _ hpv g
              exact ⟨Nat.le_of_succ_le r.1, fun e => absurd r.1 (by omega)⟩
            · rename_i toks hfile
              obtain ⟨⟨sub, r1⟩, s2, h2, k2⟩ := Res.bind_eq_ok.1 g
              have r2 := ih _ _ _ _ _ _ _ _ _ (hf _ _ hfile) h2
              have r3 := ih _ _ _ _ _ _ _ _ _ hpv k2
              refine ⟨Nat.le_trans r2.1 r3.1, fun e a ea => ?_⟩
              obtain ⟨us3, cs3, a3, e3, hs3, hv3, hc3⟩ := r3.2 e a ea
              have es : s2 = 0 := by have := r3.1; omega
              cases acc with
              | none => cases e3
              | some a0 =>
                cases sub with
                | none => cases e3
                | some sub =>
                  cases e3
                  obtain ⟨us2, cs2, a2, e2, hs2, hv2, hc2⟩ := r2.2 es sub rfl
                  cases e2
                  unfold Closed at hc2
                  rw [if_neg (by simp)] at hc2
                  obtain ⟨rfl, -⟩ := hc2
                  rw [AAgent.empty_append] at hv2
                  refine ⟨t :: k :: p :: x :: q :: c :: us3, cs2 ++ cs3, a0, rfl, .incl hk hk1 hk2 hk3 hnm hk4 hk5 hinc hfile hs2 hs3, ?_,
                    hc3.cons [t, k, p, x, q, c]⟩
                  obtain ⟨b, d, rfl, hb, hd⟩ := validated_append.1 hv3
                  obtain ⟨b', d', rfl, hb', hd'⟩ := validated_append.1 hb
                  cases hd'.unique hv2.stable
                  rw [agentOf_append, ← AAgent.append_assoc]
                  exact validated_append.2 ⟨_, _, rfl, validated_append.2 ⟨_, _, rfl, hb', hv2⟩, hd⟩
        · split at h
          · rename_i hi
            obtain ⟨⟨⟨⟩, rest1⟩, s1, g1, g⟩ := Res.bind_eq_ok.1 h
            obtain ⟨h1, rfl⟩ := parsing_ok g1
            obtain ⟨k, ws, l, c, vs, rfl, rfl, hk1, hl, hk2⟩ := begin_sound hp.tail hi h1
            simp only [List.tail_cons] at g
            have hpv : AllProper vs := hp.tail.tail.right.tail
            obtain ⟨⟨sub, r1⟩, s2, h2, k2⟩ := Res.bind_eq_ok.1 g
            have r2 := ih _ _ _ _ _ _ _ _ _ hpv h2
            simp only at k2
            by_cases hsub : s2 = 0 ∧ ∃ x, sub = some x
            · obtain ⟨es, x, rfl⟩ := hsub
              obtain ⟨us2, cs2, a2, e2, hs2, hv2, hc2⟩ := r2.2 es x rfl
              cases e2
              rw [AAgent.empty_append] at hv2
              have hpr := hc2.proper hpv
              have r3 := ih _ _ _ _ _ _ _ _ _ hpr k2
              refine ⟨Nat.le_trans r2.1 r3.1, fun e a ea => ?_⟩
              obtain ⟨us3, cs3, a3, e3, hs3, hv3, hc3⟩ := r3.2 e a ea
              cases acc with
              | none => cases e3
              | some a0 =>
                cases e3
                unfold Closed at hc2
                rw [if_pos (by simp)] at hc2
                obtain ⟨o', k', c', rfl, hk3, hk4, hk5⟩ := hc2
                refine ⟨t :: k :: (ws ++ c :: (us2 ++ o' :: k' :: c' :: us3)), cs2 ++ cs3, a0, rfl,
                  .directive hk hk1 hl hk2 hs2 hk3 hk4 hk5 hs3, ?_, ?_⟩
                · obtain ⟨b, d, rfl, hb, hd⟩ := validated_append.1 hv3
                  obtain ⟨b', d', rfl, hb', hd'⟩ := validated_append.1 hb
                  cases hd'.unique hv2.stable
                  rw [agentOf_append, ← AAgent.append_assoc]
                  exact validated_append.2 ⟨_, _, rfl, validated_append.2 ⟨_, _, rfl, hb', hv2⟩, hd⟩
                · have := hc3.cons (t :: k :: (ws ++ c :: (us2 ++ [o', k', c'])))
                  simpa using this
            · have r3 := agent_grows _ _ _ _ _ _ _ _ _ _ k2
              refine ⟨Nat.le_trans r2.1 r3.1, fun e a ea => absurd ?_ hsub⟩
              have es : s2 = 0 := by have := r3.1; omega
              refine ⟨es, ?_⟩
              cases sub with
              | some x => exact ⟨x, rfl⟩
              | none =>
                have := r3.2 (by cases acc <;> rfl)
                rw [ea] at this
                cases this
          · split at h
            · rename_i hi
              obtain ⟨⟨⟨⟩, rest1⟩, s1, g1, g⟩ := Res.bind_eq_ok.1 h
              obtain ⟨h1, rfl⟩ := parsing_ok g1
              obtain ⟨k, c, vs, rfl, rfl, hk1, hk2⟩ := end_sound hp.tail hi h1
              simp only [List.tail_cons] at g
              split at g
              · rename_i hd
                obtain ⟨rfl, hs, hv⟩ := closeAgent_ok g
                refine ⟨hs, fun e a ea => ?_⟩
                obtain ⟨a0, e0, hv⟩ := hv e a ea
                refine ⟨[], [], a0, e0, .nil, ?_, ?_⟩
                · rw [show agentOf [] = {} from rfl, AAgent.append_empty]; exact hv
                · unfold Closed; rw [if_pos hd]; exact ⟨t, k, c, rfl, hk, hk1, hk2⟩
              · have r := ih _ _ _ _ _ _ _ _ _ hp.tail.tail.tail g
                exact ⟨Nat.le_of_succ_le r.1, fun e => absurd r.1 (by omega)⟩
            · split at h
              · simp [raised] at h
              · simp [raised] at h
      · split at h
        · obtain ⟨⟨c, rest1⟩, s1, g1, g⟩ := Res.bind_eq_ok.1 h
          obtain ⟨h1, rfl⟩ := parsing_ok g1
          obtain ⟨vs, d, ws, e, rfl, hc, hd⟩ := clause_sound hp h1
          rw [e] at hp ⊢
          simp only [List.tail_cons] at g
          have r := ih _ _ _ _ _ _ _ _ _ hp.right.tail g
          refine ⟨r.1, fun e a ea => ?_⟩
          obtain ⟨us3, cs3, a3, e3, hs3, hv3, hc3⟩ := r.2 e a ea
          cases acc with
          | none => cases e3
          | some a0 =>
            cases e3
            refine ⟨vs ++ d :: us3, c :: cs3, a0, rfl, .clause hc hd hs3, ?_, ?_⟩
            · rw [← agentOf_add]; exact hv3
            · have := hc3.cons (vs ++ [d]); simpa using this
        · have r := ih _ _ _ _ _ _ _ _ _ hp.tail h
          exact ⟨Nat.le_of_succ_le r.1, fun e => absurd r.1 (by omega)⟩

/-! ## Completeness -/

omit [Unicode] [Floats] [Arith] in
theorem Closed.uncons {dir : Bool} {ts us vs rest : List Tok} (h : Closed dir ts (vs ++ us) rest) :
    ∃ ts', ts = vs ++ ts' ∧ Closed dir ts' us rest := by
  unfold Closed at h
  split at h
  · rename_i hd
    obtain ⟨o, k, c, rfl, h⟩ := h
    refine ⟨us ++ o :: k :: c :: rest, by simp, ?_⟩
    unfold Closed
    rw [if_pos hd]
    exact ⟨o, k, c, rfl, h⟩
  · rename_i hd
    obtain ⟨rfl, rfl⟩ := h
    refine ⟨us, rfl, ?_⟩
    unfold Closed
    rw [if_neg hd]
    exact ⟨rfl, rfl⟩

omit [Unicode] [Floats] in
theorem closeAgent_of {a0 a : AAgent} {ts : List Tok} (h : Validated a0 a) : closeAgent (some a0) ts 0 = .ok (some a, ts) 0 := by
  unfold closeAgent
  simp only
  rw [show validate a0 0 = _ from h]
  rfl

omit [Unicode] [Floats] [Arith] in
theorem parsing_of {α : Type} {x : Ev α} {a : α} (h : x = .ok a) (s : Nat) : parsing x s = .ok a s := by rw [h]; rfl

theorem agent_complete {files : List Char → Option (List Tok)} (hf : ∀ p ts, files p = some ts → AllProper ts)
    {inc : List (List Char)} {file : List Char} {us : List Tok} {cs : List Clause} (h : Script files inc file us cs) :
    ∃ N, ∀ n, N ≤ n → ∀ a0 a dir ts rest, AllProper ts → Closed dir ts us rest → Validated (a0.append (agentOf cs)) a →
      parseAgent files n inc file dir (some a0) ts 0 = .ok (some a, rest) 0 := by
  induction h with
  | @nil inc file =>
    refine ⟨1, fun n hn a0 a dir ts rest hp hc hv => ?_⟩
    rw [show agentOf [] = {} from rfl, AAgent.append_empty] at hv
    match n, hn with
    | n + 1, _ =>
      unfold Closed at hc
      split at hc
      · rename_i hd
        obtain ⟨o, k, c, rfl, hk1, hk2, hk3⟩ := hc
        rw [List.nil_append] at hp ⊢
        rw [parseAgent.eq_def]
        simp only
        rw [if_pos ((hp.head.iff (k := .braceOpen) rfl).2 hk1),
          if_neg (ne_true_of_eq_false (at?_not (k := .incl) rfl (by simp [hk2]) hp.tail.head _)),
          if_neg (ne_true_of_eq_false (at?_not (k := .begin) rfl (by simp [hk2]) hp.tail.head _)),
          if_pos (at?_of (k := .end_) rfl hk2 hp.tail.head _)]
        rw [parsing_of (a := ((), c :: rest))
          (by rw [parseEnd, advance_cons (by simp), Ev.bind_ok, if_pos (at?_of (k := .braceClose) rfl hk3 hp.tail.tail.head _)])]
        simp only [Res.bind_ok, List.tail_cons]
        rw [if_pos hd]
        exact closeAgent_of hv
      · rename_i hd
        obtain ⟨rfl, rfl⟩ := hc
        rw [parseAgent.eq_def]
        simp only
        rw [if_neg hd]
        exact closeAgent_of hv
  | @clause inc file ts c t us cs hc ht _ ih =>
    obtain ⟨N, ih⟩ := ih
    obtain ⟨x, xs, e, hst⟩ := clause_start hc
    by_cases hp0 : AllProper ts
    · obtain ⟨N', ha⟩ := clause_accepted hc hp0
      refine ⟨max N N' + 1, fun n hn a0 a dir zs rest hp hcl hv => ?_⟩
      rw [List.append_cons] at hcl
      obtain ⟨ts', rfl, hcl2⟩ := hcl.uncons
      rw [List.append_assoc] at hp ⊢
      match n, hn with
      | n + 1, hn =>
        have hpr : parseClause n (ts ++ t :: ts') = .ok (c, t :: ts') := ha n (by omega) t ts' ⟨hp.right.head, ht⟩
        subst e
        simp only [List.cons_append, List.nil_append] at hp hpr ⊢
        have hk : x.kind ≠ .braceOpen := by
          rcases hst with ⟨h, -⟩ | ⟨h, -⟩ | ⟨h | h | h, -⟩ <;> simp [h]
        have hs : startsClause x = true := by
          simp only [startsClause, Bool.or_eq_true, decide_eq_true_eq, hp.head.iff (k := .exclam) rfl, hp.head.iff (k := .at_) rfl,
            hp.head.iff (k := .opPlus) rfl, hp.head.iff (k := .opMinus) rfl]
          rcases hst with ⟨h, -⟩ | ⟨h, -⟩ | ⟨h | h | h, -⟩ <;> simp [h]
        rw [parseAgent.eq_def]
        simp only
        rw [if_neg (fun e => hk ((hp.head.iff (k := .braceOpen) rfl).1 e)), if_pos hs, parsing_of hpr]
        simp only [Res.bind_ok, List.tail_cons, Option.map_some]
        exact ih n (by omega) _ _ _ _ _ hp.tail.right.tail hcl2 (by rw [agentOf_add]; exact hv)
    · exact ⟨0, fun n hn a0 a dir zs rest hp hcl hv => absurd (by
        obtain ⟨ts', rfl, _⟩ := hcl.uncons
        exact hp.left) hp0⟩
  | @incl inc file o k p t q c us name toks cs cs' ho hk hp' ht hn' hq hc hinc hfile _ _ ih1 ih2 =>
    obtain ⟨N1, ih1⟩ := ih1
    obtain ⟨N2, ih2⟩ := ih2
    refine ⟨max N1 N2 + 1, fun n hn a0 a dir ts rest hp hcl hv => ?_⟩
    obtain ⟨ts', rfl, hcl2⟩ := Closed.uncons (vs := [o, k, p, t, q, c]) hcl
    match n, hn with
    | n + 1, hn =>
      rw [agentOf_append, ← AAgent.append_assoc] at hv
      obtain ⟨_, x', rfl, hv1, hv2⟩ := validated_append.1 hv
      obtain ⟨a', s', rfl, hv3, hv4⟩ := validated_append.1 hv1
      simp only [List.cons_append, List.nil_append] at hp ⊢
      rw [parseAgent.eq_def]
      simp only
      rw [if_pos ((hp.head.iff (k := .braceOpen) rfl).2 ho), if_pos (at?_of (k := .incl) rfl hk hp.tail.head _)]
      rw [parsing_of (a := (name.map Char.ofNat, c :: ts')) (by
        rw [parseInclude, advance_cons (by simp), Ev.bind_ok, expect_of (k := .parenOpen) rfl hp' hp.tail.tail.head (by simp), Ev.bind_ok]
        simp only
        rw [if_pos ht, hn', Ev.bind_ok, advance_cons (by simp), Ev.bind_ok,
          expect_of (k := .parenClose) rfl hq hp.tail.tail.tail.tail.head (by simp), Ev.bind_ok,
          if_pos (at?_of (k := .braceClose) rfl hc hp.tail.tail.tail.tail.tail.head _)])]
      simp only [Res.bind_ok, List.tail_cons]
      rw [if_neg hinc, hfile]
      simp only
      rw [ih1 n (by omega) {} s' false toks [] (hf _ _ hfile) (by unfold Closed; simp) (by rw [AAgent.empty_append]; exact hv4)]
      simp only [Res.bind_ok]
      exact ih2 n (by omega) _ _ _ _ _ hp.tail.tail.tail.tail.tail.tail hcl2
        (validated_append.2 ⟨_, _, rfl, validated_append.2 ⟨_, _, rfl, hv3, hv4.stable⟩, hv2⟩)
  | @directive inc file o k ws l c us o' k' c' vs cs cs' ho hk hl hc _ ho' hk' hc' _ ih1 ih2 =>
    obtain ⟨N1, ih1⟩ := ih1
    obtain ⟨N2, ih2⟩ := ih2
    by_cases hp0 : AllProper ws
    · obtain ⟨N', ha⟩ := lit_accepted hl hp0
      refine ⟨max N' (max N1 N2) + 1, fun n hn a0 a dir ts rest hp hcl hv => ?_⟩
      obtain ⟨ts', rfl, hcl2⟩ := Closed.uncons (vs := o :: k :: (ws ++ c :: (us ++ [o', k', c']))) (us := vs) (by simpa using hcl)
      match n, hn with
      | n + 1, hn =>
        rw [agentOf_append, ← AAgent.append_assoc] at hv
        obtain ⟨_, x', rfl, hv1, hv2⟩ := validated_append.1 hv
        obtain ⟨a', s', rfl, hv3, hv4⟩ := validated_append.1 hv1
        simp only [List.cons_append, List.nil_append, List.append_assoc] at hp ⊢
        have hpu := hp.tail.tail.right.tail
        rw [parseAgent.eq_def]
        simp only
        rw [if_pos ((hp.head.iff (k := .braceOpen) rfl).2 ho),
          if_neg (ne_true_of_eq_false (at?_not (k := .incl) rfl (by simp [hk]) hp.tail.head _)),
          if_pos (at?_of (k := .begin) rfl hk hp.tail.head _)]
        rw [parsing_of (a := ((), c :: (us ++ o' :: k' :: c' :: ts'))) (by
          rw [parseBegin, advance_cons (by simp), Ev.bind_ok, ha n (by omega) c _ ⟨hp.tail.tail.right.head, by simp [hc], by simp [hc]⟩]
          simp only [Ev.bind_ok]
          rw [if_pos (at?_of (k := .braceClose) rfl hc hp.tail.tail.right.head _)])]
        simp only [Res.bind_ok, List.tail_cons]
        rw [ih1 n (by omega) {} s' true _ ts' hpu (by unfold Closed; rw [if_pos rfl]; exact ⟨o', k', c', rfl, ho', hk', hc'⟩)
          (by rw [AAgent.empty_append]; exact hv4)]
        simp only [Res.bind_ok]
        exact ih2 n (by omega) _ _ _ _ _ hpu.right.tail.tail.tail hcl2
          (validated_append.2 ⟨_, _, rfl, validated_append.2 ⟨_, _, rfl, hv3, hv4.stable⟩, hv2⟩)
    · exact ⟨0, fun n hn a0 a dir zs rest hp hcl hv => absurd (by
        obtain ⟨ts', rfl, _⟩ := Closed.uncons (vs := o :: k :: ws) (us := c :: (us ++ o' :: k' :: c' :: vs)) (by simpa using hcl)
        simp only [List.cons_append] at hp
        exact hp.tail.tail.left) hp0⟩

end

end Verif
