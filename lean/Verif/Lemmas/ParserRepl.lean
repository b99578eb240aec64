import Verif.Model.ParserRepl
import Verif.Lemmas.Prefix
import Verif.Lemmas.ScriptAgent
import Verif.Lemmas.FileTotal
import Verif.Lemmas.Env

/-! The prompt of the parser: what is done with the tokens of some lines, compared with a file. -/

namespace Verif

/-- The same result, or the exception for which `parse` has another one. -/
def AsFile {α : Type} (x y : Res Nat α) : Prop :=
  x = y ∨ ∃ s k, y = .err (.asl "end of file") (s + 1) ∧ x = .err (.py k) s ∧ (k = "StopIteration" ∨ k = "AttributeError")

theorem AsFile.bind {α β : Type} {x y : Res Nat α} {f g : α → Nat → Res Nat β} (h : AsFile x y) (hf : ∀ a s, AsFile (f a s) (g a s)) :
    AsFile (x.bind f) (y.bind g) := by
  rcases h with rfl | ⟨s, k, rfl, rfl, hk⟩
  · cases x with
    | ok a s => exact hf a s
    | err e s => exact .inl rfl
    | oof => exact .inl rfl
  · exact .inr ⟨s, k, rfl, rfl, hk⟩

theorem AsFile.ite {α : Type} {p : Prop} [Decidable p] {x x' y y' : Res Nat α} (h1 : p → AsFile x y) (h2 : ¬p → AsFile x' y') :
    AsFile (if p then x else x') (if p then y else y') := by
  by_cases h : p
  · rw [if_pos h, if_pos h]; exact h1 h
  · rw [if_neg h, if_neg h]; exact h2 h

theorem AsFile.ok {α : Type} {x y : Res Nat α} (h : AsFile x y) {a : α} {s : Nat} : x = .ok a s ↔ y = .ok a s := by
  rcases h with rfl | ⟨s, k, rfl, rfl, hk⟩
  · exact Iff.rfl
  · constructor <;> intro h <;> cases h

theorem raised_alike {α : Type} (dir : Bool) (e : Err) (s : Nat) : AsFile (α := α) (raisedTyped dir e s) (raised e s) := by
  cases e with
  | asl m => exact .inl rfl
  | py k =>
    unfold raisedTyped raised
    simp only
    by_cases h : k = "StopIteration"
    · rw [if_pos h, if_pos h]
      exact .inr ⟨s, _, rfl, rfl, by cases dir <;> simp [h]⟩
    · rw [if_neg h, if_neg h]
      exact .inl rfl

theorem parsing_alike {α : Type} (dir : Bool) (x : Ev α) (s : Nat) : AsFile (parsingTyped dir x s) (parsing x s) := by
  cases x with
  | ok a => exact .inl rfl
  | err e => exact raised_alike dir e s
  | oof => exact .inl rfl

section
variable [Unicode] [Floats] [Arith]

theorem typed_alike {files : List Char → Option (List Tok)} :
    ∀ (n : Nat) (inc : List (List Char)) (file : List Char) (dir : Bool) (acc : Option AAgent) (ts : List Tok) (s : Nat),
      AsFile (parseTyped files n inc file dir acc ts s) (parseAgent files n inc file dir acc ts s)
  | 0, _, _, _, _, _, _ => by rw [parseTyped, parseAgent]; exact .inl rfl
  | n + 1, inc, file, dir, acc, ts, s => by
    have ih := typed_alike (files := files) n
    rw [parseTyped.eq_def, parseAgent.eq_def]
    simp only
    cases ts with
    | nil => exact .inl rfl
    | cons t us =>
      simp only
      refine AsFile.ite (fun _ => ?_) fun _ => AsFile.ite (fun _ => ?_) fun _ => ih ..
      · refine AsFile.ite (fun _ => ?_) fun _ => AsFile.ite (fun _ => ?_) fun _ => AsFile.ite (fun _ => ?_) fun _ =>
          AsFile.ite (fun _ => raised_alike ..) fun _ => raised_alike ..
        · refine AsFile.bind (parsing_alike ..) fun a s => AsFile.ite (fun _ => ih ..) fun _ => ?_
          cases files (joinPath (dirname file) a.fst) with
          | none => exact ih ..
          | some toks => exact AsFile.bind (.inl rfl) fun a s => ih ..
        · exact AsFile.bind (parsing_alike ..) fun a s => AsFile.bind (ih ..) fun a s => ih ..
        · exact AsFile.bind (parsing_alike ..) fun a s => AsFile.ite (fun _ => .inl rfl) fun _ => ih ..
      · exact AsFile.bind (parsing_alike ..) fun a s => ih ..

/-- A file is read to its end. -/
theorem agent_rest {files : List Char → Option (List Tok)} :
    ∀ {n : Nat} {inc : List (List Char)} {file : List Char} {acc : Option AAgent} {ts : List Tok} {s : Nat} {o : Option AAgent}
      {rest : List Tok} {s' : Nat}, parseAgent files n inc file false acc ts s = .ok (o, rest) s' → rest = []
  | 0, _, _, _, _, _, _, _, _, h => by rw [parseAgent] at h; cases h
  | n + 1, inc, file, acc, ts, s, o, rest, s', h => by
    rw [parseAgent.eq_def] at h
    simp only at h
    cases ts with
    | nil => exact (closeAgent_ok h).1
    | cons t us =>
      simp only at h
      split at h
      · split at h
        · obtain ⟨a, s1, -, g⟩ := Res.bind_eq_ok.1 h
          split at g
          · exact agent_rest g
          · split at g
            · exact agent_rest g
            · obtain ⟨b, s2, -, g2⟩ := Res.bind_eq_ok.1 g
              exact agent_rest g2
        · split at h
          · obtain ⟨a, s1, -, g⟩ := Res.bind_eq_ok.1 h
            obtain ⟨b, s2, -, g2⟩ := Res.bind_eq_ok.1 g
            exact agent_rest g2
          · split at h
            · obtain ⟨a, s1, -, g⟩ := Res.bind_eq_ok.1 h
              exact agent_rest g
            · split at h <;> simp [raised] at h
      · split at h
        · obtain ⟨a, s1, -, g⟩ := Res.bind_eq_ok.1 h
          exact agent_rest g
        · exact agent_rest h

omit [Unicode] [Floats] [Arith] in
theorem parsingTyped_err {α : Type} {dir : Bool} {x : Ev α} {s s' : Nat} {e : Err} (h : parsingTyped dir x s = .err e s') : s ≤ s' := by
  cases x with
  | ok a => cases h
  | oof => cases h
  | err e' =>
    cases e' with
    | asl m => cases h; exact Nat.le_succ _
    | py k =>
      simp only [parsingTyped, raisedTyped] at h
      split at h <;> (cases h; exact Nat.le_refl _)

omit [Unicode] [Floats] [Arith] in
theorem parsingTyped_ok {α : Type} {dir : Bool} {x : Ev α} {s s' : Nat} {a : α} (h : parsingTyped dir x s = .ok a s') : s' = s :=
  (parsing_ok ((parsing_alike dir x s).ok.1 h)).2

omit [Unicode] [Floats] in
theorem closeAgent_no_stop {acc : Option AAgent} {ts : List Tok} {s s' : Nat} : closeAgent acc ts s ≠ .err (.py "StopIteration") s' := by
  intro h
  cases acc with
  | none => cases h
  | some a =>
    have hv := validate_folded a s
    unfold closeAgent at h
    simp only at h
    cases hx : validate a s with
    | ok b s1 => rw [hx] at h; cases h
    | oof => rw [hx] at h; cases h
    | err e s1 =>
      rw [hx] at h hv
      cases h
      rcases hv with h | h | h <;> simp at h

theorem agent_no_stop {files : List Char → Option (List Tok)} (hf : ∀ p ts, files p = some ts → Quoted ts) {n : Nat}
    {inc : List (List Char)} {file : List Char} {dir : Bool} {acc : Option AAgent} {ts : List Tok} {s s' : Nat} (hq : Quoted ts) :
    parseAgent files n inc file dir acc ts s ≠ .err (.py "StopIteration") s' := by
  intro h
  have hh := agent_halts (z := 1) (D := []) (L := 0) (Inv := fun _ _ => True) hf (.inr rfl) n inc file dir acc ts s hq (.inr rfl)
  rw [h] at hh
  rcases hh with ⟨⟨m, h⟩, -⟩ | (h | h | h) | h <;> simp at h

/-- The errors that have been logged are still there if something is missing. -/
theorem typed_stop {files : List Char → Option (List Tok)} (hf : ∀ p ts, files p = some ts → Quoted ts) :
    ∀ {n : Nat} {inc : List (List Char)} {file : List Char} {dir : Bool} {acc : Option AAgent} {ts : List Tok} {s s' : Nat},
      parseTyped files n inc file dir acc ts s = .err (.py "StopIteration") s' → s ≤ s'
  | 0, _, _, _, _, _, _, _, h => by rw [parseTyped] at h; cases h
  | n + 1, inc, file, dir, acc, ts, s, s', h => by
    rw [parseTyped.eq_def] at h
    simp only at h
    cases ts with
    | nil =>
      simp only at h
      split at h
      · cases h
      · exact absurd h closeAgent_no_stop
    | cons t us =>
      simp only at h
      split at h
      · split at h
        · rcases Res.bind_eq_err.1 h with h | ⟨a, s1, h1, g⟩
          · exact parsingTyped_err h
          · cases parsingTyped_ok h1
            split at g
            · exact Nat.le_of_succ_le (typed_stop hf g)
            · split at g
              · exact Nat.le_of_succ_le (typed_stop hf g)
              · rename_i hfile
                rcases Res.bind_eq_err.1 g with g | ⟨b, s2, h2, g2⟩
                · exact absurd g (agent_no_stop hf (hf _ _ hfile))
                · exact Nat.le_trans (agent_grows _ _ _ _ _ _ _ _ _ _ h2).1 (typed_stop hf g2)
        · split at h
          · rcases Res.bind_eq_err.1 h with h | ⟨a, s1, h1, g⟩
            · exact parsingTyped_err h
            · cases parsingTyped_ok h1
              rcases Res.bind_eq_err.1 g with g | ⟨b, s2, h2, g2⟩
              · exact typed_stop hf g
              · exact Nat.le_trans (agent_grows _ _ _ _ _ _ _ _ _ _ ((typed_alike ..).ok.1 h2)).1 (typed_stop hf g2)
          · split at h
            · rcases Res.bind_eq_err.1 h with h | ⟨a, s1, h1, g⟩
              · exact parsingTyped_err h
              · cases parsingTyped_ok h1
                split at g
                · exact absurd g closeAgent_no_stop
                · exact Nat.le_of_succ_le (typed_stop hf g)
            · split at h
              · exact parsingTyped_err (α := Option AAgent × List Tok) (x := .err (.py "StopIteration")) h
              · cases h
      · split at h
        · rcases Res.bind_eq_err.1 h with h | ⟨a, s1, h1, g⟩
          · exact parsingTyped_err h
          · cases parsingTyped_ok h1
            exact typed_stop hf g
        · exact Nat.le_of_succ_le (typed_stop hf h)

/-- A file without directives other than `include`, with fuel that is enough for its clauses and for the included files. -/
inductive Typeable (files : List Char → Option (List Tok)) (N : Nat) (inc : List (List Char)) (file : List Char) :
    List Tok → List Clause → Prop where
  | nil : Typeable files N inc file [] []
  | clause {ts c t us cs} : ClausePhrase ts c → t.kind = .fullstop → AllProper ts →
      (∀ n, N ≤ n → ∀ rs, parseClause n (ts ++ t :: rs) = .ok (c, t :: rs)) → Typeable files N inc file us cs →
      Typeable files N inc file (ts ++ t :: us) (c :: cs)
  | incl {o k p t q c us name toks cs cs'} : o.kind = .braceOpen → k.kind = .incl → p.kind = .parenOpen →
      t.kind = .string → parseString t.lexeme = .ok name → q.kind = .parenClose → c.kind = .braceClose → AllProper [o, k, p, t, q, c] →
      joinPath (dirname file) (name.map Char.ofNat) ∉ inc → files (joinPath (dirname file) (name.map Char.ofNat)) = some toks →
      Script files (normpath (joinPath (dirname file) (name.map Char.ofNat)) :: inc)
        (joinPath (dirname file) (name.map Char.ofNat)) toks cs →
      (∀ n, N ≤ n → ∀ a, Validated (agentOf cs) a →
        parseAgent files n (normpath (joinPath (dirname file) (name.map Char.ofNat)) :: inc) (joinPath (dirname file) (name.map Char.ofNat))
          false (some {}) toks 0 = .ok (some a, []) 0) →
      Typeable files N inc file us cs' → Typeable files N inc file (o :: k :: p :: t :: q :: c :: us) (cs ++ cs')

theorem Typeable.script {files : List Char → Option (List Tok)} {N : Nat} {inc : List (List Char)} {file : List Char} {ts : List Tok}
    {cs : List Clause} (h : Typeable files N inc file ts cs) : Script files inc file ts cs := by
  induction h with
  | nil => exact .nil
  | clause hc ht _ _ _ ih => exact .clause hc ht ih
  | incl h1 h2 h3 h4 h5 h6 h7 _ h8 h9 h10 _ _ ih => exact .incl h1 h2 h3 h4 h5 h6 h7 h8 h9 h10 ih

theorem Typeable.mono {files : List Char → Option (List Tok)} {N M : Nat} {inc : List (List Char)} {file : List Char} {ts : List Tok}
    {cs : List Clause} (hm : N ≤ M) (h : Typeable files N inc file ts cs) : Typeable files M inc file ts cs := by
  induction h with
  | nil => exact .nil
  | clause hc ht hp hr _ ih => exact .clause hc ht hp (fun n hn => hr n (by omega)) ih
  | incl h1 h2 h3 h4 h5 h6 h7 hp h8 h9 h10 hr _ ih =>
    exact .incl h1 h2 h3 h4 h5 h6 h7 hp h8 h9 h10 (fun n hn => hr n (by omega)) ih

theorem Script.typeable {files : List Char → Option (List Tok)} (hf : ∀ p ts, files p = some ts → AllProper ts)
    {inc : List (List Char)} {file : List Char} {ts : List Tok} {cs : List Clause} (h : Script files inc file ts cs) :
    AllProper ts → (∀ t ∈ ts, t.kind ≠ .begin) → ∃ N, Typeable files N inc file ts cs := by
  induction h with
  | nil => exact fun _ _ => ⟨0, .nil⟩
  | @clause inc file ts c t us cs hc ht _ ih =>
    intro hp hb
    obtain ⟨N, ih⟩ := ih hp.right.tail fun x hx => hb x (by simp [hx])
    obtain ⟨M, ha⟩ := clause_accepted hc hp.left
    exact ⟨max N M, .clause hc ht hp.left (fun n hn rs => ha n (by omega) t rs ⟨hp.right.head, ht⟩) (ih.mono (by omega))⟩
  | @incl inc file o k p t q c us name toks cs cs' ho hk hp' ht hn' hq hc hinc hfile hs _ _ ih2 =>
    intro hp hb
    obtain ⟨N, ih⟩ := ih2 hp.tail.tail.tail.tail.tail.tail fun x hx => hb x (by simp [hx])
    obtain ⟨M, ha⟩ := agent_complete hf hs
    refine ⟨max N M, .incl ho hk hp' ht hn' hq hc (fun x hx => hp x ?_) hinc hfile hs (fun n hn a hv => ?_) (ih.mono (by omega))⟩
    · have : x ∈ [o, k, p, t, q, c] ++ us := List.mem_append_left _ hx
      simpa using this
    · exact ha n (by omega) {} a false toks [] (hf _ _ hfile) (by unfold Closed; simp) (by rw [AAgent.empty_append]; exact hv)
  | directive _ hk => exact fun _ hb => absurd hk (hb _ (by simp))

/-- With the first tokens of a file: something is missing, or they are the text of the first clauses. -/
theorem typed_prefix {files : List Char → Option (List Tok)} {N : Nat} {inc : List (List Char)} {file : List Char} :
    ∀ (m : Nat) (ts later : List Tok) (cs : List Clause) (a0 a : AAgent), ts.length ≤ m → Quoted ts → 10 * ts.length + 12 ≤ N →
      Typeable files N inc file (ts ++ later) cs → Validated (a0.append (agentOf cs)) a → ∀ n, N + ts.length < n →
      (parseTyped files n inc file false (some a0) ts 0 = .err (.py "StopIteration") 0 ∧ later ≠ []) ∨
      ∃ cs₁ cs₂ a₁, cs = cs₁ ++ cs₂ ∧ Typeable files N inc file later cs₂ ∧
        parseTyped files n inc file false (some a0) ts 0 = .ok (some a₁, []) 0 ∧ Validated (a0.append (agentOf cs₁)) a₁
  | _, [], later, cs, a0, a, _, _, _, hr, hv, n, hn => by
    match n, hn with
    | n + 1, _ =>
      obtain ⟨b, d, rfl, hb, hd⟩ := validated_append.1 hv
      refine .inr ⟨[], cs, b, rfl, hr, ?_, ?_⟩
      · rw [parseTyped.eq_def]
        exact closeAgent_of hb
      · rw [show agentOf [] = {} from rfl, AAgent.append_empty]; exact hb
  | 0, _ :: _, _, _, _, _, hm, _, _, _, _, _, _ => by simp at hm
  | m + 1, x :: xs, later, cs, a0, a, hm, hq, hN, hr, hv, n, hn => by
    match n, hn with
    | n + 1, hn =>
      simp only [List.length_cons] at hm hN hn
      have hl : ∀ us, Longer us (parseClause n (x :: xs)) (parseClause n (x :: xs ++ us)) :=
        fun us => clause_streams n (x :: xs) us (by simp)
      have hdone := clause_done (z := 0) (n := n) hq (.inl (by simp only [List.length_cons]; omega))
      generalize hw : x :: xs ++ later = w at hr
      cases hr with
      | nil => simp at hw
      | @clause vs c t us cs hc ht hp ha hr' =>
        obtain ⟨y, ys, e, hst⟩ := clause_start hc
        subst e
        obtain ⟨rfl, hw'⟩ := List.cons.inj hw
        have hpy : x.Proper := hp.head
        have hk : x.kind ≠ .braceOpen := by
          rcases hst with ⟨h, -⟩ | ⟨h, -⟩ | ⟨h | h | h, -⟩ <;> simp [h]
        have hs : startsClause x = true := by
          simp only [startsClause, Bool.or_eq_true, decide_eq_true_eq, hpy.iff (k := .exclam) rfl, hpy.iff (k := .at_) rfl,
            hpy.iff (k := .opPlus) rfl, hpy.iff (k := .opMinus) rfl]
          rcases hst with ⟨h, -⟩ | ⟨h, -⟩ | ⟨h | h | h, -⟩ <;> simp [h]
        have h0 := ha n (by omega) us
        have h1 := hl later
        rw [hw, h0] at h1
        rw [parseTyped.eq_def]
        simp only
        rw [if_neg (fun e => hk ((hpy.iff (k := .braceOpen) rfl).1 e)), if_pos hs]
        match hx : parseClause n (x :: xs), h1, hdone with
        | .oof, _, h => cases h
        | .err e, .inl h, _ =>
          subst h
          refine .inl ⟨rfl, fun e => ?_⟩
          subst e
          rw [List.append_nil] at hw
          rw [hw, h0] at hx
          cases hx
        | .err e, .inr h, _ => cases h
        | .ok (c', r), h, hd =>
          obtain ⟨hne, h⟩ := h
          obtain ⟨t', r, rfl⟩ := List.exists_cons_of_ne_nil hne
          simp only [List.cons_append, Ev.ok.injEq, Prod.mk.injEq, List.cons.injEq] at h
          obtain ⟨rfl, rfl, rfl⟩ := h
          have hlen : r.length + 1 ≤ xs.length + 1 := by
            have := hd.1.length_le
            simpa using this
          have hlen2 : r.length + 1 ≤ xs.length := by
            have := hd.2
            simp only [List.length_cons] at this
            omega
          rcases typed_prefix m r later cs (a0.add c) a (by omega) (hq.suffix ((List.suffix_cons _ _).trans hd.1)) (by omega) hr'
            (by rw [agentOf_add]; exact hv) n (by omega) with ⟨g1, g2⟩ | ⟨cs₁, cs₂, a₁, rfl, g1, g2, g3⟩
          · exact .inl ⟨g1, g2⟩
          · exact .inr ⟨c :: cs₁, cs₂, a₁, rfl, g1, g2, by rw [← agentOf_add]; exact g3⟩
      | @incl o k p t q c us name toks cs cs' ho hk hp' ht hn' hq' hc hp hinc hfile hs hsub hr' =>
        obtain ⟨rfl, hw0⟩ : x = o ∧ xs ++ later = k :: p :: t :: q :: c :: us := by simpa using hw
        clear hw
        rw [parseTyped.eq_def]
        simp only
        rw [if_pos ((hp.head.iff (k := .braceOpen) rfl).2 ho)]
        match xs, hw0 with
        | [], hw =>
          exact .inl ⟨rfl, fun e => by subst e; cases hw⟩
        | k' :: xs, hw =>
          rw [List.cons_append] at hw
          obtain ⟨rfl, hw1⟩ := List.cons.inj hw
          clear hw
          rw [if_pos (at?_of (k := .incl) rfl hk hp.tail.head _)]
          match xs, hw1 with
          | [], hw => exact .inl ⟨rfl, fun e => by subst e; cases hw⟩
          | p' :: xs, hw =>
            rw [List.cons_append] at hw
            obtain ⟨rfl, hw2⟩ := List.cons.inj hw
            clear hw
            match xs, hw2 with
            | [], hw =>
              refine .inl ⟨?_, fun e => by subst e; cases hw⟩
              have : parseInclude [k', p'] = .err (.py "StopIteration") := by
                rw [parseInclude, advance_cons (by simp), Ev.bind_ok, expect,
                  if_pos (at?_of (k := .parenOpen) rfl hp' hp.tail.tail.head _)]
                rfl
              rw [this]
              rfl
            | t' :: xs, hw =>
              rw [List.cons_append] at hw
              obtain ⟨rfl, hw3⟩ := List.cons.inj hw
              clear hw
              have h3 : ∀ zs, parseInclude (k' :: p' :: t' :: zs) = (advance (t' :: zs)).bind fun ts => (expect [')'] ts).bind fun ts =>
                  if at? ['}'] ts then .ok (name.map Char.ofNat, ts) else syntaxError := by
                intro zs
                rw [parseInclude, advance_cons (by simp), Ev.bind_ok, expect_of (k := .parenOpen) rfl hp' hp.tail.tail.head (by simp),
                  Ev.bind_ok]
                simp only
                rw [if_pos ht, hn', Ev.bind_ok]
              rw [h3]
              match xs, hw3 with
              | [], hw => exact .inl ⟨rfl, fun e => by subst e; cases hw⟩
              | q' :: xs, hw =>
                rw [List.cons_append] at hw
                obtain ⟨rfl, hw4⟩ := List.cons.inj hw
                clear hw
                rw [advance_cons (by simp), Ev.bind_ok]
                match xs, hw4 with
                | [], hw =>
                  refine .inl ⟨?_, fun e => by subst e; cases hw⟩
                  rw [expect, if_pos (at?_of (k := .parenClose) rfl hq' hp.tail.tail.tail.tail.head _)]
                  rfl
                | c' :: xs, hw =>
                  rw [List.cons_append] at hw
                  obtain ⟨rfl, rfl⟩ := List.cons.inj hw
                  clear hw
                  rw [expect_of (k := .parenClose) rfl hq' hp.tail.tail.tail.tail.head (by simp), Ev.bind_ok,
                    if_pos (at?_of (k := .braceClose) rfl hc hp.tail.tail.tail.tail.tail.head _)]
                  rw [agentOf_append, ← AAgent.append_assoc] at hv
                  obtain ⟨_, x', rfl, hv1, hv2⟩ := validated_append.1 hv
                  obtain ⟨a', s', rfl, hv3, hv4⟩ := validated_append.1 hv1
                  simp only [parsingTyped, Res.bind_ok, List.tail_cons]
                  rw [if_neg hinc, hfile]
                  simp only
                  rw [hsub n (by omega) s' hv4]
                  simp only [Res.bind_ok, Option.bind_some, Option.map_some]
                  simp only [List.length_cons] at hm hN hn
                  rcases typed_prefix m xs later cs' (a0.append s') _ (by omega)
                    (hq.suffix ⟨[x, k', p', t', q', c'], rfl⟩) (by omega) hr'
                    (validated_append.2 ⟨_, _, rfl, validated_append.2 ⟨_, _, rfl, hv3, hv4.stable⟩, hv2⟩) n (by omega)
                    with ⟨g1, g2⟩ | ⟨cs₁, cs₂, a₁, rfl, g1, g2, g3⟩
                  · exact .inl ⟨g1, g2⟩
                  · refine .inr ⟨cs ++ cs₁, cs₂, a₁, by rw [List.append_assoc], g1, g2, ?_⟩
                    obtain ⟨b, d, rfl, hb, hd⟩ := validated_append.1 g3
                    obtain ⟨b', d', rfl, hb', hd'⟩ := validated_append.1 hb
                    cases hd'.unique hv4.stable
                    rw [agentOf_append, ← AAgent.append_assoc]
                    exact validated_append.2 ⟨_, _, rfl, validated_append.2 ⟨_, _, rfl, hb', hv4⟩, hd⟩

end

end Verif
