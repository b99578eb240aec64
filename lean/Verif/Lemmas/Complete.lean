import Verif.Lemmas.Parser

/-! The parser accepts all phrases of the grammar, with the tree of the grammar. -/

namespace Verif

theorem EndsPhrase.mono {l l' : Nat} (h : l ≤ l') {t : Tok} (hq : EndsPhrase l t) : EndsPhrase l' t :=
  ⟨hq.proper, hq.stops.mono h, hq.noParen, hq.noBracket⟩

/-- Operators of a level end phrases of the levels above. -/
theorem quiet_op {t : Tok} {op : BinOp} (hp : t.Proper) (hk : t.kind = op.kind) : EndsPhrase (op.level + 1) t := by
  refine ⟨hp, fun op' hl h => ?_, ?_, ?_⟩
  · rw [hk] at h
    cases op <;> cases op' <;> first | (cases h; done) | (simp [BinOp.level] at hl; done)
  · rw [hk]; cases op <;> simp [BinOp.kind]
  · rw [hk]; cases op <;> simp [BinOp.kind]

/-- Closing brackets and commas end all phrases. -/
theorem quiet_close {t : Tok} (hp : t.Proper) (hk : t.kind = .parenClose ∨ t.kind = .bracketClose ∨ t.kind = .comma) : EndsPhrase 0 t := by
  refine ⟨hp, fun op _ h => ?_, ?_, ?_⟩
  · rw [h] at hk
    cases op <;> simp [BinOp.kind] at hk
  · rcases hk with h | h | h <;> simp [h]
  · rcases hk with h | h | h <;> simp [h]

theorem quiet_bar {t : Tok} (hp : t.Proper) (hk : t.kind = .opOr) : EndsPhrase 1 t := quiet_op (op := .or) hp hk

theorem FindsOps.none {op? : Tok → Option BinOp} {l : Nat} (hf : FindsOps op? l) {t : Tok} (hq : EndsPhrase l t) : op? t = none := by
  cases ho : op? t with
  | none => rfl
  | some op =>
    obtain ⟨h1, h2⟩ := (hf t op hq.proper).1 ho
    exact absurd h1 (hq.stops op (by omega))

theorem advance_cons {t : Tok} {ts : List Tok} (h : ts ≠ []) : advance (t :: ts) = .ok ts := by
  cases ts with
  | nil => exact absurd rfl h
  | cons u us => rfl

/-- The first token of a phrase of level `l`. -/
def Starts (l : Nat) (k : Kind) : Prop :=
  k = .var ∨ k = .functor ∨ k = .bracketOpen ∨ k = .parenOpen ∨ k = .numeric ∨ k = .litTrue ∨ k = .litFalse ∨ k = .string ∨
    (l ≤ 6 ∧ (k = .opPlus ∨ k = .opMinus)) ∨ (l ≤ 2 ∧ k = .opNot)

theorem Starts.mono {l l' : Nat} (h : l ≤ l') {k : Kind} (hs : Starts l' k) : Starts l k := by
  rcases hs with h1 | h1 | h1 | h1 | h1 | h1 | h1 | h1 | ⟨h2, h1⟩ | ⟨h2, h1⟩
  all_goals simp [Starts, h1]
  · rcases h1 with rfl | rfl <;> simp <;> omega
  · omega

section
variable [Unicode] [Floats]

theorem phrase_start : ∀ {l : Nat} {ts : List Tok} {a : Ast}, Phrase l ts a → ∃ t rs, ts = t :: rs ∧ Starts l t.kind
  | _, _, _, .up _ h => by
    obtain ⟨t, rs, e, hs⟩ := phrase_start h
    exact ⟨t, rs, e, hs.mono (by omega)⟩
  | _, _, _, .left _ _ h _ => by
    obtain ⟨t, rs, e, hs⟩ := phrase_start h
    exact ⟨t, _, by rw [e]; rfl, hs⟩
  | _, _, _, .not hk _ => ⟨_, _, rfl, by simp [Starts, hk]⟩
  | _, _, _, .compare h _ _ => by
    obtain ⟨t, rs, e, hs⟩ := phrase_start h
    exact ⟨t, _, by rw [e]; rfl, hs.mono (by decide)⟩
  | _, _, _, .sign (op := op) hn hk _ => ⟨_, _, rfl, by
      cases op with
      | not => exact absurd rfl hn
      | pos => simp [Starts, hk, UnOp.kind]
      | neg => simp [Starts, hk, UnOp.kind]⟩
  | _, _, _, .power _ h _ => by
    obtain ⟨t, rs, e, hs⟩ := phrase_start h
    exact ⟨t, _, by rw [e]; rfl, hs.mono (by decide)⟩
  | _, _, _, .paren hk _ _ => ⟨_, _, rfl, by simp [Starts, hk]⟩
  | _, _, _, .var hk => ⟨_, _, rfl, by simp [Starts, hk]⟩
  | _, _, _, .num hk => ⟨_, _, rfl, by simp [Starts, hk]⟩
  | _, _, _, .true_ hk => ⟨_, _, rfl, by simp [Starts, hk]⟩
  | _, _, _, .false_ hk => ⟨_, _, rfl, by simp [Starts, hk]⟩
  | _, _, _, .str hk _ => ⟨_, _, rfl, by simp [Starts, hk]⟩
  | _, _, _, .lit hk _ _ => ⟨_, _, rfl, by simp [Starts, hk]⟩
  | _, _, _, .list hk _ => ⟨_, _, rfl, by simp [Starts, hk]⟩
  | _, _, _, .linked hk _ _ => ⟨_, _, rfl, by simp [Starts, hk]⟩

/-- The function for a level. -/
def parseAt : Nat → Nat → List Tok → PR Ast
  | 0 => parseTerm | 1 => parseAnd | 2 => parseNot | 3 => parseComparison | 4 => parseArith
  | 5 => parseProduct | 6 => parseFactor | 7 => parsePower | _ => parseAtom

/-- The operators of a level. -/
def opAt : Nat → Tok → Option BinOp
  | 0 => orOp | 1 => andOp | 4 => addOp | _ => mulOp

def IsLeft (l : Nat) : Prop := l = 0 ∨ l = 1 ∨ l = 4 ∨ l = 5

omit [Unicode] [Floats] in
theorem opAt_finds {l : Nat} (h : IsLeft l) : FindsOps (opAt l) l := by
  rcases h with rfl | rfl | rfl | rfl
  · exact orOp_finds
  · exact andOp_finds
  · exact addOp_finds
  · exact mulOp_finds

theorem parseAt_left {l : Nat} (h : IsLeft l) (n : Nat) (ts : List Tok) :
    parseAt l (n + 1) ts = (parseAt (l + 1) n ts).bind fun (e, ts) => leftLoop (opAt l) (parseAt (l + 1) n) ts.length e ts := by
  rcases h with rfl | rfl | rfl | rfl
  · show parseTerm (n + 1) ts = _; rw [parseTerm]; rfl
  · show parseAnd (n + 1) ts = _; rw [parseAnd]; rfl
  · show parseArith (n + 1) ts = _; rw [parseArith]; rfl
  · show parseProduct (n + 1) ts = _; rw [parseProduct]; rfl

/-- With enough fuel, the phrase is parsed, if a token follows that ends it. -/
def Ok (l : Nat) (ts : List Tok) (a : Ast) : Prop :=
  ∃ N, ∀ n, N ≤ n → ∀ t rs, EndsPhrase l t → parseAt l n (ts ++ t :: rs) = .ok (a, t :: rs)

/-- With enough fuel, the loop gets to the end of the phrase. -/
def Loop (l : Nat) (ts : List Tok) (a : Ast) : Prop :=
  ∃ N, ∀ n, N ≤ n → ∀ t rs, EndsPhrase (l + 1) t → ∃ k, (t :: rs).length ≤ k ∧
    parseAt l (n + 1) (ts ++ t :: rs) = leftLoop (opAt l) (parseAt (l + 1) n) k a (t :: rs)

theorem Loop.ok {l : Nat} (hl : IsLeft l) {ts : List Tok} {a : Ast} (h : Loop l ts a) : Ok l ts a := by
  obtain ⟨N, h⟩ := h
  refine ⟨N + 1, fun n hn t rs hq => ?_⟩
  cases n with
  | zero => omega
  | succ n =>
    obtain ⟨k, hk, e⟩ := h n (by omega) t rs (hq.mono (Nat.le_succ l))
    rw [e]
    cases k with
    | zero => simp at hk
    | succ k => rw [leftLoop, (opAt_finds hl).none hq]

theorem loop_up {l : Nat} (hl : IsLeft l) {ts : List Tok} {a : Ast} (h : Ok (l + 1) ts a) : Loop l ts a := by
  obtain ⟨N, h⟩ := h
  refine ⟨N, fun n hn t rs hq => ⟨_, Nat.le_refl _, ?_⟩⟩
  rw [parseAt_left hl, h n hn t rs hq]
  rfl

theorem loop_left {op : BinOp} (hl : IsLeft op.level) {t : Tok} {ts us : List Tok} {a b : Ast} (hp : t.Proper) (hk : t.kind = op.kind)
    (h1 : Loop op.level ts a) (h2 : Ok (op.level + 1) us b) : Loop op.level (ts ++ t :: us) (.bin op a b) := by
  obtain ⟨N1, h1⟩ := h1
  obtain ⟨N2, h2⟩ := h2
  refine ⟨max N1 N2, fun n hn t' rs hq => ?_⟩
  have e : ts ++ t :: us ++ t' :: rs = ts ++ t :: (us ++ t' :: rs) := by simp
  obtain ⟨k, hk', e'⟩ := h1 n (by omega) t (us ++ t' :: rs) (quiet_op hp hk)
  rw [e, e']
  cases k with
  | zero => simp at hk'
  | succ k =>
    refine ⟨k, by simp at hk' ⊢; omega, ?_⟩
    rw [leftLoop, ((opAt_finds hl) t op hp).2 ⟨hk, rfl⟩]
    simp only
    rw [advance_cons (by simp), Ev.bind_ok, h2 n (by omega) t' rs hq]
    rfl

/-- The loop over comparisons. -/
def OkComparisons (us : List Tok) (rest : List (BinOp × Ast)) : Prop :=
  ∃ N, ∀ n, N ≤ n → ∀ c e k t rs, EndsPhrase 3 t → (us ++ t :: rs).length ≤ k →
    compLoop (parseArith n) k c e (us ++ t :: rs) = .ok (chain c e rest, t :: rs)

theorem comparisons_nil : OkComparisons [] [] := by
  refine ⟨0, fun n _ c e k t rs hq hk => ?_⟩
  cases k with
  | zero => simp at hk
  | succ k => rw [List.nil_append, compLoop, compOp_finds.none hq]; rfl

theorem comparisons_cons {op : BinOp} {t : Tok} {ts us : List Tok} {a : Ast} {rest : List (BinOp × Ast)} (hl : op.level = 3) (hp : t.Proper)
    (hpu : AllProper us) (hk : t.kind = op.kind) (hus : ∀ u ∈ us.head?, ∃ op : BinOp, op.level = 3 ∧ u.kind = op.kind)
    (h1 : Ok 4 ts a) (h2 : OkComparisons us rest) : OkComparisons (t :: (ts ++ us)) ((op, a) :: rest) := by
  obtain ⟨N1, h1⟩ := h1
  obtain ⟨N2, h2⟩ := h2
  refine ⟨max N1 N2, fun n hn c e k t' rs hq hkk => ?_⟩
  cases k with
  | zero => simp at hkk
  | succ k =>
    rw [List.cons_append, compLoop, (compOp_finds t op hp).2 ⟨hk, hl⟩]
    simp only
    rw [advance_cons (by simp), Ev.bind_ok]
    have : ∃ u vs, us ++ t' :: rs = u :: vs ∧ EndsPhrase 4 u := by
      cases us with
      | nil => exact ⟨t', rs, rfl, hq.mono (by decide)⟩
      | cons u us =>
        obtain ⟨op', hl', hk'⟩ := hus u rfl
        have := quiet_op (hpu u (by simp)) hk'
        rw [hl'] at this
        exact ⟨u, _, rfl, this⟩
    obtain ⟨u, vs, e1, hqu⟩ := this
    have e2 := h1 n (by omega) u vs hqu
    rw [List.append_assoc, e1]
    rw [show parseArith n (ts ++ u :: vs) = .ok (a, u :: vs) from e2]
    simp only [Ev.bind_ok]
    rw [← e1, h2 n (by omega) _ _ k t' rs hq (by simp at hkk ⊢; omega)]
    rfl

/-! ## Lists and arguments -/

def OkArgs (w : List Char) (us : List Tok) (args : List Ast) : Prop :=
  ∃ N, ∀ n, N ≤ n → ∀ o t rs, parseArgs n w (o :: (us ++ t :: rs)) = .ok (args, t :: rs)

def OkItems (us : List Tok) (items : List Ast) : Prop :=
  ∃ N, ∀ n, N ≤ n → ∀ acc t rs, parseItems n acc (us ++ t :: rs) = .ok (.list (acc ++ items), t :: rs)

def OkTail (us : List Tok) (a : Ast) : Prop :=
  ∃ N, ∀ n, N ≤ n → ∀ t rs, parseTail n (us ++ t :: rs) = .ok (a, t :: rs)

theorem args_last {k : Kind} {w : List Char} (hw : k.fixed = some w) (hk : k = .parenClose ∨ k = .bracketClose) {t : Tok}
    {ts : List Tok} {a : Ast} (hp : t.Proper) (hkt : t.kind = k) (h : Ok 0 ts a) : OkArgs w (ts ++ [t]) [a] := by
  obtain ⟨N, h⟩ := h
  refine ⟨N + 1, fun n hn o t' rs => ?_⟩
  cases n with
  | zero => omega
  | succ n =>
    have e := h n (by omega) t (t' :: rs) (quiet_close hp (by rcases hk with rfl | rfl <;> simp [hkt]))
    rw [parseArgs, advance_cons (by simp), Ev.bind_ok, List.append_assoc]
    rw [show parseTerm n (ts ++ ([t] ++ t' :: rs)) = .ok (a, t :: t' :: rs) from e]
    simp only [Ev.bind_ok]
    rw [if_pos (at?_of hw hkt hp _)]
    rfl

theorem args_more {k : Kind} {w : List Char} (hw : k.fixed = some w) (hk : k = .parenClose ∨ k = .bracketClose) {t : Tok}
    {ts us : List Tok} {a : Ast} {rest : List Ast} (hp : t.Proper) (hkt : t.kind = .comma) (h : Ok 0 ts a) (h2 : OkArgs w us rest) :
    OkArgs w (ts ++ t :: us) (a :: rest) := by
  obtain ⟨N, h⟩ := h
  obtain ⟨N2, h2⟩ := h2
  refine ⟨max N N2 + 1, fun n hn o t' rs => ?_⟩
  cases n with
  | zero => omega
  | succ n =>
    have e := h n (by omega) t (us ++ t' :: rs) (quiet_close hp (by simp [hkt]))
    rw [parseArgs, advance_cons (by simp), Ev.bind_ok, List.append_assoc]
    rw [show parseTerm n (ts ++ (t :: us ++ t' :: rs)) = .ok (a, t :: (us ++ t' :: rs)) from e]
    simp only [Ev.bind_ok]
    rw [at?_not hw (by rcases hk with rfl | rfl <;> simp [hkt]) hp, if_neg (by simp), if_pos (at?_of (k := .comma) rfl hkt hp _),
      h2 n (by omega)]
    rfl

theorem items_nil {t : Tok} (hp : t.Proper) (hk : t.kind = .bracketClose) : OkItems [t] [] := by
  refine ⟨1, fun n hn acc t' rs => ?_⟩
  cases n with
  | zero => omega
  | succ n =>
    rw [parseItems, List.cons_append, if_pos (at?_of (k := .bracketClose) rfl hk hp _)]
    simp [advance]

/-- The first token of a phrase is no closing bracket. -/
theorem start_at? {l : Nat} {ts : List Tok} {a : Ast} (h : Phrase l ts a) (hp : AllProper ts) (rs : List Tok) :
    at? [']'] (ts ++ rs) = false := by
  obtain ⟨t, us, rfl, hs⟩ := phrase_start h
  refine at?_not (k := .bracketClose) rfl ?_ hp.head _
  intro hk
  simp [Starts, hk] at hs

theorem items_last {t : Tok} {ts : List Tok} {a : Ast} (hp : t.Proper) (hpt : AllProper ts) (hk : t.kind = .bracketClose)
    (hph : Phrase 1 ts a) (h : Ok 1 ts a) : OkItems (ts ++ [t]) [a] := by
  obtain ⟨N, h⟩ := h
  refine ⟨N + 2, fun n hn acc t' rs => ?_⟩
  match n, hn with
  | n + 2, hn =>
    have e := h (n + 1) (by omega) t (t' :: rs) ((quiet_close hp (by simp [hk])).mono (by decide))
    rw [parseItems, List.append_assoc, start_at? hph hpt, if_neg (by simp)]
    rw [show parseAnd (n + 1) (ts ++ ([t] ++ t' :: rs)) = .ok (a, t :: t' :: rs) from e]
    simp only [Ev.bind_ok]
    rw [at?_not (k := .opOr) rfl (by simp [hk]) hp, if_neg (by simp), at?_not (k := .comma) rfl (by simp [hk]) hp, if_neg (by simp),
      if_pos (at?_of (k := .bracketClose) rfl hk hp _), parseItems, if_pos (at?_of (k := .bracketClose) rfl hk hp _)]
    rfl

theorem items_more {t : Tok} {ts us : List Tok} {a : Ast} {rest : List Ast} (hp : t.Proper) (hpt : AllProper ts) (hk : t.kind = .comma)
    (hph : Phrase 1 ts a) (h : Ok 1 ts a) (h2 : OkItems us rest) : OkItems (ts ++ t :: us) (a :: rest) := by
  obtain ⟨N, h⟩ := h
  obtain ⟨N2, h2⟩ := h2
  refine ⟨max N N2 + 1, fun n hn acc t' rs => ?_⟩
  cases n with
  | zero => omega
  | succ n =>
    have e := h n (by omega) t (us ++ t' :: rs) ((quiet_close hp (by simp [hk])).mono (by decide))
    rw [parseItems, List.append_assoc, start_at? hph hpt, if_neg (by simp)]
    rw [show parseAnd n (ts ++ (t :: us ++ t' :: rs)) = .ok (a, t :: (us ++ t' :: rs)) from e]
    simp only [Ev.bind_ok]
    rw [at?_not (k := .opOr) rfl (by simp [hk]) hp, if_neg (by simp), if_pos (at?_of (k := .comma) rfl hk hp _),
      advance_cons (by simp), Ev.bind_ok, h2 n (by omega)]
    simp

theorem tail_last {t c : Tok} {ts : List Tok} {a : Ast} (hp : t.Proper) (hpc : c.Proper) (hk : t.kind = .opOr) (h : Ok 1 ts a)
    (hkc : c.kind = .bracketClose) : OkTail (t :: (ts ++ [c])) a := by
  obtain ⟨N, h⟩ := h
  refine ⟨N + 1, fun n hn t' rs => ?_⟩
  cases n with
  | zero => omega
  | succ n =>
    have e := h n (by omega) c (t' :: rs) ((quiet_close hpc (by simp [hkc])).mono (by decide))
    rw [List.cons_append, parseTail, if_pos (at?_of (k := .opOr) rfl hk hp _), advance_cons (by simp), Ev.bind_ok, List.append_assoc]
    rw [show parseAnd n (ts ++ ([c] ++ t' :: rs)) = .ok (a, c :: t' :: rs) from e]
    simp only [Ev.bind_ok]
    rw [at?_not (k := .opOr) rfl (by simp [hkc]) hpc, if_neg (by simp), if_pos (at?_of (k := .bracketClose) rfl hkc hpc _)]
    rfl

theorem tail_head {us : List Tok} {b : Ast} (h : Tail us b) : ∃ t rs, us = t :: rs ∧ t.kind = .opOr := by
  cases h with
  | last hk _ _ => exact ⟨_, _, rfl, hk⟩
  | more hk _ _ => exact ⟨_, _, rfl, hk⟩

theorem tail_more {t : Tok} {ts us : List Tok} {a b : Ast} (hp : t.Proper) (hpu : AllProper us) (hk : t.kind = .opOr) (h : Ok 1 ts a)
    (hph : Tail us b) (h2 : OkTail us b) : OkTail (t :: (ts ++ us)) (.linked a b) := by
  obtain ⟨N, h⟩ := h
  obtain ⟨N2, h2⟩ := h2
  obtain ⟨u, vs, rfl, hku⟩ := tail_head hph
  refine ⟨max N N2 + 1, fun n hn t' rs => ?_⟩
  cases n with
  | zero => omega
  | succ n =>
    have e := h n (by omega) u (vs ++ t' :: rs) (quiet_bar hpu.head hku)
    rw [List.cons_append, parseTail, if_pos (at?_of (k := .opOr) rfl hk hp _), advance_cons (by simp), Ev.bind_ok, List.append_assoc]
    rw [show parseAnd n (ts ++ (u :: vs ++ t' :: rs)) = .ok (a, u :: (vs ++ t' :: rs)) from e]
    simp only [Ev.bind_ok]
    rw [if_pos (at?_of (k := .opOr) rfl hku hpu.head _)]
    have := h2 n (by omega) t' rs
    rw [List.cons_append] at this
    rw [this]
    rfl

/-! ## Atoms -/

theorem ok_var {t : Tok} (hk : t.kind = .var) : Ok 8 [t] (.var t.lexeme) := by
  refine ⟨1, fun n hn t' rs _ => ?_⟩
  cases n with
  | zero => omega
  | succ n =>
    show parseAtom (n + 1) (t :: t' :: rs) = _
    rw [parseAtom.eq_def]
    simp [hk, advance]

omit [Unicode] [Floats] in
theorem Tok.Proper.ne {t : Tok} (h : t.Proper) {k : Kind} {w : List Char} (hk : k.fixed = some w) (hne : t.kind ≠ k) : t.lexeme ≠ w :=
  fun e => hne ((h.iff hk).1 e)

theorem ok_num {t : Tok} (hp : t.Proper) (hk : t.kind = .numeric) : Ok 8 [t] (.const (.num (Floats.read t.lexeme))) := by
  refine ⟨1, fun n hn t' rs _ => ?_⟩
  cases n with
  | zero => omega
  | succ n =>
    show parseAtom (n + 1) (t :: t' :: rs) = _
    rw [parseAtom.eq_def]
    simp [hk, advance, hp.ne (k := .bracketOpen) rfl (by simp [hk]), hp.ne (k := .parenOpen) rfl (by simp [hk])]

theorem ok_true {t : Tok} (hp : t.Proper) (hk : t.kind = .litTrue) : Ok 8 [t] (.const (.bool true)) := by
  refine ⟨1, fun n hn t' rs _ => ?_⟩
  cases n with
  | zero => omega
  | succ n =>
    show parseAtom (n + 1) (t :: t' :: rs) = _
    rw [parseAtom.eq_def]
    simp [hk, advance, hp.ne (k := .bracketOpen) rfl (by simp [hk]), hp.ne (k := .parenOpen) rfl (by simp [hk])]

theorem ok_false {t : Tok} (hp : t.Proper) (hk : t.kind = .litFalse) : Ok 8 [t] (.const (.bool false)) := by
  refine ⟨1, fun n hn t' rs _ => ?_⟩
  cases n with
  | zero => omega
  | succ n =>
    show parseAtom (n + 1) (t :: t' :: rs) = _
    rw [parseAtom.eq_def]
    simp [hk, advance, hp.ne (k := .bracketOpen) rfl (by simp [hk]), hp.ne (k := .parenOpen) rfl (by simp [hk])]

theorem ok_str {t : Tok} {s : List Nat} (hp : t.Proper) (hk : t.kind = .string) (hs : parseString t.lexeme = .ok s) :
    Ok 8 [t] (.const (.str s)) := by
  refine ⟨1, fun n hn t' rs _ => ?_⟩
  cases n with
  | zero => omega
  | succ n =>
    show parseAtom (n + 1) (t :: t' :: rs) = _
    rw [parseAtom.eq_def]
    simp [hk, advance, hs, hp.ne (k := .bracketOpen) rfl (by simp [hk]), hp.ne (k := .parenOpen) rfl (by simp [hk])]

theorem ok_paren {o c : Tok} {ts : List Tok} {a : Ast} (hpo : o.Proper) (hpc : c.Proper) (hko : o.kind = .parenOpen) (h : Ok 0 ts a)
    (hkc : c.kind = .parenClose) : Ok 8 (o :: (ts ++ [c])) a := by
  obtain ⟨N, h⟩ := h
  refine ⟨N + 1, fun n hn t' rs _ => ?_⟩
  cases n with
  | zero => omega
  | succ n =>
    have e := h n (by omega) c (t' :: rs) (quiet_close hpc (by simp [hkc]))
    show parseAtom (n + 1) (o :: (ts ++ [c] ++ t' :: rs)) = _
    rw [parseAtom.eq_def]
    simp only
    rw [if_neg (by simp [hko]), if_neg (by simp [hko]), if_neg (hpo.ne (k := .bracketOpen) rfl (by simp [hko])),
      if_pos ((hpo.iff (k := .parenOpen) rfl).2 hko), advance_cons (by simp), Ev.bind_ok, List.append_assoc]
    rw [show parseTerm n (ts ++ ([c] ++ t' :: rs)) = .ok (a, c :: t' :: rs) from e]
    simp only [Ev.bind_ok]
    rw [if_pos (at?_of (k := .parenClose) rfl hkc hpc _)]
    rfl

theorem atom_list {n : Nat} {o : Tok} {us : List Tok} (hp : o.Proper) (hk : o.kind = .bracketOpen) (hus : us ≠ []) :
    parseAtom (n + 2) (o :: us) = parseItems n [] us := by
  rw [parseAtom.eq_def]
  simp only
  rw [if_neg (by simp [hk]), if_neg (by simp [hk]), if_pos ((hp.iff (k := .bracketOpen) rfl).2 hk), parseList,
    if_pos (at?_of (k := .bracketOpen) rfl hk hp _), advance_cons hus]
  rfl

theorem ok_list {o : Tok} {ts : List Tok} {items : List Ast} (hp : o.Proper) (hk : o.kind = .bracketOpen) (h : OkItems ts items) :
    Ok 8 (o :: ts) (.list items) := by
  obtain ⟨N, h⟩ := h
  refine ⟨N + 2, fun n hn t' rs _ => ?_⟩
  match n, hn with
  | n + 2, hn =>
    show parseAtom (n + 2) (o :: (ts ++ t' :: rs)) = _
    rw [atom_list hp hk (by simp), h n (by omega)]
    rfl

theorem ok_linked {o : Tok} {ts us : List Tok} {a b : Ast} (hp : o.Proper) (hpt : AllProper ts) (hpu : AllProper us) (hk : o.kind = .bracketOpen)
    (hph : Phrase 1 ts a) (h1 : Ok 1 ts a) (hpt' : Tail us b) (h2 : OkTail us b) : Ok 8 (o :: (ts ++ us)) (.linked a b) := by
  obtain ⟨N1, h1⟩ := h1
  obtain ⟨N2, h2⟩ := h2
  obtain ⟨u, vs, rfl, hku⟩ := tail_head hpt'
  refine ⟨max N1 N2 + 3, fun n hn t' rs _ => ?_⟩
  match n, hn with
  | n + 3, hn =>
    have e := h1 n (by omega) u (vs ++ t' :: rs) (quiet_bar hpu.head hku)
    show parseAtom (n + 3) (o :: (ts ++ u :: vs ++ t' :: rs)) = _
    rw [atom_list hp hk (by simp), parseItems, List.append_assoc, start_at? hph hpt, if_neg (by simp)]
    rw [show parseAnd n (ts ++ (u :: vs ++ t' :: rs)) = .ok (a, u :: (vs ++ t' :: rs)) from e]
    simp only [Ev.bind_ok]
    rw [if_pos (at?_of (k := .opOr) rfl hku hpu.head _)]
    simp only [List.nil_append, List.length_singleton, Nat.lt_irrefl, gt_iff_lt, if_false]
    have := h2 n (by omega) t' rs
    rw [List.cons_append] at this
    rw [this]
    rfl

/-- Optional arguments: with enough fuel, they are parsed, if no opening bracket follows that is not theirs. -/
def OkOpt (k : Kind) (o c : List Char) (us : List Tok) (args : List Ast) : Prop :=
  ∃ N, ∀ n, N ≤ n → ∀ t rs, t.Proper → t.kind ≠ k →
    (if at? o (us ++ t :: rs) then parseArgs n c (us ++ t :: rs) else .ok ([], us ++ t :: rs)) = .ok (args, t :: rs)

theorem opt_none {k : Kind} {o : List Char} (c : List Char) (hk : k.fixed = some o) : OkOpt k o c [] [] := by
  refine ⟨0, fun n _ t rs hp ht => ?_⟩
  rw [List.nil_append, at?_not hk ht hp, if_neg (by simp)]

theorem opt_some {k : Kind} {o c : List Char} (hk : k.fixed = some o) {t : Tok} {us : List Tok} {args : List Ast} (hp : t.Proper)
    (ht : t.kind = k) (h : OkArgs c us args) : OkOpt k o c (t :: us) args := by
  obtain ⟨N, h⟩ := h
  refine ⟨N, fun n hn t' rs _ _ => ?_⟩
  rw [List.cons_append, at?_of hk ht hp, if_pos rfl, h n hn]

theorem ok_lit {t : Tok} {ts us : List Tok} {args annots : List Ast} (hpu : AllProper us) (hk : t.kind = .functor)
    (hu : OptArgs .bracketOpen .bracketClose us annots)
    (h1 : OkOpt .parenOpen ['('] [')'] ts args) (h2 : OkOpt .bracketOpen ['['] [']'] us annots) :
    Ok 8 (t :: (ts ++ us)) (.lit t.lexeme args annots) := by
  obtain ⟨N1, h1⟩ := h1
  obtain ⟨N2, h2⟩ := h2
  refine ⟨max N1 N2 + 2, fun n hn t' rs hq => ?_⟩
  match n, hn with
  | n + 2, hn =>
    have : ∃ u vs, us ++ t' :: rs = u :: vs ∧ u.Proper ∧ u.kind ≠ .parenOpen := by
      cases hu with
      | none => exact ⟨t', rs, rfl, hq.proper, hq.noParen⟩
      | some ho _ => exact ⟨_, _, rfl, hpu.head, by simp [ho]⟩
    obtain ⟨u, vs, e, hu1, hu2⟩ := this
    show parseAtom (n + 2) (t :: (ts ++ us ++ t' :: rs)) = _
    rw [parseAtom.eq_def]
    simp only
    rw [if_neg (by simp [hk]), if_pos hk, parseLiteral.eq_def]
    simp only
    rw [if_pos hk, advance_cons (by simp), Ev.bind_ok, List.append_assoc, e, h1 n (by omega) u vs hu1 hu2]
    simp only [Ev.bind_ok]
    rw [← e, h2 n (by omega) t' rs hq.proper hq.noBracket]
    rfl

/-! ## Other levels -/

theorem ok_not_up {ts : List Tok} {a : Ast} (hph : Phrase 3 ts a) (hp : AllProper ts) (h : Ok 3 ts a) : Ok 2 ts a := by
  obtain ⟨N, h⟩ := h
  refine ⟨N + 1, fun n hn t' rs hq => ?_⟩
  cases n with
  | zero => omega
  | succ n =>
    have e := h n (by omega) t' rs (hq.mono (by decide))
    obtain ⟨t, us, rfl, hs⟩ := phrase_start hph
    show parseNot (n + 1) (t :: (us ++ t' :: rs)) = _
    rw [parseNot, at?_not (w := ['n', 'o', 't']) (k := .opNot) rfl (by intro hk; simp [Starts, hk] at hs) hp.head, if_neg (by simp)]
    exact e

theorem ok_not {t : Tok} {ts : List Tok} {a : Ast} (hp : t.Proper) (hk : t.kind = .opNot) (h : Ok 2 ts a) : Ok 2 (t :: ts) (.un .not a) := by
  obtain ⟨N, h⟩ := h
  refine ⟨N + 1, fun n hn t' rs hq => ?_⟩
  cases n with
  | zero => omega
  | succ n =>
    have e := h n (by omega) t' rs hq
    show parseNot (n + 1) (t :: (ts ++ t' :: rs)) = _
    rw [parseNot, at?_of (w := ['n', 'o', 't']) (k := .opNot) rfl hk hp, if_pos rfl, advance_cons (by simp), Ev.bind_ok]
    rw [show parseNot n (ts ++ t' :: rs) = .ok (a, t' :: rs) from e]
    rfl

theorem ok_factor_up {ts : List Tok} {a : Ast} (hph : Phrase 7 ts a) (h : Ok 7 ts a) : Ok 6 ts a := by
  obtain ⟨N, h⟩ := h
  refine ⟨N + 1, fun n hn t' rs hq => ?_⟩
  cases n with
  | zero => omega
  | succ n =>
    have e := h n (by omega) t' rs (hq.mono (by decide))
    obtain ⟨t, us, rfl, hs⟩ := phrase_start hph
    have hu : unaryOp t = none := by
      cases hu : unaryOp t with
      | none => rfl
      | some op =>
        obtain ⟨h1, h2⟩ := unaryOp_iff.1 hu
        cases op with
        | not => exact absurd rfl h2
        | pos => simp [Starts, h1, UnOp.kind] at hs
        | neg => simp [Starts, h1, UnOp.kind] at hs
    show parseFactor (n + 1) (t :: (us ++ t' :: rs)) = _
    rw [parseFactor.eq_def]
    simp only [hu]
    exact e

theorem ok_sign {op : UnOp} {t : Tok} {ts : List Tok} {a : Ast} (hn : op ≠ .not) (hk : t.kind = op.kind) (h : Ok 6 ts a) :
    Ok 6 (t :: ts) (.un op a) := by
  obtain ⟨N, h⟩ := h
  refine ⟨N + 1, fun n hnn t' rs hq => ?_⟩
  cases n with
  | zero => omega
  | succ n =>
    have e := h n (by omega) t' rs hq
    show parseFactor (n + 1) (t :: (ts ++ t' :: rs)) = _
    rw [parseFactor.eq_def]
    simp only [unaryOp_iff.2 ⟨hk, hn⟩]
    rw [advance_cons (by simp), Ev.bind_ok]
    rw [show parseFactor n (ts ++ t' :: rs) = .ok (a, t' :: rs) from e]
    rfl

omit [Unicode] [Floats] in
theorem EndsPhrase.six {t : Tok} (h : EndsPhrase 7 t) : EndsPhrase 6 t := ⟨h.proper, stops_seven_six h.stops, h.noParen, h.noBracket⟩

theorem ok_power_up {ts : List Tok} {a : Ast} (h : Ok 8 ts a) : Ok 7 ts a := by
  obtain ⟨N, h⟩ := h
  refine ⟨N + 1, fun n hn t' rs hq => ?_⟩
  cases n with
  | zero => omega
  | succ n =>
    have e := h n (by omega) t' rs (hq.mono (by decide))
    show parsePower (n + 1) (ts ++ t' :: rs) = _
    rw [parsePower, show parseAtom n (ts ++ t' :: rs) = .ok (a, t' :: rs) from e]
    simp only [Ev.bind_ok, List.length_cons]
    rw [leftLoop, powOp_finds.none hq]

theorem ok_power {t : Tok} {ts us : List Tok} {a b : Ast} (hp : t.Proper) (hk : t.kind = .opPower) (h1 : Ok 8 ts a) (h2 : Ok 6 us b) :
    Ok 7 (ts ++ t :: us) (.bin .pow a b) := by
  obtain ⟨N1, h1⟩ := h1
  obtain ⟨N2, h2⟩ := h2
  refine ⟨max N1 N2 + 1, fun n hn t' rs hq => ?_⟩
  cases n with
  | zero => omega
  | succ n =>
    have e1 := h1 n (by omega) t (us ++ t' :: rs) (quiet_op (op := .pow) hp hk)
    have e2 := h2 n (by omega) t' rs hq.six
    show parsePower (n + 1) (ts ++ t :: us ++ t' :: rs) = _
    rw [List.append_assoc, parsePower, show parseAtom n (ts ++ (t :: us ++ t' :: rs)) = .ok (a, t :: (us ++ t' :: rs)) from e1]
    simp only [Ev.bind_ok, List.length_cons, List.length_append]
    rw [leftLoop, (powOp_finds t .pow hp).2 ⟨hk, rfl⟩]
    simp only
    rw [advance_cons (by simp), Ev.bind_ok, show parseFactor n (us ++ t' :: rs) = .ok (b, t' :: rs) from e2]
    simp only [Ev.bind_ok]
    rw [← Nat.add_assoc, leftLoop, powOp_finds.none hq]

theorem ok_comparison_up {ts : List Tok} {a : Ast} (h : Ok 4 ts a) : Ok 3 ts a := by
  obtain ⟨N, h⟩ := h
  refine ⟨N + 1, fun n hn t' rs hq => ?_⟩
  cases n with
  | zero => omega
  | succ n =>
    have e := h n (by omega) t' rs (hq.mono (by decide))
    show parseComparison (n + 1) (ts ++ t' :: rs) = _
    rw [parseComparison, show parseArith n (ts ++ t' :: rs) = .ok (a, t' :: rs) from e]
    simp only [Ev.bind_ok, List.length_cons]
    rw [compLoop, compOp_finds.none hq]
    rfl

theorem comparisons_head {us : List Tok} {rest : List (BinOp × Ast)} (h : Comparisons us rest) :
    ∀ u ∈ us.head?, ∃ op : BinOp, op.level = 3 ∧ u.kind = op.kind := by
  cases h with
  | nil => intro u hu; cases hu
  | cons hl hk _ _ => intro u hu; cases hu; exact ⟨_, hl, hk⟩

theorem ok_compare {ts us : List Tok} {a : Ast} {rest : List (BinOp × Ast)} (hpu : AllProper us) (h1 : Ok 4 ts a) (hc : Comparisons us rest)
    (h2 : OkComparisons us rest) : Ok 3 (ts ++ us) (chain none a rest) := by
  obtain ⟨N1, h1⟩ := h1
  obtain ⟨N2, h2⟩ := h2
  refine ⟨max N1 N2 + 1, fun n hn t' rs hq => ?_⟩
  cases n with
  | zero => omega
  | succ n =>
    have : ∃ u vs, us ++ t' :: rs = u :: vs ∧ EndsPhrase 4 u := by
      have hus := comparisons_head hc
      cases us with
      | nil => exact ⟨t', rs, rfl, hq.mono (by decide)⟩
      | cons u us =>
        obtain ⟨op', hl', hk'⟩ := hus u rfl
        have := quiet_op (hpu u (by simp)) hk'
        rw [hl'] at this
        exact ⟨u, _, rfl, this⟩
    obtain ⟨u, vs, e1, hqu⟩ := this
    show parseComparison (n + 1) (ts ++ us ++ t' :: rs) = _
    rw [List.append_assoc, e1, parseComparison, show parseArith n (ts ++ u :: vs) = .ok (a, u :: vs) from h1 n (by omega) u vs hqu]
    simp only [Ev.bind_ok]
    rw [← e1]
    exact h2 n (by omega) none a _ t' rs hq (Nat.le_refl _)

/-! ## All phrases -/

/-- What is shown about phrases: they are parsed; at the levels with left associative operators,
the loop gets to their end. -/
structure Parsed (l : Nat) (ts : List Tok) (a : Ast) : Prop where
  ok : Ok l ts a
  loop : IsLeft l → Loop l ts a

theorem parsed_of {l : Nat} (hl : ¬IsLeft l) {ts : List Tok} {a : Ast} (h : Ok l ts a) : Parsed l ts a := ⟨h, fun h' => absurd h' hl⟩

theorem parsed_left {l : Nat} (hl : IsLeft l) {ts : List Tok} {a : Ast} (h : Loop l ts a) : Parsed l ts a := ⟨h.ok hl, fun _ => h⟩

mutual

theorem phrase_parsed : ∀ {l : Nat} {ts : List Tok} {a : Ast}, Phrase l ts a → AllProper ts → Parsed l ts a
  | l, _, _, .up hl h, hp => by
    have ih := phrase_parsed h hp
    match l, hl with
    | 0, _ => exact parsed_left (.inl rfl) (loop_up (.inl rfl) ih.ok)
    | 1, _ => exact parsed_left (.inr (.inl rfl)) (loop_up (.inr (.inl rfl)) ih.ok)
    | 2, _ => exact parsed_of (by simp [IsLeft]) (ok_not_up h hp ih.ok)
    | 3, _ => exact parsed_of (by simp [IsLeft]) (ok_comparison_up ih.ok)
    | 4, _ => exact parsed_left (.inr (.inr (.inl rfl))) (loop_up (.inr (.inr (.inl rfl))) ih.ok)
    | 5, _ => exact parsed_left (.inr (.inr (.inr rfl))) (loop_up (.inr (.inr (.inr rfl))) ih.ok)
    | 6, _ => exact parsed_of (by simp [IsLeft]) (ok_factor_up h ih.ok)
    | 7, _ => exact parsed_of (by simp [IsLeft]) (ok_power_up ih.ok)
  | _, _, _, .left hl hk h1 h2, hp =>
    parsed_left hl (loop_left hl hp.right.head hk ((phrase_parsed h1 hp.left).loop hl) (phrase_parsed h2 hp.right.tail).ok)
  | _, _, _, .not hk h, hp => parsed_of (by simp [IsLeft]) (ok_not hp.head hk (phrase_parsed h hp.tail).ok)
  | _, _, _, .compare h hc _, hp =>
    parsed_of (by simp [IsLeft]) (ok_compare hp.right (phrase_parsed h hp.left).ok hc (comparisons_parsed hc hp.right))
  | _, _, _, .sign hn hk h, hp => parsed_of (by simp [IsLeft]) (ok_sign hn hk (phrase_parsed h hp.tail).ok)
  | _, _, _, .power hk h1 h2, hp =>
    parsed_of (by simp [IsLeft]) (ok_power hp.right.head hk (phrase_parsed h1 hp.left).ok (phrase_parsed h2 hp.right.tail).ok)
  | _, _, _, .paren ho h hc, hp =>
    parsed_of (by simp [IsLeft]) (ok_paren hp.head hp.tail.right.head ho (phrase_parsed h hp.tail.left).ok hc)
  | _, _, _, .var hk, _ => parsed_of (by simp [IsLeft]) (ok_var hk)
  | _, _, _, .num hk, hp => parsed_of (by simp [IsLeft]) (ok_num hp.head hk)
  | _, _, _, .true_ hk, hp => parsed_of (by simp [IsLeft]) (ok_true hp.head hk)
  | _, _, _, .false_ hk, hp => parsed_of (by simp [IsLeft]) (ok_false hp.head hk)
  | _, _, _, .str hk hs, hp => parsed_of (by simp [IsLeft]) (ok_str hp.head hk hs)
  | _, _, _, .lit hk h1 h2, hp =>
    parsed_of (by simp [IsLeft]) (ok_lit hp.tail.right hk h2
      (opt_parsed h1 rfl rfl (.inl rfl) hp.tail.left) (opt_parsed h2 rfl rfl (.inr rfl) hp.tail.right))
  | _, _, _, .list hk h, hp => parsed_of (by simp [IsLeft]) (ok_list hp.head hk (items_parsed h hp.tail))
  | _, _, _, .linked hk h1 h2, hp =>
    parsed_of (by simp [IsLeft]) (ok_linked hp.head hp.tail.left hp.tail.right hk h1 (phrase_parsed h1 hp.tail.left).ok h2
      (tail_parsed h2 hp.tail.right))

theorem comparisons_parsed : ∀ {us : List Tok} {rest : List (BinOp × Ast)}, Comparisons us rest → AllProper us → OkComparisons us rest
  | _, _, .nil, _ => comparisons_nil
  | _, _, .cons hl hk h hc, hp =>
    comparisons_cons hl hp.head hp.tail.right hk (comparisons_head hc) (phrase_parsed h hp.tail.left).ok (comparisons_parsed hc hp.tail.right)

theorem opt_parsed : ∀ {ko kc : Kind} {us : List Tok} {args : List Ast} {o c : List Char}, OptArgs ko kc us args → ko.fixed = some o → kc.fixed = some c →
    kc = .parenClose ∨ kc = .bracketClose → AllProper us → OkOpt ko o c us args
  | _, _, _, _, _, c, .none, ho, _, _, _ => opt_none c ho
  | _, _, _, _, _, _, .some hk h, ho, hc, hkc, hp => opt_some ho hp.head hk (args_parsed h hc hkc hp.tail)

theorem args_parsed : ∀ {kc : Kind} {us : List Tok} {args : List Ast} {c : List Char}, Args kc us args → kc.fixed = some c →
    kc = .parenClose ∨ kc = .bracketClose → AllProper us → OkArgs c us args
  | _, _, _, _, .last hk h, hc, hkc, hp => args_last hc hkc hp.right.head hk (phrase_parsed h hp.left).ok
  | _, _, _, _, .more hk h h2, hc, hkc, hp =>
    args_more hc hkc hp.right.head hk (phrase_parsed h hp.left).ok (args_parsed h2 hc hkc hp.right.tail)

theorem items_parsed : ∀ {us : List Tok} {items : List Ast}, Items us items → AllProper us → OkItems us items
  | _, _, .nil hk, hp => items_nil hp.head hk
  | _, _, .last hk h, hp => items_last hp.right.head hp.left hk h (phrase_parsed h hp.left).ok
  | _, _, .more hk h h2, hp => items_more hp.right.head hp.left hk h (phrase_parsed h hp.left).ok (items_parsed h2 hp.right.tail)

theorem tail_parsed : ∀ {us : List Tok} {b : Ast}, Tail us b → AllProper us → OkTail us b
  | _, _, .last hk h hc, hp => tail_last hp.head hp.tail.right.head hk (phrase_parsed h hp.tail.left).ok hc
  | _, _, .more hk h h2, hp => tail_more hp.head hp.tail.right hk (phrase_parsed h hp.tail.left).ok h2 (tail_parsed h2 hp.tail.right)

end

end

end Verif
