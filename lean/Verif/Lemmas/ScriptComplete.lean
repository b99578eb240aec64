import Verif.Lemmas.ScriptSound

/-! The parser accepts all statements, plans and clauses of the grammar. -/

namespace Verif

/-- Tokens of these kinds end terms. -/
theorem ends_of {t : Tok} (hp : t.Proper) (hk : t.kind = .semicolon ∨ t.kind = .braceClose ∨ t.kind = .fullstop ∨ t.kind = .colon ∨
    t.kind = .arrow ∨ t.kind = .define ∨ t.kind = .parenClose) : EndsPhrase 0 t := by
  refine ⟨hp, fun op _ h => ?_, ?_, ?_⟩
  · rw [h] at hk
    cases op <;> simp [BinOp.kind] at hk
  · rcases hk with h | h | h | h | h | h | h <;> simp [h]
  · rcases hk with h | h | h | h | h | h | h <;> simp [h]

theorem expect_of {w : List Char} {k : Kind} (hk : k.fixed = some w) {t : Tok} (h : t.kind = k) (hp : t.Proper) {rs : List Tok}
    (hr : rs ≠ []) : expect w (t :: rs) = .ok rs := by
  rw [expect, at?_of hk h hp, if_pos rfl, advance_cons hr]

section
variable [Unicode] [Floats]

/-- With enough fuel, this function accepts these tokens, with this answer, if they are followed by a token
with the property. -/
def ReadsAll {α : Type} (f : Nat → List Tok → PR α) (P : Tok → Prop) (ts : List Tok) (a : α) : Prop :=
  ∃ N, ∀ n, N ≤ n → ∀ t rs, P t → f n (ts ++ t :: rs) = .ok (a, t :: rs)

theorem lit_accepted {ts : List Tok} {a : Ast} (h : LitPhrase ts a) (hp : AllProper ts) :
    ReadsAll parseLiteral (fun t => t.Proper ∧ t.kind ≠ .parenOpen ∧ t.kind ≠ .bracketOpen) ts a := by
  obtain ⟨hk, h1, hu⟩ := h
  rename_i t ts us args annots
  have hpu := hp.tail.right
  obtain ⟨N1, h1⟩ := opt_parsed h1 (o := ['(']) (c := [')']) rfl rfl (.inl rfl) hp.tail.left
  obtain ⟨N2, h2⟩ := opt_parsed hu (o := ['[']) (c := [']']) rfl rfl (.inr rfl) hpu
  refine ⟨max N1 N2 + 1, fun n hn t' rs hq => ?_⟩
  match n, hn with
  | n + 1, hn =>
    have : ∃ u vs, us ++ t' :: rs = u :: vs ∧ u.Proper ∧ u.kind ≠ .parenOpen := by
      cases hu with
      | none => exact ⟨t', rs, rfl, hq.1, hq.2.1⟩
      | some ho _ => exact ⟨_, _, rfl, hpu.head, by simp [ho]⟩
    obtain ⟨u, vs, e, hu1, hu2⟩ := this
    rw [List.cons_append, parseLiteral.eq_def]
    simp only
    rw [if_pos hk, advance_cons (by simp), Ev.bind_ok, List.append_assoc, e, h1 n (by omega) u vs hu1 hu2]
    simp only [Ev.bind_ok]
    rw [← e, h2 n (by omega) t' rs hq.1 hq.2.2]
    rfl

theorem term_accepted {ts : List Tok} {a : Ast} (h : Phrase 0 ts a) (hp : AllProper ts) : ReadsAll parseTerm (EndsPhrase 0) ts a :=
  (phrase_parsed h hp).ok

theorem head_accepted {ts : List Tok} {a : Ast} (h : CondPhrase ts a) (hp : AllProper ts) : ReadsAll parseHead (fun _ => True) ts a := by
  obtain ⟨ho, h, hc⟩ := h
  obtain ⟨N, h⟩ := term_accepted h hp.tail.left
  refine ⟨N, fun n hn t rs _ => ?_⟩
  have hpc := hp.tail.right.head
  rw [parseHead, List.cons_append, expect_of (k := .parenOpen) rfl ho hp.head (by simp), Ev.bind_ok, List.append_assoc,
    List.singleton_append, h n hn _ _ (ends_of hpc (by simp [hc]))]
  simp only [Ev.bind_ok]
  rw [expect_of (k := .parenClose) rfl hc hpc (by simp)]
  rfl

/-- The first token of a statement is none of these. -/
def NotStmt (k : Kind) : Prop := k = .semicolon ∨ k = .braceClose ∨ k = .fullstop ∨ k = .tokElse

theorem stmt_start {ts : List Tok} {a : AStmt} (h : StmtPhrase ts a) : ∃ t rs, ts = t :: rs ∧ ¬ NotStmt t.kind := by
  have key : ∀ {k l : Kind}, k = l → ¬ NotStmt l → ¬ NotStmt k := by rintro _ _ rfl; exact id
  cases h with
  | term h _ _ =>
    obtain ⟨t, rs, e, hs⟩ := phrase_start h
    refine ⟨t, rs, e, fun h => ?_⟩
    rcases h with h | h | h | h <;> simp [Starts, h] at hs
  | formula hk h =>
    rename_i t ts a ty
    refine ⟨_, _, rfl, fun h => ?_⟩
    cases ty <;> simp only [FType.kind, Option.some.injEq, reduceCtorEq] at hk <;> simp [NotStmt, ← hk] at h
  | while_ hk _ _ => exact ⟨_, _, rfl, key hk (by simp [NotStmt])⟩
  | for_ hk _ _ => exact ⟨_, _, rfl, key hk (by simp [NotStmt])⟩
  | if_ hk _ _ => exact ⟨_, _, rfl, key hk (by simp [NotStmt])⟩
  | ifElse hk _ _ _ _ => exact ⟨_, _, rfl, key hk (by simp [NotStmt])⟩

theorem stmts_start {ts : List Tok} {b : List AStmt} (h : StmtsPhrase ts b) : (ts = [] ∧ b = []) ∨ ∃ t rs, ts = t :: rs ∧ ¬ NotStmt t.kind := by
  cases h with
  | nil => exact .inl ⟨rfl, rfl⟩
  | last h => exact .inr (stmt_start h)
  | semi h _ _ => obtain ⟨t, rs, rfl, hk⟩ := stmt_start h; exact .inr ⟨t, _, rfl, hk⟩
  | block h _ _ => obtain ⟨t, rs, rfl, hk⟩ := stmt_start h; exact .inr ⟨t, _, rfl, hk⟩

theorem planBody_start {ts : List Tok} {b : List AStmt} (h : PlanBodyPhrase ts b) : ∃ t rs, ts = t :: rs ∧ ¬ NotStmt t.kind := by
  cases h with
  | last h => exact stmt_start h
  | semi h _ _ => obtain ⟨t, rs, rfl, hk⟩ := stmt_start h; exact ⟨t, _, rfl, hk⟩
  | block h _ _ => obtain ⟨t, rs, rfl, hk⟩ := stmt_start h; exact ⟨t, _, rfl, hk⟩

/-- What follows a statement: after a formula something that ends it, otherwise anything but `else`. -/
def After (a : AStmt) (t : Tok) : Prop := t.Proper ∧ (a.isFormula = true → EndsPhrase 0 t) ∧ t.kind ≠ .tokElse

omit [Unicode] [Floats] in
theorem after_of {a : AStmt} {t : Tok} (hp : t.Proper) (hk : t.kind = .semicolon ∨ t.kind = .braceClose ∨ t.kind = .fullstop) : After a t :=
  ⟨hp, fun _ => ends_of hp (by rcases hk with h | h | h <;> simp [h]), by rcases hk with h | h | h <;> simp [h]⟩

omit [Unicode] [Floats] in
theorem formulaType_of {t : Tok} {ty : FType} (h : ty.kind = some t.kind) : formulaType t = some ty := by
  cases ty <;> simp only [FType.kind, Option.some.injEq, reduceCtorEq] at h <;> simp [formulaType, ← h]

theorem parseStmt_plain {n : Nat} {t : Tok} {us : List Tok} (hp : t.Proper) (h1 : t.kind ≠ .tokWhile) (h2 : t.kind ≠ .tokIf)
    (h3 : t.kind ≠ .tokFor) : parseStmt (n + 1) (t :: us) =
      match formulaType t with
      | some ty => (advance (t :: us)).bind fun ts => (parseTerm n ts).bind fun (a, ts) => .ok (.formula ty a, ts)
      | none => (parseTerm n (t :: us)).bind fun (a, ts) => .ok (.formula .term a, ts) := by
  rw [parseStmt.eq_def]
  simp only
  rw [if_neg (ne_true_of_eq_false (at?_not (k := .tokWhile) rfl h1 hp _)), if_neg (ne_true_of_eq_false (at?_not (k := .tokIf) rfl h2 hp _)),
    if_neg (ne_true_of_eq_false (at?_not (k := .tokFor) rfl h3 hp _))]
  cases formulaType t <;> rfl

theorem parseStmt_while {n : Nat} {t : Tok} {us : List Tok} (hp : t.Proper) (h : t.kind = .tokWhile) (hu : us ≠ []) :
    parseStmt (n + 1) (t :: us) =
      (parseHead n us).bind fun (c, ts) => (parseBlock n ts).bind fun (b, ts) => .ok (.while_ c b, ts) := by
  rw [parseStmt.eq_def]
  simp only
  rw [if_pos (at?_of (k := .tokWhile) rfl h hp _), advance_cons hu]
  rfl

theorem parseStmt_for {n : Nat} {t : Tok} {us : List Tok} (hp : t.Proper) (h : t.kind = .tokFor) (hu : us ≠ []) :
    parseStmt (n + 1) (t :: us) =
      (parseHead n us).bind fun (c, ts) => (parseBlock n ts).bind fun (b, ts) => .ok (.for_ c b, ts) := by
  rw [parseStmt.eq_def]
  simp only
  rw [if_neg (ne_true_of_eq_false (at?_not (k := .tokWhile) rfl (by simp [h]) hp _)), if_neg (ne_true_of_eq_false (at?_not (k := .tokIf) rfl (by simp [h]) hp _)),
    if_pos (at?_of (k := .tokFor) rfl h hp _), advance_cons hu]
  rfl

theorem parseStmt_if {n : Nat} {t : Tok} {us : List Tok} (hp : t.Proper) (h : t.kind = .tokIf) (hu : us ≠ []) :
    parseStmt (n + 1) (t :: us) =
      (parseHead n us).bind fun (c, ts) => (parseBlock n ts).bind fun (b, ts) =>
      if at? "else".toList ts then (advance ts).bind fun ts => (parseBlock n ts).bind fun (e, ts) => .ok (.ifElse c b e, ts)
      else .ok (.if_ c b, ts) := by
  rw [parseStmt.eq_def]
  simp only
  rw [if_neg (ne_true_of_eq_false (at?_not (k := .tokWhile) rfl (by simp [h]) hp _)), if_pos (at?_of (k := .tokIf) rfl h hp _), advance_cons hu]
  rfl

omit [Unicode] [Floats] in
/-- A statement in a list, with what comes after it. -/
theorem not_end {t : Tok} {rs : List Tok} (hp : t.Proper) (h : ¬ NotStmt t.kind) :
    at? [';'] (t :: rs) = false ∧ at? ['}'] (t :: rs) = false ∧ at? ['.'] (t :: rs) = false ∧ t.kind ≠ .tokElse := by
  simp only [NotStmt, not_or] at h
  exact ⟨at?_not (k := .semicolon) rfl h.1 hp _, at?_not (k := .braceClose) rfl h.2.1 hp _,
    at?_not (k := .fullstop) rfl h.2.2.1 hp _, h.2.2.2⟩

mutual

theorem stmt_accepted : ∀ {ts : List Tok} {a : AStmt}, StmtPhrase ts a → AllProper ts → ReadsAll parseStmt (After a) ts a
  | _, _, .term (t := t) (ts := ts) (a := a) h h1 h2, hp => by
    obtain ⟨t', rs', e, hs⟩ := phrase_start h
    cases e
    obtain ⟨N, h⟩ := term_accepted h hp
    refine ⟨N + 1, fun n hn u rs hu => ?_⟩
    match n, hn with
    | n + 1, hn =>
      have hf : formulaType t = none := by
        cases hf : formulaType t with
        | none => rfl
        | some ty =>
          have := formulaType_kind hf
          cases ty <;> simp only [FType.kind, Option.some.injEq, reduceCtorEq] at this <;> simp [Starts, ← this] at hs h1 h2
      rw [List.cons_append, parseStmt_plain hp.head (fun hk => by simp [Starts, hk] at hs) (fun hk => by simp [Starts, hk] at hs)
        (fun hk => by simp [Starts, hk] at hs), hf]
      simp only
      rw [← List.cons_append, h n (by omega) u rs (hu.2.1 rfl)]
      rfl
  | _, _, .formula (t := t) (ts := ts) (a := a) (ty := ty) hk h, hp => by
    obtain ⟨N, h⟩ := term_accepted h hp.tail
    refine ⟨N + 1, fun n hn u rs hu => ?_⟩
    match n, hn with
    | n + 1, hn =>
      have hne : t.kind ≠ .tokWhile ∧ t.kind ≠ .tokIf ∧ t.kind ≠ .tokFor := by
        cases ty <;> simp only [FType.kind, Option.some.injEq, reduceCtorEq] at hk <;> simp [← hk]
      rw [List.cons_append, parseStmt_plain hp.head hne.1 hne.2.1 hne.2.2, formulaType_of hk]
      simp only
      rw [advance_cons (by simp), Ev.bind_ok, h n (by omega) u rs (hu.2.1 rfl)]
      rfl
  | _, _, .while_ (t := t) (ts := ts) (us := us) hk hc hb, hp => by
    obtain ⟨N1, h1⟩ := head_accepted hc hp.tail.left
    obtain ⟨N2, h2⟩ := block_accepted hb hp.tail.right
    obtain ⟨v, vs, rfl⟩ : ∃ v vs, us = v :: vs := by cases hb; exact ⟨_, _, rfl⟩
    refine ⟨max N1 N2 + 1, fun n hn u rs hu => ?_⟩
    match n, hn with
    | n + 1, hn =>
      rw [List.cons_append, parseStmt_while hp.head hk (by simp), List.append_assoc, List.cons_append, h1 n (by omega) _ _ trivial]
      simp only [Ev.bind_ok]
      rw [← List.cons_append, h2 n (by omega) _ _ trivial]
      rfl
  | _, _, .for_ (t := t) (ts := ts) (us := us) hk hc hb, hp => by
    obtain ⟨N1, h1⟩ := head_accepted hc hp.tail.left
    obtain ⟨N2, h2⟩ := block_accepted hb hp.tail.right
    obtain ⟨v, vs, rfl⟩ : ∃ v vs, us = v :: vs := by cases hb; exact ⟨_, _, rfl⟩
    refine ⟨max N1 N2 + 1, fun n hn u rs hu => ?_⟩
    match n, hn with
    | n + 1, hn =>
      rw [List.cons_append, parseStmt_for hp.head hk (by simp), List.append_assoc, List.cons_append, h1 n (by omega) _ _ trivial]
      simp only [Ev.bind_ok]
      rw [← List.cons_append, h2 n (by omega) _ _ trivial]
      rfl
  | _, _, .if_ (t := t) (ts := ts) (us := us) hk hc hb, hp => by
    obtain ⟨N1, h1⟩ := head_accepted hc hp.tail.left
    obtain ⟨N2, h2⟩ := block_accepted hb hp.tail.right
    obtain ⟨v, vs, rfl⟩ : ∃ v vs, us = v :: vs := by cases hb; exact ⟨_, _, rfl⟩
    refine ⟨max N1 N2 + 1, fun n hn u rs hu => ?_⟩
    match n, hn with
    | n + 1, hn =>
      rw [List.cons_append, parseStmt_if hp.head hk (by simp), List.append_assoc, List.cons_append, h1 n (by omega) _ _ trivial]
      simp only [Ev.bind_ok]
      rw [← List.cons_append, h2 n (by omega) _ _ trivial]
      simp only [Ev.bind_ok]
      rw [at?_not (k := .tokElse) rfl hu.2.2 hu.1, if_neg (by simp)]
  | _, _, .ifElse (t := t) (ts := ts) (us := us) (e := e) (vs := ws) hk hc hb he hb', hp => by
    obtain ⟨N1, h1⟩ := head_accepted hc hp.tail.left.left
    obtain ⟨N2, h2⟩ := block_accepted hb hp.tail.left.right
    obtain ⟨N3, h3⟩ := block_accepted hb' hp.tail.right.tail
    obtain ⟨v, vs, rfl⟩ : ∃ v vs, us = v :: vs := by cases hb; exact ⟨_, _, rfl⟩
    refine ⟨max N1 (max N2 N3) + 1, fun n hn u rs hu => ?_⟩
    match n, hn with
    | n + 1, hn =>
      rw [List.cons_append, parseStmt_if hp.head hk (by simp), List.append_assoc, List.append_assoc, List.cons_append, h1 n (by omega) _ _ trivial]
      simp only [Ev.bind_ok]
      rw [← List.cons_append, List.cons_append (as := ws), h2 n (by omega) _ _ trivial]
      simp only [Ev.bind_ok]
      rw [at?_of (k := .tokElse) rfl he hp.tail.right.head, if_pos rfl, advance_cons (by simp), Ev.bind_ok, h3 n (by omega) _ _ trivial]
      rfl

theorem block_accepted : ∀ {ts : List Tok} {b : List AStmt}, BlockPhrase ts b → AllProper ts → ReadsAll parseBlock (fun _ => True) ts b
  | _, _, .mk (o := o) (c := c) (ts := ts) ho hb hc, hp => by
    obtain ⟨N, h⟩ := stmts_accepted hb hp.tail.left
    refine ⟨N + 1, fun n hn u rs hu => ?_⟩
    match n, hn with
    | n + 1, hn =>
      have hpc := hp.tail.right.head
      rw [List.cons_append, parseBlock, expect_of (k := .braceOpen) rfl ho hp.head (by simp), Ev.bind_ok, List.append_assoc,
        List.singleton_append, h n (by omega) c _ ⟨hpc, hc⟩]
      simp only [Ev.bind_ok]
      rw [expect_of (k := .braceClose) rfl hc hpc (by simp)]
      rfl

theorem stmts_accepted : ∀ {ts : List Tok} {b : List AStmt}, StmtsPhrase ts b → AllProper ts →
    ReadsAll parseBody (fun t => t.Proper ∧ t.kind = .braceClose) ts b
  | _, _, .nil, hp => by
    refine ⟨1, fun n hn u rs hu => ?_⟩
    match n, hn with
    | n + 1, hn => rw [List.nil_append, parseBody, if_pos (at?_of (k := .braceClose) rfl hu.2 hu.1 _)]
  | _, _, .last h, hp => by
    obtain ⟨t, vs, rfl, hs⟩ := stmt_start h
    obtain ⟨N, h⟩ := stmt_accepted h hp
    refine ⟨N + 1, fun n hn u rs hu => ?_⟩
    match n, hn with
    | n + 1, hn =>
      rw [parseBody, List.cons_append, if_neg (by simp [(not_end hp.head hs).2.1]), ← List.cons_append,
        h n (by omega) u rs (after_of hu.1 (by simp [hu.2]))]
      simp only [Ev.bind_ok]
      rw [if_neg (ne_true_of_eq_false (at?_not (k := .semicolon) rfl (by simp [hu.2]) hu.1 _)), if_pos (at?_of (k := .braceClose) rfl hu.2 hu.1 _)]
  | _, _, .semi (t := d) (us := us) h hk hb, hp => by
    obtain ⟨t, vs, rfl, hs⟩ := stmt_start h
    obtain ⟨N, h⟩ := stmt_accepted h hp.left
    obtain ⟨N2, h2⟩ := stmts_accepted hb hp.right.tail
    refine ⟨max N N2 + 1, fun n hn u rs hu => ?_⟩
    match n, hn with
    | n + 1, hn =>
      rw [parseBody, List.cons_append, List.cons_append, if_neg (by simp [(not_end hp.head hs).2.1]), List.append_assoc, List.cons_append,
        ← List.cons_append, h n (by omega) d _ (after_of hp.right.head (by simp [hk]))]
      simp only [Ev.bind_ok]
      rw [if_pos (at?_of (k := .semicolon) rfl hk hp.right.head _), advance_cons (by simp), Ev.bind_ok, h2 n (by omega) u rs hu]
      rfl
  | _, _, .block (us := us) h hi hb, hp => by
    obtain ⟨t, vs, rfl, hs⟩ := stmt_start h
    obtain ⟨N, h⟩ := stmt_accepted h hp.left
    obtain ⟨N2, h2⟩ := stmts_accepted hb hp.right
    refine ⟨max N N2 + 1, fun n hn u rs hu => ?_⟩
    match n, hn with
    | n + 1, hn =>
      rw [parseBody, List.cons_append, List.cons_append, if_neg (by simp [(not_end hp.head hs).2.1]), List.append_assoc]
      rcases stmts_start hb with ⟨rfl, rfl⟩ | ⟨w, ws, rfl, hw⟩
      · rw [List.nil_append, ← List.cons_append, h n (by omega) u rs (after_of hu.1 (by simp [hu.2]))]
        simp only [Ev.bind_ok]
        rw [if_neg (ne_true_of_eq_false (at?_not (k := .semicolon) rfl (by simp [hu.2]) hu.1 _)), if_pos (at?_of (k := .braceClose) rfl hu.2 hu.1 _)]
      · have hw' := not_end (rs := ws ++ u :: rs) hp.right.head hw
        rw [List.cons_append, ← List.cons_append, h n (by omega) w _ ⟨hp.right.head, by simp [hi], hw'.2.2.2⟩]
        simp only [Ev.bind_ok]
        rw [if_neg (by simp [hw'.1]), if_neg (by simp [hw'.2.1]), if_neg (by simp [hi]), ← List.cons_append, h2 n (by omega) u rs hu]
        rfl

end

theorem planBody_accepted {ts : List Tok} {b : List AStmt} (h : PlanBodyPhrase ts b) : AllProper ts →
    ReadsAll parsePlanBody (fun t => t.Proper ∧ t.kind = .fullstop) ts b := by
  induction h with
  | last h =>
    intro hp
    obtain ⟨N, h⟩ := stmt_accepted h hp
    refine ⟨N + 1, fun n hn u rs hu => ?_⟩
    match n, hn with
    | n + 1, hn =>
      rw [parsePlanBody, h n (by omega) u rs (after_of hu.1 (by simp [hu.2]))]
      simp only [Ev.bind_ok]
      rw [if_neg (ne_true_of_eq_false (at?_not (k := .semicolon) rfl (by simp [hu.2]) hu.1 _)), if_pos (at?_of (k := .fullstop) rfl hu.2 hu.1 _)]
  | @semi ts s d us b h hk hb ih =>
    intro hp
    obtain ⟨N, h⟩ := stmt_accepted h hp.left
    obtain ⟨N2, h2⟩ := ih hp.right.tail
    refine ⟨max N N2 + 1, fun n hn u rs hu => ?_⟩
    match n, hn with
    | n + 1, hn =>
      rw [parsePlanBody, List.append_assoc, List.cons_append, h n (by omega) d _ (after_of hp.right.head (by simp [hk]))]
      simp only [Ev.bind_ok]
      rw [if_pos (at?_of (k := .semicolon) rfl hk hp.right.head _), advance_cons (by simp), Ev.bind_ok, h2 n (by omega) u rs hu]
      rfl
  | @block ts s us b h hi hb ih =>
    intro hp
    obtain ⟨N, h⟩ := stmt_accepted h hp.left
    obtain ⟨N2, h2⟩ := ih hp.right
    refine ⟨max N N2 + 1, fun n hn u rs hu => ?_⟩
    match n, hn with
    | n + 1, hn =>
      obtain ⟨w, ws, rfl, hw⟩ := planBody_start hb
      have hw' := not_end (rs := ws ++ u :: rs) hp.right.head hw
      rw [parsePlanBody, List.append_assoc, List.cons_append, h n (by omega) w _ ⟨hp.right.head, by simp [hi], hw'.2.2.2⟩]
      simp only [Ev.bind_ok]
      rw [if_neg (by simp [hw'.1]), if_neg (by simp [hw'.2.2.1]), if_neg (by simp [hi]), ← List.cons_append, h2 n (by omega) u rs hu]
      rfl

/-- Proper and no bracket: ends literals. -/
def EndsLit (t : Tok) : Prop := t.Proper ∧ t.kind ≠ .parenOpen ∧ t.kind ≠ .bracketOpen

theorem event_accepted {ts : List Tok} {e : AEvent} (h : EventPhrase ts e) (hp : AllProper ts) : ReadsAll parseEvent EndsLit ts e := by
  cases h with
  | @belief tr t ts a ht hl =>
    obtain ⟨N, h⟩ := lit_accepted hl hp.tail
    refine ⟨N, fun n hn u rs hu => ?_⟩
    have hs : ∃ v vs, ts = v :: vs ∧ v.kind = .functor := by obtain ⟨hk, _, _⟩ := hl; exact ⟨_, _, rfl, hk⟩
    obtain ⟨v, vs, rfl, hv⟩ := hs
    rw [parseEvent.eq_def]
    simp only [List.cons_append]
    rw [trigger_kind.2 ht]
    simp only
    rw [advance_cons (by simp)]
    simp only [Ev.bind_ok]
    rw [show goalType? v = none by simp [goalType?, hv]]
    simp only
    rw [← List.cons_append, h n hn u rs hu]
    rfl
  | @achievement tr t w ts a ht hw hl =>
    obtain ⟨N, h⟩ := lit_accepted hl hp.tail.tail
    refine ⟨N, fun n hn u rs hu => ?_⟩
    rw [parseEvent.eq_def]
    simp only [List.cons_append]
    rw [trigger_kind.2 ht]
    simp only
    rw [advance_cons (by simp)]
    simp only [Ev.bind_ok]
    rw [show goalType? w = some .achievement by simp [goalType?, hw]]
    simp only
    rw [advance_cons (by simp), Ev.bind_ok, h n hn u rs hu]
    rfl
  | @test tr t w ts a ht hw hl =>
    obtain ⟨N, h⟩ := lit_accepted hl hp.tail.tail
    refine ⟨N, fun n hn u rs hu => ?_⟩
    rw [parseEvent.eq_def]
    simp only [List.cons_append]
    rw [trigger_kind.2 ht]
    simp only
    rw [advance_cons (by simp)]
    simp only [Ev.bind_ok]
    rw [show goalType? w = some .test by simp [goalType?, hw]]
    simp only
    rw [advance_cons (by simp), Ev.bind_ok, h n hn u rs hu]
    rfl

omit [Unicode] [Floats] in
theorem opt_accepted {α : Type} {w : List Char} {k : Kind} (hk : k.fixed = some w) {f : Nat → List Tok → PR α}
    {P : List Tok → α → Prop} {Q Q' : Tok → Prop} (hQ : ∀ t, Q' t → t.Proper ∧ t.kind ≠ k ∧ Q t)
    (hf : ∀ {ts a}, P ts a → AllProper ts → ReadsAll f Q ts a)
    {ts : List Tok} {a : Option α} (h : OptPhrase k P ts a) (hp : AllProper ts) :
    ReadsAll (fun n ts => if at? w ts then (advance ts).bind fun ts => (f n ts).bind fun (l, ts) => Ev.ok (some l, ts) else .ok (none, ts))
      Q' ts a := by
  cases h with
  | none =>
    refine ⟨0, fun n _ t rs ht => ?_⟩
    simp only
    rw [List.nil_append, if_neg (ne_true_of_eq_false (at?_not hk (hQ t ht).2.1 (hQ t ht).1 _))]
  | some ht h =>
    obtain ⟨N, h⟩ := hf h hp.tail
    refine ⟨N, fun n hn u rs hu => ?_⟩
    simp only
    rw [List.cons_append, if_pos (at?_of hk ht hp.head _), advance_cons (by simp), Ev.bind_ok, h n hn u rs (hQ u hu).2.2]
    rfl

theorem plan_accepted {ts : List Tok} {p : APlan} (h : PlanPhrase ts p) (hp : AllProper ts) :
    ReadsAll parsePlan (fun t => t.Proper ∧ t.kind = .fullstop) ts p := by
  obtain ⟨hl, he, hc, hb⟩ := h
  rename_i ts us vs ws l e c b
  obtain ⟨N1, h1⟩ := opt_accepted (w := ['@']) (k := .at_) rfl (Q' := fun t => EndsLit t ∧ t.kind ≠ .at_)
    (fun t ht => ⟨ht.1.1, ht.2, ht.1⟩) lit_accepted hl hp.left.left.left
  obtain ⟨N2, h2⟩ := event_accepted he hp.left.left.right
  obtain ⟨N3, h3⟩ := opt_accepted (w := [':']) (k := .colon) rfl (Q' := fun t => EndsPhrase 0 t ∧ t.kind ≠ .colon)
    (fun t ht => ⟨ht.1.1, ht.2, ht.1⟩) term_accepted hc hp.left.right
  obtain ⟨N4, h4⟩ := opt_accepted (w := ['<', '-']) (k := .arrow) rfl (Q' := fun t => t.Proper ∧ t.kind = .fullstop)
    (fun t ht => ⟨ht.1, by simp [ht.2], ht⟩) planBody_accepted hb hp.right
  refine ⟨max (max N1 N2) (max N3 N4), fun n hn u rs hu => ?_⟩
  have s1 : ∃ v x, us = v :: x ∧ v.Proper ∧ (v.kind = .opPlus ∨ v.kind = .opMinus) := by
    have : ∀ {tr : Trigger} {t : Tok}, t.kind = tr.kind → t.kind = .opPlus ∨ t.kind = .opMinus := by
      intro tr t h; cases tr
      · exact .inl h
      · exact .inr h
    have hpu := hp.left.left.right
    cases he with
    | belief ht _ => exact ⟨_, _, rfl, hpu.head, this ht⟩
    | achievement ht _ _ => exact ⟨_, _, rfl, hpu.head, this ht⟩
    | test ht _ _ => exact ⟨_, _, rfl, hpu.head, this ht⟩
  have s3 : ∃ v x, ws ++ u :: rs = v :: x ∧ v.Proper ∧ (v.kind = .arrow ∨ v.kind = .fullstop) := by
    cases hb with
    | none => exact ⟨u, rs, rfl, hu.1, .inr hu.2⟩
    | some ht _ => exact ⟨_, _, rfl, hp.right.head, .inl ht⟩
  obtain ⟨y, ys, e3, hy, hyk⟩ := s3
  have s2 : ∃ v x, vs ++ y :: ys = v :: x ∧ v.Proper ∧ (v.kind = .colon ∨ v.kind = .arrow ∨ v.kind = .fullstop) := by
    cases hc with
    | none => exact ⟨_, _, rfl, hy, .inr hyk⟩
    | some ht _ => exact ⟨_, _, rfl, hp.left.right.head, .inl ht⟩
  obtain ⟨z, zs, e2, hz, hzk⟩ := s2
  obtain ⟨x, xs, rfl, hx, hxk⟩ := s1
  rw [parsePlan, List.append_assoc, List.append_assoc, List.append_assoc, e3, e2]
  rw [show (x :: xs ++ z :: zs) = x :: (xs ++ z :: zs) from rfl]
  have g1 := h1 n (by omega) x (xs ++ z :: zs) ⟨⟨hx, by rcases hxk with h | h <;> simp [h], by rcases hxk with h | h <;> simp [h]⟩,
    by rcases hxk with h | h <;> simp [h]⟩
  simp only at g1
  rw [g1]
  simp only [Ev.bind_ok]
  rw [← List.cons_append, h2 n (by omega) z zs ⟨hz, by rcases hzk with h | h | h <;> simp [h], by rcases hzk with h | h | h <;> simp [h]⟩]
  simp only [Ev.bind_ok]
  rw [← e2]
  have g3 := h3 n (by omega) y ys ⟨ends_of hy (by rcases hyk with h | h <;> simp [h]), by rcases hyk with h | h <;> simp [h]⟩
  simp only at g3
  rw [g3]
  simp only [Ev.bind_ok]
  rw [← e3]
  have g4 := h4 n (by omega) u rs hu
  simp only at g4
  rw [g4]
  rfl

theorem clause_start {ts : List Tok} {c : Clause} (h : ClausePhrase ts c) : ∃ t rs, ts = t :: rs ∧
    ((t.kind = .functor ∧ ∀ p g, c ≠ .plan p ∧ c ≠ .goal g) ∨ (t.kind = .exclam ∧ ∃ g, c = .goal g) ∨
      ((t.kind = .at_ ∨ t.kind = .opPlus ∨ t.kind = .opMinus) ∧ ∃ p, c = .plan p)) := by
  cases h with
  | belief h => obtain ⟨hk, _, _⟩ := h; exact ⟨_, _, rfl, .inl ⟨hk, by simp⟩⟩
  | rule h _ _ => obtain ⟨hk, _, _⟩ := h; exact ⟨_, _, rfl, .inl ⟨hk, by simp⟩⟩
  | goal hk _ => exact ⟨_, _, rfl, .inr (.inl ⟨hk, _, rfl⟩)⟩
  | plan h =>
    obtain ⟨hl, he, hc, hb⟩ := h
    have : ∀ {tr : Trigger} {t : Tok}, t.kind = tr.kind → (t.kind = .at_ ∨ t.kind = .opPlus ∨ t.kind = .opMinus) := by
      intro tr t h; cases tr
      · exact .inr (.inl h)
      · exact .inr (.inr h)
    cases hl with
    | some ht _ => exact ⟨_, _, rfl, .inr (.inr ⟨.inl ht, _, rfl⟩)⟩
    | none =>
      cases he with
      | belief ht _ => exact ⟨_, _, rfl, .inr (.inr ⟨this ht, _, rfl⟩)⟩
      | achievement ht _ _ => exact ⟨_, _, rfl, .inr (.inr ⟨this ht, _, rfl⟩)⟩
      | test ht _ _ => exact ⟨_, _, rfl, .inr (.inr ⟨this ht, _, rfl⟩)⟩

theorem clause_accepted {ts : List Tok} {c : Clause} (h : ClausePhrase ts c) (hp : AllProper ts) :
    ReadsAll parseClause (fun t => t.Proper ∧ t.kind = .fullstop) ts c := by
  have lift : ∀ {f : Nat → List Tok → PR Clause}, ReadsAll f (fun t => t.Proper ∧ t.kind = .fullstop) ts c →
      (∀ n us, parsePart n (ts ++ us) = f n (ts ++ us)) → ReadsAll parseClause (fun t => t.Proper ∧ t.kind = .fullstop) ts c := by
    rintro f ⟨N, h⟩ hf
    refine ⟨N, fun n hn u rs hu => ?_⟩
    rw [parseClause, hf, h n hn u rs hu]
    simp only [Ev.bind_ok]
    rw [if_pos (at?_of (k := .fullstop) rfl hu.2 hu.1 _)]
  have full : ∀ {u : Tok}, u.Proper ∧ u.kind = .fullstop → EndsLit u := fun h => ⟨h.1, by simp [h.2], by simp [h.2]⟩
  have hs := clause_start h
  cases h with
  | belief h =>
    obtain ⟨N, h⟩ := lit_accepted h hp
    obtain ⟨t, us, rfl, hs⟩ := hs
    refine lift (f := parseRuleOrBelief) ⟨N, fun n hn u rs hu => ?_⟩ fun n us => ?_
    · rw [parseRuleOrBelief, h n hn u rs (full hu)]
      simp only [Ev.bind_ok]
      rw [if_neg (ne_true_of_eq_false (at?_not (k := .define) rfl (by simp [hu.2]) hu.1 _))]
    · simp at hs
      simp [parsePart, hs]
  | @rule vs d ws a c h hd hc =>
    obtain ⟨N, h⟩ := lit_accepted h hp.left
    obtain ⟨N2, h2⟩ := term_accepted hc hp.right.tail
    refine lift (f := parseRuleOrBelief) ⟨max N N2, fun n hn u rs hu => ?_⟩ fun n us => ?_
    · rw [parseRuleOrBelief, List.append_assoc, List.cons_append, h n (by omega) d _ ⟨hp.right.head, by simp [hd], by simp [hd]⟩]
      simp only [Ev.bind_ok]
      rw [if_pos (at?_of (k := .define) rfl hd hp.right.head _), advance_cons (by simp), Ev.bind_ok,
        h2 n (by omega) u rs (ends_of hu.1 (by simp [hu.2]))]
      rfl
    · obtain ⟨t, us, e, hs⟩ := hs
      rw [e]
      simp at hs
      simp [parsePart, hs]
  | goal hk h =>
    obtain ⟨N, h⟩ := lit_accepted h hp.tail
    refine lift (f := parseGoal) ⟨N, fun n hn u rs hu => ?_⟩ fun n us => ?_
    · rw [parseGoal, List.cons_append, expect_of (k := .exclam) rfl hk hp.head (by simp), Ev.bind_ok, h n hn u rs (full hu)]
      rfl
    · simp [parsePart, hk, (hp.head.iff (k := .exclam) rfl).2 hk]
  | plan h =>
    obtain ⟨N, h⟩ := plan_accepted h hp
    obtain ⟨t, us, rfl, hs⟩ := hs
    refine lift (f := fun n ts => (parsePlan n ts).bind fun (p, ts) => .ok (.plan p, ts)) ⟨N, fun n hn u rs hu => ?_⟩ fun n us => ?_
    · simp only
      rw [h n hn u rs hu]
      rfl
    · have h1 : t.kind ≠ .functor ∧ t.kind ≠ .exclam := by
        rcases hs with ⟨_, hs⟩ | ⟨_, _, hs⟩ | ⟨hs, -⟩
        · exact absurd rfl (hs _ (.var [])).1
        · cases hs
        · rcases hs with hs | hs | hs <;> simp [hs]
      have h2 : t.lexeme ≠ ['!'] := fun e => h1.2 ((hp.head.iff (k := .exclam) rfl).1 e)
      simp [parsePart, h1.1, h2]

end

end Verif
