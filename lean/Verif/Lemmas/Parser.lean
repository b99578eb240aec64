import Verif.Spec.Grammar

/-! What the parser accepts are phrases of the grammar. -/

namespace Verif

theorem AllProper.right {us rs : List Tok} (h : AllProper (us ++ rs)) : AllProper rs := fun t ht => h t (by simp [ht])
theorem AllProper.left {us rs : List Tok} (h : AllProper (us ++ rs)) : AllProper us := fun t ht => h t (by simp [ht])
theorem AllProper.tail {t : Tok} {rs : List Tok} (h : AllProper (t :: rs)) : AllProper rs := fun t ht => h t (by simp [ht])
theorem AllProper.head {t : Tok} {rs : List Tok} (h : AllProper (t :: rs)) : t.Proper := h t (by simp)

theorem Tok.Proper.iff {t : Tok} (h : t.Proper) {k : Kind} {w : List Char} (hk : k.fixed = some w) : t.lexeme = w ↔ t.kind = k := by
  constructor
  · rintro rfl; exact h.only k hk
  · rintro rfl; exact h.fixed w hk

theorem advance_ok {ts us : List Tok} (h : advance ts = .ok us) : ∃ t u rs, ts = t :: u :: rs ∧ us = u :: rs := by
  match ts with
  | [] => cases h
  | [t] => cases h
  | t :: u :: rs => cases h; exact ⟨t, u, rs, rfl, rfl⟩

theorem at?_cons {w : List Char} {k : Kind} (hk : k.fixed = some w) {ts : List Tok} (h : at? w ts = true) (hp : AllProper ts) :
    ∃ t rs, ts = t :: rs ∧ t.kind = k := by
  cases ts with
  | nil => simp [at?] at h
  | cons t rs =>
    simp only [at?, decide_eq_true_eq] at h
    exact ⟨t, rs, rfl, (hp.head.iff hk).1 h⟩

theorem at?_of {w : List Char} {k : Kind} (hk : k.fixed = some w) {t : Tok} (h : t.kind = k) (hp : t.Proper) (rs : List Tok) :
    at? w (t :: rs) = true := by
  simp only [at?, decide_eq_true_eq]
  exact (hp.iff hk).2 h

theorem at?_not {w : List Char} {k : Kind} (hk : k.fixed = some w) {t : Tok} (h : t.kind ≠ k) (hp : t.Proper) (rs : List Tok) :
    at? w (t :: rs) = false := by
  simp only [at?, decide_eq_false_iff_not]
  exact fun e => h ((hp.iff hk).1 e)

/-! ## The operators of the levels -/

/-- The function finds exactly the operators of a level. -/
def FindsOps (op? : Tok → Option BinOp) (l : Nat) : Prop := ∀ t op, t.Proper → (op? t = some op ↔ t.kind = op.kind ∧ op.level = l)

theorem orOp_finds : FindsOps orOp 0 := by
  intro t op hp
  simp only [orOp, hp.iff (k := .opOr) rfl]
  constructor
  · intro h
    split at h
    · cases h; rename_i h; exact ⟨h, rfl⟩
    · cases h
  · rintro ⟨h1, h2⟩
    cases op <;> first | (cases h2; done) | exact if_pos h1

theorem andOp_finds : FindsOps andOp 1 := by
  intro t op hp
  simp only [andOp, hp.iff (k := .opAnd) rfl]
  constructor
  · intro h
    split at h
    · cases h; rename_i h; exact ⟨h, rfl⟩
    · cases h
  · rintro ⟨h1, h2⟩
    cases op <;> first | (cases h2; done) | exact if_pos h1

theorem powOp_finds : FindsOps powOp 7 := by
  intro t op hp
  simp only [powOp, hp.iff (k := .opPower) rfl]
  constructor
  · intro h
    split at h
    · cases h; rename_i h; exact ⟨h, rfl⟩
    · cases h
  · rintro ⟨h1, h2⟩
    cases op <;> first | (cases h2; done) | exact if_pos h1

theorem compOp_finds : FindsOps compOp 3 := by
  intro t op _
  rw [compOp]
  constructor
  · intro h
    split at h <;> first | (cases h; done) | (cases h; rename_i h; exact ⟨h, rfl⟩)
  · rintro ⟨h1, h2⟩
    rw [h1]
    cases op <;> first | (cases h2; done) | rfl

theorem addOp_finds : FindsOps addOp 4 := by
  intro t op _
  rw [addOp]
  constructor
  · intro h
    split at h <;> first | (cases h; done) | (cases h; rename_i h; exact ⟨h, rfl⟩)
  · rintro ⟨h1, h2⟩
    rw [h1]
    cases op <;> first | (cases h2; done) | rfl

theorem mulOp_finds : FindsOps mulOp 5 := by
  intro t op _
  rw [mulOp]
  constructor
  · intro h
    split at h <;> first | (cases h; done) | (cases h; rename_i h; exact ⟨h, rfl⟩)
  · rintro ⟨h1, h2⟩
    rw [h1]
    cases op <;> first | (cases h2; done) | rfl

theorem unaryOp_iff {t : Tok} {op : UnOp} : unaryOp t = some op ↔ t.kind = op.kind ∧ op ≠ .not := by
  rw [unaryOp]
  constructor
  · intro h
    split at h <;> first | (cases h; done) | (cases h; rename_i h; exact ⟨h, by simp⟩)
  · rintro ⟨h1, h2⟩
    rw [h1]
    cases op <;> first | exact absurd rfl h2 | rfl

theorem FindsOps.stops {op? : Tok → Option BinOp} {l : Nat} (hf : FindsOps op? l) {t : Tok} (hp : t.Proper)
    (h : op? t = none) (hs : Stops (l + 1) t) : Stops l t := by
  intro op hl hk
  by_cases he : op.level = l
  · have := (hf t op hp).2 ⟨hk, he⟩
    rw [h] at this; cases this
  · exact hs op (by omega) hk

theorem Stops.mono {l l' : Nat} (h : l ≤ l') {t : Tok} (hs : Stops l t) : Stops l' t := fun op hl => hs op (by omega)

theorem stops_eight (t : Tok) : Stops 8 t := by
  intro op h
  cases op <;> simp [BinOp.level] at h

theorem stopsHead_eight (ts : List Tok) : StopsHead 8 ts := fun t _ => stops_eight t

theorem stops_seven_six {t : Tok} (h : Stops 7 t) : Stops 6 t := by
  intro op hl
  refine h op ?_
  cases op <;> simp [BinOp.level] at hl ⊢

theorem stops_three_two {t : Tok} (h : Stops 3 t) : Stops 2 t := by
  intro op hl
  refine h op ?_
  cases op <;> simp [BinOp.level] at hl ⊢

section
variable [Unicode] [Floats]

/-- What is parsed is a phrase of level `l`, and no operator of level `l` or higher
follows. -/
def SoundAt (l : Nat) (f : List Tok → PR Ast) : Prop :=
  ∀ ts a rs, AllProper ts → f ts = .ok (a, rs) → ∃ us, ts = us ++ rs ∧ Phrase l us a ∧ StopsHead l rs

theorem leftLoop_sound {op? : Tok → Option BinOp} {l : Nat} (hf : FindsOps op? l) (hl : l = 0 ∨ l = 1 ∨ l = 4 ∨ l = 5)
    {sub : List Tok → PR Ast} (hs : SoundAt (l + 1) sub) : ∀ (k : Nat) (e : Ast) (ts : List Tok) (a : Ast) (rs vs : List Tok),
      leftLoop op? sub k e ts = .ok (a, rs) → AllProper ts → StopsHead (l + 1) ts → Phrase l vs e →
      ∃ us, ts = us ++ rs ∧ Phrase l (vs ++ us) a ∧ StopsHead l rs
  | k, e, [], a, rs, vs, h, _, _, hv => by
    have h : (Ev.ok (e, []) : PR Ast) = .ok (a, rs) := by cases k <;> exact h
    cases h
    exact ⟨[], rfl, by simpa using hv, fun t ht => by cases ht⟩
  | 0, e, t :: ts, a, rs, vs, h, _, _, _ => by cases h
  | k + 1, e, t :: ts, a, rs, vs, h, hp, hst, hv => by
    rw [leftLoop] at h
    cases ho : op? t with
    | none =>
      rw [ho] at h
      cases h
      refine ⟨[], rfl, by simpa using hv, fun t' ht' => ?_⟩
      cases ht'
      exact hf.stops hp.head ho (hst _ rfl)
    | some op =>
      rw [ho] at h
      obtain ⟨ts', h1, h'⟩ := Ev.bind_eq_ok.1 h
      obtain ⟨⟨r, ts''⟩, h2, hh⟩ := Ev.bind_eq_ok.1 h'
      obtain ⟨_, u, rs', e1, e2⟩ := advance_ok h1
      cases e1
      subst e2
      obtain ⟨us, e3, hr, hst'⟩ := hs _ _ _ hp.tail h2
      obtain ⟨hk, hlv⟩ := (hf t op hp.head).1 ho
      subst hlv
      obtain ⟨ws, e4, h3, h4⟩ := leftLoop_sound hf hl hs k _ _ _ _ (vs ++ t :: us) hh (by rw [e3] at hp; exact hp.tail.right) hst'
        (.left hl hk hv hr)
      refine ⟨t :: (us ++ ws), ?_, ?_, h4⟩
      · rw [e3, e4]; simp
      · simpa using h3

theorem powLoop_sound {sub : List Tok → PR Ast} (hs : SoundAt 6 sub) {k : Nat} {e : Ast} {ts : List Tok} {a : Ast} {rs vs : List Tok}
    (h : leftLoop powOp sub k e ts = .ok (a, rs)) (hp : AllProper ts) (hv : Phrase 8 vs e) :
    ∃ us, ts = us ++ rs ∧ Phrase 7 (vs ++ us) a ∧ StopsHead 7 rs := by
  have stop : ∀ {k : Nat} {e : Ast} {ts : List Tok}, leftLoop powOp sub k e ts = .ok (a, rs) → AllProper ts →
      (∀ t ∈ ts.head?, powOp t = none) → ts = rs ∧ a = e ∧ StopsHead 7 rs := by
    intro k e ts h hp hn
    cases ts with
    | nil =>
      have h : (Ev.ok (e, []) : PR Ast) = .ok (a, rs) := by cases k <;> exact h
      cases h
      exact ⟨rfl, rfl, fun t ht => by cases ht⟩
    | cons t ts =>
      cases k with
      | zero => cases h
      | succ k =>
        rw [leftLoop, hn t rfl] at h
        cases h
        refine ⟨rfl, rfl, fun t' ht' => ?_⟩
        cases ht'
        exact powOp_finds.stops hp.head (hn _ rfl) (stops_eight _)
  cases ts with
  | nil =>
    obtain ⟨rfl, rfl, h3⟩ := stop h hp (by simp)
    exact ⟨[], rfl, by simpa using .up (by decide) hv, h3⟩
  | cons t ts =>
    cases ho : powOp t with
    | none =>
      obtain ⟨rfl, rfl, h3⟩ := stop h hp (by simpa using ho)
      exact ⟨[], rfl, by simpa using .up (by decide) hv, h3⟩
    | some op =>
      cases k with
      | zero => cases h
      | succ k =>
        rw [leftLoop, ho] at h
        obtain ⟨ts', h1, h'⟩ := Ev.bind_eq_ok.1 h
        obtain ⟨⟨r, ts''⟩, h2, hh⟩ := Ev.bind_eq_ok.1 h'
        obtain ⟨_, u, rs', e1, e2⟩ := advance_ok h1
        cases e1
        subst e2
        obtain ⟨us, e3, hr, hst'⟩ := hs _ _ _ hp.tail h2
        have hp'' : AllProper ts'' := by rw [e3] at hp; exact hp.tail.right
        obtain ⟨hk, hlv⟩ := (powOp_finds t op hp.head).1 ho
        obtain ⟨rfl, rfl, h3⟩ := stop hh hp'' (by
          intro t' ht'
          cases ho' : powOp t' with
          | none => rfl
          | some op' =>
            have hpt : t'.Proper := hp'' t' (List.mem_of_mem_head? ht')
            obtain ⟨k1, k2⟩ := (powOp_finds t' op' hpt).1 ho'
            exact absurd k1 (hst' t' ht' op' (by omega)))
        have : op = .pow := by cases op <;> first | rfl | (cases hlv; done)
        subst this
        exact ⟨t :: us, by rw [e3]; simp, .power hk hv hr, h3⟩

theorem compLoop_sound {sub : List Tok → PR Ast} (hs : SoundAt 4 sub) : ∀ (k : Nat) (c : Option Ast) (e : Ast) (ts : List Tok) (a : Ast) (rs : List Tok),
      compLoop sub k c e ts = .ok (a, rs) → AllProper ts → StopsHead 4 ts →
      ∃ us rest, ts = us ++ rs ∧ Comparisons us rest ∧ a = chain c e rest ∧ StopsHead 3 rs
  | k, c, e, [], a, rs, h, _, _ => by
    have h : (Ev.ok (c.getD e, []) : PR Ast) = .ok (a, rs) := by cases k <;> exact h
    cases h
    exact ⟨[], [], rfl, .nil, rfl, fun t ht => by cases ht⟩
  | 0, c, e, t :: ts, a, rs, h, _, _ => by cases h
  | k + 1, c, e, t :: ts, a, rs, h, hp, hst => by
    rw [compLoop] at h
    cases ho : compOp t with
    | none =>
      rw [ho] at h
      cases h
      refine ⟨[], [], rfl, .nil, rfl, fun t' ht' => ?_⟩
      cases ht'
      exact compOp_finds.stops hp.head ho (hst _ rfl)
    | some op =>
      rw [ho] at h
      obtain ⟨ts', h1, h'⟩ := Ev.bind_eq_ok.1 h
      obtain ⟨⟨r, ts''⟩, h2, hh⟩ := Ev.bind_eq_ok.1 h'
      obtain ⟨_, u, rs', e1, e2⟩ := advance_ok h1
      cases e1
      subst e2
      obtain ⟨us, e3, hr, hst'⟩ := hs _ _ _ hp.tail h2
      obtain ⟨hk, hlv⟩ := (compOp_finds t op hp.head).1 ho
      obtain ⟨ws, rest, e4, h3, h4, h5⟩ := compLoop_sound hs k _ _ _ _ _ hh (by rw [e3] at hp; exact hp.tail.right) hst'
      refine ⟨t :: (us ++ ws), (op, r) :: rest, ?_, .cons hlv hk hr h3, ?_, h5⟩
      · rw [e3, e4]; simp
      · rw [h4]; rfl

/-- All functions of the parser are sound with this much fuel. -/
structure AllSound (n : Nat) : Prop where
  literal : SoundAt 8 (parseLiteral n)
  args : ∀ c k w, k.fixed = some w → c = w → ∀ t ts a rs, AllProper (t :: ts) → parseArgs n c (t :: ts) = .ok (a, rs) →
    ∃ us, ts = us ++ rs ∧ Args k us a
  items : ∀ acc ts a rs, AllProper ts → parseItems n acc ts = .ok (a, rs) →
    (∃ us items, ts = us ++ rs ∧ Items us items ∧ a = .list (acc ++ items)) ∨
    (acc = [] ∧ ∃ us vs x y, ts = us ++ vs ++ rs ∧ Phrase 1 us x ∧ Tail vs y ∧ a = .linked x y)
  list : SoundAt 8 (parseList n)
  tail : ∀ ts a rs, AllProper ts → parseTail n ts = .ok (a, rs) → ∃ us, ts = us ++ rs ∧ Tail us a
  atom : SoundAt 8 (parseAtom n)
  power : SoundAt 7 (parsePower n)
  factor : SoundAt 6 (parseFactor n)
  product : SoundAt 5 (parseProduct n)
  arith : SoundAt 4 (parseArith n)
  comparison : SoundAt 3 (parseComparison n)
  not : SoundAt 2 (parseNot n)
  and : SoundAt 1 (parseAnd n)
  term : SoundAt 0 (parseTerm n)

theorem literal_sound {n : Nat} (ih : AllSound n) : SoundAt 8 (parseLiteral (n + 1)) := by
  intro ts a rs hp h
  rw [parseLiteral.eq_def] at h
  cases ts with
  | nil => cases h
  | cons t ts =>
    simp only at h
    split at h
    · rename_i hk
      obtain ⟨ts1, h1, hh⟩ := Ev.bind_eq_ok.1 h
      obtain ⟨⟨args, ts2⟩, h2, h3⟩ := Ev.bind_eq_ok.1 hh
      obtain ⟨⟨annots, ts3⟩, h4, h5⟩ := Ev.bind_eq_ok.1 h3
      cases h5
      obtain ⟨_, u, rs', e1, e2⟩ := advance_ok h1
      cases e1
      subst e2
      have ha : ∃ us, u :: rs' = us ++ ts2 ∧ OptArgs .parenOpen .parenClose us args := by
        split at h2
        · rename_i hat
          obtain ⟨_, _, e1, hko⟩ := at?_cons (k := .parenOpen) rfl hat hp.tail
          cases e1
          obtain ⟨us, e2, harg⟩ := ih.args [')'] .parenClose _ rfl rfl _ _ _ _ hp.tail h2
          exact ⟨u :: us, by rw [e2]; rfl, .some hko harg⟩
        · cases h2
          exact ⟨[], rfl, .none⟩
      obtain ⟨us, e3, ha⟩ := ha
      have hp2 : AllProper ts2 := by rw [e3] at hp; exact hp.tail.right
      have hb : ∃ vs, ts2 = vs ++ ts3 ∧ OptArgs .bracketOpen .bracketClose vs annots := by
        split at h4
        · rename_i hat
          obtain ⟨_, _, e1, hko⟩ := at?_cons (k := .bracketOpen) rfl hat hp2
          subst e1
          obtain ⟨us, e2, harg⟩ := ih.args [']'] .bracketClose _ rfl rfl _ _ _ _ hp2 h4
          exact ⟨_ :: us, by rw [e2]; rfl, .some hko harg⟩
        · cases h4
          exact ⟨[], rfl, .none⟩
      obtain ⟨vs, e4, hb⟩ := hb
      exact ⟨t :: (us ++ vs), by rw [e3, e4]; simp, .lit hk ha hb, stopsHead_eight _⟩
    · cases h

theorem args_sound {n : Nat} (ih : AllSound n) : ∀ c k w, k.fixed = some w → c = w → ∀ t ts a rs, AllProper (t :: ts) →
    parseArgs (n + 1) c (t :: ts) = .ok (a, rs) → ∃ us, ts = us ++ rs ∧ Args k us a := by
  rintro c k _ hk rfl t ts a rs hp h
  rw [parseArgs] at h
  obtain ⟨ts1, h1, hh⟩ := Ev.bind_eq_ok.1 h
  obtain ⟨⟨x, ts2⟩, h2, h3⟩ := Ev.bind_eq_ok.1 hh
  obtain ⟨_, u, rs', e1, e2⟩ := advance_ok h1
  cases e1
  subst e2
  obtain ⟨us, e3, hx, -⟩ := ih.term _ _ _ hp.tail h2
  have hp2 : AllProper ts2 := by rw [e3] at hp; exact hp.tail.right
  simp only at h3
  split at h3
  · rename_i hat
    obtain ⟨c, rs2, e4, hkc⟩ := at?_cons hk hat hp2
    subst e4
    obtain ⟨ts3, h4, h5⟩ := Ev.bind_eq_ok.1 h3
    cases h5
    obtain ⟨_, v, rs', e5, e6⟩ := advance_ok h4
    cases e5
    subst e6
    exact ⟨us ++ [c], by rw [e3]; simp, .last hkc hx⟩
  · split at h3
    · rename_i hat
      obtain ⟨c, rs2, e4, hkc⟩ := at?_cons (k := .comma) rfl hat hp2
      subst e4
      obtain ⟨⟨rest, ts3⟩, h4, h5⟩ := Ev.bind_eq_ok.1 h3
      cases h5
      obtain ⟨vs, e5, hr⟩ := ih.args _ k _ hk rfl _ _ _ _ hp2 h4
      exact ⟨us ++ c :: vs, by rw [e3, e5]; simp, .more hkc hx hr⟩
    · cases h3

theorem items_sound {n : Nat} (ih : AllSound n) : ∀ acc ts a rs, AllProper ts → parseItems (n + 1) acc ts = .ok (a, rs) →
    (∃ us items, ts = us ++ rs ∧ Items us items ∧ a = .list (acc ++ items)) ∨
    (acc = [] ∧ ∃ us vs x y, ts = us ++ vs ++ rs ∧ Phrase 1 us x ∧ Tail vs y ∧ a = .linked x y) := by
  intro acc ts a rs hp h
  rw [parseItems] at h
  split at h
  · rename_i hat
    obtain ⟨c, rs2, e4, hkc⟩ := at?_cons (k := .bracketClose) rfl hat hp
    subst e4
    obtain ⟨ts3, h4, h5⟩ := Ev.bind_eq_ok.1 h
    cases h5
    obtain ⟨_, v, rs', e5, e6⟩ := advance_ok h4
    cases e5
    subst e6
    exact .inl ⟨[c], [], rfl, .nil hkc, by simp⟩
  · obtain ⟨⟨x, ts2⟩, h2, h3⟩ := Ev.bind_eq_ok.1 h
    obtain ⟨us, e3, hx, -⟩ := ih.and _ _ _ hp h2
    have hp2 : AllProper ts2 := by rw [e3] at hp; exact hp.right
    simp only at h3
    split at h3
    · split at h3
      · cases h3
      · rename_i hlen
        obtain ⟨⟨y, ts3⟩, h4, h5⟩ := Ev.bind_eq_ok.1 h3
        cases h5
        obtain ⟨vs, e4, hy⟩ := ih.tail _ _ _ hp2 h4
        refine .inr ⟨?_, us, vs, x, y, by rw [e3, e4]; simp, hx, hy, rfl⟩
        simp at hlen
        exact hlen
    · split at h3
      · rename_i hat
        obtain ⟨c, rs2, e4, hkc⟩ := at?_cons (k := .comma) rfl hat hp2
        subst e4
        obtain ⟨ts3, h4, h5⟩ := Ev.bind_eq_ok.1 h3
        obtain ⟨_, v, rs', e5, e6⟩ := advance_ok h4
        cases e5
        subst e6
        rcases ih.items _ _ _ _ hp2.tail h5 with ⟨ws, items, e7, hi, ha⟩ | ⟨hacc, -⟩
        · exact .inl ⟨us ++ c :: ws, x :: items, by rw [e3, e7]; simp, .more hkc hx hi, by simp [ha]⟩
        · simp at hacc
      · split at h3
        · rename_i hat
          obtain ⟨c, rs2, e4, hkc⟩ := at?_cons (k := .bracketClose) rfl hat hp2
          subst e4
          cases n with
          | zero => rw [parseItems] at h3; cases h3
          | succ n =>
            rw [parseItems, if_pos hat] at h3
            obtain ⟨ts3, h4, h5⟩ := Ev.bind_eq_ok.1 h3
            cases h5
            obtain ⟨_, v, rs', e5, e6⟩ := advance_ok h4
            cases e5
            subst e6
            exact .inl ⟨us ++ [c], [x], by rw [e3]; simp, .last hkc hx, rfl⟩
        · cases h3

theorem list_sound {n : Nat} (ih : AllSound n) : SoundAt 8 (parseList (n + 1)) := by
  intro ts a rs hp h
  rw [parseList] at h
  split at h
  · rename_i hat
    obtain ⟨c, rs2, e4, hkc⟩ := at?_cons (k := .bracketOpen) rfl hat hp
    subst e4
    obtain ⟨ts3, h4, h5⟩ := Ev.bind_eq_ok.1 h
    obtain ⟨_, v, rs', e5, e6⟩ := advance_ok h4
    cases e5
    subst e6
    rcases ih.items _ _ _ _ hp.tail h5 with ⟨us, items, e7, hi, ha⟩ | ⟨-, us, vs, x, y, e7, hx, hy, ha⟩
    · subst ha
      exact ⟨c :: us, by rw [e7]; simp, .list hkc hi, stopsHead_eight _⟩
    · subst ha
      exact ⟨c :: (us ++ vs), by rw [e7]; simp, .linked hkc hx hy, stopsHead_eight _⟩
  · cases h

theorem tail_sound {n : Nat} (ih : AllSound n) : ∀ ts a rs, AllProper ts → parseTail (n + 1) ts = .ok (a, rs) →
    ∃ us, ts = us ++ rs ∧ Tail us a := by
  intro ts a rs hp h
  rw [parseTail] at h
  split at h
  · rename_i hat
    obtain ⟨c, rs2, e4, hkc⟩ := at?_cons (k := .opOr) rfl hat hp
    subst e4
    obtain ⟨ts3, h4, h5⟩ := Ev.bind_eq_ok.1 h
    obtain ⟨_, v, rs', e5, e6⟩ := advance_ok h4
    cases e5
    subst e6
    obtain ⟨⟨x, ts2⟩, h2, h3⟩ := Ev.bind_eq_ok.1 h5
    obtain ⟨us, e3, hx, -⟩ := ih.and _ _ _ hp.tail h2
    have hp2 : AllProper ts2 := by rw [e3] at hp; exact hp.tail.right
    simp only at h3
    split at h3
    · obtain ⟨⟨y, ts3⟩, h4, h5⟩ := Ev.bind_eq_ok.1 h3
      cases h5
      obtain ⟨vs, e4, hy⟩ := ih.tail _ _ _ hp2 h4
      exact ⟨c :: (us ++ vs), by rw [e3, e4]; simp, .more hkc hx hy⟩
    · split at h3
      · rename_i hat
        obtain ⟨d, rs2, e4, hkd⟩ := at?_cons (k := .bracketClose) rfl hat hp2
        subst e4
        obtain ⟨ts3, h4, h5⟩ := Ev.bind_eq_ok.1 h3
        cases h5
        obtain ⟨_, v, rs', e5, e6⟩ := advance_ok h4
        cases e5
        subst e6
        exact ⟨c :: (us ++ [d]), by rw [e3]; simp, .last hkc hx hkd⟩
      · cases h3
  · cases h

theorem atom_sound {n : Nat} (ih : AllSound n) : SoundAt 8 (parseAtom (n + 1)) := by
  intro ts a rs hp h
  rw [parseAtom.eq_def] at h
  cases ts with
  | nil => cases h
  | cons t ts =>
    have adv : ∀ {x : Ast}, ((advance (t :: ts)).bind fun ts => .ok (x, ts)) = (Ev.ok (a, rs) : PR Ast) → ts = rs ∧ a = x := by
      intro x h
      obtain ⟨ts3, h4, h5⟩ := Ev.bind_eq_ok.1 h
      cases h5
      obtain ⟨_, v, rs', e5, e6⟩ := advance_ok h4
      cases e5
      exact ⟨e6.symm, rfl⟩
    have one : ∀ {x : Ast}, ((advance (t :: ts)).bind fun ts => .ok (x, ts)) = (Ev.ok (a, rs) : PR Ast) → Phrase 8 [t] x →
        ∃ us, t :: ts = us ++ rs ∧ Phrase 8 us a ∧ StopsHead 8 rs := by
      intro x h hx
      obtain ⟨rfl, rfl⟩ := adv h
      exact ⟨[t], rfl, hx, stopsHead_eight _⟩
    simp only at h
    split at h
    · rename_i hk; exact one h (.var hk)
    · split at h
      · exact ih.literal _ _ _ hp h
      · split at h
        · exact ih.list _ _ _ hp h
        · split at h
          · rename_i hlx
            have hko : t.kind = .parenOpen := (hp.head.iff rfl).1 hlx
            obtain ⟨ts3, h4, h5⟩ := Ev.bind_eq_ok.1 h
            obtain ⟨_, v, rs', e5, e6⟩ := advance_ok h4
            cases e5
            subst e6
            obtain ⟨⟨x, ts2⟩, h2, h3⟩ := Ev.bind_eq_ok.1 h5
            obtain ⟨us, e3, hx, -⟩ := ih.term _ _ _ hp.tail h2
            have hp2 : AllProper ts2 := by rw [e3] at hp; exact hp.tail.right
            simp only at h3
            split at h3
            · rename_i hat
              obtain ⟨d, rs2, e4, hkd⟩ := at?_cons (k := .parenClose) rfl hat hp2
              subst e4
              obtain ⟨ts3, h4, h5⟩ := Ev.bind_eq_ok.1 h3
              cases h5
              obtain ⟨_, v, rs', e5, e6⟩ := advance_ok h4
              cases e5
              subst e6
              exact ⟨t :: (us ++ [d]), by rw [e3]; simp, .paren hko hx hkd, stopsHead_eight _⟩
            · cases h3
          · split at h
            · rename_i hk; exact one h (.num hk)
            · split at h
              · rename_i hk; exact one h (.true_ hk)
              · split at h
                · rename_i hk; exact one h (.false_ hk)
                · split at h
                  · rename_i hk
                    obtain ⟨s, h1, h2⟩ := Ev.bind_eq_ok.1 h
                    exact one h2 (.str hk h1)
                  · cases h

theorem factor_sound {n : Nat} (ih : AllSound n) : SoundAt 6 (parseFactor (n + 1)) := by
  intro ts a rs hp h
  rw [parseFactor.eq_def] at h
  cases ts with
  | nil => cases h
  | cons t ts =>
    simp only at h
    split at h
    · rename_i op ho
      obtain ⟨hk, hn⟩ := unaryOp_iff.1 ho
      obtain ⟨ts3, h4, h5⟩ := Ev.bind_eq_ok.1 h
      obtain ⟨_, v, rs', e5, e6⟩ := advance_ok h4
      cases e5
      subst e6
      obtain ⟨⟨x, ts2⟩, h2, h3⟩ := Ev.bind_eq_ok.1 h5
      cases h3
      obtain ⟨us, e3, hx, hst⟩ := ih.factor _ _ _ hp.tail h2
      exact ⟨t :: us, by rw [e3]; simp, .sign hn hk hx, hst⟩
    · obtain ⟨us, e3, hx, hst⟩ := ih.power _ _ _ hp h
      exact ⟨us, e3, .up (by decide) hx, fun t ht => stops_seven_six (hst t ht)⟩

theorem not_sound {n : Nat} (ih : AllSound n) : SoundAt 2 (parseNot (n + 1)) := by
  intro ts a rs hp h
  rw [parseNot] at h
  split at h
  · rename_i hat
    obtain ⟨c, rs2, e4, hkc⟩ := at?_cons (k := .opNot) rfl hat hp
    subst e4
    obtain ⟨ts3, h4, h5⟩ := Ev.bind_eq_ok.1 h
    obtain ⟨_, v, rs', e5, e6⟩ := advance_ok h4
    cases e5
    subst e6
    obtain ⟨⟨x, ts2⟩, h2, h3⟩ := Ev.bind_eq_ok.1 h5
    cases h3
    obtain ⟨us, e3, hx, hst⟩ := ih.not _ _ _ hp.tail h2
    exact ⟨c :: us, by rw [e3]; simp, .not hkc hx, hst⟩
  · obtain ⟨us, e3, hx, hst⟩ := ih.comparison _ _ _ hp h
    exact ⟨us, e3, .up (by decide) hx, fun t ht => stops_three_two (hst t ht)⟩

theorem comparison_sound {n : Nat} (ih : AllSound n) : SoundAt 3 (parseComparison (n + 1)) := by
  intro ts a rs hp h
  rw [parseComparison] at h
  obtain ⟨⟨x, ts2⟩, h2, h3⟩ := Ev.bind_eq_ok.1 h
  obtain ⟨us, e3, hx, hst⟩ := ih.arith _ _ _ hp h2
  have hp2 : AllProper ts2 := by rw [e3] at hp; exact hp.right
  obtain ⟨vs, rest, e4, hc, ha, hst'⟩ := compLoop_sound ih.arith _ _ _ _ _ _ h3 hp2 hst
  refine ⟨us ++ vs, by rw [e3, e4]; simp, ?_, hst'⟩
  subst ha
  cases rest with
  | nil =>
    cases hc
    simpa using .up (by decide) hx
  | cons y ys => exact .compare hx hc (by simp)

/-- A level of left associative operators. -/
theorem left_sound {l : Nat} (hl : l = 0 ∨ l = 1 ∨ l = 4 ∨ l = 5) {op? : Tok → Option BinOp} (hf : FindsOps op? l)
    {sub : List Tok → PR Ast} (hs : SoundAt (l + 1) sub) :
    SoundAt l fun ts => (sub ts).bind fun (e, ts) => leftLoop op? sub ts.length e ts := by
  intro ts a rs hp h
  obtain ⟨⟨x, ts2⟩, h2, h3⟩ := Ev.bind_eq_ok.1 h
  obtain ⟨us, e3, hx, hst⟩ := hs _ _ _ hp h2
  have hp2 : AllProper ts2 := by rw [e3] at hp; exact hp.right
  obtain ⟨vs, e4, hv, hst'⟩ := leftLoop_sound hf hl hs _ _ _ _ _ us h3 hp2 hst (.up (by omega) hx)
  exact ⟨us ++ vs, by rw [e3, e4]; simp, hv, hst'⟩

theorem power_sound {n : Nat} (ih : AllSound n) : SoundAt 7 (parsePower (n + 1)) := by
  intro ts a rs hp h
  rw [parsePower] at h
  obtain ⟨⟨x, ts2⟩, h2, h3⟩ := Ev.bind_eq_ok.1 h
  obtain ⟨us, e3, hx, hst⟩ := ih.atom _ _ _ hp h2
  have hp2 : AllProper ts2 := by rw [e3] at hp; exact hp.right
  obtain ⟨vs, e4, hv, hst'⟩ := powLoop_sound ih.factor h3 hp2 hx
  exact ⟨us ++ vs, by rw [e3, e4]; simp, hv, hst'⟩

theorem allSound : ∀ n, AllSound n
  | 0 => by
    constructor <;> (intros; first | (rename_i h; rw [parseArgs] at h; cases h; done) | (rename_i h; rw [parseItems] at h; cases h; done) |
      (rename_i h; rw [parseTail] at h; cases h; done) | (intro ts a rs _ h; simp [parseLiteral, parseList, parseAtom, parsePower, parseFactor, parseProduct, parseArith, parseComparison, parseNot, parseAnd, parseTerm] at h))
  | n + 1 =>
    have ih := allSound n
    { literal := literal_sound ih
      args := args_sound ih
      items := items_sound ih
      list := list_sound ih
      tail := tail_sound ih
      atom := atom_sound ih
      power := power_sound ih
      factor := factor_sound ih
      product := fun ts a rs hp h => by rw [parseProduct] at h; exact left_sound (by simp) mulOp_finds ih.factor ts a rs hp h
      arith := fun ts a rs hp h => by rw [parseArith] at h; exact left_sound (by simp) addOp_finds ih.product ts a rs hp h
      comparison := comparison_sound ih
      not := not_sound ih
      and := fun ts a rs hp h => by rw [parseAnd] at h; exact left_sound (by simp) andOp_finds ih.not ts a rs hp h
      term := fun ts a rs hp h => by rw [parseTerm] at h; exact left_sound (by simp) orOp_finds ih.and ts a rs hp h }

end

end Verif
