import Verif.Lemmas.Complete

/-! The parser for terms always ends, and raises only the expected exceptions. -/

namespace Verif

/-! ## String literals -/

theorem readHex_length : ∀ {w acc : Nat} {bs : List Nat} {n : Nat} {r : List Nat}, readHex w acc bs = some (n, r) → r.length ≤ bs.length
  | 0, acc, bs, n, r, h => by cases h; exact Nat.le_refl _
  | w + 1, acc, [], n, r, h => by cases h
  | w + 1, acc, b :: bs, n, r, h => by
    rw [readHex] at h
    split at h
    · exact Nat.le_succ_of_le (readHex_length h)
    · cases h

theorem readOctal_length : ∀ {w acc : Nat} {bs : List Nat}, (readOctal w acc bs).2.length ≤ bs.length
  | 0, acc, bs => Nat.le_refl _
  | w + 1, acc, [] => Nat.le_refl _
  | w + 1, acc, b :: bs => by
    rw [readOctal]
    split
    · exact Nat.le_succ_of_le readOctal_length
    · exact Nat.le_refl _

section
variable [Unicode]

theorem unescapeOne_length {bs cs r : List Nat} (h : unescapeOne bs = some (cs, r)) : r.length ≤ bs.length := by
  cases bs with
  | nil => cases h
  | cons b bs =>
    have code : ∀ w, (match readHex w 0 bs with
        | some (n, r) => if n < 0x110000 then some ([n], r) else none
        | none => none) = some (cs, r) → r.length ≤ bs.length := by
      intro w h
      cases hr : readHex w 0 bs with
      | none => rw [hr] at h; cases h
      | some p =>
        rw [hr] at h
        simp only at h
        split at h
        · cases h; exact readHex_length hr
        · cases h
    rw [unescapeOne.eq_def] at h
    simp only at h
    refine Nat.le_succ_of_le ?_
    by_cases h0 : b = 10
    · rw [if_pos h0] at h; cases h; exact Nat.le_refl _
    rw [if_neg h0] at h
    clear h0
    by_cases h0 : b = 92 ∨ b = 39 ∨ b = 34
    · rw [if_pos h0] at h; cases h; exact Nat.le_refl _
    rw [if_neg h0] at h
    clear h0
    by_cases h0 : b = 98
    · rw [if_pos h0] at h; cases h; exact Nat.le_refl _
    rw [if_neg h0] at h
    clear h0
    by_cases h0 : b = 102
    · rw [if_pos h0] at h; cases h; exact Nat.le_refl _
    rw [if_neg h0] at h
    clear h0
    by_cases h0 : b = 116
    · rw [if_pos h0] at h; cases h; exact Nat.le_refl _
    rw [if_neg h0] at h
    clear h0
    by_cases h0 : b = 110
    · rw [if_pos h0] at h; cases h; exact Nat.le_refl _
    rw [if_neg h0] at h
    clear h0
    by_cases h0 : b = 114
    · rw [if_pos h0] at h; cases h; exact Nat.le_refl _
    rw [if_neg h0] at h
    clear h0
    by_cases h0 : b = 118
    · rw [if_pos h0] at h; cases h; exact Nat.le_refl _
    rw [if_neg h0] at h
    clear h0
    by_cases h0 : b = 97
    · rw [if_pos h0] at h; cases h; exact Nat.le_refl _
    rw [if_neg h0] at h
    clear h0
    split at h
    · cases h; exact readOctal_length
    iterate 3
      split at h
      · exact code _ h
    split at h
    · split at h
      · rename_i bs'
        split at h
        · rename_i r' he
          simp only [Option.map_eq_some_iff] at h
          obtain ⟨_, _, h⟩ := h
          cases h
          have := (List.dropWhile_suffix (l := bs') (· ≠ 125)).length_le
          rw [he] at this
          simp only [List.length_cons] at this ⊢
          omega
        · cases h
      · cases h
    · cases h; exact Nat.le_refl _

/-- An exception while parsing: reported as an error (`StopIteration` is the end of the file), or raised by a
string literal. -/
def Expected (e : Err) : Prop := (∃ m, e = .asl m) ∨ e = .py "StopIteration" ∨ e = .py "UnicodeDecodeError"

theorem unescape_done : ∀ {n : Nat} {bs : List Nat}, bs.length < n →
    (∃ s, unescape n bs = .ok s) ∨ unescape n bs = .err (.py "UnicodeDecodeError")
  | n + 1, [], _ => .inl ⟨_, rfl⟩
  | n + 1, b :: bs, h => by
    simp only [List.length_cons] at h
    rw [unescape]
    split
    · split
      · exact .inr rfl
      · rename_i cs r he
        have := unescapeOne_length he
        rcases unescape_done (n := n) (bs := r) (by omega) with ⟨s, h⟩ | h
        · rw [h]; exact .inl ⟨_, rfl⟩
        · rw [h]; exact .inr rfl
    · rcases unescape_done (n := n) (bs := bs) (by omega) with ⟨s, h⟩ | h
      · rw [h]; exact .inl ⟨_, rfl⟩
      · rw [h]; exact .inr rfl

end

/-- String tokens have quotes. -/
def Quoted (ts : List Tok) : Prop := ∀ t ∈ ts, t.kind = .string → t.lexeme.head? = some '"' ∧ t.lexeme.getLast? = some '"'

theorem Quoted.suffix {ts us : List Tok} (h : Quoted ts) (hs : us <:+ ts) : Quoted us := fun t ht => h t (hs.subset ht)

theorem parseString_done [Unicode] {u : List Char} (h : u.head? = some '"' ∧ u.getLast? = some '"') :
    (∃ s, parseString u = .ok s) ∨ parseString u = .err (.py "UnicodeDecodeError") := by
  rw [parseString, if_pos h]
  exact unescape_done (Nat.lt_succ_self _)

/-! ## Results of parsing -/

/-- Parsing these tokens ended: with fewer tokens, or an expected exception; or, if `z` is 1, there was not enough
fuel. -/
def Parses {α : Type} (z : Nat) (ts : List Tok) : PR α → Prop
  | .ok (_, rs) => rs <:+ ts ∧ rs.length < ts.length
  | .err e => Expected e
  | .oof => z = 1

variable {z : Nat}

theorem Parses.bind {α β : Type} {ts : List Tok} {x : PR α} {f : α × List Tok → PR β} (h : Parses z ts x)
    (hf : ∀ a rs, rs <:+ ts → rs.length < ts.length → Parses z ts (f (a, rs))) : Parses z ts (x.bind f) := by
  match x, h with
  | .ok (a, rs), h => exact hf a rs h.1 h.2
  | .err e, h => exact h
  | .oof, h => exact h

theorem Parses.suffix {α : Type} {ts us : List Tok} {x : PR α} (h : Parses z us x) (hs : us <:+ ts) : Parses z ts x := by
  match x, h with
  | .ok (a, rs), h => exact ⟨h.1.trans hs, Nat.lt_of_lt_of_le h.2 hs.length_le⟩
  | .err e, h => exact h
  | .oof, h => exact h

theorem done_advance {α : Type} {ts : List Tok} {f : List Tok → PR α} (hf : ∀ us, us <:+ ts → us.length < ts.length → us ≠ [] → Parses z ts (f us)) :
    Parses z ts ((advance ts).bind f) := by
  match ts, hf with
  | [], _ => exact .inr (.inl rfl)
  | [t], _ => exact .inr (.inl rfl)
  | t :: u :: rs, hf => exact hf (u :: rs) (List.suffix_cons _ _) (by simp) (by simp)

theorem done_syntax {α : Type} {ts : List Tok} : Parses z ts (syntaxError : PR α) := .inl ⟨_, rfl⟩

/-- One of the loops for operators. -/
theorem leftLoop_done {op? : Tok → Option BinOp} {sub : List Tok → PR Ast} : ∀ {k : Nat} {e : Ast} {ts us : List Tok},
    (∀ vs, vs <:+ us → Parses z vs (sub vs)) → us.length ≤ k → us <:+ ts → us.length < ts.length → Parses z ts (leftLoop op? sub k e us)
  | 0, e, ts, [], hsub, hk, hs, hl => ⟨hs, hl⟩
  | k + 1, e, ts, [], hsub, hk, hs, hl => ⟨hs, hl⟩
  | k + 1, e, ts, t :: us, hsub, hk, hs, hl => by
    rw [leftLoop]
    split
    · exact ⟨hs, hl⟩
    · refine Parses.suffix ?_ hs
      refine done_advance fun vs hv1 hv2 _ => ?_
      refine Parses.bind ((hsub vs hv1).suffix hv1) fun r ws hw1 hw2 => ?_
      simp only [List.length_cons] at hk hw2
      exact leftLoop_done (fun xs hx => hsub xs (hx.trans hw1)) (by omega) hw1 (by simp only [List.length_cons]; omega)

theorem compLoop_done {sub : List Tok → PR Ast} : ∀ {k : Nat} {cs : Option Ast} {e : Ast} {ts us : List Tok},
    (∀ vs, vs <:+ us → Parses z vs (sub vs)) → us.length ≤ k → us <:+ ts → us.length < ts.length → Parses z ts (compLoop sub k cs e us)
  | 0, cs, e, ts, [], hsub, hk, hs, hl => ⟨hs, hl⟩
  | k + 1, cs, e, ts, [], hsub, hk, hs, hl => ⟨hs, hl⟩
  | k + 1, cs, e, ts, t :: us, hsub, hk, hs, hl => by
    rw [compLoop]
    split
    · exact ⟨hs, hl⟩
    · refine Parses.suffix ?_ hs
      refine done_advance fun vs hv1 hv2 _ => ?_
      refine Parses.bind ((hsub vs hv1).suffix hv1) fun r ws hw1 hw2 => ?_
      simp only [List.length_cons] at hk hw2
      exact compLoop_done (fun xs hx => hsub xs (hx.trans hw1)) (by omega) hw1 (by simp only [List.length_cons]; omega)

section
variable [Unicode] [Floats]

/-- With this much fuel, everything ends. -/
structure TotalAt (z n : Nat) : Prop where
  literal : ∀ ts, Quoted ts → (10 * ts.length + 1 ≤ n ∨ z = 1) → Parses z ts (parseLiteral n ts)
  args : ∀ c ts, Quoted ts → (10 * ts.length + 1 ≤ n ∨ z = 1) → Parses z ts (parseArgs n c ts)
  items : ∀ acc ts, Quoted ts → (10 * ts.length + 10 ≤ n ∨ z = 1) → Parses z ts (parseItems n acc ts)
  list : ∀ ts, Quoted ts → (10 * ts.length + 1 ≤ n ∨ z = 1) → Parses z ts (parseList n ts)
  tail : ∀ ts, Quoted ts → (10 * ts.length + 1 ≤ n ∨ z = 1) → Parses z ts (parseTail n ts)
  atom : ∀ ts, Quoted ts → (10 * ts.length + 2 ≤ n ∨ z = 1) → Parses z ts (parseAtom n ts)
  power : ∀ ts, Quoted ts → (10 * ts.length + 3 ≤ n ∨ z = 1) → Parses z ts (parsePower n ts)
  factor : ∀ ts, Quoted ts → (10 * ts.length + 4 ≤ n ∨ z = 1) → Parses z ts (parseFactor n ts)
  product : ∀ ts, Quoted ts → (10 * ts.length + 5 ≤ n ∨ z = 1) → Parses z ts (parseProduct n ts)
  arith : ∀ ts, Quoted ts → (10 * ts.length + 6 ≤ n ∨ z = 1) → Parses z ts (parseArith n ts)
  comparison : ∀ ts, Quoted ts → (10 * ts.length + 7 ≤ n ∨ z = 1) → Parses z ts (parseComparison n ts)
  not_ : ∀ ts, Quoted ts → (10 * ts.length + 8 ≤ n ∨ z = 1) → Parses z ts (parseNot n ts)
  and_ : ∀ ts, Quoted ts → (10 * ts.length + 9 ≤ n ∨ z = 1) → Parses z ts (parseAnd n ts)
  term : ∀ ts, Quoted ts → (10 * ts.length + 10 ≤ n ∨ z = 1) → Parses z ts (parseTerm n ts)

theorem totalAt : ∀ n, TotalAt z n
  | 0 => by constructor <;> (intros; show z = 1; omega)
  | n + 1 => by
    have ih := totalAt n
    constructor
    case literal =>
      intro ts hq hn
      rw [parseLiteral.eq_def]
      cases ts with
      | nil => exact .inr (.inl rfl)
      | cons t ts =>
        simp only
        split
        · refine done_advance fun us hs hl _ => ?_
          refine Parses.bind (α := List Ast) ?_ fun args vs hs2 hl2 => ?_
          · split
            · exact (ih.args _ _ (hq.suffix hs) (by omega)).suffix hs
            · exact ⟨hs, hl⟩
          · refine Parses.bind (α := List Ast) ?_ fun annots ws hs3 hl3 => ⟨hs3, hl3⟩
            simp only
            split
            · exact (ih.args _ _ (hq.suffix hs2) (by omega)).suffix hs2
            · exact ⟨hs2, hl2⟩
        · exact done_syntax
    case args =>
      intro c ts hq hn
      rw [parseArgs]
      refine done_advance fun us hs hl _ => ?_
      refine Parses.bind ((ih.term us (hq.suffix hs) (by omega)).suffix hs) fun a vs hs2 hl2 => ?_
      simp only
      split
      · exact Parses.suffix (us := vs) (done_advance fun ws hs3 hl3 _ => ⟨hs3, hl3⟩) hs2
      · split
        · exact Parses.bind ((ih.args _ _ (hq.suffix hs2) (by omega)).suffix hs2) fun r ws hs3 hl3 => ⟨hs3, hl3⟩
        · exact done_syntax
    case items =>
      intro acc ts hq hn
      rw [parseItems]
      split
      · exact done_advance fun ws hs3 hl3 _ => ⟨hs3, hl3⟩
      · refine Parses.bind (ih.and_ ts hq (by omega)) fun a vs hs2 hl2 => ?_
        simp only
        split
        · split
          · exact done_syntax
          · exact Parses.bind ((ih.tail _ (hq.suffix hs2) (by omega)).suffix hs2) fun r ws hs3 hl3 => ⟨hs3, hl3⟩
        · split
          · exact (done_advance (ts := vs) fun ws hs3 hl3 _ => (ih.items _ _ (hq.suffix (hs3.trans hs2)) (by omega)).suffix hs3).suffix hs2
          · split
            · exact (ih.items _ _ (hq.suffix hs2) (by omega)).suffix hs2
            · exact done_syntax
    case list =>
      intro ts hq hn
      rw [parseList]
      split
      · exact done_advance fun ws hs3 hl3 _ => (ih.items _ _ (hq.suffix hs3) (by omega)).suffix hs3
      · exact done_syntax
    case tail =>
      intro ts hq hn
      rw [parseTail]
      split
      · refine done_advance fun us hs hl _ => ?_
        refine Parses.bind ((ih.and_ us (hq.suffix hs) (by omega)).suffix hs) fun a vs hs2 hl2 => ?_
        simp only
        split
        · exact Parses.bind ((ih.tail _ (hq.suffix hs2) (by omega)).suffix hs2) fun r ws hs3 hl3 => ⟨hs3, hl3⟩
        · split
          · exact Parses.suffix (us := vs) (done_advance fun ws hs3 hl3 _ => ⟨hs3, hl3⟩) hs2
          · exact done_syntax
      · exact done_syntax
    case atom =>
      intro ts hq hn
      rw [parseAtom.eq_def]
      cases ts with
      | nil => exact .inr (.inl rfl)
      | cons t ts =>
        simp only
        split
        · exact done_advance fun ws hs3 hl3 _ => ⟨hs3, hl3⟩
        · split
          · exact ih.literal _ hq (by omega)
          · split
            · exact ih.list _ hq (by omega)
            · split
              · refine done_advance fun us hs hl _ => ?_
                refine Parses.bind ((ih.term us (hq.suffix hs) (by omega)).suffix hs) fun a vs hs2 hl2 => ?_
                simp only
                split
                · exact Parses.suffix (us := vs) (done_advance fun ws hs3 hl3 _ => ⟨hs3, hl3⟩) hs2
                · exact done_syntax
              · split
                · exact done_advance fun ws hs3 hl3 _ => ⟨hs3, hl3⟩
                · split
                  · exact done_advance fun ws hs3 hl3 _ => ⟨hs3, hl3⟩
                  · split
                    · exact done_advance fun ws hs3 hl3 _ => ⟨hs3, hl3⟩
                    · split
                      · rename_i hk
                        rcases parseString_done (hq t (by simp) hk) with ⟨s, h⟩ | h
                        · rw [h, Ev.bind_ok]
                          exact done_advance fun ws hs3 hl3 _ => ⟨hs3, hl3⟩
                        · rw [h]
                          exact .inr (.inr rfl)
                      · exact done_syntax
    case power =>
      intro ts hq hn
      rw [parsePower]
      exact Parses.bind (ih.atom ts hq (by omega)) fun e us hs hl =>
        leftLoop_done (fun vs hv => ih.factor vs (hq.suffix (hv.trans hs)) (by have := hv.length_le; omega)) (Nat.le_refl _) hs hl
    case factor =>
      intro ts hq hn
      rw [parseFactor.eq_def]
      cases ts with
      | nil => exact .inr (.inl rfl)
      | cons t ts =>
        simp only
        split
        · refine done_advance fun us hs hl _ => ?_
          exact Parses.bind ((ih.factor us (hq.suffix hs) (by omega)).suffix hs) fun e vs hs2 hl2 => ⟨hs2, hl2⟩
        · exact ih.power _ hq (by omega)
    case product =>
      intro ts hq hn
      rw [parseProduct]
      exact Parses.bind (ih.factor ts hq (by omega)) fun e us hs hl =>
        leftLoop_done (fun vs hv => ih.factor vs (hq.suffix (hv.trans hs)) (by have := hv.length_le; omega)) (Nat.le_refl _) hs hl
    case arith =>
      intro ts hq hn
      rw [parseArith]
      exact Parses.bind (ih.product ts hq (by omega)) fun e us hs hl =>
        leftLoop_done (fun vs hv => ih.product vs (hq.suffix (hv.trans hs)) (by have := hv.length_le; omega)) (Nat.le_refl _) hs hl
    case comparison =>
      intro ts hq hn
      rw [parseComparison]
      exact Parses.bind (ih.arith ts hq (by omega)) fun e us hs hl =>
        compLoop_done (fun vs hv => ih.arith vs (hq.suffix (hv.trans hs)) (by have := hv.length_le; omega)) (Nat.le_refl _) hs hl
    case not_ =>
      intro ts hq hn
      rw [parseNot]
      split
      · refine done_advance fun us hs hl _ => ?_
        exact Parses.bind ((ih.not_ us (hq.suffix hs) (by omega)).suffix hs) fun e vs hs2 hl2 => ⟨hs2, hl2⟩
      · exact ih.comparison _ hq (by omega)
    case and_ =>
      intro ts hq hn
      rw [parseAnd]
      exact Parses.bind (ih.not_ ts hq (by omega)) fun e us hs hl =>
        leftLoop_done (fun vs hv => ih.not_ vs (hq.suffix (hv.trans hs)) (by have := hv.length_le; omega)) (Nat.le_refl _) hs hl
    case term =>
      intro ts hq hn
      rw [parseTerm]
      exact Parses.bind (ih.and_ ts hq (by omega)) fun e us hs hl =>
        leftLoop_done (fun vs hv => ih.and_ vs (hq.suffix (hv.trans hs)) (by have := hv.length_le; omega)) (Nat.le_refl _) hs hl

end

end Verif
