import Verif.Lemmas.Complete
import Verif.Lemmas.Tokens
import Verif.Lemmas.Strings

/-! Parsed terms come from a source: their names, numbers and strings are well formed. -/

namespace Verif

theorem readHex_mem : ∀ {w acc n : Nat} {bs r : List Nat}, readHex w acc bs = some (n, r) → ∀ b ∈ r, b ∈ bs
  | 0, acc, n, bs, r, h, b, hb => by cases h; exact hb
  | w + 1, acc, n, [], r, h, _, _ => by cases h
  | w + 1, acc, n, b' :: bs, r, h, b, hb => by
    rw [readHex] at h
    split at h
    · exact List.mem_cons_of_mem _ (readHex_mem h b hb)
    · cases h

theorem readOctal_mem : ∀ {w acc : Nat} {bs : List Nat}, ∀ b ∈ (readOctal w acc bs).2, b ∈ bs
  | 0, acc, bs, b, hb => hb
  | w + 1, acc, [], b, hb => by cases hb
  | w + 1, acc, b' :: bs, b, hb => by
    rw [readOctal] at hb
    split at hb
    · exact List.mem_cons_of_mem _ (readOctal_mem b hb)
    · exact hb

theorem readOctal_lt : ∀ {w acc : Nat} {bs : List Nat}, (readOctal w acc bs).1 < (acc + 1) * 8 ^ w
  | 0, acc, bs => by simp [readOctal]
  | w + 1, acc, [] => by
    simp only [readOctal]
    calc acc < (acc + 1) * 1 := by omega
      _ ≤ (acc + 1) * 8 ^ (w + 1) := Nat.mul_le_mul_left _ (Nat.one_le_pow _ _ (by decide))
  | w + 1, acc, b :: bs => by
    rw [readOctal]
    split
    · have := readOctal_lt (w := w) (acc := 8 * acc + (b - 48)) (bs := bs)
      refine Nat.lt_of_lt_of_le this ?_
      rw [Nat.pow_succ, Nat.mul_comm (8 ^ w), ← Nat.mul_assoc]
      exact Nat.mul_le_mul_right _ (by omega)
    · calc acc < (acc + 1) * 1 := by omega
        _ ≤ (acc + 1) * 8 ^ (w + 1) := Nat.mul_le_mul_left _ (Nat.one_le_pow _ _ (by decide))

section
variable [Unicode]

/-- Escapes stand for code points. -/
theorem unescapeOne_lt {bs cs r : List Nat} (hb : ∀ b ∈ bs, b < 256) (h : unescapeOne bs = some (cs, r)) :
    (∀ c ∈ cs, c < 0x110000) ∧ ∀ b ∈ r, b < 256 := by
  cases bs with
  | nil => cases h
  | cons b bs =>
    have hbs : ∀ b ∈ bs, b < 256 := fun x hx => hb x (by simp [hx])
    have hb0 := hb b (by simp)
    have code : ∀ w, (match readHex w 0 bs with
        | some (n, r) => if n < 0x110000 then some ([n], r) else none
        | none => none) = some (cs, r) → (∀ c ∈ cs, c < 0x110000) ∧ ∀ b ∈ r, b < 256 := by
      intro w h
      split at h
      · rename_i n r' hr
        split at h
        · rename_i hn
          cases h
          exact ⟨by simpa using hn, fun x hx => hbs x (readHex_mem hr x hx)⟩
        · cases h
      · cases h
    have one : ∀ c, c < 0x110000 → (some ([c], bs) : Option (List Nat × List Nat)) = some (cs, r) →
        (∀ c ∈ cs, c < 0x110000) ∧ ∀ b ∈ r, b < 256 := by
      intro c hc h
      cases h
      exact ⟨by simpa using hc, hbs⟩
    rw [unescapeOne.eq_def] at h
    dsimp only at h
    by_cases h0 : b = 10
    · rw [if_pos h0] at h
      cases h
      exact ⟨by simp, hbs⟩
    rw [if_neg h0] at h
    clear h0
    by_cases h0 : b = 92 ∨ b = 39 ∨ b = 34
    · rw [if_pos h0] at h
      exact one _ (by omega) h
    rw [if_neg h0] at h
    clear h0
    by_cases h0 : b = 98
    · rw [if_pos h0] at h
      exact one _ (by omega) h
    rw [if_neg h0] at h
    clear h0
    by_cases h0 : b = 102
    · rw [if_pos h0] at h
      exact one _ (by omega) h
    rw [if_neg h0] at h
    clear h0
    by_cases h0 : b = 116
    · rw [if_pos h0] at h
      exact one _ (by omega) h
    rw [if_neg h0] at h
    clear h0
    by_cases h0 : b = 110
    · rw [if_pos h0] at h
      exact one _ (by omega) h
    rw [if_neg h0] at h
    clear h0
    by_cases h0 : b = 114
    · rw [if_pos h0] at h
      exact one _ (by omega) h
    rw [if_neg h0] at h
    clear h0
    by_cases h0 : b = 118
    · rw [if_pos h0] at h
      exact one _ (by omega) h
    rw [if_neg h0] at h
    clear h0
    by_cases h0 : b = 97
    · rw [if_pos h0] at h
      exact one _ (by omega) h
    rw [if_neg h0] at h
    clear h0
    split at h
    · rename_i ho
      cases h
      refine ⟨?_, fun x hx => hbs x (readOctal_mem x hx)⟩
      have := readOctal_lt (w := 2) (acc := b - 48) (bs := bs)
      intro c hc
      simp only [List.mem_singleton] at hc
      subst hc
      have : (b - 48 + 1) * 8 ^ 2 ≤ 8 * 64 := Nat.mul_le_mul_right _ (by omega)
      omega
    · split at h
      · exact code 2 h
      · split at h
        · exact code 4 h
        · split at h
          · exact code 8 h
          · split at h
            · split at h
              · rename_i bs'
                split at h
                · rename_i r' hr
                  obtain ⟨n, hn, h2⟩ := Option.map_eq_some_iff.1 h
                  cases h2
                  refine ⟨by simpa using Unicode.named_lt _ _ hn, fun x hx => hbs x ?_⟩
                  refine List.mem_cons_of_mem _ ((List.dropWhile_sublist fun x => decide (x ≠ 125)).subset ?_)
                  rw [hr]
                  exact List.mem_cons_of_mem _ hx
                · cases h
              · cases h
            · cases h
              refine ⟨?_, hbs⟩
              simp
              omega

theorem unescape_lt : ∀ {n : Nat} {bs s : List Nat}, (∀ b ∈ bs, b < 256) → unescape n bs = .ok s → ∀ c ∈ s, c < 0x110000
  | 0, _, _, _, h => by cases h
  | n + 1, [], s, _, h => by cases h; simp
  | n + 1, b :: bs, s, hb, h => by
    have hbs : ∀ b ∈ bs, b < 256 := fun x hx => hb x (by simp [hx])
    rw [unescape] at h
    split at h
    · split at h
      · cases h
      · rename_i cs r hu
        obtain ⟨h1, h2⟩ := unescapeOne_lt hbs hu
        cases hr : unescape n r with
        | ok s' =>
          rw [hr] at h
          cases h
          intro c hc
          simp only [List.mem_append] at hc
          exact hc.elim (h1 c) (unescape_lt h2 hr c)
        | err e => rw [hr] at h; cases h
        | oof => rw [hr] at h; cases h
    · cases hr : unescape n bs with
      | ok s' =>
        rw [hr] at h
        cases h
        intro c hc
        simp only [List.mem_cons] at hc
        rcases hc with rfl | hc
        · have := hb c (by simp)
          omega
        · exact unescape_lt hbs hr c hc
      | err e => rw [hr] at h; cases h
      | oof => rw [hr] at h; cases h

theorem parseString_lt {u : List Char} {s : List Nat} (h : parseString u = .ok s) : ∀ c ∈ s, c < 0x110000 := by
  rw [parseString] at h
  split at h
  · refine unescape_lt ?_ h
    intro b hb
    simp only [utf8, List.mem_flatMap, List.mem_map] at hb
    obtain ⟨c, -, x, -, rfl⟩ := hb
    exact x.toNat_lt
  · cases h

end

section
variable [Unicode] [Floats]

omit [Unicode] in
theorem chain_source : ∀ {rest : List (BinOp × Ast)} {c : Option Ast} {e : Ast}, (∀ c' ∈ c, c'.Source) → e.Source →
    (∀ p ∈ rest, p.2.Source) → (chain c e rest).Source
  | [], c, e, hc, he, _ => by
    cases c with
    | none => exact he
    | some c => exact hc c rfl
  | (op, e') :: rest, c, e, hc, he, hr => by
    have he' : e'.Source := hr (op, e') (by simp)
    rw [chain.eq_def]
    simp only
    refine chain_source ?_ he' fun p hp => hr p (by simp [hp])
    cases c with
    | none => rintro c' hc'; cases hc'; exact ⟨he, he'⟩
    | some c => rintro c' hc'; cases hc'; exact ⟨hc c rfl, he, he'⟩

/-- All tokens are as they come from the lexer. -/
abbrev AllGood (ts : List Tok) : Prop := ∀ t ∈ ts, t.Good

omit [Unicode] [Floats] in
theorem AllGood.right {us rs : List Tok} (h : AllGood (us ++ rs)) : AllGood rs := fun t ht => h t (by simp [ht])
omit [Unicode] [Floats] in
theorem AllGood.left {us rs : List Tok} (h : AllGood (us ++ rs)) : AllGood us := fun t ht => h t (by simp [ht])
omit [Unicode] [Floats] in
theorem AllGood.tail {t : Tok} {rs : List Tok} (h : AllGood (t :: rs)) : AllGood rs := fun t ht => h t (by simp [ht])
omit [Unicode] [Floats] in
theorem AllGood.head {t : Tok} {rs : List Tok} (h : AllGood (t :: rs)) : t.Good := h t (by simp)

mutual

theorem phrase_source : ∀ {l : Nat} {ts : List Tok} {a : Ast}, Phrase l ts a → AllGood ts → a.Source
  | _, _, _, .up _ h, hg => phrase_source h hg
  | _, _, _, .left _ _ h1 h2, hg => ⟨phrase_source h1 hg.left, phrase_source h2 hg.right.tail⟩
  | _, _, _, .not _ h, hg => by have := phrase_source h hg.tail; exact this
  | _, _, _, .compare h hc _, hg => chain_source (by simp) (phrase_source h hg.left) (comparisons_source hc hg.right)
  | _, _, _, .sign _ _ h, hg => by have := phrase_source h hg.tail; exact this
  | _, _, _, .power _ h1 h2, hg => ⟨phrase_source h1 hg.left, phrase_source h2 hg.right.tail⟩
  | _, _, _, .paren _ h _, hg => phrase_source h hg.tail.left
  | _, _, _, .var hk, hg => hg.head.var hk
  | _, _, _, .num (t := t) _, _ => ⟨t.lexeme, rfl⟩
  | _, _, _, .true_ _, _ => trivial
  | _, _, _, .false_ _, _ => trivial
  | _, _, _, .str _ hs, _ => parseString_lt hs
  | _, _, _, .lit hk h1 h2, hg => ⟨hg.head.functor hk, opt_source h1 hg.tail.left, opt_source h2 hg.tail.right⟩
  | _, _, _, .list _ h, hg => items_source h hg.tail
  | _, _, _, .linked _ h1 h2, hg => ⟨phrase_source h1 hg.tail.left, tail_source h2 hg.tail.right⟩

theorem comparisons_source : ∀ {us : List Tok} {rest : List (BinOp × Ast)}, Comparisons us rest → AllGood us → ∀ p ∈ rest, p.2.Source
  | _, _, .nil, _ => by simp
  | _, _, .cons _ _ h hc, hg => by
    have h1 := phrase_source h hg.tail.left
    have h2 := comparisons_source hc hg.tail.right
    intro p hp
    simp only [List.mem_cons] at hp
    rcases hp with rfl | hp
    · exact h1
    · exact h2 p hp

theorem opt_source : ∀ {ko kc : Kind} {us : List Tok} {args : List Ast}, OptArgs ko kc us args → AllGood us → Ast.Sources args
  | _, _, _, _, .none, _ => trivial
  | _, _, _, _, .some _ h, hg => args_source h hg.tail

theorem args_source : ∀ {kc : Kind} {us : List Tok} {args : List Ast}, Args kc us args → AllGood us → Ast.Sources args
  | _, _, _, .last _ h, hg => ⟨phrase_source h hg.left, trivial⟩
  | _, _, _, .more _ h h2, hg => ⟨phrase_source h hg.left, args_source h2 hg.right.tail⟩

theorem items_source : ∀ {us : List Tok} {items : List Ast}, Items us items → AllGood us → Ast.Sources items
  | _, _, .nil _, _ => trivial
  | _, _, .last _ h, hg => ⟨phrase_source h hg.left, trivial⟩
  | _, _, .more _ h h2, hg => ⟨phrase_source h hg.left, items_source h2 hg.right.tail⟩

theorem tail_source : ∀ {us : List Tok} {b : Ast}, Tail us b → AllGood us → b.Source
  | _, _, .last _ h _, hg => phrase_source h hg.tail.left
  | _, _, .more _ h h2, hg => ⟨phrase_source h hg.tail.left, tail_source h2 hg.tail.right⟩

end

end

end Verif
