import Verif.Spec.Escapes

/-! The codec `unicode_escape` reads what the grammar says. -/

namespace Verif

theorem hexValue_iff {b d : Nat} : hexValue b = some d ↔ IsHex b d := by
  constructor
  · intro h
    have hb : b < 103 ∧ d < 16 := by
      unfold hexValue at h
      repeat' split at h
      all_goals simp_all
      all_goals omega
    have : ∀ b < 103, ∀ d < 16, hexValue b = some d → IsHex b d := by decide +kernel
    exact this b hb.1 d hb.2 h
  · intro h
    have hd : d < 16 := by
      rcases h with h | h
      all_goals exact (List.getElem?_eq_some_iff.1 h).1
    have : ∀ d < 16, ("0123456789abcdef".toList.map Char.toNat)[d]?.bind hexValue = some d ∧
      ("0123456789ABCDEF".toList.map Char.toNat)[d]?.bind hexValue = some d := by decide +kernel
    rcases h with h | h
    · have := (this d hd).1; rwa [h] at this
    · have := (this d hd).2; rwa [h] at this

theorem isOct_iff {b d : Nat} : IsOct b d ↔ 48 ≤ b ∧ b ≤ 55 ∧ d = b - 48 := by
  constructor
  · intro h
    have hd : d < 8 := (List.getElem?_eq_some_iff.1 h).1
    have : ∀ d < 8, ("01234567".toList.map Char.toNat)[d]? = some (d + 48) := by decide +kernel
    unfold IsOct at h
    rw [this d hd] at h
    simp at h
    omega
  · rintro ⟨h1, h2, rfl⟩
    have : ∀ b < 56, 48 ≤ b → IsOct b (b - 48) := by decide +kernel
    exact this b (by omega) h1

theorem readHex_iff : ∀ {w acc m : Nat} {bs r : List Nat}, readHex w acc bs = some (m, r) ↔
    ∃ ds n, bs = ds ++ r ∧ ds.length = w ∧ HexNumeral ds n ∧ m = acc * 16 ^ w + n
  | 0, acc, m, bs, r => by
    simp only [readHex, Option.some.injEq, Prod.mk.injEq]
    constructor
    · rintro ⟨rfl, rfl⟩; exact ⟨[], 0, rfl, rfl, .nil, by simp⟩
    · rintro ⟨ds, n, rfl, h, h2, rfl⟩
      cases List.length_eq_zero_iff.1 h
      cases h2
      simp
  | w + 1, acc, m, [], r => by
    simp only [readHex]
    constructor
    · intro h; simp at h
    · rintro ⟨ds, n, h, h2, -⟩
      have := congrArg List.length h
      simp at this
      omega
  | w + 1, acc, m, b :: bs, r => by
    have ar : ∀ d n : Nat, (16 * acc + d) * 16 ^ w + n = acc * 16 ^ (w + 1) + (d * 16 ^ w + n) := by
      intro d n
      rw [Nat.pow_succ, Nat.add_mul, Nat.mul_comm 16 acc, Nat.mul_assoc, Nat.mul_comm 16 (16 ^ w), Nat.add_assoc]
    constructor
    · intro h
      rw [readHex] at h
      split at h
      · rename_i d hd
        obtain ⟨ds, n, rfl, rfl, hn, rfl⟩ := readHex_iff.1 h
        exact ⟨b :: ds, _, rfl, rfl, .cons (hexValue_iff.1 hd) hn, ar d n⟩
      · simp at h
    · rintro ⟨ds, n, he, hl, hn, rfl⟩
      cases hn with
      | nil => simp at hl
      | @cons b' d n' bs' hb hn' =>
        simp only [List.cons_append, List.cons.injEq] at he
        obtain ⟨rfl, rfl⟩ := he
        rw [readHex, hexValue_iff.2 hb]
        simp only [List.length_cons, Nat.add_right_cancel_iff] at hl
        subst hl
        exact readHex_iff.2 ⟨bs', n', rfl, rfl, hn', (ar d n').symm⟩

section
variable [Unicode]

theorem Escape.shorter {bs cs r : List Nat} (h : Escape bs cs r) : r.length < bs.length := by
  cases h <;> simp <;> omega

omit [Unicode] in
theorem notOct {r : List Nat} : (∀ b ∈ r.head?, ∀ y, ¬IsOct b y) ↔ ∀ b ∈ r.head?, ¬(48 ≤ b ∧ b ≤ 55) := by
  constructor
  · intro h b hb hh; exact h b hb _ (isOct_iff.2 ⟨hh.1, hh.2, rfl⟩)
  · intro h b hb y hy; exact h b hb ⟨(isOct_iff.1 hy).1, (isOct_iff.1 hy).2.1⟩

theorem code_iff {c : Char} {w : Nat} (hc : (c, w) ∈ [('x', 2), ('u', 4), ('U', 8)]) {bs cs r : List Nat}
    (h : (match readHex w 0 bs with
      | some (n, r) => if n < 0x110000 then some ([n], r) else none
      | none => none) = some (cs, r)) : Escape (c.toNat :: bs) cs r := by
  split at h
  · rename_i n r' e
    obtain ⟨ds, m, rfl, rfl, hm, rfl⟩ := readHex_iff.1 e
    split at h
    · rename_i hlt
      simp only [Option.some.injEq, Prod.mk.injEq] at h
      obtain ⟨rfl, rfl⟩ := h
      simp only [Nat.zero_mul, Nat.zero_add] at hlt ⊢
      exact .code hc hm hlt
    · simp at h
  · simp at h

theorem unescapeOne_sound {bs cs r : List Nat} (h : unescapeOne bs = some (cs, r)) : Escape bs cs r := by
  cases bs with
  | nil => simp [unescapeOne] at h
  | cons b bs =>
    unfold unescapeOne at h
    dsimp only at h
    by_cases e : b = 10
    · rw [if_pos e] at h; subst e; simp at h; obtain ⟨rfl, rfl⟩ := h; exact .newline
    rw [if_neg e] at h
    have n1 := e; clear e
    by_cases e : b = 92 ∨ b = 39 ∨ b = 34
    · rw [if_pos e] at h; simp at h; obtain ⟨rfl, rfl⟩ := h
      rcases e with rfl | rfl | rfl
      · exact .short (c := '\\') (by simp [shortEscapes])
      · exact .short (c := '\'') (by simp [shortEscapes])
      · exact .short (c := '"') (by simp [shortEscapes])
    rw [if_neg e] at h
    have n2 := e; clear e
    by_cases e : b = 98
    · rw [if_pos e] at h; subst e; simp at h; obtain ⟨rfl, rfl⟩ := h; exact .short (c := 'b') (by simp [shortEscapes])
    rw [if_neg e] at h
    have n3 := e; clear e
    by_cases e : b = 102
    · rw [if_pos e] at h; subst e; simp at h; obtain ⟨rfl, rfl⟩ := h; exact .short (c := 'f') (by simp [shortEscapes])
    rw [if_neg e] at h
    have n4 := e; clear e
    by_cases e : b = 116
    · rw [if_pos e] at h; subst e; simp at h; obtain ⟨rfl, rfl⟩ := h; exact .short (c := 't') (by simp [shortEscapes])
    rw [if_neg e] at h
    have n5 := e; clear e
    by_cases e : b = 110
    · rw [if_pos e] at h; subst e; simp at h; obtain ⟨rfl, rfl⟩ := h; exact .short (c := 'n') (by simp [shortEscapes])
    rw [if_neg e] at h
    have n6 := e; clear e
    by_cases e : b = 114
    · rw [if_pos e] at h; subst e; simp at h; obtain ⟨rfl, rfl⟩ := h; exact .short (c := 'r') (by simp [shortEscapes])
    rw [if_neg e] at h
    have n7 := e; clear e
    by_cases e : b = 118
    · rw [if_pos e] at h; subst e; simp at h; obtain ⟨rfl, rfl⟩ := h; exact .short (c := 'v') (by simp [shortEscapes])
    rw [if_neg e] at h
    have n8 := e; clear e
    by_cases e : b = 97
    · rw [if_pos e] at h; subst e; simp at h; obtain ⟨rfl, rfl⟩ := h; exact .short (c := 'a') (by simp [shortEscapes])
    rw [if_neg e] at h
    have n9 := e; clear e
    by_cases e : 48 ≤ b ∧ b ≤ 55
    · rw [if_pos e] at h
      have ha : IsOct b (b - 48) := isOct_iff.2 ⟨e.1, e.2, rfl⟩
      simp only [Option.some.injEq, Prod.mk.injEq] at h
      obtain ⟨rfl, rfl⟩ := h
      cases bs with
      | nil => exact .octal1 ha (by simp)
      | cons c bs =>
        rw [readOctal]
        split
        · rename_i e2
          have hb : IsOct c (c - 48) := isOct_iff.2 ⟨e2.1, e2.2, rfl⟩
          cases bs with
          | nil => exact .octal2 ha hb (by simp)
          | cons d bs =>
            rw [readOctal]
            split
            · rename_i e3
              have hc : IsOct d (d - 48) := isOct_iff.2 ⟨e3.1, e3.2, rfl⟩
              have := Escape.octal3 (r := bs) ha hb hc
              rw [readOctal]
              simp only
              have e4 : 8 * (8 * (b - 48) + (c - 48)) + (d - 48) = 64 * (b - 48) + 8 * (c - 48) + (d - 48) := by omega
              rwa [e4]
            · rename_i e3
              exact .octal2 ha hb (notOct.2 (by simpa using e3))
        · rename_i e2
          exact .octal1 ha (notOct.2 (by simpa using e2))
    rw [if_neg e] at h
    have n10 := e; clear e
    by_cases e : b = 120
    · rw [if_pos e] at h; subst e; exact code_iff (c := 'x') (by simp) h
    rw [if_neg e] at h
    have n11 := e; clear e
    by_cases e : b = 117
    · rw [if_pos e] at h; subst e; exact code_iff (c := 'u') (by simp) h
    rw [if_neg e] at h
    have n12 := e; clear e
    by_cases e : b = 85
    · rw [if_pos e] at h; subst e; exact code_iff (c := 'U') (by simp) h
    rw [if_neg e] at h
    have n13 := e; clear e
    by_cases e : b = 78
    · rw [if_pos e] at h; subst e
      split at h
      · rename_i bs
        split at h
        · rename_i r' e
          rw [Option.map_eq_some_iff] at h
          obtain ⟨n, hn, h⟩ := h
          simp only [Prod.mk.injEq] at h
          obtain ⟨rfl, rfl⟩ := h
          have hs := List.takeWhile_append_dropWhile (p := fun x : Nat => decide (x ≠ 125)) (l := bs)
          rw [e] at hs
          rw [← hs]
          refine .named (fun hm => ?_) hn
          have := List.all_takeWhile (l := bs) (p := fun x : Nat => decide (x ≠ 125))
          rw [List.all_eq_true] at this
          have := this _ hm
          revert this; decide
        · simp at h
      · simp at h
    rw [if_neg e] at h
    have n14 := e; clear e
    simp only [Option.some.injEq, Prod.mk.injEq] at h
    obtain ⟨rfl, rfl⟩ := h
    refine .other ?_
    have : "\n\\'\"abtnvfr01234567xuUN".toList.map Char.toNat =
      [10, 92, 39, 34, 97, 98, 116, 110, 118, 102, 114, 48, 49, 50, 51, 52, 53, 54, 55, 120, 117, 85, 78] := by decide +kernel
    intro c hc e
    have hm := List.mem_map_of_mem (f := Char.toNat) hc
    rw [this, ← e] at hm
    simp only [List.mem_cons, List.not_mem_nil, or_false] at hm
    omega

theorem unescapeOne_complete {bs cs r : List Nat} (h : Escape bs cs r) : unescapeOne bs = some (cs, r) := by
  cases h with
  | newline => rfl
  | short h =>
    simp only [shortEscapes, List.mem_cons, Prod.mk.injEq, List.not_mem_nil, or_false] at h
    rcases h with ⟨rfl, rfl⟩ | ⟨rfl, rfl⟩ | ⟨rfl, rfl⟩ | ⟨rfl, rfl⟩ | ⟨rfl, rfl⟩ | ⟨rfl, rfl⟩ | ⟨rfl, rfl⟩ | ⟨rfl, rfl⟩ | ⟨rfl, rfl⟩ | ⟨rfl, rfl⟩
    all_goals rfl
  | @octal1 a x r ha hr =>
    obtain ⟨h1, h2, rfl⟩ := isOct_iff.1 ha
    rw [notOct] at hr
    have : readOctal 2 (a - 48) r = (a - 48, r) := by
      cases r with
      | nil => rfl
      | cons b r => rw [readOctal, if_neg (hr b (by simp))]
    simp only [unescapeOne, this]
    iterate 9 rw [if_neg (by omega)]
    rw [if_pos ⟨h1, h2⟩]
  | @octal2 a b x y r ha hb hr =>
    obtain ⟨h1, h2, rfl⟩ := isOct_iff.1 ha
    obtain ⟨h3, h4, rfl⟩ := isOct_iff.1 hb
    rw [notOct] at hr
    have : readOctal 2 (a - 48) (b :: r) = (8 * (a - 48) + (b - 48), r) := by
      rw [readOctal, if_pos ⟨h3, h4⟩]
      cases r with
      | nil => rfl
      | cons b r => rw [readOctal, if_neg (hr b (by simp))]
    simp only [unescapeOne, this]
    iterate 9 rw [if_neg (by omega)]
    rw [if_pos ⟨h1, h2⟩]
  | @octal3 a b c x y z r ha hb hc =>
    obtain ⟨h1, h2, rfl⟩ := isOct_iff.1 ha
    obtain ⟨h3, h4, rfl⟩ := isOct_iff.1 hb
    obtain ⟨h5, h6, rfl⟩ := isOct_iff.1 hc
    have : readOctal 2 (a - 48) (b :: c :: r) = (64 * (a - 48) + 8 * (b - 48) + (c - 48), r) := by
      rw [readOctal, if_pos ⟨h3, h4⟩, readOctal, if_pos ⟨h5, h6⟩, readOctal]
      simp only [Prod.mk.injEq, and_true]
      omega
    simp only [unescapeOne, this]
    iterate 9 rw [if_neg (by omega)]
    rw [if_pos ⟨h1, h2⟩]
  | @code c ds r n hc hn hlt =>
    have := (readHex_iff (r := r) (acc := 0)).2 ⟨ds, n, rfl, rfl, hn, rfl⟩
    simp only [Nat.zero_mul, Nat.zero_add] at this
    simp only [List.mem_cons, Prod.mk.injEq, List.not_mem_nil, or_false] at hc
    rcases hc with ⟨rfl, hl⟩ | ⟨rfl, hl⟩ | ⟨rfl, hl⟩
    all_goals
      rw [hl] at this
      simp [unescapeOne, this, hlt]
  | @named name r n hm hn =>
    have h1 : (name ++ 125 :: r).dropWhile (· ≠ 125) = 125 :: r := by
      rw [List.dropWhile_append_of_pos (by intro x hx; simp; rintro rfl; exact hm hx)]
      simp
    have h2 : (name ++ 125 :: r).takeWhile (· ≠ 125) = name := by
      rw [List.takeWhile_append_of_pos (by intro x hx; simp; rintro rfl; exact hm hx)]
      simp
    show unescapeOne (78 :: 123 :: (name ++ 125 :: r)) = _
    simp only [unescapeOne, h1, h2, hn]
    rfl
  | @other b r hb =>
    have : ∀ n ∈ "\n\\'\"abtnvfr01234567xuUN".toList.map Char.toNat, b ≠ n := by
      intro n hn
      obtain ⟨c, hc, rfl⟩ := List.mem_map.1 hn
      exact hb c hc
    have e : "\n\\'\"abtnvfr01234567xuUN".toList.map Char.toNat =
      [10, 92, 39, 34, 97, 98, 116, 110, 118, 102, 114, 48, 49, 50, 51, 52, 53, 54, 55, 120, 117, 85, 78] := by decide +kernel
    rw [e] at this
    simp only [List.mem_cons, List.not_mem_nil, or_false, forall_eq_or_imp, forall_eq] at this
    simp only [unescapeOne]
    repeat' rw [if_neg (by omega)]
    rfl

theorem unescapeOne_iff {bs cs r : List Nat} : unescapeOne bs = some (cs, r) ↔ Escape bs cs r :=
  ⟨unescapeOne_sound, unescapeOne_complete⟩

theorem unescape_complete : ∀ {bs cs : List Nat}, Reads bs cs → ∀ n, bs.length < n → unescape n bs = .ok cs := by
  intro bs cs h
  induction h with
  | nil => intro n hn; cases n with | zero => simp at hn | succ n => rfl
  | plain hb _ ih =>
    intro n hn
    cases n with
    | zero => simp at hn
    | succ n =>
      rw [unescape, if_neg (show ¬_ = 92 from hb), ih n (by simpa using hn)]; rfl
  | escape he _ ih =>
    intro n hn
    cases n with
    | zero => simp at hn
    | succ n =>
      have := he.shorter
      rw [unescape, if_pos (show '\\'.toNat = 92 from rfl), unescapeOne_complete he]
      simp only
      rw [ih n (by simp at hn; omega)]; rfl

theorem unescape_sound : ∀ (n : Nat) {bs cs : List Nat}, unescape n bs = .ok cs → Reads bs cs
  | 0, bs, cs, h => by simp [unescape] at h
  | n + 1, [], cs, h => by simp [unescape] at h; subst h; exact .nil
  | n + 1, b :: bs, cs, h => by
    rw [unescape] at h
    split at h
    · rename_i e; subst e
      split at h
      · simp at h
      · rename_i cs₁ r hr
        cases hu : unescape n r with
        | ok cs₂ =>
          rw [hu] at h
          cases h
          exact .escape (unescapeOne_sound hr) (unescape_sound n hu)
        | err e => rw [hu] at h; cases h
        | oof => rw [hu] at h; cases h
    · rename_i e
      cases hu : unescape n bs with
      | ok cs₂ =>
        rw [hu] at h
        cases h
        exact .plain e (unescape_sound n hu)
      | err e => rw [hu] at h; cases h
      | oof => rw [hu] at h; cases h

theorem unescape_total : ∀ (n : Nat) {bs : List Nat}, bs.length < n →
    (∃ cs, unescape n bs = .ok cs) ∨ unescape n bs = .err (.py "UnicodeDecodeError")
  | 0, bs, h => by simp at h
  | n + 1, [], h => .inl ⟨[], rfl⟩
  | n + 1, b :: bs, h => by
    rw [unescape]
    split
    · split
      · exact .inr rfl
      · rename_i cs₁ r hr
        have := (unescapeOne_sound hr).shorter
        rcases unescape_total n (bs := r) (by simp at h; omega) with ⟨cs, e⟩ | e
        · exact .inl ⟨cs₁ ++ cs, by rw [e]; rfl⟩
        · exact .inr (by rw [e]; rfl)
    · rcases unescape_total n (bs := bs) (by simpa using h) with ⟨cs, e⟩ | e
      · exact .inl ⟨b :: cs, by rw [e]; rfl⟩
      · exact .inr (by rw [e]; rfl)

end

end Verif
