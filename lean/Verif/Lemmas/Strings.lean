import Verif.Lemmas.Exact
import Verif.Model.Strings

/-! The codec for escapes, and string tokens. -/

namespace Verif

/-! ## The codec -/

theorem hexDigit_plain : ∀ d < 16, hexDigit d ≠ '\\' ∧ hexDigit d ≠ '"' ∧ (hexDigit d).toNat < 128 := by decide

theorem hexValue_hexDigit : ∀ d < 16, hexValue (hexDigit d).toNat = some d := by decide

theorem readHex_append : ∀ (w v acc : Nat) (bs : List Nat),
    readHex (w + v) acc bs = (readHex w acc bs).bind fun (a, r) => readHex v a r
  | 0, v, acc, bs => by simp [readHex]
  | w + 1, v, acc, [] => by rw [Nat.succ_add]; simp [readHex]
  | w + 1, v, acc, b :: bs => by
    rw [Nat.succ_add, readHex, readHex]
    cases hexValue b with
    | none => rfl
    | some d => exact readHex_append w v _ bs

theorem readHex_hex : ∀ (w acc n : Nat) (rest : List Nat), n < 16 ^ w →
    readHex w acc ((hex w n).map Char.toNat ++ rest) = some (acc * 16 ^ w + n, rest)
  | 0, acc, n, rest, h => by
    have : n = 0 := by simpa using h
    simp [readHex, hex, this]
  | w + 1, acc, n, rest, h => by
    rw [readHex_append w 1, hex, List.map_append, List.append_assoc, readHex_hex w acc (n / 16) _ (by
      rw [Nat.pow_succ] at h; omega)]
    simp only [Option.bind, List.map_cons, List.map_nil, List.cons_append, List.nil_append]
    rw [readHex, hexValue_hexDigit _ (Nat.mod_lt _ (by decide))]
    simp only [readHex]
    rw [Nat.pow_succ]
    simp only [Option.some.injEq, Prod.mk.injEq, and_true]
    have := Nat.div_add_mod n 16
    have : 16 * (acc * 16 ^ w + n / 16) + n % 16 = acc * (16 ^ w * 16) + (16 * (n / 16) + n % 16) := by
      rw [Nat.mul_add, Nat.mul_left_comm, Nat.mul_comm 16 (16 ^ w), Nat.add_assoc]
    omega

theorem hex_mem : ∀ {w n : Nat} {c : Char}, c ∈ hex w n → ∃ d < 16, c = hexDigit d
  | w + 1, n, c, h => by
    simp only [hex, List.mem_append, List.mem_singleton] at h
    rcases h with h | rfl
    · exact hex_mem h
    · exact ⟨_, Nat.mod_lt _ (by decide), rfl⟩

theorem utf8_ascii {s : List Char} (h : ∀ c ∈ s, c.toNat < 128) : utf8 s = s.map Char.toNat := by
  induction s with
  | nil => rfl
  | cons c s ih =>
    have hc : c.val.toNat < 128 := h c (by simp)
    rw [utf8, List.flatMap_cons, List.map_cons]
    show _ ++ utf8 s = _
    rw [ih fun c hc => h c (by simp [hc]), String.utf8EncodeChar.eq_def]
    simp only
    rw [if_pos (by omega)]
    have : (UInt8.ofNat c.val.toNat).toNat = c.toNat := by
      rw [UInt8.toNat_ofNat']
      exact Nat.mod_eq_of_lt (by omega)
    simp only [List.map_cons, List.map_nil, this]
    rfl

/-- One code point in `asl_repr`. -/
def enc (c : Nat) : List Char := (escape c).flatMap (fun c => if c = '"' then ['\\', '"'] else [c])

theorem reprString_eq (s : List Nat) : reprString s = '"' :: s.flatMap enc ++ ['"'] := by
  rw [reprString, List.flatMap_assoc]; rfl

theorem flatMap_plain {u : List Char} (h : '"' ∉ u) : u.flatMap (fun c => if c = '"' then ['\\', '"'] else [c]) = u := by
  induction u with
  | nil => rfl
  | cons c u ih =>
    simp only [List.mem_cons, not_or] at h
    rw [List.flatMap_cons, ih h.2, if_neg fun e => h.1 e.symm]
    rfl

theorem ofNat_plain : ∀ c < 127, (Char.ofNat c).toNat = c ∧ (c ≠ 92 → Char.ofNat c ≠ '\\') ∧ (c ≠ 34 → Char.ofNat c ≠ '"') := by
  decide

theorem hex_plain {w n : Nat} : '"' ∉ hex w n := by
  intro h
  obtain ⟨d, hd, e⟩ := hex_mem h
  exact (hexDigit_plain d hd).2.1 e.symm

/-- What a code point looks like. -/
theorem enc_cases {c : Nat} (h : c < 0x110000) :
    (∃ ch, enc c = [ch] ∧ ch.toNat = c ∧ 32 ≤ c ∧ c < 128 ∧ c ≠ 92 ∧ ch ≠ '"' ∧ ch ≠ '\\') ∨
    (∃ x, enc c = ['\\', x] ∧ (c, x) ∈ [(34, '"'), (92, '\\'), (9, 't'), (10, 'n'), (13, 'r')]) ∨
    (∃ x w, enc c = '\\' :: x :: hex w c ∧ c < 16 ^ w ∧ (x, w) ∈ [('x', 2), ('u', 4), ('U', 8)]) := by
  by_cases h1 : 32 ≤ c ∧ c < 127
  · by_cases h2 : c = 92
    · subst h2; exact .inr (.inl ⟨_, rfl, by simp⟩)
    · by_cases h3 : c = 34
      · subst h3; exact .inr (.inl ⟨_, rfl, by simp⟩)
      · obtain ⟨i1, i2, i3⟩ := ofNat_plain c h1.2
        refine .inl ⟨Char.ofNat c, ?_, i1, h1.1, by omega, h2, i3 h3, i2 h2⟩
        simp [enc, escape, h1, h2, i3 h3]
  · by_cases h2 : c = 9
    · subst h2; exact .inr (.inl ⟨_, rfl, by simp⟩)
    · by_cases h3 : c = 10
      · subst h3; exact .inr (.inl ⟨_, rfl, by simp⟩)
      · by_cases h4 : c = 13
        · subst h4; exact .inr (.inl ⟨_, rfl, by simp⟩)
        · refine .inr (.inr ?_)
          rw [enc, escape, if_neg h1, if_neg h2, if_neg h3, if_neg h4]
          by_cases h5 : c < 0x100
          · refine ⟨'x', 2, ?_, by omega, by simp⟩
            rw [if_pos h5, flatMap_plain]
            simp [hex_plain]
          · rw [if_neg h5]
            by_cases h6 : c < 0x10000
            · refine ⟨'u', 4, ?_, by omega, by simp⟩
              rw [if_pos h6, flatMap_plain]
              simp [hex_plain]
            · rw [if_neg h6]
              refine ⟨'U', 8, ?_, by omega, by simp⟩
              rw [flatMap_plain]
              simp [hex_plain]

theorem enc_ascii {c : Nat} (h : c < 0x110000) : ∀ x ∈ enc c, x.toNat < 128 := by
  intro x hx
  rcases enc_cases h with ⟨ch, he, ht, -, hc, -⟩ | ⟨y, he, hy⟩ | ⟨y, w, he, -, hy⟩
  · rw [he] at hx
    simp at hx
    subst hx; omega
  · rw [he] at hx
    simp at hx hy
    rcases hx with rfl | rfl
    · decide
    · rcases hy with ⟨-, rfl⟩ | ⟨-, rfl⟩ | ⟨-, rfl⟩ | ⟨-, rfl⟩ | ⟨-, rfl⟩ <;> decide
  · rw [he] at hx
    simp only [List.mem_cons] at hx
    rcases hx with rfl | rfl | hx
    · decide
    · simp at hy
      rcases hy with ⟨rfl, -⟩ | ⟨rfl, -⟩ | ⟨rfl, -⟩ <;> decide
    · obtain ⟨d, hd, rfl⟩ := hex_mem hx
      exact (hexDigit_plain d hd).2.2

theorem enc_tab {c : Nat} (h : c < 0x110000) : '\t' ∉ enc c := by
  intro hx
  rcases enc_cases h with ⟨ch, he, ht, hc, -⟩ | ⟨y, he, hy⟩ | ⟨y, w, he, -, hy⟩
  · rw [he] at hx
    simp at hx
    subst hx
    have : '\t'.toNat = 9 := rfl
    omega
  · rw [he] at hx
    simp at hx hy
    subst hx
    revert hy; simp
  · rw [he] at hx
    simp only [List.mem_cons] at hx
    rcases hx with hx | rfl | hx
    · revert hx; decide
    · simp at hy
    · obtain ⟨d, hd, e⟩ := hex_mem hx
      have : ∀ d < 16, '\t' ≠ hexDigit d := by decide
      exact this d hd e

theorem expandTabs_id {s : List Char} (h : '\t' ∉ s) : expandTabs s = s := by
  induction s with
  | nil => rfl
  | cons c s ih =>
    simp only [List.mem_cons, not_or] at h
    rw [expandTabs, List.flatMap_cons, if_neg fun e => h.1 e.symm]
    show c :: expandTabs s = _
    rw [ih h.2]

section
variable [Unicode]

theorem unescape_enc {c : Nat} (h : c < 0x110000) (n : Nat) (rest : List Nat) :
    unescape (n + 1) ((enc c).map Char.toNat ++ rest) = (unescape n rest).map (c :: ·) := by
  rcases enc_cases h with ⟨ch, he, ht, -, hc, h92, -⟩ | ⟨y, he, hy⟩ | ⟨y, w, he, hw, hy⟩
  · rw [he]
    simp only [List.map_cons, List.map_nil, List.cons_append, List.nil_append, ht]
    rw [unescape, if_neg h92]
  · rw [he]
    simp at hy
    rcases hy with ⟨rfl, rfl⟩ | ⟨rfl, rfl⟩ | ⟨rfl, rfl⟩ | ⟨rfl, rfl⟩ | ⟨rfl, rfl⟩ <;> rfl
  · rw [he]
    have hr := readHex_hex w 0 c rest hw
    simp only [Nat.zero_mul, Nat.zero_add] at hr
    simp at hy
    rcases hy with ⟨rfl, rfl⟩ | ⟨rfl, rfl⟩ | ⟨rfl, rfl⟩ <;>
    · simp only [List.map_cons, List.cons_append]
      rw [unescape, if_pos (by decide), unescapeOne.eq_def]
      simp [hr, h]

theorem unescape_encs : ∀ {s : List Nat}, (∀ c ∈ s, c < 0x110000) → ∀ {n : Nat}, s.length < n →
    unescape n ((s.flatMap enc).map Char.toNat) = .ok s
  | [], _, n + 1, _ => rfl
  | c :: s, h, n + 1, hn => by
    rw [List.flatMap_cons, List.map_append, unescape_enc (h c (by simp)),
      unescape_encs (fun c hc => h c (by simp [hc])) (by simpa using hn)]
    rfl

omit [Unicode] in
theorem enc_ne {c : Nat} (h : c < 0x110000) : 0 < (enc c).length := by
  rcases enc_cases h with ⟨ch, he, -⟩ | ⟨y, he, -⟩ | ⟨y, w, he, -⟩ <;> simp [he]

omit [Unicode] in
theorem encs_length : ∀ {s : List Nat}, (∀ c ∈ s, c < 0x110000) → s.length ≤ (s.flatMap enc).length
  | [], _ => Nat.le_refl _
  | c :: s, h => by
    have := enc_ne (h c (by simp))
    have := encs_length (s := s) fun c hc => h c (by simp [hc])
    simp only [List.flatMap_cons, List.length_append, List.length_cons]
    omega

/-! ## String tokens -/

omit [Unicode] in
/-- The part of a string between the quotes. -/
inductive Body : List Char → Prop where
  | nil : Body []
  | plain {c u} : c ≠ '\\' → c ≠ '"' → Body u → Body (c :: u)
  | esc {c u} : c ≠ '\n' → Body u → Body ('\\' :: c :: u)

omit [Unicode] in
theorem Body.append {u v : List Char} (hu : Body u) (hv : Body v) : Body (u ++ v) := by
  induction hu with
  | nil => exact hv
  | plain h1 h2 _ ih => exact .plain h1 h2 ih
  | esc h1 _ ih => exact .esc h1 ih

omit [Unicode] in
theorem Body.of_plain {u : List Char} (h : ∀ c ∈ u, c ≠ '\\' ∧ c ≠ '"') : Body u := by
  induction u with
  | nil => exact .nil
  | cons c u ih =>
    have := h c (by simp)
    exact .plain this.1 this.2 (ih fun c hc => h c (by simp [hc]))

omit [Unicode] in
theorem enc_body {c : Nat} (h : c < 0x110000) : Body (enc c) := by
  rcases enc_cases h with ⟨ch, he, -, -, -, -, h1, h2⟩ | ⟨y, he, hy⟩ | ⟨y, w, he, hw, hy⟩
  · rw [he]; exact .plain h2 h1 .nil
  · rw [he]
    refine .esc ?_ .nil
    simp at hy
    rcases hy with ⟨-, rfl⟩ | ⟨-, rfl⟩ | ⟨-, rfl⟩ | ⟨-, rfl⟩ | ⟨-, rfl⟩ <;> decide
  · rw [he]
    refine .esc ?_ (.of_plain fun x hx => ?_)
    · simp at hy
      rcases hy with ⟨rfl, -⟩ | ⟨rfl, -⟩ | ⟨rfl, -⟩ <;> decide
    · obtain ⟨d, hd, rfl⟩ := hex_mem hx
      exact ⟨(hexDigit_plain d hd).1, (hexDigit_plain d hd).2.1⟩

omit [Unicode] in
theorem encs_body : ∀ {s : List Nat}, (∀ c ∈ s, c < 0x110000) → Body (s.flatMap enc)
  | [], _ => .nil
  | c :: s, h => by
    rw [List.flatMap_cons]
    exact (enc_body (h c (by simp))).append (encs_body fun c hc => h c (by simp [hc]))

omit [Unicode] in
open Re in
theorem Body.loop {u : List Char} (h : Body u) (r : List Char) :
    (alt (cls fun c => c ≠ '\\' && c ≠ '"') (seq (chr '\\') dot)).LoopFirst (u ++ '"' :: r) ('"' :: r) := by
  induction h with
  | nil => exact .stop (.alt (.cls (by decide)) (.seq_left (.cls (by decide))))
  | plain h1 h2 _ ih => exact .more (.alt_left (.cls (by simp [h1, h2]))) (by simp) ih
  | @esc c u h1 _ ih =>
    refine .more (s' := u ++ '"' :: r) (.alt_right (.cls (by decide)) (.seq (.cls (by decide)) (.cls ?_))) (by simp; omega) ih
    simpa using h1

open Re in
theorem Body.first {u : List Char} (h : Body u) (r : List Char) :
    Kind.string.re.First ('"' :: (u ++ '"' :: r)) r :=
  .seq (.cls (by decide)) (.seq (.star (h.loop r)) (.cls (by decide)))

/-- A string with quotes is a string token, whatever follows. -/
theorem Body.next {u : List Char} (h : Body u) (r : List Char) : NextTok .string ('"' :: (u ++ ['"'])) r := by
  have he : '"' :: (u ++ ['"']) ++ r = '"' :: (u ++ '"' :: r) := by simp
  refine ⟨by decide, ?_, ?_, by simp⟩
  · rw [he]
    refine firstKind_of (h.first r) (Kind.mem_all _) fun k hk => Re.never_of_starts k.not_nullable ?_
    have h1 : Unicode.space '"' = false := by rw [Unicode.space_ascii _ (by decide)]; decide
    have h2 : Unicode.digit '"' = false := by rw [Unicode.digit_ascii _ (by decide)]; decide
    have : k ∈ [Kind.space, .comment, .parenOpen, .parenClose, .bracketOpen, .bracketClose, .braceOpen, .braceClose,
      .functor, .numeric, .var] := by
      have : Kind.all.takeWhile (· ≠ Kind.string) = [Kind.space, .comment, .parenOpen, .parenClose, .bracketOpen, .bracketClose, .braceOpen, .braceClose,
        .functor, .numeric, .var] := by decide
      rw [← this]; exact hk
    simp only [List.mem_cons, List.not_mem_nil, or_false] at this
    rcases this with rfl | rfl | rfl | rfl | rfl | rfl | rfl | rfl | rfl | rfl | rfl
    · simp [Kind.re, Re.plus, Re.starts, h1]
    · rfl
    · rfl
    · rfl
    · rfl
    · rfl
    · rfl
    · rfl
    · rfl
    · simp [Kind.re, Re.plus, Re.starts, Re.nullable, Re.chr, Re.opt, h2]
    · rfl
  · rw [he]
    exact Re.Never.rest (.text_head (by decide))

end

end Verif
