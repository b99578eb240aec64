import Verif.Lemmas.Regex

/-! The scanner divides a line as specified. -/

namespace Verif

namespace Re

/-- The expression does not match the empty text. -/
def solid : Re → Bool
  | cls _ => true
  | seq a b => a.solid || b.solid
  | alt a b => a.solid && b.solid
  | _ => false

theorem solid_ne : ∀ {a : Re} {u r : List Char}, a.solid = true → a.Accepts u r → u ≠ []
  | cls _, u, r, _, ⟨c, h, _⟩ => by simp [h]
  | seq a b, u, r, hs, ⟨v, w, h, h1, h2⟩ => by
    simp only [solid, Bool.or_eq_true] at hs
    rcases hs with hs | hs
    · have := solid_ne hs h1; simp [h, this]
    · have := solid_ne hs h2; simp [h, this]
  | alt a b, u, r, hs, h => by
    simp only [solid, Bool.and_eq_true] at hs
    rcases h with h | h
    · exact solid_ne hs.1 h
    · exact solid_ne hs.2 h

theorem iter_cls {p : Char → Bool} {u r : List Char} (h : Iter (cls p).Accepts u r) : ∀ c ∈ u, p c = true := by
  induction h with
  | nil => simp
  | more _ h1 _ ih =>
    obtain ⟨d, rfl, hd⟩ := h1
    intro c hc
    simp at hc
    rcases hc with rfl | hc
    · exact hd
    · exact ih c hc

theorem accepts_plus_cls {p : Char → Bool} {u r : List Char} (h : (plus (cls p)).Accepts u r) : ∀ c ∈ u, p c = true := by
  obtain ⟨v, w, rfl, ⟨d, rfl, hd⟩, hw⟩ := h
  intro c hc
  simp at hc
  rcases hc with rfl | hc
  · exact hd
  · exact iter_cls hw c hc

theorem accepts_text : ∀ {t u r : List Char}, (text t).Accepts u r ↔ u = t
  | [], u, r => Iff.rfl
  | c :: cs, u, r => by
    simp only [text, Accepts, chr]
    constructor
    · rintro ⟨v, w, rfl, ⟨d, rfl, hd⟩, hw⟩
      have := accepts_text.1 hw
      simp at hd
      simp [this, hd]
    · rintro rfl
      exact ⟨[c], cs, rfl, ⟨c, rfl, by simp⟩, accepts_text.2 rfl⟩

theorem possible_text {t s : List Char} : (text t).Possible s ↔ ∃ r, s = t ++ r := by
  constructor
  · rintro ⟨u, r, rfl, h⟩
    exact ⟨r, by rw [accepts_text.1 h]⟩
  · rintro ⟨r, rfl⟩
    exact ⟨t, r, rfl, accepts_text.2 rfl⟩

end Re

section
variable [Unicode]

theorem Kind.solid (k : Kind) : k.re.solid = true := by cases k <;> rfl

omit [Unicode] in
theorem Kind.mem_all (k : Kind) : k ∈ Kind.all := by cases k <;> decide

theorem firstKind_some {s : List Char} {k : Kind} {r : List Char} : ∀ {ks : List Kind}, firstKind s ks = some (k, r) →
    k.re.rest s = some r ∧ ∀ k' ∈ ks.takeWhile (· ≠ k), ¬k'.re.Possible s
  | [], h => by cases h
  | k₀ :: ks, h => by
    rw [firstKind] at h
    cases hr : k₀.re.rest s with
    | some r' =>
      rw [hr] at h
      cases h
      exact ⟨hr, by simp⟩
    | none =>
      rw [hr] at h
      obtain ⟨h1, h2⟩ := firstKind_some h
      refine ⟨h1, fun k' hk' => ?_⟩
      rw [List.takeWhile_cons] at hk'
      split at hk'
      · simp only [List.mem_cons] at hk'
        rcases hk' with rfl | hk'
        · exact Re.rest_none.1 hr
        · exact h2 k' hk'
      · simp at hk'

theorem firstKind_none {s : List Char} : ∀ {ks : List Kind}, firstKind s ks = none → ∀ k ∈ ks, ¬k.re.Possible s
  | [], _ => by simp
  | k₀ :: ks, h => by
    rw [firstKind] at h
    cases hr : k₀.re.rest s with
    | some r' => rw [hr] at h; cases h
    | none =>
      rw [hr] at h
      intro k hk
      simp only [List.mem_cons] at hk
      rcases hk with rfl | hk
      · exact Re.rest_none.1 hr
      · exact firstKind_none h k hk

omit [Unicode] in
theorem endComment_some : ∀ {s r : List Char}, endComment s = some r →
    ∃ u, s = u ++ '*' :: '/' :: r ∧ '\n' ∉ u ∧ ∀ v w, u ++ ['*'] = v ++ '*' :: '/' :: w → False
  | '*' :: '/' :: s, r, h => by
    simp [endComment] at h
    subst h
    refine ⟨[], rfl, by simp, fun v w h => ?_⟩
    cases v <;> simp at h
  | [], r, h => by simp [endComment] at h
  | c :: s, r, h => by
    by_cases hcs : ∃ s', c :: s = '*' :: '/' :: s'
    · obtain ⟨s', hs⟩ := hcs
      rw [hs] at h ⊢
      simp [endComment] at h
      subst h
      refine ⟨[], rfl, by simp, fun v w h => ?_⟩
      cases v <;> simp at h
    · rw [endComment.eq_2 c s fun s' h1 h2 => hcs ⟨s', by rw [h1, h2]⟩] at h
      split at h
      · cases h
      · rename_i hc
        obtain ⟨u, rfl, h1, h2⟩ := endComment_some h
        refine ⟨c :: u, rfl, by simp [h1]; exact fun h => hc h.symm, fun v w h => ?_⟩
        cases v with
        | nil =>
          simp only [List.cons_append, List.nil_append, List.cons.injEq] at h
          obtain ⟨rfl, h⟩ := h
          cases u with
          | nil => simp at h
          | cons d u =>
            simp at h
            obtain ⟨rfl, h⟩ := h
            exact hcs ⟨_, rfl⟩
        | cons d v =>
          simp only [List.cons_append, List.cons.injEq] at h
          exact h2 v w h.2

omit [Unicode] in
theorem endComment_none : ∀ {s : List Char}, endComment s = none → ∀ u r, s = u ++ '*' :: '/' :: r → '\n' ∈ u
  | '*' :: '/' :: s, h => by simp [endComment] at h
  | [], _ => by intro u r h; simp at h
  | c :: s, h => by
    intro u r hs
    by_cases hcs : ∃ s', c :: s = '*' :: '/' :: s'
    · obtain ⟨s', hs'⟩ := hcs
      rw [hs'] at h
      simp [endComment] at h
    · rw [endComment.eq_2 c s fun s' h1 h2 => hcs ⟨s', by rw [h1, h2]⟩] at h
      cases u with
      | nil => exact absurd ⟨_, hs⟩ hcs
      | cons d u =>
        simp only [List.cons_append, List.cons.injEq] at hs
        obtain ⟨rfl, hs⟩ := hs
        split at h
        · rename_i hc; simp [hc]
        · have := endComment_none h u r hs
          simp [this]

/-- With enough fuel the scanner comes to an end, and divides the line as specified. -/
theorem scan_covers : ∀ (n : Nat) (b : Bool) (col : Nat) (s : List Char), s.length < n →
    ∃ evs b', scan n b col s = some (evs, b') ∧ Lexes b col s evs b'
  | 0, _, _, _, h => absurd h (Nat.not_lt_zero _)
  | n + 1, b, col, [], _ => ⟨[], b, rfl, .done⟩
  | n + 1, true, col, c :: cs, hn => by
    rw [scan]
    simp only [if_true]
    cases he : endComment (c :: cs) with
    | none => exact ⟨[], true, rfl, .inside (endComment_none he)⟩
    | some r =>
      obtain ⟨u, hs, h1, h2⟩ := endComment_some he
      simp only
      have hl : (c :: cs).length = u.length + 2 + r.length := by rw [hs]; simp; omega
      rw [hl, Nat.add_sub_cancel]
      obtain ⟨evs, b', h3, h4⟩ := scan_covers n false (col + (u.length + 2)) r (by omega)
      refine ⟨evs, b', h3, ?_⟩
      rw [hs]
      exact .close h1 h2 h4
  | n + 1, false, col, c :: cs, hn => by
    rw [scan]
    simp only [Bool.false_eq_true, if_false]
    cases ho : (Re.text ['/', '*']).rest (c :: cs) with
    | some r =>
      obtain ⟨u, hs, hu⟩ := Re.rest_some ho
      rw [Re.accepts_text.1 hu] at hs
      simp only
      have hl : (c :: cs).length = 2 + r.length := by rw [hs]; simp; omega
      rw [hl, Nat.add_sub_cancel]
      obtain ⟨evs, b', h3, h4⟩ := scan_covers n true (col + 2) r (by omega)
      refine ⟨evs, b', h3, ?_⟩
      rw [hs]
      exact .opened h4
    | none =>
      simp only
      have hno : ∀ w, c :: cs ≠ '/' :: '*' :: w := fun w h =>
        Re.rest_none.1 ho (Re.possible_text.2 ⟨w, h⟩)
      cases hf : firstKind (c :: cs) Kind.all with
      | none =>
        simp only
        obtain ⟨evs, b', h3, h4⟩ := scan_covers n false (col + 1) cs (by simpa using hn)
        rw [h3]
        exact ⟨_, _, rfl, .illegal (firstKind_none hf) h4⟩
      | some kr =>
        obtain ⟨k, r⟩ := kr
        obtain ⟨hr, hfirst⟩ := firstKind_some hf
        obtain ⟨u, hs, hu⟩ := Re.rest_some hr
        have hne : u ≠ [] := Re.solid_ne k.solid hu
        have hpos : 0 < u.length := List.length_pos_iff.2 hne
        simp only
        have hl : (c :: cs).length = u.length + r.length := by rw [hs]; simp
        have ht : (c :: cs).take u.length = u := by rw [hs]; simp
        rw [hl, Nat.add_sub_cancel, ht]
        obtain ⟨evs, b', h3, h4⟩ := scan_covers n false (col + u.length) r (by omega)
        rw [h3]
        refine ⟨_, _, rfl, ?_⟩
        rw [hs] at hfirst hno ⊢
        by_cases hk : k = .space
        · subst hk
          exact .blank hne (Re.accepts_plus_cls hu) h4
        · by_cases hk' : k = .comment
          · subst hk'
            obtain ⟨v, w, rfl, hv, hw⟩ := hu
            refine .comment ?_ ?_ h4
            · rcases hv with hv | ⟨d, rfl, hd⟩
              · exact .inl (Re.accepts_text.1 hv)
              · simp at hd; simp [hd]
            · intro h
              have := Re.iter_cls hw _ h
              simp at this
          · simp only [hk, hk', or_self, if_false]
            exact .token hne hk hk' hu hfirst hno h4

end

end Verif
