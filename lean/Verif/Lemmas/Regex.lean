import Verif.Spec.Lexer

/-! The matcher agrees with the meaning of regular expressions. -/

namespace Verif

namespace Re

/-- What `run` should do, for a way to match. -/
def Sound (f : ∀ {α : Type}, List Char → (List Char → Option α) → Option α) (P : List Char → List Char → Prop) : Prop :=
  ∀ {α : Type} (s : List Char) (k : List Char → Option α),
    (∀ x, f s k = some x → ∃ u r, s = u ++ r ∧ P u r ∧ k r = some x) ∧
    (f s k = none → ∀ u r, s = u ++ r → P u r → k r = none)

theorem loop_sound {f : ∀ {α : Type}, List Char → (List Char → Option α) → Option α} {P : List Char → List Char → Prop}
    (hf : Sound f P) {α : Type} : ∀ (n : Nat) (s : List Char) (k : List Char → Option α), s.length ≤ n →
    (∀ x, loop f n s k = some x → ∃ u r, s = u ++ r ∧ Iter P u r ∧ k r = some x) ∧
    (loop f n s k = none → ∀ u r, s = u ++ r → Iter P u r → k r = none)
  | 0, s, k, hn => by
    have : s = [] := List.length_eq_zero_iff.1 (Nat.le_zero.1 hn)
    subst this
    rw [loop]
    refine ⟨fun x h => ⟨[], [], rfl, .nil, h⟩, fun h u r hs _ => ?_⟩
    have : r = [] := (List.append_eq_nil_iff.1 hs.symm).2
    rw [this]; exact h
  | n + 1, s, k, hn => by
    rw [loop]
    obtain ⟨h1, h2⟩ := hf s fun s' => if s'.length < s.length then loop f n s' k else none
    generalize hg : (f s fun s' => if s'.length < s.length then loop f n s' k else none) = o
    cases o with
    | some y =>
      simp only [Option.some.injEq, reduceCtorEq, false_implies, and_true]
      rintro x rfl
      obtain ⟨u, r, rfl, hp, hk⟩ := h1 y hg
      split at hk
      · rename_i hlt
        obtain ⟨i1, -⟩ := loop_sound hf n r k (by omega)
        obtain ⟨v, r', rfl, hv, hk⟩ := i1 y hk
        refine ⟨u ++ v, r', by simp, .more ?_ hp hv, hk⟩
        rintro rfl
        simp at hlt
      · simp at hk
    | none =>
      simp only
      refine ⟨fun x h => ⟨[], s, rfl, .nil, h⟩, fun h u r hs hi => ?_⟩
      cases hi with
      | nil => simp at hs; subst hs; exact h
      | @more u v _ hu hp hv =>
        have := h2 hg u (v ++ r) (by simp [hs]) hp
        have hl : (v ++ r).length < s.length := by
          subst hs
          have : 0 < u.length := List.length_pos_iff.2 hu
          simp; omega
        rw [if_pos hl] at this
        exact (loop_sound hf n (v ++ r) k (by omega)).2 this v r rfl hv

theorem run_sound : ∀ a : Re, Sound a.run a.Accepts
  | cls p, α, s, k => by
    cases s with
    | nil =>
      simp only [run, Accepts]
      refine ⟨nofun, fun _ u r h => ?_⟩
      rintro ⟨c, rfl, _⟩
      simp at h
    | cons c s =>
      simp only [run, Accepts]
      by_cases hc : p c = true
      · simp only [hc, if_true]
        refine ⟨fun x h => ⟨[c], s, rfl, ⟨c, rfl, hc⟩, h⟩, fun h u r hs => ?_⟩
        rintro ⟨d, rfl, _⟩
        simp at hs
        rw [← hs.2]; exact h
      · simp only [hc]
        refine ⟨nofun, fun _ u r hs => ?_⟩
        rintro ⟨d, rfl, hd⟩
        simp at hs
        rw [hs.1] at hc
        exact absurd hd hc
  | eps, α, s, k => by
    simp only [run, Accepts]
    refine ⟨fun x h => ⟨[], s, rfl, rfl, h⟩, fun h u r hs => ?_⟩
    rintro rfl
    simp at hs; subst hs; exact h
  | seq a b, α, s, k => by
    simp only [run, Accepts]
    obtain ⟨h1, h2⟩ := run_sound a s fun s' => b.run s' k
    refine ⟨fun x h => ?_, fun h u r hs => ?_⟩
    · obtain ⟨u, r, rfl, hu, hb⟩ := h1 x h
      obtain ⟨v, r', rfl, hv, hk⟩ := (run_sound b r k).1 x hb
      exact ⟨u ++ v, r', by simp, ⟨u, v, rfl, hu, hv⟩, hk⟩
    · rintro ⟨v, w, rfl, hv, hw⟩
      exact (run_sound b (w ++ r) k).2 (h2 h v (w ++ r) (by simp [hs]) hv) w r rfl hw
  | alt a b, α, s, k => by
    simp only [run, Accepts]
    obtain ⟨h1, h2⟩ := run_sound a s k
    obtain ⟨i1, i2⟩ := run_sound b s k
    cases ha : a.run s k with
    | some y =>
      simp only [Option.some.injEq, reduceCtorEq, false_implies, and_true]
      rintro x rfl
      obtain ⟨u, r, hs, hu, hk⟩ := h1 y ha
      exact ⟨u, r, hs, .inl hu, hk⟩
    | none =>
      simp only
      refine ⟨fun x h => ?_, fun h u r hs => ?_⟩
      · obtain ⟨u, r, hs, hu, hk⟩ := i1 x h
        exact ⟨u, r, hs, .inr hu, hk⟩
      · rintro (hu | hu)
        · exact h2 ha u r hs hu
        · exact i2 h u r hs hu
  | star a, α, s, k => by
    simp only [run, Accepts]
    exact loop_sound (run_sound a) s.length s k (Nat.le_refl _)
  | neg a, α, s, k => by
    simp only [run, Accepts]
    obtain ⟨h1, h2⟩ := run_sound a s fun _ => some ()
    cases ha : a.run s fun _ => some () with
    | some y =>
      refine ⟨nofun, fun _ u r hs => ?_⟩
      rintro ⟨rfl, hn⟩
      obtain ⟨u, r', rfl, hu, -⟩ := h1 y ha
      simp at hs
      exact absurd hu (hn u r' hs.symm)
    | none =>
      simp only
      refine ⟨fun x h => ⟨[], s, rfl, ⟨rfl, fun v r' hs hv => ?_⟩, h⟩, fun h u r hs => ?_⟩
      · have := h2 ha v r' hs hv
        simp at this
      · rintro ⟨rfl, _⟩
        simp at hs; subst hs; exact h
  | eos, α, s, k => by
    simp only [run, Accepts]
    split
    · rename_i hs
      refine ⟨fun x h => ⟨[], s, rfl, ⟨rfl, hs⟩, h⟩, fun h u r hs => ?_⟩
      rintro ⟨rfl, _⟩
      simp at hs; subst hs; exact h
    · rename_i hn
      refine ⟨nofun, fun _ u r hs => ?_⟩
      rintro ⟨rfl, h⟩
      simp at hs; subst hs; exact absurd h hn

theorem rest_some {a : Re} {s r : List Char} (h : a.rest s = some r) : ∃ u, s = u ++ r ∧ a.Accepts u r := by
  obtain ⟨u, r', hs, hu, hr⟩ := (run_sound a s some).1 r h
  cases hr
  exact ⟨u, hs, hu⟩

theorem rest_none {a : Re} {s : List Char} : a.rest s = none ↔ ¬a.Possible s := by
  constructor
  · rintro h ⟨u, r, hs, hu⟩
    have := (run_sound a s some).2 h u r hs hu
    simp at this
  · intro h
    cases hr : a.rest s with
    | none => rfl
    | some r =>
      obtain ⟨u, hs, hu⟩ := rest_some hr
      exact absurd ⟨u, r, hs, hu⟩ h

end Re

end Verif
