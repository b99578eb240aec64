import Verif.Spec.Body

/-!
# Lemmas: instruction graphs and trace languages
-/

namespace Verif

open Lang

/-- The instructions from `e` on do what `L` says and then go on at `x`. -/
structure Region (c : Code) (e x : Option Nat) (L : Lang) : Prop where
  sound : ∀ {tr z}, Path c e tr z →
    (z = .failed ∧ L tr .failed) ∨ ((∃ pc, z = .at (some pc)) ∧ L tr .part) ∨
    ∃ t₁ t₂, tr = t₁ ++ t₂ ∧ L t₁ .done ∧ Path c x t₂ z
  done : ∀ {tr t z}, L tr .done → Path c x t z → Path c e (tr ++ t) z
  failed : ∀ {tr}, L tr .failed → Path c e tr .failed
  part : ∀ {tr}, L tr .part → ∃ pc, Path c e tr (.at (some pc))

theorem Region.toStop {c : Code} {e x : Option Nat} {L : Lang} (h : Region c e x L) {tr : Trace} {o : Outcome} (hl : L tr o) (ho : o ≠ .done) :
    (o = .failed ∧ Path c e tr .failed) ∨ (o = .part ∧ ∃ pc, Path c e tr (.at (some pc))) := by
  cases o with
  | done => exact absurd rfl ho
  | failed => exact .inl ⟨rfl, h.failed hl⟩
  | part => exact .inr ⟨rfl, h.part hl⟩

theorem Region.skip (c : Code) (e : Option Nat) : Region c e e skip where
  sound h := .inr (.inr ⟨[], _, rfl, ⟨rfl, rfl⟩, h⟩)
  done h hp := by rw [h.1]; exact hp
  failed h := by cases h.2
  part h := by cases h.2

theorem Region.ins {c : Code} {pc : Nat} {f : InstrF} {x : Option Nat} (h : c.instr pc = ⟨f, x, none⟩) :
    Region c (some pc) x (ins f) where
  sound hp := by
    cases hp with
    | here => exact .inr (.inl ⟨⟨pc, rfl⟩, .part⟩)
    | yes h1 => rw [h] at h1 ⊢; exact .inr (.inr ⟨[(f, true)], _, rfl, .done, h1⟩)
    | no _ h1 => rw [h] at h1; cases h1
    | fail h1 h2 => rw [h] at h1 ⊢; exact .inl ⟨rfl, .failed h1⟩
  done hl hp := by
    cases hl
    have := Path.yes (c := c) (pc := pc) (tr := _) (e := _) (by rw [h]; exact hp)
    rw [h] at this
    exact this
  failed hl := by
    cases hl with
    | failed hc =>
      have := Path.fail (c := c) (pc := pc) (by rw [h]; exact hc) (by rw [h])
      rw [h] at this
      exact this
  part hl := by cases hl; exact ⟨pc, .here _⟩

theorem Region.seq {c : Code} {e m x : Option Nat} {A B : Lang} (hA : Region c e m A) (hB : Region c m x B) :
    Region c e x (seq A B) where
  sound hp := by
    rcases hA.sound hp with ⟨h1, h2⟩ | ⟨h1, h2⟩ | ⟨t₁, t₂, rfl, h1, h2⟩
    · exact .inl ⟨h1, .first h2 (by simp)⟩
    · exact .inr (.inl ⟨h1, .first h2 (by simp)⟩)
    · rcases hB.sound h2 with ⟨h3, h4⟩ | ⟨h3, h4⟩ | ⟨t₃, t₄, rfl, h3, h4⟩
      · exact .inl ⟨h3, .both h1 h4⟩
      · exact .inr (.inl ⟨h3, .both h1 h4⟩)
      · exact .inr (.inr ⟨t₁ ++ t₃, t₄, by simp, .both h1 h3, h4⟩)
  done hl hp := by
    cases hl with
    | first _ h => exact absurd rfl h
    | both h1 h2 => rw [List.append_assoc]; exact hA.done h1 (hB.done h2 hp)
  failed hl := by
    cases hl with
    | first h => exact hA.failed h
    | both h1 h2 => exact hA.done h1 (hB.failed h2)
  part hl := by
    cases hl with
    | first h => exact hA.part h
    | both h1 h2 => obtain ⟨pc, h⟩ := hB.part h2; exact ⟨pc, hA.done h1 h⟩

/-- A test goes on with `t` or with `l`. -/
structure Branch (c : Code) (pc : Nat) (t l : Option Nat) : Prop where
  f : (c.instr pc).f = .nextOrFail
  yes : (c.instr pc).success = t
  no : (c.instr pc).failure = l

theorem Branch.path {c : Code} {pc l : Nat} {t : Option Nat} (h : Branch c pc t (some l)) {tr : Trace} {z : Stop}
    (hp : Path c (some pc) tr z) :
    (tr = [] ∧ z = .at (some pc)) ∨ (∃ tr', tr = (.nextOrFail, true) :: tr' ∧ Path c t tr' z) ∨
    (∃ tr', tr = (.nextOrFail, false) :: tr' ∧ Path c (some l) tr' z) := by
  cases hp with
  | here => exact .inl ⟨rfl, rfl⟩
  | yes h1 => rw [h.yes] at h1; rw [h.f]; exact .inr (.inl ⟨_, rfl, h1⟩)
  | no _ h1 h2 => rw [h.no] at h1; cases h1; rw [h.f]; exact .inr (.inr ⟨_, rfl, h2⟩)
  | fail _ h1 => rw [h.no] at h1; cases h1

theorem Branch.pathYes {c : Code} {pc : Nat} {t l : Option Nat} (h : Branch c pc t l) {tr : Trace} {z : Stop}
    (hp : Path c t tr z) : Path c (some pc) ((.nextOrFail, true) :: tr) z := by
  have := Path.yes (c := c) (pc := pc) (by rw [h.yes]; exact hp)
  rw [h.f] at this
  exact this

theorem Branch.pathNo {c : Code} {pc l : Nat} {t : Option Nat} (h : Branch c pc t (some l)) {tr : Trace} {z : Stop}
    (hp : Path c (some l) tr z) : Path c (some pc) ((.nextOrFail, false) :: tr) z := by
  have := Path.no (c := c) (pc := pc) (by rw [h.f]; rfl) h.no hp
  rw [h.f] at this
  exact this

theorem Region.cond {c : Code} {pc l : Nat} {t x : Option Nat} {A B : Lang} (h : Branch c pc t (some l))
    (hA : Region c t x A) (hB : Region c (some l) x B) : Region c (some pc) x (cond A B) where
  sound hp := by
    rcases h.path hp with ⟨rfl, rfl⟩ | ⟨tr', rfl, h1⟩ | ⟨tr', rfl, h1⟩
    · exact .inr (.inl ⟨⟨pc, rfl⟩, .part⟩)
    · rcases hA.sound h1 with ⟨h1, h2⟩ | ⟨h1, h2⟩ | ⟨t₁, t₂, rfl, h1, h2⟩
      · exact .inl ⟨h1, .yes h2⟩
      · exact .inr (.inl ⟨h1, .yes h2⟩)
      · exact .inr (.inr ⟨_ :: t₁, t₂, rfl, .yes h1, h2⟩)
    · rcases hB.sound h1 with ⟨h1, h2⟩ | ⟨h1, h2⟩ | ⟨t₁, t₂, rfl, h1, h2⟩
      · exact .inl ⟨h1, .no h2⟩
      · exact .inr (.inl ⟨h1, .no h2⟩)
      · exact .inr (.inr ⟨_ :: t₁, t₂, rfl, .no h1, h2⟩)
  done hl hp := by
    cases hl with
    | yes h1 => exact h.pathYes (hA.done h1 hp)
    | no h1 => exact h.pathNo (hB.done h1 hp)
  failed hl := by
    cases hl with
    | yes h1 => exact h.pathYes (hA.failed h1)
    | no h1 => exact h.pathNo (hB.failed h1)
  part hl := by
    cases hl with
    | part => exact ⟨pc, .here _⟩
    | yes h1 => obtain ⟨pc', h2⟩ := hA.part h1; exact ⟨pc', h.pathYes h2⟩
    | no h1 => obtain ⟨pc', h2⟩ := hB.part h1; exact ⟨pc', h.pathNo h2⟩

theorem Region.loop {c : Code} {pc l : Nat} {e t x : Option Nat} {P A B : Lang} (h : Branch c pc t (some l))
    (hP : Region c e (some pc) P) (hA : Region c t e A) (hB : Region c (some l) x B) : Region c e x (loop P A B) where
  sound {tr z} hp := by
    suffices ∀ n (tr : Trace), tr.length ≤ n → Path c e tr z →
        (z = .failed ∧ Lang.loop P A B tr .failed) ∨ ((∃ pc, z = .at (some pc)) ∧ Lang.loop P A B tr .part) ∨
        ∃ t₁ t₂, tr = t₁ ++ t₂ ∧ Lang.loop P A B t₁ .done ∧ Path c x t₂ z from this _ tr (Nat.le_refl _) hp
    intro n
    induction n with
    | zero =>
      intro tr hn hp
      obtain rfl : tr = [] := List.length_eq_zero_iff.1 (by omega)
      rcases hP.sound hp with ⟨h1, h2⟩ | ⟨h1, h2⟩ | ⟨t₁, t₂, ht, h1, h2⟩
      · exact .inl ⟨h1, .before h2 (by simp)⟩
      · exact .inr (.inl ⟨h1, .before h2 (by simp)⟩)
      · obtain ⟨rfl, rfl⟩ : t₁ = [] ∧ t₂ = [] := by simpa using ht.symm
        rcases h.path h2 with ⟨_, rfl⟩ | ⟨tr', h3, _⟩ | ⟨tr', h3, _⟩
        · exact .inr (.inl ⟨⟨pc, rfl⟩, .test h1⟩)
        · cases h3
        · cases h3
    | succ n ih =>
      intro tr hn hp
      rcases hP.sound hp with ⟨h1, h2⟩ | ⟨h1, h2⟩ | ⟨t₁, t₂, rfl, h1, h2⟩
      · exact .inl ⟨h1, .before h2 (by simp)⟩
      · exact .inr (.inl ⟨h1, .before h2 (by simp)⟩)
      · rcases h.path h2 with ⟨rfl, rfl⟩ | ⟨tr', rfl, h3⟩ | ⟨tr', rfl, h3⟩
        · rw [List.append_nil]
          exact .inr (.inl ⟨⟨pc, rfl⟩, .test h1⟩)
        · rcases hA.sound h3 with ⟨h4, h5⟩ | ⟨h4, h5⟩ | ⟨t₃, t₄, rfl, h4, h5⟩
          · exact .inl ⟨h4, .stop h1 h5 (by simp)⟩
          · exact .inr (.inl ⟨h4, .stop h1 h5 (by simp)⟩)
          · simp at hn
            rcases ih t₄ (by omega) h5 with ⟨h6, h7⟩ | ⟨h6, h7⟩ | ⟨t₅, t₆, rfl, h6, h7⟩
            · exact .inl ⟨h6, .again h1 h4 h7⟩
            · exact .inr (.inl ⟨h6, .again h1 h4 h7⟩)
            · exact .inr (.inr ⟨_, t₆, by simp, .again h1 h4 h6, h7⟩)
        · rcases hB.sound h3 with ⟨h4, h5⟩ | ⟨h4, h5⟩ | ⟨t₃, t₄, rfl, h4, h5⟩
          · exact .inl ⟨h4, .leave h1 h5⟩
          · exact .inr (.inl ⟨h4, .leave h1 h5⟩)
          · exact .inr (.inr ⟨_, t₄, by simp, .leave h1 h4, h5⟩)
  done {tr t z} hl hp := by
    generalize ho : Outcome.done = o at hl
    induction hl with
    | before _ h1 => exact absurd ho.symm h1
    | test => cases ho
    | stop _ _ h1 => exact absurd ho.symm h1
    | again h1 h2 _ ih =>
      have := hP.done h1 (h.pathYes (hA.done h2 (ih ho)))
      simpa using this
    | leave h1 h2 =>
      subst ho
      have := hP.done h1 (h.pathNo (hB.done h2 hp))
      simpa using this
  failed {tr} hl := by
    generalize ho : Outcome.failed = o at hl
    induction hl with
    | before h1 => subst ho; exact hP.failed h1
    | test => cases ho
    | stop h1 h2 => subst ho; exact hP.done h1 (h.pathYes (hA.failed h2))
    | again h1 h2 _ ih => exact hP.done h1 (h.pathYes (hA.done h2 (ih ho)))
    | leave h1 h2 => subst ho; exact hP.done h1 (h.pathNo (hB.failed h2))
  part {tr} hl := by
    generalize ho : Outcome.part = o at hl
    induction hl with
    | before h1 => subst ho; exact hP.part h1
    | test h1 => have := hP.done h1 (Path.here (some pc)); rw [List.append_nil] at this; exact ⟨pc, this⟩
    | stop h1 h2 => subst ho; obtain ⟨pc', h3⟩ := hA.part h2; exact ⟨pc', hP.done h1 (h.pathYes h3)⟩
    | again h1 h2 _ ih => obtain ⟨pc', h3⟩ := ih ho; exact ⟨pc', hP.done h1 (h.pathYes (hA.done h2 h3))⟩
    | leave h1 h2 => subst ho; obtain ⟨pc', h3⟩ := hB.part h2; exact ⟨pc', hP.done h1 (h.pathNo h3)⟩

theorem Region.implements {c : Code} {e : Option Nat} {L : Lang} (h : Region c e none L) : Implements c e L where
  done tr := by
    constructor
    · intro hp
      rcases h.sound hp with ⟨h1, _⟩ | ⟨⟨_, h1⟩, _⟩ | ⟨t₁, t₂, rfl, h1, h2⟩
      · cases h1
      · cases h1
      · cases h2; rw [List.append_nil]; exact h1
    · intro hl
      have := h.done hl (Path.here none)
      rwa [List.append_nil] at this
  failed tr := by
    constructor
    · intro hp
      rcases h.sound hp with ⟨_, h1⟩ | ⟨⟨_, h1⟩, _⟩ | ⟨t₁, t₂, rfl, h1, h2⟩
      · exact h1
      · cases h1
      · cases h2
    · exact h.failed
  part tr := by
    constructor
    · rintro ⟨pc, hp⟩
      rcases h.sound hp with ⟨h1, _⟩ | ⟨_, h1⟩ | ⟨t₁, t₂, rfl, h1, h2⟩
      · cases h1
      · exact h1
      · cases h2
    · exact h.part

end Verif
