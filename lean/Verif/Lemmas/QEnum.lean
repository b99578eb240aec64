import Verif.Lemmas.QLogic
import Verif.Lemmas.QBound

/-! Consumers: trail, logic and enumeration along complete runs. -/

namespace Verif

variable {W A G : Type} [Arith] [QWorld W A G]

/-- The contract of no actions at all. -/
def noActs (p : W → Prop) (h1 : ∀ w, p w → RulesAre (fun r : Rule A => r.query.Clean fun _ _ => False) w)
    (h2 : ∀ w, p w → ∀ grp, ∀ b ∈ QWorld.beliefs w grp, b.isLiteral = true) : ActTrail W A G where
  ok := fun _ _ => False
  settles := fun _ _ _ => false
  winv := p
  rules := h1
  bels := h2
  renam := fun _ _ _ h => h
  inv := fun _ _ _ _ _ => False
  start := fun _ _ _ _ _ _ h => h.elim
  susp := fun _ => False
  closed := fun _ _ _ _ _ _ h => h.elim
  above := fun _ _ _ _ _ h => h.elim

theorem noActs_good {p : W → Prop} {h1 h2} : (noActs (A := A) (G := G) p h1 h2).Good :=
  fun _ _ _ _ _ _ _ _ h => h.elim

theorem Answer.mono {R R' : QSt W → QSt W → Prop} (hR : ∀ s s', R s s' → R' s s') {g : Gen A G} {s s' : QSt W}
    (h : Answer R g s s') : Answer R' g s s' := by
  induction h with
  | now h => exact .now h
  | later h hr _ ih => exact .later h (hR _ _ hr) ih

theorem Drain.mono {R R' : QSt W → QSt W → Prop} (hR : ∀ s s', R s s' → R' s s') {g : Gen A G} {s s' : QSt W}
    {l : List (QSt W)} (h : Drain R g s l s') : Drain R' g s l s' := by
  induction h with
  | stop h => exact .stop h
  | next h hr _ ih => exact .next h (hR _ _ hr) ih

/-- Trail discipline along a complete run. -/
theorem drain_trail {T : ActTrail W A G} (hT : T.Good) {r e : Bool} {b₀ : BSt} {R : QSt W → QSt W → Prop}
    (hR : ∀ s s', R s s' → T.winv s.w → T.winv s'.w ∧ rel r s.b s'.b) {g : Gen A G} {s s' : QSt W} {l : List (QSt W)}
    (h : Drain R g s l s') : T.winv s.w → GInv T g r e b₀ s.b → T.winv s'.w ∧ rel e b₀ s'.b := by
  induction h with
  | stop hn => exact fun hw hg => (gnext_trail hT _ _ _ _ _ _ hw hg).onNone _ hn
  | next hn hr _ ih =>
    intro hw hg
    obtain ⟨h1, h2, h3⟩ := (gnext_trail hT _ _ _ _ _ _ hw hg).onSome _ _ hn
    obtain ⟨h4, h5⟩ := hR _ _ hr h1
    exact ih h4 (h3.closed h2 h5)

/-- Consumers for the logical theorems. -/
def Uses (c cm : Bool) (s s' : QSt W) : Prop := s'.w = s.w ∧ s.nv ≤ s'.nv ∧ rel cm s.b s'.b ∧ Fine c s'

variable {w : W} {c cm : Bool}

theorem answer_logic (hw : KBOK w c) (hcm : cm = true → RulesAre (fun r : Rule A => r.query.GroundAnnots) w)
    {g : Gen A G} {s s' : QSt W} {k : Nat} {b₀ : BSt} {φ : Asg → Prop} (h : Answer (Uses c cm) g s s') :
    ∀ ρ, s.w = w → Fine c s → k ≤ s.nv → QInv w c cm s.nv g k b₀ s.b φ ρ → ∀ σ, Models σ s'.b.scope → φ σ := by
  induction h with
  | now hn =>
    intro ρ h1 h2 h3 h4
    obtain ⟨_, _, _, _, h5, _⟩ := (gnext_logic hw hcm _ _ _ _ _ _ _ h1 h2 h3 h4).onSome _ _ hn
    exact h5
  | later hn hr _ ih =>
    intro ρ h1 h2 h3 h4
    obtain ⟨i1, i2, _, i4, _, ρ', i6, _⟩ := (gnext_logic hw hcm _ _ _ _ _ _ _ h1 h2 h3 h4).onSome _ _ hn
    obtain ⟨j1, j2, j3, j4⟩ := hr
    exact ih ρ' (j1.trans i1) j4 (Nat.le_trans h3 (Nat.le_trans i2 j2)) ((i6.closed i4 j3).mono j2)

theorem drain_logic (hw : KBOK w c) (hcm : RulesAre (fun r : Rule A => r.query.GroundAnnots) w)
    {g : Gen A G} {s s' : QSt W} {l : List (QSt W)} {k : Nat} {b₀ : BSt} {φ : Asg → Prop} (h : Drain (Uses c true) g s l s') :
    ∀ ρ, s.w = w → Fine c s → k ≤ s.nv → QInv w c true s.nv g k b₀ s.b φ ρ → ∀ σ, Models σ b₀.scope → ρ σ →
      ∃ s₁ ∈ l, ∃ σ', EqBelow k σ σ' ∧ Models σ' s₁.b.scope := by
  induction h with
  | stop hn =>
    intro ρ h1 h2 h3 h4 σ hσ hρ
    obtain ⟨_, _, _, _, h5⟩ := (gnext_logic hw (fun _ => hcm) _ _ _ _ _ _ _ h1 h2 h3 h4).onNone _ hn
    exact absurd hρ (h5 rfl σ hσ)
  | next hn hr _ ih =>
    intro ρ h1 h2 h3 h4 σ hσ hρ
    obtain ⟨i1, i2, _, i4, _, ρ', i6, i7⟩ := (gnext_logic hw (fun _ => hcm) _ _ _ _ _ _ _ h1 h2 h3 h4).onSome _ _ hn
    obtain ⟨j1, j2, j3, j4⟩ := hr
    rcases i7 rfl σ hσ hρ with ⟨σ', hh⟩ | hh
    · exact ⟨_, by simp, σ', hh⟩
    · obtain ⟨s₁, hs, hh⟩ := ih ρ' (j1.trans i1) j4 (Nat.le_trans h3 (Nat.le_trans i2 j2)) ((i6.closed i4 j3).mono j2) σ hσ hh
      exact ⟨s₁, by simp [hs], hh⟩

/-- A consumer that does nothing at all is a consumer for the logical theorems. -/
theorem drain_idle (hw : KBOK w c) (hcm : cm = true → RulesAre (fun r : Rule A => r.query.GroundAnnots) w)
    {g : Gen A G} {s s' : QSt W} {l : List (QSt W)} {k : Nat} {b₀ : BSt} {φ : Asg → Prop}
    (h : Drain (fun s s' => s' = s) g s l s') :
    ∀ ρ, s.w = w → Fine c s → k ≤ s.nv → QInv w c cm s.nv g k b₀ s.b φ ρ → Drain (Uses c cm) g s l s' := by
  induction h with
  | stop hn => exact fun _ _ _ _ _ => .stop hn
  | next hn hr _ ih =>
    intro ρ h1 h2 h3 h4
    subst hr
    obtain ⟨i1, i2, i3, i4, _, ρ', i6, _⟩ := (gnext_logic hw hcm _ _ _ _ _ _ _ h1 h2 h3 h4).onSome _ _ hn
    exact .next hn ⟨rfl, Nat.le_refl _, rel_refl _ _, i3⟩ (ih ρ' i1 i3 (Nat.le_trans h3 i2) i6)

/-- There are no rules for the group, and as many beliefs as at the start of the iteration. -/
def Steady (grp : String × Nat) (size : Nat) (w : W) : Prop :=
  QWorld.rules w grp = ([] : List (Rule A)) ∧ (QWorld.beliefs (A := A) (G := G) w grp).length = size

/-- One `next` while looking at beliefs, without rules. -/
theorem bel_next {grp : String × Nat} {t : Term} {size : Nat} :
    ∀ (n : Nat) (rest : List Term) (s : QSt W) (b : BSt), Steady (A := A) (G := G) grp size s.w → Same b s.b →
      (∀ x ∈ rest, x.isLiteral = true) →
      (∀ s', gnext n (.belHead grp t rest size : Gen A G) s = .ok none s' →
        s'.w = s.w ∧ Same b s'.b ∧ OnePerMatch (W := W) t b rest []) ∧
      (∀ g' s', gnext n (.belHead grp t rest size : Gen A G) s = .ok (some g') s' →
        s'.w = s.w ∧ ∃ (b₁ : BSt) (rest' : List Term), g' = .bel b₁.ncp grp t rest' size ∧ Same b b₁ ∧ Above b₁.mark s'.b ∧
          (∀ x ∈ rest', x.isLiteral = true) ∧
          ∀ l : List (QSt W), OnePerMatch t b rest' l → OnePerMatch t b rest (s' :: l))
  | 0, _, _, _, _, _, _ => ⟨nofun, nofun⟩
  | n + 1, rest, s, b, hw, hb, hx => by
    rw [gnext]
    simp only [gstep, hw.2, ne_eq, not_true_eq_false, if_false]
    cases rest with
    | nil =>
      simp only [hw.1]
      cases n with
      | zero => exact ⟨nofun, nofun⟩
      | succ n =>
        simp only [gnext, gstep]
        refine ⟨fun s' h => ?_, nofun⟩
        cases h
        exact ⟨rfl, hb.trans ⟨rfl, Nat.le_succ _⟩, .nil⟩
    | cons x rest =>
      have tr := ua_trail n t x s.b
      have ihn := bel_next (grp := grp) (t := t) (size := size) n rest
      simp only [QSt.onB]
      cases hu : uaStart n t x s.b with
      | oof => exact ⟨nofun, nofun⟩
      | err e b' => exact ⟨nofun, nofun⟩
      | ok o b' =>
        cases o with
        | none =>
          have := tr.none _ hu
          obtain ⟨i1, i2⟩ := ihn { s with b := b' } b hw (hb.trans this) fun x h => hx x (by simp [h])
          refine ⟨fun s' h => ?_, fun g' s' h => ?_⟩
          · obtain ⟨j1, j2, j3⟩ := i1 s' h
            exact ⟨j1, j2, .miss ⟨n, s.b, b', hb, hu⟩ j3⟩
          · obtain ⟨j1, b₁, rest', j2, j3, j4, j5, j6⟩ := i2 g' s' h
            exact ⟨j1, b₁, rest', j2, j3, j4, j5, fun l hl => .miss ⟨n, s.b, b', hb, hu⟩ (j6 l hl)⟩
        | some d =>
          refine ⟨nofun, fun g' s' h => ?_⟩
          cases h
          obtain ⟨rfl, _, h2⟩ := tr.some _ _ hu
          refine ⟨rfl, s.b, rest, rfl, hb, ?_, fun x h => hx x (by simp [h]), fun l hl => .hit ⟨n, s.b, _, hb, hu⟩ hl⟩
          rcases h2 with h2 | ⟨hl, m, r', hev, h2⟩
          · exact h2
          · have hl := hx x (by simp)
            cases x <;> simp [Term.isLiteral] at hl
            cases m <;> simp [evaluate] at hev
            subst hev
            rcases h2 with h2 | ⟨y, h2⟩ <;> cases h2

theorem bel_drain {grp : String × Nat} {t : Term} {size : Nat} {I : W → Prop} {R : QSt W → QSt W → Prop}
    (hI : ∀ w, I w → Steady (A := A) (G := G) grp size w) (hR : ∀ s s', R s s' → I s.w → I s'.w ∧ Above s.b s'.b)
    {b : BSt} {g : Gen A G} {s s' : QSt W} {l : List (QSt W)} (h : Drain R g s l s') : I s.w →
    (∀ rest, g = .belHead grp t rest size → (∀ x ∈ rest, x.isLiteral = true) → Same b s.b →
      I s'.w ∧ Same b s'.b ∧ OnePerMatch t b rest l) ∧
    (∀ rest d, g = .bel d grp t rest size → (∀ x ∈ rest, x.isLiteral = true) →
      (∃ b₁ : BSt, Same b b₁ ∧ d = b₁.ncp ∧ Above b₁.mark s.b) →
      I s'.w ∧ Same b s'.b ∧ OnePerMatch t b rest l) := by
  induction h with
  | @stop n g s s' hn =>
    intro hw
    constructor
    · rintro rest rfl hx hb
      obtain ⟨h1, h2⟩ := (bel_next n rest s b (hI _ hw) hb hx).1 s' hn
      exact ⟨h1 ▸ hw, h2⟩
    · rintro rest d rfl hx ⟨b₁, hb, rfl, ha⟩
      cases n with
      | zero => cases hn
      | succ n =>
        simp only [gnext, gstep] at hn
        obtain ⟨h1, h2⟩ := (bel_next n rest { s with b := uaResume b₁.ncp s.b } b (hI _ hw) (hb.trans (same_reroll ha)) hx).1 s' hn
        exact ⟨h1 ▸ hw, h2⟩
  | @next n g s g' s₁ s₂ l s' hn hr _ ih =>
    intro hw
    have key : ∀ (n : Nat) (rest : List Term) (s : QSt W), I s.w → (∀ x ∈ rest, x.isLiteral = true) → Same b s.b →
        gnext n (.belHead grp t rest size) s = .ok (some g') s₁ → I s'.w ∧ Same b s'.b ∧ OnePerMatch t b rest (s₁ :: l) := by
      intro n rest s hw hx hb hn
      obtain ⟨j1, b₁, rest', rfl, j3, j4, j5, j6⟩ := (bel_next n rest s b (hI _ hw) hb hx).2 g' s₁ hn
      obtain ⟨hw', ha⟩ := hR _ _ hr (j1 ▸ hw)
      obtain ⟨k1, k2, k3⟩ := (ih hw').2 rest' _ rfl j5 ⟨b₁, j3, rfl, j4.trans ha⟩
      exact ⟨k1, k2, j6 l k3⟩
    constructor
    · rintro rest rfl hx hb
      exact key n rest s hw hx hb hn
    · rintro rest d rfl hx ⟨b₁, hb, rfl, ha⟩
      cases n with
      | zero => cases hn
      | succ n =>
        simp only [gnext, gstep] at hn
        exact key n rest { s with b := uaResume b₁.ncp s.b } hw hx (hb.trans (same_reroll ha)) hn

/-- Iterating over the beliefs, from the start of the query. -/
theorem bel_drain_start {f : String} {as xs : List Term} {s s' : QSt W} {l : List (QSt W)} {I : W → Prop}
    {R : QSt W → QSt W → Prop}
    (hI : ∀ w, I w → Steady (A := A) (G := G) (f, as.length) (QWorld.beliefs (A := A) (G := G) s.w (f, as.length)).length w)
    (hR : ∀ s s', R s s' → I s.w → I s'.w ∧ Above s.b s'.b)
    (hbel : ∀ x ∈ QWorld.beliefs (A := A) (G := G) s.w (f, as.length), x.isLiteral = true) (hs : I s.w)
    (h : Drain R (.start (.term (.lit f as xs)) : Gen A G) s l s') :
    I s'.w ∧ Same s.b s'.b ∧ OnePerMatch (.lit f as xs) s.b (QWorld.beliefs (A := A) (G := G) s.w (f, as.length)) l := by
  have key : ∀ l' s₀, Drain R (.belHead (f, as.length) (.lit f as xs) (QWorld.beliefs (A := A) (G := G) s.w (f, as.length))
        (QWorld.beliefs (A := A) (G := G) s.w (f, as.length)).length : Gen A G) s l' s₀ →
      I s₀.w ∧ Same s.b s₀.b ∧ OnePerMatch (.lit f as xs) s.b (QWorld.beliefs (A := A) (G := G) s.w (f, as.length)) l' :=
    fun l' s₀ hd => (bel_drain hI hR hd hs).1 _ rfl hbel ⟨rfl, Nat.le_refl _⟩
  have ne : ∀ (n : Nat) (o : Option (Gen A G)) (s₁ : QSt W), gnext n (.start (.term (.lit f as xs)) : Gen A G) s = .ok o s₁ →
      ∃ m, gnext m (.belHead (f, as.length) (.lit f as xs) (QWorld.beliefs (A := A) (G := G) s.w (f, as.length))
        (QWorld.beliefs (A := A) (G := G) s.w (f, as.length)).length) s = .ok o s₁ := by
    intro n o s₁ hn
    cases n with
    | zero => cases hn
    | succ n =>
      cases n with
      | zero => simp [gnext, gstep, evaluate] at hn
      | succ n => exact ⟨n + 1, by simpa [gnext, gstep, evaluate] using hn⟩
  cases h with
  | stop hn => obtain ⟨m, hm⟩ := ne _ _ _ hn; exact key _ _ (.stop hm)
  | next hn hR hd => obtain ⟨m, hm⟩ := ne _ _ _ hn; exact key _ _ (.next hm hR hd)

/-- Without rules, the generator of a belief query is always suspended in the iteration over the beliefs. -/
theorem bel_some {grp : String × Nat} {t : Term} {size : Nat} : ∀ (n : Nat) (g g' : Gen A G) (s s' : QSt W),
    QWorld.rules s.w grp = ([] : List (Rule A)) → (∃ rest, g = .belHead grp t rest size ∨ ∃ c, g = .bel c grp t rest size) →
    gnext n g s = .ok (some g') s' → s'.w = s.w ∧ ∃ c rest, g' = .bel c grp t rest size
  | 0, _, _, _, _, _, _ => nofun
  | n + 1, g, g', s, s', hr, hg => by
    rw [gnext]
    obtain ⟨rest, rfl | ⟨c, rfl⟩⟩ := hg
    · simp only [gstep]
      split
      · nofun
      cases rest with
      | nil =>
        cases n with
        | zero => nofun
        | succ n => simp [gnext, gstep, hr]
      | cons x rest =>
        simp only [QSt.onB]
        cases hu : uaStart n t x s.b with
        | oof => nofun
        | err e b' => nofun
        | ok o b' =>
          cases o with
          | none => exact bel_some n _ g' { s with b := b' } s' hr ⟨rest, .inl rfl⟩
          | some d => rintro ⟨⟩; exact ⟨rfl, d, rest, rfl⟩
    · exact bel_some n _ g' { s with b := uaResume c s.b } s' hr ⟨rest, .inl rfl⟩

theorem bel_start_some {f : String} {as xs : List Term} {n : Nat} {g : Gen A G} {s s' : QSt W}
    (hr : QWorld.rules s.w (f, as.length) = ([] : List (Rule A)))
    (h : gnext n (.start (.term (.lit f as xs))) s = .ok (some g) s') : s'.w = s.w ∧
      ∃ c rest, g = .bel c (f, as.length) (.lit f as xs) rest (QWorld.beliefs (A := A) (G := G) s.w (f, as.length)).length := by
  cases n with
  | zero => cases h
  | succ n =>
    cases n with
    | zero => simp [gnext, gstep, evaluate] at h
    | succ n =>
      have h : gnext (n + 1) (.belHead (f, as.length) (.lit f as xs) (QWorld.beliefs (A := A) (G := G) s.w (f, as.length))
        (QWorld.beliefs (A := A) (G := G) s.w (f, as.length)).length) s = .ok (some g) s' := by simpa [gnext, gstep, evaluate] using h
      exact bel_some _ _ _ _ _ hr ⟨_, .inl rfl⟩ h

theorem bel_rounds {grp : String × Nat} {t : Term} {size : Nat} {R : QSt W → QSt W → Prop}
    (hR : ∀ s s', R s s' → QWorld.rules s'.w grp = (QWorld.rules s.w grp : List (Rule A))) {g g' : Gen A G} {s s' : QSt W}
    (h : Rounds R g s g' s') : QWorld.rules s.w grp = ([] : List (Rule A)) →
    (∃ c rest, g = .bel c grp t rest size) → ∃ c rest, g' = .bel c grp t rest size := by
  induction h with
  | one hn =>
    rintro hr ⟨c, rest, rfl⟩
    exact (bel_some _ _ _ _ _ hr ⟨rest, .inr ⟨c, rfl⟩⟩ hn).2
  | more hn hr _ ih =>
    rintro hs ⟨c, rest, rfl⟩
    obtain ⟨h1, h2⟩ := bel_some _ _ _ _ _ hs ⟨rest, .inr ⟨c, rfl⟩⟩ hn
    exact ih ((hR _ _ hr).trans (h1 ▸ hs)) h2

theorem bel_start_rounds {f : String} {as xs : List Term} {R : QSt W → QSt W → Prop}
    (hR : ∀ s s', R s s' → QWorld.rules s'.w (f, as.length) = (QWorld.rules s.w (f, as.length) : List (Rule A)))
    {g : Gen A G} {s s' : QSt W} (hr : QWorld.rules s.w (f, as.length) = ([] : List (Rule A)))
    (h : Rounds R (.start (.term (.lit f as xs))) s g s') :
    ∃ c rest, g = .bel c (f, as.length) (.lit f as xs) rest (QWorld.beliefs (A := A) (G := G) s.w (f, as.length)).length := by
  cases h with
  | one hn => exact (bel_start_some hr hn).2
  | more hn h1 h2 =>
    obtain ⟨h3, h4⟩ := bel_start_some hr hn
    exact bel_rounds hR h2 ((hR _ _ h1).trans (h3 ▸ hr)) h4

end Verif
