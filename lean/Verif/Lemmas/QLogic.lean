import Verif.Lemmas.Hered
import Verif.Lemmas.RenameOK
import Verif.Lemmas.AnnotClosed

/-!
# Logical meaning of query generators

Soundness (`cm = false` suffices) and completeness (`cm = true`) in one invariant.
-/

namespace Verif

section
variable {W A G : Type} [Arith] [QWorld W A G]

omit [Arith] in
theorem undo_sub : ∀ {δ : List Entry} {sc : Scope} {x : VarId} {t : Term}, undo δ sc x = some t → sc x = some t
  | [], _, _, _, h => h
  | .cp _ :: δ, _, _, _, h => undo_sub (δ := δ) h
  | .v y :: δ, sc, x, t, h => by
    have := undo_sub (δ := δ) h
    simp only [Scope.erase] at this
    split at this
    · cases this
    · exact this

omit [Arith] in
theorem Above.sub {a b : BSt} (h : Above a b) {x : VarId} {t : Term} (hx : a.scope x = some t) : b.scope x = some t := by
  obtain ⟨δ, _, h2, _⟩ := h
  rw [← h2] at hx
  exact undo_sub hx

theorem Above.models {a b : BSt} (h : Above a b) {σ : Asg} (hm : Models σ b.scope) : Models σ a.scope :=
  fun x t hx => hm x t (h.sub hx)

omit [Arith] in
theorem Above.scopeP {P : Term → Prop} {a b : BSt} (h : Above a b) (hm : ScopeP P b.scope) : ScopeP P a.scope :=
  fun x t hx => hm x t (h.sub hx)

omit [Arith] in
theorem Above.scopeOK {c : Bool} {a b : BSt} (h : Above a b) (hm : ScopeOK c b.scope) : ScopeOK c a.scope :=
  fun x t hx => hm x t (h.sub hx)

theorem rel_models {e : Bool} {a b : BSt} (he : e = true) (h : rel e a b) {σ : Asg} : Models σ b.scope ↔ Models σ a.scope := by
  subst he; exact models_same h

omit [Arith] in
theorem EqBelow.trans {k : Nat} {σ τ υ : Asg} (h : EqBelow k σ τ) (h' : EqBelow k τ υ) : EqBelow k σ υ :=
  fun x hx => (h x hx).trans (h' x hx)

omit [Arith] in
theorem EqBelow.mono {k k' : Nat} {σ τ : Asg} (h : EqBelow k' σ τ) (hk : k ≤ k') : EqBelow k σ τ :=
  fun x hx => h x (Nat.lt_of_lt_of_le hx hk)

omit [Arith] in
theorem EqBelow.refl (k : Nat) (σ : Asg) : EqBelow k σ σ := fun _ _ => rfl

omit [Arith] in
theorem EqBelow.symm {k : Nat} {σ τ : Asg} (h : EqBelow k σ τ) : EqBelow k τ σ := fun x hx => (h x hx).symm

/-- Scope and counter of variables are in order. -/
structure Fine (c : Bool) (s : QSt W) : Prop where
  ok : ScopeOK c s.b.scope
  below : ScopeBelow s.nv s.b.scope

/-- Conditions on a literal that is looked up. -/
structure TermOK (w : W) (c cm : Bool) (t : Term) (grp : String × Nat) (k : Nat) : Prop where
  group : t.group = grp
  lit : t.LitOK c
  wild : t.Parts Term.NoWild ∨ QWorld.rules w grp = []
  bound : t.bound ≤ k
  closed : cm = true → (∀ x ∈ t.annots, x.Closed) ∧ t.annots.Pairwise fun x y => x.val ≠ y.val

omit [Arith] in
theorem TermOK.mono {w : W} {c cm : Bool} {t : Term} {grp : String × Nat} {k k' : Nat} (h : TermOK w c cm t grp k)
    (hk : k ≤ k') : TermOK w c cm t grp k' :=
  ⟨h.group, h.lit, h.wild, Nat.le_trans h.bound hk, h.closed⟩

/-- A belief matches. -/
def BelMatch (σ : Asg) (t b : Term) : Prop := Agree σ t b ∧ AnnotsMatch σ t.annots b.annots

/-- A rule applies. -/
def RuleMatch (w : W) (σ : Asg) (t : Term) (r : Rule A) : Prop :=
  ∃ τ v, Den σ t v ∧ Den τ r.head v ∧ Holds w τ r.query

/-- Invariant of a suspended generator that was started in `b₀`; the state is `b` now,
the consumer respects `rel cm`.  All answers satisfy `φ`; if `cm`, all assignments in
`ρ` will still be covered by an answer, up to variables ≥ `k`. -/
def QInv (w : W) (c cm : Bool) (N : Nat) : Gen A G → Nat → BSt → BSt → (Asg → Prop) → (Asg → Prop) → Prop
  | .start q, k, b₀, b, φ, ρ => q.OK w c ∧ (cm = true → q.GroundAnnots) ∧ q.bound ≤ k ∧ rel cm b₀ b ∧
    (∀ σ, Models σ b.scope → Holds w σ q → φ σ) ∧ (cm = true → ∀ σ, Models σ b₀.scope → ρ σ → Holds w σ q)
  | .done, _, b₀, b, _, ρ => rel cm b₀ b ∧ (cm = true → ∀ σ, Models σ b₀.scope → ¬ ρ σ)
  | .act _, _, _, _, _, _ => False
  | .ua d, _, b₀, b, _, ρ => (∃ b₁, rel cm b₀ b₁ ∧ d = b₁.ncp ∧ Above b₁.mark b) ∧
    (cm = true → ∀ σ, Models σ b₀.scope → ¬ ρ σ)
  | .belHead grp t rest _, _, b₀, b, φ, ρ => TermOK w c cm t grp N ∧ (∀ x ∈ rest, x ∈ QWorld.beliefs w grp) ∧
    rel cm b₀ b ∧ (∀ σ, Models σ b.scope → Holds w σ (.term t) → φ σ) ∧
    (cm = true → ∀ σ, Models σ b₀.scope → ρ σ →
      (∃ x ∈ rest, BelMatch σ t x) ∨ ∃ r ∈ QWorld.rules w grp, RuleMatch w σ t r)
  | .bel d grp t rest _, _, b₀, b, φ, ρ => TermOK w c cm t grp N ∧ (∀ x ∈ rest, x ∈ QWorld.beliefs w grp) ∧
    (∃ b₁, rel cm b₀ b₁ ∧ d = b₁.ncp ∧ Above b₁.mark b ∧ ∀ σ, Models σ b₁.scope → Holds w σ (.term t) → φ σ) ∧
    (cm = true → ∀ σ, Models σ b₀.scope → ρ σ →
      (∃ x ∈ rest, BelMatch σ t x) ∨ ∃ r ∈ QWorld.rules w grp, RuleMatch w σ t r)
  | .ruleHead d t rest, _, b₀, b, φ, ρ => ∃ grp, TermOK w c cm t grp N ∧ (∀ r ∈ rest, r ∈ QWorld.rules w grp) ∧
    rel cm b₀ b ∧ b₀.ncp ≤ d ∧ d < b.ncp ∧ (∀ σ, Models σ b.scope → Holds w σ (.term t) → φ σ) ∧
    (cm = true → ∀ σ, Models σ b₀.scope → ρ σ → ∃ r ∈ rest, RuleMatch w σ t r)
  | .rule d t rest inner, k, b₀, b, φ, ρ => (∃ grp, TermOK w c cm t grp N ∧ (∀ r ∈ rest, r ∈ QWorld.rules w grp)) ∧
    ∃ b₁ b₂ k₂ ρ₂, (∀ σ, Models σ b₁.scope → Holds w σ (.term t) → φ σ) ∧
      rel cm b₀ b₁ ∧ b₀.ncp ≤ d ∧ d < b₁.ncp ∧ Above (b₁.pushCp d) b₂ ∧
      QInv w c cm N inner k₂ b₂ b φ ρ₂ ∧ k ≤ k₂ ∧ k₂ ≤ N ∧
      (cm = true → ∀ σ, Models σ b₀.scope → ρ σ →
        (∃ σ', EqBelow k σ σ' ∧ Models σ' b₂.scope ∧ ρ₂ σ') ∨ ∃ r ∈ rest, RuleMatch w σ t r)
  | .andHead l rq, k, b₀, b, φ, ρ => rq.OK w c ∧ (cm = true → rq.GroundAnnots) ∧ rq.bound ≤ k ∧
    ∃ ρ₁, QInv w c cm N l k b₀ b (fun σ => Holds w σ rq → φ σ) ρ₁ ∧
      (cm = true → ∀ σ, Models σ b₀.scope → ρ σ → ρ₁ σ ∧ Holds w σ rq)
  | .and l rq r, k, b₀, b, φ, ρ => rq.OK w c ∧ (cm = true → rq.GroundAnnots) ∧ rq.bound ≤ k ∧ Susp (fun _ => True) l ∧
    ∃ ρ₁ b₁ k₁ ρ₂, QInv w c cm N l k b₀ b₁ (fun σ => Holds w σ rq → φ σ) ρ₁ ∧ QInv w c cm N r k₁ b₁ b φ ρ₂ ∧ k ≤ k₁ ∧ k₁ ≤ N ∧
      (cm = true → ∀ σ, Models σ b₀.scope → ρ σ →
        (∃ σ', EqBelow k σ σ' ∧ Models σ' b₁.scope ∧ ρ₂ σ') ∨ (ρ₁ σ ∧ Holds w σ rq))
  | .or l rq, k, b₀, b, φ, ρ => rq.OK w c ∧ (cm = true → rq.GroundAnnots) ∧ rq.bound ≤ k ∧
    ∃ b₁ ρ₁, rel cm b₀ b₁ ∧ QInv w c cm N l k b₁ b φ ρ₁ ∧ (∀ σ, Models σ b₁.scope → Holds w σ rq → φ σ) ∧
      (cm = true → ∀ σ, Models σ b₀.scope → ρ σ → ρ₁ σ ∨ Holds w σ rq)

theorem QInv.above {w : W} {c cm : Bool} {N : Nat} : ∀ {g : Gen A G} {k : Nat} {b₀ b : BSt} {φ ρ : Asg → Prop},
    QInv w c cm N g k b₀ b φ ρ → Above b₀ b
  | .start _, _, _, _, _, _, h => rel_above h.2.2.2.1
  | .done, _, _, _, _, _, h => rel_above h.1
  | .ua _, _, _, _, _, _, ⟨⟨_, h1, _, h2⟩, _⟩ => (rel_above h1).trans ((above_mark _).trans h2)
  | .belHead .., _, _, _, _, _, h => rel_above h.2.2.1
  | .bel .., _, _, _, _, _, ⟨_, _, ⟨_, h1, _, h2, _⟩, _⟩ => (rel_above h1).trans ((above_mark _).trans h2)
  | .ruleHead .., _, _, _, _, _, ⟨_, _, _, h, _⟩ => rel_above h
  | .rule .., _, _, _, _, _, ⟨_, _, _, _, _, _, h1, h2, h3, h4, h5, _⟩ =>
    (above_push h3 h2 (rel_above h1)).trans (h4.trans (QInv.above h5))
  | .andHead .., _, _, _, _, _, ⟨_, _, _, _, h, _⟩ => QInv.above h
  | .and .., _, _, _, _, _, ⟨_, _, _, _, _, _, _, _, h1, h2, _⟩ => (QInv.above h1).trans (QInv.above h2)
  | .or .., _, _, _, _, _, ⟨_, _, _, _, _, h1, h2, _⟩ => (rel_above h1).trans (QInv.above h2)

/-- Changes by the consumer are tolerated. -/
theorem QInv.closed {w : W} {c cm : Bool} {N : Nat} : ∀ {g : Gen A G} {k : Nat} {b₀ b b' : BSt} {φ ρ : Asg → Prop},
    QInv w c cm N g k b₀ b φ ρ → Susp (fun _ => True) g → rel cm b b' → QInv w c cm N g k b₀ b' φ ρ
  | .done, _, _, _, _, _, _, h, _, hb => ⟨rel_trans h.1 hb, h.2⟩
  | .ua _, _, _, _, _, _, _, ⟨⟨b₁, h1, h2, h3⟩, h4⟩, _, hb => ⟨⟨b₁, h1, h2, h3.trans (rel_above hb)⟩, h4⟩
  | .bel .., _, _, _, _, _, _, ⟨i1, i2, ⟨b₁, h1, h2, h3, h5⟩, h4⟩, _, hb =>
    ⟨i1, i2, ⟨b₁, h1, h2, h3.trans (rel_above hb), h5⟩, h4⟩
  | .rule .., _, _, _, _, _, _, ⟨i1, b₁, b₂, k₂, ρ₂, i2, h1, h2, h3, h4, h5, h6⟩, hs, hb =>
    ⟨i1, b₁, b₂, k₂, ρ₂, i2, h1, h2, h3, h4, QInv.closed h5 hs hb, h6⟩
  | .and .., _, _, _, _, _, _, ⟨i1, i2, i3, i4, ρ₁, b₁, k₁, ρ₂, h1, h2, h3⟩, hs, hb =>
    ⟨i1, i2, i3, i4, ρ₁, b₁, k₁, ρ₂, h1, QInv.closed h2 hs.2 hb, h3⟩
  | .or .., _, _, _, _, _, _, ⟨i1, i2, i3, b₁, ρ₁, h0, h1, h2⟩, hs, hb =>
    ⟨i1, i2, i3, b₁, ρ₁, h0, QInv.closed h1 hs hb, h2⟩

theorem QInv.mono {w : W} {c cm : Bool} {N N' : Nat} (hN : N ≤ N') : ∀ {g : Gen A G} {k : Nat} {b₀ b : BSt} {φ ρ : Asg → Prop},
    QInv w c cm N g k b₀ b φ ρ → QInv w c cm N' g k b₀ b φ ρ
  | .start _, _, _, _, _, _, h | .done, _, _, _, _, _, h | .ua _, _, _, _, _, _, h => h
  | .belHead .., _, _, _, _, _, ⟨h, h'⟩ | .bel .., _, _, _, _, _, ⟨h, h'⟩ => ⟨h.mono hN, h'⟩
  | .ruleHead .., _, _, _, _, _, ⟨grp, h, h'⟩ => ⟨grp, h.mono hN, h'⟩
  | .rule .., _, _, _, _, _, ⟨⟨grp, i0, i1⟩, b₁, b₂, k₂, ρ₂, i2, h1, h2, h3, h4, h5, h6, h7, h8⟩ =>
    ⟨⟨grp, i0.mono hN, i1⟩, b₁, b₂, k₂, ρ₂, i2, h1, h2, h3, h4, QInv.mono hN h5, h6, Nat.le_trans h7 hN, h8⟩
  | .andHead .., _, _, _, _, _, ⟨i1, i2, i3, ρ₁, h1, h2⟩ => ⟨i1, i2, i3, ρ₁, QInv.mono hN h1, h2⟩
  | .and .., _, _, _, _, _, ⟨i1, i2, i3, i4, ρ₁, b₁, k₁, ρ₂, h1, h2, h3, h4, h5⟩ =>
    ⟨i1, i2, i3, i4, ρ₁, b₁, k₁, ρ₂, QInv.mono hN h1, QInv.mono hN h2, h3, Nat.le_trans h4 hN, h5⟩
  | .or .., _, _, _, _, _, ⟨i1, i2, i3, b₁, ρ₁, h0, h1, h2⟩ => ⟨i1, i2, i3, b₁, ρ₁, h0, QInv.mono hN h1, h2⟩

/-- What `next` must do. -/
structure QOut (w : W) (c cm : Bool) (N k : Nat) (b₀ : BSt) (φ ρ : Asg → Prop)
    (x : Res (QSt W) (Option (Gen A G))) : Prop where
  onNone : ∀ s', x = .ok none s' → s'.w = w ∧ N ≤ s'.nv ∧ Fine c s' ∧ rel cm b₀ s'.b ∧
    (cm = true → ∀ σ, Models σ b₀.scope → ¬ ρ σ)
  onSome : ∀ g' s', x = .ok (some g') s' → s'.w = w ∧ N ≤ s'.nv ∧ Fine c s' ∧ Susp (fun _ => True) g' ∧
    (∀ σ, Models σ s'.b.scope → φ σ) ∧ ∃ ρ', QInv w c cm s'.nv g' k b₀ s'.b φ ρ' ∧
    (cm = true → ∀ σ, Models σ b₀.scope → ρ σ → (∃ σ', EqBelow k σ σ' ∧ Models σ' s'.b.scope) ∨ ρ' σ)

variable {w : W} {c cm : Bool}

theorem QOut.oof {N k : Nat} {b₀ : BSt} {φ ρ : Asg → Prop} : QOut (A := A) (G := G) w c cm N k b₀ φ ρ .oof := ⟨nofun, nofun⟩

theorem QOut.err {N k : Nat} {b₀ : BSt} {φ ρ : Asg → Prop} {e : Err} {s : QSt W} :
    QOut (A := A) (G := G) w c cm N k b₀ φ ρ (.err e s) := ⟨nofun, nofun⟩

theorem QOut.mkNone {N k : Nat} {b₀ : BSt} {φ ρ : Asg → Prop} {s : QSt W} (h1 : s.w = w) (h2 : N ≤ s.nv) (h3 : Fine c s)
    (h4 : rel cm b₀ s.b) (h5 : cm = true → ∀ σ, Models σ b₀.scope → ¬ ρ σ) :
    QOut (A := A) (G := G) w c cm N k b₀ φ ρ (.ok none s) :=
  ⟨fun s' h => by cases h; exact ⟨h1, h2, h3, h4, h5⟩, nofun⟩

theorem QOut.mkSome {N k : Nat} {b₀ : BSt} {φ ρ : Asg → Prop} {s : QSt W} {g : Gen A G} (ρ' : Asg → Prop) (h1 : s.w = w)
    (h2 : N ≤ s.nv) (h3 : Fine c s) (h4 : Susp (fun _ => True) g) (h5 : ∀ σ, Models σ s.b.scope → φ σ) (h6 : QInv w c cm s.nv g k b₀ s.b φ ρ')
    (h7 : cm = true → ∀ σ, Models σ b₀.scope → ρ σ → (∃ σ', EqBelow k σ σ' ∧ Models σ' s.b.scope) ∨ ρ' σ) :
    QOut (A := A) (G := G) w c cm N k b₀ φ ρ (.ok (some g) s) :=
  ⟨nofun, fun g' s' h => by cases h; exact ⟨h1, h2, h3, h4, h5, ρ', h6, h7⟩⟩

/-- More general: fewer solutions demanded, earlier counter. -/
theorem QOut.weaken {N N' k : Nat} {b₀ : BSt} {φ ρ ρ' : Asg → Prop} {x : Res (QSt W) (Option (Gen A G))}
    (h : QOut w c cm N' k b₀ φ ρ x) (hN : N ≤ N') (hρ : cm = true → ∀ σ, Models σ b₀.scope → ρ' σ → ρ σ) :
    QOut w c cm N k b₀ φ ρ' x where
  onNone := fun s' hx => by
    obtain ⟨h1, h2, h3, h4, h5⟩ := h.onNone s' hx
    exact ⟨h1, Nat.le_trans hN h2, h3, h4, fun hc σ hσ hh => h5 hc σ hσ (hρ hc σ hσ hh)⟩
  onSome := fun g' s' hx => by
    obtain ⟨h1, h2, h3, h4, h5, ρ'', h6, h7⟩ := h.onSome g' s' hx
    exact ⟨h1, Nat.le_trans hN h2, h3, h4, h5, ρ'', h6, fun hc σ hσ hh => h7 hc σ hσ (hρ hc σ hσ hh)⟩

/-- Every run of `rec` is correct. -/
def LogicRec (w : W) (c cm : Bool) (rec : Gen A G → QSt W → Res (QSt W) (Option (Gen A G))) : Prop :=
  ∀ g s k b₀ φ ρ, s.w = w → Fine c s → k ≤ s.nv → QInv w c cm s.nv g k b₀ s.b φ ρ → QOut w c cm s.nv k b₀ φ ρ (rec g s)

theorem QOut.onNext {N k N' k' : Nat} {b₀ b₁ : BSt} {φ ρ ψ ρ₁ : Asg → Prop} {x : Res (QSt W) (Option (Gen A G))}
    {f : Gen A G → QSt W → Res (QSt W) (Option (Gen A G))} {l : QSt W → Res (QSt W) (Option (Gen A G))}
    (h : QOut w c cm N' k' b₁ ψ ρ₁ x)
    (hs : ∀ g' s' ρ', s'.w = w → N' ≤ s'.nv → Fine c s' → Susp (fun _ => True) g' → (∀ σ, Models σ s'.b.scope → ψ σ) →
      QInv w c cm s'.nv g' k' b₁ s'.b ψ ρ' →
      (cm = true → ∀ σ, Models σ b₁.scope → ρ₁ σ → (∃ σ', EqBelow k' σ σ' ∧ Models σ' s'.b.scope) ∨ ρ' σ) →
      QOut w c cm N k b₀ φ ρ (f g' s'))
    (hn : ∀ s', s'.w = w → N' ≤ s'.nv → Fine c s' → rel cm b₁ s'.b → (cm = true → ∀ σ, Models σ b₁.scope → ¬ ρ₁ σ) →
      QOut w c cm N k b₀ φ ρ (l s')) :
    QOut w c cm N k b₀ φ ρ (x.onNext f l) := by
  cases x with
  | oof => exact .oof
  | err ex s' => exact .err
  | ok o s' =>
    cases o with
    | none => obtain ⟨h1, h2, h3, h4, h5⟩ := h.onNone s' rfl; exact hn s' h1 h2 h3 h4 h5
    | some g' =>
      obtain ⟨h1, h2, h3, h4, h5, ρ', h6, h7⟩ := h.onSome g' s' rfl
      exact hs g' s' ρ' h1 h2 h3 h4 h5 h6 h7

/-- What annotated unification does for a goal: sound, and complete if `cm`. -/
structure UaSC (c cm : Bool) (goal : Asg → Prop) (b : BSt) (x : Res BSt (Option Nat)) : Prop where
  yes : ∀ d b', x = .ok (some d) b' → ScopeOK c b'.scope ∧ (∀ σ, Models σ b'.scope → Models σ b.scope ∧ goal σ) ∧
    (cm = true → ∀ σ, Models σ b.scope → goal σ → Models σ b'.scope)
  no : ∀ b', x = .ok none b' → cm = true → ∀ σ, Models σ b.scope → ¬ goal σ

omit [QWorld W A G] in
theorem UaSC.of_ok {goal : Asg → Prop} {b : BSt} {x : Res BSt (Option Nat)} (h : UaOK c goal b x) : UaSC c cm goal b x where
  yes := fun d b' hb => ⟨(h.yes d b' hb).1, fun σ => ((h.yes d b' hb).2 σ).1, fun _ σ h1 h2 => ((h.yes d b' hb).2 σ).2 ⟨h1, h2⟩⟩
  no := fun b' hb _ => h.no b' hb

omit [QWorld W A G] in
theorem UaSC.lit {n : Nat} {l r : Term} {b : BSt} (hsc : ScopeOK c b.scope) (hl : l.LitOK c) (hr : r.Parts (Term.Tame c))
    (hc : LitCompat l r) (hx : cm = true → (∀ x ∈ l.annots, x.Closed) ∧ (l.annots.Pairwise fun x y => x.val ≠ y.val) ∧
      ∀ y ∈ r.annots, y.Closed) :
    UaSC c cm (fun σ => Agree σ l r ∧ AnnotsMatch σ l.annots r.annots) b (uaStart n l r b) := by
  cases l <;> simp only [Term.LitOK] at hl
  rename_i f as xs
  cases r <;> simp only [Term.Parts] at hr
  rename_i g bs ys
  cases cm with
  | true =>
    obtain ⟨h1, h2, h3⟩ := hx rfl
    exact .of_ok (ua_lit_closed hsc hl hr hc h1 h3 h2)
  | false =>
    constructor
    · intro d b' h
      obtain ⟨h1, zs, h2, h3⟩ := ua_lit hsc hl hr hc h
      exact ⟨h1, fun σ hσ => ⟨((h3 σ).1 hσ).1, ((h3 σ).1 hσ).2.1, zs, h2, ((h3 σ).1 hσ).2.2⟩, nofun⟩
    · nofun

omit [Arith] [QWorld W A G] in
theorem Term.LitOK.isLiteral {t : Term} (h : t.LitOK c) : t.isLiteral = true := by
  cases t <;> simp_all [Term.LitOK, Term.isLiteral]

/-- Queries against one belief. -/
theorem ua_belief (hw : KBOK w c) {n : Nat} {t x : Term} {grp : String × Nat} {k : Nat} {b : BSt}
    (ht : TermOK w c cm t grp k) (hx : x ∈ QWorld.beliefs w grp) (hsc : ScopeOK c b.scope) :
    UaSC c cm (BelMatch · t x) b (uaStart n t x b) := by
  obtain ⟨_, h2, h3, _⟩ := hw.belief _ _ hx
  refine UaSC.lit hsc ht.lit h3 (Or.inr (Or.inr h2)) fun hc => ⟨(ht.closed hc).1, (ht.closed hc).2, h2.closed_lit.2⟩

/-- The query `l = r`. -/
theorem ua_unify {n : Nat} {l r : Term} {b : BSt} (h : (Query.unify (A := A) l r).OK w c)
    (hg : cm = true → (Query.unify (A := A) l r).GroundAnnots) (hsc : ScopeOK c b.scope) :
    UaSC c cm (fun σ => Holds w σ (.unify l r : Query A)) b (uaStart n l r b) := by
  simp only [holds_unify_iff]
  rcases h with ⟨h1, h2, h3, h4, h5, _⟩ | ⟨h1, h2, h3, h4⟩
  · have := ua_plain (n := n) hsc h2 h3 (Or.inl ⟨h4, h5⟩) h1
    rw [h1]
    have e : ∀ σ : Asg, (Agree σ l r ∧ (l.isLiteral = true → r.isLiteral = true → AnnotsMatch σ [] r.annots)) ↔ Agree σ l r :=
      fun σ => ⟨fun h => h.1, fun h => ⟨h, fun _ _ => ⟨[], ⟨_, .refl _⟩, rfl, by simp⟩⟩⟩
    simp only [e]
    exact .of_ok this
  · have e : l.isLiteral = true ∧ r.isLiteral = true := by
      refine ⟨h1.isLiteral, ?_⟩
      cases r <;> simp_all [Term.Parts, Term.isLiteral]
    simp only [e, true_imp_iff]
    exact UaSC.lit hsc h1 h2 (Or.inl ⟨h3, h4⟩) hg

omit [Arith] [QWorld W A G] in
theorem ScopeBelow.mono {k k' : Nat} {sc : Scope} (h : ScopeBelow k sc) (hk : k ≤ k') : ScopeBelow k' sc :=
  fun x t hx => ⟨Nat.lt_of_lt_of_le (h x t hx).1 hk, Nat.le_trans (h x t hx).2 hk⟩

omit [Arith] [QWorld W A G] in
theorem Fine.back {s s' : QSt W} (h : Fine c s) (hb : Above s'.b s.b) (hn : s.nv ≤ s'.nv) : Fine c s' :=
  ⟨hb.scopeOK h.ok, ScopeBelow.mono (scopeBelow_iff.2 (hb.scopeP (scopeBelow_iff.1 h.below))) hn⟩

omit [Arith] [QWorld W A G] in
theorem Fine.same {s s' : QSt W} (h : Fine c s) (hb : s'.b.scope = s.b.scope) (hn : s.nv ≤ s'.nv) : Fine c s' :=
  ⟨by simpa [hb] using h.ok, by simpa [hb] using h.below.mono hn⟩

omit [Arith] [QWorld W A G] in
theorem Fine.reroll {s s' : QSt W} {b : BSt} (h : Fine c s) (hb : Above b s.b) (hs : Same b s'.b) (hn : s.nv ≤ s'.nv) : Fine c s' :=
  (h.back (s' := { s with b := b }) hb (Nat.le_refl _)).same hs.scope hn

omit [QWorld W A G] in
/-- Unification of two literals, whatever their annotations. -/
theorem unify_lits {n : Nat} {l r : Term} {b : BSt} (hsc : ScopeOK c b.scope) (hl : l.LitOK c) (hr : r.Parts (Term.Tame c))
    (hc : LitCompat l r) : UOK c (Agree · l r) b (unify n l r b) := by
  cases l <;> simp only [Term.LitOK] at hl
  cases r <;> simp only [Term.Parts] at hr
  cases n with
  | zero => simp only [unify]; exact UOK.oof
  | succ n =>
    have := fun xs ys => litlit_ok (n := n) (b := b) (xs := xs) (ys := ys) hsc hl.1 hr.1 hc.args.1
    simpa [unify, Term.isObj, methUnify] using this _ _

/-- Assignment for the variables of a fresh copy of a rule. -/
def extend (N : Nat) (σ τ : Asg) : Asg := fun x => if x < N then σ x else τ (x - N)

omit [Arith] [QWorld W A G] in
theorem extend_eqBelow (N : Nat) (σ τ : Asg) : EqBelow N σ (extend N σ τ) := fun x hx => by simp [extend, hx]

omit [Arith] [QWorld W A G] in
theorem extend_add (N : Nat) (σ τ : Asg) (x : Nat) : extend N σ τ (N + x) = τ x := by
  simp [extend, Nat.add_sub_cancel_left, Nat.not_lt.2 (Nat.le_add_right N x)]

omit [Arith] [QWorld W A G] in
theorem Term.Parts.isLit {p : Term → Prop} {t : Term} (h : t.Parts p) : t.isLiteral = true := by
  cases t <;> simp_all [Term.Parts, Term.isLiteral]

omit [QWorld W A G] in
theorem group_of_den {σ τ : Asg} {f : String} {as xs : List Term} {u : Term} {v : Val} (hu : u.isLiteral = true)
    (h : Den σ (.lit f as xs) v) (h' : Den τ u v) : (f, as.length) = u.group := by
  cases u <;> simp [Term.isLiteral] at hu
  obtain ⟨w, h1, rfl⟩ := h
  obtain ⟨w', h1', e⟩ := h'
  simp at e
  obtain ⟨rfl, rfl⟩ := e
  simp [Term.group, ← denL_len h1, ← denL_len h1']

omit [QWorld W A G] in
theorem group_of_agree {σ : Asg} {f : String} {as xs : List Term} {u : Term} (hu : u.isLiteral = true)
    (h : Agree σ (.lit f as xs) u) : u.group = (f, as.length) := by
  obtain ⟨v, h1, h2⟩ := h
  exact (group_of_den hu h1 h2).symm

omit [Arith] [QWorld W A G] in
theorem tame_annots {t : Term} (h : t.Tame true) : t.annots = [] := by
  cases t with
  | lit f as xs => rw [Term.tame_lit] at h; simpa [Term.annots] using h.1
  | _ => rfl

/-- The query of a term and of its evaluated form. -/
theorem holds_term_eval {sc : Scope} {t t' : Term} (he : EvalOK true sc t t') (hl : ¬ t.isLiteral = true) {σ : Asg}
    (hσ : Models σ sc) : Holds w σ (.term t : Query A) ↔ Holds w σ (.term t') := by
  have ha := he.den σ hσ
  have h1 : t.annots = [] := by cases t <;> simp_all [Term.isLiteral, Term.annots]
  have h2 := tame_annots he.tame
  rw [holds_term_iff, holds_term_iff, h1, h2]
  simp only [Agree, ha]

/-- How a literal can be true. -/
theorem lit_cases (hw : KBOK w c) {f : String} {as xs : List Term} {σ : Asg} (h : Holds w σ (.term (.lit f as xs) : Query A)) :
    (∃ x ∈ QWorld.beliefs w (f, as.length), BelMatch σ (.lit f as xs) x) ∨
      ∃ r ∈ QWorld.rules w (f, as.length), RuleMatch w σ (.lit f as xs) r := by
  rw [holds_term_iff] at h
  rcases h with hd | ⟨grp, b, hb, hm⟩ | ⟨grp, r, hr, τ, v, hv⟩
  · simp [Den] at hd
  · obtain ⟨i1, i2, i3⟩ := hw.belief _ _ hb
    refine Or.inl ⟨b, ?_, hm⟩
    rw [← i1, group_of_agree i2.isLit hm.1] at hb
    exact hb
  · obtain ⟨i1, i2, i3, i4⟩ := hw.rule _ _ hr
    refine Or.inr ⟨r, ?_, τ, v, hv⟩
    rw [← i1, ← group_of_den i2.isLit hv.1 hv.2.1] at hr
    exact hr

omit [QWorld W A G] in
theorem den_lit_app {σ : Asg} {t : Term} {v : Val} (ht : t.isLiteral = true) (h : Den σ t v) : ∃ f w, v = .app f w := by
  cases t <;> simp [Term.isLiteral] at ht
  obtain ⟨w, _, rfl⟩ := h
  exact ⟨_, _, rfl⟩

theorem not_holds_false (hw : KBOK w c) {σ : Asg} : ¬ Holds w σ (.term (.bool false) : Query A) := by
  intro h
  rw [holds_term_iff] at h
  rcases h with hd | ⟨grp, b, hb, ⟨v, h1, h2⟩, _⟩ | ⟨grp, r, hr, τ, v, h1, h2, _⟩
  · simp [Den] at hd
  · obtain ⟨f, u, rfl⟩ := den_lit_app (hw.belief _ _ hb).2.1.isLit h2
    simp [Den] at h1
  · obtain ⟨f, u, rfl⟩ := den_lit_app (hw.rule _ _ hr).2.1.isLit h2
    simp [Den] at h1

/-- Trying one rule. -/
theorem rule_unify (hw : KBOK w c) {t : Term} {grp : String × Nat} {N : Nat} {r : Rule A} (ht : TermOK w c cm t grp N)
    (hr : r ∈ QWorld.rules w grp) {n : Nat} {b : BSt} (hsc : ScopeOK c b.scope) :
    UOK c (Agree · t (r.deepcopy N).head) b (unify n t (r.deepcopy N).head b) := by
  have hnw : t.Parts Term.NoWild := ht.wild.resolve_right (fun h => by rw [h] at hr; cases hr)
  obtain ⟨_, h2, h3, _⟩ := hw.rule _ _ hr
  exact unify_lits hsc ht.lit (Term.parts_rename (fun _ h => Term.tame_rename.2 h) h3)
    (Or.inl ⟨hnw, Term.parts_rename (fun _ h => Term.noWild_rename.2 h) h2⟩)

/-- A fresh copy of a rule is used with the assignment extended. -/
theorem rule_extend (hw : KBOK w c) {t : Term} {N : Nat} {r : Rule A} (ht : t.bound ≤ N) {sc : Scope} (hsc : ScopeBelow N sc)
    {σ : Asg} (hσ : Models σ sc) (hm : RuleMatch w σ t r) :
    ∃ σ', EqBelow N σ σ' ∧ Models σ' sc ∧ Agree σ' t (r.deepcopy N).head ∧ Holds w σ' (r.deepcopy N).query := by
  obtain ⟨τ, v, h1, h2, h3⟩ := hm
  have e := extend_eqBelow N σ τ
  refine ⟨extend N σ τ, e, models_congr hsc e hσ, ⟨v, ?_, ?_⟩, ?_⟩
  · exact (den_congr t (e.mono ht) v).1 h1
  · exact (den_ren (fun x _ => extend_add N σ τ x) v).2 h2
  · exact (holds_ren hw fun x _ => extend_add N σ τ x).2 h3

/-- The other way round. -/
theorem rule_sound (hw : KBOK w c) {t : Term} {N : Nat} {r : Rule A} {grp : String × Nat} (hr : r ∈ QWorld.rules w grp) {σ : Asg}
    (h1 : Agree σ t (r.deepcopy N).head) (h2 : Holds w σ (r.deepcopy N).query) : Holds w σ (.term t : Query A) := by
  obtain ⟨v, h1, h1'⟩ := h1
  exact .rule (τ := fun x => σ (N + x)) hr h1 ((den_rename _ _).1 h1') ((holds_ren hw fun x _ => rfl).1 h2)

theorem gstep_logic (hw : KBOK w c) (hcm : cm = true → RulesAre (fun r : Rule A => r.query.GroundAnnots) w) {n : Nat}
    {rec : Gen A G → QSt W → Res (QSt W) (Option (Gen A G))}
    (ih : LogicRec w c cm rec) : LogicRec w c cm (gstep n rec) := by
  intro g s k b₀ φ ρ hsw hf hk h
  have ua : ∀ (l t : Term) (f : Nat → Gen A G) (kk : QSt W → Res (QSt W) (Option (Gen A G))) (goal ρ' : Asg → Prop),
      rel cm b₀ s.b → l.bound ≤ s.nv → t.bound ≤ s.nv →
      (l.isLiteral = true → ∀ n t', evaluate n s.b.scope t = .ok t' → t' ≠ .wild ∧ ∀ y, t' ≠ .var y) →
      UaSC c cm goal s.b (uaStart n l t s.b) →
      (∀ c, Susp (fun _ => True) (f c)) → (∀ b, Above s.b.mark b → QInv w c cm s.nv (f s.b.ncp) k b₀ b φ ρ') →
      (∀ σ, Models σ s.b.scope → goal σ → φ σ) → (cm = true → ∀ σ, Models σ b₀.scope → ρ σ → goal σ ∨ ρ' σ) →
      (∀ s' : QSt W, s'.w = w → s.nv = s'.nv → Fine c s' → Same s.b s'.b → QOut w c cm s.nv k b₀ φ ρ' (kk s')) →
      QOut w c cm s.nv k b₀ φ ρ ((s.onB (uaStart n l t)).onNext (fun c s => .ok (some (f c)) s) kk) := by
    intro l t f kk goal ρ' hb hl ht hv hsc hfs hg hφ hρ hkk
    have tr := ua_trail n l t s.b
    have below := ua_P (hered_bound s.nv) n l t s.b
    unfold QSt.onB
    cases hx : uaStart n l t s.b with
    | oof => exact .oof
    | err ex b' => exact .err
    | ok o b' =>
      cases o with
      | none =>
        have hsame := tr.none _ hx
        refine (hkk { s with b := b' } hsw rfl (hf.same hsame.scope (Nat.le_refl _)) hsame).weaken (Nat.le_refl _) ?_
        intro hc σ hσ hh
        exact (hρ hc σ hσ hh).resolve_left (hsc.no _ hx hc σ ((rel_models hc hb).2 hσ))
      | some d =>
        obtain ⟨rfl, _, h2⟩ := tr.some _ _ hx
        have ha : Above s.b.mark b' := by
          rcases h2 with h2 | ⟨hl, m, r', hev, h2⟩
          · exact h2
          · have := hv hl m r' hev
            rcases h2 with rfl | ⟨y, rfl⟩
            · exact absurd rfl this.1
            · exact absurd rfl (this.2 y)
        obtain ⟨i1, i2, i3⟩ := hsc.yes _ _ hx
        refine .mkSome ρ' hsw (Nat.le_refl _) ⟨i1, below b' hf.below hl ht (Or.inl ⟨_, hx⟩)⟩ (hfs _) ?_ (hg _ ha) ?_
        · intro σ hσ
          exact hφ σ (i2 σ hσ).1 (i2 σ hσ).2
        · intro hc σ hσ hh
          rcases hρ hc σ hσ hh with hh | hh
          · exact Or.inl ⟨σ, .refl _ _, i3 hc σ ((rel_models hc hb).2 hσ) hh⟩
          · exact Or.inr hh
  have evlit : ∀ (sc : Scope) (m : Nat) (f : String) (as xs : List Term) (t' : Term), evaluate m sc (.lit f as xs) = .ok t' →
      t' = .lit f as xs := by
    intro sc m f as xs t' hh
    cases m <;> simp [evaluate] at hh
    exact hh.symm
  unfold gstep
  split
  · -- done
    exact .mkNone hsw (Nat.le_refl _) hf h.1 h.2
  · -- true
    obtain ⟨h1, h2, h3, h4, h5, h6⟩ := h
    exact .mkSome (g := .done) (fun _ => False) hsw (Nat.le_refl _) hf trivial (fun σ hσ => h5 σ hσ .tru) ⟨h4, by simp⟩
      (fun hc σ hσ _ => Or.inl ⟨σ, .refl _ _, (rel_models hc h4).2 hσ⟩)
  · -- false
    obtain ⟨h1, h2, h3, h4, h5, h6⟩ := h
    exact .mkNone hsw (Nat.le_refl _) hf h4 (fun hc σ hσ hh => nomatch h6 hc σ hσ hh)
  · exact absurd h.1 (by simp [Query.OK])
  · exact absurd h (by simp [QInv])
  · -- term
    rename_i t
    obtain ⟨h1, h2, h3, h4, h5, h6⟩ := h
    cases hx : evaluate n s.b.scope t with
    | oof => exact .oof
    | err ex => exact .err
    | ok t' =>
      simp only [Res.lift_ok, Res.bind_ok]
      simp only [Query.OK] at h1
      have below : t'.bound ≤ s.nv := evaluate_P (hered_bound s.nv) hf.below (Nat.le_trans h3 hk) hx
      by_cases hl : t.isLiteral = true
      · rw [if_pos hl] at h1
        cases t <;> simp [Term.isLiteral] at hl
        rename_i f as xs
        rw [evlit _ _ _ _ _ _ hx]
        refine ih _ _ _ _ _ _ hsw hf hk ⟨⟨rfl, h1.1, h1.2, Nat.le_trans h3 hk, h2⟩, by simp [hsw], h4, h5, fun hc σ hσ hh => ?_⟩
        simp only [hsw]
        exact lit_cases hw (h6 hc σ hσ hh)
      · rw [if_neg hl] at h1
        obtain ⟨rfl, h1, h1'⟩ := h1
        have he := evaluate_spec hf.ok h1' hx
        split
        · exact .mkSome (g := .done) (fun _ => False) hsw (Nat.le_refl _) hf trivial
            (fun σ hσ => h5 σ hσ (.bool ((he.den σ hσ _).2 rfl))) ⟨h4, by simp⟩
            (fun hc σ hσ _ => Or.inl ⟨σ, .refl _ _, (rel_models hc h4).2 hσ⟩)
        · refine .mkNone hsw (Nat.le_refl _) hf h4 (fun hc σ hσ hh => ?_)
          exact not_holds_false hw ((holds_term_eval he hl ((rel_models hc h4).2 hσ)).1 (h6 hc σ hσ hh))
        · rename_i f as xs
          have hxs : xs = [] := tame_annots (t := .lit f as xs) he.tame
          subst hxs
          have ht := he.tame
          have hnw := he.noWild h1
          rw [Term.tame_lit] at ht
          refine ih _ _ _ _ _ _ hsw hf hk ⟨⟨rfl, ⟨ht.2, by simp⟩, Or.inl ⟨by simpa using hnw, by simp⟩, below, fun _ => ⟨by simp [Term.annots], by simp [Term.annots]⟩⟩,
            by simp [hsw], h4, fun σ hσ hh => h5 σ hσ ((holds_term_eval he hl hσ).2 hh), fun hc σ hσ hh => ?_⟩
          simp only [hsw]
          exact lit_cases hw ((holds_term_eval he hl ((rel_models hc h4).2 hσ)).1 (h6 hc σ hσ hh))
        · exact .err
  · -- belHead
    rename_i grp t rest size
    obtain ⟨h1, h2, h3, h4, h5⟩ := h
    split
    · exact .err
    · split
      · refine ih (.ruleHead ..) { s with b := s.b.newCp.2 } _ _ _ _ hsw (hf.same rfl (Nat.le_refl _)) hk ⟨grp, h1, by rw [hsw]; exact fun _ h => h, ?_, above_ncp (rel_above h3), Nat.lt_succ_self _, h4, ?_⟩
        · exact rel_trans h3 (rel_of_same ⟨rfl, Nat.le_succ _⟩)
        · simpa [hsw] using h5
      · rename_i belief rest
        have hbel := h2 belief (by simp)
        refine ua _ _ _ _ (BelMatch · t belief)
          (fun σ => (∃ x ∈ rest, BelMatch σ t x) ∨ ∃ r ∈ QWorld.rules w grp, RuleMatch w σ t r)
          h3 h1.bound ?_ ?_ (ua_belief hw h1 hbel hf.ok)
          (fun _ => trivial) (fun b hb => ⟨h1, fun x hx => h2 x (by simp [hx]), ⟨s.b, h3, rfl, hb, h4⟩, fun _ σ _ hh => hh⟩)
          (fun σ hσ hm => h4 σ hσ (.belief hbel hm.1 hm.2)) (fun hc σ hσ hh => ?_) ?_
        · rw [(hw.belief _ _ hbel).2.2.2]; exact Nat.zero_le _
        · intro _ m t' hev
          obtain ⟨_, hl, _⟩ := hw.belief _ _ hbel
          cases belief <;> simp [Term.Parts] at hl
          rw [evlit _ _ _ _ _ _ hev]
          simp
        · rcases h5 hc σ hσ hh with ⟨x, hx, hm⟩ | hh
          · rcases List.mem_cons.1 hx with rfl | hx
            · exact Or.inl hm
            · exact Or.inr (Or.inl ⟨x, hx, hm⟩)
          · exact Or.inr (Or.inr hh)
        · intro s' hw' hn hf' hsame
          rw [hn] at h1 hk ⊢
          refine ih (.belHead ..) _ _ _ _ _ hw' hf' hk ⟨h1, fun x hx => h2 x (by simp [hx]), rel_trans h3 (rel_of_same hsame), ?_, fun _ σ _ hh => hh⟩
          intro σ hσ
          exact h4 σ ((models_same hsame).1 hσ)
  · -- bel
    obtain ⟨h1, h2, ⟨b₁, h3, rfl, h4, h5⟩, h6⟩ := h
    have hsame : Same b₁ (uaResume b₁.ncp s.b) := same_reroll h4
    refine ih (.belHead ..) { s with b := uaResume b₁.ncp s.b } _ _ _ _ hsw
      (hf.reroll ((above_mark _).trans h4) hsame (Nat.le_refl _)) hk ⟨h1, h2, rel_trans h3 (rel_of_same hsame), ?_, h6⟩
    · intro σ hσ
      exact h5 σ ((models_same hsame).1 hσ)
  · -- ruleHead []
    obtain ⟨grp, h1, h2, h3, h4, h5, h6, h7⟩ := h
    exact .mkNone hsw (Nat.le_refl _) hf h3 (fun hc σ hσ hh => by simpa using h7 hc σ hσ hh)
  · -- ruleHead
    rename_i d t rule rest
    obtain ⟨grp, h1, h2, h3, h4, h5, h6, h7⟩ := h
    have hrule := h2 rule (by simp)
    have hrest : ∀ r ∈ rest, r ∈ QWorld.rules w grp := fun r hr => h2 r (by simp [hr])
    have hu := rule_unify hw h1 hrule (n := n) (b := s.b.pushCp d) hf.ok
    have hhead : (rule.deepcopy s.nv).head.bound ≤ s.nv + rule.bound :=
      Nat.le_trans (Term.bound_rename _) (Nat.add_le_add_left (Nat.le_max_left _ _) _)
    have hquery : (rule.deepcopy s.nv).query.bound ≤ s.nv + rule.bound :=
      Nat.le_trans (Query.bound_rename _) (Nat.add_le_add_left (Nat.le_max_right _ _) _)
    have below := unify_P (hered_bound (s.nv + rule.bound)) n t (rule.deepcopy s.nv).head (s.b.pushCp d)
    simp only [QSt.onB]
    cases hx : unify n t (rule.deepcopy s.nv).head (s.b.pushCp d) with
    | oof => exact .oof
    | err ex b' => exact .err
    | ok o b' =>
      have hb : Above (s.b.pushCp d) b' := (unify_grow n _ _ _ _ (Or.inl ⟨_, hx⟩)).above
      simp only [Res.bind_ok]
      have hle : s.nv ≤ s.nv + rule.bound := Nat.le_add_right _ _
      cases o with
      | true =>
        have hy := hu.yes _ hx
        have hfine : Fine c (⟨b', s.nv + rule.bound, s.w⟩ : QSt W) :=
          ⟨hy.1, below b' (hf.below.mono hle) (Nat.le_trans h1.bound hle) hhead (Or.inl ⟨_, hx⟩)⟩
        refine (ih (.rule d t rest (.start (rule.deepcopy s.nv).query)) ⟨b', s.nv + rule.bound, s.w⟩ k b₀ φ ρ hsw hfine
          (Nat.le_trans hk hle) ⟨⟨grp, h1.mono hle, hrest⟩, s.b, b', s.nv + rule.bound,
            fun σ => Holds w σ (rule.deepcopy s.nv).query, h6, h3, h4, h5, hb, ?_, Nat.le_trans hk hle, Nat.le_refl _, ?_⟩).weaken
          hle (fun _ _ _ hh => hh)
        · refine ⟨Query.ok_rename (hw.rule _ _ hrule).2.2.2, fun hc => Query.groundAnnots_rename (hcm hc _ _ hrule), hquery,
            rel_refl _ _, ?_, fun _ _ _ hh => hh⟩
          intro σ hσ hh
          have := (hy.2 σ).1 hσ
          exact h6 σ this.1 (rule_sound hw hrule this.2 hh)
        · intro hc σ hσ hh
          obtain ⟨r, hr, hm⟩ := h7 hc σ hσ hh
          rcases List.mem_cons.1 hr with rfl | hr
          · obtain ⟨σ', j1, j2, j3, j4⟩ := rule_extend hw h1.bound hf.below ((rel_models hc h3).2 hσ) hm
            exact Or.inl ⟨σ', j1.mono hk, (hy.2 σ').2 ⟨j2, j3⟩, j4⟩
          · exact Or.inr ⟨r, hr, hm⟩
      | false =>
        have hsame : Same s.b (reroll b' d) := reroll_push h5 hb
        refine (ih (.ruleHead d t rest) ⟨reroll b' d, s.nv + rule.bound, s.w⟩ k b₀ φ ρ hsw (hf.same hsame.scope hle)
          (Nat.le_trans hk hle) ⟨grp, h1.mono hle, hrest, rel_trans h3 (rel_of_same hsame), h4,
            Nat.lt_of_lt_of_le h5 hsame.2, ?_, ?_⟩).weaken hle (fun _ _ _ hh => hh)
        · intro σ hσ
          exact h6 σ ((models_same hsame).1 hσ)
        · intro hc σ hσ hh
          obtain ⟨r, hr, hm⟩ := h7 hc σ hσ hh
          rcases List.mem_cons.1 hr with rfl | hr
          · obtain ⟨σ', j1, j2, j3, j4⟩ := rule_extend hw h1.bound hf.below ((rel_models hc h3).2 hσ) hm
            exact absurd j3 (hu.no _ hx σ' j2)
          · exact ⟨r, hr, hm⟩
  · -- rule
    rename_i d t rest inner
    obtain ⟨⟨grp, h1, h2⟩, b₁, b₂, k₂, ρ₂, h3, h4, h5, h6, h7, h8, h9, h10, h11⟩ := h
    refine (ih _ _ _ _ _ _ hsw hf h10 h8).onNext ?_ ?_
    · intro g' s' ρ' i1 i2 i3 i4 i5 i6 i7
      refine .mkSome (g := .rule ..)
        (fun σ => (∃ σ', EqBelow k σ σ' ∧ Models σ' b₂.scope ∧ ρ' σ') ∨ ∃ r ∈ rest, RuleMatch w σ t r) i1 i2 i3 i4 i5
        ⟨⟨grp, h1.mono i2, h2⟩, b₁, b₂, k₂, ρ', h3, h4, h5, h6, h7, i6, h9, Nat.le_trans h10 i2, fun _ _ _ hh => hh⟩ ?_
      intro hc σ hσ hh
      rcases h11 hc σ hσ hh with ⟨σ', j1, j2, j3⟩ | j
      · rcases i7 hc σ' j2 j3 with ⟨σ'', j4, j5⟩ | j4
        · exact Or.inl ⟨σ'', j1.trans (j4.mono h9), j5⟩
        · exact Or.inr (Or.inl ⟨σ', j1, j2, j4⟩)
      · exact Or.inr (Or.inr j)
    · intro s' i1 i2 i3 i4 i5
      have hab : Above (b₁.pushCp d) s'.b := h7.trans (rel_above i4)
      have hsame : Same b₁ (reroll s'.b d) := reroll_push h6 hab
      refine (ih (.ruleHead d t rest) { s' with b := reroll s'.b d } k b₀ φ ρ i1 ?_ (Nat.le_trans hk i2)
        ⟨grp, h1.mono i2, h2, rel_trans h4 (rel_of_same hsame), h5, Nat.lt_of_lt_of_le h6 hsame.2, ?_, ?_⟩).weaken i2
        (fun _ _ _ hh => hh)
      · exact (i3.back (s' := { s' with b := b₁.pushCp d }) hab (Nat.le_refl _)).same hsame.scope (Nat.le_refl _)
      · intro σ hσ
        exact h3 σ ((models_same hsame).1 hσ)
      · intro hc σ hσ hh
        rcases h11 hc σ hσ hh with ⟨σ', j1, j2, j3⟩ | j
        · exact absurd j3 (i5 hc σ' j2)
        · exact j
  · -- start and
    rename_i l rq
    obtain ⟨h1, h2, h3, h4, h5, h6⟩ := h
    simp only [Query.bound, Nat.max_le] at h3
    refine ih (.andHead ..) _ _ _ _ _ hsw hf hk ⟨h1.2, fun hc => (h2 hc).2, h3.2, fun σ => Holds w σ l, ?_, ?_⟩
    · exact ⟨h1.1, fun hc => (h2 hc).1, h3.1, h4, fun σ hσ hl hr => h5 σ hσ (.and hl hr), fun _ σ _ hh => hh⟩
    · intro hc σ hσ hh
      exact holds_and_iff.1 (h6 hc σ hσ hh)
  · -- andHead
    rename_i l rq
    obtain ⟨h1, h2, h3, ρ₁, h4, h5⟩ := h
    refine (ih _ _ _ _ _ _ hsw hf hk h4).onNext ?_ ?_
    · intro g' s' ρ' i1 i2 i3 i4 i5 i6 i7
      refine (ih (.and ..) s' k b₀ φ ρ i1 i3 (Nat.le_trans hk i2) ⟨h1, h2, h3, i4, ρ', s'.b, k, fun σ => Holds w σ rq, i6, ?_, Nat.le_refl _, Nat.le_trans hk i2, ?_⟩).weaken i2
        (fun _ _ _ hh => hh)
      · exact ⟨h1, h2, h3, rel_refl _ _, i5, fun _ σ _ hh => hh⟩
      · intro hc σ hσ hh
        obtain ⟨j1, j2⟩ := h5 hc σ hσ hh
        rcases i7 hc σ hσ j1 with ⟨σ', j3, j4⟩ | j3
        · exact Or.inl ⟨σ', j3, j4, (holds_congr hw (j3.mono h3)).1 j2⟩
        · exact Or.inr ⟨j3, j2⟩
    · intro s' i1 i2 i3 i4 i5
      exact .mkNone i1 i2 i3 i4 fun hc σ hσ hh => i5 hc σ hσ (h5 hc σ hσ hh).1
  · -- and
    rename_i l rq r
    obtain ⟨h1, h2, h3, h4, ρ₁, b₁, k₁, ρ₂, h5, h6, h7, h8, h9⟩ := h
    refine (ih _ _ _ _ _ _ hsw hf h8 h6).onNext ?_ ?_
    · intro g' s' ρ' i1 i2 i3 i4 i5 i6 i7
      refine .mkSome (g := .and ..)
        (fun σ => (∃ σ', EqBelow k σ σ' ∧ Models σ' b₁.scope ∧ ρ' σ') ∨ (ρ₁ σ ∧ Holds w σ rq)) i1 i2 i3 ⟨h4, i4⟩ i5
        ⟨h1, h2, h3, h4, ρ₁, b₁, k₁, ρ', h5.mono i2, i6, h7, Nat.le_trans h8 i2, fun _ σ _ hh => hh⟩ ?_
      intro hc σ hσ hh
      rcases h9 hc σ hσ hh with ⟨σ', j1, j2, j3⟩ | j
      · rcases i7 hc σ' j2 j3 with ⟨σ'', j4, j5⟩ | j4
        · exact Or.inl ⟨σ'', j1.trans (j4.mono h7), j5⟩
        · exact Or.inr (Or.inl ⟨σ', j1, j2, j4⟩)
      · exact Or.inr (Or.inr j)
    · intro s' i1 i2 i3 i4 i5
      refine (ih (.andHead ..) s' k b₀ φ ρ i1 i3 (Nat.le_trans hk i2) ⟨h1, h2, h3, ρ₁, (h5.closed h4 i4).mono i2, ?_⟩).weaken i2
        (fun _ _ _ hh => hh)
      intro hc σ hσ hh
      rcases h9 hc σ hσ hh with ⟨σ', j1, j2, j3⟩ | j
      · exact absurd j3 (i5 hc σ' j2)
      · exact j
  · -- start or
    rename_i l rq
    obtain ⟨h1, h2, h3, h4, h5, h6⟩ := h
    simp only [Query.bound, Nat.max_le] at h3
    refine ih (.or ..) _ _ _ _ _ hsw hf hk ⟨h1.2, fun hc => (h2 hc).2, h3.2, s.b, fun σ => Holds w σ l, h4, ?_,
      fun σ hσ hh => h5 σ hσ (.orR hh), fun hc σ hσ hh => holds_or_iff.1 (h6 hc σ hσ hh)⟩
    exact ⟨h1.1, fun hc => (h2 hc).1, h3.1, rel_refl _ _, fun σ hσ hh => h5 σ hσ (.orL hh), fun _ σ _ hh => hh⟩
  · -- or
    rename_i l rq
    obtain ⟨h1, h2, h3, b₁, ρ₁, h4, h5, h6, h7⟩ := h
    refine (ih _ _ _ _ _ _ hsw hf hk h5).onNext ?_ ?_
    · intro g' s' ρ' i1 i2 i3 i4 i5 i6 i7
      refine .mkSome (g := .or ..) (fun σ => ρ' σ ∨ Holds w σ rq) i1 i2 i3 i4 i5
        ⟨h1, h2, h3, b₁, ρ', h4, i6, h6, fun _ σ _ hh => hh⟩ ?_
      intro hc σ hσ hh
      rcases h7 hc σ hσ hh with j | j
      · rcases i7 hc σ ((rel_models hc h4).2 hσ) j with j | j
        · exact Or.inl j
        · exact Or.inr (Or.inl j)
      · exact Or.inr (Or.inr j)
    · intro s' i1 i2 i3 i4 i5
      refine (ih (.start _) s' k b₀ φ (fun σ => Holds w σ rq) i1 i3 (Nat.le_trans hk i2) ⟨h1, h2, h3, rel_trans h4 i4, ?_, fun _ σ _ hh => hh⟩).weaken i2 ?_
      · intro σ hσ
        exact h6 σ ((rel_above i4).models hσ)
      · intro hc σ hσ hh
        exact (h7 hc σ hσ hh).resolve_left (i5 hc σ ((rel_models hc h4).2 hσ))
  · exact absurd h.1 (by simp [Query.OK])
  · -- unify
    rename_i l t
    obtain ⟨h1, h2, h3, h4, h5, h6⟩ := h
    simp only [Query.bound, Nat.max_le] at h3
    refine ua _ _ _ _ (fun σ => Holds w σ (.unify l t)) (fun _ => False) h4 (Nat.le_trans h3.1 hk) (Nat.le_trans h3.2 hk) ?_
      (ua_unify h1 h2 hf.ok) (fun _ => trivial) (fun b hb => ⟨⟨s.b, h4, rfl, hb⟩, fun _ _ _ hh => hh⟩) h5
      (fun hc σ hσ hh => Or.inl (h6 hc σ hσ hh)) ?_
    · intro hl m t' hev
      refine evaluate_notVar ?_ ?_ hev
      · rcases h1 with h1 | h1
        · rintro rfl
          simpa using h1.2.2.2.2.1
        · rintro rfl
          simpa [Term.Parts] using h1.2.1
      · rcases h1 with h1 | h1
        · exact h1.2.2.2.2.2 hl
        · rintro y rfl
          simpa [Term.Parts] using h1.2.1
    · intro s' i1 i2 i3 i4
      exact .mkNone i1 (Nat.le_of_eq i2) i3 (rel_trans h4 (rel_of_same i4)) fun _ _ _ hh => hh
  · -- ua
    obtain ⟨⟨b₁, h1, rfl, h3⟩, h4⟩ := h
    have hsame : Same b₁ (uaResume b₁.ncp s.b) := same_reroll h3
    refine .mkNone hsw (Nat.le_refl _) ?_ (rel_trans h1 (rel_of_same hsame)) h4
    exact hf.reroll ((above_mark _).trans h3) hsame (Nat.le_refl _)

theorem gnext_logic (hw : KBOK w c) (hcm : cm = true → RulesAre (fun r : Rule A => r.query.GroundAnnots) w) :
    ∀ n, LogicRec w c cm (gnext (W := W) n)
  | 0 => fun _ _ _ _ _ _ _ _ _ _ => .oof
  | n + 1 => gstep_logic hw hcm (gnext_logic hw hcm n)

end

end Verif
