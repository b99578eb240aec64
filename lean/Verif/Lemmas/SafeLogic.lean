import Verif.Lemmas.SafeGround

/-! Completeness of queries with safe negation. -/

namespace Verif

section
variable {W A G : Type} [Arith] [inst : QWorld W A G]
variable {P M : String × Nat → Prop} {w : W} {c : Bool}

/-! ## Meaning -/

theorem sat_congr (hs : Strata w c P) {σ τ : Asg} {q : Query A} (hq : q.NegOK w c P) (h : EqBelow q.bound σ τ) : Sat w σ q ↔ Sat w τ q := by
  have := sat_ren hs (ρ := id) (σ := σ) (τ := τ) hq h
  rwa [Query.rename_id] at this

/-- A rule applies. -/
def SatRule (w : W) (σ : Asg) (t : Term) (r : Rule A) : Prop := ∃ τ v, Den σ t v ∧ Den τ r.head v ∧ Sat w τ r.query

/-- How a literal can be true. -/
theorem sat_cases (hs : Strata w c P) {f : String} {as xs : List Term} {σ : Asg} (h : Sat w σ (.term (.lit f as xs) : Query A)) :
    (∃ x ∈ QWorld.beliefs w (f, as.length), BelMatch σ (.lit f as xs) x) ∨
      ∃ r ∈ QWorld.rules w (f, as.length), SatRule w σ (.lit f as xs) r := by
  rw [sat_term_iff] at h
  rcases h with hd | ⟨grp, b, hb, hm⟩ | ⟨grp, r, hr, τ, v, hv⟩
  · simp [Den] at hd
  · obtain ⟨i1, i2, i3⟩ := hs.belief _ _ hb
    refine Or.inl ⟨b, ?_, hm⟩
    rw [← i1, group_of_agree i2.isLit hm.1] at hb
    exact hb
  · obtain ⟨i1, i2, i3, i4⟩ := hs.rule _ _ hr
    refine Or.inr ⟨r, ?_, τ, v, hv⟩
    rw [← i1, ← group_of_den i2.isLit hv.1 hv.2.1] at hr
    exact hr

theorem not_sat_false (hs : Strata w c P) {σ : Asg} : ¬ Sat w σ (.term (.bool false) : Query A) := by
  intro h
  rw [sat_term_iff] at h
  rcases h with hd | ⟨grp, b, hb, ⟨v, h1, h2⟩, _⟩ | ⟨grp, r, hr, τ, v, h1, h2, _⟩
  · simp [Den] at hd
  · obtain ⟨f, u, rfl⟩ := den_lit_app (hs.belief _ _ hb).2.1.isLit h2
    simp [Den] at h1
  · obtain ⟨f, u, rfl⟩ := den_lit_app (hs.rule _ _ hr).2.1.isLit h2
    simp [Den] at h1

/-- A fresh copy of a rule is used with the assignment extended. -/
theorem sat_extend (hs : Strata w c P) {t : Term} {N : Nat} {r : Rule A} {grp : String × Nat} (hr : r ∈ QWorld.rules w grp) (ht : t.bound ≤ N)
    {sc : Scope} (hsc : ScopeBelow N sc) {σ : Asg} (hσ : Models σ sc) (hm : SatRule w σ t r) :
    ∃ σ', EqBelow N σ σ' ∧ Models σ' sc ∧ Agree σ' t (r.deepcopy N).head ∧ Sat w σ' (r.deepcopy N).query := by
  obtain ⟨τ, v, h1, h2, h3⟩ := hm
  have e := extend_eqBelow N σ τ
  refine ⟨extend N σ τ, e, models_congr hsc e hσ, ⟨v, ?_, ?_⟩, ?_⟩
  · exact (den_congr t (e.mono ht) v).1 h1
  · exact (den_ren (fun x _ => extend_add N σ τ x) v).2 h2
  · exact (sat_ren hs (hs.rule _ _ hr).2.2.2 fun x _ => extend_add N σ τ x).2 h3

/-! ## The invariant -/

/-- Invariant of a suspended generator that was started in `b₀`; the state is `b` now.  The
variables of `E` are ground in all answers; all assignments in `ρ` will still be covered by an answer, up to
variables ≥ `k`. -/
def KInv (w : W) (c : Bool) (P M : String × Nat → Prop) (N : Nat) : Gen A G → Nat → BSt → BSt → (VarId → Prop) → (Asg → Prop) → Prop
  | .start q, k, b₀, b, E, ρ => (∃ D, q.Safe M D ∧ (∀ x, E x → q.after D x) ∧ GroundVars b₀.scope D) ∧ q.NegOK w c P ∧ q.GroundAnnots ∧
    q.bound ≤ k ∧ Same b₀ b ∧ ∀ σ, Models σ b₀.scope → ρ σ → Sat w σ q
  | .done, _, b₀, b, _, ρ => Same b₀ b ∧ ∀ σ, Models σ b₀.scope → ¬ ρ σ
  | .act _, _, _, _, _, _ => False
  | .ua d, _, b₀, b, _, ρ => (∃ b₁, Same b₀ b₁ ∧ d = b₁.ncp ∧ Above b₁.mark b) ∧ ∀ σ, Models σ b₀.scope → ¬ ρ σ
  | .belHead grp t rest _, _, b₀, b, E, ρ => TermOK w c true t grp N ∧ (∀ x ∈ rest, x ∈ QWorld.beliefs w grp) ∧
    Call M b₀.scope t E ∧ Same b₀ b ∧
    ∀ σ, Models σ b₀.scope → ρ σ → (∃ x ∈ rest, BelMatch σ t x) ∨ ∃ r ∈ QWorld.rules w grp, SatRule w σ t r
  | .bel d grp t rest _, _, b₀, b, E, ρ => TermOK w c true t grp N ∧ (∀ x ∈ rest, x ∈ QWorld.beliefs w grp) ∧
    Call M b₀.scope t E ∧ (∃ b₁, Same b₀ b₁ ∧ d = b₁.ncp ∧ Above b₁.mark b) ∧
    ∀ σ, Models σ b₀.scope → ρ σ → (∃ x ∈ rest, BelMatch σ t x) ∨ ∃ r ∈ QWorld.rules w grp, SatRule w σ t r
  | .ruleHead d t rest, _, b₀, b, E, ρ => ∃ grp, TermOK w c true t grp N ∧ (∀ r ∈ rest, r ∈ QWorld.rules w grp) ∧
    Call M b₀.scope t E ∧ Same b₀ b ∧ b₀.ncp ≤ d ∧ d < b.ncp ∧
    ∀ σ, Models σ b₀.scope → ρ σ → ∃ r ∈ rest, SatRule w σ t r
  | .rule d t rest inner, k, b₀, b, E, ρ => (∃ grp, TermOK w c true t grp N ∧ (∀ r ∈ rest, r ∈ QWorld.rules w grp)) ∧
    Call M b₀.scope t E ∧
    ∃ b₁ b₂ k₂ E₂ ρ₂, Same b₀ b₁ ∧ b₀.ncp ≤ d ∧ d < b₁.ncp ∧ Above (b₁.pushCp d) b₂ ∧
      KInv w c P M N inner k₂ b₂ b E₂ ρ₂ ∧ k ≤ k₂ ∧ k₂ ≤ N ∧
      (∀ sc, b₂.scope.Sub sc → ScopeOK c sc → GroundVars sc E₂ → GroundVars sc E) ∧
      ∀ σ, Models σ b₀.scope → ρ σ → (∃ σ', EqBelow k σ σ' ∧ Models σ' b₂.scope ∧ ρ₂ σ') ∨ ∃ r ∈ rest, SatRule w σ t r
  | .andHead l rq, k, b₀, b, E, ρ => rq.NegOK w c P ∧ rq.GroundAnnots ∧ rq.bound ≤ k ∧
    ∃ D ρ₁, rq.Safe M D ∧ (∀ x, E x → rq.after D x) ∧ KInv w c P M N l k b₀ b D ρ₁ ∧
      ∀ σ, Models σ b₀.scope → ρ σ → ρ₁ σ ∧ Sat w σ rq
  | .and l rq r, k, b₀, b, E, ρ => rq.NegOK w c P ∧ rq.GroundAnnots ∧ rq.bound ≤ k ∧ Susp (fun _ => True) l ∧
    ∃ D ρ₁ b₁ k₁ ρ₂, rq.Safe M D ∧ (∀ x, E x → rq.after D x) ∧ KInv w c P M N l k b₀ b₁ D ρ₁ ∧
      KInv w c P M N r k₁ b₁ b E ρ₂ ∧ k ≤ k₁ ∧ k₁ ≤ N ∧
      ∀ σ, Models σ b₀.scope → ρ σ → (∃ σ', EqBelow k σ σ' ∧ Models σ' b₁.scope ∧ ρ₂ σ') ∨ (ρ₁ σ ∧ Sat w σ rq)
  | .or l rq, k, b₀, b, E, ρ => rq.NegOK w c P ∧ rq.GroundAnnots ∧ rq.bound ≤ k ∧
    ∃ D b₁ ρ₁, rq.Safe M D ∧ (∀ x, E x → rq.after D x) ∧ GroundVars b₀.scope D ∧ Same b₀ b₁ ∧ KInv w c P M N l k b₁ b E ρ₁ ∧
      ∀ σ, Models σ b₀.scope → ρ σ → ρ₁ σ ∨ Sat w σ rq

theorem KInv.above {N : Nat} : ∀ {g : Gen A G} {k : Nat} {b₀ b : BSt} {E : VarId → Prop} {ρ : Asg → Prop},
    KInv w c P M N g k b₀ b E ρ → Above b₀ b
  | .start _, _, _, _, _, _, h => Same.above h.2.2.2.2.1
  | .done, _, _, _, _, _, h => Same.above h.1
  | .ua _, _, _, _, _, _, ⟨⟨_, h1, _, h2⟩, _⟩ => (Same.above h1).trans ((above_mark _).trans h2)
  | .belHead .., _, _, _, _, _, h => Same.above h.2.2.2.1
  | .bel .., _, _, _, _, _, ⟨_, _, _, ⟨_, h1, _, h2⟩, _⟩ => (Same.above h1).trans ((above_mark _).trans h2)
  | .ruleHead .., _, _, _, _, _, ⟨_, _, _, _, h, _⟩ => Same.above h
  | .rule .., _, _, _, _, _, ⟨_, _, _, _, _, _, _, h1, h2, h3, h4, h5, _⟩ =>
    (above_push h3 h2 (Same.above h1)).trans (h4.trans (KInv.above h5))
  | .andHead .., _, _, _, _, _, ⟨_, _, _, _, _, _, _, h, _⟩ => KInv.above h
  | .and .., _, _, _, _, _, ⟨_, _, _, _, _, _, _, _, _, _, _, h1, h2, _⟩ => (KInv.above h1).trans (KInv.above h2)
  | .or .., _, _, _, _, _, ⟨_, _, _, _, _, _, _, _, _, h1, h2, _⟩ => (Same.above h1).trans (KInv.above h2)

/-- Changes by the consumer are tolerated. -/
theorem KInv.closed {N : Nat} : ∀ {g : Gen A G} {k : Nat} {b₀ b b' : BSt} {E : VarId → Prop} {ρ : Asg → Prop},
    KInv w c P M N g k b₀ b E ρ → Susp (fun _ => True) g → Same b b' → KInv w c P M N g k b₀ b' E ρ
  | .done, _, _, _, _, _, _, h, _, hb => ⟨h.1.trans hb, h.2⟩
  | .ua _, _, _, _, _, _, _, ⟨⟨b₁, h1, h2, h3⟩, h4⟩, _, hb => ⟨⟨b₁, h1, h2, h3.trans (Same.above hb)⟩, h4⟩
  | .bel .., _, _, _, _, _, _, ⟨i1, i2, i3, ⟨b₁, h1, h2, h3⟩, h4⟩, _, hb => ⟨i1, i2, i3, ⟨b₁, h1, h2, h3.trans (Same.above hb)⟩, h4⟩
  | .rule .., _, _, _, _, _, _, ⟨i1, i2, b₁, b₂, k₂, E₂, ρ₂, h1, h2, h3, h4, h5, h6⟩, hs, hb =>
    ⟨i1, i2, b₁, b₂, k₂, E₂, ρ₂, h1, h2, h3, h4, KInv.closed h5 hs hb, h6⟩
  | .and .., _, _, _, _, _, _, ⟨i1, i2, i3, i4, D, ρ₁, b₁, k₁, ρ₂, j1, j2, h1, h2, h3⟩, hs, hb =>
    ⟨i1, i2, i3, i4, D, ρ₁, b₁, k₁, ρ₂, j1, j2, h1, KInv.closed h2 hs.2 hb, h3⟩
  | .or .., _, _, _, _, _, _, ⟨i1, i2, i3, D, b₁, ρ₁, j1, j2, j3, h0, h1, h2⟩, hs, hb =>
    ⟨i1, i2, i3, D, b₁, ρ₁, j1, j2, j3, h0, KInv.closed h1 hs hb, h2⟩

theorem KInv.mono {N N' : Nat} (hN : N ≤ N') : ∀ {g : Gen A G} {k : Nat} {b₀ b : BSt} {E : VarId → Prop} {ρ : Asg → Prop},
    KInv w c P M N g k b₀ b E ρ → KInv w c P M N' g k b₀ b E ρ
  | .start _, _, _, _, _, _, h | .done, _, _, _, _, _, h | .ua _, _, _, _, _, _, h => h
  | .belHead .., _, _, _, _, _, ⟨h, h'⟩ | .bel .., _, _, _, _, _, ⟨h, h'⟩ => ⟨h.mono hN, h'⟩
  | .ruleHead .., _, _, _, _, _, ⟨grp, h, h'⟩ => ⟨grp, h.mono hN, h'⟩
  | .rule .., _, _, _, _, _, ⟨⟨grp, i0, i1⟩, i2, b₁, b₂, k₂, E₂, ρ₂, h1, h2, h3, h4, h5, h6, h7, h8⟩ =>
    ⟨⟨grp, i0.mono hN, i1⟩, i2, b₁, b₂, k₂, E₂, ρ₂, h1, h2, h3, h4, KInv.mono hN h5, h6, Nat.le_trans h7 hN, h8⟩
  | .andHead .., _, _, _, _, _, ⟨i1, i2, i3, D, ρ₁, j1, j2, h1, h2⟩ => ⟨i1, i2, i3, D, ρ₁, j1, j2, KInv.mono hN h1, h2⟩
  | .and .., _, _, _, _, _, ⟨i1, i2, i3, i4, D, ρ₁, b₁, k₁, ρ₂, j1, j2, h1, h2, h3, h4, h5⟩ =>
    ⟨i1, i2, i3, i4, D, ρ₁, b₁, k₁, ρ₂, j1, j2, KInv.mono hN h1, KInv.mono hN h2, h3, Nat.le_trans h4 hN, h5⟩
  | .or .., _, _, _, _, _, ⟨i1, i2, i3, D, b₁, ρ₁, j1, j2, j3, h0, h1, h2⟩ => ⟨i1, i2, i3, D, b₁, ρ₁, j1, j2, j3, h0, KInv.mono hN h1, h2⟩

/-- What `next` must do. -/
structure KOut (w : W) (c : Bool) (P M : String × Nat → Prop) (N k : Nat) (b₀ : BSt) (E : VarId → Prop) (ρ : Asg → Prop)
    (x : Res (QSt W) (Option (Gen A G))) : Prop where
  onNone : ∀ s', x = .ok none s' → s'.w = w ∧ N ≤ s'.nv ∧ Fine c s' ∧ Same b₀ s'.b ∧ ∀ σ, Models σ b₀.scope → ¬ ρ σ
  onSome : ∀ g' s', x = .ok (some g') s' → s'.w = w ∧ N ≤ s'.nv ∧ Fine c s' ∧ Susp (fun _ => True) g' ∧
    b₀.scope.Sub s'.b.scope ∧ GroundVars s'.b.scope E ∧ ∃ ρ', KInv w c P M s'.nv g' k b₀ s'.b E ρ' ∧
    ∀ σ, Models σ b₀.scope → ρ σ → (∃ σ', EqBelow k σ σ' ∧ Models σ' s'.b.scope) ∨ ρ' σ

theorem KOut.oof {N k : Nat} {b₀ : BSt} {E : VarId → Prop} {ρ : Asg → Prop} : KOut (A := A) (G := G) w c P M N k b₀ E ρ .oof := ⟨nofun, nofun⟩

theorem KOut.err {N k : Nat} {b₀ : BSt} {E : VarId → Prop} {ρ : Asg → Prop} {e : Err} {s : QSt W} :
    KOut (A := A) (G := G) w c P M N k b₀ E ρ (.err e s) := ⟨nofun, nofun⟩

theorem KOut.mkNone {N k : Nat} {b₀ : BSt} {E : VarId → Prop} {ρ : Asg → Prop} {s : QSt W} (h1 : s.w = w) (h2 : N ≤ s.nv) (h3 : Fine c s)
    (h4 : Same b₀ s.b) (h5 : ∀ σ, Models σ b₀.scope → ¬ ρ σ) : KOut (A := A) (G := G) w c P M N k b₀ E ρ (.ok none s) :=
  ⟨fun s' h => by cases h; exact ⟨h1, h2, h3, h4, h5⟩, nofun⟩

theorem KOut.mkSome {N k : Nat} {b₀ : BSt} {E : VarId → Prop} {ρ : Asg → Prop} {s : QSt W} {g : Gen A G} (ρ' : Asg → Prop) (h1 : s.w = w)
    (h2 : N ≤ s.nv) (h3 : Fine c s) (h4 : Susp (fun _ => True) g) (h5 : b₀.scope.Sub s.b.scope) (h6 : GroundVars s.b.scope E)
    (h7 : KInv w c P M s.nv g k b₀ s.b E ρ')
    (h8 : ∀ σ, Models σ b₀.scope → ρ σ → (∃ σ', EqBelow k σ σ' ∧ Models σ' s.b.scope) ∨ ρ' σ) :
    KOut (A := A) (G := G) w c P M N k b₀ E ρ (.ok (some g) s) :=
  ⟨nofun, fun g' s' h => by cases h; exact ⟨h1, h2, h3, h4, h5, h6, ρ', h7, h8⟩⟩

theorem KOut.weaken {N N' k : Nat} {b₀ : BSt} {E : VarId → Prop} {ρ ρ' : Asg → Prop} {x : Res (QSt W) (Option (Gen A G))}
    (h : KOut w c P M N' k b₀ E ρ x) (hN : N ≤ N') (hρ : ∀ σ, Models σ b₀.scope → ρ' σ → ρ σ) : KOut w c P M N k b₀ E ρ' x where
  onNone := fun s' hx => by
    obtain ⟨h1, h2, h3, h4, h5⟩ := h.onNone s' hx
    exact ⟨h1, Nat.le_trans hN h2, h3, h4, fun σ hσ hh => h5 σ hσ (hρ σ hσ hh)⟩
  onSome := fun g' s' hx => by
    obtain ⟨h1, h2, h3, h4, h5, h6, ρ'', h7, h8⟩ := h.onSome g' s' hx
    exact ⟨h1, Nat.le_trans hN h2, h3, h4, h5, h6, ρ'', h7, fun σ hσ hh => h8 σ hσ (hρ σ hσ hh)⟩

theorem KOut.onNext {N k N' k' : Nat} {b₀ b₁ : BSt} {E E₁ : VarId → Prop} {ρ ρ₁ : Asg → Prop} {x : Res (QSt W) (Option (Gen A G))}
    {f : Gen A G → QSt W → Res (QSt W) (Option (Gen A G))} {l : QSt W → Res (QSt W) (Option (Gen A G))}
    (h : KOut w c P M N' k' b₁ E₁ ρ₁ x)
    (hs : ∀ g' s' ρ', s'.w = w → N' ≤ s'.nv → Fine c s' → Susp (fun _ => True) g' → b₁.scope.Sub s'.b.scope → GroundVars s'.b.scope E₁ →
      KInv w c P M s'.nv g' k' b₁ s'.b E₁ ρ' →
      (∀ σ, Models σ b₁.scope → ρ₁ σ → (∃ σ', EqBelow k' σ σ' ∧ Models σ' s'.b.scope) ∨ ρ' σ) → KOut w c P M N k b₀ E ρ (f g' s'))
    (hn : ∀ s', s'.w = w → N' ≤ s'.nv → Fine c s' → Same b₁ s'.b → (∀ σ, Models σ b₁.scope → ¬ ρ₁ σ) → KOut w c P M N k b₀ E ρ (l s')) :
    KOut w c P M N k b₀ E ρ (x.onNext f l) := by
  cases x with
  | oof => exact .oof
  | err ex s' => exact .err
  | ok o s' =>
    cases o with
    | none => obtain ⟨h1, h2, h3, h4, h5⟩ := h.onNone s' rfl; exact hn s' h1 h2 h3 h4 h5
    | some g' =>
      obtain ⟨h1, h2, h3, h4, h5, h6, ρ', h7, h8⟩ := h.onSome g' s' rfl
      exact hs g' s' ρ' h1 h2 h3 h4 h5 h6 h7 h8

open Classical in
theorem gnext_complete (hs : SafeStrata w c P M) (n : Nat) : ∀ (g : Gen A G) (s : QSt W) (k : Nat) (b₀ : BSt) (E : VarId → Prop) (ρ : Asg → Prop),
    s.w = w → Fine c s → k ≤ s.nv → KInv w c P M s.nv g k b₀ s.b E ρ → KOut w c P M s.nv k b₀ E ρ (gnext n g s) := by
  induction n
  case zero => exact fun _ _ _ _ _ _ _ _ _ _ => .oof
  rename_i n ih
  intro g s k b₀ E ρ hsw hf hk h
  have hst := hs.toStrata
  have ua : ∀ (l t : Term) (f : Nat → Gen A G) (kk : QSt W → Res (QSt W) (Option (Gen A G))) (goal ρ' : Asg → Prop),
      Same b₀ s.b → l.bound ≤ s.nv → t.bound ≤ s.nv →
      (l.isLiteral = true → ∀ n t', evaluate n s.b.scope t = .ok t' → t' ≠ .wild ∧ ∀ y, t' ≠ .var y) →
      UaSC c true goal s.b (uaStart n l t s.b) →
      (∀ c, Susp (fun _ => True) (f c)) → (∀ b, Above s.b.mark b → KInv w c P M s.nv (f s.b.ncp) k b₀ b E ρ') →
      (∀ b', Grounds l t s.b b' → ScopeOK c b'.scope → GroundVars b'.scope E) → (∀ σ, Models σ b₀.scope → ρ σ → goal σ ∨ ρ' σ) →
      (∀ s' : QSt W, s'.w = w → s.nv = s'.nv → Fine c s' → Same s.b s'.b → KOut w c P M s.nv k b₀ E ρ' (kk s')) →
      KOut w c P M s.nv k b₀ E ρ ((s.onB (uaStart n l t)).onNext (fun c s => .ok (some (f c)) s) kk) := by
    intro l t f kk goal ρ' hb hl ht hv hsc hfs hg hE hρ hkk
    have tr := ua_trail n l t s.b
    have below := ua_P (hered_bound s.nv) n l t s.b
    unfold QSt.onB
    cases hx : uaStart n l t s.b with
    | oof => exact .oof
    | err ex b' => exact .err
    | ok o b' =>
      cases o with
      | none =>
        have hsame := tr.none _ hx
        refine (hkk { s with b := b' } hsw rfl (hf.same hsame.scope (Nat.le_refl _)) hsame).weaken (Nat.le_refl _) ?_
        intro σ hσ hh
        exact (hρ σ hσ hh).resolve_left (hsc.no _ hx rfl σ ((models_same hb).2 hσ))
      | some d =>
        have hgr := ua_grounds hx
        obtain ⟨rfl, _, h2⟩ := tr.some _ _ hx
        have ha : Above s.b.mark b' := by
          rcases h2 with h2 | ⟨hl, m, r', hev, h2⟩
          · exact h2
          · have := hv hl m r' hev
            rcases h2 with rfl | ⟨y, rfl⟩
            · exact absurd rfl this.1
            · exact absurd rfl (this.2 y)
        obtain ⟨i1, i2, i3⟩ := hsc.yes _ _ hx
        refine .mkSome (s := { s with b := b' }) ρ' hsw (Nat.le_refl _) ⟨i1, below b' hf.below hl ht (Or.inl ⟨_, hx⟩)⟩ (hfs _)
          (hb.subScope.trans hgr.sub) (hE _ hgr i1) (hg _ ha) ?_
        intro σ hσ hh
        rcases hρ σ hσ hh with hh | hh
        · exact Or.inl ⟨σ, .refl _ _, i3 rfl σ ((models_same hb).2 hσ) hh⟩
        · exact Or.inr hh
  have evlit : ∀ (sc : Scope) (m : Nat) (f : String) (as xs : List Term) (t' : Term), evaluate m sc (.lit f as xs) = .ok t' →
      t' = .lit f as xs := by
    intro sc m f as xs t' hh
    cases m <;> simp [evaluate] at hh
    exact hh.symm
  rw [gnext]
  unfold gstep
  split
  · -- done
    exact .mkNone hsw (Nat.le_refl _) hf h.1 h.2
  · -- true
    obtain ⟨⟨D, d1, d2, d3⟩, h1, h2, h3, h4, h5⟩ := h
    exact .mkSome (g := .done) (fun _ => False) hsw (Nat.le_refl _) hf trivial h4.subScope
      (fun x hx => (d3 x (d2 x hx)).mono h4.subScope) ⟨h4, by simp⟩ (fun σ hσ _ => Or.inl ⟨σ, .refl _ _, (models_same h4).2 hσ⟩)
  · -- false
    obtain ⟨_, h1, h2, h3, h4, h5⟩ := h
    exact .mkNone hsw (Nat.le_refl _) hf h4 (fun σ hσ hh => nomatch h5 σ hσ hh)
  · exact h.2.1.elim
  · exact h.elim
  · -- term
    rename_i t
    obtain ⟨⟨D, d1, d2, d3⟩, h1, h2, h3, h4, h5⟩ := h
    cases hx : evaluate n s.b.scope t with
    | oof => exact .oof
    | err ex => exact .err
    | ok t' =>
      simp only [Res.lift_ok, Res.bind_ok]
      simp only [Query.NegOK, Query.OK] at h1
      have below : t'.bound ≤ s.nv := evaluate_P (hered_bound s.nv) hf.below (Nat.le_trans h3 hk) hx
      by_cases hl : t.isLiteral = true
      · rw [if_pos hl] at h1
        cases t <;> simp [Term.isLiteral] at hl
        rename_i f as xs
        rw [evlit _ _ _ _ _ _ hx]
        refine ih _ _ _ _ _ _ hsw hf hk ⟨⟨rfl, h1.1, h1.2, Nat.le_trans h3 hk, fun _ => h2⟩, by simp [hsw],
          ⟨fun x hx => (d2 x hx).imp (d3 x) id, fun hM => Term.Over.mono d3 (d1 hM)⟩, h4, fun σ hσ hh => ?_⟩
        simp only [hsw]
        exact sat_cases hst (h5 σ hσ hh)
      · rw [if_neg hl] at h1
        obtain ⟨rfl, h1, h1'⟩ := h1
        have he := evaluate_spec hf.ok h1' hx
        have d2 : ∀ x, E x → D x := by
          intro x hx
          have := d2 x hx
          cases t <;> first | exact this | simp [Term.isLiteral] at hl
        split
        · exact .mkSome (g := .done) (fun _ => False) hsw (Nat.le_refl _) hf trivial h4.subScope
            (fun x hx => (d3 x (d2 x hx)).mono h4.subScope) ⟨h4, by simp⟩ (fun σ hσ _ => Or.inl ⟨σ, .refl _ _, (models_same h4).2 hσ⟩)
        · refine .mkNone hsw (Nat.le_refl _) hf h4 (fun σ hσ hh => ?_)
          exact not_sat_false hst ((sat_term_eval he hl ((models_same h4).2 hσ)).1 (h5 σ hσ hh))
        · rename_i f as xs
          have hxs : xs = [] := tame_annots (t := .lit f as xs) he.tame
          subst hxs
          have ht := he.tame
          have hnw := he.noWild h1
          rw [Term.tame_lit] at ht
          refine ih _ _ _ _ _ _ hsw hf hk ⟨⟨rfl, ⟨ht.2, by simp⟩, Or.inl ⟨by simpa using hnw, by simp⟩, below, fun _ => ⟨by simp [Term.annots], by simp [Term.annots]⟩⟩,
            by simp [hsw], ⟨fun x hx => .inl (d3 x (d2 x hx)), fun hM => ?_⟩, h4, fun σ hσ hh => ?_⟩
          · rcases evaluate_lit hx with rfl | ⟨x, rfl⟩
            · exact absurd rfl hl
            · exact (((eval_groundIn n).1 (.refl _) hx).1 ((d3 x (d1 ⟨_, hM⟩)).mono h4.subScope)).over.mono
                fun y hy => by rw [h4.scope] at hy; exact hy
          simp only [hsw]
          exact sat_cases hst ((sat_term_eval he hl ((models_same h4).2 hσ)).1 (h5 σ hσ hh))
        · exact .err
  · -- belHead
    rename_i grp t rest size
    obtain ⟨h1, h2, hE, h3, h5⟩ := h
    split
    · exact .err
    · split
      · refine ih (.ruleHead ..) { s with b := s.b.newCp.2 } _ _ _ _ hsw (hf.same rfl (Nat.le_refl _)) hk
          ⟨grp, h1, by rw [hsw]; exact fun _ h => h, hE, h3.trans ⟨rfl, Nat.le_succ _⟩, above_ncp (Same.above h3), Nat.lt_succ_self _, ?_⟩
        simpa [hsw] using h5
      · rename_i belief rest
        have hbel := h2 belief (by simp)
        obtain ⟨_, i2, i3, i4⟩ := hst.belief _ _ hbel
        have hcl := i2.closed_lit
        refine ua _ _ _ _ (BelMatch · t belief)
          (fun σ => (∃ x ∈ rest, BelMatch σ t x) ∨ ∃ r ∈ QWorld.rules w grp, SatRule w σ t r)
          h3 h1.bound ?_ ?_ (UaSC.lit hf.ok h1.lit i3 (Or.inr (Or.inr i2)) fun hc => ⟨(h1.closed hc).1, (h1.closed hc).2, hcl.2⟩)
          (fun _ => trivial) (fun b hb => ⟨h1, fun x hx => h2 x (by simp [hx]), hE, ⟨s.b, h3, rfl, hb⟩, fun σ _ hh => hh⟩)
          ?_ (fun σ hσ hh => ?_) ?_
        · rw [i4]; exact Nat.zero_le _
        · intro _ m t' hev
          cases belief <;> simp [Term.Parts] at i2
          rw [evlit _ _ _ _ _ _ hev]
          simp
        · intro b' hg hok x hx
          rcases hE.1 x hx with hx | hx
          · exact hx.mono (h3.subScope.trans hg.sub)
          · exact ((hg.left _ (.refl _) (hcl.1.groundIn hcl.1.noWild')).occurs hx).strict (fun x t h => (hok x t h).1) (by simp [Term.NoWild, Term.Every])
        · rcases h5 σ hσ hh with ⟨x, hx, hm⟩ | hh
          · rcases List.mem_cons.1 hx with rfl | hx
            · exact Or.inl hm
            · exact Or.inr (Or.inl ⟨x, hx, hm⟩)
          · exact Or.inr (Or.inr hh)
        · intro s' hw' hn hf' hsame
          rw [hn] at h1 hk ⊢
          exact ih (.belHead ..) _ _ _ _ _ hw' hf' hk ⟨h1, fun x hx => h2 x (by simp [hx]), hE, h3.trans hsame, fun σ _ hh => hh⟩
  · -- bel
    obtain ⟨h1, h2, hE, ⟨b₁, h3, rfl, h4⟩, h6⟩ := h
    have hsame : Same b₁ (uaResume b₁.ncp s.b) := same_reroll h4
    exact ih (.belHead ..) { s with b := uaResume b₁.ncp s.b } _ _ _ _ hsw
      (hf.reroll ((above_mark _).trans h4) hsame (Nat.le_refl _)) hk ⟨h1, h2, hE, h3.trans hsame, h6⟩
  · -- ruleHead []
    obtain ⟨grp, h1, h2, hE, h3, h4, h5, h7⟩ := h
    exact .mkNone hsw (Nat.le_refl _) hf h3 (fun σ hσ hh => by simpa using h7 σ hσ hh)
  · -- ruleHead
    rename_i d t rule rest
    obtain ⟨grp, h1, h2, hE, h3, h4, h5, h7⟩ := h
    have hrule := h2 rule (by simp)
    have hrest : ∀ r ∈ rest, r ∈ QWorld.rules w grp := fun r hr => h2 r (by simp [hr])
    have hnw : t.Parts Term.NoWild := h1.wild.resolve_right (fun h => by rw [h] at hrule; cases hrule)
    obtain ⟨r1, r2, r3, r4⟩ := hst.rule _ _ hrule
    obtain ⟨q1, q2, q3⟩ := hs.safe _ _ hrule
    have hu : UOK c (Agree · t (rule.deepcopy s.nv).head) (s.b.pushCp d) (unify n t (rule.deepcopy s.nv).head (s.b.pushCp d)) :=
      unify_lits hf.ok h1.lit (Term.parts_rename (fun _ h => Term.tame_rename.2 h) r3)
        (Or.inl ⟨hnw, Term.parts_rename (fun _ h => Term.noWild_rename.2 h) r2⟩)
    have hhead : (rule.deepcopy s.nv).head.bound ≤ s.nv + rule.bound :=
      Nat.le_trans (Term.bound_rename _) (Nat.add_le_add_left (Nat.le_max_left _ _) _)
    have hquery : (rule.deepcopy s.nv).query.bound ≤ s.nv + rule.bound :=
      Nat.le_trans (Query.bound_rename _) (Nat.add_le_add_left (Nat.le_max_right _ _) _)
    have below := unify_P (hered_bound (s.nv + rule.bound)) n t (rule.deepcopy s.nv).head (s.b.pushCp d)
    simp only [QSt.onB]
    cases hx : unify n t (rule.deepcopy s.nv).head (s.b.pushCp d) with
    | oof => exact .oof
    | err ex b' => exact .err
    | ok o b' =>
      have hb : Above (s.b.pushCp d) b' := (unify_grow n _ _ _ _ (Or.inl ⟨_, hx⟩)).above
      simp only [Res.bind_ok]
      have hle : s.nv ≤ s.nv + rule.bound := Nat.le_add_right _ _
      cases o with
      | true =>
        have hy := hu.yes _ hx
        have hgr := unify_grounds n _ _ _ _ hx
        -- bound by the caller
        let D₀ : VarId → Prop := fun x => M t.group ∧ (rule.deepcopy s.nv).head.Occurs x
        have hD₀ : ∀ x, rule.given M x → D₀ (s.nv + x) := fun x hx => ⟨by rw [h1.group, ← r1]; exact hx.1, hx.2.rename⟩
        have hD₁ : GroundVars b'.scope D₀ := fun x hx => call_ground hgr hy.1 hnw
          (Term.Over.mono (fun y hy => hy.mono h3.subScope) (hE.2 hx.1)) x hx.2
        have hfine : Fine c (⟨b', s.nv + rule.bound, s.w⟩ : QSt W) :=
          ⟨hy.1, below b' (hf.below.mono hle) (Nat.le_trans h1.bound hle) hhead (Or.inl ⟨_, hx⟩)⟩
        refine (ih (.rule d t rest (.start (rule.deepcopy s.nv).query)) ⟨b', s.nv + rule.bound, s.w⟩ k b₀ E ρ hsw hfine
          (Nat.le_trans hk hle) ⟨⟨grp, h1.mono hle, hrest⟩, hE, s.b, b', s.nv + rule.bound, (rule.deepcopy s.nv).query.after D₀,
            fun σ => Sat w σ (rule.deepcopy s.nv).query, h3, h4, h5, hb, ?_, Nat.le_trans hk hle, Nat.le_refl _, ?_, ?_⟩).weaken
          hle (fun _ _ hh => hh)
        · exact ⟨⟨D₀, Query.safe_rename hD₀ q2, fun _ h => h, hD₁⟩, Query.negOK_rename r4,
            Query.groundAnnots_rename q1, hquery, .refl _, fun _ _ hh => hh⟩
        · intro sc hsub hok hE₂ x hx
          rcases hE.1 x hx with hx | hx
          · exact hx.mono (h3.subScope.trans (hgr.sub.trans hsub))
          · have hov : (rule.deepcopy s.nv).head.Over ((rule.deepcopy s.nv).query.after D₀) :=
              Term.Over.rename (Query.after_rename hD₀) q3
            have hwild : (rule.deepcopy s.nv).head.NoWild := by
              have := Term.parts_rename (ρ := (s.nv + ·)) (fun _ h => Term.noWild_rename.2 h) r2
              change (rule.head.rename (s.nv + ·)).NoWild
              cases hh : rule.head.rename (s.nv + ·) <;> rw [hh] at this <;> simp only [Term.Parts] at this
              exact ⟨by simp, Term.everyL_iff.2 this.1⟩
            exact ((hgr.left sc hsub (groundIn_over hE₂ hov fun _ => hwild)).occurs hx).strict (fun x t h => (hok x t h).1)
              (by simp [Term.NoWild, Term.Every])
        · intro σ hσ hh
          obtain ⟨r, hr, hm⟩ := h7 σ hσ hh
          rcases List.mem_cons.1 hr with rfl | hr
          · obtain ⟨σ', j1, j2, j3, j4⟩ := sat_extend hst hrule h1.bound hf.below ((models_same h3).2 hσ) hm
            exact Or.inl ⟨σ', j1.mono hk, (hy.2 σ').2 ⟨j2, j3⟩, j4⟩
          · exact Or.inr ⟨r, hr, hm⟩
      | false =>
        have hsame : Same s.b (reroll b' d) := reroll_push h5 hb
        refine (ih (.ruleHead d t rest) ⟨reroll b' d, s.nv + rule.bound, s.w⟩ k b₀ E ρ hsw (hf.same hsame.scope hle)
          (Nat.le_trans hk hle) ⟨grp, h1.mono hle, hrest, hE, h3.trans hsame, h4,
            Nat.lt_of_lt_of_le h5 hsame.2, ?_⟩).weaken hle (fun _ _ hh => hh)
        intro σ hσ hh
        obtain ⟨r, hr, hm⟩ := h7 σ hσ hh
        rcases List.mem_cons.1 hr with rfl | hr
        · obtain ⟨σ', j1, j2, j3, j4⟩ := sat_extend hst hrule h1.bound hf.below ((models_same h3).2 hσ) hm
          exact absurd j3 (hu.no _ hx σ' j2)
        · exact ⟨r, hr, hm⟩
  · -- rule
    rename_i d t rest inner
    obtain ⟨⟨grp, h1, h2⟩, hE, b₁, b₂, k₂, E₂, ρ₂, h4, h5, h6, h7, h8, h9, h10, h12, h11⟩ := h
    have hsub : b₀.scope.Sub b₂.scope := h4.subScope.trans h7.subScope
    refine (ih _ _ _ _ _ _ hsw hf h10 h8).onNext ?_ ?_
    · intro g' s' ρ' i1 i2 i3 i4 i5 i5' i6 i7
      refine .mkSome (g := .rule ..)
        (fun σ => (∃ σ', EqBelow k σ σ' ∧ Models σ' b₂.scope ∧ ρ' σ') ∨ ∃ r ∈ rest, SatRule w σ t r) i1 i2 i3 i4 (hsub.trans i5)
        (h12 _ i5 i3.ok i5')
        ⟨⟨grp, h1.mono i2, h2⟩, hE, b₁, b₂, k₂, E₂, ρ', h4, h5, h6, h7, i6, h9, Nat.le_trans h10 i2, h12, fun _ _ hh => hh⟩ ?_
      intro σ hσ hh
      rcases h11 σ hσ hh with ⟨σ', j1, j2, j3⟩ | j
      · rcases i7 σ' j2 j3 with ⟨σ'', j4, j5⟩ | j4
        · exact Or.inl ⟨σ'', j1.trans (j4.mono h9), j5⟩
        · exact Or.inr (Or.inl ⟨σ', j1, j2, j4⟩)
      · exact Or.inr (Or.inr j)
    · intro s' i1 i2 i3 i4 i5
      have hab : Above (b₁.pushCp d) s'.b := h7.trans (Same.above i4)
      have hsame : Same b₁ (reroll s'.b d) := reroll_push h6 hab
      refine (ih (.ruleHead d t rest) { s' with b := reroll s'.b d } k b₀ E ρ i1 ?_ (Nat.le_trans hk i2)
        ⟨grp, h1.mono i2, h2, hE, h4.trans hsame, h5, Nat.lt_of_lt_of_le h6 hsame.2, ?_⟩).weaken i2
        (fun _ _ hh => hh)
      · exact (i3.back (s' := { s' with b := b₁.pushCp d }) hab (Nat.le_refl _)).same hsame.scope (Nat.le_refl _)
      · intro σ hσ hh
        rcases h11 σ hσ hh with ⟨σ', j1, j2, j3⟩ | j
        · exact absurd j3 (i5 σ' j2)
        · exact j
  · -- start and
    rename_i l rq
    obtain ⟨⟨D, d1, d2, d3⟩, h1, h2, h3, h4, h5⟩ := h
    simp only [Query.bound, Nat.max_le] at h3
    exact ih (.andHead ..) _ _ _ _ _ hsw hf hk ⟨h1.2, h2.2, h3.2, l.after D, fun σ => Sat w σ l, d1.2, d2,
      ⟨⟨D, d1.1, fun _ h => h, d3⟩, h1.1, h2.1, h3.1, h4, fun σ _ hh => hh⟩, fun σ hσ hh => sat_and_iff.1 (h5 σ hσ hh)⟩
  · -- andHead
    rename_i l rq
    obtain ⟨h1, h2, h3, D, ρ₁, d1, d2, h4, h5⟩ := h
    refine (ih _ _ _ _ _ _ hsw hf hk h4).onNext ?_ ?_
    · intro g' s' ρ' i1 i2 i3 i4 i5 i5' i6 i7
      refine (ih (.and g' rq (.start rq)) s' k b₀ E ρ i1 i3 (Nat.le_trans hk i2) ⟨h1, h2, h3, i4, D, ρ', s'.b, k, fun σ => Sat w σ rq, d1, d2, i6,
        ⟨⟨D, d1, d2, i5'⟩, h1, h2, h3, .refl _, fun σ _ hh => hh⟩, Nat.le_refl _, Nat.le_trans hk i2, ?_⟩).weaken i2
        (fun _ _ hh => hh)
      intro σ hσ hh
      obtain ⟨j1, j2⟩ := h5 σ hσ hh
      rcases i7 σ hσ j1 with ⟨σ', j3, j4⟩ | j3
      · exact Or.inl ⟨σ', j3, j4, (sat_congr hst h1 (j3.mono h3)).1 j2⟩
      · exact Or.inr ⟨j3, j2⟩
    · intro s' i1 i2 i3 i4 i5
      exact .mkNone i1 i2 i3 i4 fun σ hσ hh => i5 σ hσ (h5 σ hσ hh).1
  · -- and
    rename_i l rq r
    obtain ⟨h1, h2, h3, h4, D, ρ₁, b₁, k₁, ρ₂, d1, d2, h5, h6, h7, h8, h9⟩ := h
    have hsub : b₀.scope.Sub b₁.scope := (KInv.above h5).subScope
    refine (ih _ _ _ _ _ _ hsw hf h8 h6).onNext ?_ ?_
    · intro g' s' ρ' i1 i2 i3 i4 i5 i5' i6 i7
      refine .mkSome (g := .and ..)
        (fun σ => (∃ σ', EqBelow k σ σ' ∧ Models σ' b₁.scope ∧ ρ' σ') ∨ (ρ₁ σ ∧ Sat w σ rq)) i1 i2 i3 ⟨h4, i4⟩ (hsub.trans i5) i5'
        ⟨h1, h2, h3, h4, D, ρ₁, b₁, k₁, ρ', d1, d2, h5.mono i2, i6, h7, Nat.le_trans h8 i2, fun σ _ hh => hh⟩ ?_
      intro σ hσ hh
      rcases h9 σ hσ hh with ⟨σ', j1, j2, j3⟩ | j
      · rcases i7 σ' j2 j3 with ⟨σ'', j4, j5⟩ | j4
        · exact Or.inl ⟨σ'', j1.trans (j4.mono h7), j5⟩
        · exact Or.inr (Or.inl ⟨σ', j1, j2, j4⟩)
      · exact Or.inr (Or.inr j)
    · intro s' i1 i2 i3 i4 i5
      refine (ih (.andHead ..) s' k b₀ E ρ i1 i3 (Nat.le_trans hk i2) ⟨h1, h2, h3, D, ρ₁, d1, d2, (h5.closed h4 i4).mono i2, ?_⟩).weaken i2
        (fun _ _ hh => hh)
      intro σ hσ hh
      rcases h9 σ hσ hh with ⟨σ', j1, j2, j3⟩ | j
      · exact absurd j3 (i5 σ' j2)
      · exact j
  · -- start or
    rename_i l rq
    obtain ⟨⟨D, d1, d2, d3⟩, h1, h2, h3, h4, h5⟩ := h
    simp only [Query.bound, Nat.max_le] at h3
    exact ih (.or ..) _ _ _ _ _ hsw hf hk ⟨h1.2, h2.2, h3.2, D, s.b, fun σ => Sat w σ l, d1.2, fun x hx => (d2 x hx).2, d3, h4,
      ⟨⟨D, d1.1, fun x hx => (d2 x hx).1, d3.mono h4.subScope⟩, h1.1, h2.1, h3.1, .refl _, fun σ _ hh => hh⟩,
      fun σ hσ hh => sat_or_iff.1 (h5 σ hσ hh)⟩
  · -- or
    rename_i l rq
    obtain ⟨h1, h2, h3, D, b₁, ρ₁, d1, d2, d3, h4, h5, h7⟩ := h
    refine (ih _ _ _ _ _ _ hsw hf hk h5).onNext ?_ ?_
    · intro g' s' ρ' i1 i2 i3 i4 i5 i5' i6 i7
      refine .mkSome (g := .or ..) (fun σ => ρ' σ ∨ Sat w σ rq) i1 i2 i3 i4 (h4.subScope.trans i5) i5'
        ⟨h1, h2, h3, D, b₁, ρ', d1, d2, d3, h4, i6, fun σ _ hh => hh⟩ ?_
      intro σ hσ hh
      rcases h7 σ hσ hh with j | j
      · rcases i7 σ ((models_same h4).2 hσ) j with j | j
        · exact Or.inl j
        · exact Or.inr (Or.inl j)
      · exact Or.inr (Or.inr j)
    · intro s' i1 i2 i3 i4 i5
      refine (ih (.start _) s' k b₀ E (fun σ => Sat w σ rq) i1 i3 (Nat.le_trans hk i2)
        ⟨⟨D, d1, d2, d3⟩, h1, h2, h3, h4.trans i4, fun σ _ hh => hh⟩).weaken i2 ?_
      intro σ hσ hh
      exact (h7 σ hσ hh).resolve_left (i5 σ ((models_same h4).2 hσ))
  · -- not
    rename_i q
    obtain ⟨⟨D, d1, d2, d3⟩, ⟨h1, h1', h1''⟩, _, h2, h3, h5⟩ := h
    have e := (lower_run hst n (.start q) { s with b := s.b.mark } hsw h1'').eq
    have hl := @gnext_logic W A G _ (lowerWorld P inst) w c true (lower_kb hst) (fun _ => lower_ground hst) n (.start q)
      { s with b := s.b.mark } k s.b.mark (fun σ => @Holds W A G _ (lowerWorld P inst) w σ q) (fun σ => @Holds W A G _ (lowerWorld P inst) w σ q) hsw
      (hf.same rfl (Nat.le_refl _)) hk
      ⟨lower_ok h1, fun _ => h1', h2, rel_refl _ _, fun _ _ h => h, fun _ _ _ hh => hh⟩
    rw [← e] at hl
    have hsome := @QOut.onSome W A G _ (lowerWorld P inst) w c true _ _ _ _ _ _ hl
    have hnone := @QOut.onNone W A G _ (lowerWorld P inst) w c true _ _ _ _ _ _ hl
    cases hx : gnext n (.start q : Gen A G) { s with b := s.b.mark } with
    | oof => exact .oof
    | err ex b' => exact .err
    | ok o s₁ =>
      cases o with
      | some g' =>
        obtain ⟨i1, i2, i3, i4, i5, ρ', i6, i7⟩ := hsome _ _ hx
        have hsame : Same s.b (reroll s₁.b s.b.ncp) := same_reroll (@QInv.above W A G _ (lowerWorld P inst) w c true _ _ _ _ _ _ _ i6)
        refine .mkNone (s := { s₁ with b := reroll s₁.b s.b.ncp }) i1 i2 (hf.same hsame.scope i2) (h3.trans hsame) ?_
        intro σ hσ hh
        have hσ' := (models_same h3).2 hσ
        have hO : ∀ x t, GroundIn false s.b.scope (.var x) → s.b.scope x = some t →
            t.Fit (fun x => GroundIn false s.b.scope (.var x)) (HasVal s.nv σ) := by
          intro x t hx ht
          cases hx with
          | var h1 h2 =>
            rw [ht] at h1
            cases h1
            exact fit_of_den h2.over (hf.below x t ht).2 ⟨_, hσ' x t ht⟩
        have hgr := gnext_ground hs hf.below hO n (.start q) { s with b := s.b.mark } (fun _ => False) s.b.mark (fun _ => False) hsw (Nat.le_refl _)
          ⟨⟨h1, h1', h1'', d1.2, Query.Over.mono (fun x hx => .inr ((d3 x hx).mono h3.subScope)) d1.1⟩,
            ⟨D, Query.safe_over h1 d1.1, nofun, d3.mono h3.subScope⟩,
            ⟨hf.ok, nofun, fun _ _ => rfl, nofun⟩, .refl _⟩
        obtain ⟨_, _, _, _, ⟨S, _, j1, j2⟩, _⟩ := hgr.onSome _ _ hx
        obtain ⟨τ, j3, j4⟩ := neat_models j1 (fun x hx => (j2 x hx).resolve_left id) hσ' hf.below
        refine sat_not_iff.1 (h5 σ hσ hh) ((holds_lower_iff hst h1'').2 ?_)
        exact (@holds_congr _ W A G (lowerWorld P inst) w c (lower_kb hst) σ τ q (j3.mono (Nat.le_trans h2 hk))).2 (i5 τ j4)
      | none =>
        obtain ⟨i1, i2, i3, i4, i5⟩ := hnone _ hx
        have hsame : Same s.b (reroll s₁.b s.b.ncp) := same_reroll (rel_above i4)
        exact .mkSome (s := { s₁ with b := reroll s₁.b s.b.ncp }) (g := .done) (fun _ => False) i1 i2 (hf.same hsame.scope i2) trivial
          (h3.trans hsame).subScope (fun x hx => (d3 x (d2 x hx)).mono (h3.trans hsame).subScope) ⟨h3.trans hsame, by simp⟩
          (fun σ hσ _ => .inl ⟨σ, .refl _ _, (models_same (h3.trans hsame)).2 hσ⟩)
  · -- unify
    rename_i l t
    obtain ⟨⟨D, d1, d2, d3⟩, h1, h2, h3, h4, h5⟩ := h
    simp only [Query.bound, Nat.max_le] at h3
    have h1 : (Query.unify (A := A) l t).OK w c := h1
    refine ua _ _ _ _ (fun σ => Holds w σ (.unify l t)) (fun _ => False) h4 (Nat.le_trans h3.1 hk) (Nat.le_trans h3.2 hk) ?_
      (ua_unify h1 (fun _ => h2) hf.ok) (fun _ => trivial) (fun b hb => ⟨⟨s.b, h4, rfl, hb⟩, fun _ _ hh => hh⟩) ?_
      (fun σ hσ hh => Or.inl (holds_unify_iff.2 (sat_unify_iff.1 (h5 σ hσ hh)))) ?_
    · intro hl m t' hev
      refine evaluate_notVar ?_ ?_ hev
      · rcases h1 with h1 | h1
        · rintro rfl
          simpa using h1.2.2.2.2.1
        · rintro rfl
          simpa [Term.Parts] using h1.2.1
      · rcases h1 with h1 | h1
        · exact h1.2.2.2.2.2 hl
        · rintro y rfl
          simpa [Term.Parts] using h1.2.1
    · have hnw : l.NoWild ∧ t.NoWild := by
        rcases h1 with h1 | h1
        · exact ⟨h1.2.2.2.1, h1.2.2.2.2.1⟩
        · obtain ⟨_, _, h1, h2⟩ := h1
          constructor
          · cases l <;> simp only [Term.Parts] at h1
            exact ⟨by simp, Term.everyL_iff.2 h1.1⟩
          · cases t <;> simp only [Term.Parts] at h2
            exact ⟨by simp, Term.everyL_iff.2 h2.1⟩
      intro b' hg hok x hx
      have hsub := h4.subScope.trans hg.sub
      rcases d2 x hx with hx | ⟨j1, j2⟩ | ⟨j1, j2⟩
      · exact (d3 x hx).mono hsub
      · exact ((hg.right _ (.refl _) (groundIn_over (d3.mono hsub) j1 fun _ => hnw.1)).occurs j2).strict (fun x t h => (hok x t h).1)
          (by simp [Term.NoWild, Term.Every])
      · exact ((hg.left _ (.refl _) (groundIn_over (d3.mono hsub) j1 fun _ => hnw.2)).occurs j2).strict (fun x t h => (hok x t h).1)
          (by simp [Term.NoWild, Term.Every])
    · intro s' i1 i2 i3 i4
      exact .mkNone i1 (Nat.le_of_eq i2) i3 (h4.trans i4) fun _ _ hh => hh
  · -- ua
    obtain ⟨⟨b₁, h1, rfl, h3⟩, h4⟩ := h
    have hsame : Same b₁ (uaResume b₁.ncp s.b) := same_reroll h3
    exact .mkNone hsw (Nat.le_refl _) (hf.reroll ((above_mark _).trans h3) hsame (Nat.le_refl _)) (h1.trans hsame) h4

theorem drain_complete (hs : SafeStrata w c P M) {g : Gen A G} {s s' : QSt W} {l : List (QSt W)} {k : Nat} {b₀ : BSt} {E : VarId → Prop}
    (h : Drain (Uses c true) g s l s') :
    ∀ ρ, s.w = w → Fine c s → k ≤ s.nv → KInv w c P M s.nv g k b₀ s.b E ρ → ∀ σ, Models σ b₀.scope → ρ σ →
      ∃ s₁ ∈ l, ∃ σ', EqBelow k σ σ' ∧ Models σ' s₁.b.scope := by
  induction h with
  | stop hn =>
    intro ρ h1 h2 h3 h4 σ hσ hρ
    obtain ⟨_, _, _, _, h5⟩ := (gnext_complete hs _ _ _ _ _ _ _ h1 h2 h3 h4).onNone _ hn
    exact absurd hρ (h5 σ hσ)
  | next hn hr _ ih =>
    intro ρ h1 h2 h3 h4 σ hσ hρ
    obtain ⟨i1, i2, _, i4, _, _, ρ', i6, i7⟩ := (gnext_complete hs _ _ _ _ _ _ _ h1 h2 h3 h4).onSome _ _ hn
    obtain ⟨j1, j2, j3, j4⟩ := hr
    rcases i7 σ hσ hρ with ⟨σ', hh⟩ | hh
    · exact ⟨_, by simp, σ', hh⟩
    · obtain ⟨s₁, hs, hh⟩ := ih ρ' (j1.trans i1) j4 (Nat.le_trans h3 (Nat.le_trans i2 j2)) ((i6.closed i4 (by simpa [rel] using j3)).mono j2) σ hσ hh
      exact ⟨s₁, by simp [hs], hh⟩

theorem answer_ground (hs : SafeStrata w c P M) {g : Gen A G} {s s' : QSt W} {k : Nat} {b₀ : BSt} {E : VarId → Prop}
    (h : Answer (Uses c true) g s s') :
    ∀ ρ, s.w = w → Fine c s → k ≤ s.nv → KInv w c P M s.nv g k b₀ s.b E ρ → GroundVars s'.b.scope E := by
  induction h with
  | now hn =>
    intro ρ h1 h2 h3 h4
    exact ((gnext_complete hs _ _ _ _ _ _ _ h1 h2 h3 h4).onSome _ _ hn).2.2.2.2.2.1
  | later hn hr _ ih =>
    intro ρ h1 h2 h3 h4
    obtain ⟨i1, i2, _, i4, _, _, ρ', i6, i7⟩ := (gnext_complete hs _ _ _ _ _ _ _ h1 h2 h3 h4).onSome _ _ hn
    obtain ⟨j1, j2, j3, j4⟩ := hr
    exact ih ρ' (j1.trans i1) j4 (Nat.le_trans h3 (Nat.le_trans i2 j2)) ((i6.closed i4 (by simpa [rel] using j3)).mono j2)

theorem drain_idle_safe (hs : SafeStrata w c P M) {g : Gen A G} {s s' : QSt W} {l : List (QSt W)} {k : Nat} {b₀ : BSt} {E : VarId → Prop}
    (h : Drain (fun s s' => s' = s) g s l s') :
    ∀ ρ, s.w = w → Fine c s → k ≤ s.nv → KInv w c P M s.nv g k b₀ s.b E ρ → Drain (Uses c true) g s l s' := by
  induction h with
  | stop hn => exact fun _ _ _ _ _ => .stop hn
  | next hn hr _ ih =>
    intro ρ h1 h2 h3 h4
    subst hr
    obtain ⟨i1, i2, i3, i4, _, _, ρ', i6, _⟩ := (gnext_complete hs _ _ _ _ _ _ _ h1 h2 h3 h4).onSome _ _ hn
    exact .next hn ⟨rfl, Nat.le_refl _, rel_refl _ _, i3⟩ (ih ρ' i1 i3 (Nat.le_trans h3 i2) i6)

theorem not_done {n : Nat} {q : Query A} {g : Gen A G} {s s' : QSt W} (h : gnext n (.start (.not q) : Gen A G) s = .ok (some g) s') : g = .done := by
  cases n with
  | zero => cases h
  | succ n =>
    rw [gnext] at h
    unfold gstep at h
    cases hx : gnext n (.start q : Gen A G) { s with b := s.b.mark } with
    | oof => simp [hx, Res.onNext] at h
    | err e s₁ => simp [hx, Res.onNext] at h
    | ok o s₁ =>
      cases o with
      | none => simp [hx, Res.onNext] at h; exact h.1.symm
      | some g' => simp [hx, Res.onNext] at h

end

end Verif
