import Verif.Lemmas.DeepMeaning

/-! Answers of ground queries with nested negation have a model that agrees with a given one on the old variables. -/

namespace Verif.Deep

section
variable {W A G : Type} [Arith] [inst : QWorld W A G]
variable {P M : String × Nat → Prop} {w : W} {c : Bool} {m : Nat} {O : Term → Prop} {sc₀ : Scope}

/-- Conditions on queries. -/
structure GQuery (w : W) (c : Bool) (P : String × Nat → Prop) (sc₀ : Scope) (S : VarId → Prop) (q : Query A) : Prop where
  ok : q.DeepOK w c P
  annots : q.GroundAnnots
  within : q.DeepIn P
  plain : q.Plain
  over : q.Over (Usable sc₀ S)

/-- Invariant of a suspended generator that was started in `b₀`; the state is `b` now.  The variables of `E` are
ground in all answers. -/
def FitInv (w : W) (c : Bool) (P M : String × Nat → Prop) (m : Nat) (O : Term → Prop) (sc₀ : Scope) :
    Gen A G → (VarId → Prop) → BSt → BSt → (VarId → Prop) → Prop
  | .start q, S, b₀, b, E => GQuery w c P sc₀ S q ∧ (∃ D, q.Safe M D ∧ (∀ x, E x → q.after D x) ∧ GroundVars b₀.scope D) ∧
    Neat c m O sc₀ S b₀.scope ∧ Same b₀ b
  | .done, _, b₀, b, _ => Same b₀ b
  | .act _, _, _, _, _ => False
  | .ua d, _, b₀, b, _ => ∃ b₁, Same b₀ b₁ ∧ d = b₁.ncp ∧ Above b₁.mark b
  | .belHead grp t rest _, S, b₀, b, E => GLit w c P O sc₀ S t grp ∧ (∀ x ∈ rest, x ∈ QWorld.beliefs w grp) ∧
    Call M b₀.scope t E ∧ Neat c m O sc₀ S b₀.scope ∧ Same b₀ b
  | .bel d grp t rest _, S, b₀, b, E => GLit w c P O sc₀ S t grp ∧ (∀ x ∈ rest, x ∈ QWorld.beliefs w grp) ∧
    Call M b₀.scope t E ∧ Neat c m O sc₀ S b₀.scope ∧
    ∃ b₁, Same b₀ b₁ ∧ d = b₁.ncp ∧ Above b₁.mark b
  | .ruleHead d t rest, S, b₀, b, E => ∃ grp, GLit w c P O sc₀ S t grp ∧ (∀ r ∈ rest, r ∈ QWorld.rules w grp) ∧
    Call M b₀.scope t E ∧ Neat c m O sc₀ S b₀.scope ∧ Same b₀ b ∧ b₀.ncp ≤ d ∧ d < b.ncp
  | .rule d t rest inner, S, b₀, b, E => (∃ grp, GLit w c P O sc₀ S t grp ∧ (∀ r ∈ rest, r ∈ QWorld.rules w grp)) ∧
    Call M b₀.scope t E ∧ Neat c m O sc₀ S b₀.scope ∧
    ∃ b₁ b₂ S₂ E₂, Same b₀ b₁ ∧ b₀.ncp ≤ d ∧ d < b₁.ncp ∧ Above (b₁.pushCp d) b₂ ∧ FitInv w c P M m O sc₀ inner S₂ b₂ b E₂ ∧
      (∀ x, S₂ x → S x ∨ E₂ x) ∧ (∀ x, S x → S₂ x) ∧
      ∀ sc, b₂.scope.Sub sc → ScopeOK c sc → GroundVars sc E₂ → GroundVars sc E
  | .andHead l rq, S, b₀, b, E => GQuery w c P sc₀ S rq ∧ ∃ D, rq.Safe M D ∧ (∀ x, E x → rq.after D x) ∧ FitInv w c P M m O sc₀ l S b₀ b D
  | .and l rq r, S, b₀, b, E => GQuery w c P sc₀ S rq ∧ Susp (fun _ => True) l ∧
    ∃ D b₁ S₁, rq.Safe M D ∧ (∀ x, E x → rq.after D x) ∧ FitInv w c P M m O sc₀ l S b₀ b₁ D ∧ FitInv w c P M m O sc₀ r S₁ b₁ b E ∧
      (∀ x, S x → S₁ x) ∧ ∀ x, S₁ x → S x ∨ GroundIn false b₁.scope (.var x)
  | .or l rq, S, b₀, b, E => GQuery w c P sc₀ S rq ∧
    ∃ D b₁, rq.Safe M D ∧ (∀ x, E x → rq.after D x) ∧ GroundVars b₀.scope D ∧ Neat c m O sc₀ S b₀.scope ∧ Same b₀ b₁ ∧
      FitInv w c P M m O sc₀ l S b₁ b E

omit [Arith] in
theorem FitInv.above : ∀ {g : Gen A G} {S : VarId → Prop} {b₀ b : BSt} {E : VarId → Prop},
    FitInv w c P M m O sc₀ g S b₀ b E → Above b₀ b
  | .start _, _, _, _, _, h => Same.above h.2.2.2
  | .done, _, _, _, _, h => Same.above h
  | .ua _, _, _, _, _, ⟨_, h1, _, h2⟩ => (Same.above h1).trans ((above_mark _).trans h2)
  | .belHead .., _, _, _, _, h => Same.above h.2.2.2.2
  | .bel .., _, _, _, _, ⟨_, _, _, _, _, h1, _, h2⟩ => (Same.above h1).trans ((above_mark _).trans h2)
  | .ruleHead .., _, _, _, _, ⟨_, _, _, _, _, h, _⟩ => Same.above h
  | .rule .., _, _, _, _, ⟨_, _, _, _, _, _, _, h1, h2, h3, h4, h5, _⟩ =>
    (above_push h3 h2 (Same.above h1)).trans (h4.trans (FitInv.above h5))
  | .andHead .., _, _, _, _, ⟨_, _, _, _, h⟩ => FitInv.above h
  | .and .., _, _, _, _, ⟨_, _, _, _, _, _, _, h1, h2, _⟩ => (FitInv.above h1).trans (FitInv.above h2)
  | .or .., _, _, _, _, ⟨_, _, _, _, _, _, _, h1, h2⟩ => (Same.above h1).trans (FitInv.above h2)

omit [Arith] in
theorem FitInv.closed : ∀ {g : Gen A G} {S : VarId → Prop} {b₀ b b' : BSt} {E : VarId → Prop},
    FitInv w c P M m O sc₀ g S b₀ b E → Susp (fun _ => True) g → Same b b' → FitInv w c P M m O sc₀ g S b₀ b' E
  | .done, _, _, _, _, _, h, _, hb => h.trans hb
  | .ua _, _, _, _, _, _, ⟨b₁, h1, h2, h3⟩, _, hb => ⟨b₁, h1, h2, h3.trans (Same.above hb)⟩
  | .bel .., _, _, _, _, _, ⟨i1, i2, i3, i4, b₁, h1, h2, h3⟩, _, hb => ⟨i1, i2, i3, i4, b₁, h1, h2, h3.trans (Same.above hb)⟩
  | .rule .., _, _, _, _, _, ⟨i1, i2, i3, b₁, b₂, S₂, E₂, h1, h2, h3, h4, h5, h6⟩, hs, hb =>
    ⟨i1, i2, i3, b₁, b₂, S₂, E₂, h1, h2, h3, h4, FitInv.closed h5 hs hb, h6⟩
  | .and .., _, _, _, _, _, ⟨i1, i2, D, b₁, S₁, j, h0, h1, h2, h3⟩, hs, hb =>
    ⟨i1, i2, D, b₁, S₁, j, h0, h1, FitInv.closed h2 hs.2 hb, h3⟩
  | .or .., _, _, _, _, _, ⟨i1, D, b₁, j, h0, h1, h2, h3, h4⟩, hs, hb => ⟨i1, D, b₁, j, h0, h1, h2, h3, FitInv.closed h4 hs hb⟩

/-- What `next` must do. -/
structure FitOut (w : W) (c : Bool) (P M : String × Nat → Prop) (m : Nat) (O : Term → Prop) (sc₀ : Scope) (N : Nat) (S : VarId → Prop)
    (b₀ : BSt) (E : VarId → Prop) (x : Res (QSt W) (Option (Gen A G))) : Prop where
  onNone : ∀ s', x = .ok none s' → s'.w = w ∧ N ≤ s'.nv ∧ Same b₀ s'.b
  onSome : ∀ g' s', x = .ok (some g') s' → s'.w = w ∧ N ≤ s'.nv ∧ Susp (fun _ => True) g' ∧ GroundVars s'.b.scope E ∧
    (∃ S', (∀ x, S x → S' x) ∧ Neat c m O sc₀ S' s'.b.scope ∧ ∀ x, S' x → S x ∨ GroundIn false s'.b.scope (.var x)) ∧
    FitInv w c P M m O sc₀ g' S b₀ s'.b E

variable {N : Nat} {S : VarId → Prop} {b₀ : BSt} {E : VarId → Prop}

omit [Arith] in
theorem FitOut.oof : FitOut (A := A) (G := G) w c P M m O sc₀ N S b₀ E .oof := ⟨nofun, nofun⟩

omit [Arith] in
theorem FitOut.err {e : Err} {s : QSt W} : FitOut (A := A) (G := G) w c P M m O sc₀ N S b₀ E (.err e s) := ⟨nofun, nofun⟩

omit [Arith] in
theorem FitOut.mkNone {s : QSt W} (h1 : s.w = w) (h2 : N ≤ s.nv) (h3 : Same b₀ s.b) :
    FitOut (A := A) (G := G) w c P M m O sc₀ N S b₀ E (.ok none s) :=
  ⟨fun s' h => by cases h; exact ⟨h1, h2, h3⟩, nofun⟩

omit [Arith] in
theorem FitOut.mkSome {s : QSt W} {g : Gen A G} (S' : VarId → Prop) (h1 : s.w = w) (h2 : N ≤ s.nv) (h3 : Susp (fun _ => True) g)
    (h4 : GroundVars s.b.scope E) (h5 : ∀ x, S x → S' x) (h6 : Neat c m O sc₀ S' s.b.scope)
    (h7 : ∀ x, S' x → S x ∨ GroundIn false s.b.scope (.var x)) (h8 : FitInv w c P M m O sc₀ g S b₀ s.b E) :
    FitOut (A := A) (G := G) w c P M m O sc₀ N S b₀ E (.ok (some g) s) :=
  ⟨nofun, fun g' s' h => by cases h; exact ⟨h1, h2, h3, h4, ⟨S', h5, h6, h7⟩, h8⟩⟩

omit [Arith] in
theorem FitOut.weaken {N' : Nat} {x : Res (QSt W) (Option (Gen A G))} (h : FitOut w c P M m O sc₀ N' S b₀ E x) (hN : N ≤ N') :
    FitOut w c P M m O sc₀ N S b₀ E x where
  onNone := fun s' hx => by
    obtain ⟨h1, h2, h3⟩ := h.onNone s' hx
    exact ⟨h1, Nat.le_trans hN h2, h3⟩
  onSome := fun g' s' hx => by
    obtain ⟨h1, h2, h3⟩ := h.onSome g' s' hx
    exact ⟨h1, Nat.le_trans hN h2, h3⟩

omit [Arith] in
theorem FitOut.onNext {N' : Nat} {S₁ : VarId → Prop} {b₁ : BSt} {E₁ : VarId → Prop} {x : Res (QSt W) (Option (Gen A G))}
    {f : Gen A G → QSt W → Res (QSt W) (Option (Gen A G))} {l : QSt W → Res (QSt W) (Option (Gen A G))}
    (h : FitOut w c P M m O sc₀ N' S₁ b₁ E₁ x)
    (hs : ∀ g' s' S', s'.w = w → N' ≤ s'.nv → Susp (fun _ => True) g' → GroundVars s'.b.scope E₁ → (∀ x, S₁ x → S' x) →
      Neat c m O sc₀ S' s'.b.scope → (∀ x, S' x → S₁ x ∨ GroundIn false s'.b.scope (.var x)) → FitInv w c P M m O sc₀ g' S₁ b₁ s'.b E₁ →
      FitOut w c P M m O sc₀ N S b₀ E (f g' s'))
    (hn : ∀ s', s'.w = w → N' ≤ s'.nv → Same b₁ s'.b → FitOut w c P M m O sc₀ N S b₀ E (l s')) :
    FitOut w c P M m O sc₀ N S b₀ E (x.onNext f l) := by
  cases x with
  | oof => exact .oof
  | err ex s' => exact .err
  | ok o s' =>
    cases o with
    | none => obtain ⟨h1, h2, h3⟩ := h.onNone s' rfl; exact hn s' h1 h2 h3
    | some g' =>
      obtain ⟨h1, h2, h3, h4, ⟨S', h5, h6, h7⟩, h8⟩ := h.onSome g' s' rfl
      exact hs g' s' S' h1 h2 h3 h4 h5 h6 h7 h8

omit [Arith] in
theorem GQuery.mono {S' : VarId → Prop} {q : Query A} (h : GQuery w c P sc₀ S q) (hS : ∀ x, S x → S' x) : GQuery w c P sc₀ S' q :=
  ⟨h.ok, h.annots, h.within, h.plain, Query.Over.mono (fun x => Or.imp (hS x) id) h.over⟩

theorem gnext_ground (hs : DeepStrata w c P M) (hB : ScopeBelow m sc₀)
    (hO : ∀ x t, GroundIn false sc₀ (.var x) → sc₀ x = some t → t.Fit (fun x => GroundIn false sc₀ (.var x)) O) (n : Nat) :
    ∀ (g : Gen A G) (s : QSt W) (S : VarId → Prop) (b₀ : BSt) (E : VarId → Prop), s.w = w → m ≤ s.nv →
      FitInv w c P M m O sc₀ g S b₀ s.b E → FitOut w c P M m O sc₀ s.nv S b₀ E (gnext n g s) := by
  induction n
  case zero => exact fun _ _ _ _ _ _ _ _ => .oof
  rename_i n ih
  intro g s S b₀ E hsw hm h
  have hst := hs
  have ua : ∀ (l t : Term) (f : Nat → Gen A G) (kk : QSt W → Res (QSt W) (Option (Gen A G))),
      Same b₀ s.b → Neat c m O sc₀ S b₀.scope →
      (l.isLiteral = true → ∀ n t', evaluate n s.b.scope t = .ok t' → t' ≠ .wild ∧ ∀ y, t' ≠ .var y) →
      (∀ d b', uaStart n l t s.b = .ok (some d) b' → ScopeOK c b'.scope) →
      (∀ (I : Scope → Prop) d b', Binds (Usable sc₀ S) O I → I s.b.scope → uaStart n l t s.b = .ok (some d) b' → I b'.scope) →
      (∀ c, Susp (fun _ => True) (f c)) → (∀ b, Above s.b.mark b → FitInv w c P M m O sc₀ (f s.b.ncp) S b₀ b E) →
      (∀ b', Grounds l t s.b b' → ScopeOK c b'.scope → GroundVars b'.scope E) →
      (∀ s' : QSt W, s'.w = w → s.nv = s'.nv → Same s.b s'.b → FitOut w c P M m O sc₀ s.nv S b₀ E (kk s')) →
      FitOut w c P M m O sc₀ s.nv S b₀ E ((s.onB (uaStart n l t)).onNext (fun c s => .ok (some (f c)) s) kk) := by
    intro l t f kk hb hneat hv hsc hbind hfs hg hE hkk
    have tr := ua_trail n l t s.b
    unfold QSt.onB
    cases hx : uaStart n l t s.b with
    | oof => exact .oof
    | err ex b' => exact .err
    | ok o b' =>
      cases o with
      | none => exact hkk { s with b := b' } hsw rfl (tr.none _ hx)
      | some d =>
        have hgr := ua_grounds hx
        have hok := hsc _ _ hx
        have hnew := hbind _ _ _ (binds_neat hO) ⟨(hneat.same hb).old, (hneat.same hb).fit⟩ hx
        obtain ⟨rfl, _, h2⟩ := tr.some _ _ hx
        have ha : Above s.b.mark b' := by
          rcases h2 with h2 | ⟨hl, m, r', hev, h2⟩
          · exact h2
          · have := hv hl m r' hev
            rcases h2 with rfl | ⟨y, rfl⟩
            · exact absurd rfl this.1
            · exact absurd rfl (this.2 y)
        exact .mkSome (s := { s with b := b' }) S hsw (Nat.le_refl _) (hfs _) (hE _ hgr hok) (fun _ h => h) ⟨hok, hneat.new, hnew.1, hnew.2⟩
          (fun _ h => .inl h) (hg _ ha)
  have evlit : ∀ (sc : Scope) (m : Nat) (f : String) (as xs : List Term) (t' : Term), evaluate m sc (.lit f as xs) = .ok t' →
      t' = .lit f as xs := by
    intro sc m f as xs t' hh
    cases m <;> simp [evaluate] at hh
    exact hh.symm
  rw [gnext]
  unfold gstep
  split
  · -- done
    exact .mkNone hsw (Nat.le_refl _) h
  · -- true
    obtain ⟨_, ⟨D, d1, d2, d3⟩, h1, h2⟩ := h
    exact .mkSome (g := .done) S hsw (Nat.le_refl _) trivial (fun x hx => (d3 x (d2 x hx)).mono h2.subScope) (fun _ h => h)
      (h1.same h2) (fun _ h => .inl h) h2
  · -- false
    exact .mkNone hsw (Nat.le_refl _) h.2.2.2
  · exact h.1.ok.elim
  · exact h.elim
  · -- term
    rename_i t
    obtain ⟨hq, ⟨D, d1, d2, d3⟩, h1, h2⟩ := h
    cases hx : evaluate n s.b.scope t with
    | oof => exact .oof
    | err ex => exact .err
    | ok t' =>
      simp only [Res.lift_ok, Res.bind_ok]
      by_cases hl : t.isLiteral = true
      · have hok := hq.ok
        simp only [Query.DeepOK, Query.OK, if_pos hl] at hok
        cases t <;> simp [Term.isLiteral] at hl
        rename_i f as xs
        rw [evlit _ _ _ _ _ _ hx]
        refine ih _ _ _ _ _ hsw hm ⟨⟨hq.within, rfl, hok.1, hok.2, hq.annots, ?_⟩, by simp [hsw],
          ⟨fun x hx => (d2 x hx).imp (d3 x) id, fun hM => Term.Over.mono d3 (d1 hM)⟩, h1, h2⟩
        intro f' as' xs' e a ha
        cases e
        exact arg_of (hq.plain a ha) (over_args hq.over a ha)
      · have d2 : ∀ x, E x → D x := by
          intro x hx
          have := d2 x hx
          cases t <;> first | exact this | simp [Term.isLiteral] at hl
        split
        · exact .mkSome (g := .done) S hsw (Nat.le_refl _) trivial (fun x hx => (d3 x (d2 x hx)).mono h2.subScope) (fun _ h => h)
            (h1.same h2) (fun _ h => .inl h) h2
        · exact .mkNone hsw (Nat.le_refl _) h2
        · rcases evaluate_lit hx with rfl | ⟨x, rfl⟩
          · exact absurd rfl hl
          · exact hq.within.elim
        · exact .err
  · -- belHead
    rename_i grp t rest size
    obtain ⟨h1, h2, hE, h3, h4⟩ := h
    split
    · exact .err
    · split
      · exact ih (.ruleHead ..) { s with b := s.b.newCp.2 } _ _ _ hsw hm
          ⟨grp, h1, by rw [hsw]; exact fun _ h => h, hE, h3, h4.trans ⟨rfl, Nat.le_succ _⟩, above_ncp (Same.above h4), Nat.lt_succ_self _⟩
      · rename_i belief rest
        have hbel := h2 belief (by simp)
        obtain ⟨_, i2, i3, i4⟩ := hst.belief _ _ hbel
        have hcl := i2.closed_lit
        have hrest : ∀ x ∈ rest, x ∈ QWorld.beliefs w grp := fun x hx => h2 x (by simp [hx])
        refine ua _ _ _ _ h4 h3 ?_ ?_ ?_ (fun _ => trivial) (fun b hb => ⟨h1, hrest, hE, h3, s.b, h4, rfl, hb⟩) ?_ ?_
        · intro _ m t' hev
          cases belief <;> simp [Term.Parts] at i2
          rw [evlit _ _ _ _ _ _ hev]
          simp
        · intro d b' hx
          exact ((UaSC.lit (cm := false) (h3.same h4).ok h1.lit i3 (Or.inr (Or.inr i2)) nofun).yes _ _ hx).1
        · intro I d b' hI hs hx
          have hlit := h1.lit
          have hargs := h1.args
          have hclosed := h1.closed.1
          cases t <;> simp only [Term.LitOK] at hlit
          cases belief <;> simp only [Term.Parts] at i2
          refine uaLit_fit hI hs (hargs _ _ _ rfl) (fun a ha => .inr ?_) (fun x hx => ⟨hclosed x hx, (hlit.2 x hx).2⟩) i2.2 hx
          have := i2.1 a ha
          exact Term.Plain.fit this.plain this.over
        · intro b' hg hok x hx
          rcases hE.1 x hx with hx | hx
          · exact hx.mono (h4.subScope.trans hg.sub)
          · exact ((hg.left _ (.refl _) (hcl.1.groundIn hcl.1.noWild')).occurs hx).strict (fun x t h => (hok x t h).1) (by simp [Term.NoWild, Term.Every])
        · intro s' hw' hn hsame
          rw [hn] at hm ⊢
          exact ih (.belHead ..) _ _ _ _ hw' hm ⟨h1, hrest, hE, h3, h4.trans hsame⟩
  · -- bel
    obtain ⟨h1, h2, hE, h3, b₁, h4, rfl, h5⟩ := h
    have hsame : Same b₁ (uaResume b₁.ncp s.b) := same_reroll h5
    exact ih (.belHead ..) { s with b := uaResume b₁.ncp s.b } _ _ _ hsw hm ⟨h1, h2, hE, h3, h4.trans hsame⟩
  · -- ruleHead []
    obtain ⟨grp, h1, h2, hE, h3, h4, h5, h6⟩ := h
    exact .mkNone hsw (Nat.le_refl _) h4
  · -- ruleHead
    rename_i d t rule rest
    obtain ⟨grp, h1, h2, hE, h3, h4, h5, h6⟩ := h
    have hrule := h2 rule (by simp)
    have hrest : ∀ r ∈ rest, r ∈ QWorld.rules w grp := fun r hr => h2 r (by simp [hr])
    have hnw : t.Parts Term.NoWild := h1.wild.resolve_right (fun h => by rw [h] at hrule; cases hrule)
    obtain ⟨r1, r2, r3, r4⟩ := hst.rule _ _ hrule
    obtain ⟨q1, q2, q3⟩ := hs.safe _ _ hrule
    have l3 := hst.lower _ h1.lower _ hrule
    obtain ⟨p1, p2, p3⟩ := hs.ground _ h1.lower _ hrule
    have hu : UOK c (Agree · t (rule.deepcopy s.nv).head) (s.b.pushCp d) (unify n t (rule.deepcopy s.nv).head (s.b.pushCp d)) :=
      unify_lits (h3.same h4).ok h1.lit (Term.parts_rename (fun _ h => Term.tame_rename.2 h) r3)
        (Or.inl ⟨hnw, Term.parts_rename (fun _ h => Term.noWild_rename.2 h) r2⟩)
    simp only [QSt.onB]
    cases hx : unify n t (rule.deepcopy s.nv).head (s.b.pushCp d) with
    | oof => exact .oof
    | err ex b' => exact .err
    | ok o b' =>
      have hb : Above (s.b.pushCp d) b' := (unify_grow n _ _ _ _ (Or.inl ⟨_, hx⟩)).above
      simp only [Res.bind_ok]
      have hle : s.nv ≤ s.nv + rule.bound := Nat.le_add_right _ _
      cases o with
      | true =>
        have hy := hu.yes _ hx
        have hgr := unify_grounds n _ _ _ _ hx
        -- bound by the caller
        let D₀ : VarId → Prop := fun x => M t.group ∧ (rule.deepcopy s.nv).head.Occurs x
        have hD₀ : ∀ x, rule.given M x → D₀ (s.nv + x) := fun x hx => ⟨by rw [h1.group, ← r1]; exact hx.1, hx.2.rename⟩
        have hD₁ : GroundVars b'.scope D₀ := fun x hx => call_ground hgr hy.1 hnw
          (Term.Over.mono (fun y hy => hy.mono h4.subScope) (hE.2 hx.1)) x hx.2
        -- the variables of the copy
        let T : VarId → Prop := fun x => ∃ i, x = s.nv + i ∧ rule.query.after (rule.given M) i
        let S₂ : VarId → Prop := fun x => S x ∨ T x
        have hT : ∀ i, rule.query.after (rule.given M) i → T (s.nv + i) := fun i h => ⟨i, rfl, h⟩
        have hT' : ∀ x, T x → (rule.deepcopy s.nv).query.after D₀ x := by
          rintro _ ⟨i, rfl, h⟩
          exact Query.after_rename hD₀ _ h
        have hhead : (rule.deepcopy s.nv).head.Over T := Term.Over.rename hT q3
        have h3' := h3.same h4
        have hneat : Neat c m O sc₀ S₂ s.b.scope := by
          refine ⟨h3'.ok, ?_, fun x hx => h3'.old x fun h => hx (.inl h), fun x t hS ht => ?_⟩
          · rintro x (hx | ⟨i, rfl, _⟩)
            · exact h3'.new x hx
            · omega
          · by_cases hx : S x
            · exact Term.Fit.mono (fun _ => Or.imp .inl id) (fun _ h => h) (h3'.fit x t hx ht)
            · rw [h3'.old x hx] at ht
              have := (hB x t ht).1
              rcases hS with hS | ⟨i, rfl, _⟩
              · exact absurd hS hx
              · exact absurd this (Nat.not_lt.2 (Nat.le_trans hm (Nat.le_add_right _ _)))
        have hfit : Neat c m O sc₀ S₂ b'.scope := by
          have hlit := h1.lit
          have hargs := h1.args
          have hb' : (∀ x, ¬ S₂ x → b'.scope x = sc₀ x) ∧ ∀ x t, S₂ x → b'.scope x = some t → t.Fit (Usable sc₀ S₂) O := by
            cases t <;> simp only [Term.LitOK] at hlit
            cases hh : rule.head <;> rw [hh] at r2 p1 q3 <;> simp only [Term.Parts] at r2
            simp only [Rule.deepcopy, hh, Term.rename] at hx
            refine unifyLit_fit (b := s.b.pushCp d) (binds_neat hO) ⟨hneat.old, hneat.fit⟩ ?_ ?_ (.inl ⟨_, hx⟩)
            · exact fun a ha => (hargs _ _ _ rfl a ha).imp id (Term.Fit.mono (fun _ => Or.imp .inl id) fun _ h => h)
            · intro a ha
              rw [Term.renameL_eq] at ha
              obtain ⟨a', ha', rfl⟩ := List.mem_map.1 ha
              refine arg_of ?_ (Term.Over.rename (D' := Usable sc₀ S₂) (fun i hi => .inl (.inr (hT i hi))) (over_args q3 a' ha'))
              rw [Term.isOp_rename]
              exact (p1 a' ha').imp id Term.Plain.rename
          exact ⟨hy.1, hneat.new, hb'.1, hb'.2⟩
        refine (ih (.rule d t rest (.start (rule.deepcopy s.nv).query)) ⟨b', s.nv + rule.bound, s.w⟩ S b₀ E hsw (Nat.le_trans hm hle)
          ⟨⟨grp, h1, hrest⟩, hE, h3, s.b, b', S₂, (rule.deepcopy s.nv).query.after D₀, h4, h5, h6, hb, ?_,
            fun x hx => hx.imp id (hT' x), fun _ h => .inl h, ?_⟩).weaken hle
        · exact ⟨⟨Query.deepOK_rename r4, Query.groundAnnots_rename q1, Query.deepIn_rename l3, Query.plain_rename p2,
            Query.Over.mono (fun x hx => .inl (.inr hx)) (Query.Over.rename hT p3)⟩, ⟨D₀, Query.safe_rename hD₀ q2, fun _ h => h, hD₁⟩, hfit, .refl _⟩
        · intro sc hsub hok hE₂ x hx
          rcases hE.1 x hx with hx | hx
          · exact hx.mono (h4.subScope.trans (hgr.sub.trans hsub))
          · have hwild : (rule.deepcopy s.nv).head.NoWild := by
              have := Term.parts_rename (ρ := (s.nv + ·)) (fun _ h => Term.noWild_rename.2 h) r2
              change (rule.head.rename (s.nv + ·)).NoWild
              cases hh : rule.head.rename (s.nv + ·) <;> rw [hh] at this <;> simp only [Term.Parts] at this
              exact ⟨by simp, Term.everyL_iff.2 this.1⟩
            exact ((hgr.left sc hsub (groundIn_over (fun x hx => hE₂ x (hT' x hx)) hhead fun _ => hwild)).occurs hx).strict
              (fun x t h => (hok x t h).1) (by simp [Term.NoWild, Term.Every])
      | false =>
        have hsame : Same s.b (reroll b' d) := reroll_push h6 hb
        exact (ih (.ruleHead d t rest) ⟨reroll b' d, s.nv + rule.bound, s.w⟩ S b₀ E hsw (Nat.le_trans hm hle)
          ⟨grp, h1, hrest, hE, h3, h4.trans hsame, h5, Nat.lt_of_lt_of_le h6 hsame.2⟩).weaken hle
  · -- rule
    rename_i d t rest inner
    obtain ⟨⟨grp, h1, h2⟩, hE, h3, b₁, b₂, S₂, E₂, h4, h5, h6, h7, h8, h9, h9', h10⟩ := h
    refine (ih _ _ _ _ _ hsw hm h8).onNext ?_ ?_
    · intro g' s' S' i1 i2 i3 i4 i5 i6 i7 i8
      refine .mkSome (g := .rule ..) S' i1 i2 i3 (h10 _ i8.above.subScope i6.ok i4) (fun x hx => i5 x (h9' x hx)) i6 ?_
        ⟨⟨grp, h1, h2⟩, hE, h3, b₁, b₂, S₂, E₂, h4, h5, h6, h7, i8, h9, h9', h10⟩
      intro x hx
      rcases i7 x hx with hx | hx
      · exact (h9 x hx).imp id (i4 x)
      · exact .inr hx
    · intro s' i1 i2 i3
      have hsame : Same b₁ (reroll s'.b d) := reroll_push h6 (h7.trans (Same.above i3))
      exact (ih (.ruleHead d t rest) { s' with b := reroll s'.b d } S b₀ E i1 (Nat.le_trans hm i2)
        ⟨grp, h1, h2, hE, h3, h4.trans hsame, h5, Nat.lt_of_lt_of_le h6 hsame.2⟩).weaken i2
  · -- start and
    rename_i l rq
    obtain ⟨hq, ⟨D, d1, d2, d3⟩, h1, h2⟩ := h
    exact ih (.andHead ..) _ _ _ _ hsw hm ⟨⟨hq.ok.2, hq.annots.2, hq.within.2, hq.plain.2, hq.over.2⟩, l.after D, d1.2, d2,
      ⟨hq.ok.1, hq.annots.1, hq.within.1, hq.plain.1, hq.over.1⟩, ⟨D, d1.1, fun _ h => h, d3⟩, h1, h2⟩
  · -- andHead
    rename_i l rq
    obtain ⟨hq, D, d1, d2, h1⟩ := h
    refine (ih _ _ _ _ _ hsw hm h1).onNext ?_ ?_
    · intro g' s' S' i1 i2 i3 i4 i5 i6 i7 i8
      exact (ih (.and g' rq (.start rq)) s' S b₀ E i1 (Nat.le_trans hm i2) ⟨hq, i3, D, s'.b, S', d1, d2, i8,
        ⟨hq.mono i5, ⟨D, d1, d2, i4⟩, i6, .refl _⟩, i5, i7⟩).weaken i2
    · intro s' i1 i2 i3
      exact .mkNone i1 i2 i3
  · -- and
    rename_i l rq r
    obtain ⟨hq, h1, D, b₁, S₁, d1, d2, h2, h3, h4, h5⟩ := h
    refine (ih _ _ _ _ _ hsw hm h3).onNext ?_ ?_
    · intro g' s' S' i1 i2 i3 i4 i5 i6 i7 i8
      refine .mkSome (g := .and ..) S' i1 i2 ⟨h1, i3⟩ i4 (fun x hx => i5 x (h4 x hx)) i6 ?_ ⟨hq, h1, D, b₁, S₁, d1, d2, h2, i8, h4, h5⟩
      intro x hx
      rcases i7 x hx with hx | hx
      · exact (h5 x hx).imp id fun h => h.mono i8.above.subScope
      · exact .inr hx
    · intro s' i1 i2 i3
      exact (ih (.andHead ..) s' S b₀ E i1 (Nat.le_trans hm i2) ⟨hq, D, d1, d2, h2.closed h1 i3⟩).weaken i2
  · -- start or
    rename_i l rq
    obtain ⟨hq, ⟨D, d1, d2, d3⟩, h1, h2⟩ := h
    exact ih (.or ..) _ _ _ _ hsw hm ⟨⟨hq.ok.2, hq.annots.2, hq.within.2, hq.plain.2, hq.over.2⟩, D, s.b, d1.2, fun x hx => (d2 x hx).2, d3, h1, h2,
      ⟨hq.ok.1, hq.annots.1, hq.within.1, hq.plain.1, hq.over.1⟩, ⟨D, d1.1, fun x hx => (d2 x hx).1, d3.mono h2.subScope⟩, h1.same h2, .refl _⟩
  · -- or
    rename_i l rq
    obtain ⟨hq, D, b₁, d1, d2, d3, h1, h2, h3⟩ := h
    refine (ih _ _ _ _ _ hsw hm h3).onNext ?_ ?_
    · intro g' s' S' i1 i2 i3 i4 i5 i6 i7 i8
      exact .mkSome (g := .or ..) S' i1 i2 i3 i4 i5 i6 i7 ⟨hq, D, b₁, d1, d2, d3, h1, h2, i8⟩
    · intro s' i1 i2 i3
      exact (ih (.start _) s' S b₀ E i1 (Nat.le_trans hm i2) ⟨hq, ⟨D, d1, d2, d3⟩, h1, h2.trans i3⟩).weaken i2
  · -- not
    rename_i q
    obtain ⟨hq, ⟨D, ⟨d0, d1⟩, d2, d3⟩, h1, h2⟩ := h
    have hin := ih (.start q) { s with b := s.b.mark } S s.b.mark (fun _ => False) hsw hm
      ⟨⟨hq.ok.1, hq.ok.2.1, hq.within, hq.plain, hq.over⟩, ⟨D, Query.safe_deep hq.ok.1 d0 d1, nofun, d3.mono h2.subScope⟩,
        show Neat c m O sc₀ S s.b.scope from h1.same h2, .refl _⟩
    cases hx : gnext n (.start q : Gen A G) { s with b := s.b.mark } with
    | oof => exact .oof
    | err ex b' => exact .err
    | ok o s₁ =>
      cases o with
      | some g' =>
        obtain ⟨i1, i2, _, _, _, i6⟩ := hin.onSome _ _ hx
        have hsame : Same s.b (reroll s₁.b s.b.ncp) := same_reroll i6.above
        exact .mkNone (s := { s₁ with b := reroll s₁.b s.b.ncp }) i1 i2 (h2.trans hsame)
      | none =>
        obtain ⟨i1, i2, i3⟩ := hin.onNone _ hx
        have hsame : Same s.b (reroll s₁.b s.b.ncp) := same_reroll (Same.above i3)
        exact .mkSome (s := { s₁ with b := reroll s₁.b s.b.ncp }) (g := .done) S i1 i2 trivial
          (fun x hx => (d3 x (d2 x hx)).mono (h2.trans hsame).subScope) (fun _ h => h) (h1.same (h2.trans hsame)) (fun _ h => .inl h) (h2.trans hsame)
  · -- unify
    rename_i l t
    obtain ⟨hq, ⟨D, d1, d2, d3⟩, h1, h2⟩ := h
    have hok := hq.ok
    have hin := h1.same h2
    refine ua _ _ _ _ h2 h1 ?_ ?_ ?_ (fun _ => trivial) (fun b hb => ⟨s.b, h2, rfl, hb⟩) ?_ ?_
    · intro hl m t' hev
      refine evaluate_notVar ?_ ?_ hev
      · rcases hok with h1 | h1
        · rintro rfl
          simpa using h1.2.2.2.2.1
        · rintro rfl
          simpa [Term.Parts] using h1.2.1
      · rcases hok with h1 | h1
        · exact h1.2.2.2.2.2 hl
        · rintro y rfl
          simpa [Term.Parts] using h1.2.1
    · intro d b' hx
      exact ((ua_unify hok (cm := false) nofun hin.ok).yes _ _ hx).1
    · intro I d b' hI hs hx
      have a1 : l.Arg (Usable sc₀ S) O := arg_of hq.plain.1 hq.over.1
      have a2 : t.Arg (Usable sc₀ S) O := arg_of hq.plain.2 hq.over.2
      rcases hok with h1 | h1
      · exact uaPlain_fit hI hs a1 a2 h1.1 hx
      · have hann := hq.annots
        obtain ⟨j1, j2, _⟩ := h1
        cases l <;> simp only [Term.LitOK] at j1
        cases t <;> simp only [Term.Parts] at j2
        exact uaLit_fit hI hs (fun a ha => .inr (Term.fit_lit (a1.fit rfl) a ha)) (fun a ha => .inr (Term.fit_lit (a2.fit rfl) a ha))
          (fun x hx => ⟨hann.1 x hx, (j1.2 x hx).2⟩) hann.2.2 hx
    · have hnw : l.NoWild ∧ t.NoWild := by
        rcases hok with h1 | h1
        · exact ⟨h1.2.2.2.1, h1.2.2.2.2.1⟩
        · obtain ⟨_, _, h1, h2⟩ := h1
          constructor
          · cases l <;> simp only [Term.Parts] at h1
            exact ⟨by simp, Term.everyL_iff.2 h1.1⟩
          · cases t <;> simp only [Term.Parts] at h2
            exact ⟨by simp, Term.everyL_iff.2 h2.1⟩
      intro b' hg hok x hx
      have hsub := h2.subScope.trans hg.sub
      rcases d2 x hx with hx | ⟨j1, j2⟩ | ⟨j1, j2⟩
      · exact (d3 x hx).mono hsub
      · exact ((hg.right _ (.refl _) (groundIn_over (d3.mono hsub) j1 fun _ => hnw.1)).occurs j2).strict (fun x t h => (hok x t h).1)
          (by simp [Term.NoWild, Term.Every])
      · exact ((hg.left _ (.refl _) (groundIn_over (d3.mono hsub) j1 fun _ => hnw.2)).occurs j2).strict (fun x t h => (hok x t h).1)
          (by simp [Term.NoWild, Term.Every])
    · intro s' i1 i2 i3
      exact .mkNone i1 (Nat.le_of_eq i2) (h2.trans i3)
  · -- ua
    obtain ⟨b₁, h1, rfl, h2⟩ := h
    have hsame : Same b₁ (uaResume b₁.ncp s.b) := same_reroll h2
    exact .mkNone hsw (Nat.le_refl _) (h1.trans hsame)

end

end Verif.Deep
