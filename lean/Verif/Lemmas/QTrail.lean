import Verif.Lemmas.AnnotTrail
import Verif.Spec.Query

/-!
# Trail discipline of query generators
-/

namespace Verif

/-- `true`: nothing may have changed; `false`: trailed changes. -/
def rel (e : Bool) : BSt → BSt → Prop := if e then Same else Above

theorem rel_refl (e : Bool) (b : BSt) : rel e b b := by
  cases e
  · exact .refl b
  · exact .refl b

theorem rel_of_same {e : Bool} {b b' : BSt} (h : Same b b') : rel e b b' := by
  cases e
  · exact h.above
  · exact h

theorem rel_above {e : Bool} {b b' : BSt} (h : rel e b b') : Above b b' := by
  cases e
  · exact h
  · exact Same.above h

theorem rel_trans {e : Bool} {a b c : BSt} (h : rel e a b) (h' : rel e b c) : rel e a c := by
  cases e
  · exact Above.trans h h'
  · exact Same.trans h h'

theorem rel_weaken {r e : Bool} (h : e = true → r = true) {b b' : BSt} (h' : rel r b b') : rel e b b' := by
  cases e
  · exact rel_above h'
  · rw [h rfl] at h'; exact h'

/-- Rolling back to a choicepoint that was created earlier and pushed now. -/
theorem reroll_push {b b' : BSt} {c : Nat} (hc : c < b.ncp) (h : Above (b.pushCp c) b') :
    Same b (reroll b' c) := by
  obtain ⟨δ, h1, h2, h3, h4⟩ := h
  have hc : Entry.cp c ∉ δ := fun hh => by
    have := (h3 _ hh).1
    simp [BSt.pushCp] at this
    omega
  simp only [reroll, h1, BSt.pushCp, rerollGo_append δ _ _ hc, h2]
  exact ⟨rfl, by simpa [BSt.pushCp] using h4⟩

theorem above_push {a b : BSt} {c : Nat} (hc : c < b.ncp) (ha : a.ncp ≤ c) (h : Above a b) :
    Above a (b.pushCp c) := by
  obtain ⟨δ, h1, h2, h3, h4⟩ := h
  refine ⟨.cp c :: δ, by simp [h1, BSt.pushCp], h2, ?_, h4⟩
  intro d hd
  rcases List.mem_cons.1 hd with hd | hd
  · cases hd; exact ⟨ha, hc⟩
  · exact h3 d hd

variable {W A G : Type} [Arith] [QWorld W A G]

/-- Contract for actions: a predicate `inv g r e b₀ b` on suspended action generators,
started in `b₀`, now in `b`, for consumers that respect `rel r`, guaranteeing `rel e` at
exhaustion. -/
structure ActTrail (W A G : Type) [Arith] [QWorld W A G] where
  ok : A → Term → Prop
  settles : A → Term → Bool → Bool
  winv : W → Prop
  rules : ∀ w, winv w → RulesAre (fun r : Rule A => r.query.Clean ok) w
  bels : ∀ w, winv w → ∀ grp, ∀ b ∈ QWorld.beliefs w grp, b.isLiteral = true
  renam : ∀ a t ρ, ok a t → ok a (t.rename ρ)
  inv : G → Bool → Bool → BSt → BSt → Prop
  start : ∀ a t r e b₀ b, ok a t → (e = true → settles a t r = true) → rel e b₀ b →
    inv (QWorld.actGen W a t) r e b₀ b
  susp : G → Prop
  closed : ∀ g r e b₀ b b', susp g → inv g r e b₀ b → rel r b b' → inv g r e b₀ b'
  above : ∀ g r e b₀ b, inv g r e b₀ b → Above b₀ b

/-- The generator is suspended at a `yield`; `sp` says this about actions. -/
def Susp (sp : G → Prop) : Gen A G → Prop
  | .act g => sp g
  | .done | .ua _ | .bel .. => True
  | .rule _ _ _ inner => Susp sp inner
  | .and l _ r => Susp sp l ∧ Susp sp r
  | .or l _ => Susp sp l
  | .start _ | .belHead .. | .ruleHead .. | .andHead .. => False

/-- Invariant of a suspended generator that was started in `b₀`; the state is `b` now.
The consumer respects `rel r`; at exhaustion `rel e b₀ ·` will hold. -/
def GInv (T : ActTrail W A G) : Gen A G → Bool → Bool → BSt → BSt → Prop
  | .start q, r, e, b₀, b => q.Clean T.ok ∧ (e = true → q.settles T.settles r = true) ∧ rel e b₀ b
  | .done, r, e, b₀, b => (e = true → r = true) ∧ rel e b₀ b
  | .act g, r, e, b₀, b => T.inv g r e b₀ b
  | .ua c, _, e, b₀, b => ∃ b₁, rel e b₀ b₁ ∧ c = b₁.ncp ∧ Above b₁.mark b
  | .belHead _ _ rest _, _, e, b₀, b => (∀ t ∈ rest, t.isLiteral = true) ∧ rel e b₀ b
  | .bel c _ _ rest _, _, e, b₀, b => (∀ t ∈ rest, t.isLiteral = true) ∧ ∃ b₁, rel e b₀ b₁ ∧ c = b₁.ncp ∧ Above b₁.mark b
  | .ruleHead c _ rest, _, e, b₀, b =>
    (∀ r ∈ rest, r.query.Clean T.ok) ∧ rel e b₀ b ∧ b₀.ncp ≤ c ∧ c < b.ncp
  | .rule c _ rest inner, r, e, b₀, b =>
    (∀ r ∈ rest, r.query.Clean T.ok) ∧ ∃ b₁ b₂, rel e b₀ b₁ ∧ b₀.ncp ≤ c ∧ c < b₁.ncp ∧
      Above (b₁.pushCp c) b₂ ∧ GInv T inner r false b₂ b
  | .andHead l rq, r, e, b₀, b =>
    rq.Clean T.ok ∧ ∃ m, (m = true → rq.settles T.settles r = true) ∧ GInv T l m e b₀ b
  | .and l rq g, r, e, b₀, b =>
    rq.Clean T.ok ∧ ∃ m b₁, (m = true → rq.settles T.settles r = true) ∧ Susp T.susp l ∧
      GInv T l m e b₀ b₁ ∧ GInv T g r m b₁ b
  | .or l rq, r, e, b₀, b =>
    rq.Clean T.ok ∧ (e = true → rq.settles T.settles r = true) ∧ GInv T l r e b₀ b

theorem GInv.above {T : ActTrail W A G} : ∀ {g : Gen A G} {r e : Bool} {b₀ b : BSt}, GInv T g r e b₀ b → Above b₀ b
  | .start _, _, _, _, _, h => rel_above h.2.2
  | .done, _, _, _, _, h => rel_above h.2
  | .act _, _, _, _, _, h => T.above _ _ _ _ _ h
  | .ua _, _, _, _, _, ⟨_, h1, _, h2⟩ => (rel_above h1).trans ((above_mark _).trans h2)
  | .belHead .., _, _, _, _, h => rel_above h.2
  | .bel .., _, _, _, _, ⟨_, _, h1, _, h2⟩ => (rel_above h1).trans ((above_mark _).trans h2)
  | .ruleHead .., _, _, _, _, h => rel_above h.2.1
  | .rule .., _, _, _, _, ⟨_, _, _, h1, h2, h3, h4, h5⟩ =>
    (above_push h3 h2 (rel_above h1)).trans (h4.trans (GInv.above h5))
  | .andHead .., _, _, _, _, ⟨_, _, _, h⟩ => GInv.above h
  | .and .., _, _, _, _, ⟨_, _, _, _, _, h1, h2⟩ => (GInv.above h1).trans (GInv.above h2)
  | .or .., _, _, _, _, ⟨_, _, h⟩ => GInv.above h

/-- Changes by the consumer are tolerated. -/
theorem GInv.closed {T : ActTrail W A G} : ∀ {g : Gen A G} {r e : Bool} {b₀ b b' : BSt}, GInv T g r e b₀ b →
    Susp T.susp g → rel r b b' → GInv T g r e b₀ b'
  | .done, _, _, _, _, _, h, _, hb => ⟨h.1, rel_trans h.2 (rel_weaken h.1 hb)⟩
  | .act _, _, _, _, _, _, h, hs, hb => T.closed _ _ _ _ _ _ hs h hb
  | .ua _, _, _, _, _, _, ⟨b₁, h1, h2, h3⟩, _, hb => ⟨b₁, h1, h2, h3.trans (rel_above hb)⟩
  | .bel .., _, _, _, _, _, ⟨h0, b₁, h1, h2, h3⟩, _, hb => ⟨h0, b₁, h1, h2, h3.trans (rel_above hb)⟩
  | .rule .., _, _, _, _, _, ⟨h0, b₁, b₂, h1, h2, h3, h4, h5⟩, hs, hb =>
    ⟨h0, b₁, b₂, h1, h2, h3, h4, GInv.closed h5 hs hb⟩
  | .and .., _, _, _, _, _, ⟨h0, m, b₁, h1, h2, h3, h4⟩, hs, hb =>
    ⟨h0, m, b₁, h1, h2, h3, GInv.closed h4 hs.2 hb⟩
  | .or .., _, _, _, _, _, ⟨h0, h1, h2⟩, hs, hb => ⟨h0, h1, GInv.closed h2 hs hb⟩

/-- What `next` must do to the trail. -/
structure Out (T : ActTrail W A G) (r e : Bool) (b₀ : BSt) (x : Res (QSt W) (Option (Gen A G))) : Prop where
  onNone : ∀ s', x = .ok none s' → T.winv s'.w ∧ rel e b₀ s'.b
  onSome : ∀ g' s', x = .ok (some g') s' → T.winv s'.w ∧ Susp T.susp g' ∧ GInv T g' r e b₀ s'.b
  onErr : ∀ ex s', x = .err ex s' → Above b₀ s'.b

theorem Out.oof {T : ActTrail W A G} {r e : Bool} {b₀ : BSt} : Out T r e b₀ .oof := ⟨nofun, nofun, nofun⟩

theorem Out.mkNone {T : ActTrail W A G} {r e : Bool} {b₀ : BSt} {s : QSt W} (hw : T.winv s.w) (h : rel e b₀ s.b) :
    Out T r e b₀ (.ok none s) :=
  ⟨fun s' h' => by cases h'; exact ⟨hw, h⟩, nofun, nofun⟩

theorem Out.mkSome {T : ActTrail W A G} {r e : Bool} {b₀ : BSt} {s : QSt W} {g : Gen A G} (hw : T.winv s.w) (hs : Susp T.susp g)
    (h : GInv T g r e b₀ s.b) : Out T r e b₀ (.ok (some g) s) :=
  ⟨nofun, fun g' s' h' => by cases h'; exact ⟨hw, hs, h⟩, nofun⟩

theorem Out.mkErr {T : ActTrail W A G} {r e : Bool} {b₀ : BSt} {s : QSt W} {ex : Err} (h : Above b₀ s.b) :
    Out T r e b₀ (.err ex s) :=
  ⟨nofun, nofun, fun ex s' h' => by cases h'; exact h⟩

/-- Every run of `rec` respects the trail. -/
def TrailRec (T : ActTrail W A G) (rec : Gen A G → QSt W → Res (QSt W) (Option (Gen A G))) : Prop :=
  ∀ g s r e b₀, T.winv s.w → GInv T g r e b₀ s.b → Out T r e b₀ (rec g s)

/-- The contract for running actions. -/
def ActTrail.Good (T : ActTrail W A G) : Prop :=
  ∀ (n : Nat), TrailRec T (gnext (W := W) n) →
    ∀ g s r e b₀, T.winv s.w → T.inv g r e b₀ s.b →
      Out T r e b₀ ((QWorld.actNext n (gnext n) g s).onNext (fun g s => .ok (some (.act g)) s) (.ok none))

/-- Continue after an inner `next`. -/
theorem Out.onNext {T : ActTrail W A G} {r e r' e' : Bool} {b₀ b₁ : BSt} {x : Res (QSt W) (Option (Gen A G))}
    {f : Gen A G → QSt W → Res (QSt W) (Option (Gen A G))} {k : QSt W → Res (QSt W) (Option (Gen A G))}
    (h : Out T r' e' b₁ x) (hb : Above b₀ b₁)
    (hs : ∀ g' s', T.winv s'.w → Susp T.susp g' → GInv T g' r' e' b₁ s'.b → Out T r e b₀ (f g' s'))
    (hn : ∀ s', T.winv s'.w → rel e' b₁ s'.b → Out T r e b₀ (k s')) :
    Out T r e b₀ (x.onNext f k) := by
  cases x with
  | oof => exact .oof
  | err ex s' => exact .mkErr (hb.trans (h.onErr _ _ rfl))
  | ok o s' =>
    cases o with
    | none => exact hn s' (h.onNone s' rfl).1 (h.onNone s' rfl).2
    | some g' => obtain ⟨h1, h2, h3⟩ := h.onSome g' s' rfl; exact hs g' s' h1 h2 h3

omit [Arith] [QWorld W A G] in
theorem Query.clean_rename {ok : A → Term → Prop} (hok : ∀ a t ρ, ok a t → ok a (t.rename ρ)) (ρ : VarId → VarId) :
    ∀ q : Query A, q.Clean ok → (q.rename ρ).Clean ok
  | .tru, _ => trivial
  | .fls, _ => trivial
  | .act a t, h => hok a t ρ h
  | .term _, _ => trivial
  | .and l r, h => ⟨clean_rename hok ρ l h.1, clean_rename hok ρ r h.2⟩
  | .or l r, h => ⟨clean_rename hok ρ l h.1, clean_rename hok ρ r h.2⟩
  | .not q, h => clean_rename hok ρ q h
  | .unify l r, h => by
    intro hl
    have hl : l.isLiteral = true := by cases l <;> simp_all [Term.rename, Term.isLiteral]
    have := h hl
    cases r <;> simp_all [Term.rename]

omit [Arith] [QWorld W A G] in
/-- Without actions, a consumer that restores everything suffices. -/
theorem Query.settles_clean {act : A → Term → Bool → Bool} : ∀ {q : Query A}, q.Clean (fun _ _ => False) →
    q.settles act true = true
  | .tru, _ | .fls, _ | .term _, _ | .not _, _ | .unify _ _, _ => rfl
  | .act _ _, h => h.elim
  | .and l r, h => by rw [settles, settles_clean h.2, settles_clean h.1]
  | .or l r, h => by rw [settles, settles_clean h.1, settles_clean h.2]; rfl

omit [QWorld W A G] in
theorem evaluate_notVar {n : Nat} {sc : Scope} {t t' : Term} (hw : t ≠ .wild) (hv : ∀ y, t ≠ .var y)
    (h : evaluate n sc t = .ok t') : t' ≠ .wild ∧ ∀ y, t' ≠ .var y := by
  cases n with
  | zero => simp [evaluate] at h
  | succ n =>
    cases t with
    | var x => exact absurd rfl (hv x)
    | wild => exact absurd rfl hw
    | un op t =>
      simp only [evaluate, Ev.bind_eq_ok] at h
      obtain ⟨a, _, h⟩ := h
      unfold unFunc at h
      split at h <;> simp at h <;> subst h <;> simp
    | bin op l r =>
      simp only [evaluate, Ev.bind_eq_ok] at h
      obtain ⟨a, _, b, _, h⟩ := h
      split at h
      · simp only [Ev.bind_eq_ok, Ev.map_eq_ok] at h
        obtain ⟨_, _, _, _, _, _, rfl⟩ := h
        simp
      · unfold binFunc at h
        repeat' split at h
        all_goals first
          | (cases h; simp; done)
          | (simp at h; done)
    | _ => simp [evaluate] at h; subst h; simp

theorem gstep_trail {T : ActTrail W A G} (hT : T.Good) {n : Nat} (ih : TrailRec T (gnext (W := W) n)) :
    TrailRec T (gstep (W := W) n (gnext n)) := by
  intro g s r e b₀ hw h
  have ua : ∀ (l t : Term) (f : Nat → Gen A G) (k : QSt W → Res (QSt W) (Option (Gen A G))),
      rel e b₀ s.b → (l.isLiteral = true → ∀ n t', evaluate n s.b.scope t = .ok t' → t' ≠ .wild ∧ ∀ y, t' ≠ .var y) →
      (∀ c, Susp T.susp (f c)) → (∀ b, Above s.b.mark b → GInv T (f s.b.ncp) r e b₀ b) →
      (∀ s' : QSt W, T.winv s'.w → rel e b₀ s'.b → Out T r e b₀ (k s')) →
      Out T r e b₀ ((s.onB (uaStart n l t)).onNext (fun c s => .ok (some (f c)) s) k) := by
    intro l t f k hb hv hf hg hk
    have tr := ua_trail n l t s.b
    unfold QSt.onB
    cases hx : uaStart n l t s.b with
    | oof => exact .oof
    | err ex b' => exact .mkErr ((rel_above hb).trans (tr.err _ _ hx))
    | ok o b' =>
      cases o with
      | none => exact hk _ hw (rel_trans hb (rel_of_same (tr.none _ hx)))
      | some c =>
        obtain ⟨rfl, _, h2⟩ := tr.some _ _ hx
        refine .mkSome hw (hf _) (hg _ ?_)
        rcases h2 with h2 | ⟨hl, m, r', hev, h2⟩
        · exact h2
        · have := hv hl m r' hev
          rcases h2 with rfl | ⟨y, rfl⟩
          · exact absurd rfl this.1
          · exact absurd rfl (this.2 y)
  have evlit : ∀ (sc : Scope) (m : Nat) (f : String) (as xs : List Term) (t' : Term), evaluate m sc (.lit f as xs) = .ok t' →
      t' = .lit f as xs := by
    intro sc m f as xs t' hh
    cases m <;> simp [evaluate] at hh
    exact hh.symm
  unfold gstep
  split
  · -- done
    exact .mkNone hw h.2
  · -- true
    exact .mkSome (g := .done) hw trivial ⟨h.2.1, h.2.2⟩
  · exact .mkNone hw h.2.2
  · exact ih _ _ _ _ _ hw (T.start _ _ _ _ _ _ h.1 h.2.1 h.2.2)
  · exact hT n ih _ _ _ _ _ hw h
  · -- term
    rename_i t
    cases hx : evaluate n s.b.scope t with
    | oof => exact .oof
    | err ex => exact .mkErr (rel_above h.2.2)
    | ok t' =>
      simp only [Res.lift_ok, Res.bind_ok]
      split
      · refine .mkSome (g := .done) hw trivial ⟨fun he => ?_, h.2.2⟩
        have := h.2.1 he
        cases r with
        | true => rfl
        | false =>
          simp only [Query.settles, Bool.false_or] at this
          cases t <;> simp [Term.isLiteral] at this
          cases n <;> simp [evaluate] at hx
      · exact .mkNone hw h.2.2
      · exact ih _ _ _ _ _ hw ⟨T.bels _ hw _, h.2.2⟩
      · exact .mkErr (rel_above h.2.2)
  · -- belHead
    rename_i grp t rest size
    split
    · exact .mkErr (rel_above h.2)
    · split
      · refine ih _ _ _ _ _ hw ⟨T.rules _ hw _, ?_, above_ncp (rel_above h.2), Nat.lt_succ_self _⟩
        exact rel_trans h.2 (rel_of_same ⟨rfl, Nat.le_succ _⟩)
      · rename_i belief rest
        refine ua _ _ _ _ h.2 ?_ (fun _ => trivial) (fun b hb => ⟨fun t ht => h.1 t (by simp [ht]), s.b, h.2, rfl, hb⟩)
          (fun s' hw' hs' => ih _ _ _ _ _ hw' ⟨fun t ht => h.1 t (by simp [ht]), hs'⟩)
        intro _ m t' hev
        have hl := h.1 belief (by simp)
        cases belief <;> simp [Term.isLiteral] at hl
        rw [evlit _ _ _ _ _ _ hev]
        simp
  · -- bel
    obtain ⟨h0, b₁, h1, rfl, h3⟩ := h
    exact ih _ _ _ _ _ hw ⟨h0, rel_trans h1 (rel_of_same (same_reroll h3))⟩
  · exact .mkNone hw h.2.1
  · -- ruleHead
    rename_i c t rule rest
    obtain ⟨h0, h1, h2, h3⟩ := h
    simp only [QSt.onB]
    cases hx : unify n t (rule.deepcopy s.nv).head (s.b.pushCp c) with
    | oof => exact .oof
    | err ex b' => 
      exact .mkErr ((above_push h3 h2 (rel_above h1)).trans (unify_grow n _ _ _ _ (Or.inr ⟨_, hx⟩)).above)
    | ok o b' =>
      have hb : Above (s.b.pushCp c) b' := (unify_grow n _ _ _ _ (Or.inl ⟨_, hx⟩)).above
      cases o with
      | true =>
        refine ih _ _ _ _ _ hw ⟨fun r hr => h0 r (by simp [hr]), s.b, b', h1, h2, h3, hb, ?_, by simp, rel_refl _ _⟩
        exact Query.clean_rename T.renam _ _ (h0 rule (by simp))
      | false =>
        have hr := reroll_push h3 hb
        exact ih _ _ _ _ _ hw ⟨fun r hr => h0 r (by simp [hr]), rel_trans h1 (rel_of_same hr), h2, Nat.lt_of_lt_of_le h3 hr.2⟩
  · -- rule
    obtain ⟨h0, b₁, b₂, h1, h2, h3, h4, h5⟩ := h
    refine (ih _ _ _ _ _ hw h5).onNext ((above_push h3 h2 (rel_above h1)).trans h4) ?_ ?_
    · intro g' s' hw' hs hg
      exact .mkSome (g := .rule ..) hw' hs ⟨h0, b₁, b₂, h1, h2, h3, h4, hg⟩
    · intro s' hw' hs
      have hr := reroll_push h3 (h4.trans hs)
      exact ih _ _ _ _ _ hw' ⟨h0, rel_trans h1 (rel_of_same hr), h2, Nat.lt_of_lt_of_le h3 hr.2⟩
  · -- start and
    rename_i l rq
    exact ih _ _ _ _ _ hw ⟨h.1.2, rq.settles T.settles r, id, h.1.1, h.2.1, h.2.2⟩
  · -- andHead
    obtain ⟨h0, m, h1, h2⟩ := h
    refine (ih _ _ _ _ _ hw h2).onNext (.refl _) ?_ (fun s' hw' hs => .mkNone hw' hs)
    intro g' s' hw' hs hg
    exact ih _ _ _ _ _ hw' ⟨h0, m, s'.b, h1, hs, hg, h0, h1, rel_refl _ _⟩
  · -- and
    obtain ⟨h0, m, b₁, h1, h2, h3, h4⟩ := h
    refine (ih _ _ _ _ _ hw h4).onNext h3.above ?_ ?_
    · intro g' s' hw' hs hg
      exact .mkSome (g := .and ..) hw' ⟨h2, hs⟩ ⟨h0, m, b₁, h1, h2, h3, hg⟩
    · intro s' hw' hs
      exact ih _ _ _ _ _ hw' ⟨h0, m, h1, h3.closed h2 hs⟩
  · -- start or
    rename_i l rq
    have : e = true → (l.settles T.settles r = true ∧ rq.settles T.settles r = true) := by
      simpa [Query.settles] using h.2.1
    exact ih _ _ _ _ _ hw ⟨h.1.2, fun he => (this he).2, h.1.1, fun he => (this he).1, h.2.2⟩
  · -- or
    obtain ⟨h0, h1, h2⟩ := h
    refine (ih _ _ _ _ _ hw h2).onNext (.refl _) ?_ ?_
    · intro g' s' hw' hs hg
      exact .mkSome (g := .or ..) hw' hs ⟨h0, h1, hg⟩
    · intro s' hw' hs
      exact ih _ _ _ _ _ hw' ⟨h0, h1, hs⟩
  · -- not
    rename_i q
    have hi := ih (.start q) { s with b := s.b.mark } true false s.b.mark hw ⟨h.1, by simp, rel_refl _ _⟩
    refine hi.onNext ((rel_above h.2.2).trans (above_mark _)) ?_ ?_
    · intro g' s' hw' hs hg
      exact .mkNone hw' (rel_trans h.2.2 (rel_of_same (same_reroll hg.above)))
    · intro s' hw' hs
      exact .mkSome (g := .done) hw' trivial ⟨h.2.1,
        rel_trans h.2.2 (rel_of_same (same_reroll (rel_above hs)))⟩
  · -- unify
    rename_i l t
    refine ua _ _ _ _ h.2.2 ?_ (fun _ => trivial) (fun b hb => ⟨s.b, h.2.2, rfl, hb⟩)
      (fun s' hw' hs' => .mkNone hw' hs')
    intro hl m t' hev
    have := h.1 hl
    exact evaluate_notVar this.1 this.2 hev
  · -- ua
    obtain ⟨b₁, h1, rfl, h3⟩ := h
    exact .mkNone hw (rel_trans h1 (rel_of_same (same_reroll h3)))

theorem gnext_trail {T : ActTrail W A G} (hT : T.Good) : ∀ n, TrailRec T (gnext (W := W) n)
  | 0 => fun _ _ _ _ _ _ _ => .oof
  | n + 1 => gstep_trail hT (gnext_trail hT n)

end Verif
