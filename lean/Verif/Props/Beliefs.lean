import Verif.Lemmas.GroundErr
import Verif.Lemmas.BeliefOps
import Verif.Props.Annot
import Verif.Props.Unify
import Verif.Lemmas.AnnotClosed
import Verif.Spec.ExactHost

/-!
# Properties C18-C22: belief bases
-/

namespace Verif

section
variable [Host]

/-! ## C18 -/

/-- **C18.** A successful `+t` leaves bindings alone and changes one belief set: afterwards
it consists of the old beliefs and the grounded term `b` — `b` is not added if an equal
(Python `==`) belief is present.  Other predicates, and other agents unless they use the
same set object, are not affected. -/
theorem C18_add_partial {n a : Nat} {t : Term} {s s' : QSt World} (hw : BeliefsOK s.w) (h : addBelief n a t s = .ok () s') :
    ∃ b f as xs, grounded n s.b.scope t = .ok b ∧ b = .lit f as xs ∧ b.Ground ∧ s'.b = s.b ∧ BeliefsOK s'.w ∧
      (∀ x, x ∈ s'.w.beliefs a (f, as.length) ↔ x ∈ s.w.beliefs a (f, as.length) ∨
        x = b ∧ ∀ y ∈ s.w.beliefs a (f, as.length), pyEqB y b = false) ∧
      (b.Proper → ∃ x ∈ s'.w.beliefs a (f, as.length), pyEqB x b = true) ∧
      ∀ a' g, g ≠ (f, as.length) ∨ a' ≠ a ∧ ¬ Shares s.w a a' (f, as.length) → s'.w.beliefs a' g = s.w.beliefs a' g := by
  obtain ⟨f, as, xs, h1, rfl⟩ := addBelief_ok h
  have hg := (grounded_settled h1).1
  refine ⟨_, f, as, xs, h1, rfl, hg, rfl, ?_, fun x => ?_, fun hp => ?_, fun a' g ho => setBeliefs_other hw ho⟩
  · refine setBeliefs_ok hw ?_ ?_ (pySetAdd_pairwise hw.set)
    · intro x hx
      rcases mem_pySetAdd.1 hx with hx | ⟨rfl, _⟩
      · exact hw.lits hx
      · exact ⟨f, as, xs, rfl, rfl⟩
    · intro x hx
      rcases mem_pySetAdd.1 hx with hx | ⟨rfl, _⟩
      · exact hw.ground hx
      · exact hg
  · simp only [setBeliefs_self]; exact mem_pySetAdd
  · simp only [setBeliefs_self]
    by_cases he : ∃ y ∈ s.w.beliefs a (f, as.length), pyEqB y (.lit f as xs) = true
    · obtain ⟨y, hy, he⟩ := he
      exact ⟨y, mem_pySetAdd.2 (.inl hy), he⟩
    · refine ⟨_, mem_pySetAdd.2 (.inr ⟨rfl, fun y hy => ?_⟩), pyEqB_refl hg hp⟩
      cases hb : pyEqB y (.lit f as xs) with
      | false => rfl
      | true => exact absurd ⟨y, hy, hb⟩ he

/-- **C18.** For ordinary beliefs (numbers, strings, structures, lists; no annotations) the
belief set afterwards is the old one with `b`. -/
theorem C18_add_simple {n a : Nat} {t b : Term} {s s' : QSt World} {f : String} {as : List Term}
    (h : addBelief n a t s = .ok () s') (hb : grounded n s.b.scope t = .ok b) (hl : b = .lit f as []) (hs : b.Simple)
    (ho : ∀ x ∈ s.w.beliefs a (f, as.length), x.Simple) :
    ∀ x, x ∈ s'.w.beliefs a (f, as.length) ↔ x ∈ s.w.beliefs a (f, as.length) ∨ x = b := by
  obtain ⟨f', as', xs, h1, rfl⟩ := addBelief_ok h
  rw [hb, hl] at h1
  simp only [Ev.ok.injEq, Term.lit.injEq] at h1
  obtain ⟨rfl, rfl, rfl⟩ := h1
  subst hl
  intro x
  simp only [setBeliefs_self, mem_pySetAdd]
  constructor
  · rintro (h | h)
    · exact .inl h
    · exact .inr h.1
  · rintro (h | rfl)
    · exact .inl h
    · by_cases hm : .lit f as [] ∈ s.w.beliefs a (f, as.length)
      · exact .inl hm
      · refine .inr ⟨rfl, fun y hy => ?_⟩
        have := pyEqB_simple (ho y hy) hs
        cases hb : pyEqB y (.lit f as []) with
        | false => rfl
        | true => exact absurd (this.1 hb ▸ hy) hm

/-- **C18.** Adding a belief twice has the same effect as adding it once. -/
theorem C18_add_twice {n a : Nat} {t : Term} {s s' : QSt World} (h : addBelief n a t s = .ok () s')
    (hp : ∀ b, grounded n s.b.scope t = .ok b → b.Proper) : addBelief n a t s' = .ok () s' := by
  obtain ⟨f, as, xs, h1, rfl⟩ := addBelief_ok h
  have hg := (grounded_settled h1).1
  have key : pySetAdd (pySetAdd (s.w.beliefs a (f, as.length)) (.lit f as xs)) (.lit f as xs) =
      pySetAdd (s.w.beliefs a (f, as.length)) (.lit f as xs) := by
    generalize s.w.beliefs a (f, as.length) = l
    unfold pySetAdd
    split
    · rfl
    · rw [if_pos (by simp [pyEqB_refl hg (hp _ h1)])]
  have hset : ∀ (w : World) (g : String × Nat) (l : List Term), (w.setBeliefs a g l).setBeliefs a g l = w.setBeliefs a g l := by
    intro w g l
    have hr := setBeliefs_ref (w := w) (a := a) (g := g) (xs := l) (a' := a) (g' := g)
    have hl := setBeliefs_self (w := w) (a := a) (g := g) (xs := l)
    generalize w.setBeliefs a g l = w' at hr hl
    have : ∃ r, (w'.ags a).beliefs g = some r := by
      rw [hr]
      cases (w.ags a).beliefs g <;> simp
    obtain ⟨r, hr⟩ := this
    unfold World.beliefs at hl
    rw [hr] at hl
    simp only at hl
    unfold World.setBeliefs
    rw [hr]
    simp only [World.setSet]
    have : (fun j => if j = r then l else w'.sets j) = w'.sets := by
      funext j
      split
      · next e => rw [e, hl]
      · rfl
    rw [this]
  unfold addBelief at h ⊢
  split at h
  · cases h
  · cases h
  · cases h
  · cases h
  · simp only [h1, Res.lift_ok, Res.bind_ok, setBeliefs_self, key, hset]

/-- **C18.** If the term contains an unbound variable or a wildcard, nothing is added; an
error is raised (or evaluation does not end, on cyclic bindings), and the state does not
change.  If no expression is involved, the error is an `AslError`. -/
theorem C18_add_unbound {n a i : Nat} {f : String} {as xs : List Term} {d : Bool} {rec : Rec} {s : QSt World}
    (h : Unbound s.b.scope (.lit f as xs)) :
    call n rec a .addition .belief (.lit f as xs) i d s = .oof ∨
      ∃ e, call n rec a .addition .belief (.lit f as xs) i d s = .err e s ∧
        ((Term.lit f as xs).ExprFree → (∀ x t, s.b.scope x = some t → t.ExprFree) → ∃ m, e = .asl m) := by
  have hu := fun g => grounded_unbound (n := n) (g := g) h
  simp only [call, callBeliefs, addBelief]
  cases hg : grounded n s.b.scope (.lit f as xs) with
  | oof => exact .inl rfl
  | ok g => exact absurd hg (hu g)
  | err e => exact .inr ⟨e, rfl, fun he hs => grounded_err hs n _ e he hg⟩

/-- **C18.** A belief in the belief base (whose annotations have no annotations themselves)
is found by a query. -/
theorem C18_query_partial {a : Nat} {b : Term} {s : QSt World} {f : String} {as xs : List Term} (hw : BeliefsOK s.w)
    (hl : b = .lit f as xs) (hb : b ∈ s.w.beliefs a (f, as.length)) (ha : s.w.cur = a) (hf : b.Flat) :
    ∃ N, ∀ n, N ≤ n → ∃ g s', gnext n (.start (.term b) : Gen Act ActGen) s = .ok (some g) s' := by
  subst ha hl
  obtain ⟨N, hN⟩ := query_covered hw (hw.ground hb) hf rfl ⟨_, hb, rfl, fun x hx => ⟨x, hx, rfl⟩⟩
  exact ⟨N, fun n hn => by
    obtain ⟨g, s', h, _⟩ := hN n hn
    exact ⟨g, s', h⟩⟩

/-! ## C19 -/

/-- **C19.** `-t`: if some belief of the predicate matches, one is removed, and all others
are kept: the beliefs before it in iteration order do not match, it matches, and the
bindings afterwards are those of the match. -/
theorem C19_remove_one {n a : Nat} {t : Term} {s s' : QSt World} (hw : BeliefsOK s.w) (h : removeBelief n a t s = .ok true s') :
    ∃ f as xs pre x post, evaluate n s.b.scope t = .ok (.lit f as xs) ∧
      s.w.beliefs a (f, as.length) = pre ++ x :: post ∧ s'.w.beliefs a (f, as.length) = pre ++ post ∧
      (∀ y ∈ pre, NoMatch (.lit f as xs) y s.b.scope) ∧ Matches (.lit f as xs) x s.b.scope s'.b.scope ∧
      Above s.b s'.b ∧
      ∀ a' g, g ≠ (f, as.length) ∨ a' ≠ a ∧ ¬ Shares s.w a a' (f, as.length) → s'.w.beliefs a' g = s.w.beliefs a' g := by
  obtain ⟨f, as, xs, h1, _, h2, pre, x, post, h3, h4, h5, h6⟩ := removeBelief_ok h
  exact ⟨f, as, xs, pre, x, post, h1, h3, by rw [h4, setBeliefs_self], h5, h6, h2, fun a' g ho => by
    rw [h4]; exact setBeliefs_other hw ho⟩

/-- **C19.** If no belief matches, nothing changes: not the world, not the bindings. -/
theorem C19_remove_none {n a : Nat} {t : Term} {s s' : QSt World} (h : removeBelief n a t s = .ok false s') :
    ∃ f as xs, evaluate n s.b.scope t = .ok (.lit f as xs) ∧
      (∀ x ∈ s.w.beliefs a (f, as.length), NoMatch (.lit f as xs) x s.b.scope) ∧
      s'.w = s.w ∧ s'.nv = s.nv ∧ s'.b.scope = s.b.scope ∧ s'.b.stack = s.b.stack := by
  obtain ⟨f, as, xs, h1, h2, h3, h4, h5⟩ := removeBelief_ok h
  exact ⟨f, as, xs, h1, h5, h3, h2, h4.scope, h4.stack⟩

/-- **C19.** In this case `call` generates no event (no intention, no waiting intention is
woken up, the world is unchanged), and the plan goes on. -/
theorem C19_remove_none_call {n a i : Nat} {t : Term} {d : Bool} {rec : Rec} {s s' : QSt World}
    (h : removeBelief n a t s = .ok false s') : call n rec a .removal .belief t i d s = .ok true s' := by
  simp [call, callBeliefs, h]

/-- **C19.** What matching means (with C11): the bindings after the removal are consistent
with exactly the assignments that were consistent before, make the term equal to the
removed belief, and each annotation of the term equal to a different annotation of the
belief. -/
theorem C19_match_logic {cmp : Bool} {f g : String} {as bs xs ys : List Term} {sc sc' : Scope}
    (hsc : ScopeOK cmp sc) (hl : (Term.lit f as xs).LitOK cmp) (hr : (Term.lit g bs ys).Parts (Term.Tame cmp))
    (hc : LitCompat (.lit f as xs) (.lit g bs ys)) (h : Matches (.lit f as xs) (.lit g bs ys) sc sc') :
    ∃ zs, Chosen zs ys ∧ ∀ σ : Asg, Models σ sc' ↔
      Models σ sc ∧ Agree σ (.lit f as xs) (.lit g bs ys) ∧ AgreeEach σ xs zs := by
  obtain ⟨n, b, d, b', rfl, h1, rfl⟩ := h
  exact C11_annotated_sound hsc hl hr hc h1

/-- **C19.** What not matching means (with C12; at most one annotation): no assignment
consistent with the bindings makes the term match. -/
theorem C19_nomatch_partial {cmp : Bool} {f g : String} {as bs xs ys : List Term} {sc : Scope}
    (hsc : ScopeOK cmp sc) (hl : (Term.lit f as xs).LitOK cmp) (hr : (Term.lit g bs ys).Parts (Term.Tame cmp))
    (hc : LitCompat (.lit f as xs) (.lit g bs ys)) (hx : xs.length ≤ 1) (h : NoMatch (.lit f as xs) (.lit g bs ys) sc) :
    ∀ σ : Asg, Models σ sc → ¬ (Agree σ (.lit f as xs) (.lit g bs ys) ∧ AnnotsMatch σ xs ys) := by
  obtain ⟨n, b, b', rfl, h1⟩ := h
  exact C12_annotated_complete_partial hsc hl hr hc hx h1

/-- **C19.** Removing a ground literal always returns; it removes the first belief covering
it (same value, and its annotations are among those of the belief). -/
theorem C19_remove_ground {a : Nat} {f : String} {as xs : List Term} {s : QSt World} (hw : BeliefsOK s.w)
    (hg : (Term.lit f as xs).Ground) (hf : (Term.lit f as xs).Flat) :
    ∃ N, ∀ n, N ≤ n → ∃ r s', removeBelief n a (.lit f as xs) s = .ok r s' ∧ s'.b.scope = s.b.scope ∧
      (r = true ↔ ∃ x ∈ s.w.beliefs a (f, as.length), Covers (.lit f as xs) x) ∧
      (r = true → ∃ pre x post, s.w.beliefs a (f, as.length) = pre ++ x :: post ∧ s'.w.beliefs a (f, as.length) = pre ++ post ∧
        (∀ y ∈ pre, ¬ Covers (.lit f as xs) y) ∧ Covers (.lit f as xs) x) := by
  obtain ⟨N, hN⟩ := removeBelief_total (a := a) hw hg hf
  have lit : ∀ x ∈ s.w.beliefs a (f, as.length), x.Ground ∧ ∃ f as xs, x = .lit f as xs := fun x hx => by
    obtain ⟨g, bs, ys, rfl, _⟩ := hw.lits hx
    exact ⟨hw.ground hx, _, _, _, rfl⟩
  refine ⟨N + 1, fun n hn => ?_⟩
  obtain ⟨n, rfl⟩ : ∃ k, n = k + 1 := ⟨n - 1, by omega⟩
  obtain ⟨r, s', h⟩ := hN (n + 1) (by omega)
  refine ⟨r, s', h, ?_⟩
  obtain ⟨f', as', xs', h1, _, h2⟩ := removeBelief_ok h
  simp only [evaluate, Ev.ok.injEq, Term.lit.injEq] at h1
  obtain ⟨rfl, rfl, rfl⟩ := h1
  cases r with
  | false =>
    simp only at h2
    refine ⟨h2.2.1.scope, ?_, by simp⟩
    simp only [Bool.false_eq_true, false_iff]
    rintro ⟨x, hx, hc⟩
    exact noMatch_flat ⟨_, _, _, rfl⟩ hg hf (lit x hx) (h2.2.2 x hx) hc
  | true =>
    simp only at h2
    obtain ⟨_, pre, x, post, h3, h4, h5, h6⟩ := h2
    have hx := lit x (by rw [h3]; simp)
    have hm := matches_flat ⟨_, _, _, rfl⟩ hg hf hx h6
    refine ⟨hm.2, by simp only [true_iff]; exact ⟨x, by rw [h3]; simp, hm.1⟩, fun _ => ?_⟩
    exact ⟨pre, x, post, h3, by rw [h4, setBeliefs_self], fun y hy =>
      noMatch_flat ⟨_, _, _, rfl⟩ hg hf (lit y (by rw [h3]; simp [hy])) (h5 y hy), hm.1⟩

/-! ## C20 -/

/-- **C20** (part).  `-+b` where all arguments of `b` are different variables, wildcards or
expressions and `b` has no annotations: first one belief of the predicate is removed, if
there is any, whatever its arguments and annotations.  (`k` is the offset that makes the
pattern's variables new.)  Then `b` is added as described in C18.  Missing — because
false — are constant arguments, structures, repeated variables and annotations: they are
kept in the pattern, see `C20_constant_kept`. -/
theorem C20_replace_partial {n a k : Nat} {f : String} {as : List Term} {s : QSt World} (hw : BeliefsOK s.w) (ho : OpenArgs as)
    (hb : ∀ x, .var x ∈ as → s.b.scope (k + x) = none) :
    ∃ r s', removeBelief (n + 4) a ((Term.lit f as []).replacePattern k) s = .ok r s' ∧
      s'.w.beliefs a (f, as.length) = (s.w.beliefs a (f, as.length)).tail ∧
      (r = true ↔ s.w.beliefs a (f, as.length) ≠ []) ∧ BeliefsOK s'.w ∧
      (∀ a' g, g ≠ (f, as.length) ∨ a' ≠ a ∧ ¬ Shares s.w a a' (f, as.length) → s'.w.beliefs a' g = s.w.beliefs a' g) ∧
      ∀ m s'', addBelief m a (.lit f as []) s' = .ok () s'' →
        ∃ b, grounded m s'.b.scope (.lit f as []) = .ok b ∧
          (∀ x, x ∈ s''.w.beliefs a (f, as.length) ↔ x ∈ s'.w.beliefs a (f, as.length) ∨
            x = b ∧ ∀ y ∈ s'.w.beliefs a (f, as.length), pyEqB y b = false) ∧
          ∀ a' g, g ≠ (f, as.length) ∨ a' ≠ a ∧ ¬ Shares s'.w a a' (f, as.length) → s''.w.beliefs a' g = s'.w.beliefs a' g := by
  obtain ⟨r, s', h, _, h2⟩ := removeBelief_open (n := n) (a := a) (f := f) hw ho hb
  have hok : BeliefsOK s'.w := by
    cases hl : s.w.beliefs a (f, as.length) with
    | nil => rw [h2, hl]; exact hw
    | cons x rest =>
      rw [h2, hl]
      have hset := hw.set (a := a) (g := (f, as.length))
      rw [hl] at hset
      exact setBeliefs_ok hw (fun x hx => hw.lits (a := a) (by rw [hl]; simp [hx]))
        (fun x hx => hw.ground (a := a) (g := (f, as.length)) (by rw [hl]; simp [hx])) (List.pairwise_cons.1 hset).2
  refine ⟨r, s', h, ?_, ?_, hok, ?_, ?_⟩
  · rw [h2]
    cases hl : s.w.beliefs a (f, as.length) with
    | nil => simpa using hl
    | cons x rest => simp [setBeliefs_self]
  · obtain ⟨f', as', xs', e1, _, e2⟩ := removeBelief_ok h
    simp only [Term.replacePattern, evaluate, Ev.ok.injEq, Term.lit.injEq] at e1
    obtain ⟨rfl, rfl, rfl⟩ := e1
    rw [replacePatternL_length] at e2
    cases r with
    | true =>
      simp only at e2
      obtain ⟨_, pre, x, post, e3, _⟩ := e2
      simp [e3]
    | false =>
      simp only at e2
      simp only [Bool.false_eq_true, ne_eq, false_iff, Decidable.not_not]
      cases hl : s.w.beliefs a (f, as.length) with
      | nil => rfl
      | cons x rest =>
        have := congrArg (fun w => (w.beliefs a (f, as.length)).length) (e2.1.symm.trans h2)
        simp [hl, setBeliefs_self] at this
  · intro a' g hg
    rw [h2]
    cases hl : s.w.beliefs a (f, as.length) with
    | nil => rfl
    | cons x rest => exact setBeliefs_other hw hg
  · intro m s'' ha
    obtain ⟨b, f', bs, ys, i1, rfl, _, _, _, i2, _, i3⟩ := C18_add_partial hok ha
    obtain ⟨bs', ys', e, hlen⟩ := grounded_lit i1
    simp only [Term.lit.injEq] at e
    obtain ⟨rfl, rfl, rfl⟩ := e
    rw [hlen] at i2 i3
    exact ⟨_, i1, i2, i3⟩

/-- **C20** (part).  Whatever `b` is, the removal instruction of `-+b` removes at most one
belief, and only of the predicate of `b`. -/
theorem C20_at_most_one {n a k : Nat} {f : String} {as xs : List Term} {s s' : QSt World} {r : Bool} (hw : BeliefsOK s.w)
    (h : removeBelief n a ((Term.lit f as xs).replacePattern k) s = .ok r s') :
    (s'.w.beliefs a (f, as.length) = s.w.beliefs a (f, as.length) ∨ ∃ pre x post,
      s.w.beliefs a (f, as.length) = pre ++ x :: post ∧ s'.w.beliefs a (f, as.length) = pre ++ post) ∧
      ∀ a' g, g ≠ (f, as.length) ∨ a' ≠ a ∧ ¬ Shares s.w a a' (f, as.length) → s'.w.beliefs a' g = s.w.beliefs a' g := by
  obtain ⟨f', as', xs', e1, _, e2⟩ := removeBelief_ok h
  cases n with
  | zero => simp [evaluate] at e1
  | succ n =>
    simp only [Term.replacePattern, evaluate, Ev.ok.injEq, Term.lit.injEq] at e1
    obtain ⟨rfl, rfl, rfl⟩ := e1
    rw [replacePatternL_length] at e2
    cases r with
    | false => simp only at e2; rw [e2.1]; exact ⟨.inl rfl, fun _ _ _ => rfl⟩
    | true =>
      simp only at e2
      obtain ⟨_, pre, x, post, e3, e4, _⟩ := e2
      exact ⟨.inr ⟨pre, x, post, e3, by rw [e4, setBeliefs_self]⟩, fun a' g hg => by rw [e4]; exact setBeliefs_other hw hg⟩

/-! ## C21 -/

/-- A history of belief additions and removals by agent `a`, starting with world `w` and
ending with `w'`; between the operations, bindings may change arbitrarily.  An addition is
labelled with the grounded term; removals are ground literals themselves. -/
inductive Hist (a : Nat) : List BeliefOp → World → World → Prop where
  | nil {w} : Hist a [] w w
  | add {ops n t b s s' w} : addBelief n a t s = .ok () s' → grounded n s.b.scope t = .ok b → Hist a ops s'.w w →
      Hist a (.add b :: ops) s.w w
  | del {ops n t r s s' w} : removeBelief n a t s = .ok r s' → t.isLiteral = true → Hist a ops s'.w w →
      Hist a (.del t :: ops) s.w w

/-- The term of an operation. -/
def BeliefOp.term : BeliefOp → Term
  | .add t | .del t => t

/-- `b` is in the belief base of agent `a`. -/
def Believes (w : World) (a : Nat) (b : Term) : Prop := ∃ g, b ∈ w.beliefs a g

theorem believes_add {n a : Nat} {t b : Term} {s s' : QSt World} (hw : BeliefsOK s.w) (hi : ∀ x, Believes s.w a x → x.Simple)
    (h : addBelief n a t s = .ok () s') (hb : grounded n s.b.scope t = .ok b) (hs : b.Simple) :
    BeliefsOK s'.w ∧ ∀ x, Believes s'.w a x ↔ Believes s.w a x ∨ x = b := by
  obtain ⟨b', f, as, xs, h1, rfl, _, _, h2, _, _, h3⟩ := C18_add_partial hw h
  rw [hb] at h1
  cases h1
  obtain ⟨rfl, hs'⟩ := hs
  have h4 := C18_add_simple h hb rfl ⟨rfl, hs'⟩ fun x hx => hi x ⟨_, hx⟩
  refine ⟨h2, fun x => ⟨?_, ?_⟩⟩
  · rintro ⟨g, hx⟩
    by_cases hg : g = (f, as.length)
    · subst hg
      rcases (h4 x).1 hx with h | h
      · exact .inl ⟨_, h⟩
      · exact .inr h
    · rw [h3 a g (.inl hg)] at hx
      exact .inl ⟨g, hx⟩
  · rintro (⟨g, hx⟩ | rfl)
    · by_cases hg : g = (f, as.length)
      · subst hg; exact ⟨_, (h4 x).2 (.inl hx)⟩
      · exact ⟨g, by rwa [h3 a g (.inl hg)]⟩
    · exact ⟨_, (h4 _).2 (.inr rfl)⟩

theorem believes_del {n a : Nat} {t : Term} {r : Bool} {s s' : QSt World} (hw : BeliefsOK s.w)
    (hi : ∀ x, Believes s.w a x → x.Simple) (h : removeBelief n a t s = .ok r s') (hl : t.isLiteral = true) (hs : t.Simple) :
    BeliefsOK s'.w ∧ ∀ x, Believes s'.w a x ↔ Believes s.w a x ∧ x ≠ t := by
  cases t <;> simp only [Term.isLiteral, Bool.false_eq_true] at hl
  next f as xs =>
  have hok : BeliefsOK s'.w := by
    obtain ⟨f', as', xs', _, _, h2⟩ := removeBelief_ok h
    cases r with
    | false => simp only at h2; rw [h2.1]; exact hw
    | true =>
      simp only at h2
      obtain ⟨_, pre, x, post, h3, h4, _⟩ := h2
      have hsub : (pre ++ post).Sublist (s.w.beliefs a (f', as'.length)) := by
        rw [h3]; exact List.Sublist.append_left (List.sublist_cons_self x post) pre
      rw [h4]
      exact setBeliefs_ok hw (fun x hx => hw.lits (hsub.subset hx)) (fun x hx => hw.ground (hsub.subset hx))
        (hw.set.sublist hsub)
  refine ⟨hok, ?_⟩
  have hg := simple_ground _ hs
  have lit : ∀ x g, x ∈ s.w.beliefs a g → x.Ground ∧ ∃ f as xs, x = .lit f as xs := fun x g hx => by
    obtain ⟨g, bs, ys, rfl, _⟩ := hw.lits hx
    exact ⟨hw.ground hx, _, _, _, rfl⟩
  have cov : ∀ x g, x ∈ s.w.beliefs a g → (Covers (.lit f as xs) x ↔ .lit f as xs = x) := fun x g hx =>
    covers_simple hs (hi x ⟨g, hx⟩)
  have grp : ∀ g, .lit f as xs ∈ s.w.beliefs a g → g = (f, as.length) := fun g hx => by
    obtain ⟨f', as', xs', e, e2⟩ := hw.lits hx
    simp only [Term.lit.injEq] at e
    obtain ⟨rfl, rfl, rfl⟩ := e
    exact e2
  obtain ⟨f', as', xs', h1, _, h2⟩ := removeBelief_ok h
  cases n with
  | zero => simp [evaluate] at h1
  | succ n =>
  simp only [evaluate, Ev.ok.injEq, Term.lit.injEq] at h1
  obtain ⟨rfl, rfl, rfl⟩ := h1
  intro x
  cases r with
  | false =>
    simp only at h2
    rw [h2.1]
    refine ⟨fun hx => ⟨hx, ?_⟩, fun hx => hx.1⟩
    rintro rfl
    obtain ⟨g, hx⟩ := hx
    have := grp g hx
    subst this
    exact noMatch_flat ⟨_, _, _, rfl⟩ hg hs.flat (lit _ _ hx) (h2.2.2 _ hx) ((cov _ _ hx).2 rfl)
  | true =>
    simp only at h2
    obtain ⟨_, pre, y, post, h3, h4, _, h6⟩ := h2
    have hy : y ∈ s.w.beliefs a (f, as.length) := by rw [h3]; simp
    have hyt : .lit f as xs = y := (cov y _ hy).1 (matches_flat ⟨_, _, _, rfl⟩ hg hs.flat (lit y _ hy) h6).1
    subst hyt
    have hset := hw.set (a := a) (g := (f, as.length))
    have hne : ∀ z ∈ pre ++ post, z ≠ .lit f as xs := by
      rintro z hz rfl
      have e := (pyEqB_simple hs hs).2 rfl
      rw [h3, List.pairwise_append] at hset
      rcases List.mem_append.1 hz with hz | hz
      · have := hset.2.2 _ hz (.lit f as xs) (by simp)
        rw [e] at this; cases this
      · have := (List.pairwise_cons.1 hset.2.1).1 _ hz
        rw [e] at this; cases this
    rw [h4]
    constructor
    · rintro ⟨g, hx⟩
      by_cases hgg : g = (f, as.length)
      · subst hgg
        rw [setBeliefs_self] at hx
        refine ⟨⟨(f, as.length), ?_⟩, hne x hx⟩
        rw [h3]
        simp only [List.mem_append, List.mem_cons] at hx ⊢
        rcases hx with hx | hx
        · exact .inl hx
        · exact .inr (.inr hx)
      · rw [setBeliefs_other hw (.inl hgg)] at hx
        refine ⟨⟨g, hx⟩, ?_⟩
        rintro rfl
        exact hgg (grp g hx)
    · rintro ⟨⟨g, hx⟩, hxt⟩
      refine ⟨g, ?_⟩
      by_cases hgg : g = (f, as.length)
      · subst hgg
        rw [setBeliefs_self]
        rw [h3] at hx
        simp only [List.mem_append, List.mem_cons] at hx ⊢
        rcases hx with hx | hx | hx
        · exact .inl hx
        · exact absurd hx hxt
        · exact .inr hx
      · rwa [setBeliefs_other hw (.inl hgg)]

/-- **C21** (part).  After a history of additions and ground removals of unannotated
literals built from numbers, strings, structures and lists, a belief is present iff it
was added after its last removal, or was present at the beginning and never removed.
Missing — because false — are `true`/`false` as arguments (`C21_bool_lost`) and annotations
(`C21_annotated_removed`). -/
theorem C21_history_partial {a : Nat} {ops : List BeliefOp} {w w' : World} (h : Hist a ops w w') (hw : BeliefsOK w)
    (hi : ∀ x, Believes w a x → x.Simple) (ho : ∀ o ∈ ops, o.term.Simple) :
    BeliefsOK w' ∧ ∀ b, Believes w' a b ↔ (∃ pre post, ops = pre ++ .add b :: post ∧ .del b ∉ post) ∨
      Believes w a b ∧ .del b ∉ ops := by
  induction h with
  | nil => exact ⟨hw, fun b => by simp⟩
  | @add ops n t u s s' w h1 h2 h3 ih =>
    have hu : u.Simple := ho (.add u) (by simp)
    obtain ⟨hok, hb⟩ := believes_add hw hi h1 h2 hu
    obtain ⟨i1, i2⟩ := ih hok (fun x hx => by
      rcases (hb x).1 hx with hx | rfl
      · exact hi x hx
      · exact hu) fun o ho' => ho o (by simp [ho'])
    refine ⟨i1, fun b => ?_⟩
    rw [i2 b, hb b]
    constructor
    · rintro (⟨pre, post, rfl, hd⟩ | ⟨hx | rfl, hd⟩)
      · exact .inl ⟨.add u :: pre, post, rfl, hd⟩
      · exact .inr ⟨hx, by simpa using hd⟩
      · exact .inl ⟨[], ops, rfl, hd⟩
    · rintro (⟨pre, post, he, hd⟩ | ⟨hx, hd⟩)
      · cases pre with
        | nil =>
          simp only [List.nil_append, List.cons.injEq, BeliefOp.add.injEq] at he
          obtain ⟨rfl, rfl⟩ := he
          exact .inr ⟨.inr rfl, hd⟩
        | cons o pre =>
          simp only [List.cons_append, List.cons.injEq] at he
          exact .inl ⟨pre, post, he.2, hd⟩
      · exact .inr ⟨.inl hx, by simpa using hd⟩
  | @del ops n t r s s' w h1 h2 h3 ih =>
    have hu : t.Simple := ho (.del t) (by simp)
    obtain ⟨hok, hb⟩ := believes_del hw hi h1 h2 hu
    obtain ⟨i1, i2⟩ := ih hok (fun x hx => hi x ((hb x).1 hx).1) fun o ho' => ho o (by simp [ho'])
    refine ⟨i1, fun b => ?_⟩
    rw [i2 b, hb b]
    constructor
    · rintro (⟨pre, post, rfl, hd⟩ | ⟨⟨hx, hn⟩, hd⟩)
      · exact .inl ⟨.del t :: pre, post, rfl, hd⟩
      · exact .inr ⟨hx, by simpa [hn] using hd⟩
    · rintro (⟨pre, post, he, hd⟩ | ⟨hx, hd⟩)
      · cases pre with
        | nil => simp at he
        | cons o pre =>
          simp only [List.cons_append, List.cons.injEq] at he
          exact .inl ⟨pre, post, he.2, hd⟩
      · simp only [List.mem_cons, BeliefOp.del.injEq, not_or] at hd
        exact .inr ⟨⟨hx, hd.1⟩, hd.2⟩

/-- **C21.** Ground removals never get stuck, so every such history can be continued. -/
theorem C21_remove_total {a : Nat} {t : Term} {s : QSt World} (hw : BeliefsOK s.w) (hl : t.isLiteral = true) (hs : t.Simple) :
    ∃ n r s', removeBelief n a t s = .ok r s' := by
  cases t <;> simp only [Term.isLiteral, Bool.false_eq_true] at hl
  obtain ⟨N, hN⟩ := removeBelief_total (a := a) hw (simple_ground _ hs) hs.flat
  obtain ⟨r, s', h⟩ := hN N (Nat.le_refl _)
  exact ⟨N, r, s', h⟩

/-- **C21.** Whatever a query, an action (including message delivery) or an event does, all
stored beliefs stay ground literals without duplicates: here for the operations of C18 and
C19; `beliefsOK_stable` covers all others. -/
theorem C21_ground {a : Nat} {ops : List BeliefOp} {w w' : World} (h : Hist a ops w w') (hw : BeliefsOK w) :
    ∀ b, Believes w' a b → b.Ground := by
  have : BeliefsOK w' := by
    induction h with
    | nil => exact hw
    | add h1 h2 h3 ih =>
      obtain ⟨_, _, _, _, _, _, _, _, hok, _⟩ := C18_add_partial hw h1
      exact ih hok
    | del h1 h2 h3 ih =>
      refine ih ?_
      obtain ⟨f', as', xs', _, _, h4⟩ := removeBelief_ok h1
      split at h4
      · rw [h4.1]; exact hw
      · obtain ⟨_, pre, x, post, h5, h6, _⟩ := h4
        have hsub := List.Sublist.append_left (List.sublist_cons_self x post) pre
        rw [← h5] at hsub
        rw [h6]
        exact setBeliefs_ok hw (fun x hx => hw.lits (hsub.subset hx)) (fun x hx => hw.ground (hsub.subset hx))
          (hw.set.sublist hsub)
  rintro b ⟨g, hb⟩
  exact this.ground hb

/-! ## C22 -/

theorem abolishGo_mem {n : Nat} {p : Term} : ∀ {xs keep : List Term}, abolishGo n p xs = .ok keep → keep.Sublist xs ∧ ∀ x ∈ xs,
    ∃ o b', uaStart n x p BSt.init = .ok o b' ∧ (x ∈ keep ↔ o = none)
  | [], keep, h => by simp [abolishGo] at h; subst h; simp
  | y :: ys, keep, h => by
    rw [abolishGo, unifiesAnnotated] at h
    cases hu : uaStart n y p BSt.init with
    | oof => simp [hu] at h
    | err e b => simp [hu] at h
    | ok o b' =>
      simp only [hu, Res.bind_ok, Ev.map_eq_ok] at h
      obtain ⟨ks, h1, h2⟩ := h
      obtain ⟨i1, i2⟩ := abolishGo_mem h1
      cases o with
      | none =>
        simp at h2
        subst h2
        refine ⟨i1.cons_cons y, fun x hx => ?_⟩
        by_cases hxy : x = y
        · subst hxy; exact ⟨none, b', hu, by simp⟩
        · obtain ⟨o, b₁, e1, e2⟩ := i2 x ((List.mem_cons.1 hx).resolve_left hxy)
          exact ⟨o, b₁, e1, by simpa [hxy] using e2⟩
      | some d =>
        simp at h2
        subst h2
        refine ⟨i1.cons y, fun x hx => ?_⟩
        rcases List.mem_cons.1 hx with rfl | hx
        · refine ⟨some d, b', hu, ⟨fun hk => ?_, by simp⟩⟩
          obtain ⟨o, b₁, e1, e2⟩ := i2 x (i1.subset hk)
          rw [hu] at e1
          cases e1
          exact e2.1 hk
        · exact i2 x hx

/-- **C22** (part).  `.abolish(p)` binds no variables, changes only one predicate of the
running agent, and keeps exactly the beliefs `x` for which annotated unification of `x`
*with the pattern* — in this order — fails.  Missing — because false, see
`C22_annotated_kept` — is that these are the beliefs that do not match the pattern if
annotations are involved; without annotations see `C22_unannotated_partial`. -/
theorem C22_abolish_partial {n : Nat} {rec : Rec} {t : Term} {s s' : QSt World} {o : Option ActGen} (hw : BeliefsOK s.w)
    (h : actNext n rec (.start .abolish t) s = .ok o s') :
    ∃ q f as xs m, argAt t 0 = .ok q ∧ freezeNew n s.b.scope q s.nv = .ok (.lit f as xs) m ∧ o.isSome = true ∧ s'.b = s.b ∧
      (s'.w.beliefs s.w.cur (f, as.length)).Sublist (s.w.beliefs s.w.cur (f, as.length)) ∧
      (∀ x ∈ s.w.beliefs s.w.cur (f, as.length),
        (x ∈ s'.w.beliefs s.w.cur (f, as.length) ∧ NoMatch x (.lit f as xs) Scope.empty) ∨
        (x ∉ s'.w.beliefs s.w.cur (f, as.length) ∧ ∃ sc, Matches x (.lit f as xs) Scope.empty sc)) ∧
      ∀ a' g, g ≠ (f, as.length) ∨ a' ≠ s.w.cur ∧ ¬ Shares s.w s.w.cur a' (f, as.length) →
        s'.w.beliefs a' g = s.w.beliefs a' g := by
  rw [actNext] at h
  simp only [Res.bind_eq_ok, Res.lift_eq_ok] at h
  obtain ⟨q, s₁, ⟨h1, rfl⟩, p, s₂, h2, h⟩ := h
  unfold QSt.freeze at h2
  cases hf : freezeNew n s.b.scope q s.nv with
  | oof => simp [hf] at h2
  | err e m => simp [hf] at h2
  | ok p' m =>
    simp only [hf, Res.ok.injEq] at h2
    obtain ⟨rfl, rfl⟩ := h2
    cases p' <;> simp only [reduceCtorEq] at h
    next f as xs =>
    simp only [Res.bind_eq_ok, Res.lift_eq_ok] at h
    obtain ⟨keep, s₃, ⟨h3, rfl⟩, h⟩ := h
    simp only [Res.ok.injEq] at h
    obtain ⟨rfl, rfl⟩ := h
    obtain ⟨i1, i2⟩ := abolishGo_mem h3
    refine ⟨q, f, as, xs, m, h1, hf, rfl, rfl, ?_, fun x hx => ?_, fun a' g hg => setBeliefs_other hw hg⟩
    · simpa only [setBeliefs_self] using i1
    · obtain ⟨o, b', e1, e2⟩ := i2 x hx
      simp only [setBeliefs_self]
      cases o with
      | none => exact .inl ⟨e2.2 rfl, n, _, _, rfl, e1⟩
      | some d => exact .inr ⟨fun hk => by simpa using e2.1 hk, _, n, _, d, b', rfl, e1, rfl⟩

/-- Matching an unannotated ground belief with a pattern in the empty scope. -/
theorem ua_abolish {n : Nat} {f g : String} {as bs ys : List Term} {o : Option Nat} {b b' : BSt} (hl : (Term.lit f as []).Closed)
    (hp : (Term.lit g bs ys).NoExpr) (hb : b.scope = Scope.empty)
    (h : uaStart n (.lit f as []) (.lit g bs ys) b = .ok o b') :
    o.isSome = true ↔ ∃ σ : Asg, Agree σ (.lit f as []) (.lit g bs ys) := by
  match n, h with
  | 0, h => simp [uaStart] at h
  | 1, h => simp [uaStart, uaLit, evaluate] at h
  | n + 2, h =>
    rw [uaLit_lit] at h
    have hsc : ∀ x t, b.mark.scope x = some t → False := by intro x t hx; simp [BSt.mark, BSt.pushCp, BSt.newCp, hb, Scope.empty] at hx
    have hm : ∀ σ : Asg, Models σ b.mark.scope := fun σ x t hx => (hsc x t hx).elim
    have hok := unify_ok (c := false) (n + 2) (.lit f as []) (.lit g bs ys) b.mark (fun x t hx => (hsc x t hx).elim)
      hl.noExpr.tame hp.tame (Or.inr (Or.inl hl))
    have hnc := fun b₁ => unify_newClosed (n + 2) (.lit f as []) (.lit g bs ys) b.mark b₁ (Or.inl hl)
    rw [unify] at hok hnc
    simp only [Term.isObj, if_true, methUnify] at hok hnc
    cases hu : litUnify (n + 1) (unify (n + 1)) f as [] (.lit g bs ys) b.mark with
    | oof => simp [hu, yieldIf] at h
    | err e b₁ => simp [hu, yieldIf] at h
    | ok r b₁ =>
      rw [hu] at hok hnc
      cases r with
      | true =>
        simp only [hu, yieldIf, Res.bind_ok, if_true, matchAnnots, Res.ok.injEq] at h
        obtain ⟨rfl, rfl⟩ := h
        have hcl := hnc b₁ (Or.inl ⟨true, rfl⟩)
        have hcl' : ∀ x t, b₁.scope x = some t → t.Closed := fun x t hx => (hcl x t hx).resolve_left fun e => hsc x t e
        simp only [Option.isSome_some, true_iff]
        refine ⟨fun x => ((b₁.scope x).bind Term.val).getD .nil, ?_⟩
        refine (((hok.yes b₁ rfl).2 _).1 ?_).2
        intro x t hx
        obtain ⟨v, hv⟩ := val_some t (hcl' x t hx)
        simp only [hx, Option.bind_some, hv, Option.getD_some]
        exact den_of_val t v hv
      | false =>
        simp only [hu, yieldIf, Res.bind_ok, Bool.false_eq_true, if_false, Res.ok.injEq] at h
        obtain ⟨rfl, rfl⟩ := h
        simp only [Option.isSome_none, Bool.false_eq_true, false_iff]
        rintro ⟨σ, hσ⟩
        exact hok.no b₁ rfl σ (hm σ) hσ

/-- **C22** (part).  Beliefs without annotations: removed are exactly those that are an
instance of the frozen pattern (which must contain no expression). -/
theorem C22_unannotated_partial {n : Nat} {rec : Rec} {t q p : Term} {m : FSt} {s s' : QSt World} {o : Option ActGen}
    {f : String} {as xs : List Term} (hw : BeliefsOK s.w) (h : actNext n rec (.start .abolish t) s = .ok o s')
    (hq : argAt t 0 = .ok q) (hp : freezeNew n s.b.scope q s.nv = .ok p m) (hl : p = .lit f as xs) (hpe : p.NoExpr)
    {x : Term} (hx : x ∈ s.w.beliefs s.w.cur (f, as.length)) (hxa : x.annots = []) :
    x ∈ s'.w.beliefs s.w.cur (f, as.length) ↔ ¬ ∃ σ : Asg, Agree σ x p := by
  obtain ⟨q', f', as', xs', m', h1, h2, _, _, _, h3, _⟩ := C22_abolish_partial hw h
  rw [hq] at h1
  cases h1
  rw [hp] at h2
  simp only [Res.ok.injEq] at h2
  obtain ⟨rfl, rfl⟩ := h2
  simp only [Term.lit.injEq] at hl
  obtain ⟨rfl, rfl, rfl⟩ := hl
  obtain ⟨g, bs, ys, rfl, _⟩ := hw.lits hx
  have hg := (hw.ground hx).closed
  simp only [Term.annots] at hxa
  subst hxa
  rcases h3 _ hx with ⟨h4, n, b, b', hb, hu⟩ | ⟨h4, sc, n, b, d, b', hb, hu, _⟩
  · have := ua_abolish hg hpe hb hu
    simp only [Option.isSome_none, Bool.false_eq_true, false_iff] at this
    exact ⟨fun _ => this, fun _ => h4⟩
  · have := ua_abolish hg hpe hb hu
    simp only [Option.isSome_some, true_iff] at this
    exact ⟨fun h => absurd h h4, fun h => absurd this h⟩

end

section examples
attribute [local instance] exactHost

/-- A world with one agent (number 0) whose belief sets are `bel`. -/
def oneAgent (f : String) (k : Nat) (bel : List Term) : World :=
  (World.init fun _ => 0).setBeliefs 0 (f, k) bel

theorem oneAgent_beliefs {f : String} {k : Nat} {bel : List Term} {a : Nat} {g : String × Nat} :
    (oneAgent f k bel).beliefs a g = if a = 0 ∧ g = (f, k) then bel else [] := by
  simp only [oneAgent, World.beliefs, setBeliefs_ref, World.init, setBeliefs_sets]
  by_cases h : a = 0 ∧ g = (f, k) <;> simp [h]

theorem oneAgent_ok {f : String} {k : Nat} {bel : List Term} (h1 : ∀ x ∈ bel, ∃ as xs, x = .lit f as xs ∧ as.length = k)
    (h2 : ∀ x ∈ bel, x.Ground) (h3 : bel.Pairwise fun x y => pyEqB x y = false) : BeliefsOK (oneAgent f k bel) := by
  refine setBeliefs_ok ⟨?_, ?_, ?_, ?_, ?_⟩ ?_ h2 h3
  · intro a g r h; simp [World.init] at h
  · intro a a' g g' r h; simp [World.init] at h
  · intro a g x h; simp [World.beliefs, World.init] at h
  · intro a g x h; simp [World.beliefs, World.init] at h
  · intro a g; simp [World.beliefs, World.init]
  · intro x hx
    obtain ⟨as, xs, rfl, h⟩ := h1 x hx
    exact ⟨f, as, xs, rfl, by rw [h]⟩

/-- `p(t)` -/
def p1 (t : Term) : Term := .lit "p" [t] []

/-- Agent 0 believes `p(1)`. -/
def stP1 : QSt World := ⟨BSt.init, 10, oneAgent "p" 1 [p1 (.num 1)]⟩

theorem stP1_ok : BeliefsOK stP1.w :=
  oneAgent_ok (by simp [p1]) (by simp [p1, Term.Ground, Term.All, Term.AllL]) (by simp)

/-- The bindings `X ↦ 2`. -/
def bX2 : BSt := { BSt.init with scope := Scope.empty.set 0 (.num 2) }

/-- C18: `+p(X)` with `X ↦ 2` and `p(1)` present: both are present afterwards; adding
again changes nothing; the new belief is found. -/
example : ∃ s', addBelief 10 0 (p1 (.var 0)) { stP1 with b := bX2 } = .ok () s' ∧
    s'.w.beliefs 0 ("p", 1) = [p1 (.num 1), p1 (.num 2)] ∧ addBelief 10 0 (p1 (.var 0)) s' = .ok () s' ∧
    ∃ g s'', gnext 10 (.start (.term (p1 (.num 2))) : Gen Act ActGen) s' = .ok (some g) s'' := by
  refine ⟨_, rfl, rfl, ?_, _, _, rfl⟩
  refine C18_add_twice (s := { stP1 with b := bX2 }) (n := 10) (a := 0) (t := p1 (.var 0)) rfl fun b h => ?_
  have : grounded 10 bX2.scope (p1 (.var 0)) = .ok (p1 (.num 2)) := rfl
  rw [show ({ stP1 with b := bX2 } : QSt World).b = bX2 from rfl, this] at h
  cases h
  simp [p1, Term.Proper, Term.ProperL]

/-- C18: `+p(Y)` with `Y` unbound is an error. -/
example : Unbound bX2.scope (p1 (.var 1)) ∧
    call 10 (gnext 10) 0 .addition .belief (p1 (.var 1)) 0 false { stP1 with b := bX2 } =
      .err (.asl "term not ground") { stP1 with b := bX2 } :=
  ⟨.arg (t := .var 1) (by simp) (.var rfl), rfl⟩

/-- **C18 is false of the code** in one respect: `==` identifies `1` and `true`, but
unification distinguishes them.  With `p(1)` in the belief base, `+p(true)` adds nothing,
and `p(true)` cannot be queried afterwards. -/
theorem C18_bool_not_added : ∃ s : QSt World, BeliefsOK s.w ∧ ∃ s',
    addBelief 10 0 (p1 (.bool true)) s = .ok () s' ∧ s'.w.beliefs 0 ("p", 1) = s.w.beliefs 0 ("p", 1) ∧
    p1 (.bool true) ∉ s'.w.beliefs 0 ("p", 1) ∧
    ∃ s'', gnext 10 (.start (.term (p1 (.bool true))) : Gen Act ActGen) s' = .ok none s'' := by
  refine ⟨stP1, stP1_ok, _, rfl, rfl, ?_, _, rfl⟩
  show _ ∉ [p1 (.num 1)]
  simp [p1]

/-- **C21 is false of the code** for the same reason: `p(true)` was added and never removed,
but is not present. -/
theorem C21_bool_lost : ∃ w w', BeliefsOK w ∧ Hist 0 [.add (p1 (.bool true))] w w' ∧ ¬ Believes w' 0 (p1 (.bool true)) := by
  have h : addBelief 10 0 (p1 (.bool true)) stP1 = .ok () _ := rfl
  refine ⟨_, _, stP1_ok, .add h rfl .nil, ?_⟩
  rintro ⟨g, hg⟩
  by_cases e : g = ("p", 1)
  · subst e
    have : p1 (.bool true) ∈ [p1 (.num 1)] := hg
    simp [p1] at this
  · obtain ⟨_, f, as, xs, h1, rfl, _, _, _, _, _, h3⟩ := C18_add_partial stP1_ok h
    cases h1
    rw [h3 0 g (.inl e)] at hg
    rw [show stP1.w = oneAgent "p" 1 [p1 (.num 1)] from rfl, oneAgent_beliefs] at hg
    simp [e] at hg

/-- `q[a]` -/
def qa : Term := .lit "q" [] [.atom "a"]

/-- Agent 0 believes `q[a]`. -/
def stQ : QSt World := ⟨BSt.init, 10, oneAgent "q" 0 [qa]⟩

theorem stQ_ok : BeliefsOK stQ.w :=
  oneAgent_ok (by simp [qa]) (by simp [qa, Term.Ground, Term.All, Term.AllL, Term.atom]) (by simp)

/-- **C21 is false of the code** for annotated beliefs: `-q` removes `q[a]`, which was
never removed itself. -/
theorem C21_annotated_removed : ∃ w w', BeliefsOK w ∧ Believes w 0 qa ∧ Hist 0 [.del (.atom "q")] w w' ∧ ¬ Believes w' 0 qa := by
  have h : removeBelief 10 0 (.atom "q") stQ = .ok true _ := rfl
  refine ⟨_, _, stQ_ok, ⟨("q", 0), ?_⟩, .del h rfl .nil, ?_⟩
  · show qa ∈ [qa]; simp
  · rintro ⟨g, hg⟩
    by_cases e : g = ("q", 0)
    · subst e
      have : qa ∈ ([] : List Term) := hg
      simp at this
    · obtain ⟨f, as, xs, _, _, _, h1, _, _, _, _, _, h3⟩ := C19_remove_one stQ_ok h
      cases h1
      rw [h3 0 g (.inl e), show stQ.w = oneAgent "q" 0 [qa] from rfl, oneAgent_beliefs] at hg
      simp [e] at hg

/-- **C20 is false of the code**: constants are kept in the pattern, so `-+p(1)` with `p(0)`
in the belief base leaves both. -/
theorem C20_constant_kept : ∃ s : QSt World, BeliefsOK s.w ∧ s.w.beliefs 0 ("p", 1) = [p1 (.num 0)] ∧ ∃ s' s'',
    removeBelief 10 0 ((p1 (.num 1)).replacePattern 5) s = .ok false s' ∧ addBelief 10 0 (p1 (.num 1)) s' = .ok () s'' ∧
    s''.w.beliefs 0 ("p", 1) = [p1 (.num 0), p1 (.num 1)] := by
  refine ⟨⟨BSt.init, 10, oneAgent "p" 1 [p1 (.num 0)]⟩,
    oneAgent_ok (by simp [p1]) (by simp [p1, Term.Ground, Term.All, Term.AllL]) (by simp), rfl, _, _, rfl, rfl, rfl⟩

/-- C20: `-+p(X)` with `X ↦ 2` and `p(1)` present leaves `p(2)`. -/
example : ∃ s' s'', OpenArgs [.var 0] ∧ removeBelief 10 0 ((p1 (.var 0)).replacePattern 5) { stP1 with b := bX2 } = .ok true s' ∧
    addBelief 10 0 (p1 (.var 0)) s' = .ok () s'' ∧ s''.w.beliefs 0 ("p", 1) = [p1 (.num 2)] :=
  ⟨_, _, by simp [OpenArgs], rfl, rfl, rfl⟩

/-- Agent 0 believes `p(1)`, `p(2)`, `p(3)`. -/
def stP3 : QSt World := ⟨BSt.init, 10, oneAgent "p" 1 [p1 (.num 1), p1 (.num 2), p1 (.num 3)]⟩

theorem stP3_ok : BeliefsOK stP3.w :=
  oneAgent_ok (by simp [p1]) (by simp [p1, Term.Ground, Term.All, Term.AllL]) (by
    have : ∀ x y : Rat, x ≠ y → pyEqB (p1 (.num x)) (p1 (.num y)) = false := fun x y h => by
      have := pyEqB_simple (x := p1 (.num x)) (y := p1 (.num y)) (by simp [p1, Term.Simple, Term.SimpleL])
        (by simp [p1, Term.Simple, Term.SimpleL])
      cases hb : pyEqB (p1 (.num x)) (p1 (.num y)) with
      | false => rfl
      | true => simp [p1] at this; exact absurd (this.1 hb) h
    simp only [List.pairwise_cons, List.mem_cons, List.not_mem_nil, or_false, false_implies, implies_true, List.Pairwise.nil,
      and_true]
    refine ⟨?_, ?_⟩
    · rintro y (rfl | rfl)
      · exact this 1 2 (by decide)
      · exact this 1 3 (by decide)
    · rintro y rfl
      exact this 2 3 (by decide))

/-- C19: `-p(X)` with `X ↦ 2` removes `p(2)`; `-p(Y)` removes the first one and binds `Y`;
`-p(7)` does nothing. -/
example : (∃ s', removeBelief 10 0 (p1 (.var 0)) { stP3 with b := bX2 } = .ok true s' ∧
      s'.w.beliefs 0 ("p", 1) = [p1 (.num 1), p1 (.num 3)]) ∧
    (∃ s', removeBelief 10 0 (p1 (.var 1)) { stP3 with b := bX2 } = .ok true s' ∧
      s'.w.beliefs 0 ("p", 1) = [p1 (.num 2), p1 (.num 3)] ∧ s'.b.scope 1 = some (.num 1)) ∧
    ∃ s', removeBelief 10 0 (p1 (.num 7)) stP3 = .ok false s' ∧
      call 10 (gnext 10) 0 .removal .belief (p1 (.num 7)) 0 false stP3 = .ok true s' :=
  ⟨⟨_, rfl, rfl⟩, ⟨_, rfl, rfl, rfl⟩, _, rfl, rfl⟩

/-- **C19 is false of the code** for several annotations with variables (compare C12): with
`foo[a, b]` in the belief base, `-foo[X, a]` removes nothing, although `X = b` matches. -/
theorem C19_greedy : ∃ s : QSt World, ∃ l x : Term, ∃ σ : Asg, s.w.beliefs 0 ("foo", 0) = [x] ∧ s.b.scope = Scope.empty ∧
    Agree σ l x ∧ AnnotsMatch σ l.annots x.annots ∧ ∃ s', removeBelief 10 0 l s = .ok false s' := by
  refine ⟨⟨BSt.init, 10, oneAgent "foo" 0 [.lit "foo" [] [.atom "a", .atom "b"]]⟩, .lit "foo" [] [.var 0, .atom "a"],
    .lit "foo" [] [.atom "a", .atom "b"], fun _ => .app "b" .nil, rfl, rfl, ?_, ?_, _, rfl⟩
  · exact ⟨.app "foo" .nil, ⟨.nil, rfl, rfl⟩, ⟨.nil, rfl, rfl⟩⟩
  · refine ⟨[.atom "b", .atom "a"], ⟨[], List.Perm.swap _ _ _⟩, rfl, ?_⟩
    intro p hp
    simp [Term.annots] at hp
    rcases hp with rfl | rfl
    · exact ⟨.app "b" .nil, rfl, ⟨.nil, rfl, rfl⟩⟩
    · exact ⟨.app "a" .nil, ⟨.nil, rfl, rfl⟩, ⟨.nil, rfl, rfl⟩⟩

/-- C21: `+p(2)`, `-p(1)`, `+p(1)`, `-p(2)` starting with `p(1)`. -/
example : ∃ w', Hist 0 [.add (p1 (.num 2)), .del (p1 (.num 1)), .add (p1 (.num 1)), .del (p1 (.num 2))] stP1.w w' ∧
    w'.beliefs 0 ("p", 1) = [p1 (.num 1)] := by
  have : ∃ s1 s2 s3 s4, addBelief 10 0 (p1 (.num 2)) stP1 = .ok () s1 ∧ removeBelief 10 0 (p1 (.num 1)) s1 = .ok true s2 ∧
      addBelief 10 0 (p1 (.num 1)) s2 = .ok () s3 ∧ removeBelief 10 0 (p1 (.num 2)) s3 = .ok true s4 ∧
      s4.w.beliefs 0 ("p", 1) = [p1 (.num 1)] := ⟨_, _, _, _, rfl, rfl, rfl, rfl, rfl⟩
  obtain ⟨s1, s2, s3, s4, h1, h2, h3, h4, h5⟩ := this
  exact ⟨_, .add h1 rfl (.del h2 rfl (.add h3 rfl (.del h4 rfl .nil))), h5⟩

/-- C21: the hypotheses hold for `stP1`. -/
example : ∀ x, Believes stP1.w 0 x → x.Simple := by
  rintro x ⟨g, hx⟩
  rw [show stP1.w = oneAgent "p" 1 [p1 (.num 1)] from rfl, oneAgent_beliefs] at hx
  split at hx
  · simp at hx; subst hx; simp [p1, Term.Simple, Term.SimpleL]
  · simp at hx

/-- C22: `.abolish(p(X))` with `X ↦ 2`, and with `X` unbound. -/
example : (∃ s', actNext 10 (gnext 10) (.start .abolish (.lit ".abolish" [p1 (.var 0)] [])) { stP3 with b := bX2 } =
      .ok (some .fin) s' ∧ s'.w.beliefs 0 ("p", 1) = [p1 (.num 1), p1 (.num 3)]) ∧
    ∃ s', actNext 10 (gnext 10) (.start .abolish (.lit ".abolish" [p1 (.var 0)] [])) stP3 =
      .ok (some .fin) s' ∧ s'.w.beliefs 0 ("p", 1) = [] :=
  ⟨⟨_, rfl, rfl⟩, _, rfl, rfl⟩

/-- **C22 is false of the code** for annotated beliefs: `q` matches `q[a]` (`-q` would remove
it), but `.abolish(q)` keeps it. -/
theorem C22_annotated_kept : ∃ s : QSt World, BeliefsOK s.w ∧ qa ∈ s.w.beliefs 0 ("q", 0) ∧
    (∃ sc, Matches (.atom "q") qa Scope.empty sc) ∧
    ∃ s', actNext 10 (gnext 10) (.start .abolish (.lit ".abolish" [.atom "q"] [])) s = .ok (some .fin) s' ∧
      qa ∈ s'.w.beliefs 0 ("q", 0) := by
  refine ⟨stQ, stQ_ok, ?_, ⟨_, 10, BSt.init, _, _, rfl, rfl, rfl⟩, _, rfl, ?_⟩
  · show qa ∈ [qa]; simp
  · show qa ∈ [qa]; simp

end examples

end Verif
