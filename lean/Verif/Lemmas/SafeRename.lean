import Verif.Lemmas.SafeModel

/-! Safety conditions under renaming. -/

namespace Verif

section
variable {W A G : Type} [inst : QWorld W A G]

/-! ## Safety under renaming -/

omit inst in
mutual
theorem Term.Over.rename {D D' : VarId → Prop} {ρ : VarId → VarId} (hD : ∀ x, D x → D' (ρ x)) : ∀ {t : Term}, t.Over D → (t.rename ρ).Over D'
  | .bool _, _ | .num _, _ | .str _, _ | .wild, _ => by trivial
  | .var x, h => hD x h
  | .lit _ _ _, h => ⟨trivial, Term.OverL.rename hD h.2⟩
  | .tup _, h => ⟨trivial, Term.OverL.rename hD h.2⟩
  | .cons _ _, h => ⟨trivial, Term.Over.rename hD h.2.1, Term.Over.rename hD h.2.2⟩
  | .un _ _, h => ⟨trivial, Term.Over.rename hD h.2⟩
  | .bin _ _ _, h => ⟨trivial, Term.Over.rename hD h.2.1, Term.Over.rename hD h.2.2⟩
theorem Term.OverL.rename {D D' : VarId → Prop} {ρ : VarId → VarId} (hD : ∀ x, D x → D' (ρ x)) : ∀ {ts : List Term},
    Term.EveryL (fun t => match t with | .var x => D x | _ => True) ts →
    Term.EveryL (fun t => match t with | .var x => D' x | _ => True) (Term.renameL ρ ts)
  | [], _ => trivial
  | _ :: _, h => ⟨Term.Over.rename hD h.1, Term.OverL.rename hD h.2⟩
end

omit inst in
mutual
theorem Term.Over.unrename {D : VarId → Prop} {ρ : VarId → VarId} : ∀ {t : Term}, (t.rename ρ).Over D → t.Over fun x => D (ρ x)
  | .bool _, _ | .num _, _ | .str _, _ | .wild, _ => by trivial
  | .var x, h => h
  | .lit _ _ _, h => ⟨trivial, Term.OverL.unrename h.2⟩
  | .tup _, h => ⟨trivial, Term.OverL.unrename h.2⟩
  | .cons _ _, h => ⟨trivial, Term.Over.unrename h.2.1, Term.Over.unrename h.2.2⟩
  | .un _ _, h => ⟨trivial, Term.Over.unrename h.2⟩
  | .bin _ _ _, h => ⟨trivial, Term.Over.unrename h.2.1, Term.Over.unrename h.2.2⟩
theorem Term.OverL.unrename {D : VarId → Prop} {ρ : VarId → VarId} : ∀ {ts : List Term},
    Term.EveryL (fun t => match t with | .var x => D x | _ => True) (Term.renameL ρ ts) →
    Term.EveryL (fun t => match t with | .var x => D (ρ x) | _ => True) ts
  | [], _ => trivial
  | _ :: _, h => ⟨Term.Over.unrename h.1, Term.OverL.unrename h.2⟩
end

omit inst in
theorem Term.Occurs.rename {t : Term} {x : VarId} {ρ : VarId → VarId} (h : t.Occurs x) : (t.rename ρ).Occurs (ρ x) := by
  intro h'
  refine h (Term.Over.mono (fun y hy => ?_) h'.unrename)
  rintro rfl
  exact hy rfl

omit inst in
theorem Query.Over.rename {D D' : VarId → Prop} {ρ : VarId → VarId} (hD : ∀ x, D x → D' (ρ x)) : ∀ {q : Query A}, q.Over D → (q.rename ρ).Over D'
  | .tru, _ | .fls, _ => trivial
  | .act _ _, h | .term _, h => Term.Over.rename hD h
  | .unify _ _, h => ⟨Term.Over.rename hD h.1, Term.Over.rename hD h.2⟩
  | .and _ _, h | .or _ _, h => ⟨Query.Over.rename hD h.1, Query.Over.rename hD h.2⟩
  | .not q, h => Query.Over.rename (q := q) hD h

omit inst in
theorem Query.after_rename {ρ : VarId → VarId} : ∀ {q : Query A} {D D' : VarId → Prop}, (∀ x, D x → D' (ρ x)) → ∀ x, q.after D x →
    (q.rename ρ).after D' (ρ x)
  | .tru, _, _, hD, x, h | .fls, _, _, hD, x, h | .act _ _, _, _, hD, x, h | .not _, _, _, hD, x, h => hD x h
  | .term t, _, _, hD, x, h => by
    cases t with
    | lit f as xs =>
      rcases h with h | h
      · exact .inl (hD x h)
      · exact .inr h.rename
    | _ => exact hD x h
  | .unify l r, _, _, hD, x, h => by
    rcases h with h | ⟨h1, h2⟩ | ⟨h1, h2⟩
    · exact .inl (hD x h)
    · exact .inr (.inl ⟨h1.rename hD, h2.rename⟩)
    · exact .inr (.inr ⟨h1.rename hD, h2.rename⟩)
  | .and l _, _, _, hD, x, h => Query.after_rename (Query.after_rename (q := l) hD) x h
  | .or _ _, _, _, hD, x, h => ⟨Query.after_rename hD x h.1, Query.after_rename hD x h.2⟩

omit inst in
theorem Query.Over.mono {D D' : VarId → Prop} (hD : ∀ x, D x → D' x) : ∀ {q : Query A}, q.Over D → q.Over D'
  | .tru, _ | .fls, _ => trivial
  | .act _ _, h | .term _, h => Term.Over.mono hD h
  | .unify _ _, h => ⟨Term.Over.mono hD h.1, Term.Over.mono hD h.2⟩
  | .and _ _, h | .or _ _, h => ⟨Query.Over.mono hD h.1, Query.Over.mono hD h.2⟩
  | .not q, h => Query.Over.mono (q := q) hD h

/-- The variables of `E` are bound to ground terms. -/
def GroundVars (sc : Scope) (E : VarId → Prop) : Prop := ∀ x, E x → GroundIn false sc (.var x)

omit inst in
theorem Same.subScope {b b' : BSt} (h : Same b b') : b.scope.Sub b'.scope := by rw [h.scope]; exact .refl _

omit inst in
theorem GroundVars.mono {sc sc' : Scope} {E : VarId → Prop} (h : GroundVars sc E) (hs : sc.Sub sc') : GroundVars sc' E :=
  fun x hx => (h x hx).mono hs

omit inst in
mutual
theorem Term.Plain.rename {ρ : VarId → VarId} : ∀ {t : Term}, t.Plain → (t.rename ρ).Plain
  | .bool _, _ | .num _, _ | .str _, _ | .wild, _ | .var _, _ => by simp [Term.rename, Term.Plain, Term.Every, Term.isOp]
  | .lit _ _ _, h => ⟨rfl, Term.PlainL.rename h.2⟩
  | .tup _, h => ⟨rfl, Term.PlainL.rename h.2⟩
  | .cons _ _, h => ⟨rfl, Term.Plain.rename h.2.1, Term.Plain.rename h.2.2⟩
  | .un _ _, h => nomatch h.1
  | .bin _ _ _, h => nomatch h.1
theorem Term.PlainL.rename {ρ : VarId → VarId} : ∀ {ts : List Term}, Term.EveryL (fun t => t.isOp = false) ts →
    Term.EveryL (fun t => t.isOp = false) (Term.renameL ρ ts)
  | [], _ => trivial
  | _ :: _, h => ⟨Term.Plain.rename h.1, Term.PlainL.rename h.2⟩
end

omit inst in
theorem Term.isOp_rename {ρ : VarId → VarId} {t : Term} : (t.rename ρ).isOp = t.isOp := by
  cases t <;> rfl

omit inst in
theorem Query.plain_rename {ρ : VarId → VarId} : ∀ {q : Query A}, q.Plain → (q.rename ρ).Plain
  | .tru, _ | .fls, _ | .act _ _, _ => trivial
  | .term t, h => by
    cases t with
    | lit f as xs =>
      simp only [Query.rename, Term.rename, Query.Plain, Term.renameL_eq, List.mem_map] at h ⊢
      rintro a ⟨b, hb, rfl⟩
      rw [Term.isOp_rename]
      exact (h b hb).imp id Term.Plain.rename
    | _ => trivial
  | .unify _ _, h => by
    simp only [Query.rename, Query.Plain, Term.isOp_rename] at h ⊢
    exact ⟨h.1.imp id Term.Plain.rename, h.2.imp id Term.Plain.rename⟩
  | .and _ _, h | .or _ _, h => ⟨Query.plain_rename h.1, Query.plain_rename h.2⟩
  | .not q, h => Query.plain_rename (q := q) h

omit inst in
theorem Query.safe_rename {M : String × Nat → Prop} {ρ : VarId → VarId} : ∀ {q : Query A} {D D' : VarId → Prop}, (∀ x, D x → D' (ρ x)) →
    q.Safe M D → (q.rename ρ).Safe M D'
  | .tru, _, _, _, _ | .fls, _, _, _, _ | .act _ _, _, _, _, _ | .unify _ _, _, _, _, _ => trivial
  | .term t, _, _, hD, h => by
    cases t with
    | lit f as xs =>
      intro hM
      rw [Term.renameL_eq, List.length_map] at hM
      exact (h hM).rename hD
    | var x => exact fun hM => hD x (h hM)
    | _ => trivial
  | .not q, _, _, hD, h => ⟨Query.Over.rename (q := q) hD h.1, Query.plain_rename h.2⟩
  | .and l _, _, _, hD, h => ⟨Query.safe_rename hD h.1, Query.safe_rename (Query.after_rename (q := l) hD) h.2⟩
  | .or _ _, _, _, hD, h => ⟨Query.safe_rename hD h.1, Query.safe_rename hD h.2⟩

omit inst in
theorem Query.safe_mono {M : String × Nat → Prop} {q : Query A} {D D' : VarId → Prop} (hD : ∀ x, D x → D' x) (h : q.Safe M D) : q.Safe M D' := by
  have := Query.safe_rename (ρ := id) hD h
  rwa [Query.rename_id] at this

omit inst in
theorem Query.after_sub : ∀ (q : Query A) {D : VarId → Prop} (x : VarId), D x → q.after D x
  | .tru, _, _, h | .fls, _, _, h | .act _ _, _, _, h | .not _, _, _, h => h
  | .term t, _, _, h => by
    cases t with
    | lit => exact .inl h
    | _ => exact h
  | .unify _ _, _, _, h => .inl h
  | .and l r, _, x, h => r.after_sub x (l.after_sub x h)
  | .or l r, _, x, h => ⟨l.after_sub x h, r.after_sub x h⟩

/-- Ground queries are safe. -/
theorem Query.safe_over {w : W} {c : Bool} {M : String × Nat → Prop} {D : VarId → Prop} : ∀ {q : Query A}, q.OK w c → q.Over D → q.Safe M D
  | .tru, _, _ | .fls, _, _ | .unify _ _, _, _ => trivial
  | .act _ _, h, _ | .not _, h, _ => h.elim
  | .term t, _, h => by
    cases t with
    | lit f as xs => exact fun _ => h
    | var x => exact fun _ => h
    | _ => trivial
  | .and l _, h, ho => ⟨Query.safe_over h.1 ho.1, Query.safe_mono l.after_sub (Query.safe_over h.2 ho.2)⟩
  | .or _ _, h, ho => ⟨Query.safe_over h.1 ho.1, Query.safe_over h.2 ho.2⟩

/-- What is known of the bindings when a literal is looked up: its variables and ground ones are `E`; for the
predicates `M` all its variables are ground. -/
def Call (M : String × Nat → Prop) (sc : Scope) (t : Term) (E : VarId → Prop) : Prop :=
  (∀ x, E x → GroundIn false sc (.var x) ∨ t.Occurs x) ∧ (M t.group → t.Over fun x => GroundIn false sc (.var x))

omit inst in
/-- The caller has bound the variables of the head. -/
theorem call_ground {c : Bool} {t h : Term} {b b' : BSt} (hg : Grounds t h b b') (hok : ScopeOK c b'.scope) (hnw : t.Parts Term.NoWild)
    (ho : t.Over fun x => GroundIn false b.scope (.var x)) : GroundVars b'.scope h.Occurs := by
  intro x hx
  have hw : t.NoWild := by
    cases t <;> simp only [Term.Parts] at hnw
    exact ⟨by simp, Term.everyL_iff.2 hnw.1⟩
  exact ((hg.right _ (.refl _) (groundIn_over (fun x hx => hx.mono hg.sub) ho fun _ => hw)).occurs hx).strict (fun x t h => (hok x t h).1)
    (by simp [Term.NoWild, Term.Every])

end

end Verif
