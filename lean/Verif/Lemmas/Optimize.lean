import Verif.Spec.Optimize

/-!
# Lemmas about the optimiser
-/

namespace Verif

/-! ## Traversal -/

/-- There is no list with a tail in the tree. -/
def Ast.NoTails (a : Ast) : Prop := ∀ x y, ¬(Ast.linked x y).Inside a

theorem Ast.noTails_lit {f : List Char} {ts as : List Ast} (h : (Ast.lit f ts as).NoTails) :
    (∀ t ∈ ts, t.NoTails) ∧ ∀ t ∈ as, t.NoTails :=
  ⟨fun _ ht x y hi => h x y (.term ht hi), fun _ ht x y hi => h x y (.annotation ht hi)⟩

mutual
theorem collect_ok (want : Ast → Bool) : ∀ (a : Ast), a.NoTails → ∃ xs, collect want a = .ok xs ∧ ∀ x ∈ xs, x.Inside a ∧ want x = true
  | .const v, _ => by
    refine ⟨_, rfl, ?_⟩
    cases hw : want (.const v) with
    | true => intro x hx; simp at hx; subst hx; exact ⟨.self, hw⟩
    | false => intro x hx; simp at hx
  | .var v, _ => by
    refine ⟨_, rfl, ?_⟩
    cases hw : want (.var v) with
    | true => intro x hx; simp at hx; subst hx; exact ⟨.self, hw⟩
    | false => intro x hx; simp at hx
  | .lit f ts as, h => by
    obtain ⟨xs, e1, h1⟩ := collectL_ok want ts (Ast.noTails_lit h).1
    obtain ⟨ys, e2, h2⟩ := collectL_ok want as (Ast.noTails_lit h).2
    refine ⟨_, by rw [collect, e1, Ev.bind_ok, e2, Ev.map_ok], fun x hx => ?_⟩
    rcases List.mem_append.1 hx with hx | hx
    · rcases List.mem_append.1 hx with hx | hx
      · split at hx
        · rename_i hw; simp at hx; subst hx; exact ⟨.self, hw⟩
        · cases hx
      · obtain ⟨t, ht, hi, hw⟩ := h1 x hx
        exact ⟨.term ht hi, hw⟩
    · obtain ⟨t, ht, hi, hw⟩ := h2 x hx
      exact ⟨.annotation ht hi, hw⟩
  | .list ts, h => by
    obtain ⟨xs, e1, h1⟩ := collectL_ok want ts (fun _ ht x y hi => h x y (.item ht hi))
    refine ⟨_, by rw [collect, e1, Ev.map_ok], fun x hx => ?_⟩
    rcases List.mem_append.1 hx with hx | hx
    · split at hx
      · rename_i hw; simp at hx; subst hx; exact ⟨.self, hw⟩
      · cases hx
    · obtain ⟨t, ht, hi, hw⟩ := h1 x hx
      exact ⟨.item ht hi, hw⟩
  | .linked x y, h => absurd .self (h x y)
  | .un op a, h => by
    obtain ⟨xs, e1, h1⟩ := collect_ok want a (fun x y hi => h x y (.operand hi))
    refine ⟨_, by rw [collect, e1, Ev.map_ok], fun x hx => ?_⟩
    rcases List.mem_append.1 hx with hx | hx
    · split at hx
      · rename_i hw; simp at hx; subst hx; exact ⟨.self, hw⟩
      · cases hx
    · exact ⟨.operand (h1 x hx).1, (h1 x hx).2⟩
  | .bin op l r, h => by
    obtain ⟨xs, e1, h1⟩ := collect_ok want l (fun x y hi => h x y (.left hi))
    obtain ⟨ys, e2, h2⟩ := collect_ok want r (fun x y hi => h x y (.right hi))
    refine ⟨_, by rw [collect, e1, Ev.bind_ok, e2, Ev.map_ok], fun x hx => ?_⟩
    rcases List.mem_append.1 hx with hx | hx
    · rcases List.mem_append.1 hx with hx | hx
      · split at hx
        · rename_i hw; simp at hx; subst hx; exact ⟨.self, hw⟩
        · cases hx
      · exact ⟨.left (h1 x hx).1, (h1 x hx).2⟩
    · exact ⟨.right (h2 x hx).1, (h2 x hx).2⟩
theorem collectL_ok (want : Ast → Bool) : ∀ (as : List Ast), (∀ t ∈ as, t.NoTails) →
    ∃ xs, collectL want as = .ok xs ∧ ∀ x ∈ xs, ∃ t ∈ as, x.Inside t ∧ want x = true
  | [], _ => ⟨[], rfl, fun x hx => by cases hx⟩
  | a :: as, h => by
    obtain ⟨xs, e1, h1⟩ := collect_ok want a (h a (.head _))
    obtain ⟨ys, e2, h2⟩ := collectL_ok want as (fun t ht => h t (.tail _ ht))
    refine ⟨_, by rw [collectL, e1, Ev.bind_ok, e2, Ev.map_ok], fun x hx => ?_⟩
    rcases List.mem_append.1 hx with hx | hx
    · exact ⟨a, .head _, h1 x hx⟩
    · obtain ⟨t, ht, hi⟩ := h2 x hx
      exact ⟨t, .tail _ ht, hi⟩
end

/-- Traversing returns, or there is an attribute missing. -/
def Ev.OrMissing {α : Type} (e : Ev α) : Prop := (∃ a, e = .ok a) ∨ e = .err (.py "AttributeError")

theorem Ev.OrMissing.bind {α β : Type} {x : Ev α} {f : α → Ev β} (hx : x.OrMissing) (hf : ∀ a, (f a).OrMissing) : (x.bind f).OrMissing := by
  rcases hx with ⟨a, rfl⟩ | rfl
  · exact hf a
  · exact .inr rfl

theorem Ev.OrMissing.map {α β : Type} {x : Ev α} {f : α → β} (hx : x.OrMissing) : (x.map f).OrMissing :=
  hx.bind fun _ => .inl ⟨_, rfl⟩

mutual
theorem collect_orMissing (want : Ast → Bool) : ∀ (a : Ast), (collect want a).OrMissing
  | .const _ => .inl ⟨_, rfl⟩
  | .var _ => .inl ⟨_, rfl⟩
  | .lit f ts as => by rw [collect]; exact (collectL_orMissing want ts).bind fun _ => (collectL_orMissing want as).map
  | .list ts => by rw [collect]; exact (collectL_orMissing want ts).map
  | .linked _ _ => .inr rfl
  | .un op a => by rw [collect]; exact (collect_orMissing want a).map
  | .bin op l r => by rw [collect]; exact (collect_orMissing want l).bind fun _ => (collect_orMissing want r).map
theorem collectL_orMissing (want : Ast → Bool) : ∀ (as : List Ast), (collectL want as).OrMissing
  | [] => .inl ⟨_, rfl⟩
  | a :: as => by rw [collectL]; exact (collect_orMissing want a).bind fun _ => (collectL_orMissing want as).map
end

theorem mapL_orMissing {α β : Type} {f : α → Ev β} (hf : ∀ a, (f a).OrMissing) : ∀ as : List α, (Ev.mapL f as).OrMissing
  | [] => .inl ⟨_, rfl⟩
  | a :: as => by rw [Ev.mapL]; exact (hf a).bind fun _ => (mapL_orMissing hf as).map

theorem collectRule_orMissing (want : Ast → Bool) (r : ARule) : (collectRule want r).OrMissing :=
  (collect_orMissing want r.head).bind fun _ => (collect_orMissing want r.consequence).map

theorem collectAgent_orMissing (want : Ast → Bool) (a : AAgent) : (collectAgent want a).OrMissing :=
  (mapL_orMissing (collectRule_orMissing want) a.rules).bind fun _ =>
  (collectL_orMissing want a.beliefs).bind fun _ =>
  (collectL_orMissing want a.goals).bind fun _ => (mapL_orMissing (fun _ => .inr rfl) a.plans).map

mutual
theorem collect_noTails (want : Ast → Bool) : ∀ (a : Ast) (xs : List Ast), collect want a = .ok xs → a.NoTails
  | .const _, _, _ => fun _ _ h => by cases h
  | .var _, _, _ => fun _ _ h => by cases h
  | .lit f ts as, xs, h => by
    rw [collect] at h
    obtain ⟨ys, h1, h2⟩ := Ev.bind_eq_ok.1 h
    obtain ⟨zs, h3, -⟩ := Ev.map_eq_ok.1 h2
    intro x y hi
    cases hi with
    | term ht hi => exact collectL_noTails want ts ys h1 _ ht x y hi
    | annotation ht hi => exact collectL_noTails want as zs h3 _ ht x y hi
  | .list ts, xs, h => by
    rw [collect] at h
    obtain ⟨ys, h1, -⟩ := Ev.map_eq_ok.1 h
    intro x y hi
    cases hi with
    | item ht hi => exact collectL_noTails want ts ys h1 _ ht x y hi
  | .linked _ _, _, h => by cases h
  | .un op a, xs, h => by
    rw [collect] at h
    obtain ⟨ys, h1, -⟩ := Ev.map_eq_ok.1 h
    intro x y hi
    cases hi with
    | operand hi => exact collect_noTails want a ys h1 x y hi
  | .bin op l r, xs, h => by
    rw [collect] at h
    obtain ⟨ys, h1, h2⟩ := Ev.bind_eq_ok.1 h
    obtain ⟨zs, h3, -⟩ := Ev.map_eq_ok.1 h2
    intro x y hi
    cases hi with
    | left hi => exact collect_noTails want l ys h1 x y hi
    | right hi => exact collect_noTails want r zs h3 x y hi
theorem collectL_noTails (want : Ast → Bool) : ∀ (as : List Ast) (xs : List Ast), collectL want as = .ok xs → ∀ t ∈ as, t.NoTails
  | [], _, _ => fun t ht => by cases ht
  | a :: as, xs, h => by
    rw [collectL] at h
    obtain ⟨ys, h1, h2⟩ := Ev.bind_eq_ok.1 h
    obtain ⟨zs, h3, -⟩ := Ev.map_eq_ok.1 h2
    intro t ht
    cases ht with
    | head => exact collect_noTails want a ys h1
    | tail _ ht => exact collectL_noTails want as zs h3 t ht
end

theorem mapL_each_ok {α β : Type} {f : α → Ev β} : ∀ {as : List α} {bs : List β}, Ev.mapL f as = .ok bs → ∀ a ∈ as, ∃ b, f a = .ok b
  | [], _, _, a, ha => by cases ha
  | a :: as, bs, h, x, hx => by
    rw [Ev.mapL] at h
    obtain ⟨b, h1, h2⟩ := Ev.bind_eq_ok.1 h
    obtain ⟨c, h3, -⟩ := Ev.map_eq_ok.1 h2
    cases hx with
    | head => exact ⟨b, h1⟩
    | tail _ hx => exact mapL_each_ok h3 x hx

/-- If an agent can be traversed, it has no plans and no lists with tails. -/
theorem collectAgent_inv {want : Ast → Bool} {a : AAgent} {xs : List Ast} (h : collectAgent want a = .ok xs) :
    a.plans = [] ∧ ∀ x y, ¬a.Facts (.linked x y) := by
  rw [collectAgent] at h
  obtain ⟨rs, h1, h⟩ := Ev.bind_eq_ok.1 h
  obtain ⟨bs, h2, h⟩ := Ev.bind_eq_ok.1 h
  obtain ⟨gs, h3, h⟩ := Ev.bind_eq_ok.1 h
  obtain ⟨ps, h4, -⟩ := Ev.map_eq_ok.1 h
  constructor
  · cases hp : a.plans with
    | nil => rfl
    | cons p ps' =>
      obtain ⟨b, hb⟩ := mapL_each_ok h4 p (by rw [hp]; exact .head _)
      cases hb
  · intro x y hf
    cases hf with
    | ruleHead hr hi =>
      obtain ⟨b, hb⟩ := mapL_each_ok h1 _ hr
      obtain ⟨ys, h5, -⟩ := Ev.bind_eq_ok.1 hb
      exact collect_noTails want _ ys h5 x y hi
    | rule hr hi =>
      obtain ⟨b, hb⟩ := mapL_each_ok h1 _ hr
      obtain ⟨ys, -, h5⟩ := Ev.bind_eq_ok.1 hb
      obtain ⟨zs, h6, -⟩ := Ev.map_eq_ok.1 h5
      exact collect_noTails want _ zs h6 x y hi
    | belief ht hi => exact collectL_noTails want _ bs h2 _ ht x y hi
    | goal ht hi => exact collectL_noTails want _ gs h3 _ ht x y hi

theorem collectRules_ok (want : Ast → Bool) : ∀ (rs : List ARule), (∀ r ∈ rs, r.head.NoTails ∧ r.consequence.NoTails) →
    ∃ xs, Ev.mapL (collectRule want) rs = .ok xs ∧ ∀ x ∈ xs.flatten, ∃ r ∈ rs, (x.Inside r.head ∨ x.Inside r.consequence) ∧ want x = true
  | [], _ => ⟨[], rfl, fun x hx => by simp at hx⟩
  | r :: rs, h => by
    obtain ⟨xs, e1, h1⟩ := collect_ok want r.head (h r (.head _)).1
    obtain ⟨ys, e2, h2⟩ := collect_ok want r.consequence (h r (.head _)).2
    obtain ⟨zs, e3, h3⟩ := collectRules_ok want rs (fun r hr => h r (.tail _ hr))
    refine ⟨_, by rw [Ev.mapL, collectRule, e1, Ev.bind_ok, e2, Ev.map_ok, Ev.bind_ok, e3, Ev.map_ok], fun x hx => ?_⟩
    rw [List.flatten_cons] at hx
    rcases List.mem_append.1 hx with hx | hx
    · rcases List.mem_append.1 hx with hx | hx
      · exact ⟨r, .head _, .inl (h1 x hx).1, (h1 x hx).2⟩
      · exact ⟨r, .head _, .inr (h2 x hx).1, (h2 x hx).2⟩
    · obtain ⟨r', hr', hi⟩ := h3 x hx
      exact ⟨r', .tail _ hr', hi⟩

/-- Other agents can be traversed. -/
theorem collectAgent_ok (want : Ast → Bool) {a : AAgent} (hp : a.plans = []) (hl : ∀ x y, ¬a.Facts (.linked x y)) :
    ∃ xs, collectAgent want a = .ok xs ∧ ∀ x ∈ xs, a.Facts x ∧ want x = true := by
  obtain ⟨rs, e1, h1⟩ := collectRules_ok want a.rules
    (fun r hr => ⟨fun x y hi => hl x y (.ruleHead hr hi), fun x y hi => hl x y (.rule hr hi)⟩)
  obtain ⟨bs, e2, h2⟩ := collectL_ok want a.beliefs (fun t ht x y hi => hl x y (.belief ht hi))
  obtain ⟨gs, e3, h3⟩ := collectL_ok want a.goals (fun t ht x y hi => hl x y (.goal ht hi))
  refine ⟨_, by rw [collectAgent, e1, Ev.bind_ok, e2, Ev.bind_ok, e3, Ev.bind_ok, hp, Ev.mapL, Ev.map_ok], fun x hx => ?_⟩
  rw [List.flatten_nil, List.append_nil] at hx
  rcases List.mem_append.1 hx with hx | hx
  · rcases List.mem_append.1 hx with hx | hx
    · obtain ⟨r, hr, hi | hi, hw⟩ := h1 x hx
      · exact ⟨.ruleHead hr hi, hw⟩
      · exact ⟨.rule hr hi, hw⟩
    · obtain ⟨t, ht, hi, hw⟩ := h2 x hx
      exact ⟨.belief ht hi, hw⟩
  · obtain ⟨t, ht, hi, hw⟩ := h3 x hx
    exact ⟨.goal ht hi, hw⟩

/-! ## Inspecting the agent -/

theorem registerActions_standard (s : Nat) : ∃ t, registerActions standardActions [] s = .ok t s := ⟨_, rfl⟩

theorem inspectAction_plain {x : Ast} (h : ¬x.isMarker) (s : Nat) : inspectAction x s = .ok () s := by
  cases x <;> try rfl
  rw [inspectAction, if_neg (fun e => h (.inl e)), if_neg (fun e => h (.inr e))]

theorem optimizeAgent_same {a b : AAgent} {s s' : Nat} (h : optimizeAgent a s = .ok b s') :
    b = a ∧ s' = s ∧ a.plans = [] ∧ ∀ x y, ¬a.Facts (.linked x y) := by
  rw [optimizeAgent] at h
  obtain ⟨t, s1, h1, h⟩ := Res.bind_eq_ok.1 h
  obtain ⟨t', ht⟩ := registerActions_standard s
  rw [ht] at h1
  cases h1
  obtain ⟨u, s2, h2, h3⟩ := Res.bind_eq_ok.1 h
  cases h3
  unfold initAgent at h2
  obtain ⟨acts, s3, h4, h5⟩ := Res.bind_eq_ok.1 h2
  obtain ⟨h6, rfl⟩ := Res.lift_eq_ok.1 h4
  refine ⟨rfl, ?_, collectAgent_inv h6⟩
  cases acts with
  | nil => cases h5; rfl
  | cons x xs =>
    simp only at h5
    revert h5
    unfold inspectAction infMark infSideEffect
    intro h5
    repeat' split at h5
    all_goals first | rfl | (cases h5; rfl) | cases h5

theorem optimizeAgent_missing {a : AAgent} (s : Nat) (h : a.plans ≠ [] ∨ ∃ x y, a.Facts (.linked x y)) :
    optimizeAgent a s = .err (.py "AttributeError") s := by
  obtain ⟨t, ht⟩ := registerActions_standard s
  rw [optimizeAgent, ht, Res.bind_ok, initAgent]
  rcases collectAgent_orMissing Ast.isAction a with ⟨xs, hx⟩ | hx
  · obtain ⟨h1, h2⟩ := collectAgent_inv hx
    rcases h with h | ⟨x, y, h⟩
    · exact absurd h1 h
    · exact absurd h (h2 x y)
  · rw [hx]; rfl

theorem optimizeAgent_plain {a : AAgent} (s : Nat) (hp : a.plans = []) (hl : ∀ x y, ¬a.Facts (.linked x y)) (hm : ∀ x, a.Facts x → ¬x.isMarker) :
    optimizeAgent a s = .ok a s := by
  obtain ⟨t, ht⟩ := registerActions_standard s
  obtain ⟨xs, hx, hi⟩ := collectAgent_ok Ast.isAction hp hl
  rw [optimizeAgent, ht, Res.bind_ok, initAgent, hx, Res.lift_ok, Res.bind_ok]
  cases xs with
  | nil => rfl
  | cons x xs =>
    simp only
    rw [inspectAction_plain (hm x (hi x (.head _)).1)]
    rfl

end Verif
