import Verif.Spec.Vars

/-! # Variables and renaming -/

namespace Verif

mutual
theorem Term.vars_rename (ρ : VarId → VarId) : ∀ t : Term, (t.rename ρ).vars = t.vars.map ρ
  | .var x => by simp [Term.rename, Term.vars]
  | .lit f as xs => by simp [Term.rename, Term.vars, Term.varsL_rename ρ as, Term.varsL_rename ρ xs]
  | .tup xs => by simp [Term.rename, Term.vars, Term.varsL_rename ρ xs]
  | .cons h t => by simp [Term.rename, Term.vars, Term.vars_rename ρ h, Term.vars_rename ρ t]
  | .un op t => by simp [Term.rename, Term.vars, Term.vars_rename ρ t]
  | .bin op l r => by simp [Term.rename, Term.vars, Term.vars_rename ρ l, Term.vars_rename ρ r]
  | .bool _ | .num _ | .str _ | .wild => by simp [Term.rename, Term.vars]
theorem Term.varsL_rename (ρ : VarId → VarId) : ∀ ts : List Term, Term.varsL (Term.renameL ρ ts) = (Term.varsL ts).map ρ
  | [] => rfl
  | t :: ts => by simp [Term.renameL, Term.varsL, Term.vars_rename ρ t, Term.varsL_rename ρ ts]
end

theorem Query.vars_rename {A : Type} (ρ : VarId → VarId) : ∀ q : Query A, (q.rename ρ).vars = q.vars.map ρ
  | .tru | .fls => rfl
  | .act _ t => Term.vars_rename ρ t
  | .term t => Term.vars_rename ρ t
  | .and l r => by simp [Query.rename, Query.vars, Query.vars_rename ρ l, Query.vars_rename ρ r]
  | .or l r => by simp [Query.rename, Query.vars, Query.vars_rename ρ l, Query.vars_rename ρ r]
  | .not q => Query.vars_rename ρ q
  | .unify l r => by simp [Query.rename, Query.vars, Term.vars_rename ρ l, Term.vars_rename ρ r]

mutual
theorem Term.lt_bound {x : VarId} : ∀ {t : Term}, x ∈ t.vars → x < t.bound
  | .var y, h => by simp only [Term.vars, List.mem_singleton] at h; subst h; exact Nat.lt_succ_self _
  | .lit _ as xs, h => by
    simp only [Term.vars, List.mem_append] at h
    simp only [Term.bound]
    rcases h with h | h
    · exact Nat.lt_of_lt_of_le (Term.lt_boundL h) (Nat.le_max_left ..)
    · exact Nat.lt_of_lt_of_le (Term.lt_boundL h) (Nat.le_max_right ..)
  | .tup xs, h => Term.lt_boundL (ts := xs) h
  | .cons a b, h => by
    simp only [Term.vars, List.mem_append] at h
    simp only [Term.bound]
    rcases h with h | h
    · exact Nat.lt_of_lt_of_le (Term.lt_bound h) (Nat.le_max_left ..)
    · exact Nat.lt_of_lt_of_le (Term.lt_bound h) (Nat.le_max_right ..)
  | .un op t, h => Term.lt_bound (t := t) h
  | .bin op l r, h => by
    simp only [Term.vars, List.mem_append] at h
    simp only [Term.bound]
    rcases h with h | h
    · exact Nat.lt_of_lt_of_le (Term.lt_bound h) (Nat.le_max_left ..)
    · exact Nat.lt_of_lt_of_le (Term.lt_bound h) (Nat.le_max_right ..)
  | .bool _, h | .num _, h | .str _, h | .wild, h => by simp [Term.vars] at h
theorem Term.lt_boundL {x : VarId} : ∀ {ts : List Term}, x ∈ Term.varsL ts → x < Term.boundL ts
  | [], h => by simp [Term.varsL] at h
  | t :: ts, h => by
    simp only [Term.varsL, List.mem_append] at h
    simp only [Term.boundL]
    rcases h with h | h
    · exact Nat.lt_of_lt_of_le (Term.lt_bound h) (Nat.le_max_left ..)
    · exact Nat.lt_of_lt_of_le (Term.lt_boundL h) (Nat.le_max_right ..)
end

theorem Query.lt_bound {A : Type} {x : VarId} : ∀ {q : Query A}, x ∈ q.vars → x < q.bound
  | .tru, h | .fls, h => by simp [Query.vars] at h
  | .act _ t, h => Term.lt_bound (t := t) h
  | .term t, h => Term.lt_bound (t := t) h
  | .and l r, h | .or l r, h => by
    simp only [Query.vars, List.mem_append] at h
    simp only [Query.bound]
    rcases h with h | h
    · exact Nat.lt_of_lt_of_le (Query.lt_bound h) (Nat.le_max_left ..)
    · exact Nat.lt_of_lt_of_le (Query.lt_bound h) (Nat.le_max_right ..)
  | .not q, h => Query.lt_bound (q := q) h
  | .unify l r, h => by
    simp only [Query.vars, List.mem_append] at h
    simp only [Query.bound]
    rcases h with h | h
    · exact Nat.lt_of_lt_of_le (Term.lt_bound h) (Nat.le_max_left ..)
    · exact Nat.lt_of_lt_of_le (Term.lt_bound h) (Nat.le_max_right ..)

theorem Rule.vars_deepcopy {A : Type} (r : Rule A) (nv : VarId) : (r.deepcopy nv).vars = r.vars.map (nv + ·) := by
  simp [Rule.vars, Rule.deepcopy, Term.vars_rename, Query.vars_rename]

theorem Rule.lt_bound {A : Type} {x : VarId} {r : Rule A} (h : x ∈ r.vars) : x < r.bound := by
  simp only [Rule.vars, List.mem_append] at h
  rcases h with h | h
  · exact Nat.lt_of_lt_of_le (Term.lt_bound h) (Nat.le_max_left ..)
  · exact Nat.lt_of_lt_of_le (Query.lt_bound h) (Nat.le_max_right ..)

end Verif
