import Verif.Spec.Optimize

/-!
# Lemmas about merging states of the optimiser
-/

namespace Verif

theorem lookup_ne {α : Type} {k x : List Char} {v : α} {d : List (List Char × α)} (h : x ≠ k) : ((k, v) :: d).lookup x = d.lookup x := by
  have hb : (x == k) = false := beq_false_of_ne h
  rw [List.lookup_cons, hb]

theorem lookup_dictPut {α : Type} (k : List Char) (v : α) (x : List Char) :
    ∀ d : List (List Char × α), (dictPut k v d).lookup x = if x = k then some v else d.lookup x
  | [] => by
    by_cases h : x = k
    · subst h; simp [dictPut]
    · rw [if_neg h, dictPut, lookup_ne h]
  | (k', v') :: d => by
    rw [dictPut]
    by_cases hk : k' = k
    · subst hk
      rw [if_pos rfl]
      by_cases h : x = k'
      · subst h; simp
      · rw [if_neg h, lookup_ne h, lookup_ne h]
    · rw [if_neg hk]
      by_cases h : x = k'
      · subst h; simp [hk]
      · rw [lookup_ne h, lookup_ne h, lookup_dictPut k v x d]

/-- The status of a variable; the variables that are not there are unbound. -/
def InfState.at (S : InfState) (x : List Char) : VarInfo := (S.status.lookup x).getD .unbound

theorem InfState.at_value {S : InfState} {x : List Char} (h : S.at x = .value) : S.status.lookup x = some .value := by
  unfold InfState.at at h
  cases hl : S.status.lookup x with
  | none => rw [hl] at h; cases h
  | some k => rw [hl] at h; exact congrArg some h

/-- Whether two known values are equal for `nodes_equal`. -/
def sameValue : Option Node → Option Node → Bool
  | some v, some w => match nodesEqual v w with | .ok b => b | _ => false
  | _, _ => false

mutual
/-- Nothing is replaced in terms without variables that had a known value. -/
theorem deref_open (S : InfState) : ∀ (a : Node), a.Open → ∃ N, ∀ n, N ≤ n → S.deref n a = .ok a
  | .const v, _ => ⟨1, fun n hn => by obtain ⟨n, rfl⟩ := Nat.exists_eq_add_of_le' hn; rfl⟩
  | .var x k v, h => ⟨1, fun n hn => by
      obtain ⟨n, rfl⟩ := Nat.exists_eq_add_of_le' hn
      simp only [Node.Open] at h
      simp [InfState.deref, h]⟩
  | .lit f ts as, h => by
    simp only [Node.Open] at h
    obtain ⟨N, hN⟩ := derefL_open S ts h.1
    obtain ⟨M, hM⟩ := derefL_open S as h.2
    refine ⟨max N M + 1, fun n hn => ?_⟩
    obtain ⟨n, rfl⟩ : ∃ m, n = m + 1 := ⟨n - 1, by omega⟩
    rw [InfState.deref, hN n (by omega), Ev.bind_ok, hM n (by omega), Ev.map_ok]
theorem derefL_open (S : InfState) : ∀ (as : List Node), Node.OpenL as → ∃ N, ∀ n, N ≤ n → S.derefL n as = .ok as
  | [], _ => ⟨1, fun n hn => by obtain ⟨n, rfl⟩ := Nat.exists_eq_add_of_le' hn; rfl⟩
  | a :: as, h => by
    simp only [Node.OpenL] at h
    obtain ⟨N, hN⟩ := deref_open S a h.1
    obtain ⟨M, hM⟩ := derefL_open S as h.2
    refine ⟨max N M + 1, fun n hn => ?_⟩
    obtain ⟨n, rfl⟩ : ∃ m, n = m + 1 := ⟨n - 1, by omega⟩
    rw [InfState.derefL, hN n (by omega), Ev.bind_ok, hM n (by omega), Ev.map_ok]
end

mutual
theorem nodesEqual_open : ∀ (a b : Node), a.Open → b.Open → ∃ e, nodesEqual a b = .ok e
  | .other, _, h, _ => h.elim
  | _, .other, _, h => h.elim
  | .const _, .const _, _, _ => ⟨_, rfl⟩
  | .const _, .var _ _ _, _, _ => ⟨_, rfl⟩
  | .const _, .lit _ _ _, _, _ => ⟨_, rfl⟩
  | .var _ _ _, .const _, _, _ => ⟨_, rfl⟩
  | .var _ _ _, .var _ _ _, _, _ => ⟨_, rfl⟩
  | .var _ _ _, .lit _ _ _, _, _ => ⟨_, rfl⟩
  | .lit _ _ _, .const _, _, _ => ⟨_, rfl⟩
  | .lit _ _ _, .var _ _ _, _, _ => ⟨_, rfl⟩
  | .lit f ts as, .lit g us bs, h, k => by
    simp only [Node.Open] at h k
    obtain ⟨e, he⟩ := nodesEqualL_open ts us h.1 k.1
    rw [nodesEqual, he]
    split
    · exact ⟨_, rfl⟩
    · exact ⟨_, rfl⟩
theorem nodesEqualL_open : ∀ (as bs : List Node), Node.OpenL as → Node.OpenL bs → ∃ e, nodesEqualL as bs = .ok e
  | [], _, _, _ => ⟨true, by rw [nodesEqualL]; simp⟩
  | _ :: _, [], _, _ => ⟨true, by rw [nodesEqualL]; simp⟩
  | a :: as, b :: bs, h, k => by
    simp only [Node.OpenL] at h k
    obtain ⟨e, he⟩ := nodesEqual_open a b h.1 k.1
    rw [nodesEqualL, he, Ev.bind_ok]
    cases e with
    | true => exact nodesEqualL_open as bs h.2 k.2
    | false => exact ⟨_, rfl⟩
end

mutual
/-- Terms that are equal for `nodes_equal` have the same value. -/
theorem nodesEqual_eval (σ : List Char → RunVal) : ∀ (a b : Node), a.Fair b → nodesEqual a b = .ok true → a.eval σ = b.eval σ
  | .const c, .const d, h, e => by
    simp only [nodesEqual, Ev.ok.injEq] at e
    have hb : (∃ b, c = .bool b) ↔ ∃ b, d = .bool b := h
    have : c = d := by
      unfold ConstV.pyEq at e
      split at e
      · exact absurd (hb.1 ⟨_, rfl⟩) (by rintro ⟨b, hb⟩; cases hb)
      · exact absurd (hb.2 ⟨_, rfl⟩) (by rintro ⟨b, hb⟩; cases hb)
      · exact of_decide_eq_true e
    subst this
    rfl
  | .var x _ _, .var y _ _, _, e => by
    simp only [nodesEqual, Ev.ok.injEq, decide_eq_true_eq] at e
    subst e
    rfl
  | .lit f ts as, .lit g us bs, h, e => by
    rw [nodesEqual] at e
    by_cases hf : f = g
    · subst hf
      rw [if_pos rfl] at e
      obtain ⟨hl, hF⟩ := h rfl
      cases he : nodesEqualL ts us with
      | oof => rw [he] at e; cases e
      | err _ => rw [he] at e; cases e
      | ok b =>
        rw [he, Ev.map_ok] at e
        simp only [Ev.ok.injEq, Bool.and_eq_true, List.isEmpty_iff] at e
        obtain ⟨⟨rfl, rfl⟩, rfl⟩ := e
        rw [Node.eval, Node.eval, nodesEqualL_eval σ ts us hl hF he]
    · rw [if_neg hf] at e; cases e
  | .other, _, _, e => by cases e
  | .const _, .other, _, e => by cases e
  | .var _ _ _, .other, _, e => by cases e
  | .lit _ _ _, .other, _, e => by cases e
  | .const _, .var _ _ _, _, e => by cases e
  | .const _, .lit _ _ _, _, e => by cases e
  | .var _ _ _, .const _, _, e => by cases e
  | .var _ _ _, .lit _ _ _, _, e => by cases e
  | .lit _ _ _, .const _, _, e => by cases e
  | .lit _ _ _, .var _ _ _, _, e => by cases e
theorem nodesEqualL_eval (σ : List Char → RunVal) : ∀ (as bs : List Node), as.length = bs.length → Node.FairL as bs →
    nodesEqualL as bs = .ok true → Node.evalL σ as = Node.evalL σ bs
  | [], [], _, _, _ => rfl
  | a :: as, b :: bs, hl, h, e => by
    simp only [Node.FairL] at h
    rw [nodesEqualL] at e
    cases he : nodesEqual a b with
    | oof => rw [he] at e; cases e
    | err _ => rw [he] at e; cases e
    | ok c =>
      rw [he, Ev.bind_ok] at e
      cases c with
      | false => cases e
      | true =>
        rw [Node.evalL, Node.evalL, nodesEqual_eval σ a b h.1 he, nodesEqualL_eval σ as bs (by simpa using hl) h.2 e]
end

mutual
/-- A term without annotations equals itself. -/
theorem nodesEqual_self : ∀ (a : Node), a.Bare → nodesEqual a a = .ok true
  | .const c, _ => by
    rw [nodesEqual]
    congr 1
    cases c with
    | bool b => simp [ConstV.pyEq]
    | num x => cases x <;> simp [ConstV.pyEq]
    | str s => simp [ConstV.pyEq]
  | .var x _ _, _ => by simp [nodesEqual]
  | .lit f ts as, h => by
    simp only [Node.Bare] at h
    obtain ⟨h1, rfl⟩ := h
    rw [nodesEqual, if_pos rfl, nodesEqualL_self ts h1]
    rfl
theorem nodesEqualL_self : ∀ (as : List Node), Node.BareL as → nodesEqualL as as = .ok true
  | [], _ => by rw [nodesEqualL]; simp
  | a :: as, h => by
    simp only [Node.BareL] at h
    rw [nodesEqualL, nodesEqual_self a h.1, Ev.bind_ok, if_pos rfl, nodesEqualL_self as h.2]
end

/-- What is known after merging. -/
def joinKnown (same : Bool) : VarInfo → VarInfo → VarInfo
  | .value, .value => if same then .value else .bound
  | .value, .bound | .bound, .value | .bound, .bound => .bound
  | .unbound, .unbound => .unbound
  | _, _ => .unproven

theorem mergeVar_terms {S O : InfState} (hS : S.Terms) (hO : O.Terms) {x : List Char} {k : VarInfo} (hk : O.status.lookup x = some k) :
    ∃ S' N, (∀ n, N ≤ n → mergeVar n O x k S = .ok S') ∧ S'.values = S.values ∧
      ∀ y, S'.at y = if y = x then joinKnown (sameValue (S.values.lookup x) (O.values.lookup x)) (S.at x) k else S.at y := by
  -- the status after adding the variable
  have key : ∃ st, S.ensure x = ⟨st, S.values⟩ ∧
      st.lookup x = some (S.at x) ∧ ∀ y, y ≠ x → st.lookup y = S.status.lookup y := by
    unfold InfState.ensure
    cases hl : S.status.lookup x with
    | some k' => exact ⟨S.status, rfl, by rw [hl]; unfold InfState.at; rw [hl]; rfl, fun _ _ => rfl⟩
    | none =>
      refine ⟨_, rfl, ?_, fun y hy => ?_⟩
      · rw [lookup_dictPut, if_pos rfl]; unfold InfState.at; rw [hl]; rfl
      · rw [lookup_dictPut, if_neg hy]
  obtain ⟨st, e, h1, h2⟩ := key
  have done : ∀ k', ∀ y, (⟨dictPut x k' st, S.values⟩ : InfState).at y = if y = x then k' else S.at y := by
    intro k' y
    unfold InfState.at
    simp only [lookup_dictPut]
    by_cases h : y = x
    · rw [if_pos h, if_pos h]; rfl
    · rw [if_neg h, if_neg h, h2 y h]
  unfold mergeVar
  rw [e]
  simp only [h1, Option.getD_some]
  cases hs : S.at x <;> cases k
  case value.value =>
    obtain ⟨v, hc, hv, nv⟩ := hS x (InfState.at_value hs)
    obtain ⟨w, hd, hw, nw⟩ := hO x hk
    obtain ⟨e, he⟩ := nodesEqual_open v w hv hw
    obtain ⟨N, hN⟩ := deref_open ⟨st, S.values⟩ v hv
    obtain ⟨M, hM⟩ := deref_open O w hw
    have step : ∀ (T : InfState) (v : Node) (n : Nat), (∀ y k u, v ≠ .var y k u) → T.deref (n + 1) (.var x .value (some v)) = T.deref n v := by
      intro T v n h
      cases v with
      | var y k u => exact absurd rfl (h y k u)
      | _ => rfl
    have es : sameValue (S.values.lookup x) (O.values.lookup x) = e := by
      rw [hc, hd]
      simp only [sameValue, he]
    refine ⟨⟨dictPut x (if e then .value else .bound) st, S.values⟩, max N M + 1, fun n hn => ?_, rfl, fun y => ?_⟩
    · obtain ⟨n, rfl⟩ : ∃ m, n = m + 1 := ⟨n - 1, by omega⟩
      simp only [InfState.var, h1, hs, hk, hc, hd, Ev.bind_ok, step _ _ _ nv, step _ _ _ nw, hN n (by omega), hM n (by omega), he, Ev.map_ok]
    · rw [done, es]
      rfl
  all_goals exact ⟨_, 0, fun _ _ => rfl, rfl, fun y => done _ y⟩

theorem mergeLoop_terms {O : InfState} (hO : O.Terms) : ∀ (xs : List (List Char × VarInfo)) (S : InfState), S.Terms →
    (xs.map Prod.fst).Nodup → (∀ p ∈ xs, O.status.lookup p.1 = some p.2) →
    ∃ S' N, (∀ n, N ≤ n → mergeLoop n O xs S = .ok S') ∧ S'.values = S.values ∧ ∀ x, S'.at x =
      match xs.lookup x with
      | some k => joinKnown (sameValue (S.values.lookup x) (O.values.lookup x)) (S.at x) k
      | none => S.at x
  | [], S, _, _, _ => ⟨S, 0, fun _ _ => rfl, rfl, fun x => rfl⟩
  | (x, k) :: xs, S, hS, hn, hm => by
    have hk := hm _ (.head _)
    obtain ⟨S1, N1, e1, hv1, h1⟩ := mergeVar_terms hS hO hk
    have hS1 : S1.Terms := by
      intro y hy
      have h := h1 y
      unfold InfState.at at h
      rw [hy] at h
      rw [hv1]
      by_cases hyx : y = x
      · subst hyx
        rw [if_pos rfl] at h
        apply hS
        apply InfState.at_value
        generalize sameValue (S.values.lookup y) (O.values.lookup y) = b at h
        change _ = joinKnown b (S.at y) k at h
        revert h
        cases S.at y <;> cases k <;> simp [joinKnown]
      · rw [if_neg hyx] at h
        exact hS y (InfState.at_value h.symm)
    rw [List.map_cons, List.nodup_cons] at hn
    obtain ⟨S2, N2, e2, hv2, h2⟩ := mergeLoop_terms hO xs S1 hS1 hn.2 (fun p hp => hm p (.tail _ hp))
    refine ⟨S2, max N1 N2, fun n hn => by rw [mergeLoop, e1 n (by omega), Ev.bind_ok, e2 n (by omega)], by rw [hv2, hv1], fun y => ?_⟩
    rw [h2 y, hv1]
    by_cases hyx : y = x
    · subst hyx
      have : xs.lookup y = none := by
        rw [List.lookup_eq_none_iff]
        intro p hp
        apply bne_iff_ne.2
        intro he
        exact hn.1 (List.mem_map.2 ⟨p, hp, he.symm⟩)
      rw [this, h1, if_pos rfl, List.lookup_cons_self]
    · have hb : (y == x) = false := by simpa using hyx
      rw [List.lookup_cons, hb]
      simp only [h1 y, if_neg hyx]

theorem addMissing_lookup : ∀ (xs d : List (List Char × VarInfo)) (x : List Char),
    (addMissing xs d).lookup x = match d.lookup x with
      | some k => some k
      | none => (xs.lookup x).map fun _ => VarInfo.unbound
  | [], d, x => by rw [addMissing]; cases d.lookup x <;> rfl
  | (y, k) :: xs, d, x => by
    rw [addMissing, addMissing_lookup]
    by_cases h : x = y
    · subst h
      cases hl : d.lookup x with
      | some k' => simp only [hl]
      | none => simp [lookup_dictPut]
    · have hb : (x == y) = false := by simpa using h
      rw [List.lookup_cons, hb]
      cases d.lookup y with
      | some _ => rfl
      | none => simp only [lookup_dictPut, if_neg h]

theorem keys_dictPut {α : Type} {k : List Char} {v : α} : ∀ {d : List (List Char × α)}, d.lookup k = none →
    (dictPut k v d).map Prod.fst = d.map Prod.fst ++ [k]
  | [], _ => rfl
  | (k', v') :: d, h => by
    have hne : k ≠ k' := by
      rintro rfl
      simp at h
    have hb : (k == k') = false := by simpa using hne
    rw [List.lookup_cons, hb] at h
    rw [dictPut, if_neg (fun e => hne e.symm), List.map_cons, List.map_cons, keys_dictPut (d := d) (by simpa using h)]
    rfl

theorem addMissing_nodup : ∀ (xs d : List (List Char × VarInfo)), (d.map Prod.fst).Nodup → ((addMissing xs d).map Prod.fst).Nodup
  | [], _, h => h
  | (y, _) :: xs, d, h => by
    rw [addMissing]
    apply addMissing_nodup
    cases hl : d.lookup y with
    | some _ => exact h
    | none =>
      simp only
      rw [keys_dictPut hl, List.nodup_append]
      refine ⟨h, by simp, ?_⟩
      intro a ha b hb he
      simp only [List.mem_singleton] at hb
      subst hb he
      obtain ⟨p, hp, rfl⟩ := List.mem_map.1 ha
      have := List.lookup_eq_none_iff.1 hl p hp
      simp at this

theorem lookup_of_mem {α : Type} : ∀ {d : List (List Char × α)}, (d.map Prod.fst).Nodup → ∀ p ∈ d, d.lookup p.1 = some p.2
  | (k, v) :: d, h, p, hp => by
    rw [List.map_cons, List.nodup_cons] at h
    cases hp with
    | head => simp
    | tail _ hp =>
      have hne : p.1 ≠ k := fun e => h.1 (List.mem_map.2 ⟨p, hp, e⟩)
      have hb : (p.1 == k) = false := by simpa using hne
      rw [List.lookup_cons, hb]
      exact lookup_of_mem h.2 p hp

/-- Merging states whose known values are constants and literals. -/
theorem merge_terms {S O : InfState} (hS : S.Terms) (hO : O.Terms) (hn : (O.status.map Prod.fst).Nodup) :
    ∃ S' N, (∀ n, N ≤ n → S.merge n O = .ok S') ∧ S'.values = S.values ∧
      ∀ x, S'.at x = joinKnown (sameValue (S.values.lookup x) (O.values.lookup x)) (S.at x) (O.at x) := by
  have hO' : InfState.Terms { O with status := addMissing S.status O.status } := by
    intro x hx
    simp only [addMissing_lookup] at hx
    cases hl : O.status.lookup x with
    | some k => rw [hl] at hx; simp only [Option.some.injEq] at hx; subst hx; exact hO x hl
    | none =>
      rw [hl] at hx
      cases hs : S.status.lookup x with
      | some k => rw [hs] at hx; simp at hx
      | none => rw [hs] at hx; simp at hx
  have hn' := addMissing_nodup S.status O.status hn
  obtain ⟨S', N, e, hv, h⟩ := mergeLoop_terms hO' _ S hS hn' (lookup_of_mem hn')
  refine ⟨S', N, e, hv, fun x => ?_⟩
  rw [h x]
  simp only [addMissing_lookup]
  cases hl : O.status.lookup x with
  | some k => simp only [InfState.at, hl, Option.getD_some]
  | none =>
    cases hs : S.status.lookup x with
    | some k => simp only [InfState.at, hl, hs, Option.getD_none, Option.map_some]
    | none =>
      simp only [InfState.at, hl, hs, Option.getD_none, Option.map_none]
      rfl

end Verif
