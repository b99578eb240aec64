import Verif.Lemmas.Collect
import Verif.Spec.ExactHost

/-!
# Actions that enumerate items and collect answers (C46, C47)
-/

namespace Verif

section
variable [Host] {R : QSt World → QSt World → Prop} {s s' : QSt World} {ans : List (QSt World)} {x : VarId}

/-- **C46.** `.member(X, L)`, with `X` unbound and `L` a list: exactly one answer for every
item, in order, with `X` bound to the item and nothing else changed.  In the end the
bindings are as before, even if the consumer has made (trailed) bindings between the
answers. -/
theorem C46_member {f : String} {L l : Term} {xs as : List Term} {k : Nat} (hx : s.b.scope x = none)
    (hl : evaluate k s.b.scope L = .ok l) (hxs : ListOf l xs) (hR : ∀ s s', R s s' → Above s.b s'.b)
    (h : Drain R (.start (.act .member (.lit f [.var x, L] as))) s ans s') :
    AllOf (fun y a => StandsFor x y s.b.scope a.b.scope) xs ans ∧
      s'.b.scope = s.b.scope ∧ s'.b.stack = s.b.stack := by
  obtain ⟨h1, h2, h3⟩ := items_drain_start hR (fun_member hl) hxs.iter h
  exact ⟨onePerItem_unbound hx h3, h1, h2⟩

/-- **C46.** Any pattern in place of the unbound variable: the answers are those of the
items that unify with it. -/
theorem C46_member_pattern {f : String} {p L l : Term} {xs as : List Term} {k : Nat}
    (hl : evaluate k s.b.scope L = .ok l) (hxs : ListOf l xs) (hR : ∀ s s', R s s' → Above s.b s'.b)
    (h : Drain R (.start (.act .member (.lit f [p, L] as))) s ans s') :
    OnePerItem p s.b.scope xs ans ∧ s'.b.scope = s.b.scope ∧ s'.b.stack = s.b.stack := by
  obtain ⟨h1, h2, h3⟩ := items_drain_start hR (fun_member hl) hxs.iter h
  exact ⟨h3, h1, h2⟩

/-- **C46.** `.member` does not raise: a loop over its answers comes to an end, for every
list of items that can be evaluated. -/
theorem C46_member_total {f : String} {L l : Term} {xs as : List Term} {k : Nat} (hx : s.b.scope x = none)
    (hl : evaluate k s.b.scope L = .ok l) (hxs : ListOf l xs) (hy : ∀ y ∈ xs, Evaluates s.b.scope y) :
    ∃ ans s', Drain (fun s s' => s' = s) (.start (.act .member (.lit f [.var x, L] as)) : Gen Act ActGen) s ans s' :=
  items_total_start hx (run_member hl) hxs.iter hy

/-- **C46.** `.range(N, X)`, with `X` unbound: the answers bind `X` to 0, …, N-1. -/
theorem C46_range {f : String} {N : Term} {i : Int} {as : List Term} {k : Nat} (hx : s.b.scope x = none)
    (hN : grounded k s.b.scope N = .ok (.num i)) (hR : ∀ s s', R s s' → Above s.b s'.b)
    (h : Drain R (.start (.act .range (.lit f [N, .var x] as))) s ans s') :
    AllOf (fun (j : Nat) a => a.b.scope = s.b.scope.set x (.num (j : Rat))) (List.range i.toNat) ans ∧
      s'.b.scope = s.b.scope ∧ s'.b.stack = s.b.stack := by
  obtain ⟨h1, h2, h3⟩ := items_drain_start hR (fun_range hN) (iter_numTup _) h
  exact ⟨allOf_nums (onePerItem_unbound hx h3), h1, h2⟩

theorem C46_range_total {f : String} {N : Term} {i : Int} {as : List Term} {k : Nat} (hx : s.b.scope x = none)
    (hN : grounded k s.b.scope N = .ok (.num i)) :
    ∃ ans s', Drain (fun s s' => s' = s) (.start (.act .range (.lit f [N, .var x] as)) : Gen Act ActGen) s ans s' :=
  items_total_start hx (run_range hN) (iter_numTup _) (evaluates_nums _)

/-- **C46.** `.substring(Sub, Str, X)`, with `X` unbound: the answers bind `X` to exactly
the positions at which `Sub` occurs in `Str`, in ascending order. -/
theorem C46_substring {f a b : String} {A B : Term} {as : List Term} {k : Nat} (hx : s.b.scope x = none)
    (hA : grounded k s.b.scope A = .ok (.str a)) (hB : grounded k s.b.scope B = .ok (.str b))
    (hR : ∀ s s', R s s' → Above s.b s'.b)
    (h : Drain R (.start (.act .substring (.lit f [A, B, .var x] as))) s ans s') :
    (∃ ps : List Nat, ps.Pairwise (· < ·) ∧ (∀ p, p ∈ ps ↔ OccursAt a.toList b.toList p) ∧
      AllOf (fun (p : Nat) a => a.b.scope = s.b.scope.set x (.num (p : Rat))) ps ans) ∧
      s'.b.scope = s.b.scope ∧ s'.b.stack = s.b.stack := by
  obtain ⟨h1, h2, h3⟩ := items_drain_start hR (fun_substring hA hB) (iter_numTup _) h
  obtain ⟨p1, p2⟩ := positions_spec a.toList b.toList 0
  refine ⟨⟨_, p1, fun p => ?_, allOf_nums (onePerItem_unbound hx h3)⟩, h1, h2⟩
  rw [p2]
  simp

theorem C46_substring_total {f a b : String} {A B : Term} {as : List Term} {k : Nat} (hx : s.b.scope x = none)
    (hA : grounded k s.b.scope A = .ok (.str a)) (hB : grounded k s.b.scope B = .ok (.str b)) :
    ∃ ans s', Drain (fun s s' => s' = s) (.start (.act .substring (.lit f [A, B, .var x] as)) : Gen Act ActGen) s ans s' :=
  items_total_start hx (run_substring hA hB) (iter_numTup _) (evaluates_nums _)

/-- **C47.** `.findall(P, Q, L)`: all answers of the query `Q` are taken, and `L` is unified
with a list that has one item for each of them, in order.  If `P` is ground in every
answer, the item is `P` with the bindings of the answer.  No bindings are left over from
the query: they are the old ones when `L` is unified.  (Without this condition the items
can be wrong, see `C47_findall_shares_memo`.  The beliefs must be literals, and the rules
must not contain `.unbind_all` or `literal = variable`, see `C47_findall_rule_unbinds_all`.) -/
theorem C47_findall_partial {f : String} {P Q L : Term} {as : List Term} {n : Nat} {o : Option (Gen Act ActGen)}
    (hw : Orderly s.w) (h : gnext n (.start (.act .findall (.lit f [P, Q, L] as)) : Gen Act ActGen) s = .ok o s') :
    ∃ k p ans ts s₁, evaluate k s.b.scope P = .ok p ∧
      Drain (fun s s' => s'.b = s.b ∧ s'.w = s.w) (.start (.term Q) : Gen Act ActGen) s ans s₁ ∧
      ts.length = ans.length ∧
      ((∀ a ∈ ans, ∃ k v, grounded k a.b.scope p = .ok v) →
        AllOf (fun a t => ∃ k, grounded k a.b.scope p = .ok t) ans ts) ∧
      s₁.b.scope = s.b.scope ∧ s₁.b.stack = s.b.stack ∧
      unify k (.tup ts) L s₁.b = .ok o.isSome s'.b := by
  replace h := act_start h
  obtain ⟨m, o', rfl, h⟩ := h
  simp only [actNext, argAt, List.getElem?_cons_succ, List.getElem?_cons_zero, Ev.bind_ok, Res.bind_eq_ok, Res.lift_eq_ok] at h
  obtain ⟨p, _, ⟨hp, rfl⟩, q, _, ⟨hq, rfl⟩, ts, s₁, hf, x', _, ⟨hx', rfl⟩, h⟩ := h
  cases hq
  cases hx'
  obtain ⟨ans, h1, h2, h3⟩ := findall_drain _ _ _ _ _ _ hf
  obtain ⟨h4, h5⟩ := watched hw h1
  exact ⟨m, p, ans, ts, s₁, hp, h1, h2, h3 (fun _ => rfl), h4, h5, by simpa using (unifyThenYield_ok h).1⟩

/-- **C47.** `.count(Q, X)` unifies `X` with the number of answers of `Q`, with the
bindings as they were before the query. -/
theorem C47_count {f : String} {Q X : Term} {as : List Term} {n : Nat} {o : Option (Gen Act ActGen)}
    (hw : Orderly s.w) (h : gnext n (.start (.act .count (.lit f [Q, X] as)) : Gen Act ActGen) s = .ok o s') :
    ∃ k ans s₁ b, Drain (fun s s' => s' = s) (.start (.term Q) : Gen Act ActGen) { s with b := s.b.mark } ans s₁ ∧
      b.scope = s.b.scope ∧ b.stack = s.b.stack ∧ unify k (.num ans.length) X b = .ok o.isSome s'.b := by
  replace h := act_start h
  obtain ⟨m, o', rfl, h⟩ := h
  simp only [actNext, argAt, List.getElem?_cons_succ, List.getElem?_cons_zero, Res.bind_eq_ok, Res.lift_eq_ok] at h
  obtain ⟨q, _, ⟨hq, rfl⟩, c, s₁, hc, x', _, ⟨hx', rfl⟩, h⟩ := h
  cases hq
  cases hx'
  obtain ⟨ans, h1, rfl⟩ := count_drain (R := fun s s' => s' = s) (fun _ => rfl) _ _ _ _ _ hc
  have h2 := (watched_same (s := { s with b := s.b.mark }) hw (h1.mono fun s s' h => by rw [h]; exact ⟨rfl, rfl⟩)).2
  have hr := reroll_mark (b := s.b) (b' := s₁.b) (by rw [h2.1]; exact above_same h2.2)
  have hu := (unifyThenYield_ok h).1
  simp only [hr] at hu
  exact ⟨m, ans, s₁, { s.b with ncp := s₁.b.ncp }, h1, rfl, rfl, by simpa using hu⟩

/-- **C47.** `.count` does not raise and comes to an end, if the loop over the answers does and the number
can be unified with `X`: the other direction of `C47_count`. -/
theorem C47_count_total {f : String} {Q X : Term} {as : List Term} {k : Nat} {s₁ : QSt World} {r : Bool} {b' : BSt} (hw : Orderly s.w)
    (hd : Drain (fun s s' => s' = s) (.start (.term Q) : Gen Act ActGen) { s with b := s.b.mark } ans s₁)
    (hu : unify k (.num ans.length) X { s.b with ncp := s₁.b.ncp } = .ok r b') :
    ∃ N, ∀ n, N ≤ n → gnext n (.start (.act .count (.lit f [Q, X] as)) : Gen Act ActGen) s =
      .ok (if r then some (.act .fin) else none) { s₁ with b := b' } := by
  obtain ⟨N, hN⟩ := drain_count hd
  have h2 := (watched_same (s := { s with b := s.b.mark }) hw (hd.mono fun s s' h => by rw [h]; exact ⟨rfl, rfl⟩)).2
  have hr := reroll_mark (b := s.b) (b' := s₁.b) (by rw [h2.1]; exact above_same h2.2)
  have : ∀ n, N + k ≤ n → actNext n (gnext n) (.start .count (.lit f [Q, X] as)) s =
      .ok (if r then some .fin else none) { s₁ with b := b' } := fun n hn => by
    simp only [actNext, argAt, List.getElem?_cons_succ, List.getElem?_cons_zero, Res.lift, Res.bind]
    rw [hN n n (by omega) (by omega)]
    simp only [Res.bind, hr, unifyThenYield, QSt.onB, unify_mono hu (show k ≤ n by omega)]
  refine ⟨N + k + 2, fun n hn => ?_⟩
  obtain ⟨n, rfl⟩ : ∃ j, n = j + 2 := ⟨n - 2, by omega⟩
  rw [start_act (this n (by omega))]
  cases r <;> rfl

/-- **C47.** `.findall` does not raise and comes to an end, if the loop over the answers does, the pattern is
ground in every answer and the list can be unified with `L`: the other direction of `C47_findall_partial`. -/
theorem C47_findall_total {f : String} {P Q L p : Term} {as ts : List Term} {k : Nat} {s₁ : QSt World} {r : Bool} {b' : BSt}
    (hp : evaluate k s.b.scope P = .ok p)
    (hd : Drain (fun s s' => s' = s) (.start (.term Q) : Gen Act ActGen) s ans s₁)
    (ht : AllOf (fun a t => ∃ k, grounded k a.b.scope p = .ok t) ans ts)
    (hu : unify k (.tup ts) L s₁.b = .ok r b') :
    ∃ N, ∀ n, N ≤ n → gnext n (.start (.act .findall (.lit f [P, Q, L] as)) : Gen Act ActGen) s =
      .ok (if r then some (.act .fin) else none) { s₁ with b := b' } := by
  obtain ⟨N, hN⟩ := drain_findall hd ts ht
  have : ∀ n, N + k ≤ n → actNext n (gnext n) (.start .findall (.lit f [P, Q, L] as)) s =
      .ok (if r then some .fin else none) { s₁ with b := b' } := fun n hn => by
    simp only [actNext, argAt, List.getElem?_cons_succ, List.getElem?_cons_zero, Ev.bind_ok, evaluate_mono hp (show k ≤ n by omega),
      Res.lift, Res.bind]
    rw [hN n n (by omega) (by omega)]
    simp only [Res.bind, unifyThenYield, QSt.onB, unify_mono hu (show k ≤ n by omega)]
  refine ⟨N + k + 2, fun n hn => ?_⟩
  obtain ⟨n, rfl⟩ : ∃ j, n = j + 2 := ⟨n - 2, by omega⟩
  rw [start_act (this n (by omega))]
  cases r <;> rfl

/-- **C71.** `.sum(P, Q, S)`: all answers of the query `Q` are taken, and `S` is unified with the sum of the
values of `P` in them, added up in order from 0.  `P` is evaluated once, before the query.  No bindings are
left over from the query.  (For rules with `.unbind_all` or `literal = variable` see C47.) -/
theorem C71_sum_partial {f : String} {P Q S : Term} {as : List Term} {n : Nat} {o : Option (Gen Act ActGen)}
    (hw : Orderly s.w) (h : gnext n (.start (.act .sum (.lit f [P, Q, S] as)) : Gen Act ActGen) s = .ok o s') :
    ∃ k p ans vs total s₁, evaluate k s.b.scope P = .ok p ∧
      Drain (fun s s' => s' = s) (.start (.term Q) : Gen Act ActGen) s ans s₁ ∧
      AllOf (fun a v => ∃ k, grounded k a.b.scope p = .ok v) ans vs ∧ AddsUp 0 vs total ∧
      s₁.b.scope = s.b.scope ∧ s₁.b.stack = s.b.stack ∧
      unify k (.num total) S s₁.b = .ok o.isSome s'.b ∧ s'.w = s₁.w := by
  replace h := act_start h
  obtain ⟨m, o', rfl, h⟩ := h
  simp only [actNext, argAt, List.getElem?_cons_succ, List.getElem?_cons_zero, Ev.bind_ok, Res.bind_eq_ok, Res.lift_eq_ok] at h
  obtain ⟨p, _, ⟨hp, rfl⟩, q, _, ⟨hq, rfl⟩, total, s₁, hf, x', _, ⟨hx', rfl⟩, h⟩ := h
  cases hq
  cases hx'
  obtain ⟨ans, vs, h1, h2, h3⟩ := sum_drain _ _ _ _ _ _ hf
  obtain ⟨h4, h5⟩ := watched hw (h1.mono fun s s' h => by rw [h]; exact ⟨rfl, rfl⟩)
  exact ⟨m, p, ans, vs, total, s₁, hp, h1, h2, h3, h4, h5, by simpa using (unifyThenYield_ok h).1, (unifyThenYield_ok h).2⟩

/-- **C71.** `.sum` does not raise and comes to an end, if the loop over the answers does, the values are
numbers whose sum exists and the sum can be unified with `S`. -/
theorem C71_total_partial {f : String} {P Q S p : Term} {as vs : List Term} {k : Nat} {total : Rat} {s₁ : QSt World} {r : Bool} {b' : BSt}
    (hp : evaluate k s.b.scope P = .ok p)
    (hd : Drain (fun s s' => s' = s) (.start (.term Q) : Gen Act ActGen) s ans s₁)
    (ht : AllOf (fun a v => ∃ k, grounded k a.b.scope p = .ok v) ans vs) (hs : AddsUp 0 vs total)
    (hu : unify k (.num total) S s₁.b = .ok r b') :
    ∃ N, ∀ n, N ≤ n → gnext n (.start (.act .sum (.lit f [P, Q, S] as)) : Gen Act ActGen) s =
      .ok (if r then some (.act .fin) else none) { s₁ with b := b' } := by
  obtain ⟨N, hN⟩ := drain_sum hd vs 0 total ht hs
  have : ∀ n, N + k ≤ n → actNext n (gnext n) (.start .sum (.lit f [P, Q, S] as)) s =
      .ok (if r then some .fin else none) { s₁ with b := b' } := fun n hn => by
    simp only [actNext, argAt, List.getElem?_cons_succ, List.getElem?_cons_zero, Ev.bind_ok, evaluate_mono hp (show k ≤ n by omega),
      Res.lift, Res.bind]
    rw [hN n n (by omega) (by omega)]
    simp only [Res.bind, unifyThenYield, QSt.onB, unify_mono hu (show k ≤ n by omega)]
  refine ⟨N + k + 2, fun n hn => ?_⟩
  obtain ⟨n, rfl⟩ : ∃ j, n = j + 2 := ⟨n - 2, by omega⟩
  rw [start_act (this n (by omega))]
  cases r <;> rfl

end

section examples
attribute [local instance] exactHost

/-- One agent without beliefs, with rules for `r/1`. -/
def ruleWorld (rs : List (Rule Act)) : World :=
  { World.init fun _ => 0 with ags := fun _ => { name := "", rules := fun g => if g = ("r", 1) then rs else [] } }

/-- `Y ↦ 7` -/
def yState (w : World) : QSt World := ⟨⟨Scope.empty.set 1 (.num 7), [.v 1], 0⟩, 10, w⟩

/-- `.member(X, [a|[Y, 3]])`, `Y ↦ 7`: three answers. -/
example : ∃ ans s', Drain (fun s s' => s' = s)
    (.start (.act .member (.lit ".member" [.var 0, .cons (.atom "a") (.tup [.var 1, .num 3])] [])) : Gen Act ActGen)
      (yState (World.init fun _ => 0)) ans s' ∧
    ans.map (fun a => a.b.scope 0) = [some (.atom "a"), some (.num 7), some (.num 3)] :=
  ⟨_, _, .next (n := 9) rfl rfl (.next (n := 9) rfl rfl (.next (n := 9) rfl rfl (.stop (n := 9) rfl))), rfl⟩

/-- The hypotheses of `C46_member` and `C46_member_total` can be met. -/
example : ∃ ans s', Drain (fun s s' => s' = s)
      (.start (.act .member (.lit ".member" [.var 0, .cons (.atom "a") (.tup [.var 1, .num 3])] [])) : Gen Act ActGen)
      (yState (World.init fun _ => 0)) ans s' ∧
    AllOf (fun y a => StandsFor 0 y (yState (World.init fun _ => 0)).b.scope a.b.scope) [.atom "a", .var 1, .num 3] ans := by
  obtain ⟨ans, s', h⟩ := C46_member_total (f := ".member") (as := []) (x := 0) (s := yState (World.init fun _ => 0))
    (L := .cons (.atom "a") (.tup [.var 1, .num 3])) (k := 1) rfl rfl (.cons (.tup [.var 1, .num 3])) (by
      intro y hy
      simp at hy
      rcases hy with rfl | rfl | rfl <;> exact .inr ⟨3, _, rfl⟩)
  exact ⟨ans, s', h, (C46_member (k := 1) rfl rfl (.cons (.tup [.var 1, .num 3])) (by rintro _ _ rfl; exact .refl _) h).1⟩

/-- `.range(Y, X)`, `Y ↦ 7`. -/
example : ∃ ans s', Drain (fun s s' => s' = s) (.start (.act .range (.lit ".range" [.var 1, .var 0] [])) : Gen Act ActGen)
      (yState (World.init fun _ => 0)) ans s' ∧ ans.length = 7 := by
  obtain ⟨ans, s', h⟩ := C46_range_total (f := ".range") (as := []) (x := 0) (s := yState (World.init fun _ => 0))
    (N := .var 1) (k := 3) (i := 7) rfl rfl
  refine ⟨ans, s', h, ?_⟩
  have := (C46_range (k := 3) (i := 7) rfl rfl (by rintro _ _ rfl; exact .refl _) h).1
  have len : ∀ {α β : Type} {P : α → β → Prop} {xs : List α} {ys : List β}, AllOf P xs ys → ys.length = xs.length := by
    intro α β P xs ys h
    induction h with
    | nil => rfl
    | cons _ _ ih => simp [ih]
  simpa using len this

/-- `.substring("aa", "aaab", X)`: occurrences may overlap. -/
example : ∃ ans s', Drain (fun s s' => s' = s)
      (.start (.act .substring (.lit ".substring" [.str "aa", .str "aaab", .var 0] [])) : Gen Act ActGen)
      (yState (World.init fun _ => 0)) ans s' ∧ ans.map (fun a => a.b.scope 0) = [some (.num 0), some (.num 1)] :=
  ⟨_, _, .next (n := 9) rfl rfl (.next (n := 9) rfl rfl (.stop (n := 9) rfl)), rfl⟩

/-- **C46 is false of the code** for lists whose tail is a variable: `evaluate` does not
look at the tail.  `.member(X, [1|T])` with `T ↦ [2]` yields once, then raises. -/
theorem C46_member_open_tail_raises : ∃ (s s₁ s₂ : QSt World) (g : Gen Act ActGen),
    s.b.scope 1 = some (.tup [.num 2]) ∧
    gnext 9 (.start (.act .member (.lit ".member" [.var 0, .cons (.num 1) (.var 1)] []))) s = .ok (some g) s₁ ∧
    s₁.b.scope 0 = some (.num 1) ∧ gnext 9 g s₁ = .err (.py "TypeError") s₂ :=
  ⟨⟨⟨Scope.empty.set 1 (.tup [.num 2]), [.v 1], 0⟩, 2, World.init fun _ => 0⟩, _, _, _, rfl, rfl, rfl, rfl⟩

/-- `r(X) :- X = 1 | X = 2.` -/
def twoRule : Rule Act := ⟨.lit "r" [.var 0] [], .or (.unify (.var 0) (.num 1)) (.unify (.var 0) (.num 2))⟩

theorem twoRule_orderly : Orderly (ruleWorld [twoRule]) where
  below := by intro a st hst; cases hst
  rules := by
    intro a grp r hr
    simp only [ruleWorld] at hr
    split at hr
    · simp at hr; subst hr; exact ⟨nofun, nofun⟩
    · simp at hr
  bels := by intro k b hb; cases hb

/-- `.findall(f(X, Y), r(X), L)` and `.count(r(X), N)` with `Y ↦ 7`. -/
example : ∃ s₁ s₂ g₁ g₂,
    gnext 30 (.start (.act .findall (.lit ".findall" [.lit "f" [.var 0, .var 1] [], .lit "r" [.var 0] [], .var 2] [])))
      (yState (ruleWorld [twoRule])) = .ok (some g₁) s₁ ∧
    s₁.b.scope 2 = some (.tup [.lit "f" [.num 1, .num 7] [], .lit "f" [.num 2, .num 7] []]) ∧ s₁.b.scope 0 = none ∧
    gnext 30 (.start (.act .count (.lit ".count" [.lit "r" [.var 0] [], .var 3] []))) s₁ = .ok (some g₂) s₂ ∧
    s₂.b.scope 3 = some (.num 2) :=
  ⟨_, _, _, _, rfl, rfl, rfl, rfl, rfl⟩

/-- **C47 is false of the code** if the pattern is not ground in some answer: all answers
are frozen with one memo, which is consulted before the bindings.  With the rules
`r(_) :- true.` and `r(1) :- true.`, the second answer of `r(X)` binds `X` to 1, but
`.findall(X, r(X), L)` binds `L` to a list of twice the same unbound variable. -/
theorem C47_findall_shares_memo : ∃ (s s' s₁ s₂ : QSt World) (g : Gen Act ActGen),
    Orderly s.w ∧
    Drain (fun s s' => s' = s) (.start (.term (.lit "r" [.var 0] [])) : Gen Act ActGen) s [s₁, s₂] s' ∧
    s₂.b.scope 0 = some (.num 1) ∧
    ∃ s'' v, gnext 30 (.start (.act .findall (.lit ".findall" [.var 0, .lit "r" [.var 0] [], .var 2] []))) s =
      .ok (some g) s'' ∧ s''.b.scope 2 = some (.tup [.var v, .var v]) ∧ s''.b.scope v = none := by
  refine ⟨yState (ruleWorld [⟨.lit "r" [.wild] [], .tru⟩, ⟨.lit "r" [.num 1] [], .tru⟩]), _, _, _, _, ?_,
    .next (n := 9) rfl rfl (.next (n := 9) rfl rfl (.stop (n := 9) rfl)), rfl, _, 10, rfl, rfl, rfl⟩
  constructor
  · intro a st hst; cases hst
  · intro a grp r hr
    simp only [yState, ruleWorld] at hr
    split at hr
    · simp at hr; rcases hr with rfl | rfl <;> trivial
    · simp at hr
  · intro k b hb; cases hb

/-- **C47 is false of the code** if a rule contains `literal = variable` (see C13): with
`r(X) :- a = X.` and `Y ↦ 7`, `.findall(X, r(X), L)` unbinds `Y`. -/
theorem C47_findall_rule_unbinds_all : ∃ (s s' : QSt World) (g : Gen Act ActGen),
    gnext 30 (.start (.act .findall (.lit ".findall" [.var 0, .lit "r" [.var 0] [], .var 2] []))) s = .ok (some g) s' ∧
    s.b.scope 1 = some (.num 7) ∧ s'.b.scope 1 = none :=
  ⟨yState (ruleWorld [⟨.lit "r" [.var 0] [], .unify (.atom "a") (.var 0)⟩]), _, _, rfl, rfl, rfl⟩

/-- `.sum(X, r(X), S)`, where `r(X)` has the answers 1 and 2: the hypotheses of `C71_total_partial` can be met. -/
example : ∃ ans s₁ k b', Drain (fun s s' => s' = s) (.start (.term (.lit "r" [.var 0] [])) : Gen Act ActGen)
      (yState (ruleWorld [twoRule])) ans s₁ ∧ ans.length = 2 ∧
    AllOf (fun a v => ∃ k, grounded k a.b.scope (.var 0) = .ok v) ans [.num 1, .num 2] ∧ AddsUp 0 [.num 1, .num 2] 3 ∧
    unify k (.num 3) (.var 2) s₁.b = .ok true b' ∧ b'.scope 2 = some (.num 3) :=
  ⟨_, _, 9, _, .next (n := 20) rfl rfl (.next (n := 20) rfl rfl (.stop (n := 20) rfl)), rfl, .cons ⟨9, rfl⟩ (.cons ⟨9, rfl⟩ .nil),
    .cons (t₁ := 1) (.num 1) (by with_unfolding_all rfl) (.cons (t₁ := 3) (.num 2) (by with_unfolding_all rfl) .nil), rfl, rfl⟩

/-- And the same with `.count(r(X), N)` and `.findall(X, r(X), L)`. -/
example : ∃ ans s₁ k b', Drain (fun s s' => s' = s) (.start (.term (.lit "r" [.var 0] [])) : Gen Act ActGen)
      { yState (ruleWorld [twoRule]) with b := (yState (ruleWorld [twoRule])).b.mark } ans s₁ ∧ ans.length = 2 ∧
    unify k (.num ans.length) (.var 2) { (yState (ruleWorld [twoRule])).b with ncp := s₁.b.ncp } = .ok true b' :=
  ⟨_, _, 9, _, .next (n := 20) rfl rfl (.next (n := 20) rfl rfl (.stop (n := 20) rfl)), rfl, rfl⟩

/-- **C71 is false of the code** for expressions: the pattern of `.sum(X + X, r(X), S)` is evaluated before the
query, when `X` has no value, and so the action raises, although the values of `X + X` are 2 and 4. -/
theorem C71_false : ∃ (s s' s'' s₁ s₂ : QSt World) (P : Term) (e : Err),
    Orderly s.w ∧ Drain (fun s s' => s' = s) (.start (.term (.lit "r" [.var 0] [])) : Gen Act ActGen) s [s₁, s₂] s' ∧
    grounded 9 s₁.b.scope P = .ok (.num 2) ∧ grounded 9 s₂.b.scope P = .ok (.num 4) ∧
    gnext 30 (.start (.act .sum (.lit ".sum" [P, .lit "r" [.var 0] [], .var 2] [])) : Gen Act ActGen) s = .err e s'' :=
  ⟨yState (ruleWorld [twoRule]), _, _, _, _, .bin .add (.var 0) (.var 0), _, twoRule_orderly,
    .next (n := 20) rfl rfl (.next (n := 20) rfl rfl (.stop (n := 20) rfl)), by with_unfolding_all rfl, by with_unfolding_all rfl, rfl⟩

end examples

end Verif
