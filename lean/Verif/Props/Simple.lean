import Verif.Lemmas.GroundErr
import Verif.Props.Effects
import Verif.Props.Output
import Verif.Props.Std
import Verif.Spec.Simple

/-!
# `.concat` (C75); `.my_name`, `.ground`, `.fail`, `.unbind_all` (C76)
-/

namespace Verif

/-! ## `is_ground` -/

theorem deref_unbound_back {sc : Scope} : ∀ (n : Nat) (t v : Term), deref n sc t = .ok v → Unbound sc v → Unbound sc t
  | 0, t, v, h, _ => by simp [deref] at h
  | n + 1, t, v, h, hv => by
    cases t with
    | var x =>
      rw [deref] at h
      cases hx : sc x with
      | none => exact .var hx
      | some u =>
        simp only [hx] at h
        exact .bound hx (deref_unbound_back n u v h hv)
    | _ => simp [deref] at h; subst h; exact hv

theorem allL_false_mem {α : Type} {f : α → Ev Bool} : ∀ {xs : List α}, Ev.allL f xs = .ok false → ∃ x ∈ xs, f x = .ok false
  | [], h => by simp [Ev.allL] at h
  | x :: xs, h => by
    rw [Ev.allL, Ev.bind_eq_ok] at h
    obtain ⟨b, h1, h⟩ := h
    cases b with
    | false => exact ⟨x, by simp, h1⟩
    | true =>
      simp at h
      obtain ⟨y, hy, h⟩ := allL_false_mem h
      exact ⟨y, by simp [hy], h⟩

theorem isGround_false {sc : Scope} : ∀ (n : Nat) (t : Term), isGround n sc t = .ok false → Unbound sc t
  | 0, _, h => by simp [isGround] at h
  | n + 1, t, h => by
    have ih := isGround_false (sc := sc) n
    rw [isGround.eq_def] at h
    cases t with
    | var x =>
      simp only at h
      cases hx : sc x with
      | none => exact .var hx
      | some u =>
        simp only [hx, Ev.bind_eq_ok] at h
        obtain ⟨v, h1, h⟩ := h
        exact deref_unbound_back n _ v h1 (ih v h)
    | wild => exact .wild
    | un o t => exact .un (ih _ h)
    | bin o l r =>
      simp only [Ev.bind_eq_ok] at h
      obtain ⟨b, h1, h⟩ := h
      cases b with
      | false => exact .left (ih _ h1)
      | true => exact .right (ih _ (by simpa using h))
    | lit f as xs =>
      simp only [Ev.bind_eq_ok] at h
      obtain ⟨b, h1, h⟩ := h
      cases b with
      | false =>
        obtain ⟨t, ht, h⟩ := allL_false_mem h1
        exact .arg ht (ih t h)
      | true =>
        obtain ⟨t, ht, h⟩ := allL_false_mem (by simpa using h)
        exact .annot ht (ih t h)
    | cons hd tl =>
      simp only [Ev.bind_eq_ok] at h
      obtain ⟨b, h1, h⟩ := h
      cases b with
      | false => exact .head (ih _ h1)
      | true => exact .tail (ih _ (by simpa using h))
    | tup xs =>
      obtain ⟨t, ht, h⟩ := allL_false_mem h
      exact .item ht (ih t h)
    | _ => cases h

section
variable [Host]

/-! ## `.concat` -/

omit [Host] in
theorem mapL_allOf {α β : Type} {f : α → Ev β} : ∀ {xs : List α} {ys : List β}, Ev.mapL f xs = .ok ys → AllOf (fun x y => f x = .ok y) xs ys
  | [], ys, h => by cases h; exact .nil
  | x :: xs, ys, h => by
    simp only [Ev.mapL, Ev.bind_eq_ok, Ev.map_eq_ok] at h
    obtain ⟨y, h1, ys', h2, rfl⟩ := h
    exact .cons h1 (mapL_allOf h2)

omit [Host] in
theorem join_joined : ∀ xs : List String, JoinedBy "" xs (String.join xs) := by
  intro xs
  have : ∀ xs : List String, "".intercalate xs = String.join xs := by
    intro xs
    induction xs with
    | nil => rfl
    | cons x xs ih =>
      cases xs with
      | nil => rw [String.intercalate_singleton]; simp [String.join]
      | cons y ys => rw [String.intercalate_cons_cons, ih]; simp
  rw [← this]
  exact joined_intercalate "" xs

theorem pyTexts_map : ∀ ts : List Term, PyTexts ts (ts.map fun | .str x => x | t => Host.pyStr t)
  | [] => .nil
  | .str _ :: ts => .str (pyTexts_map ts)
  | .bool _ :: ts | .num _ :: ts | .var _ :: ts | .wild :: ts | .un _ _ :: ts | .bin _ _ _ :: ts | .lit _ _ _ :: ts | .cons _ _ :: ts
  | .tup _ :: ts => .other nofun (pyTexts_map ts)

omit [Host] in
theorem all_tup : ∀ ts : List Term, ts.all (fun | .tup _ => true | _ => false) = true → ∃ xss : List (List Term), ts = xss.map .tup ∧
    ts.flatMap (fun | .tup xs => xs | _ => []) = xss.flatten
  | [], _ => ⟨[], rfl, rfl⟩
  | t :: ts, h => by
    rw [List.all_cons, Bool.and_eq_true] at h
    obtain ⟨xss, h1, h2⟩ := all_tup ts h.2
    cases t with
    | tup xs => exact ⟨xs :: xss, by rw [h1]; rfl, by rw [List.flatMap_cons, h2]; rfl⟩
    | _ => simp at h

variable {f : String} {args as : List Term} {n : Nat} {s s' : QSt World} {o : Option (Gen Act ActGen)}

omit [Host] in
theorem lastOf_ok {ts : List Term} {x : Term} (h : lastOf ts = .ok x) : ts = ts.dropLast ++ [x] := by
  unfold lastOf at h
  split at h
  · next y hy =>
    cases h
    obtain ⟨ys, rfl⟩ := List.getLast?_eq_some_iff.1 hy
    simp
  · cases h

theorem yields_unify {m : Nat} {x r : Term} {o : Option ActGen} (h : unifyThenYield m x r s = .ok o s') :
    ∃ ok, unify m x r s.b = .ok ok s'.b ∧ s' = { s with b := s'.b } ∧ o.isSome = ok := by
  unfold unifyThenYield at h
  obtain ⟨ok, s₁, h1, h⟩ := Res.bind_eq_ok.1 h
  obtain ⟨h2, h3⟩ := onB_ok h1
  cases h
  exact ⟨ok, h2, h3, by cases ok <;> rfl⟩

theorem yields_of_unify {m : Nat} {x r : Term} {ok : Bool} {b : BSt} (h : unify m x r s.b = .ok ok b) :
    unifyThenYield m x r s = .ok (if ok then some .fin else none) { s with b := b } := by
  simp [unifyThenYield, QSt.onB, h, Res.bind]

theorem concat_eq {m : Nat} {init vs : List Term} {x : Term} (h : Ev.mapL (grounded m s.b.scope) init = .ok vs) :
    ∃ r, Concat vs r ∧ concat m (.lit f (init ++ [x]) as) s = unifyThenYield m x r s := by
  unfold concat
  simp only [argList, List.dropLast_concat, h, Res.lift_ok, Res.bind_ok, lastOf, List.getLast?_concat]
  refine ⟨_, ?_, rfl⟩
  split
  · next hv =>
    obtain ⟨xss, e1, e2⟩ := all_tup vs hv
    have : Concat vs (.tup (vs.flatMap fun | .tup xs => xs | _ => [])) := by
      rw [e2, e1]
      exact .lists xss
    exact this
  · next hv =>
    rw [Bool.not_eq_true, List.all_eq_false] at hv
    obtain ⟨v, hv, hn⟩ := hv
    exact .texts hv (fun ys e => by rw [e] at hn; exact hn rfl) (pyTexts_map vs) (join_joined _)

/-- **C75, in part.** `.concat` evaluates all arguments but the last one, and unifies the last one with the
appended lists or the joined texts.  Nothing else is changed.

Missing (and false, see `C75_linked`): linked lists, i.e. `[a | [b]]`, are lists, too. -/
theorem C75_concat_partial (h : gnext n (.start (.act .concat (.lit f args as)) : Gen Act ActGen) s = .ok o s') :
    ∃ init x vs r k, args = init ++ [x] ∧ AllOf (fun t v => grounded k s.b.scope t = .ok v) init vs ∧ Concat vs r ∧
      unify k x r s.b = .ok o.isSome s'.b ∧ s' = { s with b := s'.b } := by
  replace h := act_start h
  obtain ⟨m, o', rfl, h⟩ := h
  have h' := h
  rw [actNext, concat] at h'
  obtain ⟨vs, h1, h'⟩ := Res.lift_bind_ok h'
  obtain ⟨x, h2, -⟩ := Res.lift_bind_ok h'
  simp only [argList] at h1 h2
  have e := lastOf_ok h2
  obtain ⟨r, h3, h4⟩ := concat_eq (f := f) (as := as) (x := x) h1
  rw [← e] at h4
  rw [actNext, h4] at h
  obtain ⟨ok, h5, h6, h7⟩ := yields_unify h
  exact ⟨args.dropLast, x, vs, r, m, e, mapL_allOf h1, h3, by rw [Option.isSome_map, h7]; exact h5, h6⟩

omit [Host] in
theorem JoinedBy.eq {sep : String} {xs : List String} {t t' : String} (h : JoinedBy sep xs t) (h' : JoinedBy sep xs t') : t = t' := by
  induction h generalizing t' with
  | nil => cases h'; rfl
  | one x => cases h'; rfl
  | cons _ ih => cases h' with | cons h' => rw [ih h']

theorem PyTexts.eq {ts : List Term} {xs xs' : List String} (h : PyTexts ts xs) (h' : PyTexts ts xs') : xs = xs' := by
  induction h generalizing xs' with
  | nil => cases h'; rfl
  | str _ ih =>
    cases h' with
    | str h' => rw [ih h']
    | other hn _ => exact absurd rfl (hn _)
  | other hn _ ih =>
    cases h' with
    | str h' => exact absurd rfl (hn _)
    | other _ h' => rw [ih h']

/-- There is one result. -/
theorem Concat.eq {vs : List Term} {r r' : Term} (h : Concat vs r) (h' : Concat vs r') : r = r' := by
  have inj : ∀ xss yss : List (List Term), xss.map Term.tup = yss.map Term.tup → xss = yss := fun xss yss e =>
    List.map_inj_right (fun _ _ e => by cases e; rfl) |>.1 e
  cases h with
  | lists xss =>
    generalize hv : xss.map Term.tup = vs at h'
    cases h' with
    | lists yss => rw [inj _ _ hv]
    | texts hm hn _ _ =>
      subst hv
      obtain ⟨xs, _, e⟩ := List.mem_map.1 hm
      exact absurd e.symm (hn xs)
  | texts hm hn ht hj =>
    cases h' with
    | lists yss =>
      obtain ⟨xs, _, e⟩ := List.mem_map.1 hm
      exact absurd e.symm (hn xs)
    | texts _ _ ht' hj' =>
      cases ht.eq ht'
      rw [hj.eq hj']

omit [Host] in
theorem allOf_mapL {α β : Type} {f : α → Ev β} {xs : List α} {ys : List β} (h : AllOf (fun x y => f x = .ok y) xs ys) : Ev.mapL f xs = .ok ys := by
  induction h with
  | nil => rfl
  | cons h _ ih => simp [Ev.mapL, h, ih]

/-- **C75, in part.** Conversely, if the arguments have values and the unification returns, so does `.concat`. -/
theorem C75_concat_total_partial {init vs : List Term} {x r : Term} {k : Nat} {ok : Bool} {b : BSt}
    (hg : AllOf (fun t v => ∃ k, grounded k s.b.scope t = .ok v) init vs) (hc : Concat vs r) (hu : unify k x r s.b = .ok ok b) :
    ∃ n o, gnext n (.start (.act .concat (.lit f (init ++ [x]) as)) : Gen Act ActGen) s = .ok o { s with b := b } ∧ o.isSome = ok := by
  obtain ⟨n, hn⟩ := hg.fuel
  have h1 := allOf_mapL (hn (n + k) (by omega))
  have h2 := unify_mono hu (Nat.le_add_left k n)
  obtain ⟨r', h3, h4⟩ := concat_eq (f := f) (x := x) (as := as) h1
  cases hc.eq h3
  refine ⟨n + k + 2, if ok then some (.act .fin) else none, by rw [gnext_act, actNext, h4, yields_of_unify h2]; cases ok <;> rfl, ?_⟩
  cases ok <;> rfl

/-! ## `.my_name`, `.ground`, `.fail`, `.unbind_all` -/

/-- **C76.** `.my_name` unifies its argument with the name of the running agent. -/
theorem C76_my_name {x : Term} (h : gnext n (.start (.act .myName (.lit f [x] as)) : Gen Act ActGen) s = .ok o s') :
    ∃ k, unify k x (.lit (s.w.ags s.w.cur).name [] []) s.b = .ok o.isSome s'.b ∧ s' = { s with b := s'.b } := by
  replace h := act_start h
  obtain ⟨m, o', rfl, h⟩ := h
  rw [actNext] at h
  obtain ⟨y, h2, h⟩ := Res.lift_bind_ok h
  cases h2
  obtain ⟨ok, h3, h4, h5⟩ := yields_unify h
  exact ⟨m, by rw [Option.isSome_map, h5]; exact h3, h4⟩

/-- **C76.** Conversely, if the unification returns, so does `.my_name`. -/
theorem C76_my_name_total {x : Term} {k : Nat} {ok : Bool} {b : BSt} (h : unify k x (.lit (s.w.ags s.w.cur).name [] []) s.b = .ok ok b) :
    ∃ n o, gnext n (.start (.act .myName (.lit f [x] as)) : Gen Act ActGen) s = .ok o { s with b := b } ∧ o.isSome = ok := by
  refine ⟨k + 2, if ok then some (.act .fin) else none, ?_, ?_⟩
  · rw [gnext_act, actNext]
    have : (Res.lift (argAt (.lit f [x] as) 0) s).bind (fun y s => unifyThenYield k y (.atom (s.w.ags s.w.cur).name) s) =
        unifyThenYield k x (.lit (s.w.ags s.w.cur).name [] []) s := rfl
    rw [this, yields_of_unify h]
    cases ok <;> rfl
  · cases ok <;> rfl

/-- **C76.** `.ground` succeeds exactly if there is no unbound variable in its argument, and changes nothing. -/
theorem C76_ground {x : Term} (h : gnext n (.start (.act .ground (.lit f [x] [])) : Gen Act ActGen) s = .ok o s') :
    s' = s ∧ (o.isSome ↔ ¬ Unbound s.b.scope x) := by
  replace h := act_start h
  obtain ⟨m, o', rfl, h⟩ := h
  rw [actNext] at h
  obtain ⟨ok, h2, h⟩ := Res.lift_bind_ok h
  cases h
  refine ⟨rfl, ?_⟩
  have hu : Unbound s.b.scope (.lit f [x] []) ↔ Unbound s.b.scope x := by
    constructor
    · intro h
      cases h with
      | arg hm h => cases List.mem_singleton.1 hm; exact h
      | annot hm h => cases hm
    · exact .arg (List.mem_singleton.2 rfl)
  rw [← hu]
  cases ok with
  | true => exact ⟨fun _ hu => isGround_unbound _ _ hu h2, fun _ => rfl⟩
  | false => exact ⟨fun h => by simp at h, fun hn => absurd (isGround_false _ _ h2) hn⟩

/-- **C76.** If the argument can be evaluated, `.ground` does not raise (`isGround` does not raise for any argument). -/
theorem C76_ground_total {x v : Term} {k : Nat} (h : grounded k s.b.scope x = .ok v) :
    ∃ n o, gnext n (.start (.act .ground (.lit f [x] [])) : Gen Act ActGen) s = .ok (some o) s := by
  obtain ⟨n, hn⟩ := (eval_grounded_isGround s.b.scope k).2 x v h
  refine ⟨n + 3, .act .fin, ?_⟩
  have : isGround (n + 1) s.b.scope (.lit f [x] []) = .ok true := by simp [isGround, Ev.allL, hn]
  rw [gnext_act, actNext, this]
  rfl

/-- **C76.** `.fail` fails and changes nothing. -/
theorem C76_fail {t : Term} (h : gnext n (.start (.act .fail t) : Gen Act ActGen) s = .ok o s') : o = none ∧ s' = s := by
  replace h := act_start h
  obtain ⟨m, o', rfl, h⟩ := h
  rw [actNext] at h
  cases h
  exact ⟨rfl, rfl⟩

/-- **C76.** `.unbind_all` succeeds; no variable of the intention is bound afterwards. -/
theorem C76_unbind_all {t : Term} (h : gnext n (.start (.act .unbindAll t) : Gen Act ActGen) s = .ok o s') :
    o.isSome ∧ (∀ x, s'.b.scope x = none) ∧ s'.w = s.w := by
  replace h := act_start h
  obtain ⟨m, o', rfl, h⟩ := h
  rw [actNext] at h
  cases h
  exact ⟨rfl, fun _ => rfl, rfl⟩

end

section examples
attribute [local instance] exactHost

/-- **C75 is false of the code.** `.concat([1 | [2]], [3], X)` gives a text. -/
theorem C75_linked : ∃ g s', gnext 9 (.start (.act .concat (.lit ".concat" [.cons (.num 1) (.tup [.num 2]), .tup [.num 3], .var 0] [])) : Gen Act ActGen)
    ⟨BSt.init, 1, World.init fun _ => 0⟩ = .ok (some g) s' ∧ ∃ t, s'.b.scope 0 = some (.str t) := ⟨_, _, rfl, _, rfl⟩

/-- C75: `X` is bound to `[1]`. -/
example : ∃ g s', gnext 9 (.start (.act .concat (.lit ".concat" [.var 0, .tup [.num 2, .var 0], .tup [], .var 1] [])) : Gen Act ActGen)
    ⟨⟨Scope.empty.set 0 (.tup [.num 1]), [.v 0], 0⟩, 2, World.init fun _ => 0⟩ = .ok (some g) s' ∧
      s'.b.scope 1 = some (.tup [.num 1, .num 2, .tup [.num 1]]) := ⟨_, _, rfl, rfl⟩
example : ∃ g s', gnext 9 (.start (.act .concat (.lit ".concat" [.str "a", .str "bc", .str "", .var 1] [])) : Gen Act ActGen)
    ⟨BSt.init, 2, World.init fun _ => 0⟩ = .ok (some g) s' ∧ s'.b.scope 1 = some (.str "abc") := 
  ⟨_, _, rfl, congrArg (fun t => some (Term.str t)) (by decide : String.join ["a", "bc", ""] = "abc")⟩

/-- C76. -/
example : ∃ g s', gnext 9 (.start (.act .myName (.lit ".my_name" [.var 1] [])) : Gen Act ActGen)
    ⟨BSt.init, 2, { World.init (fun _ => 0) with ags := fun _ => { name := "bob" } }⟩ = .ok (some g) s' ∧
      s'.b.scope 1 = some (.lit "bob" [] []) := ⟨_, _, rfl, rfl⟩
example : gnext 9 (.start (.act .ground (.lit ".ground" [.tup [.var 0, .var 1]] [])) : Gen Act ActGen)
      ⟨⟨Scope.empty.set 0 (.num 1), [.v 0], 0⟩, 2, World.init fun _ => 0⟩ = .ok none ⟨⟨Scope.empty.set 0 (.num 1), [.v 0], 0⟩, 2, World.init fun _ => 0⟩ ∧
    ∃ g, gnext 9 (.start (.act .ground (.lit ".ground" [.tup [.var 0, .var 0]] [])) : Gen Act ActGen)
      ⟨⟨Scope.empty.set 0 (.num 1), [.v 0], 0⟩, 2, World.init fun _ => 0⟩ = .ok (some g) ⟨⟨Scope.empty.set 0 (.num 1), [.v 0], 0⟩, 2, World.init fun _ => 0⟩ :=
  ⟨rfl, _, rfl⟩
example : ∀ s : QSt World, gnext 9 (.start (.act .fail (.lit ".fail" [] [])) : Gen Act ActGen) s = .ok none s := fun _ => rfl
example : ∃ g s', gnext 9 (.start (.act .unbindAll (.lit ".unbind_all" [] [])) : Gen Act ActGen)
    ⟨⟨Scope.empty.set 0 (.num 1), [.v 0], 0⟩, 2, World.init fun _ => 0⟩ = .ok (some g) s' := ⟨_, _, rfl⟩

end examples

end Verif
