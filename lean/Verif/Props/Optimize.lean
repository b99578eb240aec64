import Verif.Lemmas.Optimize
import Verif.Lemmas.Merge
import Verif.Props.Build

/-!
# C62, C63, C64: the optimiser
-/

namespace Verif

/-! ## C62: optimised agents -/

section
variable [Unicode] [Floats] [Arith]

/-- If an agent is built with the optimiser, it is the agent that is built without it. -/
theorem C62_same {acts : Lookup} {text : APlan → String} {files : List Char → Option (List Tok)} {n : Nat} {file : List Char}
    {ts : List Tok} {src : AgentSrc} {e : Nat} (h : makeOptimized acts text files n file ts = .ok src e) :
    makeSource acts text files n file ts = .ok src e := by
  rw [makeOptimized] at h
  obtain ⟨a, s, h1, h2⟩ := Res.bind_eq_ok.1 h
  rw [makeSource, h1, Res.bind_ok]
  cases a with
  | none => cases h2
  | some a =>
    obtain ⟨b, s', h3, h4⟩ := Res.bind_eq_ok.1 h2
    obtain ⟨rfl, rfl, -⟩ := optimizeAgent_same h3
    split at h4
    · rename_i h0; subst h0; exact h4
    · cases h4

/-- Building with the optimiser fails for every file with a plan: the traversal of the tree
reads an attribute that plans do not have. -/
theorem C62_plans {acts : Lookup} {text : APlan → String} {files : List Char → Option (List Tok)} {n : Nat} {file : List Char}
    {ts : List Tok} {a : AAgent} {e : Nat} (h : parseFile files n file ts = .ok (some a) e) (hp : a.plans ≠ []) :
    makeOptimized acts text files n file ts = .err (.py "AttributeError") e := by
  rw [makeOptimized, h, Res.bind_ok]
  simp only [optimizeAgent_missing e (.inl hp), Res.bind_err]

/-- And for every file with a list with a tail in a rule, belief or goal. -/
theorem C62_tails {acts : Lookup} {text : APlan → String} {files : List Char → Option (List Tok)} {n : Nat} {file : List Char}
    {ts : List Tok} {a : AAgent} {e : Nat} (h : parseFile files n file ts = .ok (some a) e) {x y : Ast} (hl : a.Facts (.linked x y)) :
    makeOptimized acts text files n file ts = .err (.py "AttributeError") e := by
  rw [makeOptimized, h, Res.bind_ok]
  simp only [optimizeAgent_missing e (.inr ⟨x, y, hl⟩), Res.bind_err]

/-- Other agents are built as without the optimiser, unless a marker for the optimiser is used
(whose arguments are checked). -/
theorem C62_partial {acts : Lookup} {text : APlan → String} {files : List Char → Option (List Tok)} {n : Nat} {file : List Char}
    {ts : List Tok} {a : AAgent} {e : Nat} (h : parseFile files n file ts = .ok (some a) e) (hp : a.plans = [])
    (hl : ∀ x y, ¬a.Facts (.linked x y)) (hm : ∀ x, a.Facts x → ¬x.isMarker) :
    makeOptimized acts text files n file ts = makeSource acts text files n file ts := by
  rw [makeOptimized, makeSource, h, Res.bind_ok, Res.bind_ok]
  simp only [optimizeAgent_plain e hp hl hm, Res.bind_ok]
  cases e <;> rfl

end

/-- The arguments of the markers: one string, or an affected set and an effect (more arguments are ignored). -/
theorem C62_markers {ts as : List Ast} {s s' : Nat} :
    (inspectAction (.lit ".inf_mark_nosidef".toList ts as) s = .ok () s' ↔ s' = s ∧ ∃ x, ts = [.const (.str x)]) ∧
    (inspectAction (.lit ".inf_side_effect".toList ts as) s = .ok () s' ↔
      s' = s ∧ ∃ x y us a e, ts = .const (.str x) :: .const (.str y) :: us ∧ affectNamed x = some (some a) ∧ effectNamed y = some e) := by
  constructor
  · rw [inspectAction, if_pos rfl]
    constructor
    · intro h
      unfold infMark at h
      split at h
      · cases h; exact ⟨rfl, _, rfl⟩
      · cases h
    · rintro ⟨rfl, x, rfl⟩; rfl
  · rw [inspectAction, if_neg (by decide), if_pos rfl]
    constructor
    · intro h
      unfold infSideEffect at h
      split at h
      · next h1 =>
        split at h
        · next a e ha he => cases h; exact ⟨rfl, _, _, _, a, e, rfl, ha, he⟩
        all_goals cases h
      · cases h
    · rintro ⟨rfl, x, y, us, a, e, rfl, ha, he⟩
      simp only [infSideEffect, ha, he]

/-- The names that `.inf_side_effect` accepts: three for what is affected, six for the effects, of which two mean the same. -/
theorem C62_names {x : List Nat} :
    ((∃ a, affectNamed x = some (some a)) ↔ x ∈ ["AFFECT_PARAM_ALL", "AFFECT_SCOPE", "AFFECT_UNIVERSE"].map fun s => s.toList.map Char.toNat) ∧
    (∀ e, effectNamed x = some e ↔ (x, e) ∈ [("EFFECT_CHANGE", 10), ("EFFECT_DOBIND", 12), ("EFFECT_BIND", 13), ("EFFECT_REQUIRE_BOUND", 13),
      ("EFFECT_UNBIND", 14), ("EFFECT_ALL", 15)].map fun p => (p.1.toList.map Char.toNat, p.2)) := by
  constructor
  · unfold affectNamed
    simp only [List.map_cons, List.map_nil, List.mem_cons, List.not_mem_nil, or_false]
    constructor
    · rintro ⟨a, h⟩
      split at h
      · next e => exact .inl e
      split at h
      · next e => exact .inr (.inl e)
      split at h
      · next e => exact .inr (.inr e)
      split at h <;> cases h
    · rintro (rfl | rfl | rfl) <;> exact ⟨_, rfl⟩
  · intro e
    unfold effectNamed
    simp only [List.map_cons, List.map_nil, List.mem_cons, List.not_mem_nil, or_false, Prod.mk.injEq]
    constructor
    · intro h
      split at h
      · next e => cases h; exact .inl ⟨e, rfl⟩
      split at h
      · next e => cases h; exact .inr (.inl ⟨e, rfl⟩)
      split at h
      · next e => cases h; exact .inr (.inr (.inl ⟨e, rfl⟩))
      split at h
      · next e => cases h; exact .inr (.inr (.inr (.inl ⟨e, rfl⟩)))
      split at h
      · next e => cases h; exact .inr (.inr (.inr (.inr (.inl ⟨e, rfl⟩))))
      split at h
      · next e => cases h; exact .inr (.inr (.inr (.inr (.inr ⟨e, rfl⟩))))
      cases h
    · rintro (⟨rfl, rfl⟩ | ⟨rfl, rfl⟩ | ⟨rfl, rfl⟩ | ⟨rfl, rfl⟩ | ⟨rfl, rfl⟩ | ⟨rfl, rfl⟩) <;> rfl

/-- `.inf_side_effect("AFFECT_SCOPE", "EFFECT_ALL")` -/
example : inspectAction (.lit ".inf_side_effect".toList
    [.const (.str ("AFFECT_SCOPE".toList.map Char.toNat)), .const (.str ("EFFECT_ALL".toList.map Char.toNat))] []) 0 = .ok () 0 :=
  C62_markers.2.2 ⟨rfl, _, _, [], _, _, rfl, (C62_names.1.2 (by decide)).choose_spec, (C62_names.2 15).2 (by decide)⟩

/-- `.inf_mark_nosidef("a")` and `.inf_mark_nosidef("a", "b")` -/
example : inspectAction (.lit ".inf_mark_nosidef".toList [.const (.str [97])] []) 0 = .ok () 0 ∧
    ∀ s, inspectAction (.lit ".inf_mark_nosidef".toList [.const (.str [97]), .const (.str [98])] []) 0 ≠ .ok () s := by
  refine ⟨C62_markers.1.2 ⟨rfl, _, rfl⟩, fun s h => ?_⟩
  obtain ⟨_, x, h⟩ := C62_markers.1.1 h
  cases h

/-! ## C63: merging -/

/-- Merging states whose known values are constants and literals: everything that is known
afterwards is true whenever what was known in one of the states is true.  (The two known values
of a variable must not have a truth value and a number at the same place, nor literals with
different numbers of arguments, see `C63_false`.)  Missing: variables that are known to be equal to
other variables, for which the property is false. -/
theorem C63_partial {S O : InfState} (hS : S.Terms) (hO : O.Terms) (hn : (O.status.map Prod.fst).Nodup)
    (hb : ∀ x v w, S.values.lookup x = some v → O.values.lookup x = some w → v.Fair w) :
    ∃ Z N, (∀ n, N ≤ n → S.merge n O = .ok Z) ∧ ∀ σ, S.Describes σ ∨ O.Describes σ → Z.Describes σ := by
  obtain ⟨Z, N, e, hv, h⟩ := merge_terms hS hO hn
  refine ⟨Z, N, e, fun σ hσ x => ?_⟩
  have hx : ((S.at x).Fits σ x (S.values.lookup x) ∨ (O.at x).Fits σ x (O.values.lookup x)) := hσ.imp (· x) (· x)
  have some_value : ∀ {v : Node}, v.Open → (∀ y k w, v ≠ .var y k w) → v.eval σ ≠ .nothing := by
    intro v h1 h2 h3
    cases v with
    | const c => cases h3
    | var y k w => exact h2 _ _ _ rfl
    | lit f ts as => cases h3
    | other => exact h1
  have hcS := fun hs : S.at x = .value => hS x (InfState.at_value hs)
  have hcO := fun hs : O.at x = .value => hO x (InfState.at_value hs)
  change (Z.at x).Fits σ x (Z.values.lookup x)
  rw [h x, hv]
  revert hx hcS hcO
  cases S.at x <;> cases O.at x <;> intro hx hcS hcO
  case value.value =>
    obtain ⟨c, hc, oc, nc⟩ := hcS rfl
    obtain ⟨d, hd, od, nd⟩ := hcO rfl
    have hbx := hb x c d hc hd
    obtain ⟨b, he⟩ := nodesEqual_open c d oc od
    rw [hc, hd] at hx ⊢
    have val : σ x = c.eval σ ∨ σ x = d.eval σ := by
      rcases hx with ⟨e, he, hs⟩ | ⟨e, he, hs⟩ <;> (cases he; rw [hs])
      · exact .inl rfl
      · exact .inr rfl
    simp only [sameValue, he, joinKnown]
    cases b with
    | true =>
      refine ⟨_, rfl, ?_⟩
      rw [nodesEqual_eval σ c d hbx he] at val ⊢
      exact val.elim id id
    | false =>
      intro hn
      rcases val with val | val <;> rw [val] at hn
      · exact some_value oc nc hn
      · exact some_value od nd hn
  case value.bound =>
    obtain ⟨c, hc, oc, nc⟩ := hcS rfl
    intro hn
    rcases hx with ⟨e, he, hs⟩ | hx
    · rw [hc] at he; cases he; rw [hs] at hn; exact some_value oc nc hn
    · exact hx hn
  case bound.value =>
    obtain ⟨c, hc, oc, nc⟩ := hcO rfl
    intro hn
    rcases hx with hx | ⟨e, he, hs⟩
    · exact hx hn
    · rw [hc] at he; cases he; rw [hs] at hn; exact some_value oc nc hn
  case bound.bound => exact hx.elim id id
  case unbound.unbound => exact hx.elim id id
  all_goals trivial

/-- What is known in both states is known after merging (unless there are annotations). -/
theorem C63_keeps {S O : InfState} (hS : S.Terms) (hO : O.Terms) (hn : (O.status.map Prod.fst).Nodup) :
    ∃ Z N, (∀ n, N ≤ n → S.merge n O = .ok Z) ∧ Z.values = S.values ∧
      (∀ x v, S.at x = .value → O.at x = .value → S.values.lookup x = some v → O.values.lookup x = some v → v.Bare → Z.at x = .value) ∧
      (∀ x, S.at x = .unbound → O.at x = .unbound → Z.at x = .unbound) ∧
      ∀ x, (S.at x = .bound ∨ S.at x = .value) → (O.at x = .bound ∨ O.at x = .value) → Z.at x = .bound ∨ Z.at x = .value := by
  obtain ⟨Z, N, e, hv, h⟩ := merge_terms hS hO hn
  refine ⟨Z, N, e, hv, fun x v h1 h2 h3 h4 h5 => ?_, fun x h1 h2 => by rw [h, h1, h2]; rfl, fun x h1 h2 => ?_⟩
  · rw [h, h1, h2, h3, h4]
    simp [sameValue, nodesEqual_self v h5, joinKnown]
  · rw [h]
    generalize sameValue _ _ = b
    rcases h1 with h1 | h1 <;> rcases h2 with h2 | h2 <;> rw [h1, h2] <;> cases b <;> simp [joinKnown]

/-! ## C64: declared effects -/

/-- The effects that the optimiser finds for a parameter are those that are declared for it. -/
theorem C64_find {e : Evilness} {arity i : Int} (hi : 0 ≤ i) {ef : Effect} :
    ef ∈ e.find (.nth i) arity ↔ ∃ af, (af, ef) ∈ e ∧ af.AboutParam arity i := by
  have key : ∀ af : Affect, affectContains af (.nth i) arity = true ↔ af.AboutParam arity i := by
    intro af
    have hi' : expandIndex arity i = i := if_pos hi
    have hx : ∀ j, expandIndex arity j = if j < 0 then arity + j else j := by
      intro j; unfold expandIndex; split <;> split <;> omega
    cases af with
    | param fr to =>
      unfold affectContains Affect.nth
      simp only [Affect.code, ge_iff_le, Nat.le_refl, if_true, hi', decide_eq_true_eq, Affect.AboutParam, hx fr, hx to]
      constructor
      · exact fun ⟨h1, _, h2⟩ => ⟨h1, h2⟩
      · exact fun ⟨h1, h2⟩ => ⟨h1, Int.le_refl _, h2⟩
    | any => simp [affectContains, Affect.nth, Affect.code, Affect.AboutParam]
    | paramAny => simp [affectContains, Affect.nth, Affect.code, Affect.AboutParam]
    | paramAll => simp [affectContains, Affect.nth, Affect.code, Affect.AboutParam]
    | scope => simp [affectContains, Affect.nth, Affect.code, Affect.AboutParam]
    | everything => simp [affectContains, Affect.nth, Affect.code, Affect.AboutParam]
  unfold Evilness.find
  constructor
  · intro h
    obtain ⟨⟨af, ef'⟩, hp, rfl⟩ := List.mem_map.1 h
    obtain ⟨h1, h2⟩ := List.mem_filter.1 hp
    exact ⟨af, h1, (key af).1 h2⟩
  · rintro ⟨af, h1, h2⟩
    exact List.mem_map.2 ⟨(af, ef), List.mem_filter.2 ⟨h1, (key af).2 h2⟩, rfl⟩

/-- Asking for an effect is the same as looking for it. -/
theorem C64_query {e : Evilness} {af : Affect} {arity : Int} {ef : Effect} : e.query af ef arity = true ↔ ef ∈ e.find af arity := by
  unfold Evilness.query Evilness.find
  simp only [List.any_eq_true, Bool.and_eq_true, beq_iff_eq, List.mem_map, List.mem_filter]
  constructor
  · rintro ⟨p, h1, h2, h3⟩; exact ⟨p, ⟨h1, h2⟩, h3⟩
  · rintro ⟨p, ⟨h1, h2⟩, h3⟩; exact ⟨p, h1, h2, h3⟩

/-- Asked about a parameter, the optimiser finds an effect if it is declared for the parameter. -/
theorem C64_query_param {e : Evilness} {arity i : Int} (hi : 0 ≤ i) {ef : Effect} :
    e.query (.nth i) ef arity = true ↔ ∃ af, (af, ef) ∈ e ∧ af.AboutParam arity i := C64_query.trans (C64_find hi)

/-- The usual declarations: rules and actions without effects on the scope may bind each of their parameters, `.wait` needs
bound parameters; nothing is said about the scope. -/
theorem C64_usual {arity i : Int} {ef : Effect} :
    (Evilness.ruleLike.query (.nth i) ef arity = true ↔ ef = .bind) ∧ (Evilness.noScopeEffects.query (.nth i) ef arity = true ↔ ef = .bind) ∧
    (Evilness.allBound.query (.nth i) ef arity = true ↔ ef = .requireBound) ∧
    Evilness.ruleLike.query .scope ef arity = false ∧ Evilness.noScopeEffects.query .scope ef arity = false ∧
    Evilness.allBound.query .scope ef arity = false := by
  refine ⟨?_, ?_, ?_, rfl, rfl, rfl⟩
  all_goals
    simp only [Evilness.query, Evilness.ruleLike, Evilness.noScopeEffects, Evilness.allBound, List.any_cons, List.any_nil, Bool.or_false,
      affectContains, Affect.nth, Affect.code, Bool.and_eq_true, beq_iff_eq]
    exact ⟨fun h => h.2.symm, fun h => ⟨rfl, h.symm⟩⟩

/-- Asked about the scope, it finds an effect if it is declared for the scope or for everything; declarations about parameters do
not count. -/
theorem C64_query_scope {e : Evilness} {arity : Int} {ef : Effect} :
    e.query .scope ef arity = true ↔ (.scope, ef) ∈ e ∨ (.everything, ef) ∈ e := by
  unfold Evilness.query
  simp only [List.any_eq_true, Bool.and_eq_true, beq_iff_eq]
  constructor
  · rintro ⟨⟨af, ef'⟩, h1, h2, rfl⟩
    cases af with
    | scope => exact .inl h1
    | everything => exact .inr h1
    | _ => simp [affectContains, Affect.code] at h2
  · rintro (h | h)
    · exact ⟨_, h, by simp [affectContains, Affect.code], rfl⟩
    · exact ⟨_, h, by simp [affectContains, Affect.code], rfl⟩

example : Evilness.query [(.param 0 (-1), 13), (.scope, 12)] (.nth 1) 13 2 = true ∧
    Evilness.query [(.param 0 (-1), 13), (.scope, 12)] .scope 13 2 = false ∧
    Evilness.query [(.param 0 (-1), 13), (.scope, 12)] .scope 12 2 = true := by decide

/-- What is known about a variable after an effect is true if the action does what the effect
allows.  (If the value is known, it is a constant here: other variables that the value may
depend on can change, too.) -/
theorem C64_sound {ef : Effect} {k k' : VarInfo} (h : applyEvilness ef k = .ok k') {σ σ' : List Char → RunVal} {x : List Char} {v : Option Node}
    (hv : k = .value → ∃ c, v = some (.const c)) (hk : k.Fits σ x v) (hef : ef.Allows (σ x) (σ' x)) : k'.Fits σ' x v := by
  have not_all : ef ≠ .all := by
    rintro rfl
    cases k <;> cases h
  have hc : k = .value → σ x ≠ .nothing := by
    rintro rfl hn
    obtain ⟨c, hc⟩ := hv rfl
    obtain ⟨e, he, hs⟩ := hk
    rw [hc] at he; cases he
    rw [hs] at hn; cases hn
  -- a known constant stays known if the value stays
  have keep : k = .value → σ' x = σ x → VarInfo.value.Fits σ' x v := by
    rintro rfl he
    obtain ⟨c, hc⟩ := hv rfl
    obtain ⟨e, he', hs⟩ := hk
    rw [hc] at he'; cases he'
    exact ⟨_, hc, by rw [he, hs]; rfl⟩
  rcases hef with ⟨rfl, h1⟩ | ⟨rfl, h1, h2⟩ | ⟨rfl, h1⟩ | ⟨rfl, h1, h2⟩ | ⟨rfl, h1, h2⟩ | rfl
  · cases k <;> cases h
    · trivial
    · exact h1.1 hk
    · exact fun hn => hk (h1.2 hn)
    · exact fun hn => hc rfl (h1.2 hn)
  · cases k <;> cases h
    · intro hn
      by_cases h0 : σ x = .nothing
      · exact h1 h0 hn
      · rw [h2 h0] at hn; exact h0 hn
    · exact h1 hk
    · intro hn; rw [h2 hk] at hn; exact hk hn
    · exact keep rfl (h2 (hc rfl))
  · cases k <;> cases h
    · trivial
    · trivial
    · intro hn; rw [h1 hk] at hn; exact hk hn
    · exact keep rfl (h1 (hc rfl))
  · cases k <;> cases h
    · trivial
    · trivial
    · intro hn; rw [h2] at hn; exact hk hn
    · exact keep rfl h2
  · cases k <;> cases h
    · trivial
    · exact h1 hk
    · trivial
    · trivial
  · exact absurd rfl not_all

/-- What is declared to be bound for certain is known to be bound (or its value is known). -/
theorem C64_partial (k : VarInfo) : applyEvilness .doBind k = .ok .bound ∨ (k = .value ∧ applyEvilness .doBind k = .ok .value) := by
  cases k
  · exact .inl rfl
  · exact .inl rfl
  · exact .inl rfl
  · exact .inr ⟨rfl, rfl⟩

/-- The indices of declarations are accepted if and only if there are such parameters. -/
theorem C64_indices {e : Evilness} {arity : Int} (ha : 0 ≤ arity) :
    e.arityOk arity = true ↔ ∀ fr to ef, (.param fr to, ef) ∈ e →
      (∃ i, (Affect.param fr to).AboutParam arity i) ∧ ∀ i, (Affect.param fr to).AboutParam arity i → 0 ≤ i ∧ i < arity := by
  have hx : ∀ j, expandIndex arity j = if j < 0 then arity + j else j := by
    intro j; unfold expandIndex; split <;> split <;> omega
  have hne : arity ≠ -1 := by omega
  have key : ∀ fr to, (decide (arity = -1) || decide (0 ≤ expandIndex arity fr ∧ expandIndex arity fr ≤ expandIndex arity to ∧ expandIndex arity to < arity)) = true ↔
      (∃ i, (Affect.param fr to).AboutParam arity i) ∧ ∀ i, (Affect.param fr to).AboutParam arity i → 0 ≤ i ∧ i < arity := by
    intro fr to
    rw [decide_eq_false hne, Bool.false_or, decide_eq_true_eq, hx, hx]
    simp only [Affect.AboutParam]
    generalize (if fr < 0 then arity + fr else fr) = a
    generalize (if to < 0 then arity + to else to) = b
    constructor
    · rintro ⟨h1, h2, h3⟩
      exact ⟨⟨a, by omega, h2⟩, fun i hi => by omega⟩
    · rintro ⟨⟨i, h1, h2⟩, h3⟩
      have := h3 a ⟨by omega, by omega⟩
      have := h3 b ⟨by omega, by omega⟩
      omega
  unfold Evilness.arityOk
  rw [List.all_eq_true]
  constructor
  · intro h fr to ef hm
    exact (key fr to).1 (h _ hm)
  · rintro h ⟨af, ef⟩ hm
    cases af with
    | param fr to => exact (key fr to).2 (h fr to ef hm)
    | _ => rfl

/-- What is registered: the table has the declared effects of every action (the last one, if there
are several with the same name and arity), and those of functions for actions without a declaration.
For unknown actions everything is possible. -/
theorem C64_registered {is : List ActionInfo} {s s' : Nat} {t : ActionTable} (h : registerActions is [] s = .ok t s') (f : List Char) (n : Nat) :
    t.get f n = match is.reverse.find? (fun i => decide (i.name = f ∧ i.arity = (n : Int))) with
      | some i => i.evilness.getD .functionLike
      | none => match is.reverse.find? (fun i => decide (i.name = f ∧ i.arity = -1)) with
        | some i => i.evilness.getD .functionLike
        | none => [(.everything, .all)] := by
  have key : ∀ (is : List ActionInfo) (t₀ t : ActionTable) (s s' : Nat), registerActions is t₀ s = .ok t s' → ∀ k : Int, t.lookup (f, k) =
      match is.reverse.find? (fun i => decide (i.name = f ∧ i.arity = k)) with
      | some i => some (i.evilness.getD .functionLike)
      | none => t₀.lookup (f, k) := by
    intro is
    induction is with
    | nil => intro t₀ t s s' h k; cases h; rfl
    | cons i is ih =>
      intro t₀ t s s' h k
      rw [registerActions] at h
      split at h
      · rw [ih _ _ _ _ h k, List.reverse_cons, List.find?_append]
        cases hf : is.reverse.find? (fun i => decide (i.name = f ∧ i.arity = k)) with
        | some j => rfl
        | none =>
          rw [Option.none_or]
          by_cases hi : i.name = f ∧ i.arity = k
          · obtain ⟨rfl, rfl⟩ := hi
            simp
          · have hb : ((f, k) == (i.name, i.arity)) = false := by
              apply beq_false_of_ne
              intro he
              cases he
              exact hi ⟨rfl, rfl⟩
            simp [hi, List.lookup_cons, hb]
      · cases h
  unfold ActionTable.get
  rw [key is [] t s s' h n, key is [] t s s' h (-1)]
  cases is.reverse.find? (fun i => decide (i.name = f ∧ i.arity = (n : Int))) with
  | some i => rfl
  | none =>
    cases is.reverse.find? (fun i => decide (i.name = f ∧ i.arity = -1)) with
    | some i => rfl
    | none => rfl

/-- It is not true that a parameter that must be bound is known to be bound after the action:
the effect has the same number as that for parameters that may be bound. -/
theorem C64_false : applyEvilness .requireBound .unbound = .ok .unproven ∧ applyEvilness .requireBound .unproven = .ok .unproven ∧
    ∀ v w, Effect.requireBound.Allows v w ↔ Effect.bind.Allows v w :=
  ⟨rfl, rfl, fun _ _ => Iff.rfl⟩

/-! ## Examples and counterexamples -/

section examples
attribute [local instance] asciiText toyFloats exactArith

private def lexed (s : String) : List Tok := ((tokenize 1 [s.toList]).map fun evs => toksOf (evs.map Prod.snd)).getD []

/-- No files to include. -/
private def noFiles : List Char → Option (List Tok) := fun _ => none

/-- The only action is `.print`. -/
private def printOnly : Lookup := fun f _ => if f = ".print" then some .print else none

private def noText : APlan → String := fun _ => ""

/-- `+!g <- .print(1).` -/
private def toksO : List Tok :=
  [⟨['+'], .opPlus, 0, 1⟩, ⟨['!'], .exclam, 1, 2⟩, ⟨['g'], .functor, 2, 3⟩, ⟨['<', '-'], .arrow, 4, 6⟩,
   ⟨['.', 'p', 'r', 'i', 'n', 't'], .functor, 7, 13⟩, ⟨['('], .parenOpen, 13, 14⟩, ⟨['1'], .numeric, 14, 15⟩,
   ⟨[')'], .parenClose, 15, 16⟩, ⟨['.'], .fullstop, 16, 17⟩]
example : lexed "+!g <- .print(1)." = toksO := by rfl

/-- `q :- p([X|[]]).` -/
private def toksW : List Tok :=
  [⟨['q'], .functor, 0, 1⟩, ⟨[':', '-'], .define, 2, 4⟩, ⟨['p'], .functor, 5, 6⟩, ⟨['('], .parenOpen, 6, 7⟩,
   ⟨['['], .bracketOpen, 7, 8⟩, ⟨['X'], .var, 8, 9⟩, ⟨['|'], .opOr, 9, 10⟩, ⟨['['], .bracketOpen, 10, 11⟩,
   ⟨[']'], .bracketClose, 11, 12⟩, ⟨[']'], .bracketClose, 12, 13⟩, ⟨[')'], .parenClose, 13, 14⟩, ⟨['.'], .fullstop, 14, 15⟩]
example : lexed "q :- p([X|[]])." = toksW := by rfl

/-- `q :- .inf_side_effect("a", "b").` -/
private def toksX : List Tok :=
  [⟨['q'], .functor, 0, 1⟩, ⟨[':', '-'], .define, 2, 4⟩,
   ⟨['.', 'i', 'n', 'f', '_', 's', 'i', 'd', 'e', '_', 'e', 'f', 'f', 'e', 'c', 't'], .functor, 5, 21⟩, ⟨['('], .parenOpen, 21, 22⟩,
   ⟨['\"', 'a', '\"'], .string, 22, 25⟩, ⟨[','], .comma, 25, 26⟩, ⟨['\"', 'b', '\"'], .string, 27, 30⟩, ⟨[')'], .parenClose, 30, 31⟩,
   ⟨['.'], .fullstop, 31, 32⟩]
example : lexed "q :- .inf_side_effect(\"a\", \"b\")." = toksX := by rfl

/-- It is not true that every agent that can be built can be built with the optimiser: a plan, a
list with a tail, and a marker with arguments that make no sense (but is an action like any
other without the optimiser). -/
theorem C62_false :
    ((∃ src, makeSource printOnly noText noFiles 60 ['a'] toksO = .ok src 0) ∧
      makeOptimized printOnly noText noFiles 60 ['a'] toksO = .err (.py "AttributeError") 0) ∧
    ((∃ src, makeSource printOnly noText noFiles 60 ['a'] toksW = .ok src 0) ∧
      makeOptimized printOnly noText noFiles 60 ['a'] toksW = .err (.py "AttributeError") 0) ∧
    ((∃ src, makeSource (fun _ _ => some .print) noText noFiles 60 ['a'] toksX = .ok src 0) ∧
      makeOptimized (fun _ _ => some .print) noText noFiles 60 ['a'] toksX = .err (.asl "errors") 1) :=
  ⟨⟨⟨_, by with_unfolding_all rfl⟩, by with_unfolding_all rfl⟩, ⟨⟨_, by with_unfolding_all rfl⟩, by with_unfolding_all rfl⟩,
    ⟨⟨_, by with_unfolding_all rfl⟩, by with_unfolding_all rfl⟩⟩

/-- `C62_plans` and `C62_tails` apply to these files, with any actions. -/
example (acts : Lookup) : makeOptimized acts noText noFiles 60 ['a'] toksO = .err (.py "AttributeError") 0 ∧
    makeOptimized acts noText noFiles 60 ['a'] toksW = .err (.py "AttributeError") 0 := by
  constructor
  · obtain ⟨a, h, hp⟩ : ∃ a, parseFile noFiles 60 ['a'] toksO = .ok (some a) 0 ∧ a.plans ≠ [] :=
      ⟨_, by with_unfolding_all rfl, fun h => by cases h⟩
    exact C62_plans h hp
  · obtain ⟨a, h, x, y, hl⟩ : ∃ a, parseFile noFiles 60 ['a'] toksW = .ok (some a) 0 ∧ ∃ x y, a.Facts (.linked x y) :=
      ⟨{ rules := [⟨.lit ['q'] [] [], .lit ['p'] [.linked (.var ['X']) (.list [])] []⟩] }, by with_unfolding_all rfl, _, _,
        .rule (.head _) (.term (.head _) .self)⟩
    exact C62_tails h hl

/-- `p(1). q(X) :- p(X) & .atom(X). !g.` -/
private def toksV : List Tok :=
  [⟨['p'], .functor, 0, 1⟩, ⟨['('], .parenOpen, 1, 2⟩, ⟨['1'], .numeric, 2, 3⟩, ⟨[')'], .parenClose, 3, 4⟩,
   ⟨['.'], .fullstop, 4, 5⟩, ⟨['q'], .functor, 6, 7⟩, ⟨['('], .parenOpen, 7, 8⟩, ⟨['X'], .var, 8, 9⟩,
   ⟨[')'], .parenClose, 9, 10⟩, ⟨[':', '-'], .define, 11, 13⟩, ⟨['p'], .functor, 14, 15⟩, ⟨['('], .parenOpen, 15, 16⟩,
   ⟨['X'], .var, 16, 17⟩, ⟨[')'], .parenClose, 17, 18⟩, ⟨['&'], .opAnd, 19, 20⟩,
   ⟨['.', 'a', 't', 'o', 'm'], .functor, 21, 26⟩, ⟨['('], .parenOpen, 26, 27⟩, ⟨['X'], .var, 27, 28⟩,
   ⟨[')'], .parenClose, 28, 29⟩, ⟨['.'], .fullstop, 29, 30⟩, ⟨['!'], .exclam, 31, 32⟩, ⟨['g'], .functor, 32, 33⟩,
   ⟨['.'], .fullstop, 33, 34⟩]
example : lexed "p(1). q(X) :- p(X) & .atom(X). !g." = toksV := by rfl

private def factsV : AAgent where
  rules := [⟨.lit ['q'] [.var ['X']] [], .bin .and (.lit ['p'] [.var ['X']] []) (.lit ['.', 'a', 't', 'o', 'm'] [.var ['X']] [])⟩]
  beliefs := [.lit ['p'] [.const (.num (.fin 1))] []]
  goals := [.lit ['g'] [] []]

private theorem parseV : parseFile noFiles 60 ['a'] toksV = .ok (some factsV) 0 := by with_unfolding_all rfl

private theorem insideVar {b : Ast} {x : List Char} (h : b.Inside (.var x)) : b = .var x := by cases h; rfl

private theorem insideOne {b : Ast} {f : List Char} {t : Ast} (h : b.Inside (.lit f [t] [])) : b = .lit f [t] [] ∨ b.Inside t := by
  cases h with
  | self => exact .inl rfl
  | term ht hi =>
    cases ht with
    | head => exact .inr hi
    | tail _ ht => cases ht
  | annotation ht => cases ht

/-- The nodes of the tree. -/
private theorem nodesV {b : Ast} (h : factsV.Facts b) :
    b ∈ [.lit ['q'] [.var ['X']] [], .var ['X'], .bin .and (.lit ['p'] [.var ['X']] []) (.lit ['.', 'a', 't', 'o', 'm'] [.var ['X']] []),
      .lit ['p'] [.var ['X']] [], .lit ['.', 'a', 't', 'o', 'm'] [.var ['X']] [], .lit ['p'] [.const (.num (.fin 1))] [],
      .const (.num (.fin 1)), .lit ['g'] [] []] := by
  cases h with
  | ruleHead hr hi =>
    cases hr with
    | tail _ hr => cases hr
    | head =>
      rcases insideOne hi with rfl | hi
      · simp
      · rw [insideVar hi]; simp
  | rule hr hi =>
    cases hr with
    | tail _ hr => cases hr
    | head =>
      cases hi with
      | self => simp
      | left hi =>
        rcases insideOne hi with rfl | hi
        · simp
        · rw [insideVar hi]; simp
      | right hi =>
        rcases insideOne hi with rfl | hi
        · simp
        · rw [insideVar hi]; simp
  | belief ht hi =>
    cases ht with
    | tail _ ht => cases ht
    | head =>
      rcases insideOne hi with rfl | hi
      · simp
      · cases hi; simp
  | goal ht hi =>
    cases ht with
    | tail _ ht => cases ht
    | head =>
      cases hi with
      | self => simp
      | term ht => cases ht
      | annotation ht => cases ht

/-- `C62_partial` applies to a file with a belief, a rule and a goal, and the agent is built. -/
example : makeOptimized (fun _ _ => some .print) noText noFiles 60 ['a'] toksV = makeSource (fun _ _ => some .print) noText noFiles 60 ['a'] toksV ∧
    ∃ src, makeSource (fun _ _ => some .print) noText noFiles 60 ['a'] toksV = .ok src 0 := by
  refine ⟨C62_partial parseV rfl (fun x y h => ?_) (fun x h => ?_), ⟨_, by with_unfolding_all rfl⟩⟩
  · have := nodesV h
    simp at this
  · have := nodesV h
    simp only [List.mem_cons, List.not_mem_nil, or_false] at this
    rcases this with rfl | rfl | rfl | rfl | rfl | rfl | rfl | rfl <;> simp [Ast.isMarker]

end examples

private def varX : List Char := ['X']
private def varY : List Char := ['Y']
private def number (q : Rat) : ConstV := .num (.fin q)

/-- It is not true that what is known after merging is true in both states.

* `X = f(1)` and `X = f(1, 2)`: the literals are considered equal, since `zip` ignores what is
  missing in the shorter list.
* `X = Y` without values, and `X = 1`: afterwards `X` is believed to be bound.
* `X = Y; Y = 1` and `X = 1; Y = 2`: afterwards `X` is believed to have the same value as `Y`.
* `X = true` and `X = 1`: the constants are equal in Python. -/
theorem C63_false :
    (∃ (S O Z : InfState) (σ : List Char → RunVal), S.merge 9 O = .ok Z ∧ S.status = [(varX, .value)] ∧ S.values = [(varX, .lit ['f'] [.const (number 1)] [])] ∧
      O.Describes σ ∧ ¬Z.Describes σ) ∧
    (∃ (S O Z : InfState) (σ : List Char → RunVal), S.merge 9 O = .ok Z ∧ S.status = [(varX, .value), (varY, .unbound)] ∧ S.Describes σ ∧ ¬Z.Describes σ) ∧
    (∃ (S O Z : InfState) (σ : List Char → RunVal), S.merge 9 O = .ok Z ∧ S.status = [(varX, .value), (varY, .value)] ∧ O.Describes σ ∧ ¬Z.Describes σ) ∧
    (∃ (S O Z : InfState) (σ : List Char → RunVal), S.merge 9 O = .ok Z ∧ S.Terms ∧ O.Terms ∧ O.Describes σ ∧ ¬Z.Describes σ) := by
  have describe : ∀ (S : InfState) (σ : List Char → RunVal), (∀ x, x ≠ varX → x ≠ varY → S.status.lookup x = none ∧ σ x = .nothing) →
      (S.at varX).Fits σ varX (S.values.lookup varX) → (S.at varY).Fits σ varY (S.values.lookup varY) → S.Describes σ := by
    intro S σ h hx hy x
    by_cases h1 : x = varX
    · subst h1; exact hx
    · by_cases h2 : x = varY
      · subst h2; exact hy
      · obtain ⟨h3, h4⟩ := h x h1 h2
        rw [h3]; exact h4
  have none2 : ∀ {α : Type} {x : List Char} (a b : α), x ≠ varX → x ≠ varY → [(varX, a), (varY, b)].lookup x = none := by
    intro α x a b h1 h2
    rw [lookup_ne h1, lookup_ne h2]; rfl
  have none1 : ∀ {α : Type} {x : List Char} (a : α), x ≠ varX → [(varX, a)].lookup x = none := by
    intro α x a h1
    rw [lookup_ne h1]; rfl
  refine ⟨?_, ?_, ?_, ?_⟩
  · refine ⟨⟨[(varX, .value)], [(varX, .lit ['f'] [.const (number 1)] [])]⟩,
      ⟨[(varX, .value)], [(varX, .lit ['f'] [.const (number 1), .const (number 2)] [])]⟩,
      ⟨[(varX, .value)], [(varX, .lit ['f'] [.const (number 1)] [])]⟩,
      fun x => if x = varX then .lit ['f'] [.const (number 1), .const (number 2)] [] else .nothing, by with_unfolding_all rfl, rfl, rfl, ?_, ?_⟩
    · exact describe _ _ (fun x h1 _ => ⟨none1 _ h1, if_neg h1⟩) ⟨_, rfl, rfl⟩ rfl
    · intro h
      obtain ⟨e, he, hs⟩ := h varX
      cases he
      simp [Node.eval, Node.evalL, varX] at hs
  · refine ⟨⟨[(varX, .value), (varY, .unbound)], [(varX, .var varY .unbound none)]⟩,
      ⟨[(varX, .value), (varY, .unbound)], [(varX, .const (number 1))]⟩,
      ⟨[(varX, .bound), (varY, .unbound)], [(varX, .var varY .unbound none)]⟩,
      fun _ => .nothing, by with_unfolding_all rfl, rfl, ?_, ?_⟩
    · exact describe _ _ (fun x h1 h2 => ⟨none2 _ _ h1 h2, rfl⟩) ⟨_, rfl, rfl⟩ rfl
    · exact fun h => h varX rfl
  · refine ⟨⟨[(varX, .value), (varY, .value)], [(varX, .var varY .unbound none), (varY, .const (number 1))]⟩,
      ⟨[(varX, .value), (varY, .value)], [(varX, .const (number 1)), (varY, .const (number 2))]⟩,
      ⟨[(varX, .value), (varY, .bound)], [(varX, .var varY .unbound none), (varY, .const (number 1))]⟩,
      fun x => if x = varX then .const (number 1) else if x = varY then .const (number 2) else .nothing, by with_unfolding_all rfl, rfl, ?_, ?_⟩
    · exact describe _ _ (fun x h1 h2 => ⟨none2 _ _ h1 h2, by rw [if_neg h1, if_neg h2]⟩) ⟨_, rfl, rfl⟩ ⟨_, rfl, rfl⟩
    · intro h
      obtain ⟨e, he, hs⟩ := h varX
      cases he
      simp [Node.eval, varX, varY, number] at hs
  · refine ⟨⟨[(varX, .value)], [(varX, .const (.bool true))]⟩, ⟨[(varX, .value)], [(varX, .const (number 1))]⟩,
      ⟨[(varX, .value)], [(varX, .const (.bool true))]⟩, fun x => if x = varX then .const (number 1) else .nothing, by with_unfolding_all rfl,
      fun x hx => ?_, fun x hx => ?_, ?_, ?_⟩
    · by_cases h : x = varX
      · subst h; exact ⟨_, rfl, trivial, nofun⟩
      · rw [none1 _ h] at hx; cases hx
    · by_cases h : x = varX
      · subst h; exact ⟨_, rfl, trivial, nofun⟩
      · rw [none1 _ h] at hx; cases hx
    · exact describe _ _ (fun x h1 _ => ⟨none1 _ h1, if_neg h1⟩) ⟨_, rfl, rfl⟩ rfl
    · intro h
      obtain ⟨e, he, hs⟩ := h varX
      cases he
      simp [Node.eval, varX, number] at hs

private theorem termsOf {S : InfState} (h : ∀ p ∈ S.status, p.2 = .value → ∃ v, S.values.lookup p.1 = some v ∧ v.Open ∧ ∀ y k w, v ≠ .var y k w) :
    S.Terms := by
  intro x hx
  have : ∀ d : List (List Char × VarInfo), d.lookup x = some .value → ∃ p ∈ d, p.1 = x ∧ p.2 = .value := by
    intro d
    induction d with
    | nil => intro h; cases h
    | cons p d ih =>
      intro h
      by_cases hp : x = p.1
      · subst hp
        rw [List.lookup_cons_self] at h
        exact ⟨p, .head _, rfl, Option.some.inj h⟩
      · rw [lookup_ne hp] at h
        obtain ⟨q, hq, h1⟩ := ih h
        exact ⟨q, .tail _ hq, h1⟩
  obtain ⟨p, hp, rfl, h2⟩ := this _ hx
  exact h p hp h2

/-- `f(Z)` -/
private def nodeF : Node := .lit ['f'] [.var ['Z'] .unbound none] []

/-- `X = f(Z); Y = q` -/
private def stateOf (q : Rat) : InfState := ⟨[(varX, .value), (varY, .value)], [(varX, nodeF), (varY, .const (number q))]⟩

private theorem stateOf_terms (q : Rat) : (stateOf q).Terms := by
  refine termsOf fun p hp _ => ?_
  simp only [stateOf, List.mem_cons, List.not_mem_nil, or_false] at hp
  rcases hp with rfl | rfl
  · exact ⟨nodeF, rfl, by simp [nodeF, Node.Open, Node.OpenL], nofun⟩
  · exact ⟨_, rfl, trivial, nofun⟩

private theorem stateOf_fair (q r : Rat) : ∀ x v w, (stateOf q).values.lookup x = some v → (stateOf r).values.lookup x = some w → v.Fair w := by
  intro x v w h1 h2
  simp only [stateOf] at h1 h2
  by_cases hx : x = varX
  · subst hx
    cases h1
    cases h2
    simp [nodeF, Node.Fair, Node.FairL]
  · rw [lookup_ne hx] at h1 h2
    by_cases hy : x = varY
    · subst hy
      cases h1
      cases h2
      simp [number, Node.Fair]
    · rw [lookup_ne hy] at h1; cases h1

/-- `C63_partial` and `C63_keeps` apply to `X = f(Z); Y = 2` and `X = f(Z); Y = 3`, and give that `X` is
`f(Z)` and `Y` is bound. -/
example : ∃ Z N, (∀ n, N ≤ n → (stateOf 2).merge n (stateOf 3) = .ok Z) ∧ (∀ σ, (stateOf 2).Describes σ ∨ (stateOf 3).Describes σ → Z.Describes σ) ∧
    Z.at varX = .value ∧ Z.values.lookup varX = some nodeF := by
  obtain ⟨Z, N, h1, h2⟩ := C63_partial (stateOf_terms 2) (stateOf_terms 3) (by simp [stateOf]; decide) (stateOf_fair 2 3)
  obtain ⟨Z', N', h1', h3, h4, -⟩ := C63_keeps (stateOf_terms 2) (stateOf_terms 3) (by simp [stateOf]; decide)
  have : Z = Z' := by
    have := (h1 (max N N') (by omega)).symm.trans (h1' (max N N') (by omega))
    cases this
    rfl
  subst this
  exact ⟨Z, N, h1, h2, h4 varX nodeF rfl rfl rfl rfl (by simp [nodeF, Node.Bare, Node.BareL]), by rw [h3]; rfl⟩

example : ∃ Z, (stateOf 2).merge 9 (stateOf 3) = .ok Z ∧ Z.status = [(varX, .value), (varY, .bound)] := ⟨_, by with_unfolding_all rfl, rfl⟩

/-- `C64_find`: the last parameter of `.my_name(X)` is bound for certain. -/
example : Effect.doBind ∈ Evilness.functionLike.find (.nth 0) 1 :=
  (C64_find (by decide)).2 ⟨.nth (-1), by simp [Evilness.functionLike], by simp [Affect.nth, Affect.AboutParam]⟩

/-- `C64_sound`: an unbound variable gets a value. -/
example : VarInfo.bound.Fits (fun _ => RunVal.const (number 1)) varX none :=
  C64_sound (ef := .doBind) (k := .unbound) (σ := fun _ => .nothing) rfl (by rintro ⟨⟩) rfl
    (.inr (.inl ⟨rfl, fun _ h => (by cases h), fun h => absurd rfl h⟩))

end Verif
