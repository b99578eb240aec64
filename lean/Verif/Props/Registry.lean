import Verif.Spec.Registry

/-!
# C39 action lookup, C45 logs
-/

namespace Verif

section logs

theorem logAfter_eq (max : Option Nat) (cs : List LogCall) :
    logAfter max cs = { maxErrors := max, numErrors := errorsIn cs, numWarnings := warningsIn cs } := by
  have key : ∀ (cs : List LogCall) (l : Log), cs.foldl (fun l c => (c.run l).2) l =
      { maxErrors := l.maxErrors, numErrors := l.numErrors + errorsIn cs, numWarnings := l.numWarnings + warningsIn cs } := by
    intro cs
    induction cs with
    | nil => intro l; rfl
    | cons c cs ih =>
      intro l
      have hc : (c.run l).2 = { maxErrors := l.maxErrors, numErrors := l.numErrors + errorsIn [c], numWarnings := l.numWarnings + warningsIn [c] } := by
        cases c <;> simp [LogCall.run, Log.error, Log.warning, Log.info, Log.throw, errorsIn, warningsIn]
        · split
          · split <;> rfl
          · rfl
        · split
          · split <;> rfl
          · rfl
        · split <;> rfl
      rw [List.foldl_cons, ih, hc]
      have h1 : errorsIn (c :: cs) = errorsIn [c] + errorsIn cs := by
        simp only [errorsIn]; rw [← List.countP_append]; rfl
      have h2 : warningsIn (c :: cs) = warningsIn [c] + warningsIn cs := by
        simp only [warningsIn]; rw [← List.countP_append]; rfl
      simp only [h1, h2, Nat.add_assoc]
  rw [logAfter, key]
  simp

/-- **C45.** The `k`-th error raises iff there is a limit and `k` has reached it; otherwise it returns the exception.
In both cases the exception tells the numbers of errors and warnings so far. -/
theorem C45_error (max : Option Nat) (before : List LogCall) (c : LogCall) (hc : c = .error ∨ c = .exception) :
    answerOf max before c =
      if ∃ m, max = some m ∧ m ≤ errorsIn before + 1 then .raises ⟨errorsIn before + 1, warningsIn before⟩
      else .returns ⟨errorsIn before + 1, warningsIn before⟩ := by
  have h : c.run (logAfter max before) = (logAfter max before).error := by rcases hc with rfl | rfl <;> rfl
  rw [answerOf, h, logAfter_eq]
  cases max with
  | none => simp [Log.error, Log.aggregated]
  | some m =>
    by_cases hm : m ≤ errorsIn before + 1 <;> simp [Log.error, Log.aggregated, hm]

/-- **C45.** With limit `m ≥ 1`, the first call of `error` or `exception` that raises is the `m`-th one. -/
theorem C45_limit (m : Nat) (hm : 1 ≤ m) (before : List LogCall) (c : LogCall) (hc : c = .error ∨ c = .exception)
    (hfirst : ∀ pre c' post, before = pre ++ c' :: post → (c' = .error ∨ c' = .exception) →
      ∀ e, answerOf (some m) pre c' ≠ .raises e) :
    (∃ e, answerOf (some m) before c = .raises e) ↔ errorsIn (before ++ [c]) = m := by
  have hlt : errorsIn before < m := by
    by_cases h0 : errorsIn before = 0
    · omega
    · obtain ⟨pre, c', post, h1, h2, h3⟩ : ∃ pre c' post, before = pre ++ c' :: post ∧ (c' = .error ∨ c' = .exception) ∧
          errorsIn before = errorsIn pre + 1 := by
        clear hfirst
        induction before with
        | nil => exact absurd rfl h0
        | cons d ds ih =>
          by_cases hd : errorsIn ds = 0
          · have : errorsIn (d :: ds) = errorsIn [d] + errorsIn ds := by
              simp only [errorsIn]; rw [← List.countP_append]; rfl
            rw [this, hd] at h0 ⊢
            cases d with
            | error => exact ⟨[], _, ds, rfl, .inl rfl, rfl⟩
            | exception => exact ⟨[], _, ds, rfl, .inr rfl, rfl⟩
            | _ => exact absurd rfl h0
          · obtain ⟨pre, c', post, rfl, h2, h3⟩ := ih hd
            refine ⟨d :: pre, c', post, rfl, h2, ?_⟩
            simp only [errorsIn, List.countP_cons] at h3 ⊢
            omega
      have := hfirst pre c' post h1 h2 ⟨errorsIn pre + 1, warningsIn pre⟩
      rw [C45_error _ _ _ h2] at this
      have hno : ¬ m ≤ errorsIn pre + 1 := fun hle => this (if_pos ⟨m, rfl, hle⟩)
      omega
  have hcount : errorsIn (before ++ [c]) = errorsIn before + 1 := by
    rcases hc with rfl | rfl <;> simp [errorsIn, List.countP_append]
  rw [C45_error _ _ _ hc, hcount]
  constructor
  · rintro ⟨e, he⟩
    split at he
    · next h => obtain ⟨m', h1, h2⟩ := h; cases h1; omega
    · cases he
  · intro h
    exact ⟨_, if_pos ⟨m, rfl, by omega⟩⟩

/-- **C45.** `throw` raises iff an error has been reported, and it reports the numbers. -/
theorem C45_throw (max : Option Nat) (before : List LogCall) :
    answerOf max before .throw =
      if errorsIn before = 0 then .nothing else .raises ⟨errorsIn before, warningsIn before⟩ := by
  rw [answerOf, logAfter_eq]
  by_cases h : errorsIn before = 0 <;> simp [LogCall.run, Log.throw, Log.aggregated, h]

/-- **C45.** Warnings and infos never raise. -/
theorem C45_warning (max : Option Nat) (before : List LogCall) :
    answerOf max before .warning = .nothing ∧ answerOf max before .info = .nothing := ⟨rfl, rfl⟩

/-- Limit 2: the second error raises. -/
example : answerOf (some 2) [.warning, .error, .info] .exception = .raises ⟨2, 1⟩ ∧
    answerOf (some 2) [.warning] .error = .returns ⟨1, 1⟩ ∧
    (∀ pre c' post, [LogCall.warning, .error, .info] = pre ++ c' :: post → (c' = .error ∨ c' = .exception) →
      ∀ e, answerOf (some 2) pre c' ≠ .raises e) := by
  refine ⟨rfl, rfl, ?_⟩
  intro pre c' post h hc e
  match pre, h with
  | [], h => cases h; rcases hc with h | h <;> cases h
  | [_], h => cases h; exact nofun
  | [_, _], h => cases h; rcases hc with h | h <;> cases h
  | _ :: _ :: _ :: pre, h => simp at h

end logs

section registry
variable {F : Type}

theorem split_snoc {α : Type} {cs pre post : List α} {c d : α} :
    cs ++ [c] = pre ++ d :: post ↔ (post = [] ∧ pre = cs ∧ d = c) ∨ ∃ post', post = post' ++ [c] ∧ cs = pre ++ d :: post' := by
  constructor
  · intro h
    rcases List.eq_nil_or_concat post with rfl | ⟨post', e, rfl⟩
    · obtain ⟨h1, h2⟩ := List.append_inj' h rfl
      exact .inl ⟨rfl, h1.symm, by simpa using h2.symm⟩
    · rw [List.concat_eq_append, ← List.cons_append, ← List.append_assoc] at h
      obtain ⟨h1, h2⟩ := List.append_inj' h rfl
      simp only [List.cons.injEq, and_true] at h2
      exact .inr ⟨post', by simp [List.concat_eq_append, h2], h1⟩
  · rintro (⟨rfl, rfl, rfl⟩ | ⟨post', rfl, rfl⟩) <;> simp

theorem created_snoc (cs : List (RegCall F)) (c : RegCall F) : created (cs ++ [c]) = created cs + created [c] := by
  induction cs with
  | nil => simp [created]
  | cons d cs ih => cases d <;> simp [created, ih] <;> omega

theorem registered_of_mem {cs : List (RegCall F)} {i : Nat} {g : String} {a : Option Nat} {x : F} (h : .add i g a x ∈ cs) :
    ∃ y, Entered cs i g a y := by
  induction cs with
  | nil => cases h
  | cons c cs ih =>
    by_cases hc : ∃ y, c = .add i g a y
    · obtain ⟨y, rfl⟩ := hc
      exact ⟨y, [], cs, rfl, by simp⟩
    · have : .add i g a x ∈ cs := by
        rcases List.mem_cons.1 h with h | h
        · exact absurd ⟨x, h.symm⟩ hc
        · exact h
      obtain ⟨y, pre, post, rfl, h2⟩ := ih this
      refine ⟨y, c :: pre, post, rfl, fun f' hf => ?_⟩
      rcases List.mem_cons.1 hf with hf | hf
      · exact hc ⟨f', hf.symm⟩
      · exact h2 f' hf

theorem registered_mem {cs : List (RegCall F)} {i : Nat} {g : String} {a : Option Nat} {x : F} (h : Entered cs i g a x) :
    .add i g a x ∈ cs := by
  obtain ⟨pre, post, rfl, _⟩ := h
  simp

theorem registered_snoc {cs : List (RegCall F)} {c : RegCall F} {i : Nat} {g : String} {a : Option Nat} {x : F} :
    Entered (cs ++ [c]) i g a x ↔ Entered cs i g a x ∨ ((∀ y, ¬ Entered cs i g a y) ∧ c = .add i g a x) := by
  constructor
  · rintro ⟨pre, post, h, hno⟩
    rcases split_snoc.1 h with ⟨rfl, rfl, rfl⟩ | ⟨post', rfl, rfl⟩
    · exact .inr ⟨fun y hy => hno y (registered_mem hy), rfl⟩
    · exact .inl ⟨pre, post', rfl, hno⟩
  · rintro (⟨pre, post, rfl, hno⟩ | ⟨hno, rfl⟩)
    · exact ⟨pre, post ++ [c], by simp, hno⟩
    · exact ⟨cs, [], rfl, fun y hy => by obtain ⟨z, hz⟩ := registered_of_mem hy; exact hno z hz⟩

theorem hasParent_snoc {cs : List (RegCall F)} {c : RegCall F} {i : Nat} {p : Option Nat} :
    HasParent (cs ++ [c]) i p ↔ HasParent cs i p ∨ (c = .new p ∧ created cs = i) := by
  constructor
  · rintro ⟨pre, post, h, hno⟩
    rcases split_snoc.1 h with ⟨rfl, rfl, rfl⟩ | ⟨post', rfl, rfl⟩
    · exact .inr ⟨rfl, hno⟩
    · exact .inl ⟨pre, post', rfl, hno⟩
  · rintro (⟨pre, post, rfl, hno⟩ | ⟨rfl, rfl⟩)
    · exact ⟨pre, post ++ [c], by simp, hno⟩
    · exact ⟨cs, [], rfl, rfl⟩

/-- The registries are what the history says. -/
structure RegInv (cs : List (RegCall F)) (h : Regs F) : Prop where
  n : h.n = created cs
  parent : ∀ i, i < h.n → ∀ p, HasParent cs i p ↔ (h.reg i).parent = p
  exact : ∀ i g k x, (h.reg i).actions.lookup (g, k) = some x ↔ Entered cs i g (some k) x
  variadic : ∀ i g x, (h.reg i).variadic.lookup g = some x ↔ Entered cs i g none x
  older : ∀ i p, (h.reg i).parent = some p → p < i
  fresh : ∀ i, h.n ≤ i → h.reg i = { parent := none }

theorem RegInv.hasParent_lt {cs : List (RegCall F)} {i : Nat} {p : Option Nat} (h : HasParent cs i p) : i < created cs := by
  obtain ⟨pre, post, rfl, rfl⟩ := h
  induction pre with
  | nil => simp [created]
  | cons c pre ih => cases c <;> simp [created] <;> omega

theorem RegInv.nil : RegInv ([] : List (RegCall F)) Regs.empty := by
  refine ⟨rfl, nofun, ?_, ?_, nofun, fun _ _ => rfl⟩
  · intro i g k x
    refine ⟨nofun, fun h => ?_⟩
    have := registered_mem h
    simp at this
  · intro i g x
    refine ⟨nofun, fun h => ?_⟩
    have := registered_mem h
    simp at this

theorem RegInv.step_new {cs : List (RegCall F)} {h : Regs F} (hi : RegInv cs h) {p : Option Nat}
    (hp : ∀ q, p = some q → q < created cs) : RegInv (cs ++ [.new p]) (h.new p) := by
  have hreg : ∀ i g a x, Entered (cs ++ [.new p]) i g a x ↔ Entered cs i g a x := by
    intro i g a x
    rw [registered_snoc]
    simp
  have hout : ∀ g a x, ¬ Entered cs h.n g a x := by
    intro g a x hx
    have hf := hi.fresh h.n (Nat.le_refl _)
    cases a with
    | none => have := (hi.variadic h.n g x).2 hx; rw [hf] at this; cases this
    | some k => have := (hi.exact h.n g k x).2 hx; rw [hf] at this; cases this
  refine ⟨?_, ?_, ?_, ?_, ?_, ?_⟩
  · rw [created_snoc, ← hi.n]; rfl
  · intro i hlt q
    rw [hasParent_snoc]
    simp only [Regs.new] at hlt ⊢
    by_cases he : i = h.n
    · subst he
      simp only [if_true]
      constructor
      · rintro (hq | ⟨hq, _⟩)
        · exact absurd (RegInv.hasParent_lt hq) (by rw [← hi.n]; exact Nat.lt_irrefl _)
        · cases hq; rfl
      · rintro rfl; exact .inr ⟨rfl, hi.n.symm⟩
    · rw [if_neg he]
      have : i < h.n := by omega
      rw [← hi.parent i this q]
      constructor
      · rintro (hq | ⟨_, hq⟩)
        · exact hq
        · exact absurd (hi.n.trans hq).symm he
      · exact .inl
  · intro i g k x
    rw [hreg]
    simp only [Regs.new]
    by_cases he : i = h.n
    · subst he
      simp only [if_true]
      exact ⟨nofun, fun hx => absurd hx (hout _ _ _)⟩
    · rw [if_neg he]; exact hi.exact i g k x
  · intro i g x
    rw [hreg]
    simp only [Regs.new]
    by_cases he : i = h.n
    · subst he
      simp only [if_true]
      exact ⟨nofun, fun hx => absurd hx (hout _ _ _)⟩
    · rw [if_neg he]; exact hi.variadic i g x
  · intro i q
    simp only [Regs.new]
    by_cases he : i = h.n
    · subst he
      simp only [if_true]
      rintro rfl
      rw [hi.n]
      exact hp q rfl
    · rw [if_neg he]; exact hi.older i q
  · intro i hle
    simp only [Regs.new] at hle ⊢
    rw [if_neg (by omega)]
    exact hi.fresh i (by omega)

theorem Regs.add_cases {h : Regs F} {i : Nat} {g : String} {a : Option Nat} {f : F} :
    (h.add i g a f = .err (.py "AssertionError") ∧
      ((a = none ∧ ∃ x, (h.reg i).variadic.lookup g = some x) ∨ ∃ k x, a = some k ∧ (h.reg i).actions.lookup (g, k) = some x)) ∨
    ∃ h', h.add i g a f = .ok h' ∧ h'.n = h.n ∧ (∀ j, (h'.reg j).parent = (h.reg j).parent) ∧ (∀ j, j ≠ i → h'.reg j = h.reg j) ∧
      ((a = none ∧ (h.reg i).variadic.lookup g = none ∧ (h'.reg i).actions = (h.reg i).actions ∧
          ∀ g', (h'.reg i).variadic.lookup g' = if g' = g then some f else (h.reg i).variadic.lookup g') ∨
        ∃ k, a = some k ∧ (h.reg i).actions.lookup (g, k) = none ∧ (h'.reg i).variadic = (h.reg i).variadic ∧
          ∀ g' k', (h'.reg i).actions.lookup (g', k') = if g' = g ∧ k' = k then some f else (h.reg i).actions.lookup (g', k')) := by
  cases a with
  | none =>
    cases hx : (h.reg i).variadic.lookup g with
    | some x => exact .inl ⟨by simp [Regs.add, hx], .inl ⟨rfl, x, rfl⟩⟩
    | none =>
      refine .inr ⟨⟨h.n, fun j => if j = i then { h.reg i with variadic := (h.reg i).variadic ++ [(g, f)] } else h.reg j⟩,
        by simp only [Regs.add, hx, Option.isSome_none, Bool.false_eq_true, if_false], rfl, fun j => ?_, fun j hj => by simp [hj], .inl ⟨rfl, rfl, by simp, fun g' => ?_⟩⟩
      · by_cases hj : j = i <;> simp [hj]
      · simp only [if_true, List.lookup_append]
        by_cases hg : g' = g
        · subst hg; simp [hx]
        · have : (g' == g) = false := by simpa using hg
          simp [hg, List.lookup, this]
  | some k =>
    cases hx : (h.reg i).actions.lookup (g, k) with
    | some x => exact .inl ⟨by simp [Regs.add, hx], .inr ⟨k, x, rfl, hx⟩⟩
    | none =>
      refine .inr ⟨⟨h.n, fun j => if j = i then { h.reg i with actions := (h.reg i).actions ++ [((g, k), f)] } else h.reg j⟩,
        by simp only [Regs.add, hx, Option.isSome_none, Bool.false_eq_true, if_false], rfl, fun j => ?_, fun j hj => by simp [hj], .inr ⟨k, rfl, hx, by simp, fun g' k' => ?_⟩⟩
      · by_cases hj : j = i <;> simp [hj]
      · simp only [if_true, List.lookup_append]
        by_cases hg : g' = g ∧ k' = k
        · obtain ⟨rfl, rfl⟩ := hg; simp [hx]
        · have : ((g', k') == (g, k)) = false := by simpa using hg
          simp [hg, List.lookup, this]

theorem RegInv.step_add {cs : List (RegCall F)} {h : Regs F} (hi : RegInv cs h) {i : Nat} {g : String} {a : Option Nat} {f : F}
    (hlt : i < created cs) :
    RegInv (cs ++ [.add i g a f]) (match h.add i g a f with | .ok h' => h' | _ => h) := by
  have hcr : created (cs ++ [.add i g a f]) = created cs := by rw [created_snoc]; rfl
  have hpar : ∀ j p, HasParent (cs ++ [.add i g a f]) j p ↔ HasParent cs j p := by
    intro j p; rw [hasParent_snoc]; simp
  rcases Regs.add_cases (h := h) (i := i) (g := g) (a := a) (f := f) with ⟨he, hsome⟩ | ⟨h', he, hn, hp, ho, hcase⟩
  · rw [he]
    have hreg : ∀ j g' a' x, Entered (cs ++ [.add i g a f]) j g' a' x ↔ Entered cs j g' a' x := by
      intro j g' a' x
      rw [registered_snoc]
      refine ⟨fun hx => hx.elim id fun ⟨hno, hx⟩ => ?_, .inl⟩
      cases hx
      rcases hsome with ⟨rfl, x, hy⟩ | ⟨k, x, rfl, hy⟩
      · exact absurd ((hi.variadic _ _ _).1 hy) (hno x)
      · exact absurd ((hi.exact _ _ _ _).1 hy) (hno x)
    exact ⟨hi.n.trans hcr.symm, fun j hj p => (hpar j p).trans (hi.parent j hj p),
      fun j g' k x => (hi.exact j g' k x).trans (hreg ..).symm, fun j g' x => (hi.variadic j g' x).trans (hreg ..).symm, hi.older, hi.fresh⟩
  · rw [he]
    have hother : ∀ j g' a' x, (j, g', a') ≠ (i, g, a) → (Entered (cs ++ [.add i g a f]) j g' a' x ↔ Entered cs j g' a' x) := by
      intro j g' a' x hne
      rw [registered_snoc]
      refine ⟨fun hx => hx.elim id fun ⟨_, hx⟩ => ?_, .inl⟩
      cases hx
      exact absurd rfl hne
    refine ⟨hn.trans (hi.n.trans hcr.symm), fun j hj p => ?_, fun j g' k x => ?_, fun j g' x => ?_, fun j p => ?_, fun j hj => ?_⟩
    · rw [hpar, hp]; exact hi.parent j (hn ▸ hj) p
    · by_cases hj : j = i
      · subst hj
        rcases hcase with ⟨rfl, -, hsame, -⟩ | ⟨k', rfl, hnone, -, hnew⟩
        · rw [hsame, hother _ _ _ _ (by simp)]; exact hi.exact j g' k x
        · rw [hnew]
          split
          next hk =>
            obtain ⟨rfl, rfl⟩ := hk
            have hno : ∀ y, ¬ Entered cs j g' (some k) y := fun y hy => by rw [(hi.exact _ _ _ _).2 hy] at hnone; cases hnone
            rw [registered_snoc]
            constructor
            · intro hx; cases hx; exact .inr ⟨hno, rfl⟩
            · rintro (hx | ⟨_, hx⟩)
              · exact absurd hx (hno x)
              · cases hx; rfl
          next hk =>
            rw [hother _ _ _ _ (by simpa using hk)]; exact hi.exact j g' k x
      · rw [ho j hj, hother _ _ _ _ (by simp [hj])]; exact hi.exact j g' k x
    · by_cases hj : j = i
      · subst hj
        rcases hcase with ⟨rfl, hnone, -, hnew⟩ | ⟨k', rfl, -, hsame, -⟩
        · rw [hnew]
          split
          next hk =>
            subst hk
            have hno : ∀ y, ¬ Entered cs j g' none y := fun y hy => by rw [(hi.variadic _ _ _).2 hy] at hnone; cases hnone
            rw [registered_snoc]
            constructor
            · intro hx; cases hx; exact .inr ⟨hno, rfl⟩
            · rintro (hx | ⟨_, hx⟩)
              · exact absurd hx (hno x)
              · cases hx; rfl
          next hk =>
            rw [hother _ _ _ _ (by simpa using hk)]; exact hi.variadic j g' x
        · rw [hsame, hother _ _ _ _ (by simp)]; exact hi.variadic j g' x
      · rw [ho j hj, hother _ _ _ _ (by simp [hj])]; exact hi.variadic j g' x
    · rw [hp]; exact hi.older j p
    · replace hj : h.n ≤ j := by rw [← hn]; exact hj
      have : j ≠ i := by have := hi.n; omega
      show h'.reg j = _
      rw [ho j this]
      exact hi.fresh j (by omega)

theorem RegInv.runs {ds : List (RegCall F)} : ∀ {cs : List (RegCall F)} {h : Regs F}, RegInv cs h → Legal (cs ++ ds) →
    RegInv (cs ++ ds) (runCalls ds h) := by
  induction ds with
  | nil => intro cs h hi _; simpa [runCalls] using hi
  | cons c ds ih =>
    intro cs h hi hl
    have hc := hl cs c ds rfl
    rw [show cs ++ c :: ds = (cs ++ [c]) ++ ds by simp] at hl ⊢
    cases c with
    | new p => exact ih (hi.step_new hc) hl
    | add i g a f =>
      have := hi.step_add (g := g) (a := a) (f := f) hc
      rw [runCalls]
      revert this
      cases h.add i g a f <;> intro this <;> exact ih this hl

theorem regInv {cs : List (RegCall F)} (hl : Legal cs) : RegInv cs (runCalls cs Regs.empty) := RegInv.runs RegInv.nil hl

theorem RegInv.finds {cs : List (RegCall F)} {h : Regs F} (hi : RegInv cs h) : ∀ {n i : Nat} {g : String} {k : Nat},
    i < h.n → i < n → (∀ x, h.lookup n i g k = .ok x ↔ Finds cs i g k x) ∧
      ((∃ x, Finds cs i g k x) ∨ h.lookup n i g k = .err (.py "KeyError"))
  | 0, i, g, k, _, hlt => absurd hlt (Nat.not_lt_zero _)
  | n + 1, i, g, k, hin, hlt => by
    rw [Regs.lookup]
    cases he : (h.reg i).actions.lookup (g, k) with
    | some y =>
      have hy := (hi.exact i g k y).1 he
      refine ⟨fun x => ⟨fun hx => ?_, fun hx => ?_⟩, .inl ⟨y, .exact hy⟩⟩
      · cases hx; exact .exact hy
      · cases hx with
        | exact hx => rw [(hi.exact ..).2 hx] at he; cases he; rfl
        | variadic hno _ => exact absurd hy (hno y)
        | parent hno _ _ _ => exact absurd hy (hno y)
    | none =>
      have hne : ∀ y, ¬ Entered cs i g (some k) y := fun y hy => by rw [(hi.exact ..).2 hy] at he; cases he
      simp only []
      cases hv : (h.reg i).variadic.lookup g with
      | some y =>
        have hy := (hi.variadic i g y).1 hv
        refine ⟨fun x => ⟨fun hx => ?_, fun hx => ?_⟩, .inl ⟨y, .variadic hne hy⟩⟩
        · cases hx; exact .variadic hne hy
        · cases hx with
          | exact hx => exact absurd hx (hne x)
          | variadic _ hx => rw [(hi.variadic ..).2 hx] at hv; cases hv; rfl
          | parent _ hno _ _ => exact absurd hy (hno y)
      | none =>
        have hnv : ∀ y, ¬ Entered cs i g none y := fun y hy => by rw [(hi.variadic ..).2 hy] at hv; cases hv
        simp only []
        cases hp : (h.reg i).parent with
        | none =>
          refine ⟨fun x => ⟨nofun, fun hx => ?_⟩, .inr rfl⟩
          cases hx with
          | exact hx => exact absurd hx (hne x)
          | variadic _ hx => exact absurd hx (hnv x)
          | parent _ _ hq _ => rw [(hi.parent i hin _).1 hq] at hp; cases hp
        | some p =>
          have hpi := hi.older i p hp
          have ⟨h1, h2⟩ := hi.finds (n := n) (i := p) (g := g) (k := k) (by omega) (by omega)
          have hup : ∀ x, Finds cs i g k x ↔ Finds cs p g k x := by
            intro x
            refine ⟨fun hx => ?_, fun hx => .parent hne hnv ((hi.parent i hin _).2 hp) hx⟩
            cases hx with
            | exact hx => exact absurd hx (hne x)
            | variadic _ hx => exact absurd hx (hnv x)
            | parent _ _ hq hx => rw [(hi.parent i hin _).1 hq] at hp; cases hp; exact hx
          refine ⟨fun x => (h1 x).trans (hup x).symm, ?_⟩
          rcases h2 with ⟨x, hx⟩ | h2
          · exact .inl ⟨x, (hup x).2 hx⟩
          · exact .inr h2

/-- `lookup` after any calls on any registries: what is registered for the exact arity, otherwise the action
for any number of arguments, otherwise what the parent finds, otherwise `KeyError`.  The fuel `n` is
immaterial as soon as it exceeds the number of the registry. -/
theorem C39_lookup {cs : List (RegCall F)} (hl : Legal cs) {n i : Nat} (hi : i < created cs) (hn : i < n) (g : String) (k : Nat) :
    (∀ x, (runCalls cs Regs.empty).lookup n i g k = .ok x ↔ Finds cs i g k x) ∧
      ((∀ x, ¬ Finds cs i g k x) ↔ (runCalls cs Regs.empty).lookup n i g k = .err (.py "KeyError")) := by
  have hinv := regInv hl
  obtain ⟨h1, h2⟩ := hinv.finds (n := n) (i := i) (g := g) (k := k) (by rw [hinv.n]; exact hi) hn
  refine ⟨h1, fun hno => h2.resolve_left fun ⟨x, hx⟩ => hno x hx, fun he x hx => ?_⟩
  rw [(h1 x).2 hx] at he
  cases he

theorem RegInv.lookup_congr {h h' : Regs F} {g : String} {k : Nat} (hp : ∀ j, (h'.reg j).parent = (h.reg j).parent)
    (he : ∀ j, (h'.reg j).actions.lookup (g, k) = (h.reg j).actions.lookup (g, k))
    (hv : ∀ j, (h.reg j).actions.lookup (g, k) = none → (h'.reg j).variadic.lookup g = (h.reg j).variadic.lookup g) :
    ∀ n i, h'.lookup n i g k = h.lookup n i g k
  | 0, _ => rfl
  | n + 1, i => by
    rw [Regs.lookup, Regs.lookup]
    rw [he i, hp i]
    cases hx : (h.reg i).actions.lookup (g, k) with
    | some x => rfl
    | none =>
      simp only []
      rw [hv i hx]
      cases (h.reg i).variadic.lookup g with
      | some x => rfl
      | none =>
        simp only []
        cases (h.reg i).parent with
        | none => rfl
        | some p => exact RegInv.lookup_congr hp he hv n p

/-- A successful `add` for a fixed arity is found afterwards, and changes no other lookup, in this registry or in any other. -/
theorem C39_add_exact {h h' : Regs F} {i : Nat} {g : String} {k : Nat} {f : F} (hadd : h.add i g (some k) f = .ok h') :
    (∀ n, h'.lookup (n + 1) i g k = .ok f) ∧
      ∀ n j g' k', (g', k') ≠ (g, k) → h'.lookup n j g' k' = h.lookup n j g' k' := by
  rcases Regs.add_cases (h := h) (i := i) (g := g) (a := some k) (f := f) with ⟨he, _⟩ | ⟨h1, he, _, hp, ho, hcase⟩
  · rw [he] at hadd; cases hadd
  · rw [he] at hadd; cases hadd
    rcases hcase with ⟨hx, _⟩ | ⟨k1, hk, _, hsame, hnew⟩
    · cases hx
    · cases hk
      refine ⟨fun n => ?_, fun n j g' k' hne => RegInv.lookup_congr hp ?_ ?_ n j⟩
      · rw [Regs.lookup]; rw [hnew]; simp
      · intro j
        by_cases hj : j = i
        · subst hj; rw [hnew, if_neg (by simpa using hne)]
        · rw [ho j hj]
      · intro j _
        by_cases hj : j = i
        · subst hj; rw [hsame]
        · rw [ho j hj]

/-- A successful `add` for any number of arguments is found afterwards for the arities that are not registered
themselves.  It changes no lookup of another functor, and no lookup of an arity that is registered itself. -/
theorem C39_add_variadic {h h' : Regs F} {i : Nat} {g : String} {f : F} (hadd : h.add i g none f = .ok h') :
    (∀ n k, (h.reg i).actions.lookup (g, k) = none → h'.lookup (n + 1) i g k = .ok f) ∧
      (∀ n j g' k', g' ≠ g → h'.lookup n j g' k' = h.lookup n j g' k') ∧
      ∀ n k x, (h.reg i).actions.lookup (g, k) = some x → h'.lookup n i g k = h.lookup n i g k := by
  rcases Regs.add_cases (h := h) (i := i) (g := g) (a := none) (f := f) with ⟨he, _⟩ | ⟨h1, he, _, hp, ho, hcase⟩
  · rw [he] at hadd; cases hadd
  · rw [he] at hadd; cases hadd
    rcases hcase with ⟨_, _, hsame, hnew⟩ | ⟨k1, hk, _⟩
    · have hact : ∀ j, (h'.reg j).actions = (h.reg j).actions := by
        intro j
        by_cases hj : j = i
        · subst hj; exact hsame
        · rw [ho j hj]
      refine ⟨fun n k hk => ?_, fun n j g' k' hne => RegInv.lookup_congr hp (fun j => by rw [hact j]) (fun j _ => ?_) n j,
        fun n k x hx => ?_⟩
      · rw [Regs.lookup]; rw [hsame, hk]; simp only []; rw [hnew, if_pos rfl]
      · by_cases hj : j = i
        · subst hj; rw [hnew, if_neg hne]
        · rw [ho j hj]
      · cases n with
        | zero => rfl
        | succ n => rw [Regs.lookup, Regs.lookup]; rw [hsame, hx]
    · cases hk

/-- An `add` that fails: the name was taken.  Nothing changes. -/
theorem C39_add_taken {h : Regs F} {i : Nat} {g : String} {a : Option Nat} {f : F} {e : Err} (hadd : h.add i g a f = .err e) :
    e = .py "AssertionError" ∧
      ((a = none ∧ ∃ x, (h.reg i).variadic.lookup g = some x) ∨ ∃ k x, a = some k ∧ (h.reg i).actions.lookup (g, k) = some x) := by
  rcases Regs.add_cases (h := h) (i := i) (g := g) (a := a) (f := f) with ⟨he, hs⟩ | ⟨h1, he, _⟩
  · rw [he] at hadd; cases hadd; exact ⟨rfl, hs⟩
  · rw [he] at hadd; cases hadd

/-- An action declared with specifications of its arguments is found under the number of those that stand for
arguments of the term, not counting the agent and the environment; a function has one more argument, for the result. -/
theorem C39_specs {h h' : Regs F} {i : Nat} {g : String} {specs : List SpecKind} {f : F} :
    (h.addFunction i g specs f = .ok h' → ∀ n, h'.lookup (n + 1) i g ((specs.filter (· = .arg)).length + 1) = .ok f) ∧
      (h.addPredicate i g specs f = .ok h' → ∀ n, h'.lookup (n + 1) i g (specs.filter (· = .arg)).length = .ok f) := by
  have hc : ∀ specs : List SpecKind, countSpecs specs = (specs.filter (· = .arg)).length := by
    intro specs
    induction specs with
    | nil => rfl
    | cons c specs ih => cases c <;> simp [countSpecs, ih]
  rw [Regs.addFunction, Regs.addPredicate, hc]
  exact ⟨fun hadd => (C39_add_exact hadd).1, fun hadd => (C39_add_exact hadd).1⟩

/-- `.send` could be declared as a procedure with the agent and three arguments. -/
example : ∃ h', (Regs.empty.new none).addPredicate 0 ".send" [.agent, .arg, .arg, .arg] "f" = .ok h' ∧
    h'.lookup 1 0 ".send" 3 = .ok "f" ∧ h'.lookup 1 0 ".send" 4 = .err (.py "KeyError") :=
  ⟨_, rfl, rfl, rfl⟩

/-- Two registries; the parent gets a further action after the child has been created, and a name is used twice. -/
def regHistory : List (RegCall String) :=
  [.new none, .add 0 ".print" none "print", .new (some 0), .add 1 ".print" (some 2) "print2", .add 0 ".send" (some 3) "send",
    .add 0 ".print" none "again"]

theorem legal_of_check {cs : List (RegCall F)}
    (h : ∀ m, m < cs.length → match cs[m]? with
      | some (.new (some p)) => p < created (cs.take m)
      | some (.add i _ _ _) => i < created (cs.take m)
      | _ => True) : Legal cs := by
  rintro pre c post rfl
  have := h pre.length (by simp)
  simp only [List.getElem?_append_right (Nat.le_refl _), Nat.sub_self, List.getElem?_cons_zero, List.take_left] at this
  cases c with
  | new p => cases p with
    | none => nofun
    | some p => intro q hq; cases hq; exact this
  | add i g a f => exact this

example : Legal regHistory ∧ created regHistory = 2 := by
  refine ⟨legal_of_check fun m hm => ?_, rfl⟩
  match m, hm with
  | 0, _ => exact trivial
  | 1, _ => exact Nat.zero_lt_one
  | 2, _ => exact Nat.zero_lt_one
  | 3, _ => exact Nat.one_lt_two
  | 4, _ => exact Nat.zero_lt_two
  | 5, _ => exact Nat.zero_lt_two

example : (runCalls regHistory Regs.empty).lookup 5 1 ".print" 2 = .ok "print2" ∧
    (runCalls regHistory Regs.empty).lookup 5 1 ".print" 3 = .ok "print" ∧
    (runCalls regHistory Regs.empty).lookup 5 1 ".send" 3 = .ok "send" ∧
    (runCalls regHistory Regs.empty).lookup 5 1 ".send" 2 = .err (.py "KeyError") := ⟨rfl, rfl, rfl, rfl⟩

example : ∃ h', (runCalls regHistory Regs.empty).add 1 ".send" none "mine" = .ok h' ∧ h'.lookup 5 1 ".send" 3 = .ok "mine" ∧
    h'.lookup 5 0 ".send" 3 = .ok "send" := ⟨_, rfl, rfl, rfl⟩

example : ∃ h', (runCalls regHistory Regs.empty).add 1 ".send" (some 2) "mine" = .ok h' := ⟨_, rfl⟩

example : ∃ e, (runCalls regHistory Regs.empty).add 1 ".print" (some 2) "mine" = .err e := ⟨_, rfl⟩

end registry

end Verif
