import Verif.Lemmas.Term

/-! Python's comparisons agree with the comparison of values, for closed terms without
annotations. -/

namespace Verif

section
variable [Arith]

/-- Plain data: no variables, wildcards, expressions or annotations. -/
abbrev Term.Data (t : Term) : Prop := t.Closed ∧ t.NoAnnots

theorem denL_chars {σ : Asg} (cs : List Char) :
    DenL σ (cs.map fun c => .str (String.ofList [c]))
      (Val.ofList (cs.map fun c => .str (String.ofList [c]))) := by
  induction cs with
  | nil => rfl
  | cons c cs ih => exact ⟨_, _, rfl, ih, rfl⟩

omit [Arith] in
theorem norm_chars (cs : List Char) :
    (Val.ofList (cs.map fun c => .str (String.ofList [c]))).norm
      = Val.ofList (cs.map fun c => .str (String.ofList [c])) := by
  induction cs with
  | nil => rfl
  | cons c cs ih =>
    simp only [List.map, Val.ofList, Val.norm, ih]
    cases cs <;> rfl

/-- The items of an iterable closed term. -/
theorem iter_den {σ : Asg} : ∀ t : Term, t.Data → ∀ xs, iter t = .ok xs → ∀ a, Den σ t a →
    (∀ x ∈ xs, x.Data) ∧ ∃ w, DenL σ xs w ∧ w.norm = a.norm.tailList
  | .tup ys, hd, xs, h, a, ha => by
    simp [iter] at h; subst h
    simp [Term.Data] at hd
    refine ⟨fun x hx => ⟨hd.1 x hx, hd.2 x hx⟩, a, ha, ?_⟩
    rw [Val.tailList_norm (denL_isL ha)]
  | .cons hd tl, hdd, xs, h, a, ha => by
    simp only [iter, Ev.map_eq_ok] at h
    obtain ⟨ys, hy, rfl⟩ := h
    simp [Term.Data] at hdd
    obtain ⟨u, v, hu, hv, rfl⟩ := ha
    obtain ⟨h1, w, h2, h3⟩ := iter_den (σ := σ) tl ⟨hdd.1.2, hdd.2.2⟩ ys hy v hv
    refine ⟨?_, .cons u w, ⟨u, w, hu, h2, rfl⟩, ?_⟩
    · intro x hx
      rcases List.mem_cons.1 hx with rfl | hx
      · exact ⟨hdd.1.1, hdd.2.1⟩
      · exact h1 x hx
    · simp only [Val.norm]
      rw [Val.tailList_norm (denL_isL h2), h3]
      rfl
  | .str s, hd, xs, h, a, ha => by
    simp [iter] at h; subst h
    simp [Den] at ha; subst ha
    refine ⟨?_, _, denL_chars s.toList, ?_⟩
    · intro x hx; simp at hx; obtain ⟨c, _, rfl⟩ := hx; simp [Term.Data]
    · rw [norm_chars]; rfl
  | .bool _, _, _, h, _, _ => by simp [iter] at h
  | .num _, _, _, h, _, _ => by simp [iter] at h
  | .lit _ _ _, _, _, h, _, _ => by simp [iter] at h
  | .var _, _, _, h, _, _ => by simp [iter] at h
  | .wild, _, _, h, _, _ => by simp [iter] at h
  | .un _ _, _, _, h, _, _ => by simp [iter] at h
  | .bin _ _ _, _, _, h, _, _ => by simp [iter] at h

theorem tupEq_den {σ : Asg} {f : Term → Term → Ev Bool}
    (hf : ∀ s t : Term, s.Data → t.Data → ∀ a b, Den σ s a → Den σ t b → ∀ p, f s t = .ok p →
      p = decide (a.norm = b.norm)) :
    ∀ xs ys : List Term, (∀ x ∈ xs, x.Data) → (∀ y ∈ ys, y.Data) →
      ∀ v w, DenL σ xs v → DenL σ ys w → ∀ p, tupEq f xs ys = .ok p → p = decide (v.norm = w.norm)
  | [], [], _, _, v, w, hv, hw, p, h => by
    simp [DenL] at hv hw; subst hv hw; simpa [tupEq] using h.symm
  | [], y :: ys, _, _, v, w, hv, hw, p, h => by
    obtain ⟨a, u, _, _, rfl⟩ := hw
    simp [DenL] at hv; subst hv
    simpa [tupEq, Val.norm] using h.symm
  | x :: xs, [], _, _, v, w, hv, hw, p, h => by
    obtain ⟨a, u, _, _, rfl⟩ := hv
    simp [DenL] at hw; subst hw
    simpa [tupEq, Val.norm] using h.symm
  | x :: xs, y :: ys, hx, hy, v, w, hv, hw, p, h => by
    obtain ⟨a, u, ha, hu, rfl⟩ := hv
    obtain ⟨a', u', ha', hu', rfl⟩ := hw
    simp only [tupEq, Ev.bind_eq_ok] at h
    obtain ⟨q, hq, h⟩ := h
    have e := hf x y (hx x (by simp)) (hy y (by simp)) a a' ha ha' q hq
    simp only [Val.norm, Val.cons.injEq]
    rw [Val.tailList_norm (denL_isL hu), Val.tailList_norm (denL_isL hu')]
    by_cases c : a.norm = a'.norm
    · simp [c] at e; subst e
      have := tupEq_den hf xs ys (fun x h => hx x (by simp [h])) (fun x h => hy x (by simp [h]))
        u u' hu hu' p (by simpa using h)
      simp [c, this]
    · simp [c] at e; subst e
      simp at h; simp [c, h]

theorem numVal_den {σ : Asg} {t : Term} {q : Rat} (h : numVal t = some q) {a : Val} (ha : Den σ t a) :
    a.norm = .num q := by
  cases t <;> simp [numVal] at h
  · simp [Den] at ha; subst ha; simp [Val.norm, h]
  · simp [Den] at ha; subst ha; simp [Val.norm, h]

theorem numVal_none_den {σ : Asg} {t : Term} (hd : t.Closed) (h : numVal t = none) {a : Val} (ha : Den σ t a) :
    ∀ q, a.norm ≠ .num q := by
  intro q
  cases t with
  | bool | num => simp [numVal] at h
  | str s => simp [Den] at ha; subst ha; simp [Val.norm]
  | lit f args ann => obtain ⟨w, _, rfl⟩ := ha; simp [Val.norm]
  | tup xs =>
    have := denL_isL ha
    cases a <;> simp_all [Val.IsL, Val.norm]
  | cons h t => obtain ⟨u, v, _, _, rfl⟩ := ha; simp [Val.norm]
  | var | wild | un | bin => simp at hd

/-- `norm` of something a list term denotes. -/
theorem isL_of_list {σ : Asg} {t : Term} {a : Val} (ha : Den σ t a) (h : t.isList = true) : a.IsL := by
  cases t <;> simp [Term.isList] at h
  · exact denL_isL ha
  · obtain ⟨_, _, _, _, rfl⟩ := ha; trivial

theorem pyEq_den {σ : Asg} : ∀ (n : Nat) (s t : Term), s.Data → t.Data → ∀ a b, Den σ s a → Den σ t b →
    ∀ p, pyEq n s t = .ok p → p = decide (a.norm = b.norm)
  | 0, s, t, _, _, a, b, _, _, p, h => by simp [pyEq] at h
  | n + 1, s, t, hs, ht, a, b, ha, hb, p, h => by
    have ih := pyEq_den (σ := σ) n
    have ihL := tupEq_den ih
    rw [pyEq] at h
    unfold pyEqStep at h
    cases hn : numVal s with
    | some q =>
      cases hm : numVal t with
      | some r =>
        simp [hn, hm] at h; subst h
        rw [numVal_den hn ha, numVal_den hm hb]; simp
      | none =>
        simp [hn, hm] at h; subst h
        rw [numVal_den hn ha]
        have := numVal_none_den ht.1 hm hb q
        simp [eq_comm, this]
    | none =>
      cases hm : numVal t with
      | some r =>
        simp [hn, hm] at h; subst h
        rw [numVal_den hm hb]
        have := numVal_none_den hs.1 hn ha r
        simp [this]
      | none =>
        simp only [hn, hm] at h
        cases s with
        | bool | num => simp [numVal] at hn
        | var | wild | un | bin => simp [Term.Data] at hs
        | str x =>
          simp [Den] at ha; subst ha
          cases t with
          | bool | num => simp [numVal] at hm
          | var | wild | un | bin => simp [Term.Data] at ht
          | str y =>
            simp [Den] at hb; subst hb
            simp at h; simp [h, Val.norm]
          | lit g bs ys =>
            obtain ⟨w, _, rfl⟩ := hb
            simp at h; simp [h, Val.norm]
          | tup ys =>
            have := denL_isL hb
            simp at h; cases b <;> simp_all [Val.norm, Val.IsL]
          | cons h' t' =>
            obtain ⟨_, _, _, _, rfl⟩ := hb
            simp at h; simp [h, Val.norm]
        | lit f as xs =>
          obtain ⟨v, hv, rfl⟩ := ha
          cases t with
          | bool | num => simp [numVal] at hm
          | var | wild | un | bin => simp [Term.Data] at ht
          | str y =>
            simp [Den] at hb; subst hb
            simp at h; simp [h, Val.norm]
          | lit g bs ys =>
            obtain ⟨w, hw, rfl⟩ := hb
            simp [Term.Data] at hs ht
            simp only at h
            by_cases hfg : f = g
            · subst hfg
              rw [if_pos rfl, Ev.bind_eq_ok] at h
              obtain ⟨e, he, h⟩ := h
              have := ihL as bs (fun x hx => ⟨hs.1 x hx, hs.2.2 x hx⟩)
                (fun x hx => ⟨ht.1 x hx, ht.2.2 x hx⟩) v w hv hw e he
              rw [hs.2.1, ht.2.1] at h
              have h : e = p := by cases e <;> simpa [setEq, Ev.allL] using h
              simp [Val.norm, ← h, this]
            · rw [if_neg hfg] at h
              simp at h
              simp [Val.norm, hfg, h]
          | tup ys =>
            have := denL_isL hb
            simp at h; cases b <;> simp_all [Val.norm, Val.IsL]
          | cons h' t' =>
            obtain ⟨_, _, _, _, rfl⟩ := hb
            simp at h; simp [h, Val.norm]
        | tup xs =>
          have hl := denL_isL ha
          simp [Term.Data] at hs
          cases t with
          | bool | num => simp [numVal] at hm
          | var | wild | un | bin => simp [Term.Data] at ht
          | str y =>
            simp [Den] at hb; subst hb
            simp at h; cases a <;> simp_all [Val.norm, Val.IsL]
          | lit g bs ys =>
            obtain ⟨w, _, rfl⟩ := hb
            simp at h; cases a <;> simp_all [Val.norm, Val.IsL]
          | tup ys =>
            simp [Term.Data] at ht
            simp only at h
            exact ihL xs ys (fun x hx => ⟨hs.1 x hx, hs.2 x hx⟩)
                (fun x hx => ⟨ht.1 x hx, ht.2 x hx⟩) a b ha hb p h
          | cons h' t' =>
            simp only [Ev.bind_eq_ok] at h
            obtain ⟨ys, hy, h⟩ := h
            obtain ⟨h1, w, h2, h3⟩ := iter_den (.cons h' t') ht ys hy b hb
            have := ihL ys xs h1 (fun x hx => ⟨hs.1 x hx, hs.2 x hx⟩) w a h2 ha p h
            rw [this, h3, Val.tailList_norm (isL_of_list hb rfl)]
            simp [eq_comm]
        | cons hd tl =>
          have hl := isL_of_list ha rfl
          cases t with
          | bool | num => simp [numVal] at hm
          | var | wild | un | bin => simp [Term.Data] at ht
          | str y =>
            simp [Den] at hb; subst hb
            simp at h; cases a <;> simp_all [Val.norm, Val.IsL]
          | lit g bs ys =>
            obtain ⟨w, _, rfl⟩ := hb
            simp at h; cases a <;> simp_all [Val.norm, Val.IsL]
          | tup ys =>
            simp [Term.Data] at ht
            simp only [Ev.bind_eq_ok] at h
            obtain ⟨xs, hx, h⟩ := h
            obtain ⟨h1, w, h2, h3⟩ := iter_den (.cons hd tl) hs xs hx a ha
            have := ihL xs ys h1 (fun x hx => ⟨ht.1 x hx, ht.2 x hx⟩) w b h2 hb p h
            rw [this, h3, Val.tailList_norm (isL_of_list ha rfl)]
          | cons h' t' =>
            simp only [Ev.bind_eq_ok] at h
            obtain ⟨xs, hx, ys, hy, h⟩ := h
            obtain ⟨h1, w, h2, h3⟩ := iter_den (.cons hd tl) hs xs hx a ha
            obtain ⟨h1', w', h2', h3'⟩ := iter_den (.cons h' t') ht ys hy b hb
            have := ihL xs ys h1 h1' w w' h2 h2' p h
            rw [this, h3, h3', Val.tailList_norm (isL_of_list ha rfl), Val.tailList_norm (isL_of_list hb rfl)]

theorem tupLt_den {σ : Asg} {strict : Bool} {eq lt : Term → Term → Ev Bool}
    (he : ∀ s t : Term, s.Data → t.Data → ∀ a b, Den σ s a → Den σ t b → ∀ p, eq s t = .ok p →
      p = decide (a.norm = b.norm))
    (hf : ∀ s t : Term, s.Data → t.Data → ∀ a b, Den σ s a → Den σ t b → ∀ p, lt s t = .ok p →
      Val.lt strict a.norm b.norm = some p) :
    ∀ xs ys : List Term, (∀ x ∈ xs, x.Data) → (∀ y ∈ ys, y.Data) →
      ∀ v w, DenL σ xs v → DenL σ ys w → ∀ p, tupLt eq lt strict xs ys = .ok p →
        Val.lt strict v.norm w.norm = some p
  | [], [], _, _, v, w, hv, hw, p, h => by
    simp [DenL] at hv hw; subst hv hw; simpa [tupLt, Val.norm, Val.lt] using h
  | [], y :: ys, _, _, v, w, hv, hw, p, h => by
    obtain ⟨a, u, _, _, rfl⟩ := hw
    simp [DenL] at hv; subst hv
    simpa [tupLt, Val.norm, Val.lt] using h
  | x :: xs, [], _, _, v, w, hv, hw, p, h => by
    obtain ⟨a, u, _, _, rfl⟩ := hv
    simp [DenL] at hw; subst hw
    simpa [tupLt, Val.norm, Val.lt] using h
  | x :: xs, y :: ys, hx, hy, v, w, hv, hw, p, h => by
    obtain ⟨a, u, ha, hu, rfl⟩ := hv
    obtain ⟨a', u', ha', hu', rfl⟩ := hw
    simp only [tupLt, Ev.bind_eq_ok] at h
    obtain ⟨q, hq, h⟩ := h
    have e := he x y (hx x (by simp)) (hy y (by simp)) a a' ha ha' q hq
    simp only [Val.norm, Val.lt]
    rw [Val.tailList_norm (denL_isL hu), Val.tailList_norm (denL_isL hu')]
    by_cases c : a.norm = a'.norm
    · simp [c] at e; subst e
      rw [if_pos c]
      exact tupLt_den he hf xs ys (fun x h => hx x (by simp [h])) (fun x h => hy x (by simp [h]))
        u u' hu hu' p (by simpa using h)
    · simp [c] at e; subst e
      rw [if_neg c]
      exact hf x y (hx x (by simp)) (hy y (by simp)) a a' ha ha' p (by simpa using h)

theorem norm_len {v : Val} (h : v.IsL) {σ : Asg} {ts : List Term} (hv : DenL σ ts v) : v.norm.len = ts.length := by
  induction ts generalizing v with
  | nil => simp [DenL] at hv; subst hv; rfl
  | cons t ts ih =>
    obtain ⟨a, w, _, hw, rfl⟩ := hv
    simp only [Val.norm, Val.len]
    rw [Val.tailList_norm (denL_isL hw), ih (denL_isL hw) hw]
    rfl

theorem norm_nil_iff {σ : Asg} {ts : List Term} {v : Val} (hv : DenL σ ts v) : v.norm = .nil ↔ ts = [] := by
  cases ts with
  | nil => simp [DenL] at hv; subst hv; simp [Val.norm]
  | cons t ts => obtain ⟨a, w, _, hw, rfl⟩ := hv; simp [Val.norm]

theorem pyLt_den {σ : Asg} (strict : Bool) : ∀ (n : Nat) (s t : Term), s.Data → t.Data →
    ∀ a b, Den σ s a → Den σ t b →
    ∀ p, pyLt n strict s t = .ok p → Val.lt strict a.norm b.norm = some p
  | 0, s, t, _, _, a, b, _, _, p, h => by simp [pyLt] at h
  | n + 1, s, t, hs, ht, a, b, ha, hb, p, h => by
    have ih := pyLt_den (σ := σ) strict n
    have ihL := tupLt_den (pyEq_den (σ := σ) n) ih
    rw [pyLt] at h
    unfold pyLtStep at h
    cases hn : numVal s with
    | some q =>
      cases hm : numVal t with
      | some r =>
        simp [hn, hm] at h; subst h
        rw [numVal_den hn ha, numVal_den hm hb]; simp [Val.lt]
      | none => simp [hn, hm] at h
    | none =>
      cases hm : numVal t with
      | some r => simp [hn, hm] at h
      | none =>
        simp only [hn, hm] at h
        cases s with
        | bool | num => simp [numVal] at hn
        | var | wild | un | bin => simp [Term.Data] at hs
        | str x =>
          simp [Den] at ha; subst ha
          cases t with
          | str y =>
            simp [Den] at hb; subst hb
            simpa [Val.norm, Val.lt] using h
          | _ => simp at h
        | lit f as xs =>
          obtain ⟨v, hv, rfl⟩ := ha
          cases t with
          | lit g bs ys =>
            obtain ⟨w, hw, rfl⟩ := hb
            simp [Term.Data] at hs ht
            obtain ⟨hs, rfl, hs'⟩ := hs
            obtain ⟨ht, rfl, ht'⟩ := ht
            simp only at h
            simp only [Val.norm, Val.lt, norm_nil_iff hv, norm_nil_iff hw]
            by_cases hat : as = [] ∧ bs = []
            · rw [if_pos hat]
              obtain ⟨rfl, rfl⟩ := hat
              simpa [Term.isAtom] using h
            · rw [if_neg hat]
              have : ((Term.lit f as []).isAtom && (Term.lit g bs []).isAtom) = false := by
                cases as <;> cases bs <;> simp_all [Term.isAtom]
              rw [this] at h
              simp only [Bool.false_eq_true, ↓reduceIte] at h
              rw [norm_len (denL_isL hv) hv, norm_len (denL_isL hw) hw]
              by_cases hc : f ≠ g ∨ as.length ≠ bs.length
              · rw [if_pos hc] at h; cases h
              · rw [if_neg hc] at h
                rw [if_neg hc]
                exact ihL as bs (fun x hx => ⟨hs x hx, hs' x hx⟩)
                  (fun x hx => ⟨ht x hx, ht' x hx⟩) v w hv hw p h
          | _ => simp at h
        | tup xs =>
          simp [Term.Data] at hs
          cases t with
          | tup ys =>
            simp [Term.Data] at ht
            simp only at h
            exact ihL xs ys (fun x hx => ⟨hs.1 x hx, hs.2 x hx⟩)
                (fun x hx => ⟨ht.1 x hx, ht.2 x hx⟩) a b ha hb p h
          | cons h' t' =>
            simp only [Ev.bind_eq_ok] at h
            obtain ⟨ys, hy, h⟩ := h
            obtain ⟨h1, w, h2, h3⟩ := iter_den (.cons h' t') ht ys hy b hb
            have := ihL xs ys (fun x hx => ⟨hs.1 x hx, hs.2 x hx⟩) h1 a w ha h2 p h
            rwa [h3, Val.tailList_norm (isL_of_list hb rfl)] at this
          | _ => simp at h
        | cons hd tl =>
          cases t with
          | tup ys =>
            simp [Term.Data] at ht
            simp only [Ev.bind_eq_ok] at h
            obtain ⟨xs, hx, h⟩ := h
            obtain ⟨h1, w, h2, h3⟩ := iter_den (.cons hd tl) hs xs hx a ha
            have := ihL xs ys h1 (fun x hx => ⟨ht.1 x hx, ht.2 x hx⟩) w b h2 hb p h
            rwa [h3, Val.tailList_norm (isL_of_list ha rfl)] at this
          | cons h' t' =>
            simp only [Ev.bind_eq_ok] at h
            obtain ⟨xs, hx, ys, hy, h⟩ := h
            obtain ⟨h1, w, h2, h3⟩ := iter_den (.cons hd tl) hs xs hx a ha
            obtain ⟨h1', w', h2', h3'⟩ := iter_den (.cons h' t') ht ys hy b hb
            have := ihL xs ys h1 h1' w w' h2 h2' p h
            rwa [h3, h3', Val.tailList_norm (isL_of_list ha rfl),
              Val.tailList_norm (isL_of_list hb rfl)] at this
          | _ => simp at h

/-- Python comparison of closed, annotation-free terms computes the comparison of
their values. -/
theorem pyCompare_den {σ : Asg} {n : Nat} {op : BinOp} {s t : Term} (hs : s.Data) (ht : t.Data)
    {a b : Val} (ha : Den σ s a) (hb : Den σ t b) {p : Bool} (h : pyCompare n op s t = .ok p) :
    Val.cmp op a b = some p := by
  cases op <;> simp [pyCompare] at h
  · exact pyLt_den true n s t hs ht a b ha hb p h
  · exact pyLt_den false n s t hs ht a b ha hb p h
  · rw [Ev.map_eq_ok] at h
    obtain ⟨q, hq, rfl⟩ := h
    simp [Val.cmp, pyEq_den n s t hs ht a b ha hb q hq]
  · simp [Val.cmp, pyEq_den n s t hs ht a b ha hb p h]
  · exact pyLt_den false n t s ht hs b a hb ha p h
  · exact pyLt_den true n t s ht hs b a hb ha p h

end

end Verif
