import Verif.Lemmas.PrintAgent
import Verif.Spec.Told

/-! # Lemmas: the text of a plan -/

namespace Verif

/-! ## Runtime terms are printed like syntax trees -/

section
variable [Floats]

omit [Floats] in
theorem chars_const {s : List Nat} (h : ∀ c ∈ s, c.isValidChar) : (String.ofList (s.map Char.ofNat)).toList.map Char.toNat = s := by
  rw [String.toList_ofList, List.map_map]
  conv => rhs; rw [← List.map_id s]
  refine List.map_congr_left fun c hc => ?_
  simp only [Function.comp, id]
  have := h c hc
  rw [Char.ofNat, dif_pos this]
  rfl

theorem const_show (W : Wording) {v : ConstV} (hf : (Ast.const v).Finite) (hc : (Ast.const v).Chars) : v.term.show W = v.print := by
  match v, hf, hc with
  | .bool b, _, _ => rfl
  | .num (.fin q), _, _ => rfl
  | .num .inf, hf, _ => exact absurd rfl hf
  | .str s, _, hc =>
    rw [ConstV.term, Term.show, chars_const hc]
    rfl

omit [Floats] in
theorem renames_isEmpty (ρ : List Char → List Char) (as : List Ast) : (Ast.renames ρ as).isEmpty = as.isEmpty := by cases as <;> rfl
omit [Floats] in
theorem builds_isEmpty (vars : List Char → Term) (as : List Ast) : (Ast.builds vars as).isEmpty = as.isEmpty := by cases as <;> rfl

theorem name_show (W : Wording) {vars : List Char → Term} (hn : Naming vars) (x : List Char) : (vars x).show W = W.name vars x := by
  by_cases h : x = ['_']
  · subst h
    rw [Wording.name, hn.wild, Term.show]
  · obtain ⟨n, e⟩ := hn.var x h
    rw [Wording.name, e, Term.show]

mutual
theorem show_build (W : Wording) {vars : List Char → Term} (hn : Naming vars) : ∀ (a : Ast), a.Finite → a.Chars →
    (a.build vars).show W = (a.rename (W.name vars)).print
  | .const v, hf, hc => by rw [Ast.build, const_show W hf hc]; rfl
  | .var x, _, _ => by rw [Ast.build, name_show W hn]; rfl
  | .lit f ts as, hf, hc => by
    rw [Ast.build, Term.show, Ast.rename, Ast.print, renames_isEmpty, renames_isEmpty, builds_isEmpty, builds_isEmpty,
      shows_build W hn ts hf.1 hc.1, shows_build W hn as hf.2 hc.2, String.toList_ofList]
  | .list ts, hf, hc => by rw [Ast.build, Term.show, Ast.rename, Ast.print, shows_build W hn ts hf hc]
  | .linked a b, hf, hc => by rw [Ast.build, Term.show, Ast.rename, Ast.print, show_build W hn a hf.1 hc.1, show_build W hn b hf.2 hc.2]
  | .un op a, hf, hc => by rw [Ast.build, Term.show, Ast.rename, Ast.print, show_build W hn a hf hc]
  | .bin op a b, hf, hc => by rw [Ast.build, Term.show, Ast.rename, Ast.print, show_build W hn a hf.1 hc.1, show_build W hn b hf.2 hc.2]
theorem shows_build (W : Wording) {vars : List Char → Term} (hn : Naming vars) : ∀ (as : List Ast), Ast.Finites as → Ast.CharsL as →
    Term.shows W (Ast.builds vars as) = Ast.prints (Ast.renames (W.name vars) as)
  | [], _, _ => rfl
  | a :: as, hf, hc => by rw [Ast.builds, Term.shows, Ast.renames, Ast.prints, show_build W hn a hf.1 hc.1, shows_build W hn as hf.2 hc.2]
end

theorem pyStr_build (W : Wording) {vars : List Char → Term} (hn : Naming vars) {a : Ast} (ho : a.IsObject) (hf : a.Finite) (hc : a.Chars) :
    (a.build vars).pyStr W = (a.rename (W.name vars)).print := by
  rw [← show_build W hn a hf hc]
  match a, ho with
  | .var x, _ =>
    rw [Ast.build]
    by_cases h : x = ['_']
    · subst h; rw [hn.wild]; rfl
    · obtain ⟨n, e⟩ := hn.var x h
      rw [e]; rfl
  | .lit _ _ _, _ => rfl
  | .linked _ _, _ => rfl
  | .un _ _, _ => rfl
  | .bin _ _ _, _ => rfl

end

/-! ## Names of variables -/

theorem isHex_word {c : Char} (h : isHex c = true) : isWord c = true := by
  simp only [isHex, Char.isDigit, Bool.or_eq_true, Bool.and_eq_true, decide_eq_true_eq] at h
  simp only [isWord, isLow, isUp, Bool.or_eq_true, decide_eq_true_eq]
  have le : ∀ {a b c : Char}, c ≤ a → a.toNat ≤ b.toNat → c ≤ b := fun h h' => Nat.le_trans h h'
  rcases h with (h | h) | h
  · exact .inl (.inr h)
  · exact .inl (.inl (.inl ⟨h.1, le h.2 (by decide)⟩))
  · exact .inl (.inl (.inr ⟨h.1, le h.2 (by decide)⟩))

theorem Wording.Good.text {W : Wording} (h : W.Good) (v : VarId) : VarText (W.var v) := by
  left
  refine ⟨['_'], 'X', '_' :: (W.digest v ++ '_' :: W.addr v), by simp [Wording.var], by simp, by decide, ?_⟩
  intro x hx
  simp only [List.mem_cons, List.mem_append] at hx
  rcases hx with rfl | hx | rfl | hx
  · decide
  · exact isHex_word ((h.digest v).2 x hx)
  · decide
  · exact isHex_word ((h.addr v).2 x hx)

theorem Wording.Good.name_text {W : Wording} (h : W.Good) (vars : List Char → Term) (x : List Char) : VarText (W.name vars x) := by
  rw [Wording.name]
  split
  · exact h.text _
  · exact .inr ⟨by simp, by simp⟩

section
variable [Floats]
mutual
theorem rename_source {ρ : List Char → List Char} (hρ : ∀ x, VarText (ρ x)) : ∀ (a : Ast), a.Source → (a.rename ρ).Source
  | .const (.bool _), _ => trivial
  | .const (.num _), h => h
  | .const (.str _), h => h
  | .var _, _ => hρ _
  | .lit _ ts as, h => ⟨h.1, renames_source hρ ts h.2.1, renames_source hρ as h.2.2⟩
  | .list ts, h => renames_source hρ ts h
  | .linked a b, h => ⟨rename_source hρ a h.1, rename_source hρ b h.2⟩
  | .un _ a, h => rename_source hρ a h
  | .bin _ a b, h => ⟨rename_source hρ a h.1, rename_source hρ b h.2⟩
theorem renames_source {ρ : List Char → List Char} (hρ : ∀ x, VarText (ρ x)) : ∀ (as : List Ast), Ast.Sources as → Ast.Sources (Ast.renames ρ as)
  | [], _ => trivial
  | a :: as, h => ⟨rename_source hρ a h.1, renames_source hρ as h.2⟩
end
end

mutual
theorem rename_finite {ρ : List Char → List Char} : ∀ (a : Ast), a.Finite → (a.rename ρ).Finite
  | .const (.bool _), _ => trivial
  | .const (.num _), h => h
  | .const (.str _), _ => trivial
  | .var _, _ => trivial
  | .lit _ ts as, h => ⟨renames_finite ts h.1, renames_finite as h.2⟩
  | .list ts, h => renames_finite ts h
  | .linked a b, h => ⟨rename_finite a h.1, rename_finite b h.2⟩
  | .un _ a, h => rename_finite a h
  | .bin _ a b, h => ⟨rename_finite a h.1, rename_finite b h.2⟩
theorem renames_finite {ρ : List Char → List Char} : ∀ (as : List Ast), Ast.Finites as → Ast.Finites (Ast.renames ρ as)
  | [], _ => trivial
  | a :: as, h => ⟨rename_finite a h.1, renames_finite as h.2⟩
end

/-! ## The printed term as characters and variables -/

/-- A character of the text, or a variable. -/
abbrev Sym := Char ⊕ List Char

/-- `", ".join(…)` -/
def joinSyms : List (List Sym) → List Sym
  | [] => []
  | [u] => u
  | u :: us => u ++ .inl ',' :: .inl ' ' :: joinSyms us

section
variable [Floats]

mutual
/-- The text of a term with its variables, apart from the wildcard, left as they are. -/
def Ast.syms : Ast → List Sym
  | .const v => v.print.map .inl
  | .var x => if x = ['_'] then [.inl '_'] else [.inr x]
  | .lit f ts as =>
    f.map .inl ++ (if ts.isEmpty then [] else .inl '(' :: joinSyms (Ast.symss ts) ++ [.inl ')']) ++
      (if as.isEmpty then [] else .inl '[' :: joinSyms (Ast.symss as) ++ [.inl ']'])
  | .list ts => .inl '[' :: joinSyms (Ast.symss ts) ++ [.inl ']']
  | .linked h t => .inl '[' :: Ast.syms h ++ .inl '|' :: Ast.syms t ++ [.inl ']']
  | .un op a => .inl '(' :: op.lexeme.map .inl ++ .inl ' ' :: Ast.syms a ++ [.inl ')']
  | .bin op l r => .inl '(' :: Ast.syms l ++ .inl ' ' :: op.lexeme.map .inl ++ .inl ' ' :: Ast.syms r ++ [.inl ')']
def Ast.symss : List Ast → List (List Sym)
  | [] => []
  | t :: ts => Ast.syms t :: Ast.symss ts
end

end

/-- The text, with these names of the variables. -/
def render (ρ : List Char → List Char) (ss : List Sym) : List Char := ss.flatMap (Sum.elim ([·]) ρ)

theorem render_nil (ρ : List Char → List Char) : render ρ [] = [] := rfl
theorem render_append (ρ : List Char → List Char) (ss ts : List Sym) : render ρ (ss ++ ts) = render ρ ss ++ render ρ ts := by simp [render]
theorem render_inl (ρ : List Char → List Char) (c : Char) (ss : List Sym) : render ρ (.inl c :: ss) = c :: render ρ ss := rfl
theorem render_inr (ρ : List Char → List Char) (x : List Char) (ss : List Sym) : render ρ (.inr x :: ss) = ρ x ++ render ρ ss := rfl
theorem render_map (ρ : List Char → List Char) (u : List Char) : render ρ (u.map .inl) = u := by
  induction u with
  | nil => rfl
  | cons c u ih => rw [List.map_cons, render_inl, ih]

mutual
theorem rename_id : ∀ (a : Ast), a.rename id = a
  | .const _ => rfl
  | .var _ => rfl
  | .lit f ts as => by rw [Ast.rename, renames_id ts, renames_id as]
  | .list ts => by rw [Ast.rename, renames_id ts]
  | .linked a b => by rw [Ast.rename, rename_id a, rename_id b]
  | .un op a => by rw [Ast.rename, rename_id a]
  | .bin op a b => by rw [Ast.rename, rename_id a, rename_id b]
theorem renames_id : ∀ (as : List Ast), Ast.renames id as = as
  | [] => rfl
  | a :: as => by rw [Ast.renames, rename_id a, renames_id as]
end

section
variable [Floats]

mutual
theorem rename_syms {ρ : List Char → List Char} (hρ : ρ ['_'] = ['_']) : ∀ (a : Ast), (a.rename ρ).print = render ρ a.syms
  | .const v => by rw [Ast.syms, render_map]; rfl
  | .var x => by
    rw [Ast.syms, Ast.rename, Ast.print]
    split
    · next h => subst h; rw [hρ]; rfl
    · rw [render_inr, render_nil, List.append_nil]
  | .lit f ts as => by
    rw [Ast.rename, Ast.print, Ast.syms, renames_isEmpty, renames_isEmpty, render_append, render_append, render_map, renames_syms hρ ts, renames_syms hρ as]
    congr 1
    · congr 1
      split
      · rfl
      · simp only [List.cons_append, render_inl, render_append, render_nil]
    · split
      · rfl
      · simp only [List.cons_append, render_inl, render_append, render_nil]
  | .list ts => by simp only [Ast.rename, Ast.print, Ast.syms, renames_syms hρ ts, List.cons_append, render_inl, render_append, render_nil]
  | .linked a b => by
    simp only [Ast.rename, Ast.print, Ast.syms, rename_syms hρ a, rename_syms hρ b, List.cons_append, render_inl, render_append, render_nil]
  | .un op a => by
    simp only [Ast.rename, Ast.print, Ast.syms, rename_syms hρ a, List.cons_append, render_inl, render_append, render_nil, render_map]
  | .bin op a b => by
    simp only [Ast.rename, Ast.print, Ast.syms, rename_syms hρ a, rename_syms hρ b, List.cons_append, render_inl, render_append, render_nil, render_map]
theorem renames_syms {ρ : List Char → List Char} (hρ : ρ ['_'] = ['_']) : ∀ (as : List Ast), joinComma (Ast.prints (Ast.renames ρ as)) = render ρ (joinSyms (Ast.symss as))
  | [] => rfl
  | [a] => rename_syms hρ a
  | a :: b :: as => by
    have ih := renames_syms hρ (b :: as)
    simp only [Ast.renames, Ast.prints, Ast.symss, joinComma, joinSyms, render_append, render_inl, rename_syms hρ a] at ih ⊢
    rw [ih]
end

theorem print_syms (a : Ast) : a.print = render id a.syms := by
  rw [← rename_syms rfl, rename_id]

end

/-! ## Terms in place of the variables -/

/-- Texts in place of the variables, one after the other. -/
def fillSyms : List Sym → List (List Char) → Option (List Char × List (List Char))
  | [], as => some ([], as)
  | .inl c :: ss, as => (fillSyms ss as).map fun (u, r) => (c :: u, r)
  | .inr _ :: _, [] => none
  | .inr _ :: ss, a :: as => (fillSyms ss as).map fun (u, r) => (a ++ u, r)

theorem fillSyms_append (ss ts : List Sym) : ∀ as, fillSyms (ss ++ ts) as =
    (fillSyms ss as).bind fun (u, as) => (fillSyms ts as).map fun (v, r) => (u ++ v, r) := by
  induction ss with
  | nil => intro as; simp [fillSyms]
  | cons s ss ih =>
    intro as
    match s, as with
    | .inl c, as =>
      simp only [List.cons_append, fillSyms, ih]
      cases fillSyms ss as with
      | none => rfl
      | some r => simp [Function.comp_def]
    | .inr x, [] => rfl
    | .inr x, a :: as =>
      simp only [List.cons_append, fillSyms, ih]
      cases fillSyms ss as with
      | none => rfl
      | some r => simp [Function.comp_def]

theorem fillSyms_map (u : List Char) (as : List (List Char)) : fillSyms (u.map .inl) as = some (u, as) := by
  induction u with
  | nil => rfl
  | cons c u ih => rw [List.map_cons, fillSyms, ih]; rfl

section
variable [Floats]

omit [Floats] in
theorem fills_isEmpty {ts as ts' r : List Ast} (h : Ast.fills ts as = some (ts', r)) : ts'.isEmpty = ts.isEmpty := by
  cases ts with
  | nil => cases h; rfl
  | cons t ts =>
    rw [Ast.fills] at h
    obtain ⟨x, -, h⟩ := Option.bind_eq_some_iff.1 h
    obtain ⟨y, -, h⟩ := Option.bind_eq_some_iff.1 h
    cases h
    rfl

mutual
theorem fill_syms : ∀ (a : Ast) (as : List Ast), fillSyms a.syms (as.map Ast.print) = (a.fill as).map fun (b, r) => (b.print, r.map Ast.print)
  | .const v, as => by rw [Ast.syms, fillSyms_map]; rfl
  | .var x, as => by
    rw [Ast.syms, Ast.fill.eq_def]
    simp only
    split
    · next h => subst h; rfl
    · cases as with
      | nil => rfl
      | cons a as => simp [fillSyms]
  | .lit f ts as, xs => by
    rw [Ast.syms, Ast.fill, fillSyms_append, fillSyms_append, fillSyms_map]
    have h1 := fills_syms ts xs
    have e1 : fillSyms (if ts.isEmpty then [] else .inl '(' :: joinSyms (Ast.symss ts) ++ [.inl ')']) (xs.map Ast.print) =
        (Ast.fills ts xs).map fun (bs, r) => (if bs.isEmpty then [] else '(' :: joinComma (Ast.prints bs) ++ [')'], r.map Ast.print) := by
      split
      · next h =>
        cases ts with
        | nil => rfl
        | cons t ts => cases h
      · next h =>
        rw [List.cons_append, fillSyms, fillSyms_append, h1]
        cases hf : Ast.fills ts xs with
        | none => rfl
        | some y =>
          obtain ⟨bs, r⟩ := y
          have := fills_isEmpty hf
          simp only [Option.map_some, Option.bind_some, fillSyms, this, if_neg h]
          simp
    simp only [Option.bind_some]
    rw [e1]
    cases hf : Ast.fills ts xs with
    | none => rfl
    | some y =>
      obtain ⟨bs, xs'⟩ := y
      have h2 := fills_syms as xs'
      have e2 : fillSyms (if as.isEmpty then [] else .inl '[' :: joinSyms (Ast.symss as) ++ [.inl ']']) (xs'.map Ast.print) =
          (Ast.fills as xs').map fun (bs, r) => (if bs.isEmpty then [] else '[' :: joinComma (Ast.prints bs) ++ [']'], r.map Ast.print) := by
        split
        · next h =>
          cases as with
          | nil => rfl
          | cons t ts => cases h
        · next h =>
          rw [List.cons_append, fillSyms, fillSyms_append, h2]
          cases hf : Ast.fills as xs' with
          | none => rfl
          | some y =>
            obtain ⟨bs, r⟩ := y
            have := fills_isEmpty hf
            simp only [Option.map_some, Option.bind_some, fillSyms, this, if_neg h]
            simp
      simp only [Option.map_some, Option.bind_some]
      rw [e2]
      cases Ast.fills as xs' with
      | none => rfl
      | some y => simp [Ast.print]
  | .list ts, xs => by
    rw [Ast.syms, Ast.fill, List.cons_append, fillSyms, fillSyms_append, fills_syms ts xs]
    cases Ast.fills ts xs with
    | none => rfl
    | some y => simp [fillSyms, Ast.print]
  | .linked a b, xs => by
    rw [Ast.syms, Ast.fill, List.cons_append, List.cons_append, fillSyms, List.append_assoc, fillSyms_append, fill_syms a xs]
    cases Ast.fill a xs with
    | none => rfl
    | some y =>
      simp only [Option.map_some, Option.bind_some, List.cons_append, fillSyms]
      rw [fillSyms_append, fill_syms b]
      cases Ast.fill b y.2 with
      | none => rfl
      | some z => simp [fillSyms, Ast.print]
  | .un op a, xs => by
    rw [Ast.syms, Ast.fill, List.cons_append, List.cons_append, fillSyms, List.append_assoc, fillSyms_append, fillSyms_map]
    simp only [Option.bind_some, List.cons_append, fillSyms]
    rw [fillSyms_append, fill_syms a xs]
    cases Ast.fill a xs with
    | none => rfl
    | some y => simp [fillSyms, Ast.print]
  | .bin op a b, xs => by
    have e : (Ast.bin op a b).syms = .inl '(' :: (a.syms ++ (.inl ' ' :: (op.lexeme.map .inl ++ (.inl ' ' :: (b.syms ++ [.inl ')']))))) := by
      rw [Ast.syms]; simp
    rw [e, Ast.fill, fillSyms, fillSyms_append, fill_syms a xs]
    cases Ast.fill a xs with
    | none => rfl
    | some y =>
      simp only [Option.map_some, Option.bind_some, fillSyms]
      rw [fillSyms_append, fillSyms_map]
      simp only [Option.bind_some, fillSyms]
      rw [fillSyms_append, fill_syms b]
      cases Ast.fill b y.2 with
      | none => rfl
      | some z => simp [fillSyms, Ast.print]
theorem fills_syms : ∀ (ts : List Ast) (as : List Ast), fillSyms (joinSyms (Ast.symss ts)) (as.map Ast.print) =
    (Ast.fills ts as).map fun (bs, r) => (joinComma (Ast.prints bs), r.map Ast.print)
  | [], as => rfl
  | [t], as => by
    have := fill_syms t as
    rw [show joinSyms (Ast.symss [t]) = t.syms from rfl, this, Ast.fills]
    cases Ast.fill t as with
    | none => rfl
    | some y => rfl
  | t :: t' :: ts, as => by
    rw [show joinSyms (Ast.symss (t :: t' :: ts)) = t.syms ++ .inl ',' :: .inl ' ' :: joinSyms (Ast.symss (t' :: ts)) from rfl, fillSyms_append, fill_syms t as, Ast.fills]
    cases Ast.fill t as with
    | none => rfl
    | some y =>
      simp only [Option.map_some, Option.bind_some, fillSyms]
      rw [fills_syms (t' :: ts)]
      cases hf : Ast.fills (t' :: ts) y.2 with
      | none => rfl
      | some z =>
        obtain ⟨bs, r⟩ := z
        have := fills_isEmpty hf
        cases bs with
        | nil => cases this
        | cons b bs => simp [Ast.prints, joinComma]
end

end

/-! ## Replacing the variables in the text -/

/-- What may stand side by side: no `X` before a variable, no hexadecimal digit after it. -/
def Sym.Beside : Sym → Sym → Prop
  | .inl c, .inr _ => c ≠ 'X'
  | .inr _, .inl c => isHex c = false
  | _, _ => True

/-- The same for all neighbours. -/
def Adjacent : List Sym → Prop
  | [] => True
  | [_] => True
  | s :: t :: ss => s.Beside t ∧ Adjacent (t :: ss)

theorem Adjacent.tail {s : Sym} {ss : List Sym} (h : Adjacent (s :: ss)) : Adjacent ss := by
  cases ss with
  | nil => trivial
  | cons t ss => exact h.2

theorem Adjacent.append {v : List Sym} (hv : Adjacent v) : ∀ {u : List Sym}, Adjacent u → (∀ (s t : Sym), t ∈ v.head? → s.Beside t) → Adjacent (u ++ v)
  | [], _, _ => hv
  | [s], _, h => by
    cases v with
    | nil => trivial
    | cons t v => exact ⟨h s t rfl, hv⟩
  | s :: t :: u, hu, h => ⟨hu.1, Adjacent.append (u := t :: u) hv hu.2 h⟩

theorem adjacent_map : ∀ (u : List Char), Adjacent (u.map .inl)
  | [] => trivial
  | [_] => trivial
  | _ :: d :: u => ⟨trivial, adjacent_map (d :: u)⟩

/-- Brackets, commas, bars and spaces. -/
def IsDelim (c : Char) : Prop := c ≠ 'X' ∧ isHex c = false

instance (c : Char) : Decidable (IsDelim c) := inferInstanceAs (Decidable (_ ∧ _))

theorem beside_delim {c : Char} (hc : IsDelim c) (s : Sym) : s.Beside (.inl c) := by
  cases s with
  | inl d => trivial
  | inr x => exact hc.2

theorem delim_beside {c : Char} (hc : IsDelim c) (s : Sym) : Sym.Beside (.inl c) s := by
  cases s with
  | inl d => trivial
  | inr x => exact hc.1

theorem Adjacent.delim {c : Char} (hc : IsDelim c) {v : List Sym} (hv : Adjacent v) : Adjacent (.inl c :: v) := by
  cases v with
  | nil => trivial
  | cons t v => exact ⟨delim_beside hc t, hv⟩

theorem Adjacent.join {c : Char} (hc : IsDelim c) {u v : List Sym} (hu : Adjacent u) (hv : Adjacent v) : Adjacent (u ++ .inl c :: v) := by
  refine .append (.delim hc hv) hu fun s t ht => ?_
  simp only [List.head?_cons, Option.mem_def, Option.some.injEq] at ht
  subst ht
  exact beside_delim hc s

section
variable [Floats]

omit [Floats] in
theorem adjacent_args {c d : Char} (hc : IsDelim c) (hd : IsDelim d) {u v : List Sym} (hu : Adjacent u) (hv : Adjacent v) (b : Bool) :
    Adjacent (u ++ (if b then [] else .inl c :: v ++ [.inl d])) := by
  cases b with
  | true => simpa using hu
  | false =>
    have : Adjacent (v ++ .inl d :: []) := .join hd hv trivial
    exact .join hc hu this

mutual
theorem adjacent_syms : ∀ (a : Ast), Adjacent a.syms
  | .const v => by rw [Ast.syms]; exact adjacent_map _
  | .var x => by rw [Ast.syms]; split <;> trivial
  | .lit f ts as => by
    rw [Ast.syms]
    exact adjacent_args (by decide) (by decide) (adjacent_args (by decide) (by decide) (adjacent_map f) (adjacent_symss ts) _) (adjacent_symss as) _
  | .list ts => by
    rw [Ast.syms]
    exact .delim (by decide) (.join (by decide) (adjacent_symss ts) trivial)
  | .linked a b => by
    rw [Ast.syms, List.cons_append, List.cons_append, List.append_assoc]
    exact .delim (by decide) (.join (by decide) (adjacent_syms a) (.join (by decide) (adjacent_syms b) trivial))
  | .un op a => by
    rw [Ast.syms, List.cons_append, List.cons_append, List.append_assoc]
    exact .delim (by decide) (.join (by decide) (adjacent_map _) (.join (by decide) (adjacent_syms a) trivial))
  | .bin op a b => by
    have e : (Ast.bin op a b).syms = .inl '(' :: (a.syms ++ (.inl ' ' :: (op.lexeme.map .inl ++ (.inl ' ' :: (b.syms ++ [.inl ')']))))) := by
      rw [Ast.syms]; simp
    rw [e]
    exact .delim (by decide) (.join (by decide) (adjacent_syms a) (.join (by decide) (adjacent_map _) (.join (by decide) (adjacent_syms b) trivial)))
theorem adjacent_symss : ∀ (as : List Ast), Adjacent (joinSyms (Ast.symss as))
  | [] => trivial
  | [a] => adjacent_syms a
  | a :: b :: as => by
    rw [show joinSyms (Ast.symss (a :: b :: as)) = a.syms ++ .inl ',' :: .inl ' ' :: joinSyms (Ast.symss (b :: as)) from rfl]
    exact .join (by decide) (adjacent_syms a) (.delim (by decide) (adjacent_symss (b :: as)))
end

mutual
/-- The wildcard is printed. -/
theorem syms_var : ∀ (a : Ast) {x : List Char}, .inr x ∈ a.syms → x ≠ ['_']
  | .const v, x, h => by rw [Ast.syms] at h; simp at h
  | .var y, x, h => by
    rw [Ast.syms] at h
    split at h
    · simp at h
    · next hy => simp only [List.mem_singleton, Sum.inr.injEq] at h; subst h; exact hy
  | .lit f ts as, x, h => by
    rw [Ast.syms] at h
    simp only [List.mem_append, List.mem_map, reduceCtorEq, and_false, exists_false, false_or] at h
    rcases h with h | h
    · split at h
      · cases h
      · simp at h; exact symss_var ts h
    · split at h
      · cases h
      · simp at h; exact symss_var as h
  | .list ts, x, h => by rw [Ast.syms] at h; simp at h; exact symss_var ts h
  | .linked a b, x, h => by rw [Ast.syms] at h; simp at h; exact h.elim (syms_var a) (syms_var b)
  | .un op a, x, h => by rw [Ast.syms] at h; simp at h; exact syms_var a h
  | .bin op a b, x, h => by rw [Ast.syms] at h; simp at h; exact h.elim (syms_var a) (syms_var b)
theorem symss_var : ∀ (as : List Ast) {x : List Char}, .inr x ∈ joinSyms (Ast.symss as) → x ≠ ['_']
  | [], x, h => by cases h
  | [a], x, h => syms_var a h
  | a :: b :: as, x, h => by
    rw [show joinSyms (Ast.symss (a :: b :: as)) = a.syms ++ .inl ',' :: .inl ' ' :: joinSyms (Ast.symss (b :: as)) from rfl] at h
    simp at h
    exact h.elim (syms_var a) (symss_var (b :: as))
end

end

theorem varMatch_start {u : List Char} (h : varMatch u ≠ 0) : ∃ r, u = '_' :: 'X' :: '_' :: r := by
  unfold varMatch at h
  split at h
  · exact ⟨_, rfl⟩
  · exact absurd rfl h

theorem Wording.var_cons (W : Wording) (v : VarId) : W.var v = '_' :: 'X' :: '_' :: (W.digest v ++ '_' :: W.addr v) := by simp [Wording.var]

theorem varMatch_var {W : Wording} (hW : W.Good) (v : VarId) {r : List Char} (hr : ∀ c ∈ r.head?, isHex c = false) :
    varMatch (W.var v ++ r) = (W.var v).length := by
  rw [W.var_cons]
  obtain ⟨h1, h2⟩ := hW.digest v
  obtain ⟨h3, h4⟩ := hW.addr v
  match hd : W.digest v, h1 with
  | [a, b, c], _ =>
    rw [hd] at h2
    cases ha : W.addr v with
    | nil => exact absurd ha h3
    | cons d ds =>
      rw [ha] at h4
      have hds : (ds ++ r).takeWhile isHex = ds := by
        have : ∀ ds : List Char, (∀ c ∈ ds, isHex c = true) → (ds ++ r).takeWhile isHex = ds := by
          intro ds
          induction ds with
          | nil =>
            intro _
            cases r with
            | nil => rfl
            | cons c r => rw [List.nil_append, List.takeWhile_cons, hr c rfl]; rfl
          | cons x ds ih =>
            intro h
            rw [List.cons_append, List.takeWhile_cons, h x (by simp), if_pos rfl, ih fun c hc => h c (List.mem_cons_of_mem _ hc)]
        exact this ds fun c hc => h4 c (List.mem_cons_of_mem _ hc)
      simp only [List.cons_append, List.nil_append, varMatch, h2 a (by simp), h2 b (by simp), h2 c (by simp), h4 d (by simp), hds]
      simp
      omega

theorem subVars_skip (r : List Char) (args : List (List Char)) : ∀ u : List Char, subVars u.length (u ++ r) args = subVars 0 r args
  | [] => rfl
  | c :: u => by
    rw [List.cons_append, List.length_cons, subVars]
    exact subVars_skip r args u

/-- The result of filling. -/
def filled : Option (List Char × List (List Char)) → Ev (List Char × List (List Char))
  | some r => .ok r
  | none => .err (.py "IndexError")

theorem sub_syms {W : Wording} (hW : W.Good) {ρ : List Char → List Char} : ∀ (ss : List Sym) (args : List (List Char)),
    (∀ x, .inr x ∈ ss → ∃ v, ρ x = W.var v) → Adjacent ss → ¬[.inl '_', .inl 'X', .inl '_'] <:+: ss →
    subVars 0 (render ρ ss) args = filled (fillSyms ss args)
  | [], args, _, _, _ => rfl
  | .inl c :: ss, args, hρ, ha, hi => by
    have ih := sub_syms hW ss args (fun x hx => hρ x (List.mem_cons_of_mem _ hx)) ha.tail fun h => hi (List.infix_cons h)
    have h0 : varMatch (c :: render ρ ss) = 0 := by
      refine Classical.byContradiction fun hne => ?_
      obtain ⟨r, e⟩ := varMatch_start hne
      simp only [List.cons.injEq] at e
      obtain ⟨rfl, e⟩ := e
      match ss, e with
      | .inl d :: ss, e =>
        rw [render_inl] at e
        simp only [List.cons.injEq] at e
        obtain ⟨rfl, e⟩ := e
        match ss, e with
        | .inl d :: ss, e =>
          rw [render_inl] at e
          simp only [List.cons.injEq] at e
          obtain ⟨rfl, e⟩ := e
          exact hi ⟨[], ss, rfl⟩
        | .inr x :: ss, e => exact ha.2.1 rfl
      | .inr x :: ss, e =>
        obtain ⟨v, hv⟩ := hρ x (by simp)
        rw [render_inr, hv, W.var_cons] at e
        simp at e
    rw [render_inl, subVars.eq_def]
    simp only [h0, ih, fillSyms]
    cases fillSyms ss args <;> rfl
  | .inr x :: ss, args, hρ, ha, hi => by
    obtain ⟨v, hv⟩ := hρ x (by simp)
    have hr : ∀ c ∈ (render ρ ss).head?, isHex c = false := by
      match ss, ha, hρ with
      | [], _, _ => intro c hc; cases hc
      | .inl d :: ss, ha, _ =>
        intro c hc
        cases hc
        exact ha.1
      | .inr y :: ss, _, hρ =>
        obtain ⟨v', hv'⟩ := hρ y (by simp)
        intro c hc
        rw [render_inr, hv', W.var_cons] at hc
        cases hc
        rfl
    have hm := varMatch_var hW v hr
    have e : W.var v ++ render ρ ss = '_' :: (('X' :: '_' :: (W.digest v ++ '_' :: W.addr v)) ++ render ρ ss) := by rw [W.var_cons]; rfl
    have el : (W.var v).length = ('X' :: '_' :: (W.digest v ++ '_' :: W.addr v)).length + 1 := by rw [W.var_cons]; rfl
    rw [render_inr, hv]
    rw [e] at hm ⊢
    rw [subVars.eq_def]
    simp only [hm, el]
    cases args with
    | nil => rfl
    | cons a args =>
      have ih := sub_syms hW ss args (fun x hx => hρ x (List.mem_cons_of_mem _ hx)) ha.tail fun h => hi (List.infix_cons h)
      simp only [subVars_skip, ih, fillSyms]
      cases fillSyms ss args <;> rfl

theorem infix_render {ss : List Sym} (h : [.inl '_', .inl 'X', .inl '_'] <:+: ss) (ρ : List Char → List Char) : ['_', 'X', '_'] <:+: render ρ ss := by
  obtain ⟨s, t, rfl⟩ := h
  refine ⟨render ρ s, render ρ t, ?_⟩
  simp only [render_append]
  rfl

section
variable [Floats]

/-- The text of the head. -/
theorem sub_head {W : Wording} (hW : W.Good) {vars : List Char → Term} (hn : Naming vars) {a : Ast} (hf : a.Finite) (hc : a.Chars)
    (hx : ¬['_', 'X', '_'] <:+: a.print) (args : List Ast) :
    subVars 0 ((a.build vars).show W) (args.map Ast.print) = filled ((a.fill args).map fun (b, r) => (b.print, r.map Ast.print)) := by
  rw [show_build W hn a hf hc, rename_syms (by rw [Wording.name, hn.wild]), ← fill_syms]
  refine sub_syms hW _ _ (fun x hx => ?_) (adjacent_syms a) fun h => hx ?_
  · obtain ⟨n, e⟩ := hn.var x (syms_var a hx)
    exact ⟨n, by rw [Wording.name, e]⟩
  · rw [print_syms]
    exact infix_render h id

end

end Verif
