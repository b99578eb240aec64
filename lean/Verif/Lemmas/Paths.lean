import Verif.Model.Script
import Verif.Spec.Paths

/-! # Paths of included files -/

namespace Verif

theorem splitSlash_ne : ∀ cs, splitSlash cs ≠ []
  | [] => by simp [splitSlash]
  | c :: cs => by
    rw [splitSlash]
    split
    · simp
    · split <;> simp

theorem splitSlash_cons (c : Char) (cs : List Char) (h : c ≠ '/') :
    ∃ w ws, splitSlash cs = w :: ws ∧ splitSlash (c :: cs) = (c :: w) :: ws := by
  cases hs : splitSlash cs with
  | nil => exact absurd hs (splitSlash_ne _)
  | cons w ws => exact ⟨w, ws, rfl, by simp [splitSlash, h, hs]⟩

/-- Components have no slashes. -/
theorem splitSlash_clean : ∀ cs, ∀ w ∈ splitSlash cs, '/' ∉ w
  | [] => by simp [splitSlash]
  | c :: cs => by
    by_cases h : c = '/'
    · simp only [splitSlash, h, if_true, List.mem_cons]
      rintro w (rfl | hw)
      · simp
      · exact splitSlash_clean cs w hw
    · obtain ⟨w, ws, h1, h2⟩ := splitSlash_cons c cs h
      have ih := splitSlash_clean cs
      rw [h1] at ih
      rw [h2]
      intro x hx
      rcases List.mem_cons.1 hx with rfl | hx
      · simp only [List.mem_cons, not_or]
        exact ⟨Ne.symm h, ih w (by simp)⟩
      · exact ih x (by simp [hx])

theorem along_eq : ∀ (cs : List Char) (d : List (List Char)) (w x : List Char) (xs : List (List Char)), splitSlash cs = x :: xs →
    Place.along d w cs = ((w ++ x) :: xs).foldl Place.enter d
  | [], d, w, x, xs, h => by
    simp only [splitSlash, List.cons.injEq] at h
    obtain ⟨rfl, rfl⟩ := h
    simp [Place.along]
  | c :: cs, d, w, x, xs, h => by
    by_cases hc : c = '/'
    · simp only [splitSlash, hc, if_true, List.cons.injEq] at h
      obtain ⟨rfl, rfl⟩ := h
      cases hs : splitSlash cs with
      | nil => exact absurd hs (splitSlash_ne _)
      | cons y ys => rw [Place.along, if_pos hc, along_eq cs _ _ _ _ hs]; simp
    · obtain ⟨y, ys, h1, h2⟩ := splitSlash_cons c cs hc
      rw [h2] at h
      cases h
      rw [Place.along, if_neg hc, along_eq cs _ _ _ _ h1]
      simp

/-- A path is followed component by component. -/
theorem along_split (cs : List Char) (d : List (List Char)) : Place.along d [] cs = (splitSlash cs).foldl Place.enter d := by
  cases hs : splitSlash cs with
  | nil => exact absurd hs (splitSlash_ne _)
  | cons y ys => rw [along_eq cs d [] y ys hs]; simp

theorem splitSlash_word : ∀ w, '/' ∉ w → splitSlash w = [w]
  | [], _ => rfl
  | c :: w, h => by
    simp only [List.mem_cons, not_or] at h
    obtain ⟨x, xs, h1, h2⟩ := splitSlash_cons c w (Ne.symm h.1)
    rw [splitSlash_word w h.2] at h1
    cases h1
    exact h2

theorem splitSlash_append : ∀ (w v : List Char), splitSlash (w ++ '/' :: v) = splitSlash w ++ splitSlash v
  | [], v => by simp [splitSlash]
  | c :: w, v => by
    by_cases hc : c = '/'
    · simp [splitSlash, hc, splitSlash_append w v]
    · obtain ⟨x, xs, h1, h2⟩ := splitSlash_cons c w hc
      obtain ⟨y, ys, h3, h4⟩ := splitSlash_cons c (w ++ '/' :: v) hc
      rw [splitSlash_append w v, h1] at h3
      simp only [List.cons_append, List.cons.injEq] at h3
      obtain ⟨rfl, rfl⟩ := h3
      rw [List.cons_append, h4, h2]
      rfl

theorem splitSlash_join : ∀ (ws : List (List Char)), ws ≠ [] → (∀ w ∈ ws, '/' ∉ w) → splitSlash (joinSlash ws) = ws
  | [], h, _ => absurd rfl h
  | [w], _, h => splitSlash_word w (h w (by simp))
  | w :: v :: ws, _, h => by
    rw [joinSlash, splitSlash_append, splitSlash_word w (h w (by simp)),
      splitSlash_join (v :: ws) (by simp) fun x hx => h x (by simp [hx])]
    · rfl
    · simp

/-- Components that do something. -/
def Moves (w : List Char) : Prop := w ≠ [] ∧ w ≠ ['.'] ∧ '/' ∉ w

theorem joinSlash_head {w : List Char} {ws : List (List Char)} (h : Moves w) :
    ∃ c cs, joinSlash (w :: ws) = c :: cs ∧ c ≠ '/' := by
  obtain ⟨h1, h2, h3⟩ := h
  cases w with
  | nil => exact absurd rfl h1
  | cons c w =>
    simp only [List.mem_cons, not_or] at h3
    cases ws with
    | nil => exact ⟨c, w, rfl, Ne.symm h3.1⟩
    | cons v ws => exact ⟨c, w ++ '/' :: joinSlash (v :: ws), rfl, Ne.symm h3.1⟩

/-- Following the normalised components. -/
theorem normComps_follow {root : Bool} (d : List (List Char)) (hd : root = true → d = []) :
    ∀ (ws acc : List (List Char)), (∀ w ∈ acc, w ≠ [] ∧ w ≠ ['.']) →
      (normComps root acc ws).foldl Place.enter d = ws.foldl Place.enter (acc.reverse.foldl Place.enter d)
  | [], acc, _ => by simp [normComps]
  | w :: ws, acc, h => by
    rw [normComps]
    split
    · rename_i hw
      rw [normComps_follow d hd ws acc h]
      simp [Place.enter, hw]
    · rename_i hw
      split
      · rw [normComps_follow d hd ws (w :: acc) (by
          intro x hx
          rcases List.mem_cons.1 hx with rfl | hx
          · simpa [not_or] using hw
          · exact h x hx)]
        simp
      · rename_i h2
        simp only [not_or, Decidable.not_not, not_and] at h2
        obtain ⟨rfl, h3, h4⟩ := h2
        rw [normComps_follow d hd ws acc.tail fun x hx => h x (List.mem_of_mem_tail hx)]
        cases acc with
        | nil =>
          have : root = true := by
            cases root with
            | true => rfl
            | false => exact absurd rfl (h3 rfl)
          simp [Place.enter, hd this]
        | cons a acc =>
          have ha := h a (by simp)
          have h4 : a ≠ ['.', '.'] := by simpa using h4
          simp [Place.enter, ha.1, ha.2, h4, List.foldl_append]

/-- The form of the normalised components: `..` first, then names; no `..` after a root. -/
theorem normComps_form {root : Bool} : ∀ (ws acc : List (List Char)) (k : Nat) (ns : List (List Char)), (root = true → k = 0) →
    acc = ns ++ List.replicate k ['.', '.'] → (∀ w ∈ ns, Moves w ∧ w ≠ ['.', '.']) → (∀ w ∈ ws, '/' ∉ w) →
    ∃ k ms, (root = true → k = 0) ∧ normComps root acc ws = List.replicate k ['.', '.'] ++ ms ∧ ∀ w ∈ ms, Moves w ∧ w ≠ ['.', '.']
  | [], acc, k, ns, hk, hacc, hns, _ => ⟨k, ns.reverse, hk, by simp [normComps, hacc], by simpa using hns⟩
  | w :: ws, acc, k, ns, hk, hacc, hns, hws => by
    have hws' : ∀ x ∈ ws, '/' ∉ x := fun x hx => hws x (by simp [hx])
    rw [normComps]
    split
    · exact normComps_form ws acc k ns hk hacc hns hws'
    · rename_i hw
      simp only [not_or] at hw
      split
      · rename_i h2
        by_cases hdd : w = ['.', '.']
        · subst hdd
          have hn : ns = [] := by
            rcases h2 with h2 | ⟨_, h2⟩ | h2
            · exact absurd rfl h2
            · rw [hacc] at h2
              exact (List.append_eq_nil_iff.1 h2).1
            · cases ns with
              | nil => rfl
              | cons n ns =>
                rw [hacc] at h2
                simp only [List.cons_append, List.head?_cons, Option.some.injEq] at h2
                exact absurd h2 (hns n (by simp)).2
          refine normComps_form ws (['.', '.'] :: acc) (k + 1) [] (fun hr => ?_) (by simp [hacc, hn, List.replicate_succ]) nofun hws'
          rcases h2 with h2 | ⟨h2, _⟩ | h2
          · exact absurd rfl h2
          · rw [hr] at h2; cases h2
          · rw [hacc, hn, hk hr] at h2; cases h2
        · refine normComps_form ws (w :: acc) k (w :: ns) hk (by simp [hacc]) (fun x hx => ?_) hws'
          rcases List.mem_cons.1 hx with rfl | hx
          · exact ⟨⟨hw.1, hw.2, hws x (by simp)⟩, hdd⟩
          · exact hns x hx
      · rename_i h2
        simp only [not_or, Decidable.not_not, not_and] at h2
        obtain ⟨rfl, h3, h4⟩ := h2
        cases ns with
        | cons n ns => exact normComps_form ws acc.tail k ns hk (by simp [hacc]) (fun x hx => hns x (by simp [hx])) hws'
        | nil =>
          cases k with
          | zero => exact normComps_form ws acc.tail 0 [] hk (by simp [hacc]) nofun hws'
          | succ k => exact absurd (by simp [hacc, List.replicate_succ]) h4

theorem enter_names : ∀ (ms d : List (List Char)), (∀ w ∈ ms, Moves w ∧ w ≠ ['.', '.']) → ms.foldl Place.enter d = ms.reverse ++ d
  | [], d, _ => rfl
  | m :: ms, d, h => by
    obtain ⟨⟨h1, h2, _⟩, h3⟩ := h m (by simp)
    rw [List.foldl_cons, enter_names ms _ fun x hx => h x (by simp [hx])]
    simp [Place.enter, h1, h2, h3]

theorem enter_up : ∀ (k : Nat) (d : List (List Char)), (List.replicate k ['.', '.']).foldl Place.enter d = d.drop k
  | 0, d => rfl
  | k + 1, d => by
    rw [List.replicate_succ, List.foldl_cons, enter_up k]
    simp [Place.enter, List.drop_tail]

/-- The number of slashes of the root: none, one or two. -/
def rootSlashes (p : List Char) : Nat :=
  if p.head? = some '/' then if (p.takeWhile (· = '/')).length = 2 then 2 else 1 else 0

/-- The normalised path in parts: slashes, `..`, names. -/
theorem normpath_parts (p : List Char) : ∃ (k : Nat) (ms : List (List Char)),
    (rootSlashes p ≠ 0 → k = 0) ∧ (∀ w ∈ ms, Moves w ∧ w ≠ ['.', '.']) ∧
    (∀ d, (rootSlashes p ≠ 0 → d = []) → (splitSlash p).foldl Place.enter d = ms.reverse ++ d.drop k) ∧
    normpath p = if rootSlashes p = 0 ∧ List.replicate k ['.', '.'] ++ ms = [] then ['.']
      else List.replicate (rootSlashes p) '/' ++ joinSlash (List.replicate k ['.', '.'] ++ ms) := by
  have hroot : (if p.takeWhile (· = '/') = [] then [] else if (p.takeWhile (· = '/')).length = 2 then ['/', '/'] else ['/']) =
      List.replicate (rootSlashes p) '/' := by
    unfold rootSlashes
    cases p with
    | nil => rfl
    | cons c cs =>
      by_cases hc : c = '/'
      · subst hc
        simp only [List.head?_cons, if_true]
        rw [if_neg (by simp)]
        split <;> rfl
      · simp [hc]
  have hb : (!(List.replicate (rootSlashes p) '/').isEmpty) = decide (rootSlashes p ≠ 0) := by
    cases rootSlashes p <;> simp [List.replicate_succ]
  obtain ⟨k, ms, hk, hn, hms⟩ := normComps_form (root := decide (rootSlashes p ≠ 0)) (splitSlash p) [] 0 [] (fun _ => rfl) rfl nofun
    (splitSlash_clean p)
  refine ⟨k, ms, fun h => hk (by simpa using h), hms, fun d hd => ?_, ?_⟩
  · have := normComps_follow (root := decide (rootSlashes p ≠ 0)) d (fun h => hd (by simpa using h)) (splitSlash p) [] nofun
    rw [List.reverse_nil, List.foldl_nil] at this
    rw [← this, hn, List.foldl_append, enter_up, enter_names _ _ hms]
  · unfold normpath
    simp only [hroot, hb, hn]
    by_cases h : rootSlashes p = 0 ∧ List.replicate k ['.', '.'] ++ ms = []
    · rw [if_pos h, if_pos]
      rw [h.1, h.2]
      rfl
    · rw [if_neg h, if_neg]
      intro he
      obtain ⟨h1, h2⟩ := List.append_eq_nil_iff.1 he
      refine h ⟨by simpa using h1, ?_⟩
      cases hl : List.replicate k ['.', '.'] ++ ms with
      | nil => rfl
      | cons w ws =>
        have hw : Moves w := by
          have : w ∈ List.replicate k ['.', '.'] ++ ms := by rw [hl]; simp
          rcases List.mem_append.1 this with h | h
          · rw [(List.mem_replicate.1 h).2]; simp [Moves]
          · exact (hms w h).1
        obtain ⟨c, cs, h, _⟩ := joinSlash_head (ws := ws) hw
        rw [hl, h] at h2
        cases h2

theorem follow_eq (cwd : Place) (p : List Char) : cwd.follow p =
    if rootSlashes p = 0 then ⟨cwd.double, (splitSlash p).foldl Place.enter cwd.names⟩
    else ⟨decide (rootSlashes p = 2), (splitSlash p).foldl Place.enter []⟩ := by
  unfold Place.follow rootSlashes
  simp only [along_split]
  split
  · split <;> simp_all
  · simp

theorem rootSlashes_le (p : List Char) : rootSlashes p ≤ 2 := by
  unfold rootSlashes
  split
  · split <;> omega
  · omega

theorem rootSlashes_replicate {r : Nat} {v : List Char} (hr : r ≤ 2) (hv : v.head? ≠ some '/') : rootSlashes (List.replicate r '/' ++ v) = r := by
  have ht : v.takeWhile (· = '/') = [] := by
    cases v with
    | nil => rfl
    | cons c cs =>
      have : c ≠ '/' := by simpa using hv
      simp [this]
  rcases r with _ | _ | _ | r
  · simp [rootSlashes, hv]
  · simp [rootSlashes, ht]
  · simp [rootSlashes, List.replicate_succ, ht]
  · omega

theorem splitSlash_replicate (d : List (List Char)) (v : List Char) : ∀ r : Nat,
    (splitSlash (List.replicate r '/' ++ v)).foldl Place.enter d = (splitSlash v).foldl Place.enter d
  | 0 => by simp
  | r + 1 => by
    rw [List.replicate_succ, List.cons_append, splitSlash, if_pos rfl, List.foldl_cons, splitSlash_replicate _ v r]
    simp [Place.enter]

/-- The normalised path leads to the same place. -/
theorem follow_normpath (cwd : Place) (p : List Char) : cwd.follow (normpath p) = cwd.follow p := by
  obtain ⟨k, ms, hk, hms, hf, hn⟩ := normpath_parts p
  have hall : ∀ w ∈ List.replicate k ['.', '.'] ++ ms, Moves w := by
    intro w h
    rcases List.mem_append.1 h with h | h
    · rw [(List.mem_replicate.1 h).2]; simp [Moves]
    · exact (hms w h).1
  have hgo : ∀ d, (List.replicate k ['.', '.'] ++ ms).foldl Place.enter d = ms.reverse ++ d.drop k := fun d => by
    rw [List.foldl_append, enter_up, enter_names _ _ hms]
  rw [hn]
  split
  · rename_i h
    have h0 := hgo cwd.names
    rw [h.2] at h0
    have h1 : rootSlashes ['.'] = 0 := by simp [rootSlashes]
    rw [follow_eq, follow_eq, h1, h.1, if_pos rfl, if_pos rfl, hf _ (fun h' => absurd h.1 h'), ← h0]
    simp [splitSlash, Place.enter]
  · have hhead : (joinSlash (List.replicate k ['.', '.'] ++ ms)).head? ≠ some '/' := by
      cases hl : List.replicate k ['.', '.'] ++ ms with
      | nil => simp [joinSlash]
      | cons w ws =>
        obtain ⟨c, cs, h, hc⟩ := joinSlash_head (ws := ws) (hall w (by rw [hl]; simp))
        rw [h]
        simpa using hc
    have hsp : ∀ d, (splitSlash (joinSlash (List.replicate k ['.', '.'] ++ ms))).foldl Place.enter d = ms.reverse ++ d.drop k := fun d => by
      rw [← hgo d]
      by_cases hl : List.replicate k ['.', '.'] ++ ms = []
      · rw [hl]; simp [joinSlash, splitSlash, Place.enter]
      · rw [splitSlash_join _ hl fun w hw => (hall w hw).2.2]
    rw [follow_eq, follow_eq, rootSlashes_replicate (rootSlashes_le p) hhead]
    simp only [splitSlash_replicate, hsp]
    split
    · rename_i h
      rw [hf _ fun h' => absurd h h']
    · rename_i h
      rw [hf _ fun _ => rfl]

/-- Paths that lead to the same place from everywhere have the same normal form. -/
theorem normpath_unique {p q : List Char} (h : ∀ cwd : Place, cwd.follow p = cwd.follow q) : normpath p = normpath q := by
  obtain ⟨k, ms, hk, hms, hf, hn⟩ := normpath_parts p
  obtain ⟨l, ns, hl, hns, hg, hn'⟩ := normpath_parts q
  have hr : rootSlashes p = rootSlashes q := by
    have a := congrArg Place.double (h ⟨true, []⟩)
    have b := congrArg Place.double (h ⟨false, []⟩)
    have c := rootSlashes_le p
    have d := rootSlashes_le q
    rw [follow_eq, follow_eq] at a b
    by_cases hp : rootSlashes p = 0 <;> by_cases hq : rootSlashes q = 0 <;> simp [hp, hq] at a b
    · omega
    · omega
    · omega
    · by_cases h2 : rootSlashes p = 2 <;> simp [h2] at a <;> omega
  have he : ∀ d, (rootSlashes p ≠ 0 → d = []) → ms.reverse ++ d.drop k = ns.reverse ++ d.drop l := fun d hd => by
    rw [← hf d hd, ← hg d (hr ▸ hd)]
    have := congrArg Place.names (h ⟨false, d⟩)
    rw [follow_eq, follow_eq, ← hr] at this
    by_cases h0 : rootSlashes p = 0
    · simpa [h0] using this
    · simpa [h0, hd h0] using this
  have hm : ms = ns := by
    have := he [] fun _ => rfl
    simpa using this
  have hkl : k = l := by
    by_cases h0 : rootSlashes p = 0
    · have := congrArg List.length (he (List.replicate (k + l) []) fun h => absurd h0 h)
      simp [hm] at this
      omega
    · rw [hk h0, hl (hr ▸ h0)]
  rw [hn, hn', hr, hm, hkl]

theorem rootSlashes_append {a c : List Char} (ha : a ≠ []) (h : c.head? ≠ some '/' ∨ a.getLast? ≠ some '/') :
    rootSlashes (a ++ c) = rootSlashes a := by
  have hh : (a ++ c).head? = a.head? := by
    cases a with
    | nil => exact absurd rfl ha
    | cons x a => rfl
  have ht : (a ++ c).takeWhile (· = '/') = a.takeWhile (· = '/') := by
    rw [List.takeWhile_append]
    split
    · rename_i hl
      have hall : a.takeWhile (· = '/') = a := List.IsPrefix.eq_of_length (List.takeWhile_prefix _) hl
      rw [hall]
      rcases h with h | h
      · have : c.takeWhile (· = '/') = [] := by
          cases c with
          | nil => rfl
          | cons x c =>
            have : x ≠ '/' := by simpa using h
            simp [this]
        rw [this, List.append_nil]
      · exfalso
        apply h
        rw [List.getLast?_eq_some_getLast ha]
        have : a.getLast ha ∈ a.takeWhile (· = '/') := by rw [hall]; exact List.getLast_mem ha
        have := List.all_takeWhile (p := fun x => decide (x = '/')) (l := a)
        rw [hall, List.all_eq_true] at this
        simpa using this _ (List.getLast_mem ha)
    · rfl
  unfold rootSlashes
  rw [hh, ht]

theorem rootSlashes_zero {p : List Char} : rootSlashes p = 0 ↔ p.head? ≠ some '/' := by
  unfold rootSlashes
  split
  · rename_i h
    simp only [h, ne_eq, not_true_eq_false, iff_false]
    split <;> omega
  · simp_all

theorem follow_nil (cwd : Place) : cwd.follow [] = cwd := by
  simp [Place.follow, Place.along, Place.enter]

/-- From the directory `a` along `b`. -/
theorem follow_join (cwd : Place) (a b : List Char) : cwd.follow (joinPath a b) = (cwd.follow a).follow b := by
  unfold joinPath
  by_cases hb : b.head? = some '/'
  · have h0 : rootSlashes b ≠ 0 := fun h => rootSlashes_zero.1 h hb
    rw [if_pos hb, follow_eq, follow_eq, if_neg h0, if_neg h0]
  · have h0 := rootSlashes_zero.2 hb
    rw [if_neg hb]
    by_cases ha : a = []
    · rw [if_pos (.inl ha), ha, follow_nil]; rfl
    by_cases hl : a.getLast? = some '/'
    · rw [if_pos (.inr hl)]
      obtain ⟨a', rfl⟩ := List.getLast?_eq_some_iff.1 hl
      have hs : splitSlash (a' ++ ['/'] ++ b) = splitSlash a' ++ splitSlash b := by
        rw [List.append_assoc]; exact splitSlash_append a' b
      have hs' : splitSlash (a' ++ ['/']) = splitSlash a' ++ [[]] := splitSlash_append a' []
      rw [follow_eq, follow_eq, follow_eq, h0, rootSlashes_append ha (.inl hb), hs, hs']
      split <;> simp [List.foldl_append, Place.enter]
    · rw [if_neg (by simp [ha, hl])]
      rw [follow_eq, follow_eq, follow_eq, h0, rootSlashes_append ha (.inr hl), splitSlash_append]
      split <;> simp [List.foldl_append]

theorem follow_slashes (cwd : Place) {e : List Char} (he : e ≠ []) (hl : e.getLast? ≠ some '/') (j : Nat) :
    cwd.follow (e ++ List.replicate j '/') = cwd.follow e := by
  cases j with
  | zero => simp
  | succ j =>
    rw [follow_eq, follow_eq, rootSlashes_append he (.inr hl), List.replicate_succ, splitSlash_append]
    have : ∀ d, (splitSlash (List.replicate j '/')).foldl Place.enter d = d := fun d => by
      have := splitSlash_replicate d [] j
      rw [List.append_nil] at this
      rw [this]
      simp [splitSlash, Place.enter]
    simp only [List.foldl_append, this]

theorem dirname_up {d f : List Char} (hf : '/' ∉ f) (hd : d = [] ∨ d.getLast? = some '/') :
    (d ++ f).reverse.dropWhile (· ≠ '/') = d.reverse := by
  rw [List.reverse_append, List.dropWhile_append]
  have h1 : f.reverse.dropWhile (· ≠ '/') = [] := by
    have : ∀ l : List Char, '/' ∉ l → l.dropWhile (· ≠ '/') = [] := fun l => by
      induction l with
      | nil => simp
      | cons c l ih =>
        simp only [List.mem_cons, not_or]
        intro h
        simp [Ne.symm h.1]
        simpa using ih h.2
    exact this _ (by simpa using hf)
  rw [h1]
  rcases hd with rfl | hd
  · rfl
  · simp only [List.isEmpty_nil, if_true]
    cases hr : d.reverse with
    | nil => rfl
    | cons x xs =>
      have : d.reverse.head? = some '/' := by simpa using hd
      rw [hr] at this
      cases this
      simp

/-- The directory of a file. -/
theorem follow_dirname (cwd : Place) (d f : List Char) (hf : '/' ∉ f) (hd : d = [] ∨ d.getLast? = some '/') :
    cwd.follow (dirname (d ++ f)) = cwd.follow d := by
  have hup := dirname_up hf hd
  unfold dirname
  simp only [hup]
  split
  · simp
  · rename_i hne
    have hsplit := List.takeWhile_append_dropWhile (p := fun x => decide (x = '/')) (l := d.reverse)
    have hrep : d.reverse.takeWhile (fun x => decide (x = '/')) = List.replicate (d.reverse.takeWhile (fun x => decide (x = '/'))).length '/' := by
      rw [List.eq_replicate_iff]
      refine ⟨rfl, fun b hb => ?_⟩
      have := List.all_takeWhile (p := fun x => decide (x = '/')) (l := d.reverse)
      rw [List.all_eq_true] at this
      simpa using this b hb
    have hde : d = (d.reverse.dropWhile (fun x => decide (x = '/'))).reverse ++
        List.replicate (d.reverse.takeWhile (fun x => decide (x = '/'))).length '/' := by
      have := congrArg List.reverse hsplit
      rw [List.reverse_append, List.reverse_reverse, hrep] at this
      simpa using this.symm
    conv => rhs; rw [hde]
    refine (follow_slashes cwd (by simpa using hne) ?_ _).symm
    rw [List.getLast?_reverse]
    intro h
    cases hc : d.reverse.dropWhile (fun x => decide (x = '/')) with
    | nil => rw [hc] at h; cases h
    | cons x xs =>
      have := List.head_dropWhile_not (p := fun x => decide (x = '/')) (l := d.reverse) (by rw [hc]; simp)
      rw [hc] at h
      simp only [List.head?_cons, Option.some.injEq] at h
      simp [hc, h] at this

/-! ## Normalised paths -/

theorem joinSlash_append : ∀ (xs ys : List (List Char)), xs ≠ [] → ys ≠ [] → joinSlash (xs ++ ys) = joinSlash xs ++ '/' :: joinSlash ys
  | [], _, h, _ => absurd rfl h
  | [x], y :: ys, _, _ => rfl
  | x :: x' :: xs, ys, _, h => by
    have := joinSlash_append (x' :: xs) ys (by simp) h
    rw [List.cons_append] at this
    simp [joinSlash, this]

theorem joinSlash_split : ∀ cs, joinSlash (splitSlash cs) = cs
  | [] => rfl
  | c :: cs => by
    have ih := joinSlash_split cs
    by_cases hc : c = '/'
    · subst hc
      rw [splitSlash, if_pos rfl]
      cases hs : splitSlash cs with
      | nil => exact absurd hs (splitSlash_ne _)
      | cons w ws => rw [hs] at ih; simp [joinSlash, ih]
    · obtain ⟨w, ws, h1, h2⟩ := splitSlash_cons c cs hc
      rw [h1] at ih
      rw [h2]
      cases ws with
      | nil => simpa [joinSlash] using ih
      | cons v ws => simpa [joinSlash] using ih

theorem SimplePath.names {n : List Char} (h : SimplePath n) : ∀ w ∈ splitSlash n, Moves w ∧ w ≠ ['.', '.'] := by
  intro w hw
  obtain ⟨xs, ys, he⟩ := List.append_of_mem hw
  have hn := joinSlash_split n
  rw [he] at hn
  have hc := splitSlash_clean n w hw
  have : w ≠ [] ∧ w ≠ ['.'] ∧ w ≠ ['.', '.'] := by
    by_cases hx : xs = []
    · by_cases hy : ys = []
      · refine h [] w [] ?_ (.inl rfl) hc (.inl rfl)
        rw [← hn, hx, hy]; simp [joinSlash]
      · refine h [] w ('/' :: joinSlash ys) ?_ (.inl rfl) hc (.inr rfl)
        rw [← hn, hx]
        exact joinSlash_append [w] ys (by simp) hy
    · by_cases hy : ys = []
      · refine h (joinSlash xs ++ ['/']) w [] ?_ (.inr (by simp)) hc (.inl rfl)
        rw [← hn, hy, joinSlash_append xs [w] hx (by simp)]
        simp [joinSlash]
      · refine h (joinSlash xs ++ ['/']) w ('/' :: joinSlash ys) ?_ (.inr (by simp)) hc (.inr rfl)
        rw [← hn, joinSlash_append xs (w :: ys) hx (by simp)]
        have := joinSlash_append [w] ys (by simp) hy
        simp only [List.singleton_append] at this
        rw [this]
        simp [joinSlash]
  exact ⟨⟨this.1, this.2.1, hc⟩, this.2.2⟩

/-- A path of the form of normalised paths. -/
structure NormForm (p : List Char) (r k : Nat) (ms : List (List Char)) : Prop where
  root : r ≤ 2
  up : r ≠ 0 → k = 0
  names : ∀ w ∈ ms, Moves w ∧ w ≠ ['.', '.']
  path : p = List.replicate r '/' ++ joinSlash (List.replicate k ['.', '.'] ++ ms)

theorem NormForm.moves {p : List Char} {r k : Nat} {ms : List (List Char)} (h : NormForm p r k ms) :
    ∀ w ∈ List.replicate k ['.', '.'] ++ ms, Moves w := by
  intro w hw
  rcases List.mem_append.1 hw with hw | hw
  · rw [(List.mem_replicate.1 hw).2]; simp [Moves]
  · exact (h.names w hw).1

theorem NormForm.slashes {p : List Char} {r k : Nat} {ms : List (List Char)} (h : NormForm p r k ms) : rootSlashes p = r := by
  rw [h.path]
  refine rootSlashes_replicate h.root ?_
  cases hl : List.replicate k ['.', '.'] ++ ms with
  | nil => simp [joinSlash]
  | cons w ws =>
    obtain ⟨c, cs, hh, hc⟩ := joinSlash_head (ws := ws) (h.moves w (by rw [hl]; simp))
    rw [hh]
    simpa using hc

theorem NormForm.fold {p : List Char} {r k : Nat} {ms : List (List Char)} (h : NormForm p r k ms) (d : List (List Char)) :
    (splitSlash p).foldl Place.enter d = ms.reverse ++ d.drop k := by
  rw [h.path, splitSlash_replicate, ← enter_names ms _ h.names, ← enter_up, ← List.foldl_append]
  by_cases hl : List.replicate k ['.', '.'] ++ ms = []
  · rw [hl]; simp [joinSlash, splitSlash, Place.enter]
  · rw [splitSlash_join _ hl fun w hw => (h.moves w hw).2.2]

theorem NormForm.norm {p : List Char} {r k : Nat} {ms : List (List Char)} (h : NormForm p r k ms) (hne : p ≠ []) : normpath p = p := by
  obtain ⟨l, ns, hl, hns, hg, hn⟩ := normpath_parts p
  rw [h.slashes] at hl hg hn
  have he : ∀ d, (r ≠ 0 → d = []) → ms.reverse ++ d.drop k = ns.reverse ++ d.drop l := fun d hd => by
    rw [← hg d hd, h.fold]
  have hm : ms = ns := by
    have := he [] fun _ => rfl
    simpa using this
  have hkl : k = l := by
    by_cases h0 : r = 0
    · have := congrArg List.length (he (List.replicate (k + l) []) fun h => absurd h0 h)
      simp [hm] at this
      omega
    · rw [h.up h0, hl h0]
  rw [hn, ← hm, ← hkl, if_neg, ← h.path]
  rintro ⟨rfl, h2⟩
  rw [h.path, h2] at hne
  exact hne rfl

theorem normForm {p : List Char} (h : normpath p = p) : p = ['.'] ∨ ∃ r k ms, NormForm p r k ms := by
  obtain ⟨k, ms, hk, hms, _, hn⟩ := normpath_parts p
  rw [h] at hn
  split at hn
  · exact .inl hn
  · exact .inr ⟨_, k, ms, rootSlashes_le p, hk, hms, hn⟩

theorem dirname_word {r : Nat} {f : List Char} (hf : '/' ∉ f) : dirname (List.replicate r '/' ++ f) = List.replicate r '/' := by
  have hup := dirname_up (d := List.replicate r '/') hf (by cases r with
    | zero => exact .inl rfl
    | succ r => right; simp [List.getLast?_replicate])
  unfold dirname
  simp only [hup]
  rw [if_pos (by simp)]
  simp

theorem dirname_dir {d f : List Char} (hf : '/' ∉ f) (hd : d ≠ []) (hl : d.getLast? ≠ some '/') : dirname (d ++ '/' :: f) = d := by
  have hup := dirname_up (d := d ++ ['/']) hf (.inr (by simp))
  rw [List.append_assoc, List.singleton_append] at hup
  unfold dirname
  simp only [hup]
  have : (d ++ ['/']).reverse.dropWhile (fun x => decide (x = '/')) = d.reverse := by
    rw [List.reverse_append]
    simp only [List.reverse_singleton, List.singleton_append]
    rw [List.dropWhile_cons_of_pos (by simp)]
    cases hr : d.reverse with
    | nil => rfl
    | cons c cs =>
      have : d.reverse.head? ≠ some '/' := by simpa using hl
      rw [hr] at this
      rw [List.dropWhile_cons_of_neg]
      simpa using this
  rw [this, if_neg (by simpa using hd)]
  simp

theorem SimplePath.relative {n : List Char} (h : SimplePath n) : n ≠ [] ∧ n.head? ≠ some '/' := by
  constructor
  · intro h0
    exact (h [] [] n rfl (.inl rfl) (by simp) (.inl h0)).1 rfl
  · intro h0
    exact (h [] [] n rfl (.inl rfl) (by simp) (.inr h0)).1 rfl

theorem SimplePath.word {n : List Char} (h : '/' ∉ n) (h1 : n ≠ [] ∧ n ≠ ['.'] ∧ n ≠ ['.', '.']) : SimplePath n := by
  intro a w b he ha hw hb
  rw [he] at h
  simp only [List.mem_append, not_or] at h
  have ha' : a = [] := ha.resolve_right fun h' => h.1.1 (List.mem_of_getLast? h')
  have hb' : b = [] := hb.resolve_right fun h' => h.2 (List.mem_of_head? h')
  subst ha' hb'
  simp only [List.nil_append, List.append_nil] at he
  exact he ▸ h1

theorem join_root {r : Nat} {n : List Char} (h : n.head? ≠ some '/') : joinPath (List.replicate r '/') n = List.replicate r '/' ++ n := by
  rw [joinPath, if_neg h, if_pos]
  cases r with
  | zero => exact .inl rfl
  | succ r => right; simp [List.getLast?_replicate]

/-- Simple names from normalised paths are normalised. -/
theorem norm_include {file name : List Char} (hf : normpath file = file) (hn : SimplePath name) :
    normpath (joinPath (dirname file) name) = joinPath (dirname file) name := by
  obtain ⟨hne, hrel⟩ := hn.relative
  have hroot : ∀ (r : Nat), r ≤ 2 → normpath (List.replicate r '/' ++ name) = List.replicate r '/' ++ name := fun r hr =>
    NormForm.norm (r := r) (k := 0) (ms := splitSlash name) ⟨hr, fun _ => rfl, hn.names, by simp [joinSlash_split]⟩ (by simp [hne])
  have hword : ∀ (r : Nat) (f : List Char), r ≤ 2 → '/' ∉ f → file = List.replicate r '/' ++ f →
      normpath (joinPath (dirname file) name) = joinPath (dirname file) name := fun r f hr hf he => by
    rw [he, dirname_word hf, join_root hrel]
    exact hroot r hr
  rcases normForm hf with hf | ⟨r, k, ms, hf⟩
  · exact hword 0 ['.'] (by omega) (by simp) hf
  · rcases List.eq_nil_or_concat (List.replicate k ['.', '.'] ++ ms) with h0 | ⟨cs, c, hc⟩
    · exact hword r [] hf.root (by simp) (by rw [hf.path, h0]; rfl)
    · have hall := hf.moves
      have hpath := hf.path
      rw [hc, List.concat_eq_append] at hall hpath
      have hcc := (hall c (by simp)).2.2
      by_cases hcs : cs = []
      · exact hword r c hf.root hcc (by rw [hpath, hcs]; rfl)
      · have hform : ∃ k' ms', cs = List.replicate k' ['.', '.'] ++ ms' ∧ (k = 0 → k' = 0) ∧ ∀ w ∈ ms', w ∈ ms := by
          rcases List.eq_nil_or_concat ms with h0 | ⟨ms', m, hm⟩
          · cases k with
            | zero => rw [h0] at hc; simp at hc
            | succ k =>
              refine ⟨k, [], ?_, nofun, nofun⟩
              rw [h0, List.append_nil, List.concat_eq_append, List.replicate_succ'] at hc
              simpa using (List.append_inj' hc rfl).1.symm
          · refine ⟨k, ms', ?_, id, fun w hw => by rw [hm]; simp [hw]⟩
            rw [hm, List.concat_eq_append, List.concat_eq_append, ← List.append_assoc] at hc
            exact (List.append_inj' hc rfl).1.symm
        obtain ⟨k', ms', hcs', hk', hms'⟩ := hform
        rw [joinSlash_append cs [c] hcs (by simp), ← List.append_assoc] at hpath
        have hlast : (joinSlash cs).getLast? ≠ some '/' ∧ joinSlash cs ≠ [] := by
          rcases List.eq_nil_or_concat cs with h0 | ⟨ds, e, he⟩
          · exact absurd h0 hcs
          · have hm := hall e (by rw [he]; simp)
            have : (joinSlash cs).getLast? = e.getLast? ∧ joinSlash cs ≠ [] := by
              rw [he, List.concat_eq_append]
              by_cases hd : ds = []
              · rw [hd]; exact ⟨rfl, hm.1⟩
              · rw [joinSlash_append ds [e] hd (by simp)]
                refine ⟨?_, by simp⟩
                simp only [joinSlash]
                rw [List.getLast?_append]
                cases e with
                | nil => exact absurd rfl hm.1
                | cons x e => rw [List.getLast?_cons_cons, List.getLast?_eq_some_getLast (l := x :: e) (by simp)]; rfl
            refine ⟨?_, this.2⟩
            rw [this.1]
            intro h
            exact hm.2.2 (List.mem_of_getLast? h)
        have hd1 : List.replicate r '/' ++ joinSlash cs ≠ [] := by simp [hlast.2]
        have hd2 : (List.replicate r '/' ++ joinSlash cs).getLast? ≠ some '/' := by
          rw [List.getLast?_append]
          cases hj : (joinSlash cs).getLast? with
          | none => rw [List.getLast?_eq_none_iff] at hj; exact absurd hj hlast.2
          | some x => have := hlast.1; rw [hj] at this; simpa using this
        rw [hpath, show joinSlash [c] = c from rfl, dirname_dir hcc hd1 hd2, joinPath, if_neg hrel, if_neg (by simp only [not_or]; exact ⟨hd1, hd2⟩)]
        refine NormForm.norm (r := r) (k := k') (ms := ms' ++ splitSlash name)
          ⟨hf.root, fun h => hk' (hf.up h), fun w hw => ?_, ?_⟩ (by simp)
        · rcases List.mem_append.1 hw with hw | hw
          · exact hf.names w (hms' w hw)
          · exact hn.names w hw
        · rw [← List.append_assoc, ← hcs', joinSlash_append cs _ hcs (splitSlash_ne _), joinSlash_split, List.append_assoc]

end Verif
