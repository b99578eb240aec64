import Verif.Lemmas.Scan

/-! Where exactly the matcher stops: rules to compute it for texts with unknown parts. -/

namespace Verif

namespace Re

/-- The first possibility the matcher tries that leads anywhere is to stop before `s'`. -/
def First (a : Re) (s s' : List Char) : Prop :=
  ∀ (α : Type) (k : List Char → Option α) (x : α), k s' = some x → a.run s k = some x

/-- There is no match. -/
def Never (a : Re) (s : List Char) : Prop := ∀ (α : Type) (k : List Char → Option α), a.run s k = none

theorem never_iff {a : Re} {s : List Char} : a.Never s ↔ ¬a.Possible s := by
  constructor
  · intro h; exact rest_none.1 (h _ some)
  · intro h α k
    cases hr : a.run s k with
    | none => rfl
    | some x =>
      obtain ⟨u, r, hs, hu, _⟩ := (run_sound a s k).1 x hr
      exact absurd ⟨u, r, hs, hu⟩ h

theorem First.rest {a : Re} {s s' : List Char} (h : a.First s s') : a.rest s = some s' := h _ some s' rfl

theorem Never.rest {a : Re} {s : List Char} (h : a.Never s) : a.rest s = none := h _ some

theorem First.cls {p : Char → Bool} {c : Char} {s : List Char} (h : p c = true) : (Re.cls p).First (c :: s) s := by
  intro α k x hk
  simp [run, h, hk]

theorem Never.cls {p : Char → Bool} {c : Char} {s : List Char} (h : p c = false) : (Re.cls p).Never (c :: s) := by
  intro α k
  simp [run, h]

theorem Never.cls_nil {p : Char → Bool} : (Re.cls p).Never [] := fun _ _ => rfl

theorem First.eps {s : List Char} : Re.eps.First s s := fun _ _ _ h => h

theorem First.seq {a b : Re} {s s' s'' : List Char} (ha : a.First s s') (hb : b.First s' s'') : (Re.seq a b).First s s'' :=
  fun _ k x h => ha _ _ x (hb _ k x h)

theorem Never.seq_left {a b : Re} {s : List Char} (h : a.Never s) : (Re.seq a b).Never s := fun _ _ => h _ _

/-- If the first part can only match in one way. -/
theorem never_seq {a b : Re} {s : List Char} (h : ∀ u r, s = u ++ r → a.Accepts u r → b.Never r) : (Re.seq a b).Never s := by
  rw [never_iff]
  rintro ⟨u, r, rfl, v, w, rfl, h1, h2⟩
  exact never_iff.1 (h v (w ++ r) (by simp) h1) ⟨w, r, rfl, h2⟩

theorem First.alt_left {a b : Re} {s s' : List Char} (h : a.First s s') : (Re.alt a b).First s s' := by
  intro α k x hk
  simp [run, h _ k x hk]

theorem First.alt_right {a b : Re} {s s' : List Char} (ha : a.Never s) (h : b.First s s') : (Re.alt a b).First s s' := by
  intro α k x hk
  simp [run, ha _ k, h _ k x hk]

theorem Never.alt {a b : Re} {s : List Char} (ha : a.Never s) (hb : b.Never s) : (Re.alt a b).Never s := by
  intro α k
  simp [run, ha _ k, hb _ k]

theorem First.neg {a : Re} {s : List Char} (h : a.Never s) : (Re.neg a).First s s := by
  intro α k x hk
  simp [run, h _ _, hk]

theorem Never.neg {a : Re} {s : List Char} (h : a.Possible s) : (Re.neg a).Never s := by
  intro α k
  rw [run]
  cases hr : a.run s fun _ => some () with
  | some _ => rfl
  | none =>
    obtain ⟨u, r, hs, hu⟩ := h
    have := (run_sound a s fun _ => some ()).2 hr u r hs hu
    cases this

/-- The same for the loop. -/
def LoopFirst (a : Re) (s s' : List Char) : Prop :=
  ∀ (α : Type) (n : Nat) (k : List Char → Option α) (x : α), s.length ≤ n → k s' = some x → loop a.run n s k = some x

theorem First.star {a : Re} {s s' : List Char} (h : a.LoopFirst s s') : (Re.star a).First s s' :=
  fun _ k x hk => h _ _ k x (Nat.le_refl _) hk

theorem LoopFirst.stop {a : Re} {s : List Char} (h : a.Never s) : a.LoopFirst s s := by
  intro α n k x _ hk
  cases n with
  | zero => exact hk
  | succ n => rw [loop, h _]; exact hk

theorem LoopFirst.more {a : Re} {s s' s'' : List Char} (h : a.First s s') (hl : s'.length < s.length)
    (h' : a.LoopFirst s' s'') : a.LoopFirst s s'' := by
  intro α n k x hn hk
  cases n with
  | zero => omega
  | succ n =>
    rw [loop, h _ _ x]
    rw [if_pos hl]
    exact h' _ n k x (by omega) hk

theorem LoopFirst.cls {p : Char → Bool} : ∀ {u s : List Char}, (∀ c ∈ u, p c = true) → (∀ c ∈ s.head?, p c = false) →
    (Re.cls p).LoopFirst (u ++ s) s
  | [], [], _, _ => .stop .cls_nil
  | [], c :: s, _, h => .stop (.cls (h c rfl))
  | c :: u, s, h, h' => .more (.cls (h c (by simp))) (by simp) (LoopFirst.cls (fun c hc => h c (by simp [hc])) h')

theorem First.star_cls {p : Char → Bool} {u s : List Char} (h : ∀ c ∈ u, p c = true) (h' : ∀ c ∈ s.head?, p c = false) :
    (Re.star (Re.cls p)).First (u ++ s) s := .star (.cls h h')

theorem First.text {t r : List Char} : (Re.text t).First (t ++ r) r := by
  induction t with
  | nil => exact .eps
  | cons c t ih => exact .seq (.cls (by simp)) ih

theorem Never.text {t s : List Char} (h : ∀ r, s ≠ t ++ r) : (Re.text t).Never s := by
  rw [never_iff, possible_text]
  rintro ⟨r, hr⟩
  exact h r hr

theorem Never.text_head {c d : Char} {t s : List Char} (h : c ≠ d) : (Re.text (c :: t)).Never (d :: s) :=
  .text fun r hr => by simp at hr; exact h hr.1.symm

/-- May match the empty text (at the most). -/
def nullable : Re → Bool
  | cls _ => false
  | eps => true
  | seq a b => a.nullable && b.nullable
  | alt a b => a.nullable || b.nullable
  | star _ => true
  | neg _ => true
  | eos => true

/-- May match a text that begins with `c` (at the most). -/
def starts (c : Char) : Re → Bool
  | cls p => p c
  | eps => false
  | seq a b => a.starts c || (a.nullable && b.starts c)
  | alt a b => a.starts c || b.starts c
  | star a => a.starts c
  | neg _ => false
  | eos => false

theorem nullable_of : ∀ {a : Re} {r : List Char}, a.Accepts [] r → a.nullable = true
  | cls _, r, ⟨_, h, _⟩ => by simp at h
  | eps, _, _ => rfl
  | seq a b, r, ⟨u, v, h, h1, h2⟩ => by
    obtain ⟨rfl, rfl⟩ := List.append_eq_nil_iff.1 h.symm
    simp [nullable, nullable_of h1, nullable_of h2]
  | alt a b, r, h => by
    rcases h with h | h <;> simp [nullable, nullable_of h]
  | star _, _, _ => rfl
  | neg _, _, _ => rfl
  | eos, _, _ => rfl

theorem starts_of : ∀ {a : Re} {c : Char} {u r : List Char}, a.Accepts (c :: u) r → a.starts c = true
  | cls _, c, u, r, ⟨d, h, hp⟩ => by cases h; exact hp
  | seq a b, c, u, r, ⟨v, w, h, h1, h2⟩ => by
    cases v with
    | nil =>
      simp only [List.nil_append] at h
      subst h
      simp [starts, nullable_of h1, starts_of h2]
    | cons d v =>
      simp only [List.cons_append, List.cons.injEq] at h
      obtain ⟨rfl, _⟩ := h
      simp [starts, starts_of h1]
  | alt a b, c, u, r, h => by
    rcases h with h | h <;> simp [starts, starts_of h]
  | star a, c, u, r, h => by
    simp only [Accepts] at h
    generalize hu : c :: u = w at h
    cases h with
    | nil => cases hu
    | @more v _ _ hv h1 _ =>
      cases v with
      | nil => exact absurd rfl hv
      | cons d v =>
        simp only [List.cons_append, List.cons.injEq] at hu
        obtain ⟨rfl, _⟩ := hu
        simp only [starts]
        exact starts_of h1
  | eps, _, _, _, h => by cases h
  | neg _, _, _, _, h => by cases h.1
  | eos, _, _, _, h => by cases h.1

theorem never_of_starts {a : Re} {c : Char} {s : List Char} (h0 : a.nullable = false) (h : a.starts c = false) :
    a.Never (c :: s) := by
  rw [never_iff]
  rintro ⟨u, r, hs, hu⟩
  cases u with
  | nil => rw [nullable_of hu] at h0; cases h0
  | cons d u =>
    simp only [List.cons_append, List.cons.injEq] at hs
    obtain ⟨rfl, _⟩ := hs
    rw [starts_of hu] at h; cases h

theorem never_nil {a : Re} (h0 : a.nullable = false) : a.Never [] := by
  rw [never_iff]
  rintro ⟨u, r, hs, hu⟩
  obtain ⟨rfl, rfl⟩ := List.append_eq_nil_iff.1 hs.symm
  rw [nullable_of hu] at h0; cases h0

theorem accepts_oneOf : ∀ {ts : List (List Char)} {u r : List Char}, (oneOf ts).Accepts u r ↔ u ∈ ts
  | [], u, r => by
    simp only [oneOf, Accepts, List.not_mem_nil, iff_false]
    rintro ⟨rfl, h⟩
    exact h [] r rfl rfl
  | [t], u, r => by simp [oneOf, accepts_text]
  | t :: t' :: ts, u, r => by
    rw [oneOf, Accepts, accepts_text, accepts_oneOf, List.mem_cons (b := t)]
    simp

end Re

section
variable [Unicode]

theorem Kind.not_nullable (k : Kind) : k.re.nullable = false := by cases k <;> rfl

/-- To compute the first kind: the kinds before cannot begin with this character. -/
theorem firstKind_of {k : Kind} {c : Char} {s r : List Char} (hk : k.re.First (c :: s) r) : ∀ {ks : List Kind}, k ∈ ks →
    (∀ k' ∈ ks.takeWhile (· ≠ k), k'.re.Never (c :: s)) → firstKind (c :: s) ks = some (k, r)
  | k₀ :: ks, hm, h => by
    by_cases h0 : k₀ = k
    · subst h0
      rw [firstKind, hk.rest]
    · rw [List.takeWhile_cons, if_pos (by simpa using h0)] at h
      rw [firstKind, (h k₀ (by simp)).rest]
      refine firstKind_of hk ?_ fun k' hk' => h k' (List.mem_cons_of_mem _ hk')
      simp only [List.mem_cons] at hm
      rcases hm with rfl | hm
      · exact absurd rfl h0
      · exact hm

/-- A token at the beginning of the text: of kind `k`, and before the rest `r`. -/
structure NextTok (k : Kind) (u r : List Char) : Prop where
  visible : k ≠ .space ∧ k ≠ .comment
  kind : firstKind (u ++ r) Kind.all = some (k, r)
  noComment : (Re.text ['/', '*']).rest (u ++ r) = none
  nonempty : u ≠ []

theorem NextTok.scan {k : Kind} {u r : List Char} (h : NextTok k u r) (n col : Nat) :
    Verif.scan (n + 1) false col (u ++ r) =
      (Verif.scan n false (col + u.length) r).map fun (evs, b) => (.tok ⟨u, k, col, col + u.length⟩ :: evs, b) := by
  obtain ⟨hv, hk, hn, hne⟩ := h
  rw [Verif.scan.eq_def]
  simp only
  cases hs : u ++ r with
  | nil => exact absurd (List.append_eq_nil_iff.1 hs).1 hne
  | cons c cs =>
    simp only [Bool.false_eq_true, if_false]
    rw [← hs, hn, hk]
    simp [hv.1, hv.2]

end

end Verif
