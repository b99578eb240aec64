import Verif.Spec.Dump
import Verif.Lemmas.RunInv

/-! Lemmas: the control flow graph. -/

namespace Verif

theorem countP_lt {p q : Nat → Bool} : ∀ {l : List Nat}, (∀ x ∈ l, p x = true → q x = true) → (∃ x ∈ l, q x = true ∧ p x = false) →
    l.countP p < l.countP q
  | [], _, ⟨_, h, _⟩ => by cases h
  | x :: l, h1, ⟨y, hy, h2, h3⟩ => by
    have hle : l.countP p ≤ l.countP q := List.countP_mono_left fun z hz => h1 z (by simp [hz])
    by_cases hx : ∃ x ∈ l, q x = true ∧ p x = false
    · have := countP_lt (fun z hz => h1 z (by simp [hz])) hx
      have hx := h1 x (by simp)
      simp only [List.countP_cons]
      split <;> split <;> simp_all <;> omega
    · have : y = x := by
        rcases List.mem_cons.1 hy with h | h
        · exact h
        · exact absurd ⟨y, h, h2, h3⟩ hx
      subst this
      simp only [List.countP_cons, h2, h3]
      simp
      omega

theorem mem_openInstr {j : Option Nat} {closed opened : List Nat} {k : Nat} :
    k ∈ openInstr j closed opened ↔ k ∈ opened ∨ (j = some k ∧ k ∉ closed) := by
  cases j with
  | none => simp [openInstr]
  | some j =>
    simp only [openInstr]
    split
    · simp only [Option.some.injEq]
      constructor
      · exact .inl
      · rintro (h | ⟨rfl, h⟩)
        · exact h
        · contradiction
    · rw [List.mem_insert_iff]
      simp only [Option.some.injEq]
      constructor
      · rintro (rfl | h)
        · exact .inr ⟨rfl, ‹_›⟩
        · exact .inl h
      · rintro (h | ⟨rfl, h⟩)
        · exact .inr h
        · exact .inl rfl

theorem nodup_openInstr {j : Option Nat} {closed opened : List Nat} (h : opened.Nodup) : (openInstr j closed opened).Nodup := by
  cases j with
  | none => exact h
  | some j =>
    simp only [openInstr]
    split
    · exact h
    · by_cases hj : j ∈ opened
      · rwa [List.insert_of_mem hj]
      · rw [List.insert_of_not_mem hj]
        exact List.nodup_cons.2 ⟨hj, h⟩

theorem getD_mem {l : List Nat} {k i : Nat} : (i :: l).getD k i ∈ i :: l := by
  rw [List.getD_eq_getElem?_getD]
  cases h : (i :: l)[k]? with
  | none => simp
  | some x => simpa using List.mem_of_getElem? h

theorem Connected.trans {c : Code} {i j k : Nat} (h : Connected c i j) (h1 : Connected c j k) : Connected c i k := by
  induction h1 with
  | refl => exact h
  | success _ h ih => exact .success ih h
  | failure _ h ih => exact .failure ih h

/-- Both references of an instruction. -/
def Instr.Next (x : Instr) (k : Nat) : Prop := x.success = some k ∨ x.failure = some k

variable {pop : List Nat → Nat} {c : Code}

/-- The instructions are visited in some order `is`, each once. -/
theorem graphLoop_visits : ∀ {n : Nat} {opened closed : List Nat} {es : List Edge}, graphLoop pop c n opened closed = some es →
    opened.Nodup → (∀ i ∈ opened, i ∉ closed) → (∀ i ∈ closed, ∀ k, (c.instr i).Next k → k ∈ closed ∨ k ∈ opened) →
    ∃ is : List Nat, es = is.flatMap (fun i => (c.instr i).edges i) ∧ is.Nodup ∧ (∀ i ∈ is, i ∉ closed) ∧
      (∀ i ∈ opened, i ∈ is) ∧ (∀ i ∈ is, ∀ k, (c.instr i).Next k → k ∈ closed ∨ k ∈ is) ∧
      ∀ i ∈ is, ∃ j ∈ opened, Connected c j i
  | n, [], closed, es, h, _, _, _ => by
    have : es = [] := by cases n <;> simpa [graphLoop, eq_comm] using h
    subst this
    exact ⟨[], rfl, .nil, nofun, nofun, nofun, nofun⟩
  | 0, _ :: _, _, _, h, _, _, _ => by cases h
  | n + 1, i₀ :: rest, closed, es, h, hn, hd, hc => by
    simp only [graphLoop, Option.map_eq_some_iff] at h
    obtain ⟨es', h, rfl⟩ := h
    generalize hi : (i₀ :: rest).getD (pop (i₀ :: rest)) i₀ = i at h ⊢
    have hmem : i ∈ i₀ :: rest := hi ▸ getD_mem
    generalize i₀ :: rest = opened at *
    have hni : i ∉ closed := hd i hmem
    have ein : ∀ k, k ∈ closed.insert i ↔ k = i ∨ k ∈ closed := fun k => List.mem_insert_iff
    have ein' : ∀ k, k ∈ openInstr (c.instr i).failure (closed.insert i) (openInstr (c.instr i).success (closed.insert i) (opened.erase i)) ↔
        (k ∈ opened ∧ k ≠ i) ∨ ((c.instr i).Next k ∧ k ∉ closed.insert i) := by
      intro k
      rw [mem_openInstr, mem_openInstr, hn.mem_erase_iff]
      unfold Instr.Next
      constructor
      · rintro ((⟨h1, h2⟩ | ⟨h1, h2⟩) | ⟨h1, h2⟩)
        · exact .inl ⟨h2, h1⟩
        · exact .inr ⟨.inl h1, h2⟩
        · exact .inr ⟨.inr h1, h2⟩
      · rintro (⟨h1, h2⟩ | ⟨h1 | h1, h2⟩)
        · exact .inl (.inl ⟨h2, h1⟩)
        · exact .inl (.inr ⟨h1, h2⟩)
        · exact .inr ⟨h1, h2⟩
    obtain ⟨is, rfl, g1, g2, g3, g4, g5⟩ := graphLoop_visits h (nodup_openInstr (nodup_openInstr (hn.erase _))) (by
      intro k hk
      rw [ein'] at hk
      rcases hk with ⟨h1, h2⟩ | h1
      · rw [ein]
        rintro (h3 | h3)
        · exact h2 h3
        · exact hd k h1 h3
      · exact h1.2) (by
      intro j hj k hk
      by_cases hcl : k ∈ closed.insert i
      · exact .inl hcl
      · right
        rw [ein']
        rcases (ein j).1 hj with rfl | hj
        · exact .inr ⟨hk, hcl⟩
        · rcases hc j hj k hk with h1 | h1
          · exact absurd ((ein k).2 (.inr h1)) hcl
          · exact .inl ⟨h1, fun h2 => hcl ((ein k).2 (.inl h2))⟩)
    refine ⟨i :: is, rfl, ?_, ?_, ?_, ?_, ?_⟩
    · exact List.nodup_cons.2 ⟨fun h1 => g2 i h1 ((ein i).2 (.inl rfl)), g1⟩
    · intro k hk
      rcases List.mem_cons.1 hk with rfl | hk
      · exact hni
      · exact fun h1 => g2 k hk ((ein k).2 (.inr h1))
    · intro k hk
      by_cases hki : k = i
      · simp [hki]
      · exact List.mem_cons_of_mem _ (g3 k ((ein' k).2 (.inl ⟨hk, hki⟩)))
    · intro j hj k hk
      by_cases hcl : k ∈ closed.insert i
      · rcases (ein k).1 hcl with rfl | h1
        · simp
        · exact .inl h1
      · right
        rcases List.mem_cons.1 hj with rfl | hj
        · exact List.mem_cons_of_mem _ (g3 k ((ein' k).2 (.inr ⟨hk, hcl⟩)))
        · rcases g4 j hj k hk with h1 | h1
          · exact absurd h1 hcl
          · exact List.mem_cons_of_mem _ h1
    · intro k hk
      rcases List.mem_cons.1 hk with rfl | hk
      · exact ⟨k, hmem, .refl⟩
      · obtain ⟨j, hj, h1⟩ := g5 k hk
        rcases (ein' j).1 hj with ⟨h2, _⟩ | ⟨h2, _⟩
        · exact ⟨j, h2, h1⟩
        · refine ⟨i, hmem, ?_⟩
          have hij : Connected c i j := h2.elim (.success .refl) (.failure .refl)
          exact hij.trans h1

/-- The loop comes to an end, after as many rounds as there are instructions. -/
theorem graphLoop_total {lo hi : Nat} (hl : ∀ i, lo ≤ i → i < hi → ∀ k, (c.instr i).Next k → lo ≤ k ∧ k < hi) :
    ∀ {n : Nat} {opened closed : List Nat}, (∀ i ∈ opened, lo ≤ i ∧ i < hi) → opened.Nodup → (∀ i ∈ opened, i ∉ closed) →
      (List.range hi).countP (fun i => decide (i ∉ closed)) ≤ n → ∃ es, graphLoop pop c n opened closed = some es
  | n, [], _, _, _, _, _ => ⟨[], by cases n <;> rfl⟩
  | 0, i :: _, closed, h1, _, h2, h3 => by
    have := List.countP_pos_iff (p := fun i => decide (i ∉ closed)).2 ⟨i, List.mem_range.2 (h1 i (by simp)).2, by simpa using h2 i (by simp)⟩
    omega
  | n + 1, i₀ :: rest, closed, h1, hn, h2, h3 => by
    simp only [graphLoop]
    generalize hpop : (i₀ :: rest).getD (pop (i₀ :: rest)) i₀ = i
    have hmem : i ∈ i₀ :: rest := hpop ▸ getD_mem
    generalize i₀ :: rest = opened at *
    have ein : ∀ k, k ∈ closed.insert i ↔ k = i ∨ k ∈ closed := fun k => List.mem_insert_iff
    obtain ⟨es, h⟩ := graphLoop_total hl (n := n) (closed := closed.insert i)
      (opened := openInstr (c.instr i).failure (closed.insert i) (openInstr (c.instr i).success (closed.insert i) (opened.erase i)))
      (by
        intro k hk
        rw [mem_openInstr, mem_openInstr] at hk
        rcases hk with (hk | ⟨hk, _⟩) | ⟨hk, _⟩
        · exact h1 k (List.mem_of_mem_erase hk)
        · exact hl i (h1 i hmem).1 (h1 i hmem).2 k (.inl hk)
        · exact hl i (h1 i hmem).1 (h1 i hmem).2 k (.inr hk))
      (nodup_openInstr (nodup_openInstr (hn.erase _)))
      (by
        intro k hk
        rw [mem_openInstr, mem_openInstr] at hk
        rcases hk with (hk | ⟨_, hk⟩) | ⟨_, hk⟩
        · rw [hn.mem_erase_iff] at hk
          rw [ein]
          rintro (h3 | h3)
          · exact hk.1 h3
          · exact h2 k hk.2 h3
        · exact hk
        · exact hk)
      (by
        have := countP_lt (p := fun k => decide (k ∉ closed.insert i)) (q := fun k => decide (k ∉ closed)) (l := List.range hi)
          (by
            intro x _ hx
            simp only [decide_eq_true_eq, ein] at hx ⊢
            exact fun h => hx (.inr h))
          ⟨i, List.mem_range.2 (h1 i hmem).2, by simpa using h2 i hmem, by simp [ein]⟩
        omega)
    exact ⟨_, by rw [h]; rfl⟩

theorem edges_mem {i : Nat} {x : Instr} {e : Edge} : e ∈ x.edges i ↔ (∃ j, x.success = some j ∧ e = .success i j) ∨ ∃ j, x.failure = some j ∧ e = .failure i j := by
  simp only [Instr.edges, List.mem_append, Option.mem_toList, Option.map_eq_some_iff, eq_comm (a := e)]

theorem edges_nodup (i : Nat) (x : Instr) : (x.edges i).Nodup := by
  unfold Instr.edges
  cases x.success <;> cases x.failure <;> simp

theorem visits_nodup : ∀ {is : List Nat}, is.Nodup → (is.flatMap fun i => (c.instr i).edges i).Nodup
  | [], _ => .nil
  | i :: is, h => by
    rw [List.flatMap_cons, List.nodup_append]
    refine ⟨edges_nodup _ _, visits_nodup (List.nodup_cons.1 h).2, ?_⟩
    intro e he e' he' hee
    subst hee
    obtain ⟨j, hj, he'⟩ := List.mem_flatMap.1 he'
    have : i = j := by
      rcases edges_mem.1 he with ⟨_, _, rfl⟩ | ⟨_, _, rfl⟩ <;> rcases edges_mem.1 he' with ⟨_, _, h⟩ | ⟨_, _, h⟩ <;> simp_all
    exact (List.nodup_cons.1 h).1 (this ▸ hj)

end Verif
