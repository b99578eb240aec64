import Verif.Lemmas.QEnum
import Verif.Lemmas.Keeps
import Verif.Spec.Settles

/-! Trail discipline of the actions. -/

namespace Verif

section
variable [Host]

omit [Host] in
theorem beliefs_sets {w : World} {a : Nat} {g : String × Nat} {x : Term} (h : x ∈ w.beliefs a g) : ∃ k, x ∈ w.sets k := by
  unfold World.beliefs at h
  split at h
  · exact ⟨_, h⟩
  · simp at h

omit [Host] in
theorem setBeliefs_mem_sets {w : World} {a k : Nat} {g : String × Nat} {xs : List Term} {x : Term} (h : x ∈ (w.setBeliefs a g xs).sets k) :
    x ∈ xs ∨ x ∈ w.sets k := by
  unfold World.setBeliefs at h
  split at h <;> simp only [World.setSet, World.setAg] at h <;> split at h <;> simp_all

omit [Host] in
theorem setBeliefs_rules {w : World} {a a' : Nat} {g : String × Nat} {xs : List Term} :
    ((w.setBeliefs a g xs).ags a').rules = (w.ags a').rules := by
  unfold World.setBeliefs
  split
  · rfl
  · simp only [World.setAg, World.setSet]
    split <;> simp_all

omit [Host] in
theorem pySetAdd_mem {xs : List Term} {t x : Term} (h : x ∈ pySetAdd xs t) : x = t ∨ x ∈ xs := by
  unfold pySetAdd at h
  split at h
  · exact .inr h
  · rcases List.mem_append.1 h with h | h
    · exact .inr h
    · exact .inl (by simpa using h)

theorem Prim.rules {w₀ : World} {s s' : QSt World} (h : Prim w₀ s s') (a : Nat) : (s'.w.ags a).rules = (s.w.ags a).rules := by
  cases h with
  | add | del => exact setBeliefs_rules
  | plan =>
    unfold buildPlan World.addPlan
    dsimp only
    split
    · rfl
    · simp only [World.setAg, World.setPlist]
      split <;> simp_all
  | drop a' sts | push a' _ _ sts =>
    simp only [World.setStacks, World.setAg]
    split <;> simp_all
  | _ => rfl

theorem Prim.bels {w₀ : World} {s s' : QSt World} (h : Prim w₀ s s') (hb : ∀ k, ∀ b ∈ s.w.sets k, b.isLiteral = true) :
    ∀ k, ∀ b ∈ s'.w.sets k, b.isLiteral = true := by
  cases h with
  | add a f as xs =>
    intro k b hm
    rcases setBeliefs_mem_sets hm with hm | hm
    · rcases pySetAdd_mem hm with rfl | hm
      · rfl
      · obtain ⟨k, hk⟩ := beliefs_sets hm
        exact hb k b hk
    · exact hb k b hm
  | del a g xs hs =>
    intro k b hm
    rcases setBeliefs_mem_sets hm with hm | hm
    · obtain ⟨k, hk⟩ := beliefs_sets (hs.subset hm)
      exact hb k b hk
    · exact hb k b hm
  | plan =>
    unfold buildPlan World.addPlan
    dsimp only
    split <;> exact hb
  | _ => exact hb

/-- Being orderly is kept. -/
theorem orderly_stable {w₀ : World} : Stable w₀ fun s => Base w₀ s.w ∧ Orderly s.w where
  prim s s' h hp :=
    ⟨hp.base h.1, (hp.base h.1).below, fun a grp r hr => h.2.rules a grp r (by rw [← hp.rules a]; exact hr), hp.bels h.2.bels⟩
  base _ h := h.1

theorem Orderly.actNext {n k : Nat} {g : ActGen} {s s' : QSt World} {o : Option ActGen} (h : Orderly s.w)
    (hx : Verif.actNext n (gnext k) g s = .ok o s') : Orderly s'.w :=
  ((actNext_keeps orderly_stable (gnext_keeps k) (s := s) ⟨.refl h.below, h⟩).of_ok hx).2

/-- Invariant of the generators of actions. -/
def ActInv : ActGen → Bool → Bool → BSt → BSt → Prop
  | .fin, r, e, b₀, b => (e = true → r = true) ∧ rel e b₀ b
  | .items c _ _, _, e, b₀, b => ∃ b₁, rel e b₀ b₁ ∧ b₀.ncp ≤ c ∧ c < b₁.ncp ∧ Above (b₁.pushCp c) b
  | .start a _, r, e, b₀, b => a.trailed ∧ (e = true → a.settles r = true) ∧ rel e b₀ b

/-- The contract of the actions. -/
def stdActs : ActTrail World Act ActGen where
  ok a _ := a.trailed
  settles a _ r := a.settles r
  winv := Orderly
  rules w h := h.rules w.cur
  bels w h grp b hb := by
    obtain ⟨k, hk⟩ := beliefs_sets hb
    exact h.bels k b hk
  renam _ _ _ h := h
  inv := ActInv
  start _ _ _ _ _ _ h1 h2 h3 := ⟨h1, h2, h3⟩
  susp
    | .start _ _ => False
    | _ => True
  closed g r e b₀ b b' hs h hb := by
    cases g with
    | fin => exact ⟨h.1, rel_trans h.2 (rel_weaken h.1 hb)⟩
    | items c x it =>
      obtain ⟨b₁, h1, h2, h3, h4⟩ := h
      exact ⟨b₁, h1, h2, h3, h4.trans (rel_above hb)⟩
    | start a t => exact hs.elim
  above g r e b₀ b h := by
    cases g with
    | fin => exact rel_above h.2
    | items c x it =>
      obtain ⟨b₁, h1, h2, h3, h4⟩ := h
      exact (above_push h3 h2 (rel_above h1)).trans h4
    | start a t => exact rel_above h.2.2

/-- What an action must do. -/
structure ActOut (r e : Bool) (b₀ : BSt) (x : Res (QSt World) (Option ActGen)) : Prop where
  onNone : ∀ s', x = .ok none s' → rel e b₀ s'.b
  onSome : ∀ g' s', x = .ok (some g') s' → stdActs.susp g' ∧ ActInv g' r e b₀ s'.b
  onErr : ∀ ex s', x = .err ex s' → Above b₀ s'.b

namespace ActOut
variable {r e : Bool} {b₀ : BSt}

theorem oof : ActOut r e b₀ .oof := ⟨nofun, nofun, nofun⟩

theorem mkNone {s : QSt World} (h : rel e b₀ s.b) : ActOut r e b₀ (.ok none s) := ⟨fun s' h' => by cases h'; exact h, nofun, nofun⟩

theorem mkErr {s : QSt World} {ex : Err} (h : Above b₀ s.b) : ActOut r e b₀ (.err ex s) :=
  ⟨nofun, nofun, fun ex s' h' => by cases h'; exact h⟩

theorem mkSome {s : QSt World} {g : ActGen} (hs : stdActs.susp g) (h : ActInv g r e b₀ s.b) : ActOut r e b₀ (.ok (some g) s) :=
  ⟨nofun, fun g' s' h' => by cases h'; exact ⟨hs, h⟩, nofun⟩

theorem fin {s : QSt World} (h1 : e = true → r = true) (h : rel e b₀ s.b) : ActOut r e b₀ (.ok (some .fin) s) :=
  mkSome (g := .fin) trivial ⟨h1, h⟩

/-- Something that does not change scope and stack comes first. -/
theorem same {α : Type} {x : Res (QSt World) α} {f : α → QSt World → Res (QSt World) (Option ActGen)} {s : QSt World}
    (hb : rel e b₀ s.b) (hx : x.Keeps fun s' => s'.b = s.b) (hf : ∀ a s', rel e b₀ s'.b → ActOut r e b₀ (f a s')) :
    ActOut r e b₀ (x.bind f) := by
  cases x with
  | oof => exact .oof
  | err ex s' => exact .mkErr ((show s'.b = s.b from hx.of_err rfl) ▸ rel_above hb)
  | ok a s' => exact hf a s' ((show s'.b = s.b from hx.of_ok rfl) ▸ hb)

/-- Something that makes trailed changes comes first. -/
theorem changed {α : Type} {x : Res (QSt World) α} {f : α → QSt World → Res (QSt World) (Option ActGen)}
    (hx : x.Keeps fun s' => Above b₀ s'.b) (hf : ∀ a s', Above b₀ s'.b → ActOut r e b₀ (f a s')) : ActOut r e b₀ (x.bind f) := by
  cases x with
  | oof => exact .oof
  | err ex s' => exact .mkErr (hx.of_err rfl)
  | ok a s' => exact hf a s' (hx.of_ok rfl)

theorem lift {α : Type} {x : Ev α} {s : QSt World} {f : α → QSt World → Res (QSt World) (Option ActGen)} (hb : rel e b₀ s.b)
    (hf : ∀ a, ActOut r e b₀ (f a s)) : ActOut r e b₀ ((Res.lift x s).bind f) := by
  cases x with
  | oof => exact .oof
  | err ex => exact .mkErr (rel_above hb)
  | ok a => exact hf a

theorem unifyThenYield {n : Nat} {l t : Term} {s : QSt World} (hb : rel false b₀ s.b) :
    ActOut r false b₀ (unifyThenYield n l t s) := by
  unfold Verif.unifyThenYield QSt.onB
  cases hx : unify n l t s.b with
  | oof => exact .oof
  | err ex b' => exact .mkErr ((rel_above hb).trans (unify_grow n _ _ _ _ (Or.inr ⟨_, hx⟩)).above)
  | ok o b' =>
    have hb' : rel false b₀ b' := Above.trans hb (unify_grow n _ _ _ _ (Or.inl ⟨_, hx⟩)).above
    cases o with
    | true => exact .fin (by simp) hb'
    | false => exact .mkNone hb'

theorem items {n c : Nat} {x : Term} : ∀ (k : Nat) (it : Term) (s : QSt World), rel e b₀ s.b → b₀.ncp ≤ c → c < s.b.ncp →
    ActOut r e b₀ (itemsGo n c x k it s)
  | 0, _, _, _, _, _ => .oof
  | k + 1, it, s, hb, h2, h3 => by
    unfold itemsGo
    refine .lift hb fun o => ?_
    cases o with
    | none => exact .mkNone hb
    | some p =>
      obtain ⟨y, it'⟩ := p
      simp only [QSt.onB]
      cases hx : unify n x y (s.b.pushCp c) with
      | oof => exact .oof
      | err ex b' =>
        exact .mkErr ((above_push h3 h2 (rel_above hb)).trans (unify_grow n _ _ _ _ (Or.inr ⟨_, hx⟩)).above)
      | ok o b' =>
        have hb' : Above (s.b.pushCp c) b' := (unify_grow n _ _ _ _ (Or.inl ⟨_, hx⟩)).above
        cases o with
        | true => exact .mkSome (g := .items ..) trivial ⟨s.b, hb, h2, h3, hb'⟩
        | false =>
          have hr := reroll_push h3 hb'
          exact items k it' _ (rel_trans hb (rel_of_same hr)) h2 (Nat.lt_of_lt_of_le h3 hr.2)

theorem itemsStart {n : Nat} {x it : Term} {s : QSt World} (hb : rel e b₀ s.b) : ActOut r e b₀ (itemsStart n x it s) := by
  unfold Verif.itemsStart
  exact items _ _ _ (rel_trans hb (rel_of_same ⟨rfl, Nat.le_succ _⟩)) (above_ncp (rel_above hb)) (Nat.lt_succ_self _)

end ActOut

theorem freeze_b {n : Nat} {t : Term} {s : QSt World} : (s.freeze n t).Keeps fun s' => s'.b = s.b := by
  unfold QSt.freeze
  split
  · exact .ok rfl
  · exact .er rfl
  · exact .oof

theorem freezeL_b {n : Nat} {ts : List Term} {s : QSt World} : (s.freezeL n ts).Keeps fun s' => s'.b = s.b := by
  unfold QSt.freezeL
  split
  · exact .ok rfl
  · exact .er rfl
  · exact .oof

omit [Host] in
theorem nest_b {α : Type} {s : QSt World} {a i : Nat} {b : BSt} {f : QSt World → Res (QSt World) α} :
    (s.nest a i b f).Keeps fun s' => s'.b = s.b := by
  unfold QSt.nest
  split
  · exact .ok rfl
  · exact .er rfl
  · exact .oof

theorem callNew_b {n a : Nat} {rec : Rec} {tr : Trigger} {gt : GoalType} {t : Term} {d : Bool} {s : QSt World} :
    (callNew n rec a tr gt t d s).Keeps fun s' => s'.b = s.b := by
  unfold callNew
  exact .bind nest_b fun _ _ h => .ok h

theorem deliver_b {n : Nat} {rec : Rec} {tr : Trigger} {gt : GoalType} {m : Term} {b : BSt} : ∀ (as : List Nat) (s : QSt World), s.b = b →
    (deliver n rec tr gt m as s).Keeps fun s' => s'.b = b
  | [], _, h => .ok h
  | a :: as, s, h => by
    unfold deliver
    exact .bind (h ▸ callNew_b) fun _ s h => deliver_b as s h

theorem zipSpecs_b {n : Nat} {b : BSt} : ∀ (specs : List Spec) (ts : List Term) (memo : VarId → Option VarId) (s : QSt World), s.b = b →
    (zipSpecs n specs ts memo s).Keeps fun s' => s'.b = b
  | [], _, _, _, h => .ok h
  | _ :: _, [], _, _, h => .er h
  | spec :: specs, t :: ts, memo, s, h => by
    unfold zipSpecs
    split
    · exact .bind (.lift h) fun t s h => .bind (zipSpecs_b specs ts _ s h) fun ts s h => .ok h
    · exact .er h
    · exact .oof

/-- Queries run to exhaustion by a consumer that does nothing. -/
theorem findallGo_b {n : Nat} (ih : TrailRec stdActs (gnext n)) {pattern : Term} {b₀ : BSt} :
    ∀ (k : Nat) (g : Gen Act ActGen) (memo : VarId → Option VarId) (s : QSt World), Orderly s.w → GInv stdActs g false false b₀ s.b →
    (findallGo n (gnext n) pattern k g memo s).Keeps fun s' => Above b₀ s'.b
  | 0, _, _, _, _, _ => .oof
  | k + 1, g, memo, s, hw, hg => by
    unfold findallGo
    have out := ih g s false false b₀ hw hg
    cases hx : gnext n g s with
    | oof => exact .oof
    | err ex s' => exact .er (out.onErr _ _ hx)
    | ok o s' =>
      cases o with
      | none => exact .ok (rel_above (out.onNone _ hx).2)
      | some g' =>
        obtain ⟨h1, h2, h3⟩ := out.onSome _ _ hx
        simp only [Res.onNext]
        split
        · exact .bind (findallGo_b ih k g' _ { s' with nv := _ } h1 h3) fun _ _ h => .ok h
        · exact .er h3.above
        · exact .oof

theorem countGo_b {n : Nat} (ih : TrailRec stdActs (gnext n)) {b₀ : BSt} :
    ∀ (k : Nat) (g : Gen Act ActGen) (s : QSt World), Orderly s.w → GInv stdActs g false false b₀ s.b →
    (countGo (gnext n) k g s).Keeps fun s' => Above b₀ s'.b
  | 0, _, _, _, _ => .oof
  | k + 1, g, s, hw, hg => by
    unfold countGo
    have out := ih g s false false b₀ hw hg
    cases hx : gnext n g s with
    | oof => exact .oof
    | err ex s' => exact .er (out.onErr _ _ hx)
    | ok o s' =>
      cases o with
      | none => exact .ok (rel_above (out.onNone _ hx).2)
      | some g' =>
        obtain ⟨h1, h2, h3⟩ := out.onSome _ _ hx
        exact .bind (countGo_b ih k g' s' h1 h3) fun _ _ h => .ok h

theorem sumGo_b {n : Nat} (ih : TrailRec stdActs (gnext n)) {pattern : Term} {b₀ : BSt} :
    ∀ (k : Nat) (g : Gen Act ActGen) (total : Rat) (s : QSt World), Orderly s.w → GInv stdActs g false false b₀ s.b →
    (sumGo n (gnext n) pattern k g total s).Keeps fun s' => Above b₀ s'.b
  | 0, _, _, _, _, _ => .oof
  | k + 1, g, total, s, hw, hg => by
    unfold sumGo
    have out := ih g s false false b₀ hw hg
    cases hx : gnext n g s with
    | oof => exact .oof
    | err ex s' => exact .er (out.onErr _ _ hx)
    | ok o s' =>
      cases o with
      | none => exact .ok (rel_above (out.onNone _ hx).2)
      | some g' =>
        obtain ⟨h1, h2, h3⟩ := out.onSome _ _ hx
        simp only [Res.onNext]
        cases (grounded n s'.b.scope pattern).bind (pyAdd total) with
        | ok q => exact sumGo_b ih k g' q s' h1 h3
        | err e => exact .er h3.above
        | oof => exact .oof

theorem onB_unify_above {n : Nat} {l t : Term} {s : QSt World} {b₀ : BSt} (hb : Above b₀ s.b) :
    (s.onB (unify n l t)).Keeps fun s' => Above b₀ s'.b := by
  unfold QSt.onB
  cases hx : unify n l t s.b with
  | oof => exact .oof
  | err ex b' => exact .er (hb.trans (unify_grow n _ _ _ _ (Or.inr ⟨_, hx⟩)).above)
  | ok o b' => exact .ok (hb.trans (unify_grow n _ _ _ _ (Or.inl ⟨_, hx⟩)).above)

theorem ActOut.stamp {n : Nat} {v : Rat × Rat × Rat} {t : Term} {s : QSt World} {r : Bool} {b₀ : BSt} (hb : rel false b₀ s.b) :
    ActOut r false b₀ (stamp n v t s) := by
  unfold Verif.stamp
  refine .lift hb fun x => .changed (onB_unify_above hb) fun ok s hb => ?_
  cases ok with
  | false => exact .mkNone (e := false) hb
  | true =>
    refine .lift (e := false) hb fun x => .changed (onB_unify_above hb) fun ok s hb => ?_
    cases ok with
    | false => exact .mkNone (e := false) hb
    | true => exact .lift (e := false) hb fun x => .unifyThenYield hb

theorem start_out {n : Nat} (ih : TrailRec stdActs (gnext n)) {a : Act} {t : Term} {s : QSt World} {r e : Bool} {b₀ : BSt}
    (hw : Orderly s.w) (ha : a.trailed) (he : e = true → a.settles r = true) (hb : rel e b₀ s.b) :
    ActOut r e b₀ (actNext n (gnext n) (.start a t) s) := by
  have leak : a.settles r = false → e = false := fun h => by
    cases e with
    | false => rfl
    | true => rw [he rfl] at h; cases h
  cases a with
  | unbindAll => exact ha.elim
  | broadcast =>
    simp only [actNext, broadcast]
    refine .lift hb fun ilf => ?_
    split
    · split
      · exact .mkErr (rel_above hb)
      · exact .lift hb fun m => .same hb freeze_b fun m s hb => .lift hb fun m =>
          .same hb (deliver_b _ s rfl) fun _ s hb => .fin he hb
    · exact .mkNone hb
  | send =>
    simp only [actNext, send]
    refine .lift hb fun x => .lift hb fun rs => .lift hb fun rcv => .lift hb fun ilf => ?_
    split
    · split
      · exact .mkErr (rel_above hb)
      · refine .lift hb fun m => .same hb ?_ fun m s hb => .lift hb fun m =>
          .same hb (deliver_b _ s rfl) fun _ s hb => .fin he hb
        split
        · exact .ok rfl
        · exact freeze_b
    · exact .mkNone hb
  | print => exact .same hb freezeL_b fun _ s hb => .fin he hb
  | csv => exact .same hb freezeL_b fun _ s hb => .fin he hb
  | fail => exact .mkNone hb
  | myName =>
    obtain rfl := leak rfl
    exact .lift hb fun x => .unifyThenYield hb
  | concat =>
    obtain rfl := leak rfl
    exact .lift hb fun x => .lift hb fun x => .unifyThenYield hb
  | substring => exact .lift hb fun _ => .lift hb fun _ => .lift hb fun _ => .itemsStart hb
  | member => exact .lift hb fun _ => .lift hb fun _ => .itemsStart hb
  | range => exact .lift hb fun _ => .lift hb fun _ => .itemsStart hb
  | ground =>
    refine .lift hb fun ok => ?_
    cases ok with
    | true => exact .fin he hb
    | false => exact .mkNone hb
  | findall =>
    obtain rfl := leak rfl
    refine .lift hb fun p => .lift hb fun q => .changed (findallGo_b ih _ _ _ s hw ⟨trivial, by simp, hb⟩) fun ts s hb => ?_
    exact .lift (e := false) hb fun x => .unifyThenYield hb
  | count =>
    obtain rfl := leak rfl
    refine .lift hb fun q => ?_
    have hk := countGo_b ih n (.start (.term q)) { s with b := s.b.mark } hw ⟨trivial, by simp, .refl s.b.mark⟩
    cases hx : countGo (gnext n) n (.start (.term q)) { s with b := s.b.mark } with
    | oof => exact .oof
    | err ex s' => exact .mkErr (Above.trans hb ((above_mark _).trans (hk.of_err hx)))
    | ok k s' =>
      have hb' : rel false b₀ (reroll s'.b s.b.ncp) := rel_trans (e := false) hb (rel_of_same (same_reroll (hk.of_ok hx)))
      exact .lift hb' fun x => .unifyThenYield hb'
  | sum =>
    obtain rfl := leak rfl
    refine .lift hb fun p => .lift hb fun q => .changed (sumGo_b ih _ _ _ s hw ⟨trivial, by simp, hb⟩) fun ts s hb => ?_
    exact .lift (e := false) hb fun x => .unifyThenYield hb
  | date =>
    obtain rfl := leak rfl
    exact .stamp hb
  | time =>
    obtain rfl := leak rfl
    exact .stamp hb
  | abolish =>
    refine .lift hb fun p => .same hb freeze_b fun p s hb => ?_
    split
    · exact .lift hb fun keep => .fin he hb
    · exact .mkErr (rel_above hb)
  | wait =>
    refine .lift hb fun _ => .lift hb fun _ => .lift hb fun _ => .lift hb fun _ => ?_
    split
    · exact .fin he hb
    · exact .fin he hb
  | fn specs f =>
    obtain rfl := leak rfl
    exact .same hb (zipSpecs_b _ _ _ s rfl) fun _ s hb => .lift hb fun x => .lift hb fun x => .unifyThenYield hb
  | pred specs f =>
    refine .same hb (zipSpecs_b _ _ _ s rfl) fun _ s hb => .lift hb fun ok => ?_
    cases ok with
    | true => exact .fin he hb
    | false => exact .mkNone hb
  | proc specs f => exact .same hb (zipSpecs_b _ _ _ s rfl) fun _ s hb => .lift hb fun ok => .fin he hb

theorem stdActs_good : stdActs.Good := by
  intro n ih g s r e b₀ hw h
  have main : ActOut r e b₀ (actNext n (gnext n) g s) := by
    cases g with
    | fin => exact .mkNone h.2
    | items c x it =>
      obtain ⟨b₁, h1, h2, h3, h4⟩ := h
      have hr := reroll_push h3 h4
      exact .items _ _ _ (rel_trans h1 (rel_of_same hr)) h2 (Nat.lt_of_lt_of_le h3 hr.2)
    | start a t => exact start_out ih hw h.1 h.2.1 h.2.2
  show Out stdActs r e b₀ ((actNext n (gnext n) g s).onNext _ _)
  cases hx : actNext n (gnext n) g s with
  | oof => exact .oof
  | err ex s' => exact .mkErr (main.onErr _ _ hx)
  | ok o s' =>
    have hw' := hw.actNext hx
    cases o with
    | none => exact .mkNone hw' (main.onNone _ hx)
    | some g' =>
      obtain ⟨h1, h2⟩ := main.onSome _ _ hx
      exact .mkSome (g := .act g') hw' h1 h2

end

end Verif
