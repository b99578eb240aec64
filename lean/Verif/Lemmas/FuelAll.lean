import Verif.Lemmas.Fuel
import Verif.Model.Env

/-! More fuel never changes a finished computation: queries, actions, agents and environments. -/

namespace Verif

theorem Res.le.onNext {σ α β : Type} {x x' : Res σ (Option α)} {f f' : α → σ → Res σ β} {g g' : σ → Res σ β} (h : x.le x')
    (hf : ∀ a s, (f a s).le (f' a s)) (hg : ∀ s, (g s).le (g' s)) : (x.onNext f g).le (x'.onNext f' g') := by
  rcases h with h | h <;> subst h
  · exact .oof _
  · cases x with
    | oof => exact .oof _
    | err e s => exact .refl _
    | ok o s =>
      cases o with
      | none => exact hg s
      | some a => exact hf a s

theorem onB_le {W α : Type} {s : QSt W} {f f' : BSt → Res BSt α} (h : (f s.b).le (f' s.b)) : (s.onB f).le (s.onB f') := by
  unfold QSt.onB
  rcases h with h | h
  · rw [h]; exact .oof _
  · rw [h]; exact .refl _

theorem nest_le {α : Type} {s : QSt World} {a i : Nat} {b : BSt} {f f' : QSt World → Res (QSt World) α} (h : ∀ s, (f s).le (f' s)) :
    (s.nest a i b f).le (s.nest a i b f') := by
  unfold QSt.nest
  rcases h { s with b := b, w := { s.w with cur := a, curInt := i } } with h | h
  · rw [h]; exact .oof _
  · rw [h]; exact .refl _

theorem as_le {α : Type} {s : QSt World} {a i : Nat} {f f' : QSt World → Res (QSt World) α} (h : ∀ s, (f s).le (f' s)) :
    (s.as a i f).le (s.as a i f') := by
  unfold QSt.as
  rcases h { s with w := { s.w with cur := a, curInt := i } } with h | h
  · rw [h]; exact .oof _
  · rw [h]; exact .refl _

theorem Res.le.trans {σ α : Type} {x y z : Res σ α} (h : x.le y) (h' : y.le z) : x.le z := by
  rcases h with h | h <;> subst h
  · exact .oof _
  · exact h'

theorem Res.le.upto {σ α : Type} {f : Nat → Res σ α} (h : ∀ n, (f n).le (f (n + 1))) {n m : Nat} (hnm : n ≤ m) : (f n).le (f m) := by
  induction hnm with
  | refl => exact .refl _
  | step _ ih => exact ih.trans (h _)

section
variable [Host]

theorem unifiesAnnotated_succ (n : Nat) (l r : Term) (b : BSt) : (unifiesAnnotated n l r b).le (unifiesAnnotated (n + 1) l r b) := by
  unfold unifiesAnnotated
  rcases uaStart_succ n l r b with h | h
  · rw [h]; exact .oof _
  · rw [h]; exact .refl _

theorem unifies_succ (n : Nat) (l r : Term) : (unifies n l r).le (unifies (n + 1) l r) := by
  unfold unifies
  rcases unify_succ n l r BSt.init with h | h
  · rw [h]; exact .oof _
  · rw [h]; exact .refl _

theorem QSt.freeze_succ {W : Type} (n : Nat) (t : Term) (s : QSt W) : (s.freeze n t).le (s.freeze (n + 1) t) := by
  unfold QSt.freeze freezeNew
  rcases Verif.freeze_succ n s.b.scope t ⟨fun _ => none, s.nv⟩ with h | h
  · rw [h]; exact .oof _
  · rw [h]; exact .refl _

theorem freezeL_succ (n : Nat) (ts : List Term) (s : QSt World) : (s.freezeL n ts).le (s.freezeL (n + 1) ts) := by
  unfold QSt.freezeL
  rcases freezeAll_le (Verif.freeze_succ n s.b.scope) ts ⟨fun _ => none, s.nv⟩ with h | h
  · rw [h]; exact .oof _
  · rw [h]; exact .refl _

/-! ## Calls -/

theorem addBelief_succ (n a : Nat) (t : Term) (s : QSt World) : (addBelief n a t s).le (addBelief (n + 1) a t s) := by
  unfold addBelief
  split
  · exact .refl _
  · exact .refl _
  · exact .refl _
  · exact .refl _
  · exact (Res.le.lift (grounded_succ _ _ _)).bind fun _ _ => .refl _

theorem findBelief_succ (n c : Nat) (t : Term) : ∀ (xs : List Term) (s : QSt World), (findBelief n c t xs s).le (findBelief (n + 1) c t xs s)
  | [], _ => .refl _
  | x :: xs, s => by
    unfold findBelief
    refine (onB_le (unifiesAnnotated_succ _ _ _ _)).bind fun ok s => ?_
    split
    · exact .refl _
    · exact (findBelief_succ n c t xs _).bind fun _ _ => .refl _

theorem removeBelief_succ (n a : Nat) (t : Term) (s : QSt World) : (removeBelief n a t s).le (removeBelief (n + 1) a t s) := by
  unfold removeBelief
  refine (Res.le.lift (evaluate_succ _ _ _)).bind fun t s => ?_
  split
  · exact (findBelief_succ _ _ _ _ _).bind fun _ _ => .refl _
  · exact .refl _

theorem testBelief_le {n : Nat} {rec rec' : Rec} (hr : ∀ g s, (rec g s).le (rec' g s)) (a i : Nat) (t : Term) (s : QSt World) :
    (testBelief n rec a i t s).le (testBelief (n + 1) rec' a i t s) := by
  unfold testBelief
  refine (Res.le.lift (evaluate_succ _ _ _)).bind fun t s => ?_
  split
  · exact as_le fun s => (hr _ _).onNext (fun _ _ => .refl _) fun _ => .refl _
  · exact .refl _

theorem wake_succ (n : Nat) (tr : Trigger) (gt : GoalType) (frozen : Term) : ∀ (sts : List (List Nat)) (s : QSt World),
    (wake n tr gt frozen sts s).le (wake (n + 1) tr gt frozen sts s)
  | [], _ => .refl _
  | [] :: rest, s => wake_succ n tr gt frozen rest s
  | (i :: st) :: rest, s => by
    have ih := wake_succ n tr gt frozen rest
    unfold wake
    split
    · next ev _ _ =>
      split
      · exact ih s
      · rcases unifiesAnnotated_succ n ev.head frozen BSt.init with h | h
        · rw [h]; exact .oof _
        · rw [← h]
          split
          · exact ih _
          · exact ih _
          · exact .refl _
          · exact .oof _
    · exact ih s

theorem unachieveGo_succ (n : Nat) (w : World) (f : String) (args : List Term) : ∀ sts : List (List Nat),
    (unachieveGo n w f args sts).le (unachieveGo (n + 1) w f args sts)
  | [] => .refl _
  | [] :: rest => (unachieveGo_succ n w f args rest).map
  | (i :: st) :: rest => by
    have ih := unachieveGo_succ n w f args rest
    unfold unachieveGo
    split
    · split
      · exact (unifies_succ _ _ _).bind fun _ => ih.map
      · exact ih.map
    · exact .refl _

theorem unachieve_succ (n a : Nat) (t : Term) (s : QSt World) : (unachieve n a t s).le (unachieve (n + 1) a t s) := by
  unfold unachieve
  split
  · exact (Res.le.lift (unachieveGo_succ _ _ _ _ _)).bind fun _ _ => .refl _
  · exact .refl _

theorem callFrozen_succ (n a : Nat) (tr : Trigger) (gt : GoalType) (t : Term) (s : QSt World) :
    (callFrozen n a tr gt t s).le (callFrozen (n + 1) a tr gt t s) := by
  unfold callFrozen
  refine (QSt.freeze_succ _ _ _).bind fun t s => ?_
  split
  · exact (wake_succ _ _ _ _ _ _).bind fun _ _ => .refl _
  · exact .refl _

theorem askSend_succ (n recv : Nat) : ∀ (ps : List (List Plan)) (s : QSt World), (askSend n recv ps s).le (askSend (n + 1) recv ps s)
  | [], _ => .refl _
  | ps :: rest, s => by
    have ih := askSend_succ n recv rest
    unfold askSend
    split
    · exact ih s
    · exact (callFrozen_succ _ _ _ _ _ _).bind fun _ _ => Res.le.bind (.refl _) fun _ s => ih s

theorem askHow_succ (n a : Nat) (t : Term) (s : QSt World) : (askHow n a t s).le (askHow (n + 1) a t s) := by
  unfold askHow
  split
  · refine Res.le.bind (.refl _) fun o s => ?_
    split
    · exact .refl _
    · split
      · exact .refl _
      · split
        · exact .refl _
        · exact askSend_succ _ _ _ _
    · exact .refl _
  · exact .refl _

theorem findPlan_le {n : Nat} {rec rec' : Rec} (hr : ∀ g s, (rec g s).le (rec' g s)) (frozen : Term) :
    ∀ (ps : List Plan) (s : QSt World), (findPlan n rec frozen ps s).le (findPlan (n + 1) rec' frozen ps s)
  | [], _ => .refl _
  | p :: ps, s => by
    have ih := findPlan_le (n := n) hr frozen ps
    unfold findPlan
    exact (onB_le (uaStart_succ _ _ _ _)).onNext (fun _ s => (hr _ _).onNext (fun _ _ => .refl _) fun s => ih _) fun s => ih _

theorem callPlans_le {n : Nat} {rec rec' : Rec} (hr : ∀ g s, (rec g s).le (rec' g s)) (a : Nat) (tr : Trigger) (gt : GoalType)
    (t frozen : Term) (calling : Nat) (delayed : Bool) (s : QSt World) :
    (callPlans n rec a tr gt t frozen calling delayed s).le (callPlans (n + 1) rec' a tr gt t frozen calling delayed s) := by
  unfold callPlans
  refine (nest_le fun s => findPlan_le hr _ _ _).bind fun ob s => ?_
  split
  · exact .refl _
  · split
    · exact .refl _
    · exact testBelief_le hr _ _ _ _
    · exact .refl _

theorem call_le {n : Nat} {rec rec' : Rec} (hr : ∀ g s, (rec g s).le (rec' g s)) (a : Nat) (tr : Trigger) (gt : GoalType)
    (t : Term) (calling : Nat) (delayed : Bool) (s : QSt World) :
    (call n rec a tr gt t calling delayed s).le (call (n + 1) rec' a tr gt t calling delayed s) := by
  unfold call
  refine Res.le.bind ?_ fun go s => ?_
  · unfold callBeliefs
    split
    · exact (addBelief_succ _ _ _ _).bind fun _ _ => .refl _
    · exact removeBelief_succ _ _ _ _
    · exact .refl _
  · split
    · exact .refl _
    · refine (callFrozen_succ _ _ _ _ _ _).bind fun frozen s => ?_
      split
      · exact (unachieve_succ _ _ _ _).bind fun _ _ => .refl _
      · exact .refl _
      · exact (askHow_succ _ _ _ _).bind fun _ _ => .refl _
      · exact .refl _
      · exact callPlans_le hr _ _ _ _ _ _ _ _

theorem callNew_le {n : Nat} {rec rec' : Rec} (hr : ∀ g s, (rec g s).le (rec' g s)) (a : Nat) (tr : Trigger) (gt : GoalType)
    (t : Term) (delayed : Bool) (s : QSt World) :
    (callNew n rec a tr gt t delayed s).le (callNew (n + 1) rec' a tr gt t delayed s) := by
  unfold callNew
  exact (nest_le fun s => call_le hr _ _ _ _ _ _ _).bind fun _ _ => .refl _

/-! ## Actions -/

theorem deliver_le {n : Nat} {rec rec' : Rec} (hr : ∀ g s, (rec g s).le (rec' g s)) (tr : Trigger) (gt : GoalType) (m : Term) :
    ∀ (as : List Nat) (s : QSt World), (deliver n rec tr gt m as s).le (deliver (n + 1) rec' tr gt m as s)
  | [], _ => .refl _
  | a :: as, s => by
    unfold deliver
    exact (callNew_le hr _ _ _ _ _ _).bind fun _ s => deliver_le hr tr gt m as s

theorem argAt_grounded_succ (n k : Nat) (sc : Scope) (t : Term) :
    ((argAt t k).bind (grounded n sc)).le ((argAt t k).bind (grounded (n + 1) sc)) := Ev.le.bind (.refl _) fun _ => grounded_succ _ _ _

theorem argAt_evaluate_succ (n k : Nat) (sc : Scope) (t : Term) :
    ((argAt t k).bind (evaluate n sc)).le ((argAt t k).bind (evaluate (n + 1) sc)) := Ev.le.bind (.refl _) fun _ => evaluate_succ _ _ _

theorem broadcast_le {n : Nat} {rec rec' : Rec} (hr : ∀ g s, (rec g s).le (rec' g s)) (t : Term) (s : QSt World) :
    (broadcast n rec t s).le (broadcast (n + 1) rec' t s) := by
  unfold broadcast
  refine (Res.le.lift (argAt_grounded_succ _ _ _ _)).bind fun ilf s => ?_
  split
  · split
    · exact .refl _
    · exact Res.le.bind (.refl _) fun m s => (QSt.freeze_succ _ _ _).bind fun m s => Res.le.bind (.refl _) fun m s =>
        (deliver_le hr _ _ _ _ _).bind fun _ _ => .refl _
  · exact .refl _

theorem send_le {n : Nat} {rec rec' : Rec} (hr : ∀ g s, (rec g s).le (rec' g s)) (t : Term) (s : QSt World) :
    (send n rec t s).le (send (n + 1) rec' t s) := by
  unfold send
  refine (Res.le.lift (argAt_grounded_succ _ _ _ _)).bind fun r s => Res.le.bind (.refl _) fun rs s => Res.le.bind (.refl _) fun rcv s =>
    (Res.le.lift (argAt_grounded_succ _ _ _ _)).bind fun ilf s => ?_
  split
  · split
    · exact .refl _
    · refine Res.le.bind (.refl _) fun m s => Res.le.bind ?_ fun m s => Res.le.bind (.refl _) fun m s =>
        (deliver_le hr _ _ _ _ _).bind fun _ _ => .refl _
      split
      · exact .refl _
      · exact QSt.freeze_succ _ _ _
  · exact .refl _

theorem unifyThenYield_succ (n : Nat) (l r : Term) (s : QSt World) : (unifyThenYield n l r s).le (unifyThenYield (n + 1) l r s) := by
  unfold unifyThenYield
  exact (onB_le (unify_succ _ _ _ _)).bind fun _ _ => .refl _

theorem zipSpecs_succ (n : Nat) : ∀ (specs : List Spec) (ts : List Term) (memo : VarId → Option VarId) (s : QSt World),
    (zipSpecs n specs ts memo s).le (zipSpecs (n + 1) specs ts memo s)
  | [], _, _, _ => .refl _
  | _ :: _, [], _, _ => .refl _
  | spec :: specs, t :: ts, memo, s => by
    have ih := zipSpecs_succ n specs ts
    unfold zipSpecs
    rcases Verif.freeze_succ n s.b.scope t ⟨memo, s.nv⟩ with h | h
    · rw [h]; exact .oof _
    · rw [← h]
      split
      · exact Res.le.bind (.refl _) fun _ _ => (ih _ _).bind fun _ _ => .refl _
      · exact .refl _
      · exact .oof _

theorem itemsGo_le {n c : Nat} {x : Term} : ∀ (k k' : Nat) (it : Term) (s : QSt World), k ≤ k' →
    (itemsGo n c x k it s).le (itemsGo (n + 1) c x k' it s)
  | 0, _, _, _, _ => .oof _
  | k + 1, 0, _, _, h => absurd h (by omega)
  | k + 1, k' + 1, it, s, h => by
    unfold itemsGo
    refine Res.le.bind (.refl _) fun o s => ?_
    split
    · exact .refl _
    · refine (onB_le (unify_succ _ _ _ _)).bind fun ok s => ?_
      split
      · exact .refl _
      · exact itemsGo_le k k' _ _ (by omega)

theorem itemsStart_succ (n : Nat) (x it : Term) (s : QSt World) : (itemsStart n x it s).le (itemsStart (n + 1) x it s) :=
  itemsGo_le _ _ _ _ (Nat.le_succ n)

theorem findallGo_le {n : Nat} {rec rec' : Rec} (hr : ∀ g s, (rec g s).le (rec' g s)) {p : Term} :
    ∀ (k k' : Nat) (g : Gen Act ActGen) (memo : VarId → Option VarId) (s : QSt World), k ≤ k' →
    (findallGo n rec p k g memo s).le (findallGo (n + 1) rec' p k' g memo s)
  | 0, _, _, _, _, _ => .oof _
  | k + 1, 0, _, _, _, h => absurd h (by omega)
  | k + 1, k' + 1, g, memo, s, h => by
    unfold findallGo
    refine (hr _ _).onNext (fun g s => ?_) fun _ => .refl _
    rcases Verif.freeze_succ n s.b.scope p ⟨memo, s.nv⟩ with h' | h'
    · rw [h']; exact .oof _
    · rw [← h']
      split
      · exact (findallGo_le hr k k' g _ _ (by omega)).bind fun _ _ => .refl _
      · exact .refl _
      · exact .oof _

omit [Host] in
theorem countGo_le {rec rec' : Rec} (hr : ∀ g s, (rec g s).le (rec' g s)) :
    ∀ (k k' : Nat) (g : Gen Act ActGen) (s : QSt World), k ≤ k' → (countGo rec k g s).le (countGo rec' k' g s)
  | 0, _, _, _, _ => .oof _
  | k + 1, 0, _, _, h => absurd h (by omega)
  | k + 1, k' + 1, g, s, h => by
    unfold countGo
    exact (hr _ _).onNext (fun g s => (countGo_le hr k k' g s (by omega)).bind fun _ _ => .refl _) fun _ => .refl _

theorem sumGo_le {n : Nat} {rec rec' : Rec} (hr : ∀ g s, (rec g s).le (rec' g s)) {p : Term} :
    ∀ (k k' : Nat) (g : Gen Act ActGen) (total : Rat) (s : QSt World), k ≤ k' →
    (sumGo n rec p k g total s).le (sumGo (n + 1) rec' p k' g total s)
  | 0, _, _, _, _, _ => .oof _
  | k + 1, 0, _, _, _, h => absurd h (by omega)
  | k + 1, k' + 1, g, total, s, h => by
    unfold sumGo
    exact (hr _ _).onNext (fun g s => (Res.le.lift ((grounded_succ _ _ _).bind fun _ => .refl _)).bind fun total s =>
      sumGo_le hr k k' g total s (by omega)) fun _ => .refl _

theorem stamp_succ (n : Nat) (v : Rat × Rat × Rat) (t : Term) (s : QSt World) : (stamp n v t s).le (stamp (n + 1) v t s) := by
  unfold stamp
  refine Res.le.bind (.refl _) fun x s => (onB_le (unify_succ _ _ _ _)).bind fun ok s => ?_
  split
  · refine Res.le.bind (.refl _) fun x s => (onB_le (unify_succ _ _ _ _)).bind fun ok s => ?_
    split
    · exact Res.le.bind (.refl _) fun x s => unifyThenYield_succ _ _ _ _
    · exact .refl _
  · exact .refl _

theorem abolishGo_succ (n : Nat) (p : Term) : ∀ xs : List Term, (abolishGo n p xs).le (abolishGo (n + 1) p xs)
  | [] => .refl _
  | x :: xs => by
    have ih := abolishGo_succ n p xs
    unfold abolishGo
    rcases unifiesAnnotated_succ n x p BSt.init with h | h
    · rw [h]; exact .oof _
    · rw [← h]
      split
      · exact ih.map
      · exact .refl _
      · exact .oof _

theorem actNext_le {n : Nat} {rec rec' : Rec} (hr : ∀ g s, (rec g s).le (rec' g s)) (g : ActGen) (s : QSt World) :
    (actNext n rec g s).le (actNext (n + 1) rec' g s) := by
  unfold actNext
  split
  · exact .refl _
  · exact itemsGo_le _ _ _ _ (Nat.le_succ n)
  · exact broadcast_le hr _ _
  · exact send_le hr _ _
  · exact (freezeL_succ _ _ _).bind fun _ _ => .refl _
  · exact (freezeL_succ _ _ _).bind fun _ _ => .refl _
  · exact .refl _
  · exact Res.le.bind (.refl _) fun _ _ => unifyThenYield_succ _ _ _ _
  · unfold concat
    exact (Res.le.lift (Ev.le.mapL (grounded_succ _ _) _)).bind fun _ _ => Res.le.bind (.refl _) fun _ _ => unifyThenYield_succ _ _ _ _
  · exact (Res.le.lift (argAt_grounded_succ _ _ _ _)).bind fun _ _ => (Res.le.lift (argAt_grounded_succ _ _ _ _)).bind fun _ _ =>
      Res.le.bind (.refl _) fun _ _ => itemsStart_succ _ _ _ _
  · exact (Res.le.lift (argAt_evaluate_succ _ _ _ _)).bind fun _ _ => Res.le.bind (.refl _) fun _ _ => itemsStart_succ _ _ _ _
  · exact (Res.le.lift ((argAt_grounded_succ _ _ _ _).bind fun _ => .refl _)).bind fun _ _ =>
      Res.le.bind (.refl _) fun _ _ => itemsStart_succ _ _ _ _
  · exact (Res.le.lift (isGround_succ _ _ _)).bind fun _ _ => .refl _
  · exact (Res.le.lift (argAt_evaluate_succ _ _ _ _)).bind fun _ _ => Res.le.bind (.refl _) fun _ _ =>
      (findallGo_le hr _ _ _ _ _ (Nat.le_succ n)).bind fun _ _ => Res.le.bind (.refl _) fun _ _ => unifyThenYield_succ _ _ _ _
  · exact Res.le.bind (.refl _) fun _ _ => (countGo_le hr _ _ _ _ (Nat.le_succ n)).bind fun _ _ =>
      Res.le.bind (.refl _) fun _ _ => unifyThenYield_succ _ _ _ _
  · exact (Res.le.lift (argAt_evaluate_succ _ _ _ _)).bind fun _ _ => Res.le.bind (.refl _) fun _ _ =>
      (sumGo_le hr _ _ _ _ _ (Nat.le_succ n)).bind fun _ _ => Res.le.bind (.refl _) fun _ _ => unifyThenYield_succ _ _ _ _
  · exact stamp_succ _ _ _ _
  · exact stamp_succ _ _ _ _
  · refine Res.le.bind (.refl _) fun _ _ => (QSt.freeze_succ _ _ _).bind fun _ _ => ?_
    split
    · exact (Res.le.lift (abolishGo_succ _ _ _)).bind fun _ _ => .refl _
    · exact .refl _
  · unfold waitAct
    exact (Res.le.lift (Ev.le.mapL (grounded_succ _ _) _)).bind fun _ _ => .refl _
  · exact .refl _
  · exact (zipSpecs_succ _ _ _ _ _).bind fun _ _ => Res.le.bind (.refl _) fun _ _ => Res.le.bind (.refl _) fun _ _ =>
      unifyThenYield_succ _ _ _ _
  · exact (zipSpecs_succ _ _ _ _ _).bind fun _ _ => .refl _
  · exact (zipSpecs_succ _ _ _ _ _).bind fun _ _ => .refl _

/-! ## Queries -/

theorem gstep_le {n : Nat} {rec rec' : Rec} (hr : ∀ g s, (rec g s).le (rec' g s)) (g : Gen Act ActGen) (s : QSt World) :
    (gstep n rec g s).le (gstep (n + 1) rec' g s) := by
  unfold gstep
  split
  · exact .refl _
  · exact .refl _
  · exact .refl _
  · exact hr _ _
  · exact (actNext_le hr _ _).onNext (fun _ _ => .refl _) fun _ => .refl _
  · refine (Res.le.lift (evaluate_succ _ _ _)).bind fun t s => ?_
    split
    · exact .refl _
    · exact .refl _
    · exact hr _ _
    · exact .refl _
  · split
    · exact .refl _
    · split
      · exact hr _ _
      · exact (onB_le (uaStart_succ _ _ _ _)).onNext (fun _ _ => .refl _) fun _ => hr _ _
  · exact hr _ _
  · exact .refl _
  · refine (onB_le (unify_succ _ _ _ _)).bind fun ok s => ?_
    split
    · exact hr _ _
    · exact hr _ _
  · exact (hr _ _).onNext (fun _ _ => .refl _) fun _ => hr _ _
  · exact hr _ _
  · exact (hr _ _).onNext (fun _ _ => hr _ _) fun _ => .refl _
  · exact (hr _ _).onNext (fun _ _ => .refl _) fun _ => hr _ _
  · exact hr _ _
  · exact (hr _ _).onNext (fun _ _ => .refl _) fun _ => hr _ _
  · exact (hr _ _).onNext (fun _ _ => .refl _) fun _ => .refl _
  · exact (onB_le (uaStart_succ _ _ _ _)).onNext (fun _ _ => .refl _) fun _ => .refl _
  · exact .refl _

theorem gnext_succ : ∀ (n : Nat) (g : Gen Act ActGen) (s : QSt World), (gnext n g s).le (gnext (n + 1) g s)
  | 0, _, _ => .oof _
  | n + 1, g, s => gstep_le (gnext_succ n) g s

/-! ## Agents and environments -/

theorem runF_succ (n a i : Nat) (f : InstrF) (s : QSt World) : (runF n a i f s).le (runF (n + 1) a i f s) := by
  have hc := fun tr gt t d => call_le (n := n) (gnext_succ n) a tr gt t i d s
  unfold runF
  cases f with
  | nextOrFail =>
    simp only
    split
    · exact .refl _
    · next g rest _ =>
      rcases gnext_succ n g s with h | h
      · rw [h]; exact .oof _
      · rw [h]; exact .refl _
  | addBelief t => exact hc _ _ _ _
  | removeBelief t => exact hc _ _ _ _
  | testBelief t => exact hc _ _ _ _
  | call tr gt t => exact hc _ _ _ _
  | callDelayed tr gt t => exact hc _ _ _ _
  | _ => exact .refl _

theorem runI_succ (n a i : Nat) (f : InstrF) (s : QSt World) : (runI n a i f s).le (runI (n + 1) a i f s) := by
  unfold runI
  rcases runF_succ n a i f { s with b := (s.w.ints i).b, w := { s.w with cur := a, curInt := i } } with h | h
  · rw [h]; exact .oof _
  · rw [h]; exact .refl _

theorem exec_succ (n a i pc : Nat) (s : QSt World) : (exec n a i pc s).le (exec (n + 1) a i pc s) := by
  unfold exec
  rcases runI_succ n a i (s.w.code.instr pc).f s with h | h
  · simp only [h]; exact .oof _
  · simp only [h]; exact .refl _

theorem finish_succ (n a k i : Nat) (s : QSt World) : (finish n a k i s).le (finish (n + 1) a k i s) := by
  unfold finish
  simp only
  split
  · exact .refl _
  · split
    · exact .refl _
    · exact .refl _
    · next t h _ _ =>
      unfold freezeNew
      rcases Verif.freeze_succ n ((s.w.setStacks a _).ints i).b.scope h ⟨fun _ => none, s.nv⟩ with e | e
      · rw [e]; exact .oof _
      · rw [← e]
        split
        · exact .oof _
        · exact .refl _
        · next frozen m _ =>
          rcases unify_succ n t frozen ((s.w.setStacks a _).ints _).b with e | e
          · rw [e]; exact .oof _
          · rw [e]; exact .refl _

theorem step_succ (n a : Nat) (s : QSt World) : (step n a s).le (step (n + 1) a s) := by
  unfold step
  simp only
  split
  · exact .refl _
  · split
    · exact finish_succ _ _ _ _ _
    · exact exec_succ _ _ _ _ _

theorem step_le {n m : Nat} (h : n ≤ m) (a : Nat) (s : QSt World) : (step n a s).le (step m a s) :=
  Res.le.upto (f := fun n => step n a s) (fun n => step_succ n a s) h

theorem run_le {n m a : Nat} (hn : n ≤ m) : ∀ (k k' : Nat) (s : QSt World), k ≤ k' → (run n a k s).le (run m a k' s)
  | 0, _, _, _ => .oof _
  | k + 1, 0, _, h => absurd h (by omega)
  | k + 1, k' + 1, s, h => by
    unfold run
    refine (step_le hn _ _).bind fun more s => ?_
    split
    · exact run_le hn k k' s (by omega)
    · exact .refl _

theorem runAgent_le {n m a : Nat} (hn : n ≤ m) : ∀ (k k' : Nat) (s : QSt World), k ≤ k' → (runAgent n a k s).le (runAgent m a k' s)
  | 0, _, _, _ => .oof _
  | k + 1, 0, _, h => absurd h (by omega)
  | k + 1, k' + 1, s, h => by
    unfold runAgent
    refine (step_le hn _ _).bind fun more s => ?_
    split
    · exact runAgent_le hn k k' s (by omega)
    · split
      · exact .refl _
      · split
        · exact .refl _
        · exact Res.le.bind (.refl _) fun _ s => runAgent_le hn k k' s (by omega)

theorem round_le {n m : Nat} (hn : n ≤ m) : ∀ (as : List Nat) (s : QSt World), (round n as s).le (round m as s)
  | [], _ => .refl _
  | a :: as, s => by
    unfold round
    exact (step_le hn _ _).bind fun _ s => (round_le hn as s).bind fun _ _ => .refl _

theorem runEnv_le {n m : Nat} (hn : n ≤ m) : ∀ (k k' : Nat) (s : QSt World), k ≤ k' → (runEnv n k s).le (runEnv m k' s)
  | 0, _, _, _ => .oof _
  | k + 1, 0, _, h => absurd h (by omega)
  | k + 1, k' + 1, s, h => by
    unfold runEnv
    refine (round_le hn _ _).bind fun more s => ?_
    split
    · exact runEnv_le hn k k' s (by omega)
    · split
      · exact .refl _
      · exact Res.le.bind (.refl _) fun _ s => runEnv_le hn k k' s (by omega)

theorem callAll_succ (n a : Nat) (gt : GoalType) : ∀ (ts : List Term) (s : QSt World), (callAll n a gt ts s).le (callAll (n + 1) a gt ts s)
  | [], _ => .refl _
  | t :: ts, s => by
    unfold callAll
    exact (callNew_le (gnext_succ n) _ _ _ _ _ _).bind fun _ s => callAll_succ n a gt ts s

theorem buildAgent_succ (n : Nat) (src : AgentSrc) (base : String) (s : QSt World) :
    (buildAgent n src base s).le (buildAgent (n + 1) src base s) := by
  unfold buildAgent
  exact (callAll_succ _ _ _ _ _).bind fun _ _ => (callAll_succ _ _ _ _ _).bind fun _ _ => .refl _

theorem buildMore_succ (n : Nat) (src : AgentSrc) (base : String) (proto : Nat) : ∀ (k : Nat) (s : QSt World),
    (buildMore n src base proto k s).le (buildMore (n + 1) src base proto k s)
  | 0, _ => .refl _
  | k + 1, s => by
    unfold buildMore
    exact (callAll_succ _ _ _ _ _).bind fun _ s => (buildMore_succ n src base proto k _).bind fun _ _ => .refl _

theorem buildAgents_succ (n : Nat) (src : AgentSrc) (k : Nat) (base₀ base : String) (s : QSt World) :
    (buildAgents n src k base₀ base s).le (buildAgents (n + 1) src k base₀ base s) := by
  unfold buildAgents
  split
  · exact .refl _
  · exact (buildAgent_succ _ _ _ _).bind fun _ _ => (buildMore_succ _ _ _ _ _ _).bind fun _ _ => .refl _

end

end Verif
