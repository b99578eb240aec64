import Verif.Lemmas.Total
import Verif.Lemmas.ScriptAgent

/-! The parser for files ends, if the included files are few, and raises only some exceptions. -/

namespace Verif

variable {z : Nat}

theorem done_expect {α : Type} {w : List Char} {ts : List Tok} {f : List Tok → PR α}
    (hf : ∀ us, us <:+ ts → us.length < ts.length → us ≠ [] → Parses z ts (f us)) : Parses z ts ((expect w ts).bind f) := by
  rw [expect]
  split
  · exact done_advance hf
  · exact done_syntax

section
variable [Unicode] [Floats]

theorem head_done {n : Nat} {ts : List Tok} (hq : Quoted ts) (hn : 10 * ts.length + 1 ≤ n ∨ z = 1) : Parses z ts (parseHead n ts) := by
  rw [parseHead]
  refine done_expect fun us hs hl _ => ?_
  refine Parses.bind (((totalAt n).term us (hq.suffix hs) (by omega)).suffix hs) fun a vs hs2 hl2 => ?_
  exact Parses.suffix (us := vs) (done_expect fun ws hs3 hl3 _ => ⟨hs3, hl3⟩) hs2

/-- With this much fuel, everything ends. -/
structure StmtsTotal (z n : Nat) : Prop where
  stmt : ∀ ts, Quoted ts → (10 * ts.length + 11 ≤ n ∨ z = 1) → Parses z ts (parseStmt n ts)
  block : ∀ ts, Quoted ts → (10 * ts.length + 3 ≤ n ∨ z = 1) → Parses z ts (parseBlock n ts)
  body : ∀ us ts, Quoted ts → (10 * ts.length + 12 ≤ n ∨ z = 1) → ts <:+ us → ts.length < us.length → Parses z us (parseBody n ts)

theorem stmtsTotal : ∀ n, StmtsTotal z n
  | 0 => by constructor <;> (intros; show z = 1; omega)
  | n + 1 => by
    have ih := stmtsTotal n
    have it : TotalAt z n := totalAt n
    constructor
    case stmt =>
      intro ts hq hn
      have headBlock : ∀ {f : Ast → List AStmt → List Tok → PR AStmt}, (∀ c b vs, vs <:+ ts → vs.length < ts.length → Parses z ts (f c b vs)) →
          Parses z ts ((advance ts).bind fun ts => (parseHead n ts).bind fun x => (parseBlock n x.2).bind fun y => f x.1 y.1 y.2) := by
        intro f hf
        refine done_advance fun us hs hl _ => ?_
        refine Parses.bind ((head_done (hq.suffix hs) (by omega)).suffix hs) fun c vs hs2 hl2 => ?_
        refine Parses.bind ((ih.block vs (hq.suffix hs2) (by omega)).suffix hs2) fun b ws hs3 hl3 => hf c b ws hs3 hl3
      rw [parseStmt.eq_def]
      simp only
      split
      · exact headBlock (f := fun c b ts => Ev.ok (AStmt.while_ c b, ts)) fun c b vs hs hl => ⟨hs, hl⟩
      · split
        · refine headBlock (f := fun c b ts => if at? "else".toList ts then
            (advance ts).bind fun ts => (parseBlock n ts).bind fun (e, ts) => Ev.ok (AStmt.ifElse c b e, ts)
            else Ev.ok (AStmt.if_ c b, ts)) fun c b vs hs hl => ?_
          simp only
          split
          · refine Parses.suffix (us := vs) ?_ hs
            refine done_advance fun us hs hl _ => ?_
            exact Parses.bind ((ih.block us (hq.suffix (hs.trans ‹_›)) (by omega)).suffix hs) fun b ws hs3 hl3 => ⟨hs3, hl3⟩
          · exact ⟨hs, hl⟩
        · split
          · exact headBlock (f := fun c b ts => Ev.ok (AStmt.for_ c b, ts)) fun c b vs hs hl => ⟨hs, hl⟩
          · cases ts with
            | nil => exact .inr (.inl rfl)
            | cons t ts =>
              simp only
              split
              · refine done_advance fun us hs hl _ => ?_
                exact Parses.bind ((it.term us (hq.suffix hs) (by omega)).suffix hs) fun a vs hs2 hl2 => ⟨hs2, hl2⟩
              · exact Parses.bind (it.term _ hq (by omega)) fun a vs hs2 hl2 => ⟨hs2, hl2⟩
    case block =>
      intro ts hq hn
      rw [parseBlock]
      refine done_expect fun us hs hl _ => ?_
      refine Parses.bind (ih.body ts us (hq.suffix hs) (by omega) hs hl) fun b vs hs2 hl2 => ?_
      exact Parses.suffix (us := vs) (done_expect fun ws hs3 hl3 _ => ⟨hs3, hl3⟩) hs2
    case body =>
      intro us ts hq hn hs0 hl0
      rw [parseBody]
      split
      · exact ⟨hs0, hl0⟩
      · refine Parses.suffix (us := ts) ?_ hs0
        refine Parses.bind (ih.stmt ts hq (by omega)) fun f vs hs hl => ?_
        simp only
        split
        · refine Parses.suffix (us := vs) ?_ hs
          refine done_advance fun ws hs2 hl2 _ => ?_
          exact Parses.bind (ih.body vs ws (hq.suffix (hs2.trans hs)) (by omega) hs2 hl2) fun b xs hs3 hl3 => ⟨hs3, hl3⟩
        · split
          · exact ⟨hs, hl⟩
          · split
            · exact done_syntax
            · exact Parses.bind (ih.body ts vs (hq.suffix hs) (by omega) hs hl) fun b xs hs3 hl3 => ⟨hs3, hl3⟩

theorem planBody_done : ∀ {n : Nat} {ts : List Tok}, Quoted ts → (10 * ts.length + 12 ≤ n ∨ z = 1) → Parses z ts (parsePlanBody n ts)
  | 0, ts, hq, hn => by show z = 1; omega
  | n + 1, ts, hq, hn => by
    rw [parsePlanBody]
    refine Parses.bind ((stmtsTotal n).stmt ts hq (by omega)) fun f vs hs hl => ?_
    simp only
    split
    · refine Parses.suffix (us := vs) ?_ hs
      refine done_advance fun ws hs2 hl2 _ => ?_
      exact Parses.bind ((planBody_done (hq.suffix (hs2.trans hs)) (by omega)).suffix hs2) fun b xs hs3 hl3 => ⟨hs3, hl3⟩
    · split
      · exact ⟨hs, hl⟩
      · split
        · exact done_syntax
        · exact Parses.bind ((planBody_done (hq.suffix hs) (by omega)).suffix hs) fun b xs hs3 hl3 => ⟨hs3, hl3⟩

theorem event_done {n : Nat} {ts : List Tok} (hq : Quoted ts) (hn : 10 * ts.length + 1 ≤ n ∨ z = 1) : Parses z ts (parseEvent n ts) := by
  rw [parseEvent.eq_def]
  cases ts with
  | nil => exact .inr (.inl rfl)
  | cons t ts =>
    simp only
    split
    · exact done_syntax
    · refine done_advance fun us hs hl hne => ?_
      cases us with
      | nil => exact absurd rfl hne
      | cons u us =>
        simp only
        split
        · refine Parses.suffix (us := u :: us) ?_ hs
          refine done_advance fun ws hs2 hl2 _ => ?_
          exact Parses.bind (((totalAt n).literal ws (hq.suffix (hs2.trans hs)) (by omega)).suffix hs2) fun b xs hs3 hl3 => ⟨hs3, hl3⟩
        · exact Parses.bind (((totalAt n).literal _ (hq.suffix hs) (by omega)).suffix hs) fun b xs hs3 hl3 => ⟨hs3, hl3⟩

omit [Unicode] [Floats] in
theorem opt_done {α : Type} {w : List Char} {f : List Tok → PR α} {ts us : List Tok}
    (hf : ∀ vs, vs <:+ us → vs.length < us.length → Parses z vs (f vs)) (hs : us <:+ ts) (hl : us.length < ts.length) :
    Parses z ts (if at? w us then (advance us).bind fun ts => (f ts).bind fun (l, ts) => Ev.ok (some l, ts) else Ev.ok (none, us)) := by
  split
  · refine Parses.suffix (us := us) ?_ hs
    refine done_advance fun vs hs2 hl2 _ => ?_
    exact Parses.bind ((hf vs hs2 hl2).suffix hs2) fun b xs hs3 hl3 => ⟨hs3, hl3⟩
  · exact ⟨hs, hl⟩

/-- A plan, after the label. -/
def parseUnlabelled (n : Nat) (label : Option Ast) (ts : List Tok) : PR APlan :=
  (parseEvent n ts).bind fun (event, ts) =>
  (if at? [':'] ts then
    (advance ts).bind fun ts => (parseTerm n ts).bind fun (c, ts) => .ok (some c, ts)
   else .ok (none, ts)).bind fun (context, ts) =>
  (if at? ['<', '-'] ts then
    (advance ts).bind fun ts => (parsePlanBody n ts).bind fun (b, ts) => .ok (some b, ts)
   else .ok (none, ts)).bind fun (body, ts) =>
  .ok (⟨label, event, context, body⟩, ts)

theorem unlabelled_done {n : Nat} {label : Option Ast} {ts : List Tok} (hq : Quoted ts) (hn : 10 * ts.length + 12 ≤ n ∨ z = 1) :
    Parses z ts (parseUnlabelled n label ts) := by
  rw [parseUnlabelled]
  refine Parses.bind (event_done hq (by omega)) fun e vs hs1 hl1 => ?_
  refine Parses.bind (opt_done (fun us hs hl => (totalAt n).term us (hq.suffix (hs.trans hs1)) (by omega)) hs1 hl1) fun c ws hs2 hl2 => ?_
  exact Parses.bind (opt_done (fun us hs hl => planBody_done (hq.suffix (hs.trans hs2)) (by omega)) hs2 hl2) fun b xs hs3 hl3 => ⟨hs3, hl3⟩

theorem plan_done {n : Nat} {ts : List Tok} (hq : Quoted ts) (hn : 10 * ts.length + 12 ≤ n ∨ z = 1) : Parses z ts (parsePlan n ts) := by
  show Parses z ts (Ev.bind _ fun x : Option Ast × List Tok => parseUnlabelled n x.1 x.2)
  split
  · refine Parses.bind (α := Option Ast) ?_ fun l us hs hl => (unlabelled_done (hq.suffix hs) (by omega)).suffix hs
    refine done_advance fun us hs hl _ => ?_
    exact Parses.bind (((totalAt n).literal us (hq.suffix hs) (by omega)).suffix hs) fun b xs hs3 hl3 => ⟨hs3, hl3⟩
  · exact unlabelled_done hq hn

theorem clause_done {n : Nat} {ts : List Tok} (hq : Quoted ts) (hn : 10 * ts.length + 12 ≤ n ∨ z = 1) : Parses z ts (parseClause n ts) := by
  rw [parseClause]
  refine Parses.bind (α := Clause) ?_ fun c us hs hl => ?_
  · rw [parsePart.eq_def]
    cases ts with
    | nil => exact .inr (.inl rfl)
    | cons t ts =>
      simp only
      split
      · rw [parseRuleOrBelief]
        refine Parses.bind ((totalAt n).literal _ hq (by omega)) fun h us hs hl => ?_
        simp only
        split
        · refine Parses.suffix (us := us) ?_ hs
          refine done_advance fun vs hs2 hl2 _ => ?_
          exact Parses.bind (((totalAt n).term vs (hq.suffix (hs2.trans hs)) (by omega)).suffix hs2) fun b xs hs3 hl3 => ⟨hs3, hl3⟩
        · exact ⟨hs, hl⟩
      · split
        · rw [parseGoal]
          refine done_expect fun us hs hl _ => ?_
          exact Parses.bind (((totalAt n).literal us (hq.suffix hs) (by omega)).suffix hs) fun b xs hs3 hl3 => ⟨hs3, hl3⟩
        · exact Parses.bind (plan_done hq hn) fun b xs hs3 hl3 => ⟨hs3, hl3⟩
  · simp only
    split
    · exact ⟨hs, hl⟩
    · exact done_syntax

end

end Verif
