import Verif.Spec.Message
import Verif.Props.Lexer

/-!
# C68: messages point at the text they are about
-/

namespace Verif

/-! ## The line of marks -/

theorem foldl_set_length (c : Char) : ∀ (cols : List Nat) (u : List Char),
    (cols.foldl (fun u col => if col < u.length then u.set col c else u) u).length = u.length
  | [], _ => rfl
  | col :: cols, u => by
    rw [List.foldl_cons, foldl_set_length c cols]
    split
    · exact List.length_set
    · rfl

theorem foldl_set_get (c : Char) (i : Nat) : ∀ (cols : List Nat) (u : List Char), i < u.length →
    (cols.foldl (fun u col => if col < u.length then u.set col c else u) u)[i]? = if i ∈ cols then some c else u[i]?
  | [], _, _ => by simp
  | col :: cols, u, hi => by
    rw [List.foldl_cons]
    have hl : (if col < u.length then u.set col c else u).length = u.length := by
      split
      · exact List.length_set
      · rfl
    rw [foldl_set_get c i cols _ (by rw [hl]; exact hi)]
    by_cases h1 : i ∈ cols
    · simp [h1]
    · rw [if_neg h1]
      by_cases h2 : i = col
      · subst h2
        rw [if_pos hi, if_pos List.mem_cons_self, List.getElem?_set_self hi]
      · rw [if_neg (fun h => (List.mem_cons.1 h).elim h2 h1)]
        by_cases h3 : col < u.length
        · rw [if_pos h3]
          rw [List.getElem?_set_ne (Ne.symm h2)]
        · rw [if_neg h3]

theorem mem_cols (l : SourceLoc) (i : Nat) :
    i ∈ List.range' l.startCol (max l.endCol (l.startCol + 1) - l.startCol) ↔ l.At i := by
  rw [List.mem_range'_1]
  unfold SourceLoc.At
  omega

theorem underline_length (c : Char) (l : SourceLoc) (u : List Char) : (underline c l u).length = u.length :=
  foldl_set_length _ _ _

theorem underline_get (c : Char) (l : SourceLoc) {u : List Char} {i : Nat} (hi : i < u.length) :
    (underline c l u)[i]? = if l.At i then some c else u[i]? := by
  unfold underline
  rw [foldl_set_get c i _ _ hi]
  simp only [mem_cols]

theorem underlineExtra_length (loc : SourceLoc) (u : List Char) (e : Option SourceLoc) :
    (underlineExtra loc u e).length = u.length := by
  unfold underlineExtra
  split
  · rfl
  · split
    · rfl
    · exact underline_length _ _ _

theorem extras_length (loc : SourceLoc) : ∀ (extra : List (Option SourceLoc)) (u : List Char),
    (extra.foldl (underlineExtra loc) u).length = u.length
  | [], _ => rfl
  | e :: extra, u => by rw [List.foldl_cons, extras_length loc extra, underlineExtra_length]

theorem extras_get (loc : SourceLoc) {i : Nat} : ∀ (extra : List (Option SourceLoc)) (u : List Char), i < u.length →
    (ExtraAt loc extra i → (extra.foldl (underlineExtra loc) u)[i]? = some '~') ∧
    (¬ExtraAt loc extra i → (extra.foldl (underlineExtra loc) u)[i]? = u[i]?)
  | [], _, _ => ⟨fun ⟨_, h, _⟩ => (by cases h), fun _ => rfl⟩
  | e :: extra, u, hi => by
    rw [List.foldl_cons]
    have ih := extras_get loc extra (underlineExtra loc u e) (by rw [underlineExtra_length]; exact hi)
    by_cases h1 : ExtraAt loc extra i
    · have h2 : ExtraAt loc (e :: extra) i := by
        obtain ⟨e', he, hr⟩ := h1
        exact ⟨e', List.mem_cons_of_mem _ he, hr⟩
      exact ⟨fun _ => ih.1 h1, fun h => absurd h2 h⟩
    · have h2 := ih.2 h1
      rw [h2]
      cases e with
      | none =>
        refine ⟨fun ⟨e', he, hr⟩ => absurd ⟨e', ?_, hr⟩ h1, fun _ => rfl⟩
        simpa using he
      | some l =>
        by_cases h3 : l.filename = loc.filename ∧ l.lineno = loc.lineno
        · have h4 : underlineExtra loc u (some l) = underline '~' l u := by
            unfold underlineExtra
            exact if_neg (by simp [h3.1, h3.2])
          rw [h4, underline_get _ _ hi]
          by_cases h5 : l.At i
          · rw [if_pos h5]
            exact ⟨fun _ => rfl, fun h => absurd ⟨l, List.mem_cons_self, h3.1, h3.2, h5⟩ h⟩
          · rw [if_neg h5]
            refine ⟨fun ⟨e', he, hr⟩ => ?_, fun _ => rfl⟩
            rcases List.mem_cons.1 he with h | h
            · cases h; exact absurd hr.2.2 h5
            · exact absurd ⟨e', h, hr⟩ h1
        · have h4 : underlineExtra loc u (some l) = u := by
            unfold underlineExtra
            exact if_pos (by
              by_cases h : l.filename = loc.filename
              · exact Or.inr fun h' => h3 ⟨h, h'⟩
              · exact Or.inl h)
          rw [h4]
          refine ⟨fun ⟨e', he, hr⟩ => ?_, fun _ => rfl⟩
          rcases List.mem_cons.1 he with h | h
          · cases h; exact absurd ⟨hr.1, hr.2.1⟩ h3
          · exact absurd ⟨e', h, hr⟩ h1

/-- The line of marks: `^` exactly under the location, `~` under the other ones. -/
theorem C68_marks (loc : SourceLoc) (extra : List (Option SourceLoc)) : Marked loc extra (underLine loc extra) := by
  have hl : (extra.foldl (underlineExtra loc) (loc.line.map fun _ => ' ')).length = loc.line.length := by
    rw [extras_length, List.length_map]
  have hg : ∀ i < loc.line.length, (loc.line.map fun _ => ' ')[i]? = some ' ' := fun i hi => by
    simp [hi]
  refine ⟨by rw [underLine, underline_length, hl], fun i hi h => ?_, fun i hi h he => ?_, fun i hi h he => ?_⟩
  · rw [underLine, underline_get _ _ (by rw [hl]; exact hi), if_pos h]
  · rw [underLine, underline_get _ _ (by rw [hl]; exact hi), if_neg h]
    exact (extras_get loc extra _ (by simpa using hi)).1 he
  · rw [underLine, underline_get _ _ (by rw [hl]; exact hi), if_neg h,
      (extras_get loc extra _ (by simpa using hi)).2 he]
    exact hg i hi

/-! ## The message -/

section
variable [Unicode]

theorem rstrip_spec (s : List Char) : Stripped s (rstrip s) := by
  refine ⟨(s.reverse.takeWhile Unicode.space).reverse, ?_, fun c hc => ?_, fun c hc => ?_⟩
  · unfold rstrip
    rw [← List.reverse_append, List.takeWhile_append_dropWhile, List.reverse_reverse]
  · rw [List.mem_reverse] at hc
    exact (List.all_eq_true.1 List.all_takeWhile) c hc
  · unfold rstrip at hc
    rw [List.getLast?_reverse] at hc
    have := List.head?_dropWhile_not (p := Unicode.space) (l := s.reverse)
    rw [hc] at this
    exact this

/-- The word for a level (40 `logging.ERROR`, 30 `WARNING`, 20 `INFO`). -/
inductive LevelWord : Nat → String → Prop where
  | error {l : Nat} : 40 ≤ l → l < 50 → LevelWord l "error"
  | warning {l : Nat} : 30 ≤ l → l < 40 → LevelWord l "warning"
  | info {l : Nat} : 20 ≤ l → l < 30 → LevelWord l "info"
  | debug {l : Nat} : l < 20 → LevelWord l "debug"

omit [Unicode] in
/-- Colours aside, the level is spelled out. -/
theorem C68_level {level : Nat} (hl : level < 50) : ∃ word c c', LevelWord level word ∧
    levelText level = .ok ('\x1b' :: c ++ (word.toList ++ ": ".toList) ++ '\x1b' :: c') := by
  unfold levelText
  rw [if_neg (by omega)]
  split
  · next h => exact ⟨_, _, _, .error h hl, rfl⟩
  split
  · next h h' => exact ⟨_, _, _, .warning h' (by omega), rfl⟩
  split
  · next h h' => exact ⟨_, _, _, .info h' (by omega), rfl⟩
  · next h => exact ⟨_, _, _, .debug (by omega), rfl⟩

omit [Unicode] in
/-- With the colours: errors are red, warnings magenta and notes black, and the default colour comes back; debugging messages are bright. -/
theorem C68_colour {level : Nat} :
    (40 ≤ level → level < 50 → levelText level = .ok "\x1b[31merror: \x1b[39m".toList) ∧
    (30 ≤ level → level < 40 → levelText level = .ok "\x1b[35mwarning: \x1b[39m".toList) ∧
    (20 ≤ level → level < 30 → levelText level = .ok "\x1b[30minfo: \x1b[39m".toList) ∧
    (level < 20 → levelText level = .ok "\x1b[1mdebug: \x1b[22m".toList) := by
  unfold levelText
  refine ⟨fun h h' => ?_, fun h h' => ?_, fun h h' => ?_, fun h => ?_⟩
  · rw [if_neg (by omega), if_pos h]; rfl
  · rw [if_neg (by omega), if_neg (by omega), if_pos h]; rfl
  · rw [if_neg (by omega), if_neg (by omega), if_neg (by omega), if_pos h]; rfl
  · rw [if_neg (by omega), if_neg (by omega), if_neg (by omega), if_neg (by omega)]; rfl

omit [Unicode] in
/-- A location is given by the name of the file, the line, and the column, counted from one. -/
theorem C68_prefix (loc : SourceLoc) :
    loc.prefix = loc.filename ++ ":".toList ++ (toString loc.lineno).toList ++ ":".toList ++ (toString (loc.startCol + 1)).toList ++ ": ".toList := by
  simp [SourceLoc.prefix, decimal, toString]

/-- A message with a location, at any level that is in use: file, line and column, the
message, the line of the source, and the marks below it; white space at the end of the last two is
left out.  The line is not empty. -/
theorem C68_message_partial {level : Nat} (hl : level < 50) (loc : SourceLoc) (hline : loc.line ≠ [])
    (extra : List (Option SourceLoc)) (msg : List Char) :
    ∃ lv line marks marks', formatMessage level (some loc) extra msg =
      .ok ((if level ≥ 20 then styleBright else []) ++ loc.prefix ++ lv ++ msg ++ styleNormal ++
        ('\n' :: line ++ '\n' :: styleBright ++ marks' ++ styleNormal)) ∧
      levelText level = .ok lv ∧ Stripped loc.line line ∧ Marked loc extra marks ∧ Stripped marks marks' := by
  have h : ∃ lv, levelText level = .ok lv := by
    unfold levelText
    rw [if_neg (by omega)]
    split
    · exact ⟨_, rfl⟩
    split
    · exact ⟨_, rfl⟩
    split
    · exact ⟨_, rfl⟩
    · exact ⟨_, rfl⟩
  obtain ⟨lv, h⟩ := h
  refine ⟨lv, rstrip loc.line, underLine loc extra, rstrip (underLine loc extra), ?_, h, rstrip_spec _, C68_marks _ _, rstrip_spec _⟩
  unfold formatMessage
  rw [h, Ev.map_ok]
  have : annotation (some loc) extra =
      '\n' :: rstrip loc.line ++ '\n' :: styleBright ++ rstrip (underLine loc extra) ++ styleNormal := by
    unfold annotation
    exact if_neg hline
  rw [this]
  rfl

/-- Without a location there is only the level and the message. -/
theorem C68_plain {level : Nat} (hl : level < 50) (extra : List (Option SourceLoc)) (msg : List Char) :
    ∃ lv, levelText level = .ok lv ∧ formatMessage level none extra msg =
      .ok ((if level ≥ 20 then styleBright else []) ++ lv ++ msg ++ styleNormal) := by
  unfold formatMessage levelText
  rw [if_neg (by omega)]
  split
  · exact ⟨_, rfl, by simp [annotation]⟩
  split
  · exact ⟨_, rfl, by simp [annotation]⟩
  split
  · exact ⟨_, rfl, by simp [annotation]⟩
  · exact ⟨_, rfl, by simp [annotation]⟩

/-- A message of the level `CRITICAL` cannot be printed at all. -/
theorem C68_critical {level : Nat} (hl : 50 ≤ level) (loc : Option SourceLoc) (extra : List (Option SourceLoc))
    (msg : List Char) : formatMessage level loc extra msg = .err (.py "AttributeError") := by
  unfold formatMessage levelText
  rw [if_pos hl, Ev.map_err]

theorem C68_false : ¬∀ (level : Nat) (loc : Option SourceLoc) (extra : List (Option SourceLoc)) (msg : List Char),
    ∃ text, formatMessage level loc extra msg = .ok text := fun h => by
  obtain ⟨text, h⟩ := h 50 none [] []
  rw [C68_critical (Nat.le_refl _)] at h
  cases h

/-! ## What the lexer yields and reports -/

omit [Unicode] in
theorem spelled_outside : ∀ (s ms : List Char), s.length = ms.length → (∀ i < s.length, ms[i]? ≠ some '^') → spelled s ms = []
  | [], _, _, _ => rfl
  | _ :: _, [], _, _ => rfl
  | c :: s, m :: ms, hl, h => by
    have h0 : m ≠ '^' := fun e => h 0 (by simp) (by simp [e])
    rw [spelled, if_neg h0]
    exact spelled_outside s ms (by simpa using hl) fun i hi => by
      have := h (i + 1) (by simpa using hi)
      simpa using this

omit [Unicode] in
theorem spelled_inside : ∀ (k : Nat) (s ms : List Char), s.length = ms.length → (∀ i < s.length, ms[i]? = some '^' ↔ i < k) →
    spelled s ms = s.take k
  | 0, s, ms, hl, h => by
    rw [spelled_outside s ms hl fun i hi e => by
      have := (h i hi).1 e
      omega]
    rfl
  | _ + 1, [], _, _, _ => rfl
  | _ + 1, _ :: _, [], hl, _ => by simp at hl
  | k + 1, c :: s, m :: ms, hl, h => by
    have h0 : m = '^' := by
      have := (h 0 (by simp)).2 (by omega)
      simpa using this
    rw [spelled, if_pos h0, spelled_inside k s ms (by simpa using hl) fun i hi => by
      have := h (i + 1) (by simpa using hi)
      simpa using this]
    rfl

omit [Unicode] in
theorem spelled_range : ∀ (a b : Nat) (s ms : List Char), s.length = ms.length →
    (∀ i < s.length, ms[i]? = some '^' ↔ a ≤ i ∧ i < b) → spelled s ms = (s.drop a).take (b - a)
  | 0, b, s, ms, hl, h => by
    rw [spelled_inside b s ms hl fun i hi => by rw [h i hi]; omega]
    simp
  | _ + 1, _, [], _, _, _ => by simp [spelled]
  | _ + 1, _, _ :: _, [], hl, _ => by simp at hl
  | a + 1, b, c :: s, m :: ms, hl, h => by
    have h0 : m ≠ '^' := fun e => by
      have := (h 0 (by simp)).1 (by simp [e])
      omega
    rw [spelled, if_neg h0, spelled_range a (b - 1) s ms (by simpa using hl) fun i hi => by
      have := h (i + 1) (by simpa using hi)
      simp only [List.getElem?_cons_succ] at this
      rw [this]
      omega]
    rw [List.drop_succ_cons, show b - 1 - a = b - (a + 1) by omega]

omit [Unicode] in
theorem loc_at (name : List Char) (n : Nat) (line : List Char) (ev : LexEv) (hs : ev.span.1 < ev.span.2) (i : Nat) :
    (ev.loc name n line).At i ↔ ev.span.1 ≤ i ∧ i < ev.span.2 := by
  cases ev with
  | tok t =>
    simp only [LexEv.span] at hs
    simp only [LexEv.loc, LexEv.span, SourceLoc.At]
    omega
  | illegal c col =>
    simp only [LexEv.loc, LexEv.span, SourceLoc.At]
    omega

/-- The characters above the marks `^` are those of the token, or the illegal character. -/
theorem C68_spelled {inComment b : Bool} {line : List Char} {evs : List LexEv}
    (h : scanLine inComment line = some (evs, b)) (ev : LexEv) (hev : ev ∈ evs) (name : List Char) (n : Nat)
    (extra : List (Option SourceLoc)) :
    spelled (expandTabs line) (underLine (ev.loc name n line) extra) = ev.text := by
  obtain ⟨h1, h2, h3⟩ := (C43_slices h).1 ev hev
  have hline : (ev.loc name n line).line = expandTabs line := by cases ev <;> rfl
  have hm := C68_marks (ev.loc name n line) extra
  have hlen := hm.length
  have hmain := hm.main
  have hx := hm.other
  have hb := hm.blank
  rw [hline] at hlen hmain hx hb
  rw [← h3]
  refine spelled_range _ _ _ _ hlen.symm fun i hi => ?_
  rw [← loc_at name n line ev h1 i]
  constructor
  · intro e
    apply Classical.byContradiction
    intro hn
    by_cases h4 : ExtraAt (ev.loc name n line) extra i
    · rw [hx i hi hn h4] at e; cases e
    · rw [hb i hi hn h4] at e; cases e
  · exact hmain i hi

omit [Unicode] in
/-- Columns are counted after tabs have been replaced: the character after `pre` is at
this column. -/
theorem C68_column (pre : List Char) (c : Char) (hc : c ≠ '\t') (post : List Char) :
    ∃ u v, expandTabs (pre ++ c :: post) = u ++ c :: v ∧ u.length = pre.length + 3 * pre.count '\t' := by
  refine ⟨expandTabs pre, expandTabs post, ?_, ?_⟩
  · simp [expandTabs, List.flatMap_append, hc]
  · induction pre with
    | nil => rfl
    | cons a pre ih =>
      have : expandTabs (a :: pre) = (if a = '\t' then [' ', ' ', ' ', ' '] else [a]) ++ expandTabs pre := rfl
      rw [this, List.length_append, ih, List.count_cons]
      by_cases h : a = '\t'
      · subst h
        simp
        omega
      · simp [h]
        omega

/-! ## `lexer.main` -/

/-- The number of illegal characters. -/
def illegals (evs : List (Message × Bool)) : Nat := evs.countP (·.2)

omit [Unicode] in
theorem lexPrint_spec : ∀ (evs : List (Message × Bool)) (k : Nat), k < 3 →
    ∃ seen rest, evs = seen ++ rest ∧
      lexPrint { maxErrors := some 3, numErrors := k } evs =
        (seen.map (·.1), if k + illegals seen = 0 then none else some ⟨k + illegals seen, 0⟩) ∧
      (rest = [] ∨ k + illegals seen = 3) ∧ k + illegals seen ≤ 3 ∧
      (k + illegals seen = 3 → ∃ m init, seen = init ++ [(m, true)])
  | [], k, hk => by
    refine ⟨[], [], rfl, ?_, Or.inl rfl, by simp [illegals]; omega, fun h => by simp [illegals] at h; omega⟩
    by_cases h : k = 0
    · subst h; rfl
    · simp [lexPrint, Log.throw, h, illegals, Log.aggregated]
  | (m, false) :: evs, k, hk => by
    obtain ⟨seen, rest, he, hp, hr, hle, hlast⟩ := lexPrint_spec evs k hk
    have hi : illegals ((m, false) :: seen) = illegals seen := by simp [illegals]
    refine ⟨(m, false) :: seen, rest, by rw [he]; rfl, ?_, by rw [hi]; exact hr, by rw [hi]; exact hle, fun h => ?_⟩
    · rw [lexPrint, if_neg (by simp), hp, hi]
      rfl
    · rw [hi] at h
      obtain ⟨m', init, h⟩ := hlast h
      exact ⟨m', (m, false) :: init, by rw [h]; rfl⟩
  | (m, true) :: evs, k, hk => by
    have hi : ∀ seen, illegals ((m, true) :: seen) = illegals seen + 1 := fun seen => by simp [illegals]
    by_cases h2 : k + 1 ≥ 3
    · have hk2 : k = 2 := by omega
      subst hk2
      exact ⟨[(m, true)], evs, rfl, rfl, Or.inr rfl, Nat.le_refl _, fun _ => ⟨m, [], rfl⟩⟩
    · obtain ⟨seen, rest, he, hp, hr, hle, hlast⟩ := lexPrint_spec evs (k + 1) (by omega)
      have e : k + illegals ((m, true) :: seen) = k + 1 + illegals seen := by rw [hi]; omega
      refine ⟨(m, true) :: seen, rest, by rw [he]; rfl, ?_, by rw [e]; exact hr, by rw [e]; exact hle, fun h => ?_⟩
      · rw [lexPrint, if_pos rfl]
        simp only [Log.error]
        rw [if_neg h2]
        simp only
        rw [hp, e]
        rfl
      · rw [e] at h
        obtain ⟨m', init, h⟩ := hlast h
        exact ⟨m', (m, true) :: init, by rw [h]; rfl⟩

/-- `lexer.main` prints one message for each token and each illegal character, in the order of the file,
up to the third illegal character; it raises if and only if there is an illegal character. -/
theorem C68_main (name : List Char) (lineno : Nat) (lines : List (List Char)) :
    ∃ seen rest, tokenize lineno lines = some (seen ++ rest) ∧
      lexMain name lineno lines = some (seen.map fun (n, ev) => ev.message name n (lines.getD (n - lineno) []),
        if seen.countP (·.2.isIllegal) = 0 then none else some ⟨seen.countP (·.2.isIllegal), 0⟩) ∧
      (rest = [] ∨ ∃ init last, seen = init ++ [last] ∧ last.2.isIllegal = true ∧ init.countP (·.2.isIllegal) = 2) ∧
      seen.countP (·.2.isIllegal) ≤ 3 := by
  obtain ⟨evs, h, _⟩ := C43_file lineno lines
  obtain ⟨seen', rest', he, hp, hr, hle, hlast⟩ := lexPrint_spec
    (evs.map fun (n, ev) => (ev.message name n (lines.getD (n - lineno) []), ev.isIllegal)) 0 (by omega)
  obtain ⟨seen, rest, hs, h1, h2⟩ := List.map_eq_append_iff.1 he
  subst hs
  have hc : illegals seen' = seen.countP (·.2.isIllegal) := by
    rw [illegals, ← h1, List.countP_map]
    rfl
  rw [Nat.zero_add, hc] at hp hr hle hlast
  refine ⟨seen, rest, h, ?_, ?_, hle⟩
  · unfold lexMain
    rw [h, Option.map_some, hp, ← h1, List.map_map]
    rfl
  · rcases hr with e | e
    · rw [e] at h2
      exact Or.inl (List.map_eq_nil_iff.1 h2)
    · obtain ⟨m, init', h3⟩ := hlast e
      rw [h3] at h1
      obtain ⟨init, last, h4, _, h5⟩ := List.map_eq_append_iff.1 h1
      obtain ⟨p, h6, h7⟩ := List.map_eq_singleton_iff.1 h5
      subst h4 h6
      have h8 : p.2.isIllegal = true := (Prod.mk.inj h7).2
      refine Or.inr ⟨init, p, rfl, h8, ?_⟩
      rw [List.countP_append, List.countP_singleton, if_pos h8] at e
      omega

/-! ## `lexer.repl` -/

theorem messages_lineno {b : Bool} {n : Nat} {lines : List (List Char)} {evs : List (Nat × LexEv)}
    (h : LexesLines b n lines evs) : ∀ p ∈ evs, n ≤ p.1 ∧ p.1 < n + lines.length := by
  induction h with
  | nil => intro p hp; cases hp
  | @cons b n l ls evs b' rest _ _ ih =>
    intro p hp
    rcases List.mem_append.1 hp with h | h
    · obtain ⟨ev, _, rfl⟩ := List.mem_map.1 h
      simp
    · have := ih p h
      simp only [List.length_cons]
      omega

omit [Unicode] in
theorem fileLines_one {l : List Char} (h : '\n' ∉ l) : (fileLines l).length ≤ 1 := by
  induction l with
  | nil => simp [fileLines]
  | cons c cs ih =>
    have h1 : c ≠ '\n' := fun e => h (by simp [e])
    have h2 := ih fun e => h (List.mem_cons_of_mem _ e)
    rw [fileLines, if_neg h1]
    split
    · simp
    · rename_i l' ls' e
      rw [e] at h2
      simpa using h2

theorem lexMain_lineno {name : List Char} {n : Nat} {l : List Char} (hl : '\n' ∉ l) {ms : List Message} {e : Option Aggregated}
    (h : lexMain name n (fileLines l) = some (ms, e)) : ∀ m ∈ ms, m.loc.lineno = n := by
  obtain ⟨seen, rest, ht, hm, _⟩ := C68_main name n (fileLines l)
  rw [hm] at h
  cases h
  obtain ⟨evs, h1, h2⟩ := C43_file n (fileLines l)
  rw [ht] at h1
  cases h1
  intro m hm
  obtain ⟨p, hp, rfl⟩ := List.mem_map.1 hm
  have h3 := messages_lineno h2 p (List.mem_append_left _ hp)
  have h4 := fileLines_one hl
  have h5 : (p.2.message name p.1 ((fileLines l).getD (p.1 - n) [])).loc.lineno = p.1 := by
    cases p.2 <;> rfl
  have h6 : p.1 = n := by omega
  exact h5.trans h6

/-- At the prompt of the lexer, the messages about a line have its number, as long as there
was no error before. -/
theorem C68_repl_partial : ∀ (ls : List (List Char)) (n : Nat), (∀ l ∈ ls, '\n' ∉ l) →
    ∃ outs, lexRepl n ls = some outs ∧ outs.length = ls.length ∧
      ∀ k ms e, outs[k]? = some (ms, e) → (∀ j < k, ∀ ms e, outs[j]? = some (ms, e) → e = none) →
        ∀ m ∈ ms, m.loc.lineno = n + k
  | [], n, _ => ⟨[], rfl, rfl, fun k ms e h => (by simp at h)⟩
  | l :: ls, n, hls => by
    obtain ⟨ms, e, hr⟩ : ∃ ms e, lexMain "<stdin>".toList n (fileLines l) = some (ms, e) := by
      obtain ⟨_, _, _, hm, _⟩ := C68_main "<stdin>".toList n (fileLines l)
      exact ⟨_, _, hm⟩
    have hno := lexMain_lineno (hls l List.mem_cons_self) hr
    rw [lexRepl, hr]
    cases e with
    | none =>
      obtain ⟨outs, h1, h2, h3⟩ := C68_repl_partial ls (n + 1) fun l hl => hls l (List.mem_cons_of_mem _ hl)
      refine ⟨(ms, none) :: outs, by simp only; rw [h1]; rfl, by simp [h2], fun k ms' e' hk hj m hm => ?_⟩
      cases k with
      | zero =>
        cases hk
        exact hno m hm
      | succ k =>
        have := h3 k ms' e' hk (fun j hjk ms e h => hj (j + 1) (by omega) ms e h) m hm
        omega
    | some e =>
      obtain ⟨outs, h1, h2, h3⟩ := C68_repl_partial ls n fun l hl => hls l (List.mem_cons_of_mem _ hl)
      refine ⟨(ms, some e) :: outs, by simp only; rw [h1]; rfl, by simp [h2], fun k ms' e' hk hj m hm => ?_⟩
      cases k with
      | zero =>
        cases hk
        exact hno m hm
      | succ k =>
        have := hj 0 (by omega) ms (some e) rfl
        cases this

end

section examples
attribute [local instance] asciiText

/-- A message about the second of two tokens, with the first one as an extra location. -/
example : formatMessage 40 (some ⟨"a.asl".toList, 7, 4, 6, "foo bar\n".toList⟩)
    [none, some ⟨"a.asl".toList, 7, 0, 3, "foo bar\n".toList⟩, some ⟨"a.asl".toList, 8, 0, 9, []⟩] "bad".toList = .ok
      (styleBright ++ "a.asl:7:5: ".toList ++ foreRed ++ "error: ".toList ++ foreReset ++ "bad".toList ++ styleNormal ++
        "\nfoo bar\n".toList ++ styleBright ++ "~~~ ^^".toList ++ styleNormal) := by rfl

/-- The characters above `^^`. -/
example : spelled "foo bar".toList "~~~ ^^".toList = "ba".toList := by rfl

/-- The column that is reported is not the one in the file, if there is a tab before it:
here it is 4 (the fifth), and the character is the second one of the line. -/
theorem C68_tab_false : ¬∀ (line : List Char) (evs : List LexEv) (b : Bool), scanLine false line = some (evs, b) →
    ∀ c col, LexEv.illegal c col ∈ evs → line[col]? = some c := fun h => by
  have := h ['\t', '^'] [.illegal '^' 4] false rfl '^' 4 List.mem_cons_self
  cases this

/-- After an error at the prompt the next line has the same number. -/
theorem C68_repl_false : ¬∀ (ls : List (List Char)) (n : Nat) (outs : List (List Message × Option Aggregated)),
    (∀ l ∈ ls, '\n' ∉ l) → lexRepl n ls = some outs → ∀ k ms e, outs[k]? = some (ms, e) → ∀ m ∈ ms, m.loc.lineno = n + k := fun h => by
  have := h [['^'], ['a']] 1
    [([⟨40, ⟨"<stdin>".toList, 1, 0, 0, ['^']⟩, "illegal character '^'".toList⟩], some ⟨1, 0⟩),
     ([⟨20, ⟨"<stdin>".toList, 1, 0, 1, ['a']⟩, ['a']⟩], none)] (by decide) (by rfl) 1 _ _ rfl _ List.mem_cons_self
  cases this

/-- The fourth illegal character is not reported any more. -/
example : (lexMain ['f'] 1 ["a ^^".toList, "^b^".toList]).map (fun r => (r.1.map (·.msg), r.2)) =
    some ([['a'], "illegal character '^'".toList, "illegal character '^'".toList, "illegal character '^'".toList],
      some ⟨3, 0⟩) := by rfl

end examples

end Verif
