import Verif.Lemmas.Recovery
import Verif.Lemmas.SampleFile

/-!
C54: what is made of a file with syntax errors.

`PiecesP` (in `Spec/Recovery.lean`) cuts the tokens of a file into declarations and skipped stretches.
-/

set_option linter.unusedSectionVars false

namespace Lima.Props

open Spec Grammar

section
variable [Unicode] [DecOps]
variable {cfg : ParseCfg} {toks i r : List Ranged} {o o' o1 o2 : ParserOptions} {warns warns' : List Report}
  {res res' : FileResult}

/-- C54: every file is cut into declarations and skipped stretches, in order and without omission; each declaration
is read with all its lines, with the options in force there; the errors are those of the declarations and one for
each stretch; if the last piece is a skipped stretch then there is no result, otherwise the result is the
declarations. -/
theorem C54_pieces (h : parseFile cfg toks o warns = some res) :
    ∃ ps, PiecesP cfg o toks ps res.opts ∧ (ps.map Piece.run).flatten = toks ∧
      res.errors = ps.flatMap Piece.errors ∧
      (¬ Lost ps ∧ res.declarations = some (ps.filterMap Piece.read) ∨ Lost ps ∧ res.declarations = none) := by
  obtain ⟨ps, h1, h2, h3⟩ := parseFile_pieces h
  exact ⟨ps, h1, pieces_flatten h1, h2, h3⟩

/-- C54: and the pieces determine the outcome: whichever way of cutting satisfies the specification, the outcome is
what it says. -/
theorem C54_determined {ps : List Piece} (h : parseFile cfg toks o warns = some res)
    (hp : PiecesP cfg o toks ps o') :
    res.opts = o' ∧ res.errors = ps.flatMap Piece.errors ∧
      (¬ Lost ps ∧ res.declarations = some (ps.filterMap Piece.read) ∨ Lost ps ∧ res.declarations = none) :=
  parseFile_determined h hp

/-- The number of skipped stretches. -/
def skippedCount (ps : List Piece) : Nat := ps.countP (fun p => p.read.isNone)

/-- C54: there is one syntax error for each skipped stretch, and a stretch is not empty; two stretches are never next
to each other. -/
theorem C54_one_error_each (h : parseFile cfg toks o warns = some res) :
    ∃ ps, PiecesP cfg o toks ps res.opts ∧ res.errors.count .syntax = skippedCount ps ∧
      (∀ p ∈ ps, p.run ≠ []) ∧ ps.IsChain (fun p q => p.read = none → q.read ≠ none) := by
  obtain ⟨ps, h1, h2, h0⟩ := parseFile_pieces h
  have lt : ∀ {o o' run r d es}, ReadsP cfg o (run ++ r) r d o' es → run ≠ [] := by
    rintro o o' run r d es h rfl
    exact absurd (declaration_lt h.1) (by simp)
  have cnt : ∀ {o o' i r d es}, ReadsP cfg o i r d o' es → es.count .syntax = 0 := fun h =>
    List.count_eq_zero.mpr (declaration_no_syntax h.1)
  refine ⟨ps, h1, ?_⟩
  rw [h2]
  clear h2 h h0
  generalize res.opts = o1 at h1
  induction h1 with
  | nil => exact ⟨rfl, by simp, .nil⟩
  | declaration h _ ih =>
    obtain ⟨h1, h2, h3⟩ := ih
    refine ⟨?_, ?_, ?_⟩
    · rw [List.flatMap_cons, List.count_append, h1]
      simp only [Piece.errors, cnt h, skippedCount, Piece.read, Option.isNone_some, List.countP_cons]
      simp
    · intro p hp
      rcases List.mem_cons.mp hp with rfl | hp
      · exact lt h
      · exact h2 p hp
    · refine List.isChain_cons.mpr ⟨?_, h3⟩
      intro q _ hq
      cases hq
  | skipped hs h _ ih =>
    obtain ⟨h1, h2, h3⟩ := ih
    refine ⟨?_, ?_, ?_⟩
    · simp only [List.flatMap_cons, Piece.errors, List.nil_append, List.singleton_append, List.count_cons_self, h1,
        skippedCount, Piece.read, List.countP_cons]
      simp
    · intro p hp
      rcases List.mem_cons.mp hp with rfl | hp
      · cases hs; simp [Piece.run]
      · rcases List.mem_cons.mp hp with rfl | hp
        · exact lt h
        · exact h2 p hp
    · refine List.isChain_cons.mpr ⟨?_, List.isChain_cons.mpr ⟨?_, h3⟩⟩
      · rintro q hq _ hn
        cases hq
        cases hn
      · intro q _ hq
        cases hq
  | lost hs =>
    refine ⟨by simp [Piece.errors, skippedCount, Piece.read], ?_, by simp⟩
    intro p hp
    rcases List.mem_singleton.mp hp with rfl
    cases hs
    simp [Piece.run]

/-- Adding a declaration at the front. -/
theorem outcome_cons {ps : List Piece} {run : List Ranged} {d : Spanned Declaration} {es : List PErr}
    {x y : Option (List (Spanned Declaration))} (pre : List Piece) (hpre : ∀ p ∈ pre, p.read = none)
    (h : ¬ Lost ps ∧ x = some (ps.filterMap Piece.read) ∨ Lost ps ∧ x = none)
    (h' : ¬ Lost (pre ++ .declaration run d es :: ps) ∧
        y = some ((pre ++ .declaration run d es :: ps).filterMap Piece.read) ∨
      Lost (pre ++ .declaration run d es :: ps) ∧ y = none) : y = x.map (d :: ·) := by
  have e : Lost (pre ++ .declaration run d es :: ps) ↔ Lost ps := by
    unfold Lost
    rw [List.getLast?_append]
    cases ps with
    | nil => simp
    | cons q qs =>
      rw [List.getLast?_cons_cons, List.getLast?_eq_some_getLast (l := q :: qs) (by simp)]
      simp
  have f : (pre ++ .declaration run d es :: ps).filterMap Piece.read = d :: ps.filterMap Piece.read := by
    rw [List.filterMap_append, List.filterMap_eq_nil_iff.mpr hpre]
    rfl
  rw [e, f] at h'
  rcases h with ⟨h1, rfl⟩ | ⟨h1, rfl⟩
  · rcases h' with ⟨_, rfl⟩ | ⟨h2, _⟩
    · rfl
    · exact absurd h2 h1
  · rcases h' with ⟨h2, _⟩ | ⟨_, rfl⟩
    · exact absurd h1 h2
    · rfl

/-- C54: a declaration at the front is read, whatever comes after it; the rest is parsed as if it were a file of its
own, with the options from then on. -/
theorem C54_read {d : Spanned Declaration} {es : List PErr} (h : parseFile cfg toks o warns = some res)
    (hd : ReadsP cfg o toks r d o1 es) (hr : parseFile cfg r o1 warns' = some res') :
    res.declarations = res'.declarations.map (d :: ·) ∧ res.errors = es ++ res'.errors ∧ res.opts = res'.opts := by
  obtain ⟨ps, h1, h2, h3⟩ := parseFile_pieces hr
  obtain ⟨run, rfl⟩ : r <:+ toks := (does_declaration hd).1
  obtain ⟨h4, h5, h6⟩ := parseFile_determined h (.declaration hd h1)
  exact ⟨outcome_cons [] (by simp) h3 h6, by rw [h5, h2]; rfl, h4⟩

/-- C54: where no declaration begins, tokens are skipped up to a declaration without errors of its own, with one
syntax error; the rest is parsed as if it were a file of its own. -/
theorem C54_resume {skipped : List Ranged} {d : Spanned Declaration}
    (h : parseFile cfg (skipped ++ i) o warns = some res) (hs : SkipsP cfg o skipped i o1)
    (hd : ReadsP cfg o1 i r d o2 []) (hr : parseFile cfg r o2 warns' = some res') :
    res.declarations = res'.declarations.map (d :: ·) ∧ res.errors = .syntax :: res'.errors ∧
      res.opts = res'.opts := by
  obtain ⟨ps, h1, h2, h3⟩ := parseFile_pieces hr
  obtain ⟨run, rfl⟩ : r <:+ i := (does_declaration hd).1
  obtain ⟨h4, h5, h6⟩ := parseFile_determined h (.skipped hs hd h1)
  exact ⟨outcome_cons [.skipped skipped] (by simp [Piece.read]) h3 h6, by rw [h5, h2]; rfl, h4⟩

/-! ### Stretches without a token with which a declaration may begin -/

theorem junk_noDeclaration {t : Ranged} (ht : ¬ StartsDeclaration t.tok) :
    NoDeclaration cfg o (t :: i) ∧ AfterFailure cfg o (t :: i) o := by
  refine ⟨fun r d o' es h => ?_, .other ?_⟩
  · obtain ⟨x, l, e, hx⟩ := starts_declaration h
    cases e
    apply ht
    rcases hx with ⟨d, hx⟩ | hx | hx | hx | hx | hx | hx | hx
    · exact .inl ⟨d, hx⟩
    all_goals (rw [hx]; simp [StartsDeclaration])
  · rintro name value ⟨j, k, l, ⟨x, y, e⟩, _⟩
    cases e
    exact ht (by simp [StartsDeclaration])

theorem junk_passed {junk : List Ranged} (h : ∀ t ∈ junk, ¬ StartsDeclaration t.tok) :
    AllPassedOver cfg o junk i o := by
  induction junk with
  | nil => exact .nil
  | cons t ts ih =>
    obtain ⟨h1, h2⟩ := junk_noDeclaration (cfg := cfg) (o := o) (i := ts ++ i) (h t (by simp))
    exact .cons (.nothing h1 h2) (ih fun t ht => h t (by simp [ht]))

theorem junk_skips {junk : List Ranged} (hne : junk ≠ []) (h : ∀ t ∈ junk, ¬ StartsDeclaration t.tok) :
    SkipsP cfg o junk i o := by
  cases junk with
  | nil => exact absurd rfl hne
  | cons t ts =>
    obtain ⟨h1, h2⟩ := junk_noDeclaration (cfg := cfg) (o := o) (i := ts ++ i) (h t (by simp))
    exact .mk h1 h2 (junk_passed fun t ht => h t (by simp [ht]))

theorem ended_of_head (h : Head i (fun t => t ≠ .indent)) (d : Declaration) : Ended cfg o d i := by
  have hl : NoLine cfg o i := by
    intro r m hl
    cases hl with
    | keyValue a _ _ => obtain ⟨x, y, rfl⟩ := a; exact h _ rfl rfl
    | tag a _ _ => obtain ⟨x, y, rfl⟩ := a; exact h _ rfl rfl
    | link a _ _ => obtain ⟨x, y, rfl⟩ := a; exact h _ rfl rfl
  have hp : NoPosting cfg o i := by
    rintro r p ⟨⟨x, y, rfl⟩, _⟩
    exact h _ rfl rfl
  unfold Ended
  split
  · exact ⟨hl, hp⟩
  · exact hl
  · trivial

/-- A file as the grammar says, in pieces. -/
theorem file_pieces {ds : List (Spanned Declaration)} {es : List PErr} {ws : List Report}
    (h : FileP cfg o toks ds o' es ws) :
    ∃ ps, PiecesP cfg o toks ps o' ∧ ¬ Lost ps ∧ ps.filterMap Piece.read = ds ∧ ps.flatMap Piece.errors = es := by
  induction h with
  | nil => exact ⟨[], .nil, by simp [Lost], rfl, rfl⟩
  | @cons o o' o'' run r d ds es es' ws' h1 h2 ih =>
    obtain ⟨ps, k1, k2, k3, k4⟩ := ih
    refine ⟨.declaration run d es :: ps, .declaration ⟨h1, ended_of_head (head_file h2) _⟩ k1, ?_, ?_, ?_⟩
    · cases ps with
      | nil => simp [Lost]
      | cons q qs => simpa [Lost, List.getLast?_cons_cons] using k2
    · simp [Piece.read, k3]
    · simp [Piece.errors, k4]

/-- C54, one claim: a malformed stretch at the front of a file, in which no declaration begins, costs one error and
hides nothing of the rest. -/
def HidesNothing : Prop :=
  ∀ (cfg : ParseCfg) (o o' : ParserOptions) (junk toks : List Ranged) (ds : List (Spanned Declaration))
    (es : List PErr) (ws warns : List Report) (res : FileResult),
    junk ≠ [] → (∀ t ∈ junk, ¬ StartsDeclaration t.tok) → FileP cfg o toks ds o' es ws →
    parseFile cfg (junk ++ toks) o warns = some res →
    res.declarations = some ds ∧ res.errors = .syntax :: es ∧ res.opts = o'

/-- C54: this is so if the first declaration after the stretch has no errors of its own.  Missing: a file which
begins with a declaration with errors, and one without declarations; see `C54_hides_false` and `C54_lost`. -/
theorem C54_hides_nothing_partial {junk run : List Ranged} {d : Spanned Declaration}
    {ds : List (Spanned Declaration)} {es : List PErr} {ws : List Report} (hne : junk ≠ [])
    (hj : ∀ t ∈ junk, ¬ StartsDeclaration t.tok) (hd : DeclarationP cfg o (run ++ r) r d o1 [])
    (hr : FileP cfg o1 r ds o2 es ws) (h : parseFile cfg (junk ++ (run ++ r)) o warns = some res) :
    res.declarations = some (d :: ds) ∧ res.errors = .syntax :: es ∧ res.opts = o2 := by
  obtain ⟨ps, h1, h2, rfl, rfl⟩ := file_pieces hr
  obtain ⟨h4, h5, h6⟩ := parseFile_determined h
    (.skipped (junk_skips hne hj) ⟨hd, ended_of_head (head_file hr) _⟩ h1)
  exact ⟨outcome_cons [.skipped junk] (by simp [Piece.read]) (.inl ⟨h2, rfl⟩) h6, h5, h4⟩

/-- C54: if no declaration begins in what is left of a file, then there is no result at all, and one error. -/
theorem C54_lost {junk : List Ranged} (hne : junk ≠ []) (hj : ∀ t ∈ junk, ¬ StartsDeclaration t.tok)
    (h : parseFile cfg junk o warns = some res) :
    res.declarations = none ∧ res.errors = [.syntax] ∧ res.opts = o := by
  obtain ⟨h4, h5, h6⟩ := parseFile_determined h (.lost (junk_skips hne hj))
  refine ⟨?_, h5, h4⟩
  rcases h6 with ⟨h, _⟩ | ⟨_, h⟩
  · exact absurd ⟨_, rfl⟩ h
  · exact h

/-- C54: a file with such an end has no result, whatever comes before it. -/
theorem C54_lost_all {d : Spanned Declaration} {junk : List Ranged} {es : List PErr} (hne : junk ≠ [])
    (hj : ∀ t ∈ junk, ¬ StartsDeclaration t.tok) (hd : ReadsP cfg o toks junk d o1 es)
    (h : parseFile cfg toks o warns = some res) :
    res.declarations = none ∧ res.errors = es ++ [.syntax] ∧ res.opts = o1 := by
  obtain ⟨run, rfl⟩ : junk <:+ toks := (does_declaration hd).1
  obtain ⟨h4, h5, h6⟩ := parseFile_determined h (.declaration hd (.lost (junk_skips hne hj)))
  refine ⟨?_, by rw [h5]; rfl, h4⟩
  rcases h6 with ⟨h, _⟩ | ⟨_, h⟩
  · exact absurd ⟨_, rfl⟩ h
  · exact h

end

/-! ### Examples -/

section

theorem any_some {α : Type} {x : Option α} {p : α → Bool} (h : x.any p = true) : ∃ a, x = some a ∧ p a = true := by
  cases x with
  | none => cases h
  | some a => exact ⟨a, rfl, h⟩

attribute [local instance] Sample.unicode Sample.decOps

/-- C54: a declaration with an error of its own, right after a malformed stretch, is hidden, and so is its error.
Here are two: a transaction with a tag given twice and an `open` with a currency given twice. -/
theorem C54_hides_false : ¬ @HidesNothing Sample.unicode Sample.decOps := by
  intro h
  have hp : ∃ res, parseFile Sample.cfg ([⟨.error ⟨[]⟩, 0, 1⟩] ++ (Sample.tx ++ Sample.opening)) Sample.opts [] =
      some res ∧ res.declarations = none := by
    have : (parseFile Sample.cfg ([⟨.error ⟨[]⟩, 0, 1⟩] ++ (Sample.tx ++ Sample.opening)) Sample.opts []).any
      (fun r => r.declarations.isNone) = true := by decide +kernel
    obtain ⟨res, h1, h2⟩ := any_some this
    exact ⟨res, h1, Option.isNone_iff_eq_none.mp h2⟩
  obtain ⟨res, h1, h2⟩ := hp
  obtain ⟨o', ws, hf⟩ : ∃ o' ws, FileP Sample.cfg Sample.opts (Sample.tx ++ Sample.opening) Sample.declarations o'
      Sample.errors ws := ⟨_, _, Sample.file⟩
  have := (h Sample.cfg Sample.opts o' [⟨.error ⟨[]⟩, 0, 1⟩] _ _ _ ws [] res (by simp)
    (by simp [StartsDeclaration]) hf h1).1
  rw [h2] at this
  cases this

/-- C54: reading may resume in the middle of a line: of `2024-01-01 2024-01-02 close Assets:A` the second date is
taken for the beginning of a directive. -/
theorem C54_midline_false : ¬ ∀ (cfg : ParseCfg) (toks : List Ranged) (res : FileResult)
    (ds : List (Spanned Declaration)), parseFile cfg toks Sample.opts [] = some res → res.declarations = some ds →
    ∀ d ∈ ds, ∃ before t after, toks = before ++ t :: after ∧ t.start = d.span.start ∧
      (before = [] ∨ ∃ e, before.getLast? = some e ∧ e.tok = .eol) := by
  intro h
  let toks : List Ranged := [⟨.date ⟨2024, 1, 1⟩, 0, 10⟩, ⟨.date ⟨2024, 1, 2⟩, 11, 21⟩, ⟨.close, 22, 27⟩,
    ⟨.account (str "Assets:A"), 28, 36⟩, ⟨.eol, 36, 37⟩]
  have hp : (parseFile Sample.cfg toks Sample.opts []).any
      (fun r => r.declarations.any (fun ds => ds.any (fun d => d.span.start == 11))) = true := by decide +kernel
  obtain ⟨res, h1, h2⟩ := any_some hp
  obtain ⟨ds, h3, h4⟩ := any_some h2
  obtain ⟨d, h5, h6⟩ := List.any_eq_true.mp h4
  obtain ⟨before, t, after, h7, h8, h9⟩ := h Sample.cfg toks res ds h1 h3 d h5
  have h6 : d.span.start = 11 := by simpa using h6
  rw [h6] at h8
  rcases before with _ | ⟨a, _ | ⟨b, _ | ⟨c, _ | ⟨e, _ | ⟨f, _ | ⟨g, l⟩⟩⟩⟩⟩⟩ <;> simp [toks] at h7
  · rw [← h7.1] at h8; cases h8
  · rcases h9 with h9 | ⟨x, h9, h10⟩
    · cases h9
    · cases h9
      rw [← h7.1] at h10
      cases h10
  · rw [← h7.2.2.1] at h8; cases h8
  · rw [← h7.2.2.2.1] at h8; cases h8
  · rw [← h7.2.2.2.2.1] at h8; cases h8

/-- The tokens of `pushtag #a`. -/
def pushed : List Ranged := [⟨.pushtag, 2, 9⟩, ⟨.tag ['a'], 10, 12⟩, ⟨.eol, 12, 13⟩]

def pushedDeclaration : Spanned Declaration := ⟨.pragma (.pushtag ⟨['a'], ⟨7, 2, 12⟩⟩), ⟨7, 2, 13⟩⟩

theorem pushed_declaration (r : List Ranged) :
    DeclarationP Sample.cfg Sample.opts (pushed ++ r) r pushedDeclaration Sample.opts [] :=
  .pragma (.pushtag ⟨⟨_, Sample.word _ _ _ _, Sample.word _ _ _ _, by simp [TagChar]; exact .inl (by decide)⟩, Sample.covers ⟨.pushtag, 2, 9⟩ [⟨.tag ['a'], 10, 12⟩] _⟩)
    (.inl (Sample.word _ _ _ _)) (Sample.covers ⟨.pushtag, 2, 9⟩ [⟨.tag ['a'], 10, 12⟩, ⟨.eol, 12, 13⟩] _)

/-- C54: a malformed stretch before a pragma, before two directives with errors: these are all read. -/
example (res : FileResult) (h : parseFile Sample.cfg ([⟨.error ⟨[]⟩, 0, 1⟩, ⟨.eol, 1, 2⟩] ++
      (pushed ++ (Sample.tx ++ Sample.opening))) Sample.opts [] = some res) :
    res.declarations = some (pushedDeclaration :: Sample.declarations) ∧
      res.errors = .syntax :: Sample.errors := by
  obtain ⟨h1, h2, _⟩ := C54_hides_nothing_partial (by simp) (by simp [StartsDeclaration])
    (pushed_declaration (Sample.tx ++ Sample.opening)) Sample.file h
  exact ⟨h1, h2⟩

/-- And parsing does not panic. -/
example : (parseFile Sample.cfg ([⟨.error ⟨[]⟩, 0, 1⟩, ⟨.eol, 1, 2⟩] ++
    (pushed ++ (Sample.tx ++ Sample.opening))) Sample.opts []).isSome = true := by decide +kernel

/-- C54: the same pragma, and then only a stray token: nothing is read. -/
example (res : FileResult) (h : parseFile Sample.cfg (pushed ++ [⟨.comma, 13, 14⟩]) Sample.opts [] = some res) :
    res.declarations = none ∧ res.errors = [.syntax] := by
  obtain ⟨h1, h2, _⟩ := C54_lost_all (by simp) (by simp [StartsDeclaration])
    ⟨pushed_declaration [⟨.comma, 13, 14⟩], trivial⟩ h
  exact ⟨h1, h2⟩

example : (parseFile Sample.cfg (pushed ++ [⟨.comma, 13, 14⟩]) Sample.opts []).isSome = true := by decide +kernel

/-- C54: an option is in force even if its line is malformed. -/
example : ((parseFile Sample.cfg [⟨.option, 0, 6⟩, ⟨.stringLiteral (str "name_assets"), 7, 20⟩,
    ⟨.stringLiteral (str "Aktiva"), 21, 29⟩, ⟨.comma, 29, 30⟩, ⟨.eol, 30, 31⟩] Sample.opts []).any
    (fun r => r.errors.length == 1 && r.opts.accountTypeNames.name .assets == some (str "Aktiva"))) = true := by decide +kernel

end

end Lima.Props
