import Verif.Lemmas.Cut
import Verif.Lemmas.FileSound

/-! Files one after the other. -/

set_option linter.unusedSectionVars false

namespace Lima.Grammar

open Spec

section
variable [Unicode] [DecOps]

/-- The declarations between two positions; then the options afterwards, the errors and the warnings. -/
inductive Part (cfg : ParseCfg) : ParserOptions → List Ranged → List Ranged → List (Spanned Declaration) → ParserOptions →
    List PErr → List Report → Prop
  | nil {o : ParserOptions} {i : List Ranged} : Part cfg o i i [] o [] []
  | cons {o o' o'' : ParserOptions} {run j r : List Ranged} {d : Spanned Declaration} {ds : List (Spanned Declaration)}
      {es es' : List PErr} {ws' : List Report} :
      DeclarationP cfg o (run ++ j) j d o' es → Part cfg o' j r ds o'' es' ws' →
      Part cfg o (run ++ j) r (d :: ds) o'' (es ++ es') (longStrings cfg o run ++ ws')

variable {cfg : ParseCfg} {o o1 o2 : ParserOptions} {i j r : List Ranged} {ds ds2 : List (Spanned Declaration)} {es es2 : List PErr}
  {ws ws2 : List Report}

theorem Part.of_file (h : FileP cfg o i ds o1 es ws) : Part cfg o i [] ds o1 es ws := by
  induction h with
  | nil => exact .nil
  | cons h _ ih => exact .cons h ih

theorem Part.file_of {j : List Ranged} (h : Part cfg o i j ds o1 es ws) (hj : FileP cfg o1 j ds2 o2 es2 ws2) :
    FileP cfg o i (ds ++ ds2) o2 (es ++ es2) (ws ++ ws2) := by
  induction h with
  | nil => exact hj
  | cons h _ ih =>
    rw [List.append_assoc, List.append_assoc]
    exact .cons h (ih hj)

theorem Part.file (h : Part cfg o i [] ds o1 es ws) : FileP cfg o i ds o1 es ws := by
  simpa using h.file_of .nil

theorem Part.suffix (h : Part cfg o i r ds o1 es ws) : ∃ run, i = run ++ r := by
  induction h with
  | nil => exact ⟨[], rfl⟩
  | @cons _ _ _ run _ _ _ _ _ _ _ _ _ ih =>
    obtain ⟨run2, h⟩ := ih
    exact ⟨run ++ run2, by rw [h]; simp⟩

/-- A cut between unindented lines is between declarations. -/
theorem Part.cut (h : Part cfg o i [] ds o1 es ws) {b : List Ranged} (hb : ∀ t ∈ b.head?, t.tok ≠ .indent) {a : List Ranged}
    (hi : i = a ++ b) (ha : a = [] ∨ ∃ z e, a = z ++ [e] ∧ e.tok = .eol) :
    ∃ ds1 ds2 o' es1 es2 ws1 ws2, Part cfg o i b ds1 o' es1 ws1 ∧ Part cfg o' b [] ds2 o1 es2 ws2 ∧
      ds = ds1 ++ ds2 ∧ es = es1 ++ es2 ∧ ws = ws1 ++ ws2 := by
  generalize hr : ([] : List Ranged) = r at h
  induction h generalizing a with
  | @nil o i =>
    subst hr
    obtain ⟨rfl, rfl⟩ := List.append_eq_nil_iff.mp hi.symm
    exact ⟨[], [], _, [], [], [], [], .nil, .nil, rfl, rfl, rfl⟩
  | @cons o o' o'' run j r d ds es es' ws' h h2 ih =>
    rcases ha with rfl | ⟨z, e, rfl, he⟩
    · subst hi
      refine ⟨[], d :: ds, o, [], es ++ es', [], longStrings cfg o run ++ ws', .nil, ?_, rfl, rfl, rfl⟩
      exact .cons h h2
    · obtain ⟨y, h3, h4⟩ := (lines_declaration h).cut (a := z) (x := e) (b := b) (by rw [hi]; simp) he hb
      obtain ⟨ds1, ds2, o3, es1, es2, ws1, ws2, h5, h6, rfl, rfl, rfl⟩ := ih h3 h4 hr
      exact ⟨d :: ds1, ds2, o3, es ++ es1, es2, longStrings cfg o run ++ ws1, ws2, .cons h h5, by rw [← hr] at h6 ⊢; exact h6, rfl,
        by simp, by simp⟩

theorem longStrings_source {cfg cfg' : ParseCfg} (h : cfg'.source = cfg.source) (o : ParserOptions) (run : List Ranged) :
    longStrings cfg' o run = longStrings cfg o run := by
  unfold longStrings
  rw [h]

/-- Declarations of which the last line is ended are the same with something else behind. -/
theorem Cut.part {c : Cut} (h : Part c.cfg o i r ds o1 es ws) (hc : i = r ∨ Closed i r) {r' : List Ranged} (hr : c.Sw0 r r') :
    ∃ i', c.Sw0 i i' ∧ Part c.cfg' o i' r' ds o1 es ws := by
  generalize hcfg : c.cfg = cfg at h
  induction h with
  | nil => exact ⟨r', hr, .nil⟩
  | @cons o o' o'' run j r d ds es es' ws' h h2 ih =>
    subst hcfg
    have hl := lines_declaration h
    have hlt := declaration_lt h
    obtain ⟨run2, hj⟩ := h2.suffix
    have hc : Closed (run ++ j) r := by
      rcases hc with hc | hc
      · rw [hc, hj] at hlt
        simp at hlt
      · exact hc
    by_cases h0 : run2 = []
    · subst h0
      obtain rfl : j = r := hj
      obtain ⟨j', h3, h4⟩ := ih (.inl rfl) hr
      obtain ⟨i', h5, h6⟩ := declaration h hc h3
      have := h5.cancel h3 rfl
      subst this
      refine ⟨_, h5, ?_⟩
      rw [← longStrings_source c.source]
      exact .cons h6 h4
    · obtain ⟨j', h3, h4⟩ := ih (.inr (hc.tail rfl hj h0)) hr
      obtain ⟨i', h5, h6⟩ := declaration h (hl.closed (by rw [hj]; simp [h0])) h3
      have := h5.cancel h3 rfl
      subst this
      refine ⟨_, h5, ?_⟩
      rw [← longStrings_source c.source]
      exact .cons h6 h4

/-- The whole text before a position ends with the end of a line. -/
theorem closed_of_ended {a b : List Ranged} (ha : a = [] ∨ ∃ z e, a = z ++ [e] ∧ e.tok = .eol) : a ++ b = b ∨ Closed (a ++ b) b := by
  rcases ha with rfl | ⟨z, e, rfl, he⟩
  · exact .inl rfl
  · exact .inr ⟨z, e, by simp, he⟩

/-- Declarations with something else behind. -/
theorem Part.swap {a b b' : List Ranged} (ha : a = [] ∨ ∃ z e, a = z ++ [e] ∧ e.tok = .eol) {cfg' : ParseCfg}
    (h1 : cfg'.source = cfg.source) (h2 : cfg'.path = cfg.path) (h3 : cfg'.decimal = cfg.decimal)
    (h4 : ∀ y, cfg.emptySpan (y ++ b) = cfg'.emptySpan (y ++ b')) (h : Part cfg o (a ++ b) b ds o1 es ws) :
    Part cfg' o (a ++ b') b' ds o1 es ws := by
  let c : Cut := ⟨b, b', cfg, cfg', h1, h2, h3, h4⟩
  obtain ⟨i', hi, hp⟩ := Cut.part (c := c) (r' := b') h (closed_of_ended ha) ⟨[], rfl, rfl⟩
  have := hi.cancel (r := b) (r' := b') ⟨[], rfl, rfl⟩ rfl
  rw [← this]
  exact hp

end

end Lima.Grammar
