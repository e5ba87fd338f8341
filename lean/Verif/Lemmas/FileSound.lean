import Verif.Lemmas.FileComplete

/-! Whole files: what is parsed without syntax errors is as the specification says. -/

namespace Lima.Grammar

open Spec P

variable {α : Type} {cfg : ParseCfg} {o o' : ParserOptions} {i r : List Ranged}

section
variable [Unicode] [DecOps]

theorem skipThenRetry_ok (ts : List Ranged) : ∀ {s s' : PSt} {d : Spanned Declaration},
    skipThenRetry (declaration cfg) ts s = .ok d s' →
    ∃ (s1 : PSt) (i : List Ranged) (es : List PErr), i <:+ ts ∧ s'.toks <:+ i ∧ i ≠ ts ∧ s'.errs = s.errs ++ es ++ [.syntax] ∧
      DeclarationP cfg s1.opts i s'.toks d s'.opts es ∧ es = [] := by
  induction ts with
  | nil => intro s s' d h; cases h
  | cons t ts ih =>
    intro s s' d h
    simp only [skipThenRetry] at h
    have next : ∀ s2 : PSt, skipThenRetry (declaration cfg) ts (s.rewind s2) = .ok d s' →
        ∃ (s1 : PSt) (i : List Ranged) (es : List PErr), i <:+ t :: ts ∧ s'.toks <:+ i ∧ i ≠ t :: ts ∧
          s'.errs = s.errs ++ es ++ [.syntax] ∧ DeclarationP cfg s1.opts i s'.toks d s'.opts es ∧ es = [] := by
      intro s2 h
      obtain ⟨s1, i, es, h1, h2, h3, h4, h5, h6⟩ := ih h
      refine ⟨s1, i, es, h1.trans (List.suffix_cons _ _), h2, ?_, h4, h5, h6⟩
      rintro rfl
      exact absurd h1.length_le (by simp)
    cases h1 : declaration cfg { s with toks := ts } with
    | ok a s1 =>
      rw [h1] at h
      simp only at h
      obtain ⟨h2, es, h3, h4⟩ := declaration_ok cfg h1
      split at h
      · rename_i hl
        cases h
        refine ⟨{ s with toks := ts }, ts, es, List.suffix_cons _ _, h2, by simp, ?_, h4, ?_⟩
        · simp only at h3 ⊢
          rw [h3]
        · simp only at h3
          rw [h3, List.length_append] at hl
          exact List.length_eq_zero_iff.mp (by omega)
      · exact next _ h
    | fail s1 => rw [h1] at h; exact next _ h
    | panic => rw [h1] at h; cases h

/-- One turn: a declaration, or tokens are skipped, which is an error, and then a declaration. -/
theorem recover_ok {s s' : PSt} {d : Spanned Declaration} (h : recover (declaration cfg) s = .ok d s') :
    (s'.toks <:+ s.toks ∧ ∃ es, s'.errs = s.errs ++ es ∧ DeclarationP cfg s.opts s.toks s'.toks d s'.opts es) ∨
    (∃ (o : ParserOptions) (i : List Ranged), i <:+ s.toks ∧ i ≠ s.toks ∧ s'.toks <:+ i ∧ s'.errs = s.errs ++ [.syntax] ∧
      DeclarationP cfg o i s'.toks d s'.opts []) := by
  unfold recover at h
  cases h1 : declaration cfg s with
  | ok a s1 =>
    rw [h1] at h
    cases h
    obtain ⟨h2, es, h3, h4⟩ := declaration_ok cfg h1
    exact .inl ⟨h2, es, h3, h4⟩
  | fail s1 =>
    rw [h1] at h
    obtain ⟨s2, i, es, h2, h3, h4, h5, h6, rfl⟩ := skipThenRetry_ok _ h
    exact .inr ⟨s2.opts, i, h2, h4, h3, by simpa using h5, h6⟩
  | panic => rw [h1] at h; cases h

theorem reps_errs {s s' : PSt} {ds : List (Spanned Declaration)} (h : Reps (recover (declaration cfg)) s ds s') :
    s.errs <+: s'.errs := by
  induction h with
  | nil => exact List.prefix_refl _
  | cons h _ ih =>
    refine List.IsPrefix.trans ?_ ih
    rcases recover_ok h with ⟨_, es, he, _⟩ | ⟨_, _, _, _, _, he, _⟩
    · exact ⟨_, he.symm⟩
    · exact ⟨_, he.symm⟩

theorem reps_sound {s s' : PSt} {ds : List (Spanned Declaration)} (h : Reps (recover (declaration cfg)) s ds s')
    (ht : s'.toks = []) (he : .syntax ∉ s'.errs) :
    ∃ es ws, s'.errs = s.errs ++ es ∧ FileP cfg s.opts s.toks ds s'.opts es ws := by
  induction h with
  | @nil s s1 h =>
    obtain ⟨toks, errs, opts, warns⟩ := s
    rw [rewind_toks] at ht
    cases ht
    rw [recover_nil] at h
    cases h
    exact ⟨[], [], by simp [PSt.rewind], .nil⟩
  | @cons s s1 s2 d ds h hr ih =>
    obtain ⟨es', ws', h1, h2⟩ := ih ht he
    rcases recover_ok h with ⟨⟨run, h3⟩, es, h4, h5⟩ | ⟨_, _, _, _, _, h4, _⟩
    · refine ⟨es ++ es', longStrings cfg s.opts run ++ ws', by rw [h1, h4, List.append_assoc], ?_⟩
      rw [← h3] at h5 ⊢
      exact .cons h5 h2
    · exfalso
      apply he
      rw [h1, h4]
      simp

omit [Unicode] [DecOps] in
theorem head_no_syntax (head : List TagOrLink) : .syntax ∉ headErrors head := by
  simp only [headErrors, List.mem_map, not_exists, not_and]
  rintro (x | x) _ h <;> cases h

omit [Unicode] [DecOps] in
theorem line_no_syntax (lines : List Metadatum) : .syntax ∉ lineErrors lines := by
  simp only [lineErrors, List.mem_map, not_exists, not_and]
  rintro (x | x | x) _ h <;> cases h

omit [Unicode] [DecOps] in
theorem clash_no_syntax (lines : List Metadatum) (head : List TagOrLink) : .syntax ∉ clashErrors lines head := by
  simp [clashErrors]

theorem postings_no_syntax {ps : List (Spanned Posting × List PErr)} (h : Many (PostingP cfg o) i r ps) :
    .syntax ∉ ps.flatMap (·.2) := by
  induction h with
  | nil => simp
  | cons h _ ih =>
    obtain ⟨_, _, _, _, _⟩ := h
    rw [List.flatMap_cons, List.mem_append, not_or]
    exact ⟨line_no_syntax _, ih⟩

theorem declaration_no_syntax {d : Spanned Declaration} {es : List PErr} (h : DeclarationP cfg o i r d o' es) :
    .syntax ∉ es := by
  cases h with
  | directive h _ =>
    cases h with
    | transaction h1 h2 h3 h4 h5 h6 h7 h8 =>
      simp only [List.mem_append, not_or]
      exact ⟨⟨⟨head_no_syntax _, line_no_syntax _⟩, postings_no_syntax h8⟩, clash_no_syntax _ _⟩
    | other h1 h2 h3 =>
      simp only [List.mem_append, not_or]
      refine ⟨⟨⟨?_, head_no_syntax _⟩, line_no_syntax _⟩, clash_no_syntax _ _⟩
      cases h3 <;> simp [currencyErrors]
    | custom => exact line_no_syntax _
  | pragma h _ _ =>
    cases h with
    | option _ _ _ h => cases h <;> simp
    | _ => simp

theorem file_no_syntax {ds : List (Spanned Declaration)} {es : List PErr} {ws : List Report}
    (h : FileP cfg o i ds o' es ws) : .syntax ∉ es := by
  induction h with
  | nil => simp
  | cons h _ ih => simp [declaration_no_syntax h, ih]

/-- A file is parsed without syntax errors exactly if it is as the specification says, with that result. -/
theorem parseFile_iff (toks : List Ranged) (o o' : ParserOptions) (warns ws : List Report)
    (ds : List (Spanned Declaration)) (es : List PErr) :
    (parseFile cfg toks o warns = some ⟨some ds, es, o', warns ++ ws⟩ ∧ .syntax ∉ es) ↔
      FileP cfg o toks ds o' es ws := by
  constructor
  · rintro ⟨h, he⟩
    have h0 := h
    unfold parseFile at h
    cases hf : file cfg ⟨toks, [], o, warns⟩ with
    | panic => rw [hf] at h; cases h
    | fail s => rw [hf] at h; cases h
    | ok ds' s =>
      rw [hf] at h
      simp only at h
      split at h
      · rename_i ht
        simp only [Option.some.injEq, FileResult.mk.injEq] at h
        obtain ⟨rfl, rfl, rfl, _⟩ := h
        obtain ⟨es, ws', h1, h2⟩ := reps_sound (rep_reps hf) ht he
        have h3 := parseFile_complete warns h2
        rw [h0] at h3
        simp only [Option.some.injEq, FileResult.mk.injEq, List.append_cancel_left_eq] at h3
        obtain ⟨_, h4, _, h5⟩ := h3
        rw [h4, h5]
        exact h2
      · cases h
  · intro h
    exact ⟨parseFile_complete warns h, file_no_syntax h⟩

end

end Lima.Grammar
