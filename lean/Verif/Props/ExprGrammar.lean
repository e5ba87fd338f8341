import Verif.Lemmas.ExprGrammar

/-! C18: the structure of arithmetic expressions. -/

namespace Lima.Props

open Spec

/-- C18. -/
theorem C18_precedence (s s' : PSt) (e : Expr) :
    Grammar.expr s = .ok e s' ↔ ∃ r, Expression s.toks r e ∧ s' = { s with toks := r } :=
  Grammar.expr_ok_iff

/-- C18: an expression means one thing. -/
theorem C18_unambiguous (i r r' : List Ranged) (e e' : Expr) (h : Expression i r e) (h' : Expression i r' e') :
    r = r' ∧ e = e' := by
  have h1 := Grammar.expr_complete ⟨[], [], ParserOptions.default, []⟩ h
  have h2 := Grammar.expr_complete ⟨[], [], ParserOptions.default, []⟩ h'
  rw [h1] at h2
  simp only [PRes.ok.injEq, PSt.mk.injEq] at h2
  exact ⟨h2.2.1, h2.1⟩

/-- C18: what is not an expression is refused, without a crash. -/
theorem C18_refused (s : PSt) (h : ∀ r e, ¬ Expression s.toks r e) : ∃ s', Grammar.expr s = .fail s' := by
  cases he : Grammar.expr s with
  | ok e s' =>
    obtain ⟨r, hr, _⟩ := Grammar.expr_ok_iff.mp he
    exact absurd hr (h r e)
  | fail s' => exact ⟨s', rfl⟩
  | panic => exact absurd he (Grammar.expr_no_panic s)

/-- C18: printing a parsed expression and parsing it again gives the same tree. -/
theorem C18_print_parse (s s' t : PSt) (e : Expr) (h : Grammar.expr s = .ok e s') (run rest : List Ranged)
    (hrun : run.map (·.tok) = exprTokens e) (hrest : ¬ Continues rest) :
    Grammar.expr { t with toks := run ++ rest } = .ok e { t with toks := rest } := by
  obtain ⟨r, hr, _⟩ := Grammar.expr_ok_iff.mp h
  exact Grammar.expr_complete t ⟨Grammar.sum_print hr.1 run rest hrun, hrest⟩

/-- An arrangement of tokens at positions that do not matter. -/
def sampleTokens (ts : List Token) : List Ranged := ts.map (fun t => ⟨t, 0, 0⟩)

/-- `2 - 3 - -4 * (+5) USD`. -/
example : ∃ r, Expression (sampleTokens [.number ⟨2, 0⟩, .minus, .number ⟨3, 0⟩, .minus, .minus, .number ⟨4, 0⟩,
      .asterisk, .lparen, .plus, .number ⟨5, 0⟩, .rparen, .currency (str "USD")]) r
    (.sub (.sub (.value ⟨2, 0⟩) (.value ⟨3, 0⟩)) (.mul (.neg (.value ⟨4, 0⟩)) (.paren (.value ⟨5, 0⟩)))) :=
  ⟨sampleTokens [.currency (str "USD")],
    .minus (.minus (.single (.single (.unsigned (.number ⟨_, _, rfl⟩)))) ⟨_, _, rfl⟩
      (.single (.unsigned (.number ⟨_, _, rfl⟩)))) ⟨_, _, rfl⟩
      (.times (.single (.minus ⟨_, _, rfl⟩ (.number ⟨_, _, rfl⟩))) ⟨_, _, rfl⟩
        (.unsigned (.parens ⟨_, _, rfl⟩ (.single (.single (.plus ⟨_, _, rfl⟩ (.number ⟨_, _, rfl⟩)))) ⟨_, _, rfl⟩))),
    by
      rintro ⟨t, j, k, e, ht, ⟨x, y, hw⟩, _⟩
      cases hw
      simp at ht⟩

example : ∃ s', Grammar.expr ⟨sampleTokens [.number ⟨2, 0⟩, .minus, .number ⟨3, 0⟩, .asterisk, .number ⟨4, 0⟩],
      [], ParserOptions.default, []⟩ =
    .ok (.sub (.value ⟨2, 0⟩) (.mul (.value ⟨3, 0⟩) (.value ⟨4, 0⟩))) s' :=
  ⟨_, rfl⟩

end Lima.Props
