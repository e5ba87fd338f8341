import Verif.Lemmas.Parser

/-! Parsing does not depend on the warnings there are already: they stay in front. -/

namespace Lima.Grammar

open P

variable {α β : Type}

/-- The state with warnings in front. -/
def _root_.Lima.PSt.after (w : List Report) (s : PSt) : PSt := { s with warns := w ++ s.warns }

/-- The outcome with warnings in front. -/
def _root_.Lima.PRes.after (w : List Report) : PRes α → PRes α
  | .ok a s => .ok a (s.after w)
  | .fail s => .fail (s.after w)
  | .panic => .panic

/-- The parser leaves alone the warnings there are already. -/
def Framed (p : P α) : Prop := ∀ w s, p (s.after w) = (p s).after w

theorem rewind_after (w : List Report) (s s' : PSt) : (s.after w).rewind (s'.after w) = (s.rewind s').after w := rfl

theorem Framed.bind {p : P α} {f : α → P β} (hp : Framed p) (hf : ∀ a, Framed (f a)) : Framed (p >>= f) := by
  intro w s
  rw [bind_eq, bind_eq, hp w s]
  cases p s with
  | ok a s' => exact hf a w s'
  | fail s' => rfl
  | panic => rfl

theorem Framed.pure (a : α) : Framed (Pure.pure a : P α) := fun _ _ => rfl

theorem Framed.failure : Framed (P.failure : P α) := fun _ _ => rfl

theorem Framed.panicking : Framed (P.panicking : P α) := fun _ _ => rfl

theorem Framed.emit (es : List PErr) : Framed (P.emit es) := fun _ _ => rfl

theorem Framed.options : Framed options := fun _ _ => rfl

theorem Framed.select (f : Token → Option α) : Framed (P.select f) := by
  rintro w ⟨toks, errs, opts, warns⟩
  unfold P.select
  cases toks with
  | nil => rfl
  | cons t ts =>
    simp only [PSt.after]
    cases f t.tok <;> rfl

theorem Framed.just (t : Token) : Framed (P.just t) := Framed.select _

theorem Framed.eoi : Framed P.eoi := by
  rintro w ⟨toks, errs, opts, warns⟩
  cases toks <;> rfl

theorem Framed.alt {p q : P α} (hp : Framed p) (hq : Framed q) : Framed (P.alt p q) := by
  intro w s
  unfold P.alt
  rw [hp w s]
  cases p s with
  | ok a s' => rfl
  | fail s' => exact hq w (s.rewind s')
  | panic => rfl

theorem Framed.choice_cons {p : P α} {ps : List (P α)} (h1 : Framed p) (h2 : Framed (P.choice ps)) :
    Framed (P.choice (p :: ps)) := by
  cases ps with
  | nil => exact h1
  | cons q qs => exact Framed.alt h1 h2

theorem Framed.orNot {p : P α} (hp : Framed p) : Framed (P.orNot p) := by
  intro w s
  unfold P.orNot
  rw [hp w s]
  cases p s <;> rfl

theorem Framed.spanned {cfg : ParseCfg} {p : P α} (hp : Framed p) : Framed (P.spanned cfg p) := by
  intro w s
  unfold P.spanned
  rw [hp w s]
  cases p s <;> rfl

theorem framed_repFuel {p : P α} (hp : Framed p) (n : Nat) : Framed (P.repFuel p n) := by
  induction n with
  | zero => exact fun _ _ => rfl
  | succ n ih =>
    intro w s
    simp only [P.repFuel]
    rw [hp w s]
    cases p s with
    | ok a s' =>
      simp only [PRes.after]
      rw [ih w s']
      cases P.repFuel p n s' <;> rfl
    | fail s' => rfl
    | panic => rfl

theorem Framed.rep {p : P α} (hp : Framed p) : Framed (P.rep p) := fun w s => framed_repFuel hp (s.toks.length + 1) w s

theorem framed_skip {p : P α} (hp : Framed p) (ts : List Ranged) : Framed (P.skipThenRetry p ts) := by
  induction ts with
  | nil => exact fun _ _ => rfl
  | cons t ts ih =>
    intro w s
    simp only [P.skipThenRetry]
    have : ({ s.after w with toks := ts } : PSt) = ({ s with toks := ts } : PSt).after w := rfl
    rw [this, hp w _]
    cases p { s with toks := ts } with
    | ok a s' =>
      simp only [PRes.after]
      by_cases h : s'.errs.length = s.errs.length
      · have h' : (s'.after w).errs.length = (s.after w).errs.length := h
        simp only [h, h', if_true]
        rfl
      · have h' : ¬ (s'.after w).errs.length = (s.after w).errs.length := h
        simp only [h, h', if_false]
        exact ih w (s.rewind s')
    | fail s' => exact ih w (s.rewind s')
    | panic => rfl

theorem Framed.recover {p : P α} (hp : Framed p) : Framed (P.recover p) := by
  intro w s
  unfold P.recover
  rw [hp w s]
  cases p s with
  | ok a s' => rfl
  | fail s' => exact framed_skip hp s.toks w (s.rewind s')
  | panic => rfl

/-! ### The grammar -/

/-- Apply what is known of the parts of a parser. -/
macro "framed" "[" ts:term,* "]" : tactic => do
  let mut known : Array (Lean.TSyntax `tactic) := #[]
  for t in ts.getElems do
    known := known.push (← `(tactic| exact $t))
  `(tactic| repeat' first
    | exact Framed.pure _
    | exact Framed.just _
    | exact Framed.emit _
    | exact Framed.failure
    | exact Framed.panicking
    | exact Framed.eoi
    | exact Framed.options
    $[| $known:tactic]*
    | exact Framed.select _
    | refine Framed.spanned ?_
    | refine Framed.orNot ?_
    | refine Framed.choice_cons ?_ ?_
    | refine Framed.alt ?_ ?_
    | refine Framed.rep ?_
    | refine Framed.bind ?_ (fun _ => ?_))

theorem framed_eol : Framed eol := by
  unfold eol
  exact Framed.alt (Framed.just _) Framed.eoi

theorem framed_currency : Framed currency := by
  unfold currency
  framed []
  split <;> framed []

theorem framed_string (cfg : ParseCfg) : Framed (string cfg) := by
  intro w s
  unfold string
  rw [Framed.spanned (Framed.select _) w s]
  cases P.spanned cfg (P.select fun t => match t with | .stringLiteral s => some s | _ => none) s with
  | ok x s' =>
    simp only [PRes.after]
    by_cases h : lineCount x.item > s'.opts.maxlines
    · have h' : lineCount x.item > (s'.after w).opts.maxlines := h
      simp only [h, h', if_true]
      simp [PSt.after]
    · have h' : ¬ lineCount x.item > (s'.after w).opts.maxlines := h
      simp only [h, h', if_false]
  | fail s' => rfl
  | panic => rfl

theorem framed_booking (cfg : ParseCfg) : Framed (booking cfg) := by
  unfold booking
  framed [framed_string cfg]
  split <;> framed []

theorem framed_checked {ε : Type} (sel : Token → Option Str) (f : Str → Except ε Str) : Framed (checked sel f) := by
  unfold checked
  framed []
  split <;> framed []

theorem framed_factor {e : P Expr} (h : Framed e) : Framed (factor e) := by
  unfold factor number
  framed [h]
  split <;> framed []

theorem framed_chain {p : P Expr} {op : P (Expr → Expr → Expr)} (hp : Framed p) (ho : Framed op) : Framed (chain p op) := by
  unfold chain
  framed [hp, ho]

theorem framed_exprFuel (n : Nat) : Framed (exprFuel n) := by
  induction n with
  | zero => exact Framed.panicking
  | succ n ih =>
    refine framed_chain (framed_chain (framed_factor ih) ?_) ?_
    · unfold mulOp
      framed []
    · unfold addOp
      framed []

theorem framed_expr : Framed expr := fun w s => framed_exprFuel (s.toks.length + 1) w s

section
variable [DecOps]

theorem framed_exprValue : Framed exprValue := by
  unfold exprValue
  framed [framed_expr]
  split <;> framed []

theorem framed_amount (cfg : ParseCfg) : Framed (amount cfg) := by
  unfold amount
  framed [framed_exprValue, framed_currency]

theorem framed_amountWithTolerance (cfg : ParseCfg) : Framed (amountWithTolerance cfg) := by
  unfold amountWithTolerance tolerantAmount decimal
  framed [framed_amount cfg, framed_exprValue, framed_currency]

theorem framed_compoundExpr : Framed compoundExpr := by
  unfold compoundExpr
  framed [framed_exprValue]

theorem framed_compoundAmount : Framed compoundAmount := by
  unfold compoundAmount
  framed [framed_compoundExpr, framed_currency]

theorem framed_priceAnnotation : Framed priceAnnotation := by
  unfold priceAnnotation
  framed [framed_exprValue, framed_currency]
  dsimp only
  cases ‹Option ExprValue› <;> cases ‹Option Str› <;> framed []

theorem framed_costComp (cfg : ParseCfg) : Framed (costComp cfg) := by
  unfold costComp date
  framed [framed_compoundAmount, framed_string cfg]

theorem framed_costSpec (cfg : ParseCfg) : Framed (costSpec cfg) := by
  unfold costSpec
  framed [framed_costComp cfg]
  split <;> framed []

variable [Unicode]

omit [DecOps] in
theorem framed_account : Framed account := by
  unfold account
  framed []
  split <;> framed []

omit [DecOps] in
theorem framed_tagsLinks (cfg : ParseCfg) : Framed (tagsLinks cfg) := by
  unfold tagsLinks tag link
  framed [framed_checked _ _]

theorem framed_simpleValue (cfg : ParseCfg) : Framed (simpleValue cfg) := by
  unfold simpleValue date bool tag link
  framed [framed_string cfg, framed_currency, framed_account, framed_checked _ _, framed_exprValue]

theorem framed_metaValue (cfg : ParseCfg) : Framed (metaValue cfg) := by
  unfold metaValue
  framed [framed_amount cfg, framed_simpleValue cfg]

theorem framed_metaKeyValue (cfg : ParseCfg) : Framed (metaKeyValue cfg) := by
  unfold metaKeyValue key
  framed [framed_checked _ _, framed_metaValue cfg]

theorem framed_metadatumLine (cfg : ParseCfg) : Framed (metadatumLine cfg) := by
  unfold metadatumLine tag link
  framed [framed_metaKeyValue cfg, framed_checked _ _, framed_eol]

theorem framed_metadata (cfg : ParseCfg) : Framed (metadata cfg) := by
  unfold metadata
  framed [framed_metadatumLine cfg]

theorem framed_postingLine (cfg : ParseCfg) : Framed (postingLine cfg) := by
  unfold postingLine flag
  framed [framed_account, framed_exprValue, framed_currency, framed_costSpec cfg, framed_priceAnnotation, framed_eol]

theorem framed_posting (cfg : ParseCfg) : Framed (posting cfg) := by
  unfold posting
  framed [framed_postingLine cfg, framed_metadata cfg]

theorem framed_transaction (cfg : ParseCfg) : Framed (transaction cfg) := by
  unfold transaction transactionHeaderLine date txn flag
  framed [framed_string cfg, framed_tagsLinks cfg, framed_metadata cfg, framed_posting cfg, framed_eol]

theorem framed_simpleDirective (cfg : ParseCfg) (keyword : Token) {body : P DirectiveVariant} (h : Framed body) :
    Framed (simpleDirective cfg keyword body) := by
  unfold simpleDirective date
  framed [h, framed_tagsLinks cfg, framed_metadata cfg, framed_eol]

omit [DecOps] [Unicode] in
theorem framed_currencyList (cfg : ParseCfg) : Framed (currencyList cfg) := by
  unfold currencyList
  framed [framed_currency]
  split <;> framed []

theorem framed_custom (cfg : ParseCfg) : Framed (custom cfg) := by
  unfold custom date
  framed [framed_string cfg, framed_metaValue cfg, framed_metadata cfg, framed_eol]

theorem framed_directive (cfg : ParseCfg) : Framed (directive cfg) := by
  have known : ∀ (keyword : Token) (body : P DirectiveVariant), Framed body →
    Framed (simpleDirective cfg keyword body) := fun _ _ h => framed_simpleDirective cfg _ h
  refine Framed.choice_cons (framed_transaction cfg) (Framed.choice_cons (known _ _ ?_) (Framed.choice_cons (known _ _ ?_)
    (Framed.choice_cons (known _ _ ?_) (Framed.choice_cons (known _ _ ?_) (Framed.choice_cons (known _ _ ?_)
    (Framed.choice_cons (known _ _ ?_) (Framed.choice_cons (known _ _ ?_) (Framed.choice_cons (known _ _ ?_)
    (Framed.choice_cons (known _ _ ?_) (Framed.choice_cons (known _ _ ?_) (Framed.choice_cons (framed_custom cfg)
    Framed.failure)))))))))))
  all_goals
    framed [framed_string cfg, framed_account, framed_currency, framed_amount cfg, framed_amountWithTolerance cfg,
      framed_currencyList cfg, framed_booking cfg]

omit [DecOps] in
theorem framed_option (cfg : ParseCfg) : Framed (option cfg) := by
  unfold option
  framed [framed_string cfg]
  intro w s
  unfold assimilateOption
  simp only [PSt.after]
  split
  · rfl
  · rfl
  · rfl
  · split <;> rfl

theorem framed_pragma (cfg : ParseCfg) : Framed (pragma cfg) := by
  unfold pragma tag key
  framed [framed_option cfg, framed_checked _ _, framed_metaKeyValue cfg, framed_string cfg, framed_eol]

theorem framed_declaration (cfg : ParseCfg) : Framed (declaration cfg) := by
  unfold declaration
  framed [framed_directive cfg, framed_pragma cfg]

theorem framed_file (cfg : ParseCfg) : Framed (file cfg) := Framed.rep (Framed.recover (framed_declaration cfg))

/-- Warnings there are already stay in front, and nothing depends on them. -/
theorem parseFile_warns (cfg : ParseCfg) (toks : List Ranged) (o : ParserOptions) (warns : List Report) :
    parseFile cfg toks o warns = (parseFile cfg toks o []).map (fun res => { res with warns := warns ++ res.warns }) := by
  have h := framed_file cfg warns ⟨toks, [], o, []⟩
  simp only [PSt.after, List.append_nil] at h
  unfold parseFile
  rw [h]
  cases hs : file cfg ⟨toks, [], o, []⟩ with
  | ok ds s =>
    simp only [PRes.after]
    have ht : (s.after warns).toks = s.toks := rfl
    rw [ht]
    cases s.toks <;> rfl
  | fail s => rfl
  | panic => rfl

end

end Lima.Grammar
