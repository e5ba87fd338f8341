import Verif.Model.Run
import Verif.Props.Display
import Verif.Props.Expr
import Verif.Props.Lexemes

/-!
# C53: from texts to results without a crash
-/

set_option linter.unusedSectionVars false

namespace Lima.Props
open Lima Lima.Spec Grammar

section
variable [Categories]

theorem currency_ascii {w : Str} (h : Matches Re.currency w) : ∀ c ∈ w, Ascii c := by
  have up : ∀ c, isAsciiUpper c = true → Ascii c := by
    intro c hc
    simp only [isAsciiUpper, decide_eq_true_eq] at hc
    exact lt_of_le_of_lt hc.2 (by decide)
  have dig : ∀ c, isAsciiDigit c = true → Ascii c := by
    intro c hc
    simp only [isAsciiDigit, decide_eq_true_eq] at hc
    exact lt_of_le_of_lt hc.2 (by decide)
  have punct : ∀ c, oneOf ['\'', '.', '_', '-'] c = true → Ascii c := by
    intro c hc
    simp only [oneOf, List.contains_cons, List.contains_nil, Bool.or_eq_true, beq_iff_eq, Bool.or_false] at hc
    rcases hc with rfl | rfl | rfl | rfl <;> (unfold Ascii; decide)
  have cur : ∀ c, isCurrencyChar c = true → Ascii c := by
    intro c hc
    simp only [isCurrencyChar, Bool.or_eq_true] at hc
    rcases hc with (hc | hc) | hc
    · exact up c hc
    · exact dig c hc
    · exact punct c hc
  intro c hc
  rcases Re.matches_currency.mp h with ⟨a, rest, rfl, h1, h2⟩ | ⟨mid, a, rest, rfl, h1, h2, h3⟩
  · rcases List.mem_cons.mp hc with rfl | hc
    · exact up _ h1
    · exact cur c (h2 c hc)
  · rcases List.mem_cons.mp hc with rfl | hc
    · unfold Ascii; decide
    · rcases List.mem_append.mp hc with hc | hc
      · have := h1 c hc
        simp only [Bool.or_eq_true] at this
        rcases this with h | h
        · exact dig c h
        · exact punct c h
      · rcases List.mem_cons.mp hc with rfl | hc
        · exact up _ h2
        · exact cur c (h3 c hc)

end

/-! ### Operators -/

/-- An operand, from a first to a last token. -/
def Operand (i r : List Ranged) : Prop :=
  ∃ run, i = run ++ r ∧ (∃ a rest, run = a :: rest ∧ StartsOperand a.tok) ∧ (∃ first z, run = first ++ [z] ∧ EndsOperand z.tok)

theorem Operand.signed {i j r : List Ranged} {t : Token} (ht : StartsOperand t) (hw : Word t i j) (h : Operand j r) : Operand i r := by
  obtain ⟨x, y, rfl⟩ := hw
  obtain ⟨run, rfl, _, first, z, rfl, hz⟩ := h
  exact ⟨⟨t, x, y⟩ :: (first ++ [z]), rfl, ⟨_, _, rfl, ht⟩, ⟨t, x, y⟩ :: first, z, rfl, hz⟩

theorem Operand.both {i j k r : List Ranged} {t : Token} (h1 : Operand i j) (hw : Word t j k) (h2 : Operand k r) : Operand i r := by
  obtain ⟨run, rfl, ⟨a, rest, rfl, ha⟩, _⟩ := h1
  obtain ⟨x, y, rfl⟩ := hw
  obtain ⟨run', rfl, _, first, z, rfl, hz⟩ := h2
  exact ⟨a :: rest ++ ⟨t, x, y⟩ :: (first ++ [z]), by simp, ⟨_, _, rfl, ha⟩, a :: rest ++ ⟨t, x, y⟩ :: first, z, by simp, hz⟩

theorem Operand.parens {i j k r : List Ranged} (h1 : Word .lparen i j) (h2 : Operand j k) (h3 : Word .rparen k r) : Operand i r := by
  obtain ⟨x, y, rfl⟩ := h1
  obtain ⟨run, rfl, _⟩ := h2
  obtain ⟨x', y', rfl⟩ := h3
  exact ⟨⟨.lparen, x, y⟩ :: (run ++ [⟨.rparen, x', y'⟩]), by simp, ⟨_, _, rfl, .inl rfl⟩, ⟨.lparen, x, y⟩ :: run, _, rfl, .inl rfl⟩

mutual

theorem factor_operand {i r : List Ranged} {e : Expr} : Factor i r e → Operand i r
  | .number ⟨x, y, h⟩ => ⟨[⟨_, x, y⟩], h, ⟨_, _, rfl, .inr (.inr (.inr ⟨_, rfl⟩))⟩, [], _, rfl, .inr ⟨_, rfl⟩⟩
  | .parens h1 h2 h3 => .parens h1 (sum_operand h2) h3

theorem signed_operand {i r : List Ranged} {e : Expr} : Signed i r e → Operand i r
  | .unsigned h => factor_operand h
  | .plus h1 h2 => .signed (.inr (.inl rfl)) h1 (factor_operand h2)
  | .minus h1 h2 => .signed (.inr (.inr (.inl rfl))) h1 (factor_operand h2)

theorem product_operand {i r : List Ranged} {e : Expr} : Product i r e → Operand i r
  | .single h => signed_operand h
  | .times h1 h2 h3 => .both (product_operand h1) h2 (signed_operand h3)
  | .over h1 h2 h3 => .both (product_operand h1) h2 (signed_operand h3)

theorem sum_operand {i r : List Ranged} {e : Expr} : SumExpr i r e → Operand i r
  | .single h => product_operand h
  | .plus h1 h2 h3 => .both (sum_operand h1) h2 (product_operand h3)
  | .minus h1 h2 h3 => .both (sum_operand h1) h2 (product_operand h3)

end

theorem Operand.operates {i j k r : List Ranged} {t : Token} (h1 : Operand i j) (hw : Word t j k) (h2 : Operand k r)
    (ht : t = .plus ∨ t = .minus ∨ t = .asterisk ∨ t = .slash) : Operates i := by
  obtain ⟨run, rfl, _, first, z, rfl, hz⟩ := h1
  obtain ⟨x, y, rfl⟩ := hw
  obtain ⟨run', rfl, ⟨a, rest, rfl, ha⟩, _⟩ := h2
  exact ⟨first, z, ⟨t, x, y⟩, a, rest ++ r, by simp, hz, ht, ha⟩

theorem Operates.after {before i : List Ranged} (h : Operates i) : Operates (before ++ i) := by
  obtain ⟨b, a, op, c, after, rfl, h⟩ := h
  exact ⟨before ++ b, a, op, c, after, by simp, h⟩

theorem Operates.afterWord {i j : List Ranged} {t : Token} (hw : Word t i j) (h : Operates j) : Operates i := by
  obtain ⟨x, y, rfl⟩ := hw
  exact Operates.after (before := [_]) h

/-- No operator between operands. -/
def PlainExpr : Expr → Prop
  | .value _ => True
  | .neg a => PlainExpr a
  | .paren a => PlainExpr a
  | _ => False

mutual

theorem factor_plain {i r : List Ranged} {e : Expr} : Factor i r e → ¬ Operates i → PlainExpr e
  | .number _, _ => trivial
  | .parens h1 h2 _, hn => by
    have := sum_plain h2 (fun h => hn (Operates.afterWord h1 h))
    exact this

theorem signed_plain {i r : List Ranged} {e : Expr} : Signed i r e → ¬ Operates i → PlainExpr e
  | .unsigned h, hn => factor_plain h hn
  | .plus h1 h2, hn => factor_plain h2 (fun h => hn (Operates.afterWord h1 h))
  | .minus h1 h2, hn => by
    have := factor_plain h2 (fun h => hn (Operates.afterWord h1 h))
    exact this

theorem product_plain {i r : List Ranged} {e : Expr} : Product i r e → ¬ Operates i → PlainExpr e
  | .single h, hn => signed_plain h hn
  | .times h1 h2 h3, hn => absurd ((product_operand h1).operates h2 (signed_operand h3) (by simp)) hn
  | .over h1 h2 h3, hn => absurd ((product_operand h1).operates h2 (signed_operand h3) (by simp)) hn

theorem sum_plain {i r : List Ranged} {e : Expr} : SumExpr i r e → ¬ Operates i → PlainExpr e
  | .single h, hn => product_plain h hn
  | .plus h1 h2 h3, hn => absurd ((sum_operand h1).operates h2 (product_operand h3) (by simp)) hn
  | .minus h1 h2 h3, hn => absurd ((sum_operand h1).operates h2 (product_operand h3) (by simp)) hn

end

theorem plain_parts {e : Expr} (h : PlainExpr e) : ∀ s ∈ parts e, PlainExpr s := by
  induction e with
  | value v => intro s hs; simp only [parts, List.mem_singleton] at hs; exact hs ▸ h
  | add | sub | mul | div => cases h
  | neg a ih | paren a ih =>
    intro s hs
    simp only [parts, List.mem_cons] at hs
    rcases hs with rfl | hs
    · exact h
    · exact ih h s hs

theorem literals_of_tokens {e : Expr} {d : Dec} (h : Expr.value d ∈ parts e) : .number d ∈ exprTokens e := by
  induction e with
  | value v =>
    simp only [parts, List.mem_singleton, Expr.value.injEq] at h
    subst h
    simp [exprTokens]
  | add a b iha ihb | sub a b iha ihb | mul a b iha ihb | div a b iha ihb =>
    simp only [parts, List.mem_cons, List.mem_append, reduceCtorEq, false_or] at h
    rcases h with h | h
    · simp [exprTokens, iha h]
    · simp [exprTokens, ihb h]
  | neg a iha | paren a iha =>
    simp only [parts, List.mem_cons, reduceCtorEq, false_or] at h
    simp [exprTokens, iha h]

/-! ### C53 -/

section
variable [Categories] [Unicode] [DecOps] {l : Logos} {fs : FileSystem} {env : ParseEnv} {rootPath : Option Path}
  {rootContent : Str} {s : Sources}

/-- C53: reading any files and parsing their texts, correct or not, panics only if the lexer comes to a date or time
with a digit other than `0` to `9`, or a text writes an expression which divides by zero or is too large, or gives an option a currency which is
not ASCII. -/
theorem C53_panics_only (hlex : LexedBy l env.tokens) (hn : SoundNumbers l) (hwf : GlobsWF fs)
    (hs : ReadInSomeOrder fs env.tokens rootPath rootContent s) (h : parseTexts l env s = .panic) :
    ∃ id path text, IsSource s id path text ∧
      (ComesToForeignDate l text ∨ BadArithmetic (env.tokens text) ∨ BadOption (env.tokens text)) := by
  unfold parseTexts at h
  split at h
  · rename_i hany
    obtain ⟨⟨id, path, text⟩, he, ht⟩ := List.any_eq_true.mp hany
    exact ⟨id, path, text, mem_contentIter.mp he, .inl (C50_panics_only l text (by simpa using ht))⟩
  · rename_i hany
    obtain ⟨id, path, text, h1, h2⟩ := C47_whole_parse hwf hs h
    refine ⟨id, path, text, h1, .inr ?_⟩
    cases ht : lexText l text with
    | none => exact absurd (List.any_eq_true.mpr ⟨_, mem_contentIter.mpr h1, by simp [ht]⟩) hany
    | some toks =>
      rw [hlex text toks ht] at h2 ⊢
      have hok := lexText_lexOk hn ht
      cases h2 with
      | currency t w c h3 h4 h5 h6 =>
        have := hok t h3
        rw [h4] at this
        exact absurd (currency_ascii this.1 c h5) h6
      | expression before i r e h3 h4 h5 =>
        left
        refine ⟨before, i, r, e, h3, h4, C20_panics_only_partial e ?_ ((ofExpr_none_iff e).mpr h5)⟩
        intro d hd
        have hi : AllOk i := fun t ht => hok t (by rw [h3]; simp [ht])
        have := (sum_ok h4.1 hi).2 _ (literals_of_tokens hd)
        exact this.2
      | option before i r name value h3 h4 h5 =>
        obtain ⟨j, k, h6, h7, h8⟩ := h4
        exact .inr ⟨before, i, j, k, r, name, value, h3, h6, h7, h8, h5⟩

/-- C53: so texts without dates in foreign digits, without operators between numbers and without currencies in options which
are not ASCII never make it panic, whatever else is in them. -/
theorem C53_never_panics (hlex : LexedBy l env.tokens) (hn : SoundNumbers l) (hwf : GlobsWF fs)
    (hs : ReadInSomeOrder fs env.tokens rootPath rootContent s)
    (hc : ∀ id path text, IsSource s id path text →
      ¬ HasForeignDate text ∧ ¬ Operates (env.tokens text) ∧ ¬ BadOption (env.tokens text)) :
    parseTexts l env s ≠ .panic := by
  intro h
  obtain ⟨id, path, text, h1, h2 | ⟨before, i, r, e, h3, h4, h5⟩ | h2⟩ := C53_panics_only hlex hn hwf hs h
  · exact (hc id path text h1).1 (foreignDate_has h2)
  · have hno : ¬ Operates i := fun h => (hc id path text h1).2.1 (h3 ▸ Operates.after h)
    have hp := plain_parts (sum_plain h4.1 hno)
    rcases h5 with ⟨a, b, _, _, hm, _⟩ | ⟨a, b, _, _, _, _, ⟨hm, _⟩ | ⟨hm, _⟩ | ⟨hm, _⟩ | ⟨hm, _⟩⟩ <;>
      exact hp _ hm
  · exact (hc id path text h1).2.2 h2

end

/-! ### Examples -/

section
attribute [local instance] Categories.asciiOnly Sample.unicode Sample.decOps
open Printed

/-- Whether it is a panic. -/
def panics {ε α : Type} : Res ε α → Bool
  | .panic => true
  | _ => false

/-- A division by zero, an option, and a syntax error with a negative number in parentheses. -/
def divides : Str := "2024-01-02 price USD 1/0 EUR\n".toList
def foreign : Str := "option \"operating_currency\" \"é\"\n".toList
def harmless : Str := "2024-01-02 price USD -(5) EUR é\n2024-01-02 * \"\" 7\n".toList

theorem run_read {text : Str} (h : getIncludes env.tokens text = []) :
    ReadInSomeOrder Whole.files env.tokens none text (inline text) := by
  rw [← inline_read Whole.files h]
  exact ⟨_, .refl _, rfl⟩

theorem inline_source {text t : Str} {id : Nat} {path : Option Path} (h : IsSource (inline text) id path t) : t = text := by
  rcases h with ⟨_, _, ht⟩ | ⟨p, ix, _, hm⟩
  · exact ht
  · cases hm

/-- The hypotheses of `C53_panics_only` are met: the first two panic. -/
example : ReadInSomeOrder Whole.files env.tokens none divides (inline divides) ∧
    panics (parseTexts logos env (inline divides)) = true :=
  ⟨run_read (by decide +kernel), by decide +kernel⟩

example : ReadInSomeOrder Whole.files env.tokens none foreign (inline foreign) ∧
    panics (parseTexts logos env (inline foreign)) = true :=
  ⟨run_read (by decide +kernel), by decide +kernel⟩

section
attribute [-instance] Categories.asciiOnly
attribute [local instance] Categories.some

/-- So does a date in other digits. -/
example : panics (parseTexts logos env (inline "٢٠٢٤-01-01".toList)) = true := by decide +kernel

end

/-- Whether an operator is between operands. -/
def operatesIn : List Token → Bool
  | a :: op :: b :: rest =>
    ((match a with | .rparen | .number _ => true | _ => false) &&
      (match op with | .plus | .minus | .asterisk | .slash => true | _ => false) &&
      (match b with | .lparen | .plus | .minus | .number _ => true | _ => false)) || operatesIn (op :: b :: rest)
  | _ => false

theorem operatesIn_of {toks : List Ranged} (h : Operates toks) : operatesIn (toks.map (·.tok)) = true := by
  obtain ⟨before, a, op, b, after, rfl, h1, h2, h3⟩ := h
  induction before with
  | nil =>
    simp only [List.nil_append, List.map_cons, operatesIn, Bool.or_eq_true, Bool.and_eq_true]
    left
    refine ⟨⟨?_, ?_⟩, ?_⟩
    · rcases h1 with h | ⟨d, h⟩ <;> rw [h]
    · rcases h2 with h | h | h | h <;> rw [h]
    · rcases h3 with h | h | h | ⟨d, h⟩ <;> rw [h]
  | cons t before ih =>
    rcases before with _ | ⟨x, _ | ⟨y, before⟩⟩ <;>
    · simp only [List.cons_append, List.nil_append, List.map_cons, operatesIn, Bool.or_eq_true] at ih ⊢
      exact .inr ih

/-- The hypotheses of `C53_never_panics` are met. -/
example : parseTexts logos env (inline harmless) ≠ .panic := by
  refine C53_never_panics lexedBy soundNumbers Whole.files_wf (run_read (by decide +kernel)) ?_
  intro id path t ht
  rw [inline_source ht]
  refine ⟨?_, ?_, ?_⟩
  · rintro ⟨pre, w, post, _, hw, c, hc, ha⟩
    apply ha
    have hd : Categories.decimalDigit c = true ∨ c = '-' ∨ c = '/' ∨ c = ':' := by
      rcases hw with hw | hw
      · rcases date_chars (matches_dateLexeme.mpr hw) c hc with h | h | h <;> simp [h]
      · obtain ⟨h', m, s, rfl, _, _, hdig, hs⟩ := Re.matches_time.mp (matches_timeLexeme.mpr hw)
        simp only [List.mem_append, List.mem_cons] at hc
        rcases hc with (hc | hc | hc) | hc
        · exact .inl (hdig c (by simp [hc]))
        · simp [hc]
        · exact .inl (hdig c (by simp [hc]))
        · rcases hs with rfl | ⟨x, rfl, _, hx⟩
          · cases hc
          · rcases List.mem_cons.mp hc with hc | hc
            · simp [hc]
            · exact .inl (hx c hc)
    rcases hd with hd | rfl | rfl | rfl <;> [skip; exact ascii_of_isAscii rfl; exact ascii_of_isAscii rfl; exact ascii_of_isAscii rfl]
    have hd : isAsciiDigit c = true := hd
    simp only [isAsciiDigit, decide_eq_true_eq] at hd
    exact lt_of_le_of_lt hd.2 (by decide)
  · intro h
    have := operatesIn_of h
    revert this
    decide +kernel
  · rintro ⟨before, i, j, k, r, name, value, h, ⟨x, y, rfl⟩, _⟩
    have : Token.option ∈ (env.tokens harmless).map (·.tok) := by rw [h]; simp
    revert this
    decide +kernel

end

end Lima.Props
