import Verif.Lemmas.Printing
import Verif.Spec.Grammar

/-! The tokens of printed directives, and that lexing the printed text gives them. -/

namespace Lima
open Spec

/-! ### Tokens -/

def amountTokens (a : Amount) : List Token := exprTokens a.number.item.expr ++ [.currency a.currency.item]

def compoundExprTokens : CompoundExprValue → List Token
  | .perUnit e => exprTokens e.expr
  | .total e => .hash :: exprTokens e.expr
  | .perUnitAndTotal p t => exprTokens p.expr ++ .hash :: exprTokens t.expr

def compoundAmountTokens : CompoundAmount → List Token
  | .bareCurrency c => [.currency c]
  | .bareAmount a => compoundExprTokens a
  | .currencyAmount a c => compoundExprTokens a ++ [.currency c]

def costCompTokens : CostComp → List Token
  | .amount a => compoundAmountTokens a
  | .date d => [.date d]
  | .label s => [.stringLiteral s]
  | .merge => [.asterisk]

/-- The amount component a cost specification is printed with. -/
def costAmount (c : CostSpec) : Option CompoundAmount :=
  match c.perUnit, c.total, c.currency with
  | none, none, none => none
  | none, none, some x => some (.bareCurrency x.item)
  | some p, none, none => some (.bareAmount (.perUnit p.item))
  | none, some t, none => some (.bareAmount (.total t.item))
  | some p, some t, none => some (.bareAmount (.perUnitAndTotal p.item t.item))
  | some p, none, some x => some (.currencyAmount (.perUnit p.item) x.item)
  | none, some t, some x => some (.currencyAmount (.total t.item) x.item)
  | some p, some t, some x => some (.currencyAmount (.perUnitAndTotal p.item t.item) x.item)

/-- The components a cost specification is printed with. -/
def costComps (c : CostSpec) : List CostComp :=
  (costAmount c).toList.map .amount ++ c.date.toList.map (fun d => .date d.item) ++ c.label.toList.map (fun s => .label s.item) ++
    if c.merge then [.merge] else []

/-- With commas in between. -/
def commaTokens {α : Type} (f : α → List Token) : List α → List Token
  | [] => []
  | x :: xs => f x ++ xs.flatMap (fun x => .comma :: f x)

def costTokens (c : CostSpec) : List Token := .lcurl :: commaTokens costCompTokens (costComps c) ++ [.rcurl]

def scopedTokens : ScopedExprValue → List Token
  | .perUnit e => exprTokens e.expr
  | .total e => .hash :: exprTokens e.expr

def priceTokens : PriceSpec → List Token
  | .unspecified => [.at]
  | .bareCurrency c => [.at, .currency c]
  | .bareAmount a => .at :: scopedTokens a
  | .currencyAmount a c => .at :: scopedTokens a ++ [.currency c]

def simpleTokens : SimpleValue → List Token
  | .string s => [.stringLiteral s]
  | .currency c => [.currency c]
  | .account a => [.account a.name]
  | .tag t => [.tag t]
  | .link l => [.link l]
  | .date d => [.date d]
  | .bool b => if b then [.true_] else [.false_]
  | .null => [.null]
  | .expr e => exprTokens e.expr

def metaValueTokens : MetaValue → List Token
  | .simple v => simpleTokens v
  | .amount a => amountTokens a

def keyValueTokens (kv : Spanned Str × Spanned MetaValue) : List Token :=
  .key kv.1.item :: .colon :: metaValueTokens kv.2.item

/-- Lines, each on a new line and indented. -/
def block (ls : List (List Token)) : List Token := ls.flatMap (fun l => .eol :: .indent :: l)

def keyLines (m : Metadata) : List (List Token) := m.keyValues.map keyValueTokens

def tagLines (m : Metadata) : List (List Token) := m.tags.map (fun t => [.tag t.item]) ++ m.links.map (fun t => [.link t.item])

def inlineTokens (m : Metadata) : List Token := m.tags.map (fun t => .tag t.item) ++ m.links.map (fun t => .link t.item)

def postingLineTokens (p : Posting) : List Token :=
  p.flag.toList.map (fun f => flagToken f.item) ++ .account p.account.item.name :: (p.amount.toList.flatMap (fun e => exprTokens e.item.expr) ++
    p.currency.toList.map (fun c => .currency c.item) ++ p.costSpec.toList.flatMap (fun c => costTokens c.item) ++
    p.priceAnnotation.toList.flatMap (fun x => priceTokens x.item))

def postingTokens (p : Posting) : List Token :=
  postingLineTokens p ++ block (tagLines p.metadata.item ++ keyLines p.metadata.item)

def stringTokens (t : Transaction) : List Token :=
  t.payee.toList.map (fun s => .stringLiteral s.item) ++ t.narration.toList.map (fun s => .stringLiteral s.item) ++
    if t.payee.isSome ∧ t.narration.isNone then [.stringLiteral []] else []

def bodyTokens : DirectiveVariant → List Token
  | .transaction _ => []
  | .price c a => .price :: .currency c.item :: amountTokens a.item
  | .balance a t => .balance :: .account a.item.name :: amountTokens t.item.amount.item
  | .open a cs b =>
    .open :: .account a.item.name :: (commaTokens (fun c : Spanned Str => [.currency c.item]) cs ++
      b.toList.map (fun b => .stringLiteral (Display.booking b.item)))
  | .close a => [.close, .account a.item.name]
  | .commodity c => [.commodity, .currency c.item]
  | .pad a b => [.pad, .account a.item.name, .account b.item.name]
  | .document a s => [.document, .account a.item.name, .stringLiteral s.item]
  | .note a s => [.note, .account a.item.name, .stringLiteral s.item]
  | .event s t => [.event, .stringLiteral s.item, .stringLiteral t.item]
  | .query s t => [.query, .stringLiteral s.item, .stringLiteral t.item]
  | .custom _ _ => []

def directiveTokens (d : Directive) : List Token :=
  match d.variant with
  | .transaction t =>
    .date d.date.item :: flagToken t.flag.item :: (stringTokens t ++ inlineTokens d.metadata.item) ++
      block (keyLines d.metadata.item) ++ t.postings.flatMap (fun p => .eol :: .indent :: postingTokens p.item)
  | .custom type values =>
    .date d.date.item :: .custom :: .stringLiteral type.item :: values.flatMap (fun v => metaValueTokens v.item) ++
      block (tagLines d.metadata.item ++ keyLines d.metadata.item)
  | v => .date d.date.item :: bodyTokens v ++ inlineTokens d.metadata.item ++ block (keyLines d.metadata.item)

/-! ### Text -/

theorem format_eq {α : Type} (f : α → Str) (sep : Str) (xs : List α) :
    Display.format f sep (some sep) xs = xs.flatMap (fun x => sep ++ f x) := by
  cases xs <;> rfl

theorem simpleFormat_eq {α : Type} (f : α → Str) (sep : Str) (x : Option α) :
    Display.simpleFormat f (some sep) x = x.toList.flatMap (fun x => sep ++ f x) := by
  cases x <;> simp [Display.simpleFormat, Display.format]

theorem simpleFormat_none {α : Type} (f : α → Str) (x : Option α) :
    Display.simpleFormat f none x = x.toList.flatMap f := by
  cases x <;> simp [Display.simpleFormat, Display.format]

/-- The text begins with a visible character, and not with an opening brace. -/
def Solid (w : Str) : Prop := ∃ c t, w = c :: t ∧ c ≠ ' ' ∧ c ≠ '\t' ∧ c ≠ '\n'

theorem Solid.noBlank {w s : Str} (h : Solid w) : NoBlank (w ++ s) := by
  obtain ⟨c, t, rfl, h1, h2, _⟩ := h
  intro x hx
  simp only [List.cons_append, List.head?_cons, Option.mem_def, Option.some.injEq] at hx
  subst hx; exact ⟨h1, h2⟩

theorem Solid.append {w s : Str} (h : Solid w) : Solid (w ++ s) := by
  obtain ⟨c, t, rfl, h⟩ := h
  exact ⟨c, t ++ s, rfl, h⟩

theorem Solid.mk {c : Char} {t : Str} (h : c ≠ ' ' ∧ c ≠ '\t' ∧ c ≠ '\n') : Solid (c :: t) := ⟨c, t, rfl, h⟩

/-- What follows a word in a line. -/
def LineSep (s : Str) : Prop := s = [] ∨ s.head? = some ' ' ∨ s.head? = some '\n'

theorem LineSep.sep {s : Str} (h : LineSep s) : Sep s := by
  cases s with
  | nil => exact .nil
  | cons c s =>
    rcases h with h | h | h
    · cases h
    · simp only [List.head?_cons, Option.some.injEq] at h; subst h; exact .space
    · simp only [List.head?_cons, Option.some.injEq] at h; subst h; exact .newline

theorem LineSep.noSolid {s : Str} (h : LineSep s) : s.head? ≠ some '{' := by
  rcases h with rfl | h | h
  · simp
  · rw [h]; decide
  · rw [h]; decide

section
variable [Categories]

/-! ### Lexical correctness of tokens -/

/-- What is in a token could have been read from a text. -/
def LexOk : Token → Prop
  | .number d => WfNumber d
  | .date d => WfDate d
  | .currency c => Matches Re.currency c ∧ ∀ t, (t, c) ∉ literals
  | .account a => Matches Re.account a
  | .tag t | .link t => t ≠ [] ∧ ∀ c ∈ t, isTagChar c = true
  | .key k => Matches Re.key k
  | .dedicatedFlag (.letter c) => isAsciiUpper c = true
  | _ => True

/-- Strings are also printed as they are. -/
def PrintOk (t : Token) : Prop := LexOk t ∧ ∀ s, t = .stringLiteral s → Plain s

theorem PrintOk.lex {t : Token} (h : PrintOk t) : LexOk t := h.1

theorem PrintOk.plain {s : Str} (h : PrintOk (.stringLiteral s)) : Plain s := h.2 s rfl

/-! ### Solidity -/

omit [Categories] in
theorem solid_digits {w : Str} (h0 : w ≠ []) (h : ∀ c ∈ w.head?, isAsciiDigit c = true) : Solid w := by
  cases w with
  | nil => exact absurd rfl h0
  | cons c w =>
    have := h c rfl
    refine Solid.mk ⟨?_, ?_, ?_⟩ <;> (rintro rfl; exact absurd this (by decide))

omit [Categories] in
theorem solid_date (d : Date) : Solid (Display.date d) := by
  have e : Display.date d = Display.zeroPad 4 (Nat.toDigits 10 d.year) ++ (str "-" ++ Display.zeroPad 2 (Nat.toDigits 10 d.month) ++ str "-" ++
    Display.zeroPad 2 (Nat.toDigits 10 d.day)) := by unfold Display.date; simp only [List.append_assoc]
  rw [e]
  refine Solid.append (solid_digits ?_ (fun c hc => zeroPad_digits 4 d.year c (List.mem_of_mem_head? hc)))
  have := zeroPad_length_le 4 d.year
  intro e; rw [e] at this; simp at this

omit [Categories] in
theorem solid_decimal {d : Dec} (h : 0 ≤ d.mant) : Solid (Display.decimal d) := by
  obtain ⟨is, fs, h1, _, _, e⟩ := display_decimal_form h
  rw [e]
  refine Solid.append (solid_digits (by simpa using h1) (fun c hc => ?_))
  obtain ⟨n, _, rfl⟩ := List.mem_map.mp (List.mem_of_mem_head? hc)
  exact digit_isAsciiDigit n

omit [Categories] in
theorem solid_expr (e : Expr) (h : ∀ d, .number d ∈ exprTokens e → WfNumber d) : Solid (Display.expr e) := by
  induction e with
  | value d => exact solid_decimal (h d (by simp [exprTokens])).1
  | add a b iha ihb => exact ((iha (fun d hd => h d (by simp [exprTokens, hd]))).append).append
  | sub a b iha ihb => exact ((iha (fun d hd => h d (by simp [exprTokens, hd]))).append).append
  | mul a b iha ihb => exact ((iha (fun d hd => h d (by simp [exprTokens, hd]))).append).append
  | div a b iha ihb => exact ((iha (fun d hd => h d (by simp [exprTokens, hd]))).append).append
  | neg a ih => exact Solid.mk (by decide)
  | paren a ih => exact Solid.mk (by decide)

omit [Categories] in
theorem solid_currency {c : Str} (h : Matches Re.currency c) : Solid c := by
  rcases Re.matches_currency.mp h with ⟨a, rest, rfl, ha, _⟩ | ⟨mid, a, rest, rfl, _⟩
  · refine Solid.mk ⟨?_, ?_, ?_⟩ <;> (rintro rfl; exact absurd ha (by decide))
  · exact Solid.mk (by decide)

theorem solid_account {a : Str} (h : Matches Re.account a) : Solid a := by
  obtain ⟨c, rest, rfl, hc, _⟩ := Re.matches_account_head h
  have key : ∀ x : Char, isAscii x = true → isAsciiUpper x = false → c ≠ x := by
    rintro x h1 h2 rfl
    rw [Categories.upper_ascii c h1, Categories.otherLetter_ascii c h1, h2] at hc
    cases hc
  exact Solid.mk ⟨key _ (by decide) (by decide), key _ (by decide) (by decide), key _ (by decide) (by decide)⟩

omit [Categories] in
theorem solid_key {k : Str} (h : Matches Re.key k) : Solid k := by
  obtain ⟨a, rest, rfl, ha, _⟩ := Re.matches_key.mp h
  refine Solid.mk ⟨?_, ?_, ?_⟩ <;> (rintro rfl; exact absurd ha (by decide))

omit [Categories] in
theorem solid_flag (f : Flag) : Solid (Display.flag f) := by
  cases f <;> exact Solid.mk (by decide)

/-! ### Expressions and amounts -/

variable {l : Logos}

theorem Lexed.expr (hl : NumberThenComma l) (e : Expr) (h : ∀ d, .number d ∈ exprTokens e → WfNumber d) :
    ∀ {s ts}, Sep s → Lexed l s ts → Lexed l (Display.expr e ++ s) (exprTokens e ++ ts) := by
  have binary : ∀ (a b : Expr) (op : Char) (t : Token), (t, [op]) ∈ literals → op ≠ '}' ∧ op ≠ ':' ∧ op ≠ ' ' ∧ op ≠ '\t' →
      (∀ d, .number d ∈ exprTokens b → WfNumber d) →
      (∀ {s ts}, Sep s → Lexed l s ts → Lexed l (Display.expr a ++ s) (exprTokens a ++ ts)) →
      (∀ {s ts}, Sep s → Lexed l s ts → Lexed l (Display.expr b ++ s) (exprTokens b ++ ts)) → ∀ {s ts}, Sep s → Lexed l s ts →
      Lexed l (Display.expr a ++ [' ', op, ' '] ++ Display.expr b ++ s) (exprTokens a ++ [t] ++ exprTokens b ++ ts) := by
    intro a b op t ht hop hb iha ihb s ts hs hr
    have e1 : Display.expr a ++ [' ', op, ' '] ++ Display.expr b ++ s =
        Display.expr a ++ (' ' :: ([op] ++ (' ' :: (Display.expr b ++ s)))) := by simp
    have e2 : exprTokens a ++ [t] ++ exprTokens b ++ ts = exprTokens a ++ (t :: (exprTokens b ++ ts)) := by simp
    rw [e1, e2]
    refine iha .space (Lexed.space ?_ (Lexed.lit ht ?_ .space (Lexed.space (solid_expr b hb).noBlank (ihb hs hr))))
    · intro c hc
      simp only [List.singleton_append, List.head?_cons, Option.mem_def, Option.some.injEq] at hc
      subst hc
      exact hop.2.2
    · refine ⟨?_, ?_, ?_⟩
      · intro e; injection e with e; exact hop.1 e
      · intro e; injection e with e1 e2; cases e2
      · intro e; injection e with e; exact hop.2.1 e
  induction e with
  | value d => exact fun {_ _} hs hr => Lexed.number hl (h d (by simp [exprTokens])) hs hr
  | add a b iha ihb =>
    exact fun {_ _} hs hr => binary a b '+' .plus (by decide) (by decide) (fun d hd => h d (by simp [exprTokens, hd]))
      (iha (fun d hd => h d (by simp [exprTokens, hd]))) (ihb (fun d hd => h d (by simp [exprTokens, hd]))) hs hr
  | sub a b iha ihb =>
    exact fun {_ _} hs hr => binary a b '-' .minus (by decide) (by decide) (fun d hd => h d (by simp [exprTokens, hd]))
      (iha (fun d hd => h d (by simp [exprTokens, hd]))) (ihb (fun d hd => h d (by simp [exprTokens, hd]))) hs hr
  | mul a b iha ihb =>
    exact fun {_ _} hs hr => binary a b '*' .asterisk (by decide) (by decide) (fun d hd => h d (by simp [exprTokens, hd]))
      (iha (fun d hd => h d (by simp [exprTokens, hd]))) (ihb (fun d hd => h d (by simp [exprTokens, hd]))) hs hr
  | div a b iha ihb =>
    exact fun {_ _} hs hr => binary a b '/' .slash (by decide) (by decide) (fun d hd => h d (by simp [exprTokens, hd]))
      (iha (fun d hd => h d (by simp [exprTokens, hd]))) (ihb (fun d hd => h d (by simp [exprTokens, hd]))) hs hr
  | neg a ih =>
    exact fun {_ _} hs hr => Lexed.solo (t := .minus) (x := '-') (by decide) (by tauto) (fun e => absurd e (by decide))
      (ih (fun d hd => h d (by simp [exprTokens, hd])) hs hr)
  | paren a ih =>
    intro s ts hs hr
    have := ih (fun d hd => h d (by simp [exprTokens, hd])) .rparen (Lexed.lit (t := .rparen) (w := [')']) (by decide) (by decide) hs hr)
    have := Lexed.solo (t := .lparen) (x := '(') (by decide) (by tauto) (fun e => absurd e (by decide)) this
    have e1 : Display.expr (.paren a) ++ s = '(' :: (Display.expr a ++ (')' :: s)) := by
      show str "(" ++ Display.expr a ++ str ")" ++ s = _
      simp only [List.append_assoc]; rfl
    have e2 : exprTokens (.paren a) ++ ts = .lparen :: (exprTokens a ++ .rparen :: ts) := by simp [exprTokens]
    rw [e1, e2]
    exact this

/-- Numbers among tokens which are all right. -/
theorem numbers_ok {ts : List Token} (h : ∀ t ∈ ts, PrintOk t) : ∀ d, .number d ∈ ts → WfNumber d := fun _ hd => (h _ hd).lex

theorem Lexed.amount (hl : NumberThenComma l) {a : Amount} (h : ∀ t ∈ amountTokens a, PrintOk t) {s : Str} {ts : List Token}
    (hs : Sep s) (hr : Lexed l s ts) : Lexed l (Display.amount a ++ s) (amountTokens a ++ ts) := by
  have hc := (h (.currency a.currency.item) (by simp [amountTokens])).lex
  have e1 : Display.amount a ++ s = Display.expr a.number.item.expr ++ (' ' :: (a.currency.item ++ s)) := by
    unfold Display.amount Display.value
    simp only [List.append_assoc]; rfl
  have e2 : amountTokens a ++ ts = exprTokens a.number.item.expr ++ (.currency a.currency.item :: ts) := by simp [amountTokens]
  rw [e1, e2]
  exact Lexed.expr hl _ (fun d hd => (h (.number d) (by simp [amountTokens, hd])).lex) .space
    (Lexed.space (solid_currency hc.1).noBlank (Lexed.currency hc (.inl hs) hr))

theorem solid_amount {a : Amount} (h : ∀ t ∈ amountTokens a, PrintOk t) : Solid (Display.amount a) := by
  unfold Display.amount Display.value
  exact ((solid_expr _ (fun d hd => (h (.number d) (by simp [amountTokens, hd])).lex)).append).append

theorem solid_value {e : ExprValue} (h : ∀ t ∈ exprTokens e.expr, PrintOk t) : Solid (Display.value e) :=
  solid_expr _ (numbers_ok h)

theorem Lexed.value (hl : NumberThenComma l) {e : ExprValue} (h : ∀ t ∈ exprTokens e.expr, PrintOk t) {s : Str} {ts : List Token}
    (hs : Sep s) (hr : Lexed l s ts) : Lexed l (Display.value e ++ s) (exprTokens e.expr ++ ts) :=
  Lexed.expr hl _ (numbers_ok h) hs hr

/-- A word after a space. -/
theorem Lexed.spaced {w s : Str} {ts : List Token} (h : Solid w) (hr : Lexed l (w ++ s) ts) : Lexed l (str " " ++ w ++ s) ts := by
  have e : str " " ++ w ++ s = ' ' :: (w ++ s) := by rw [List.append_assoc]; rfl
  rw [e]
  exact Lexed.space h.noBlank hr

theorem Lexed.compoundExpr (hl : NumberThenComma l) {e : CompoundExprValue} (h : ∀ t ∈ compoundExprTokens e, PrintOk t) {s : Str}
    {ts : List Token} (hs : Sep s) (hr : Lexed l s ts) :
    Lexed l (Display.compoundExpr e ++ s) (compoundExprTokens e ++ ts) ∧ Solid (Display.compoundExpr e) := by
  cases e with
  | perUnit e => exact ⟨Lexed.value hl h hs hr, solid_value h⟩
  | total e =>
    have h' : ∀ t ∈ exprTokens e.expr, PrintOk t := fun t ht => h t (by simp [compoundExprTokens, ht])
    refine ⟨?_, Solid.mk (by decide)⟩
    have e1 : Display.compoundExpr (.total e) ++ s = ['#'] ++ (' ' :: (Display.value e ++ s)) := by
      show str "# " ++ Display.value e ++ s = _
      rw [List.append_assoc]; rfl
    rw [e1]
    exact Lexed.lit (t := .hash) (by decide) (by decide) .space (Lexed.space (solid_value h').noBlank (Lexed.value hl h' hs hr))
  | perUnitAndTotal p e =>
    have h' : ∀ t ∈ exprTokens e.expr, PrintOk t := fun t ht => h t (by simp [compoundExprTokens, ht])
    have h'' : ∀ t ∈ exprTokens p.expr, PrintOk t := fun t ht => h t (by simp [compoundExprTokens, ht])
    refine ⟨?_, ((solid_value h'').append).append⟩
    have e1 : Display.compoundExpr (.perUnitAndTotal p e) ++ s = Display.value p ++ (' ' :: (['#'] ++ (' ' :: (Display.value e ++ s)))) := by
      show Display.value p ++ str " # " ++ Display.value e ++ s = _
      simp only [List.append_assoc]; rfl
    have e2 : compoundExprTokens (.perUnitAndTotal p e) ++ ts = exprTokens p.expr ++ (.hash :: (exprTokens e.expr ++ ts)) := by
      simp [compoundExprTokens]
    rw [e1, e2]
    refine Lexed.value hl h'' .space (Lexed.space (by intro c hc; simp at hc; subst hc; decide) ?_)
    exact Lexed.lit (t := .hash) (by decide) (by decide) .space (Lexed.space (solid_value h').noBlank (Lexed.value hl h' hs hr))

theorem Lexed.compoundAmount (hl : NumberThenComma l) {a : CompoundAmount} (h : ∀ t ∈ compoundAmountTokens a, PrintOk t) {s : Str}
    {ts : List Token} (hs : Sep s) (hr : Lexed l s ts) :
    Lexed l (Display.compoundAmount a ++ s) (compoundAmountTokens a ++ ts) ∧ Solid (Display.compoundAmount a) := by
  cases a with
  | bareCurrency c =>
    have hc := (h (.currency c) (by simp [compoundAmountTokens])).lex
    exact ⟨Lexed.currency hc (.inl hs) hr, solid_currency hc.1⟩
  | bareAmount a => exact Lexed.compoundExpr hl h hs hr
  | currencyAmount a c =>
    have hc := (h (.currency c) (by simp [compoundAmountTokens])).lex
    have h' : ∀ t ∈ compoundExprTokens a, PrintOk t := fun t ht => h t (by simp [compoundAmountTokens, ht])
    have := Lexed.compoundExpr hl h' (s := ' ' :: (c ++ s)) .space (Lexed.space (solid_currency hc.1).noBlank (Lexed.currency hc (.inl hs) hr))
    refine ⟨?_, (this.2.append).append⟩
    have e1 : Display.compoundAmount (.currencyAmount a c) ++ s = Display.compoundExpr a ++ (' ' :: (c ++ s)) := by
      show Display.compoundExpr a ++ str " " ++ c ++ s = _
      simp only [List.append_assoc]; rfl
    have e2 : compoundAmountTokens (.currencyAmount a c) ++ ts = compoundExprTokens a ++ (.currency c :: ts) := by
      simp [compoundAmountTokens]
    rw [e1, e2]
    exact this.1

/-! ### Cost specifications -/

/-- How a component of a cost specification is printed. -/
def costCompText : CostComp → Str
  | .amount a => Display.compoundAmount a
  | .date d => Display.date d
  | .label s => Display.doubleQuoted s
  | .merge => str "*"

/-- With commas and spaces in between. -/
def commaText {α : Type} (f : α → Str) : List α → Str
  | [] => []
  | x :: xs => f x ++ xs.flatMap (fun x => ',' :: ' ' :: f x)

omit [Categories] in
theorem costSpec_text (c : CostSpec) : Display.costSpec c = '{' :: (commaText costCompText (costComps c) ++ ['}']) := by
  obtain ⟨p, t, x, d, s, m⟩ := c
  have e1 : str "{" = ['{'] := rfl
  have e2 : str " " = [' '] := rfl
  have e3 : str ", " = [',', ' '] := rfl
  have e4 : str "*" = ['*'] := rfl
  have e5 : str "}" = ['}'] := rfl
  have e6 : str "\"" = ['"'] := rfl
  have e7 : str "# " = ['#', ' '] := rfl
  have e8 : str " # " = [' ', '#', ' '] := rfl
  cases p <;> cases t <;> cases x <;> cases d <;> cases s <;> cases m <;>
    simp [Display.costSpec, costComps, costAmount, commaText, costCompText, Display.compoundAmount, Display.compoundExpr,
      Display.doubleQuoted, e1, e2, e3, e4, e5, e6, e7, e8]

theorem Lexed.costComp (hl : NumberThenComma l) {c : CostComp} (h : ∀ t ∈ costCompTokens c, PrintOk t) {s : Str}
    {ts : List Token} (hs : Sep s) (hr : Lexed l s ts) :
    Lexed l (costCompText c ++ s) (costCompTokens c ++ ts) ∧ Solid (costCompText c) ∧ (costCompText c).head? ≠ some '{' := by
  cases c with
  | amount a =>
    obtain ⟨h1, h2⟩ := Lexed.compoundAmount hl h hs hr
    refine ⟨h1, h2, ?_⟩
    have hexpr : ∀ e : ExprValue, (∀ t ∈ exprTokens e.expr, PrintOk t) → (Display.value e).head? ≠ some '{' := by
      intro e he
      have : ∀ e : Expr, (∀ d, .number d ∈ exprTokens e → WfNumber d) → ∃ c t, Display.expr e = c :: t ∧ c ≠ '{' := by
        intro e he
        induction e with
        | value d =>
          obtain ⟨is, fs, h1, _, _, e⟩ := display_decimal_form (he d (by simp [exprTokens])).1
          cases is with
          | nil => exact absurd rfl h1
          | cons n is =>
            refine ⟨digit n, _, by rw [Display.expr, e]; rfl, digit_ne n _ (by decide)⟩
        | add a b iha ihb => obtain ⟨c, t, e, hc⟩ := iha (fun d hd => he d (by simp [exprTokens, hd])); exact ⟨c, _, by rw [Display.expr, e]; rfl, hc⟩
        | sub a b iha ihb => obtain ⟨c, t, e, hc⟩ := iha (fun d hd => he d (by simp [exprTokens, hd])); exact ⟨c, _, by rw [Display.expr, e]; rfl, hc⟩
        | mul a b iha ihb => obtain ⟨c, t, e, hc⟩ := iha (fun d hd => he d (by simp [exprTokens, hd])); exact ⟨c, _, by rw [Display.expr, e]; rfl, hc⟩
        | div a b iha ihb => obtain ⟨c, t, e, hc⟩ := iha (fun d hd => he d (by simp [exprTokens, hd])); exact ⟨c, _, by rw [Display.expr, e]; rfl, hc⟩
        | neg a ih => exact ⟨'-', _, rfl, by decide⟩
        | paren a ih => exact ⟨'(', _, rfl, by decide⟩
      obtain ⟨c, t, e, hc⟩ := this _ (numbers_ok he)
      rw [Display.value, e]
      simpa using hc
    have happ : ∀ (a b : Str), Solid a → a.head? ≠ some '{' → (a ++ b).head? ≠ some '{' := by
      rintro a b ⟨c, t, rfl, _⟩ h
      simpa using h
    have hcomp : ∀ e : CompoundExprValue, (∀ t ∈ compoundExprTokens e, PrintOk t) → (Display.compoundExpr e).head? ≠ some '{' := by
      intro e he
      cases e with
      | perUnit e => exact hexpr e he
      | total e => exact (by decide : some '#' ≠ some '{')
      | perUnitAndTotal p e =>
        have hp : ∀ t ∈ exprTokens p.expr, PrintOk t := fun t ht => he t (by simp [compoundExprTokens, ht])
        exact happ _ _ ((solid_value hp).append) (happ _ _ (solid_value hp) (hexpr p hp))
    cases a with
    | bareCurrency c =>
      have hc := (h (.currency c) (by simp [costCompTokens, compoundAmountTokens])).lex
      rcases Re.matches_currency.mp hc.1 with ⟨a, rest, rfl, ha, _⟩ | ⟨mid, a, rest, rfl, _⟩
      · intro e
        have e : some a = some '{' := e
        injection e with e
        subst e
        exact absurd ha (by decide)
      · exact (by decide : some '/' ≠ some '{')
    | bareAmount a => exact hcomp a h
    | currencyAmount a c =>
      have ha : ∀ t ∈ compoundExprTokens a, PrintOk t := fun t ht => h t (by simp [costCompTokens, compoundAmountTokens, ht])
      have hsol := (Lexed.compoundExpr hl ha hs hr).2
      exact happ _ _ (hsol.append) (happ _ _ hsol (hcomp a ha))
  | date d =>
    have hd : WfDate d := (h (.date d) (by simp [costCompTokens])).lex
    refine ⟨Lexed.date hd hs hr, solid_date d, ?_⟩
    intro e
    have hm := matches_display_date (d := d) hd
    obtain ⟨c, t, e', hc, _⟩ := reads_head (.date hm)
    have e : (Display.date d).head? = some '{' := e
    rw [e'] at e
    simp only [List.head?_cons, Option.some.injEq] at e
    subst e
    rw [ascii_not_digit (by decide) (by decide)] at hc; cases hc
  | label x => exact ⟨Lexed.string (h (.stringLiteral x) (by simp [costCompTokens])).plain hr, Solid.mk (by decide), (by decide : some '"' ≠ some '{')⟩
  | merge => exact ⟨Lexed.lit (t := .asterisk) (by decide) (by decide) hs hr, Solid.mk (by decide), by decide⟩

/-- Things with commas in between. -/
theorem Lexed.commas {α : Type} {f : α → Str} {g : α → List Token} : ∀ (xs : List α),
    (∀ x ∈ xs, ∀ s ts, Sep s → Lexed l s ts → Lexed l (f x ++ s) (g x ++ ts) ∧ Solid (f x)) → ∀ {s : Str} {ts : List Token},
    Sep s → Lexed l s ts →
    Lexed l (xs.flatMap (fun x => ',' :: ' ' :: f x) ++ s) (xs.flatMap (fun x => .comma :: g x) ++ ts) ∧
      Sep (xs.flatMap (fun x => ',' :: ' ' :: f x) ++ s)
  | [], _, _, _, hs, hr => ⟨hr, hs⟩
  | x :: xs, h, s, ts, hs, hr => by
    obtain ⟨h1, h2⟩ := Lexed.commas xs (fun x hx => h x (by simp [hx])) hs hr
    obtain ⟨h3, h4⟩ := h x (by simp) _ _ h2 h1
    simp only [List.flatMap_cons, List.cons_append, List.append_assoc]
    exact ⟨Lexed.solo (t := .comma) (x := ',') (by decide) (by tauto) (fun e => absurd e (by decide)) (Lexed.space h4.noBlank h3), .comma⟩

theorem Lexed.costSpec (hl : NumberThenComma l) {c : CostSpec} (h : ∀ t ∈ costTokens c, PrintOk t) {s : Str}
    {ts : List Token} (hs : LineSep s) (hr : Lexed l s ts) : Lexed l (Display.costSpec c ++ s) (costTokens c ++ ts) := by
  rw [costSpec_text]
  unfold costTokens at h ⊢
  have hr' := Lexed.rcurl hs hr
  have e1 : '{' :: (commaText costCompText (costComps c) ++ ['}']) ++ s = '{' :: (commaText costCompText (costComps c) ++ '}' :: s) := by simp
  have e2 : .lcurl :: commaTokens costCompTokens (costComps c) ++ [.rcurl] ++ ts =
      .lcurl :: (commaTokens costCompTokens (costComps c) ++ .rcurl :: ts) := by simp
  rw [e1, e2]
  have main : ∀ comps : List CostComp, (∀ t ∈ commaTokens costCompTokens comps, PrintOk t) →
      Lexed l (commaText costCompText comps ++ '}' :: s) (commaTokens costCompTokens comps ++ .rcurl :: ts) ∧
        (commaText costCompText comps ++ '}' :: s).head? ≠ some '{' := by
    intro comps hok
    cases comps with
    | nil => exact ⟨hr', by simp [commaText]⟩
    | cons x xs =>
      have hx : ∀ y ∈ x :: xs, ∀ t ∈ costCompTokens y, PrintOk t := by
        intro y hy t ht
        apply hok t
        simp only [commaTokens, List.mem_append, List.mem_flatMap, List.mem_cons]
        rcases List.mem_cons.mp hy with rfl | hy
        · exact .inl ht
        · exact .inr ⟨y, hy, .inr ht⟩
      obtain ⟨h1, h2⟩ := Lexed.commas (f := costCompText) (g := costCompTokens) xs
        (fun y hy s ts hs hr => by
          obtain ⟨a, b, _⟩ := Lexed.costComp hl (hx y (by simp [hy])) hs hr
          exact ⟨a, b⟩) .rcurl hr'
      obtain ⟨h3, h4, h5⟩ := Lexed.costComp hl (hx x (by simp)) h2 h1
      simp only [commaText, commaTokens, List.append_assoc]
      refine ⟨h3, ?_⟩
      obtain ⟨c, t, e, _⟩ := h4
      rw [e] at h5 ⊢
      simpa using h5
  obtain ⟨h1, h2⟩ := main (costComps c) (fun t ht => h t (by simp [ht]))
  exact Lexed.solo (t := .lcurl) (x := '{') (by decide) (by tauto) (fun _ => h2) h1

/-! ### Prices -/

/-- A price which is not a total. -/
def NotTotal : PriceSpec → Prop
  | .bareAmount (.total _) => False
  | .currencyAmount (.total _) _ => False
  | _ => True

theorem Lexed.price (hl : NumberThenComma l) {p : PriceSpec} (hp : NotTotal p) (h : ∀ t ∈ priceTokens p, PrintOk t) {s : Str}
    {ts : List Token} (hs : LineSep s) (hns : NoBlank s) (hr : Lexed l s ts) :
    Lexed l (str " @ " ++ Display.priceSpec p ++ s) (priceTokens p ++ ts) := by
  have at_ : ∀ {w : Str} {us : List Token}, NoBlank w → Lexed l w us → Lexed l (' ' :: '@' :: ' ' :: w) (.at :: us) := by
    intro w us hw hu
    exact Lexed.space (by intro c hc; simp at hc; subst hc; decide)
      (Lexed.lit (t := .at) (w := ['@']) (by decide) (by decide) .space (Lexed.space hw hu))
  have e0 : str " @ " = [' ', '@', ' '] := rfl
  cases p with
  | unspecified => exact at_ hns hr
  | bareCurrency c =>
    have hc := (h (.currency c) (by simp [priceTokens])).lex
    exact at_ (solid_currency hc.1).noBlank (Lexed.currency hc (.inl hs.sep) hr)
  | bareAmount a =>
    cases a with
    | total => exact absurd hp (by simp [NotTotal])
    | perUnit e =>
      have he : ∀ t ∈ exprTokens e.expr, PrintOk t := fun t ht => h t (by simp [priceTokens, scopedTokens, ht])
      exact at_ (solid_value he).noBlank (Lexed.value hl he hs.sep hr)
  | currencyAmount a c =>
    cases a with
    | total => exact absurd hp (by simp [NotTotal])
    | perUnit e =>
      have he : ∀ t ∈ exprTokens e.expr, PrintOk t := fun t ht => h t (by simp [priceTokens, scopedTokens, ht])
      have hc := (h (.currency c) (by simp [priceTokens])).lex
      have h1 := at_ (solid_value he).noBlank (Lexed.value hl he .space (Lexed.space (solid_currency hc.1).noBlank (Lexed.currency hc (.inl hs.sep) hr)))
      have e1 : str " @ " ++ Display.priceSpec (.currencyAmount (.perUnit e) c) ++ s =
          ' ' :: '@' :: ' ' :: (Display.value e ++ ' ' :: (c ++ s)) := by
        show str " @ " ++ (Display.value e ++ str " " ++ c) ++ s = _
        rw [e0]
        have : str " " = [' '] := rfl
        simp [this]
      have e2 : priceTokens (.currencyAmount (.perUnit e) c) ++ ts = .at :: (exprTokens e.expr ++ .currency c :: ts) := by
        simp [priceTokens, scopedTokens]
      rw [e1, e2]
      exact h1

/-! ### Values -/

theorem Lexed.simpleValue (hl : NumberThenComma l) {v : SimpleValue} (h : ∀ t ∈ simpleTokens v, PrintOk t) {s : Str}
    {ts : List Token} (hs : Sep s) (hr : Lexed l s ts) :
    Lexed l (Display.simpleValue v ++ s) (simpleTokens v ++ ts) ∧ Solid (Display.simpleValue v) := by
  cases v with
  | string x => exact ⟨Lexed.string (h (.stringLiteral x) (by simp [simpleTokens])).plain hr, Solid.mk (by decide)⟩
  | currency c =>
    have hc := (h (.currency c) (by simp [simpleTokens])).lex
    exact ⟨Lexed.currency hc (.inl hs) hr, solid_currency hc.1⟩
  | account a =>
    have hc : Matches Re.account a.name := (h (.account a.name) (by simp [simpleTokens])).lex
    exact ⟨Lexed.account hc hs hr, solid_account hc⟩
  | tag t => exact ⟨Lexed.tag (h (.tag t) (by simp [simpleTokens])).lex hs hr, Solid.mk (by decide)⟩
  | link t => exact ⟨Lexed.link (h (.link t) (by simp [simpleTokens])).lex hs hr, Solid.mk (by decide)⟩
  | date d =>
    have hd : WfDate d := (h (.date d) (by simp [simpleTokens])).lex
    exact ⟨Lexed.date hd hs hr, solid_date d⟩
  | bool b =>
    cases b
    · exact ⟨Lexed.lit (t := .false_) (w := str "FALSE") (by decide) (by decide) hs hr, Solid.mk (by decide)⟩
    · exact ⟨Lexed.lit (t := .true_) (w := str "TRUE") (by decide) (by decide) hs hr, Solid.mk (by decide)⟩
  | null => exact ⟨Lexed.lit (t := .null) (w := str "NULL") (by decide) (by decide) hs hr, Solid.mk (by decide)⟩
  | expr e => exact ⟨Lexed.value hl h hs hr, solid_value h⟩

theorem Lexed.metaValue (hl : NumberThenComma l) {v : MetaValue} (h : ∀ t ∈ metaValueTokens v, PrintOk t) {s : Str}
    {ts : List Token} (hs : Sep s) (hr : Lexed l s ts) :
    Lexed l (Display.metaValue v ++ s) (metaValueTokens v ++ ts) ∧ Solid (Display.metaValue v) := by
  cases v with
  | simple v => exact Lexed.simpleValue hl h hs hr
  | amount a => exact ⟨Lexed.amount hl h hs hr, solid_amount h⟩

theorem Lexed.keyValue (hl : NumberThenComma l) {kv : Spanned Str × Spanned MetaValue} (h : ∀ t ∈ keyValueTokens kv, PrintOk t) {s : Str}
    {ts : List Token} (hs : Sep s) (hr : Lexed l s ts) :
    Lexed l (Display.keyValue kv ++ s) (keyValueTokens kv ++ ts) ∧ Solid (Display.keyValue kv) := by
  have hk : Matches Re.key kv.1.item := (h (.key kv.1.item) (by simp [keyValueTokens])).lex
  obtain ⟨h1, h2⟩ := Lexed.metaValue hl (v := kv.2.item) (fun t ht => h t (by simp [keyValueTokens, ht])) hs hr
  have e : Display.keyValue kv ++ s = kv.1.item ++ ':' :: ' ' :: (Display.metaValue kv.2.item ++ s) := by
    unfold Display.keyValue
    simp only [List.append_assoc]; rfl
  rw [e]
  exact ⟨Lexed.key hk (Lexed.space h2.noBlank h1), ((solid_key hk).append).append⟩

/-! ### Words and lines -/

/-- Words, each after a space. -/
theorem Lexed.words {α : Type} {f : α → Str} {g : α → List Token} : ∀ (xs : List α),
    (∀ x ∈ xs, ∀ s ts, LineSep s → Lexed l s ts → Lexed l (f x ++ s) (g x ++ ts) ∧ Solid (f x)) → ∀ {s : Str} {ts : List Token},
    LineSep s → Lexed l s ts →
    Lexed l (xs.flatMap (fun x => str " " ++ f x) ++ s) (xs.flatMap g ++ ts) ∧ LineSep (xs.flatMap (fun x => str " " ++ f x) ++ s)
  | [], _, _, _, hs, hr => ⟨hr, hs⟩
  | x :: xs, h, s, ts, hs, hr => by
    obtain ⟨h1, h2⟩ := Lexed.words xs (fun x hx => h x (by simp [hx])) hs hr
    obtain ⟨h3, h4⟩ := h x (by simp) _ _ h2 h1
    simp only [List.flatMap_cons, List.append_assoc]
    exact ⟨Lexed.space h4.noBlank h3, .inr (.inl rfl)⟩

/-- What follows the last word of a line. -/
def EolSep (s : Str) : Prop := s = [] ∨ s.head? = some '\n'

omit [Categories] in
theorem EolSep.line {s : Str} (h : EolSep s) : LineSep s := by
  rcases h with h | h
  · exact .inl h
  · exact .inr (.inr h)

omit [Categories] in
theorem EolSep.noBlank {s : Str} (h : EolSep s) : NoBlank s := by
  rcases h with rfl | h
  · intro c hc; cases hc
  · intro c hc
    rw [h] at hc
    injection hc with hc
    subst hc; decide

/-- Lines, each after a line end and an indent. -/
theorem Lexed.lines {α : Type} {f : α → Str} {g : α → List Token} : ∀ (xs : List α),
    (∀ x ∈ xs, ∀ s ts, EolSep s → Lexed l s ts → Lexed l (f x ++ s) (g x ++ ts) ∧ Solid (f x)) →
    (∀ x ∈ xs, ∃ t ∈ (g x).head?, t ≠ .eol) → ∀ {s : Str} {ts : List Token},
    EolSep s → Lexed l s ts →
    Lexed l (xs.flatMap (fun x => Display.newlineIndent ++ f x) ++ s) (xs.flatMap (fun x => .eol :: .indent :: g x) ++ ts) ∧
      EolSep (xs.flatMap (fun x => Display.newlineIndent ++ f x) ++ s)
  | [], _, _, _, _, hs, hr => ⟨hr, hs⟩
  | x :: xs, h, hg, s, ts, hs, hr => by
    obtain ⟨h1, h2⟩ := Lexed.lines xs (fun x hx => h x (by simp [hx])) (fun x hx => hg x (by simp [hx])) hs hr
    obtain ⟨h3, h4⟩ := h x (by simp) _ _ h2 h1
    obtain ⟨t, ht, hne⟩ := hg x (by simp)
    simp only [List.flatMap_cons, List.append_assoc, List.cons_append]
    refine ⟨Lexed.indent h4.noBlank ⟨t, ?_, hne⟩ h3, .inr rfl⟩
    cases hgx : g x with
    | nil => rw [hgx] at ht; cases ht
    | cons a as => rw [hgx] at ht; exact ht


/-! ### Metadata -/

theorem Lexed.inline {m : Metadata} (h : ∀ t ∈ inlineTokens m, PrintOk t) {s : Str} {ts : List Token} (hs : LineSep s)
    (hr : Lexed l s ts) :
    Lexed l (Display.tagsLinksInline m ++ s) (inlineTokens m ++ ts) ∧ LineSep (Display.tagsLinksInline m ++ s) := by
  obtain ⟨h1, h2⟩ := Lexed.words (f := fun t : Spanned Str => Display.link t.item) (g := fun t => [.link t.item]) m.links
    (fun x hx s ts hs hr => ⟨Lexed.link (h (.link x.item) (by simp [inlineTokens]; exact ⟨x, hx, rfl⟩)).lex hs.sep hr,
      Solid.mk (by decide)⟩) hs hr
  obtain ⟨h3, h4⟩ := Lexed.words (f := fun t : Spanned Str => Display.tag t.item) (g := fun t => [.tag t.item]) m.tags
    (fun x hx s ts hs hr => ⟨Lexed.tag (h (.tag x.item) (by simp [inlineTokens]; exact ⟨x, hx, rfl⟩)).lex hs.sep hr,
      Solid.mk (by decide)⟩) h2 h1
  unfold Display.tagsLinksInline inlineTokens
  rw [format_eq, format_eq, List.append_assoc, List.append_assoc]
  have e : ∀ (f : Spanned Str → Token) (xs : List (Spanned Str)), xs.flatMap (fun t => [f t]) = xs.map f := by
    intro f xs; induction xs with
    | nil => rfl
    | cons x xs ih => simpa using ih
  rw [e, e] at h3
  exact ⟨h3, h4⟩

theorem Lexed.keys (hl : NumberThenComma l) {m : Metadata} (h : ∀ t ∈ block (keyLines m), PrintOk t) {s : Str} {ts : List Token} (hs : EolSep s)
    (hr : Lexed l s ts) :
    Lexed l (Display.keysValues m ++ s) (block (keyLines m) ++ ts) ∧ EolSep (Display.keysValues m ++ s) := by
  have := Lexed.lines (f := Display.keyValue) (g := keyValueTokens) m.keyValues
    (fun x hx s ts hs hr => Lexed.keyValue hl (fun t ht => h t (by
      simp only [block, keyLines, List.mem_flatMap, List.mem_map]
      exact ⟨_, ⟨x, hx, rfl⟩, by simp [ht]⟩)) hs.line.sep hr)
    (fun x hx => ⟨_, rfl, by simp⟩) hs hr
  unfold Display.keysValues
  rw [format_eq]
  simpa only [block, keyLines, List.flatMap_map] using this

omit [Categories] in
theorem block_append (a b : List (List Token)) : block (a ++ b) = block a ++ block b := by simp [block]

theorem Lexed.tagLines {m : Metadata} (h : ∀ t ∈ block (tagLines m), PrintOk t) {s : Str} {ts : List Token} (hs : EolSep s)
    (hr : Lexed l s ts) :
    Lexed l (Display.tagsLinksOnSeparateLines m ++ s) (block (Lima.tagLines m) ++ ts) ∧
      EolSep (Display.tagsLinksOnSeparateLines m ++ s) := by
  obtain ⟨h1, h2⟩ := Lexed.lines (f := fun t : Spanned Str => Display.link t.item) (g := fun t => [.link t.item]) m.links
    (fun x hx s ts hs hr => ⟨Lexed.link (h (.link x.item) (by
      simp only [Lima.tagLines, block_append, List.mem_append]
      refine .inr ?_
      simp only [block, List.mem_flatMap, List.mem_map]
      exact ⟨_, ⟨x, hx, rfl⟩, by simp⟩)).lex hs.line.sep hr, Solid.mk (by decide)⟩) (fun x _ => ⟨_, rfl, by simp⟩) hs hr
  obtain ⟨h3, h4⟩ := Lexed.lines (f := fun t : Spanned Str => Display.tag t.item) (g := fun t => [.tag t.item]) m.tags
    (fun x hx s ts hs hr => ⟨Lexed.tag (h (.tag x.item) (by
      simp only [Lima.tagLines, block_append, List.mem_append]
      refine .inl ?_
      simp only [block, List.mem_flatMap, List.mem_map]
      exact ⟨_, ⟨x, hx, rfl⟩, by simp⟩)).lex hs.line.sep hr, Solid.mk (by decide)⟩) (fun x _ => ⟨_, rfl, by simp⟩) h2 h1
  unfold Display.tagsLinksOnSeparateLines
  rw [format_eq, format_eq]
  simp only [Lima.tagLines, block_append, List.append_assoc]
  simp only [block, List.flatMap_map]
  exact ⟨h3, h4⟩

theorem Lexed.metadata (hl : NumberThenComma l) {m : Metadata} (h : ∀ t ∈ block (Lima.tagLines m ++ keyLines m), PrintOk t) {s : Str}
    {ts : List Token} (hs : EolSep s) (hr : Lexed l s ts) :
    Lexed l (Display.metadata m ++ s) (block (Lima.tagLines m ++ keyLines m) ++ ts) ∧ EolSep (Display.metadata m ++ s) := by
  rw [block_append] at h ⊢
  obtain ⟨h1, h2⟩ := Lexed.keys hl (m := m) (fun t ht => h t (by simp [ht])) hs hr
  obtain ⟨h3, h4⟩ := Lexed.tagLines (m := m) (fun t ht => h t (by simp [ht])) h2 h1
  have e : Display.metadata m ++ s = Display.tagsLinksOnSeparateLines m ++ (Display.keysValues m ++ s) := by
    unfold Display.metadata Display.tagsLinksOnSeparateLines
    simp only [List.append_assoc]
  rw [e, List.append_assoc]
  exact ⟨h3, h4⟩

/-! ### Postings -/

/-- At most one word, after a space. -/
theorem Lexed.option {α : Type} {f : α → Str} {g : α → List Token} (x : Option α)
    (h : ∀ y, x = some y → ∀ s ts, LineSep s → Lexed l s ts → Lexed l (f y ++ s) (g y ++ ts) ∧ Solid (f y)) {s : Str} {ts : List Token}
    (hs : LineSep s) (hr : Lexed l s ts) :
    Lexed l (Display.simpleFormat f (some (str " ")) x ++ s) (x.toList.flatMap g ++ ts) ∧
      LineSep (Display.simpleFormat f (some (str " ")) x ++ s) := by
  rw [simpleFormat_eq]
  exact Lexed.words x.toList (fun y hy => h y (by simpa using hy)) hs hr

theorem Lexed.option1 {α : Type} {f : α → Str} {g : α → Token} (x : Option α)
    (h : ∀ y, x = some y → ∀ s ts, LineSep s → Lexed l s ts → Lexed l (f y ++ s) (g y :: ts) ∧ Solid (f y)) {s : Str} {ts : List Token}
    (hs : LineSep s) (hr : Lexed l s ts) :
    Lexed l (Display.simpleFormat f (some (str " ")) x ++ s) (x.toList.map g ++ ts) ∧
      LineSep (Display.simpleFormat f (some (str " ")) x ++ s) := by
  have := Lexed.option (g := fun y => [g y]) x (fun y hy s ts => h y hy s ts) hs hr
  cases x <;> exact this

omit [Categories] in
theorem flag_ok {f : Flag} (h : ∀ c, f = .letter c → isAsciiUpper c = true) (g : Flag) (e : g = f) :
    ∀ c, g = .letter c → isAsciiUpper c = true := e ▸ h

theorem printOk_flag {f : Flag} (h : PrintOk (flagToken f)) : ∀ c, f = .letter c → isAsciiUpper c = true := by
  rintro c rfl
  exact h.lex

theorem Lexed.posting (hl : NumberThenComma l) {p : Posting} (hp : ∀ x, p.priceAnnotation = some x → NotTotal x.item)
    (h : ∀ t ∈ postingTokens p, PrintOk t) {s : Str} {ts : List Token} (hs : EolSep s) (hr : Lexed l s ts) :
    Lexed l (Display.posting p ++ s) (postingTokens p ++ ts) ∧ Solid (Display.posting p) := by
  unfold postingTokens postingLineTokens at h ⊢
  have hacc : Matches Re.account p.account.item.name := (h (.account p.account.item.name) (by simp)).lex
  obtain ⟨h1, h2⟩ := Lexed.metadata hl (m := p.metadata.item) (fun t ht => h t (by simp [ht])) hs hr
  have h3 : Lexed l (Display.simpleFormat (fun x => Display.priceSpec x.item) (some (str " @ ")) p.priceAnnotation ++
      (Display.metadata p.metadata.item ++ s))
      (p.priceAnnotation.toList.flatMap (fun x => priceTokens x.item) ++ (block (Lima.tagLines p.metadata.item ++ keyLines p.metadata.item) ++ ts)) ∧
      LineSep (Display.simpleFormat (fun x => Display.priceSpec x.item) (some (str " @ ")) p.priceAnnotation ++
      (Display.metadata p.metadata.item ++ s)) := by
    rw [simpleFormat_eq]
    cases hx : p.priceAnnotation with
    | none => exact ⟨h1, h2.line⟩
    | some x =>
      have := Lexed.price hl (hp x hx) (fun t ht => h t (by simp [hx, ht])) h2.line h2.noBlank h1
      simp only [Option.toList_some, List.flatMap_cons, List.flatMap_nil, List.append_nil]
      exact ⟨this, .inr (.inl rfl)⟩
  obtain ⟨h3, h4⟩ := h3
  obtain ⟨h5, h6⟩ := Lexed.option (f := fun c : Spanned CostSpec => Display.costSpec c.item) (g := fun c => costTokens c.item) p.costSpec
    (fun c hc s ts hs hr => ⟨Lexed.costSpec hl (fun t ht => h t (by simp [hc, ht])) hs hr,
      by rw [costSpec_text]; exact Solid.mk (by decide)⟩) h4 h3
  obtain ⟨h7, h8⟩ := Lexed.option1 (f := fun c : Spanned Str => c.item) (g := fun c => .currency c.item) p.currency
    (fun c hc s ts hs hr => by
      have hc := (h (.currency c.item) (by simp [hc])).lex
      exact ⟨Lexed.currency hc (.inl hs.sep) hr, solid_currency hc.1⟩) h6 h5
  obtain ⟨h9, h10⟩ := Lexed.option (f := fun e : Spanned ExprValue => Display.value e.item) (g := fun e => exprTokens e.item.expr) p.amount
    (fun c hc s ts hs hr => by
      have hc : ∀ t ∈ exprTokens c.item.expr, PrintOk t := (fun t ht => h t (by simp [hc, ht]))
      exact ⟨Lexed.value hl hc hs.sep hr, solid_value hc⟩) h8 h7
  have h11 := Lexed.account hacc h10.sep h9
  have e1 : Display.posting p ++ s = Display.simpleFormat (fun f => Display.flag f.item) none p.flag ++
      ((if p.flag.isSome then str " " else []) ++ (p.account.item.name ++ (Display.simpleFormat (fun e => Display.value e.item) (some (str " ")) p.amount ++
      (Display.simpleFormat (fun c => c.item) (some (str " ")) p.currency ++
      (Display.simpleFormat (fun c => Display.costSpec c.item) (some (str " ")) p.costSpec ++
      (Display.simpleFormat (fun x => Display.priceSpec x.item) (some (str " @ ")) p.priceAnnotation ++
        (Display.metadata p.metadata.item ++ s))))))) := by
    unfold Display.posting Display.account
    simp only [List.append_assoc]
  cases hf : p.flag with
  | none =>
    refine ⟨?_, ?_⟩
    · rw [e1, hf]
      simpa [Display.simpleFormat, Display.format] using h11
    · unfold Display.posting
      rw [hf]
      simp only [Display.simpleFormat, Display.format, Option.toList_none, List.nil_append, Option.isSome_none, Bool.false_eq_true,
        if_false, Display.account]
      simp only [List.append_assoc]
      exact (solid_account hacc).append
  | some f =>
    have hfl := printOk_flag (h (flagToken f.item) (by simp [hf]))
    have h12 := Lexed.flag hfl .space (Lexed.space (solid_account hacc).noBlank h11)
    refine ⟨?_, ?_⟩
    · rw [e1, hf]
      have : str " " = [' '] := rfl
      simpa [Display.simpleFormat, Display.format, this] using h12
    · unfold Display.posting
      rw [hf]
      have : Display.simpleFormat (fun f : Spanned Flag => Display.flag f.item) none (some f) = Display.flag f.item := by
        simp [Display.simpleFormat, Display.format]
      rw [this]
      simp only [List.append_assoc]
      exact (solid_flag f.item).append

/-! ### Directives -/

/-- A directive none of whose printed parts is read back differently. -/
def NoTotals (d : Directive) : Prop :=
  (∀ t, d.variant = .transaction t → ∀ p ∈ t.postings, ∀ x, p.item.priceAnnotation = some x → NotTotal x.item) ∧
  (∀ a t, d.variant = .balance a t → t.item.tolerance = none)

theorem Lexed.emptyString (b : Bool) {s : Str} {ts : List Token} (hs : LineSep s) (hr : Lexed l s ts) :
    Lexed l ((if b = true then str " \"\"" else []) ++ s) ((if b = true then [.stringLiteral []] else []) ++ ts) ∧
      LineSep ((if b = true then str " \"\"" else []) ++ s) := by
  cases b with
  | false => exact ⟨hr, hs⟩
  | true =>
    refine ⟨Lexed.space ?_ (Lexed.string (x := []) (fun c hc => by cases hc) hr), .inr (.inl rfl)⟩
    intro c hc; injection hc with hc; subst hc; decide

/-- Currencies with commas in between. -/
theorem Lexed.currencies (cs : List (Spanned Str)) (hcs : ∀ x ∈ cs, Matches Re.currency x.item ∧ ∀ t, (t, x.item) ∉ literals)
    {s : Str} {ts : List Token} (hs : LineSep s) (hr : Lexed l s ts) :
    Lexed l (Display.format (fun c : Spanned Str => c.item) (str ",") (some (str " ")) cs ++ s)
      (commaTokens (fun c : Spanned Str => [.currency c.item]) cs ++ ts) ∧
    LineSep (Display.format (fun c : Spanned Str => c.item) (str ",") (some (str " ")) cs ++ s) := by
  have rest : ∀ xs : List (Spanned Str), (∀ x ∈ xs, Matches Re.currency x.item ∧ ∀ t, (t, x.item) ∉ literals) →
      Lexed l (xs.flatMap (fun x => str "," ++ x.item) ++ s) (xs.flatMap (fun x => [.comma, .currency x.item]) ++ ts) ∧
      (Sep (xs.flatMap (fun x => str "," ++ x.item) ++ s) ∨ (xs.flatMap (fun x => str "," ++ x.item) ++ s).head? = some ',') := by
    intro xs hxs
    induction xs with
    | nil => exact ⟨hr, .inl hs.sep⟩
    | cons x xs ih =>
      obtain ⟨i1, i2⟩ := ih (fun x hx => hxs x (by simp [hx]))
      simp only [List.flatMap_cons, List.append_assoc]
      refine ⟨Lexed.solo (t := .comma) (x := ',') (by decide) (by tauto) (fun e => absurd e (by decide))
        (Lexed.currency (hxs x (by simp)) i2 i1), .inr rfl⟩
  cases cs with
  | nil => exact ⟨hr, hs⟩
  | cons x xs =>
    obtain ⟨i1, i2⟩ := rest xs (fun x hx => hcs x (by simp [hx]))
    have := Lexed.space (solid_currency (hcs x (by simp)).1).noBlank (Lexed.currency (hcs x (by simp)) i2 i1)
    simp only [Display.format, commaTokens, List.append_assoc]
    exact ⟨this, .inr (.inl rfl)⟩

theorem Lexed.directive (hl : NumberThenComma l) {d : Directive} (hd : NoTotals d)
    (h : ∀ t ∈ directiveTokens d, PrintOk t) {s : Str} {ts : List Token} (hs : EolSep s) (hr : Lexed l s ts) :
    Lexed l (Display.directive d ++ s) (directiveTokens d ++ ts) ∧ Solid (Display.directive d) := by
  -- The parts which are common to directives.
  have hdate : WfDate d.date.item := by
    have : Token.date d.date.item ∈ directiveTokens d := by
      unfold directiveTokens; split <;> simp
    exact (h _ this).lex
  have keyword : ∀ {t : Token} {w : Str} {s : Str} {ts : List Token}, (t, w) ∈ literals →
      (w ≠ str "}" ∧ w ≠ str "}}" ∧ w ≠ str ":") → Solid w → NoBlank s → Lexed l s ts →
      Lexed l (Display.date d.date.item ++ (' ' :: (w ++ (' ' :: s)))) (.date d.date.item :: t :: ts) := by
    intro t w s ts h1 h2 h3 h4 h5
    exact Lexed.date hdate .space (Lexed.space h3.noBlank (Lexed.lit h1 h2 .space (Lexed.space h4 h5)))
  have tail : ∀ {b : List Token}, directiveTokens d = .date d.date.item :: b ++ inlineTokens d.metadata.item ++ block (keyLines d.metadata.item) →
      Lexed l (Display.tagsLinksInline d.metadata.item ++ (Display.keysValues d.metadata.item ++ s))
        (inlineTokens d.metadata.item ++ (block (keyLines d.metadata.item) ++ ts)) ∧
      LineSep (Display.tagsLinksInline d.metadata.item ++ (Display.keysValues d.metadata.item ++ s)) := by
    intro b e
    rw [e] at h
    obtain ⟨h1, h2⟩ := Lexed.keys hl (m := d.metadata.item) (fun t ht => h t (by simp [ht])) hs hr
    exact Lexed.inline (m := d.metadata.item) (fun t ht => h t (by simp [ht])) h2.line h1
  refine ⟨?_, ?_⟩
  swap
  · unfold Display.directive
    split
    · unfold Display.transaction
      simp only [List.append_assoc]
      exact (solid_date _).append
    · simp only [List.append_assoc]
      exact (solid_date _).append
    · simp only [List.append_assoc]
      exact (solid_date _).append
  have lit : ∀ {t : Token} {w : Str}, (t, w) ∈ literals → t = .price ∨ t = .balance ∨ t = .open ∨ t = .close ∨ t = .commodity ∨
      t = .pad ∨ t = .document ∨ t = .note ∨ t = .event ∨ t = .query ∨ t = .custom → (w ≠ str "}" ∧ w ≠ str "}}" ∧ w ≠ str ":") ∧
      ∃ c x, w = c :: x ∧ c ≠ ' ' ∧ c ≠ '\t' ∧ c ≠ '\n' := by
    have hall : ∀ p ∈ literals, p.1 = .price ∨ p.1 = .balance ∨ p.1 = .open ∨ p.1 = .close ∨ p.1 = .commodity ∨
      p.1 = .pad ∨ p.1 = .document ∨ p.1 = .note ∨ p.1 = .event ∨ p.1 = .query ∨ p.1 = .custom →
      (p.2 ≠ str "}" ∧ p.2 ≠ str "}}" ∧ p.2 ≠ str ":") ∧ (∃ c ∈ p.2.head?, c ≠ ' ' ∧ c ≠ '\t' ∧ c ≠ '\n') := by decide +kernel
    intro t w h1 h2
    obtain ⟨h3, c, h4, h5⟩ := hall _ h1 h2
    refine ⟨h3, ?_⟩
    cases w with
    | nil => cases h4
    | cons a w => injection h4 with h4; subst h4; exact ⟨a, w, rfl, h5⟩
  have start : ∀ {t : Token} {w : Str} {s : Str} {ts : List Token}, (t, w) ∈ literals → t = .price ∨ t = .balance ∨ t = .open ∨ t = .close ∨
      t = .commodity ∨ t = .pad ∨ t = .document ∨ t = .note ∨ t = .event ∨ t = .query ∨ t = .custom → NoBlank s → Lexed l s ts →
      Lexed l (Display.date d.date.item ++ (' ' :: (w ++ (' ' :: s)))) (.date d.date.item :: t :: ts) :=
    fun h1 h2 h3 h4 => keyword h1 (lit h1 h2).1 (lit h1 h2).2 h3 h4
  have quote : ∀ {x s : Str}, NoBlank (Display.doubleQuoted x ++ s) := by intro x s c hc; injection hc with hc; subst hc; decide
  have es : str " " = [' '] := rfl
  cases hv : d.variant with
  | transaction t =>
    have etok : directiveTokens d = .date d.date.item :: flagToken t.flag.item :: (stringTokens t ++ inlineTokens d.metadata.item) ++
      block (keyLines d.metadata.item) ++ t.postings.flatMap (fun p => .eol :: .indent :: postingTokens p.item) := by
      unfold directiveTokens; rw [hv]
    rw [etok] at h ⊢
    obtain ⟨h1, h2⟩ := Lexed.lines (f := fun p : Spanned Posting => Display.posting p.item) (g := fun p => postingTokens p.item) t.postings
      (fun p hp s ts hs hr => Lexed.posting hl (hd.1 t hv p hp) (fun t ht => h t (by
        simp only [List.mem_append, List.mem_flatMap]
        exact .inr ⟨p, hp, by simp [ht]⟩)) hs hr)
      (fun p hp => by
        unfold postingTokens postingLineTokens
        cases hf : p.item.flag with
        | none => exact ⟨_, rfl, by simp⟩
        | some f => exact ⟨flagToken f.item, rfl, by cases f.item <;> simp [flagToken]⟩) hs hr
    obtain ⟨h3, h4⟩ := Lexed.keys hl (m := d.metadata.item) (fun t ht => h t (by simp [ht])) h2 h1
    obtain ⟨h5, h6⟩ := Lexed.inline (m := d.metadata.item) (fun t ht => h t (by simp [ht])) h4.line h3
    obtain ⟨h7, h8⟩ := Lexed.emptyString (decide (t.payee.isSome ∧ t.narration.isNone)) h6 h5
    obtain ⟨h9, h10⟩ := Lexed.option1 (f := fun s : Spanned Str => Display.doubleQuoted s.item) (g := fun s => .stringLiteral s.item) t.narration
      (fun x hx s ts hs hr => ⟨Lexed.string (h (.stringLiteral x.item) (by simp [stringTokens, hx])).plain hr, Solid.mk (by decide)⟩) h8 h7
    obtain ⟨h11, h12⟩ := Lexed.option1 (f := fun s : Spanned Str => Display.doubleQuoted s.item) (g := fun s => .stringLiteral s.item) t.payee
      (fun x hx s ts hs hr => ⟨Lexed.string (h (.stringLiteral x.item) (by simp [stringTokens, hx])).plain hr, Solid.mk (by decide)⟩) h10 h9
    have h13 := Lexed.date hdate .space (Lexed.space (solid_flag t.flag.item).noBlank
      (Lexed.flag (printOk_flag (h (flagToken t.flag.item) (by simp))) h12.sep h11))
    have e1 : ∀ x : Option (Spanned Str), Display.format (fun s : Spanned Str => Display.doubleQuoted s.item) (str " ") (some (str " ")) x.toList =
        Display.simpleFormat (fun s : Spanned Str => Display.doubleQuoted s.item) (some (str " ")) x := by
      intro x; cases x <;> rfl
    unfold Display.directive
    rw [hv]
    simp only [Display.transaction, e1, stringTokens, List.append_assoc, List.cons_append, format_eq]
    simp only [decide_eq_true_eq] at h13
    simp only [es, List.cons_append, List.nil_append] at h13 ⊢
    exact h13
  | custom type values =>
    have etok : directiveTokens d = .date d.date.item :: .custom :: .stringLiteral type.item :: values.flatMap (fun v => metaValueTokens v.item) ++
      block (Lima.tagLines d.metadata.item ++ keyLines d.metadata.item) := by
      unfold directiveTokens; rw [hv]
    rw [etok] at h ⊢
    obtain ⟨h1, h2⟩ := Lexed.metadata hl (m := d.metadata.item) (fun t ht => h t (by simp [ht])) hs hr
    obtain ⟨h3, h4⟩ := Lexed.words (f := fun v : Spanned MetaValue => Display.metaValue v.item) (g := fun v => metaValueTokens v.item) values
      (fun v hv s ts hs hr => Lexed.metaValue hl (fun t ht => h t (by
        simp only [List.mem_append, List.mem_cons, List.mem_flatMap]
        exact .inl (.inr (.inr (.inr ⟨v, hv, ht⟩))))) hs.sep hr) h2.line h1
    have h5 := start (t := .custom) (w := str "custom") (by decide) (by tauto) quote
      (Lexed.string (x := type.item) (h (.stringLiteral type.item) (by simp)).plain h3)
    have e1 : Display.directive d ++ s = Display.date d.date.item ++ (' ' :: (str "custom" ++ (' ' :: (Display.doubleQuoted type.item ++
        (values.flatMap (fun v => str " " ++ Display.metaValue v.item) ++ (Display.metadata d.metadata.item ++ s)))))) := by
      unfold Display.directive
      rw [hv]
      simp only [format_eq, Display.doubleQuoted, Display.metadata, Display.tagsLinksOnSeparateLines, Display.space]
      simp only [List.append_assoc]
      rfl
    rw [e1]
    simpa only [List.append_assoc, List.cons_append] using h5
  | price c a =>
    have etok : directiveTokens d = .date d.date.item :: bodyTokens (.price c a) ++ inlineTokens d.metadata.item ++ block (keyLines d.metadata.item) := by
      unfold directiveTokens; rw [hv]
    obtain ⟨h1, h2⟩ := tail etok
    rw [etok] at h ⊢
    have ha : ∀ t ∈ amountTokens a.item, PrintOk t := fun t ht => h t (by simp [bodyTokens, ht])
    have hc := (h (.currency c.item) (by simp [bodyTokens])).lex
    have := start (t := .price) (w := str "price") (by decide) (by tauto) (solid_currency hc.1).noBlank
      (Lexed.currency hc (.inl .space) (Lexed.space (solid_amount ha).noBlank (Lexed.amount hl ha h2.sep h1)))
    have e1 : Display.directive d ++ s = Display.date d.date.item ++ (' ' :: (str "price" ++ (' ' :: (c.item ++ (' ' :: (Display.amount a.item ++
        (Display.tagsLinksInline d.metadata.item ++ (Display.keysValues d.metadata.item ++ s)))))))) := by
      unfold Display.directive Display.body
      rw [hv]
      simp only [List.append_assoc]
      rfl
    rw [e1]
    simpa only [List.append_assoc, List.cons_append, bodyTokens] using this
  | balance a t =>
    have etok : directiveTokens d = .date d.date.item :: bodyTokens (.balance a t) ++ inlineTokens d.metadata.item ++ block (keyLines d.metadata.item) := by
      unfold directiveTokens; rw [hv]
    obtain ⟨h1, h2⟩ := tail etok
    rw [etok] at h ⊢
    have ha : ∀ x ∈ amountTokens t.item.amount.item, PrintOk x := fun t ht => h t (by simp [bodyTokens, ht])
    have hc : Matches Re.account a.item.name := (h (.account a.item.name) (by simp [bodyTokens])).lex
    have := start (t := .balance) (w := str "balance") (by decide) (by tauto) (solid_account hc).noBlank
      (Lexed.account hc .space (Lexed.space (solid_amount ha).noBlank (Lexed.amount hl ha h2.sep h1)))
    have e1 : Display.directive d ++ s = Display.date d.date.item ++ (' ' :: (str "balance" ++ (' ' :: (a.item.name ++ (' ' ::
        (Display.amount t.item.amount.item ++
        (Display.tagsLinksInline d.metadata.item ++ (Display.keysValues d.metadata.item ++ s)))))))) := by
      unfold Display.directive Display.body Display.amountWithTolerance Display.account
      rw [hv]
      simp only [hd.2 a t hv, List.append_assoc]
      rfl
    rw [e1]
    simpa only [List.append_assoc, List.cons_append, bodyTokens] using this
  | «open» a cs b =>
    have etok : directiveTokens d = .date d.date.item :: bodyTokens (.open a cs b) ++ inlineTokens d.metadata.item ++ block (keyLines d.metadata.item) := by
      unfold directiveTokens; rw [hv]
    obtain ⟨h1, h2⟩ := tail etok
    rw [etok] at h ⊢
    have hc : Matches Re.account a.item.name := (h (.account a.item.name) (by simp [bodyTokens])).lex
    obtain ⟨h3, h4⟩ := Lexed.option1 (f := fun b : Spanned Booking => Display.doubleQuoted (Display.booking b.item))
      (g := fun b => .stringLiteral (Display.booking b.item)) b
      (fun x hx s ts hs hr => ⟨Lexed.string (by unfold Plain; cases x.item <;> decide) hr, Solid.mk (by decide)⟩) h2 h1
    have hcs : ∀ x ∈ cs, Matches Re.currency x.item ∧ ∀ t, (t, x.item) ∉ literals := by
      intro x hx
      refine (h (.currency x.item) ?_).lex
      simp only [bodyTokens, List.mem_append, List.mem_cons]
      refine .inl (.inl (.inr (.inr (.inr (.inl ?_)))))
      cases cs with
      | nil => cases hx
      | cons y ys =>
        simp only [commaTokens, List.mem_append, List.mem_flatMap, List.mem_cons]
        rcases List.mem_cons.mp hx with rfl | hx
        · exact .inl (.inl rfl)
        · exact .inr ⟨x, hx, .inr (.inl rfl)⟩
    have h5 := Lexed.currencies cs hcs h4 h3
    have := start (t := .open) (w := str "open") (by decide) (by tauto) (solid_account hc).noBlank
      (Lexed.account hc h5.2.sep h5.1)
    have e1 : Display.directive d ++ s = Display.date d.date.item ++ (' ' :: (str "open" ++ (' ' :: (a.item.name ++
        (Display.format (fun c : Spanned Str => c.item) (str ",") (some (str " ")) cs ++
        (Display.simpleFormat (fun b : Spanned Booking => Display.doubleQuoted (Display.booking b.item)) (some (str " ")) b ++
        (Display.tagsLinksInline d.metadata.item ++ (Display.keysValues d.metadata.item ++ s)))))))) := by
      unfold Display.directive Display.body Display.account
      rw [hv]
      simp only [List.append_assoc]
      cases b <;> rfl
    rw [e1]
    simpa only [List.append_assoc, List.cons_append, bodyTokens] using this
  | close a =>
    have etok : directiveTokens d = .date d.date.item :: bodyTokens (.close a) ++ inlineTokens d.metadata.item ++ block (keyLines d.metadata.item) := by
      unfold directiveTokens; rw [hv]
    obtain ⟨h1, h2⟩ := tail etok
    rw [etok] at h ⊢
    have hc : Matches Re.account a.item.name := (h (.account a.item.name) (by simp [bodyTokens])).lex
    have := start (t := .close) (w := str "close") (by decide) (by tauto) (solid_account hc).noBlank
      (Lexed.account hc h2.sep h1)
    have e1 : Display.directive d ++ s = Display.date d.date.item ++ (' ' :: (str "close" ++ (' ' :: (a.item.name ++
        (Display.tagsLinksInline d.metadata.item ++ (Display.keysValues d.metadata.item ++ s)))))) := by
      unfold Display.directive Display.body Display.account
      rw [hv]
      simp only [List.append_assoc]
      rfl
    rw [e1]
    simpa only [List.append_assoc, List.cons_append, List.nil_append, bodyTokens] using this
  | commodity c =>
    have etok : directiveTokens d = .date d.date.item :: bodyTokens (.commodity c) ++ inlineTokens d.metadata.item ++ block (keyLines d.metadata.item) := by
      unfold directiveTokens; rw [hv]
    obtain ⟨h1, h2⟩ := tail etok
    rw [etok] at h ⊢
    have hc := (h (.currency c.item) (by simp [bodyTokens])).lex
    have := start (t := .commodity) (w := str "commodity") (by decide) (by tauto) (solid_currency hc.1).noBlank
      (Lexed.currency hc (.inl h2.sep) h1)
    have e1 : Display.directive d ++ s = Display.date d.date.item ++ (' ' :: (str "commodity" ++ (' ' :: (c.item ++
        (Display.tagsLinksInline d.metadata.item ++ (Display.keysValues d.metadata.item ++ s)))))) := by
      unfold Display.directive Display.body
      rw [hv]
      simp only [List.append_assoc]
      rfl
    rw [e1]
    simpa only [List.append_assoc, List.cons_append, List.nil_append, bodyTokens] using this
  | pad a b =>
    have etok : directiveTokens d = .date d.date.item :: bodyTokens (.pad a b) ++ inlineTokens d.metadata.item ++ block (keyLines d.metadata.item) := by
      unfold directiveTokens; rw [hv]
    obtain ⟨h1, h2⟩ := tail etok
    rw [etok] at h ⊢
    have hc : Matches Re.account a.item.name := (h (.account a.item.name) (by simp [bodyTokens])).lex
    have hb : Matches Re.account b.item.name := (h (.account b.item.name) (by simp [bodyTokens])).lex
    have := start (t := .pad) (w := str "pad") (by decide) (by tauto) (solid_account hc).noBlank
      (Lexed.account hc .space (Lexed.space (solid_account hb).noBlank (Lexed.account hb h2.sep h1)))
    have e1 : Display.directive d ++ s = Display.date d.date.item ++ (' ' :: (str "pad" ++ (' ' :: (a.item.name ++ (' ' :: (b.item.name ++
        (Display.tagsLinksInline d.metadata.item ++ (Display.keysValues d.metadata.item ++ s)))))))) := by
      unfold Display.directive Display.body Display.account
      rw [hv]
      simp only [List.append_assoc]
      rfl
    rw [e1]
    simpa only [List.append_assoc, List.cons_append, List.nil_append, bodyTokens] using this
  | document a x =>
    have etok : directiveTokens d = .date d.date.item :: bodyTokens (.document a x) ++ inlineTokens d.metadata.item ++ block (keyLines d.metadata.item) := by
      unfold directiveTokens; rw [hv]
    obtain ⟨h1, h2⟩ := tail etok
    rw [etok] at h ⊢
    have hc : Matches Re.account a.item.name := (h (.account a.item.name) (by simp [bodyTokens])).lex
    have := start (t := .document) (w := str "document") (by decide) (by tauto) (solid_account hc).noBlank
      (Lexed.account hc .space (Lexed.space quote (Lexed.string (x := x.item) (h (.stringLiteral x.item) (by simp [bodyTokens])).plain h1)))
    have e1 : Display.directive d ++ s = Display.date d.date.item ++ (' ' :: (str "document" ++ (' ' :: (a.item.name ++ (' ' ::
        (Display.doubleQuoted x.item ++
        (Display.tagsLinksInline d.metadata.item ++ (Display.keysValues d.metadata.item ++ s)))))))) := by
      unfold Display.directive Display.body Display.account Display.doubleQuoted
      rw [hv]
      simp only [List.append_assoc]
      rfl
    rw [e1]
    simpa only [List.append_assoc, List.cons_append, List.nil_append, bodyTokens] using this
  | note a x =>
    have etok : directiveTokens d = .date d.date.item :: bodyTokens (.note a x) ++ inlineTokens d.metadata.item ++ block (keyLines d.metadata.item) := by
      unfold directiveTokens; rw [hv]
    obtain ⟨h1, h2⟩ := tail etok
    rw [etok] at h ⊢
    have hc : Matches Re.account a.item.name := (h (.account a.item.name) (by simp [bodyTokens])).lex
    have := start (t := .note) (w := str "note") (by decide) (by tauto) (solid_account hc).noBlank
      (Lexed.account hc .space (Lexed.space quote (Lexed.string (x := x.item) (h (.stringLiteral x.item) (by simp [bodyTokens])).plain h1)))
    have e1 : Display.directive d ++ s = Display.date d.date.item ++ (' ' :: (str "note" ++ (' ' :: (a.item.name ++ (' ' ::
        (Display.doubleQuoted x.item ++
        (Display.tagsLinksInline d.metadata.item ++ (Display.keysValues d.metadata.item ++ s)))))))) := by
      unfold Display.directive Display.body Display.account Display.doubleQuoted
      rw [hv]
      simp only [List.append_assoc]
      rfl
    rw [e1]
    simpa only [List.append_assoc, List.cons_append, List.nil_append, bodyTokens] using this
  | event x y =>
    have etok : directiveTokens d = .date d.date.item :: bodyTokens (.event x y) ++ inlineTokens d.metadata.item ++ block (keyLines d.metadata.item) := by
      unfold directiveTokens; rw [hv]
    obtain ⟨h1, h2⟩ := tail etok
    rw [etok] at h ⊢
    have := start (t := .event) (w := str "event") (by decide) (by tauto) quote
      (Lexed.string (x := x.item) (h (.stringLiteral x.item) (by simp [bodyTokens])).plain
        (Lexed.space quote (Lexed.string (x := y.item) (h (.stringLiteral y.item) (by simp [bodyTokens])).plain h1)))
    have e1 : Display.directive d ++ s = Display.date d.date.item ++ (' ' :: (str "event" ++ (' ' :: (Display.doubleQuoted x.item ++ (' ' ::
        (Display.doubleQuoted y.item ++
        (Display.tagsLinksInline d.metadata.item ++ (Display.keysValues d.metadata.item ++ s)))))))) := by
      unfold Display.directive Display.body Display.doubleQuoted
      rw [hv]
      simp only [List.append_assoc]
      rfl
    rw [e1]
    simpa only [List.append_assoc, List.cons_append, List.nil_append, bodyTokens] using this
  | query x y =>
    have etok : directiveTokens d = .date d.date.item :: bodyTokens (.query x y) ++ inlineTokens d.metadata.item ++ block (keyLines d.metadata.item) := by
      unfold directiveTokens; rw [hv]
    obtain ⟨h1, h2⟩ := tail etok
    rw [etok] at h ⊢
    have := start (t := .query) (w := str "query") (by decide) (by tauto) quote
      (Lexed.string (x := x.item) (h (.stringLiteral x.item) (by simp [bodyTokens])).plain
        (Lexed.space quote (Lexed.string (x := y.item) (h (.stringLiteral y.item) (by simp [bodyTokens])).plain h1)))
    have e1 : Display.directive d ++ s = Display.date d.date.item ++ (' ' :: (str "query" ++ (' ' :: (Display.doubleQuoted x.item ++ (' ' ::
        (Display.doubleQuoted y.item ++
        (Display.tagsLinksInline d.metadata.item ++ (Display.keysValues d.metadata.item ++ s)))))))) := by
      unfold Display.directive Display.body Display.doubleQuoted
      rw [hv]
      simp only [List.append_assoc]
      rfl
    rw [e1]
    simpa only [List.append_assoc, List.cons_append, List.nil_append, bodyTokens] using this

end

end Lima
