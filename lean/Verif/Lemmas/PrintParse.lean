import Verif.Lemmas.PrintTokens
import Verif.Lemmas.ExprGrammar
import Verif.Lemmas.Duplicates
import Verif.Lemmas.Names
import Verif.Spec.Display

/-! The tokens of printed directives are parsed as the directives. -/

namespace Lima
open Spec

/-! ### Splitting runs of tokens -/

theorem run_append {run : List Ranged} {as bs : List Token} (h : run.map (·.tok) = as ++ bs) :
    ∃ ra rb, run = ra ++ rb ∧ ra.map (·.tok) = as ∧ rb.map (·.tok) = bs := by
  obtain ⟨ra, rb, e, h1, h2⟩ := List.map_eq_append_iff.mp h
  exact ⟨ra, rb, e, h1, h2⟩

theorem run_cons {run : List Ranged} {t : Token} {bs : List Token} (h : run.map (·.tok) = t :: bs) :
    ∃ x rb, run = x :: rb ∧ x.tok = t ∧ rb.map (·.tok) = bs := by
  obtain ⟨x, rb, e, h1, h2⟩ := List.map_eq_cons_iff.mp h
  exact ⟨x, rb, e, h1, h2⟩

theorem run_nil {run : List Ranged} (h : run.map (·.tok) = []) : run = [] := List.map_eq_nil_iff.mp h

theorem word_of {x : Ranged} {t : Token} (h : x.tok = t) (r : List Ranged) : Word t (x :: r) r := ⟨x.start, x.stop, by rw [← h]⟩

theorem covers_of (cfg : ParseCfg) (run r : List Ranged) : ∃ span, Covers cfg (run ++ r) r span := by
  cases run with
  | nil => exact ⟨_, .inr ⟨rfl, rfl⟩⟩
  | cons x xs => exact ⟨_, .inl ⟨x, x :: xs, (x :: xs).getLast (by simp), rfl, rfl, List.getLast?_eq_some_getLast _, rfl⟩⟩

theorem at_of {α : Type} {cfg : ParseCfg} {p : Phrase α} {run r : List Ranged} {a : α} (h : p (run ++ r) r a) :
    ∃ x : Spanned α, At cfg p (run ++ r) r x ∧ x.item = a := by
  obtain ⟨span, hs⟩ := covers_of cfg run r
  exact ⟨⟨a, span⟩, ⟨h, hs⟩, rfl⟩

theorem at_of' {α : Type} {cfg : ParseCfg} {p : Phrase α} {same : α → Prop} {run r : List Ranged} (h : ∃ a, p (run ++ r) r a ∧ same a) :
    ∃ x : Spanned α, At cfg p (run ++ r) r x ∧ same x.item := by
  obtain ⟨a, h, hs⟩ := h
  obtain ⟨x, hx, rfl⟩ := at_of (cfg := cfg) h
  exact ⟨x, hx, hs⟩

theorem eol_suffix {k r : List Ranged} (h : EndOfLine k r) : ∃ run, k = run ++ r := by
  rcases h with ⟨a, b, rfl⟩ | ⟨rfl, rfl⟩
  · exact ⟨[_], rfl⟩
  · exact ⟨[], rfl⟩

/-! ### What may follow -/

/-- No operator follows. -/
def NoOp (r : List Ranged) : Prop :=
  ∀ x ∈ r.head?, x.tok ≠ .plus ∧ x.tok ≠ .minus ∧ x.tok ≠ .asterisk ∧ x.tok ≠ .slash

theorem NoOp.not_continues {r : List Ranged} (h : NoOp r) : ¬ Continues r := by
  rintro ⟨t, j, k, e, ht, ⟨a, b, rfl⟩, _⟩
  have := h _ rfl
  simp only at this
  tauto

theorem NoOp.cons {x : Ranged} {r : List Ranged} {t : Token} (h : x.tok = t) (ht : t ≠ .plus ∧ t ≠ .minus ∧ t ≠ .asterisk ∧ t ≠ .slash) :
    NoOp (x :: r) := by
  intro y hy
  injection hy with hy
  subst hy
  rw [h]; exact ht

theorem NoOp.eol {k r : List Ranged} (h : EndOfLine k r) : NoOp k := by
  rcases h with ⟨a, b, rfl⟩ | ⟨rfl, rfl⟩
  · exact NoOp.cons rfl (by simp)
  · intro x hx; cases hx

theorem not_currency_eol {k r : List Ranged} (h : EndOfLine k r) : ∀ j c, ¬ CurrencyP k j c := by
  rintro j c ⟨⟨a, b, e⟩, _⟩
  rcases h with ⟨a', b', rfl⟩ | ⟨rfl, rfl⟩ <;> cases e

/-! ### Well-formed values -/

section
variable [Unicode] [DecOps]

/-- The value is that of an expression somewhere. -/
def WfValue (v : ExprValue) : Prop := ∃ i r, ValueP i r v

omit [Unicode] in
theorem valueP_of {v : ExprValue} (h : WfValue v) {run r : List Ranged} (hrun : run.map (·.tok) = exprTokens v.expr) (hr : ¬ Continues r) :
    ValueP (run ++ r) r v := by
  obtain ⟨i, r0, ⟨h1, _⟩, h2⟩ := h
  exact ⟨⟨Grammar.sum_print h1 run r hrun, hr⟩, h2⟩

omit [Unicode] [DecOps] in
theorem currencyP_of {c : Str} (h : ValidCurrency c) {run r : List Ranged} (hrun : run.map (·.tok) = [.currency c]) :
    CurrencyP (run ++ r) r c := by
  obtain ⟨x, rb, rfl, h1, h2⟩ := run_cons hrun
  rw [run_nil h2]
  exact ⟨word_of h1 r, h⟩

omit [Unicode] [DecOps] in
theorem stringP_of {s : Str} {run r : List Ranged} (hrun : run.map (·.tok) = [.stringLiteral s]) : StringP (run ++ r) r s := by
  obtain ⟨x, rb, rfl, h1, h2⟩ := run_cons hrun
  rw [run_nil h2]
  exact word_of h1 r

omit [Unicode] [DecOps] in
theorem dateP_of {d : Date} {run r : List Ranged} (hrun : run.map (·.tok) = [.date d]) : DateP (run ++ r) r d := by
  obtain ⟨x, rb, rfl, h1, h2⟩ := run_cons hrun
  rw [run_nil h2]
  exact word_of h1 r

omit [DecOps] in
theorem tagP_of {t : Str} (h : ∀ c ∈ t, TagChar c) {run r : List Ranged} (hrun : run.map (·.tok) = [.tag t]) : TagP (run ++ r) r t := by
  obtain ⟨x, rb, rfl, h1, h2⟩ := run_cons hrun
  rw [run_nil h2]
  exact ⟨word_of h1 r, h⟩

omit [DecOps] in
theorem linkP_of {t : Str} (h : ∀ c ∈ t, TagChar c) {run r : List Ranged} (hrun : run.map (·.tok) = [.link t]) : LinkP (run ++ r) r t := by
  obtain ⟨x, rb, rfl, h1, h2⟩ := run_cons hrun
  rw [run_nil h2]
  exact ⟨word_of h1 r, h⟩

omit [Unicode] [DecOps] in
theorem flagP_of {f : Flag} {run r : List Ranged} (hrun : run.map (·.tok) = [flagToken f]) : FlagP (run ++ r) r f := by
  obtain ⟨x, rb, rfl, h1, h2⟩ := run_cons hrun
  rw [run_nil h2]
  have h3 := word_of h1 r
  cases f with
  | asterisk => exact .inr (.inl ⟨rfl, h3⟩)
  | hash => exact .inr (.inr ⟨rfl, h3⟩)
  | _ => exact .inl h3

/-- A name an account may have. -/
def NameOk (n : Str) : Prop :=
  ∃ root subs, n = joinColon (root :: subs) ∧ ValidAccountTypeName root ∧ ∀ sub ∈ subs, ValidAccountName sub

omit [DecOps] in
theorem root_takeWhile {root : Str} {subs : List Str} (h : ValidAccountTypeName root) :
    (joinColon (root :: subs)).takeWhile (fun c => decide (c ≠ ':')) = root := by
  have hc : ∀ c ∈ root, c ≠ ':' := by
    obtain ⟨a, rest, rfl, ha, hrest⟩ := h
    intro c hc e
    subst e
    rcases List.mem_cons.mp hc with e | hc
    · subst e; revert ha; simp only [Upper]; decide
    · rcases hrest _ hc with h | h
      · rcases h with h | h
        · rw [Unicode.alphabetic_ascii _ (by decide)] at h; revert h; decide
        · rw [Unicode.numeric_ascii _ (by decide)] at h; revert h; decide
      · revert h; decide
  cases subs with
  | nil =>
    simp only [joinColon]
    have := List.takeWhile_append_of_pos (p := fun c => decide (c ≠ ':')) (l₁ := root) (l₂ := []) (fun c hc' => by simpa using hc c hc')
    simpa using this
  | cons s ss =>
    simp only [joinColon]
    rw [List.takeWhile_append_of_pos (fun c hc' => by simpa using hc c hc')]
    simp

omit [DecOps] in
theorem accountP_of {o : ParserOptions} {a : Account} (h : NameOk a.name) (hk : KnowsAccount o a) {run r : List Ranged}
    (hrun : run.map (·.tok) = [.account a.name]) : AccountP o (run ++ r) r a := by
  obtain ⟨x, rb, rfl, h1, h2⟩ := run_cons hrun
  rw [run_nil h2]
  obtain ⟨root, subs, e, hr, hs⟩ := h
  refine ⟨word_of h1 r, root, subs, e, hr, hs, ?_⟩
  unfold KnowsAccount at hk
  rwa [e, root_takeWhile hr] at hk

/-! ### Amounts -/

def WfAmount (a : Amount) : Prop := WfValue a.number.item ∧ ValidCurrency a.currency.item

omit [Unicode] in
theorem amountP_of (cfg : ParseCfg) {a : Amount} (h : WfAmount a) {run r : List Ranged} (hrun : run.map (·.tok) = amountTokens a) :
    ∃ a', AmountP cfg (run ++ r) r a' ∧ SameAmount a a' := by
  obtain ⟨ra, rb, rfl, h1, h2⟩ := run_append hrun
  obtain ⟨x, rb', rfl, hx, h3⟩ := run_cons h2
  have hn : NoOp ((x :: rb') ++ r) := NoOp.cons hx (by simp)
  obtain ⟨n, hn1, hn2⟩ := at_of (cfg := cfg) (valueP_of h.1 h1 hn.not_continues)
  obtain ⟨c, hc1, hc2⟩ := at_of (cfg := cfg) (currencyP_of (r := r) h.2 h2)
  rw [List.append_assoc]
  exact ⟨⟨n, c⟩, .mk hn1 hc1, hn2.symm, hc2.symm⟩

def WfCompoundExpr : CompoundExprValue → Prop
  | .perUnit e => WfValue e
  | .total e => WfValue e
  | .perUnitAndTotal p t => WfValue p ∧ WfValue t

omit [Unicode] in
theorem compoundExprP_of {e : CompoundExprValue} (h : WfCompoundExpr e) {run r : List Ranged} (hrun : run.map (·.tok) = compoundExprTokens e)
    (hr : ¬ Continues r) : CompoundExprP (run ++ r) r e := by
  cases e with
  | perUnit e => exact .perUnit (valueP_of h hrun hr)
  | total e =>
    obtain ⟨x, rb, rfl, h1, h2⟩ := run_cons hrun
    exact .total (word_of h1 _) (valueP_of h h2 hr)
  | perUnitAndTotal p t =>
    obtain ⟨ra, rb, rfl, h1, h2⟩ := run_append hrun
    obtain ⟨x, rb', rfl, hx, h3⟩ := run_cons h2
    rw [List.append_assoc]
    exact .both (valueP_of h.1 h1 (NoOp.cons (r := rb' ++ r) hx (by simp)).not_continues) (word_of hx _) (valueP_of h.2 h3 hr)

def WfCompoundAmount : CompoundAmount → Prop
  | .bareCurrency c => ValidCurrency c
  | .bareAmount a => WfCompoundExpr a
  | .currencyAmount a c => WfCompoundExpr a ∧ ValidCurrency c

omit [Unicode] in
theorem compoundAmountP_of {a : CompoundAmount} (h : WfCompoundAmount a) {run r : List Ranged}
    (hrun : run.map (·.tok) = compoundAmountTokens a) (hr : ¬ Continues r) : CompoundAmountP (run ++ r) r a := by
  cases a with
  | bareCurrency c => exact .currency (currencyP_of h hrun)
  | bareAmount a => exact .amount (compoundExprP_of h hrun hr)
  | currencyAmount a c =>
    obtain ⟨ra, rb, rfl, h1, h2⟩ := run_append hrun
    obtain ⟨x, rb', rfl, hx, h3⟩ := run_cons h2
    rw [List.append_assoc]
    exact .amountCurrency (compoundExprP_of h.1 h1 (NoOp.cons (r := rb' ++ r) hx (by simp)).not_continues) (currencyP_of h.2 h2)

/-! ### Cost specifications -/

def WfCost (c : CostSpec) : Prop :=
  (∀ x, c.perUnit = some x → WfValue x.item) ∧ (∀ x, c.total = some x → WfValue x.item) ∧
    (∀ x, c.currency = some x → ValidCurrency x.item)

omit [Unicode] in
theorem costCompP_of {c : CostComp} (h : ∀ a, c = .amount a → WfCompoundAmount a) {run r : List Ranged}
    (hrun : run.map (·.tok) = costCompTokens c) (hr : ¬ Continues r) : CostCompP (run ++ r) r c := by
  cases c with
  | amount a => exact .amount (compoundAmountP_of (h a rfl) hrun hr)
  | date d => exact .date (dateP_of hrun)
  | label s => exact .label (stringP_of hrun)
  | merge =>
    obtain ⟨x, rb, rfl, h1, h2⟩ := run_cons hrun
    rw [run_nil h2]
    exact .merge (word_of h1 r)

omit [Unicode] in
theorem commaComps_of (cfg : ParseCfg) : ∀ (cs : List CostComp), (∀ c ∈ cs, ∀ a, c = .amount a → WfCompoundAmount a) → ∀ {run r : List Ranged},
    run.map (·.tok) = cs.flatMap (fun c => .comma :: costCompTokens c) → NoOp r →
    NoOp (run ++ r) ∧ ∃ xs, Many (CommaCostCompP cfg) (run ++ r) r xs ∧ xs.map (·.item) = cs
  | [], _, run, r, hrun, hr => by
    rw [run_nil hrun]
    exact ⟨hr, [], .nil, rfl⟩
  | c :: cs, h, run, r, hrun, hr => by
    obtain ⟨x, rb, rfl, hx, h1⟩ := run_cons hrun
    obtain ⟨ra, rb, rfl, h2, h3⟩ := run_append h1
    obtain ⟨h4, xs, h5, h6⟩ := commaComps_of cfg cs (fun c hc => h c (by simp [hc])) h3 hr
    obtain ⟨y, hy1, hy2⟩ := at_of (cfg := cfg) (costCompP_of (h c (by simp)) h2 h4.not_continues)
    refine ⟨NoOp.cons hx (by simp), y :: xs, ?_, by simp [hy2, h6]⟩
    have : x :: (ra ++ rb) ++ r = x :: (ra ++ (rb ++ r)) := by simp
    rw [this]
    exact .cons ⟨_, word_of hx _, hy1⟩ h5

omit [Unicode] in
theorem costComps_wf {c : CostSpec} (h : WfCost c) : ∀ x ∈ costComps c, ∀ a, x = .amount a → WfCompoundAmount a := by
  rintro x hx a rfl
  have : costAmount c = some a := by
    simp only [costComps, List.mem_append, List.mem_map] at hx
    rcases hx with ((⟨b, h1, h2⟩ | ⟨b, _, h2⟩) | ⟨b, _, h2⟩) | hx
    · injection h2 with h2; subst h2; simpa using h1
    · cases h2
    · cases h2
    · split at hx <;> simp at hx
  obtain ⟨p, t, x, d, s, m⟩ := c
  obtain ⟨h1, h2, h3⟩ := h
  cases p <;> cases t <;> cases x <;> simp only [costAmount, Option.some.injEq, reduceCtorEq] at this <;> subst this <;>
    simp only [WfCompoundAmount, WfCompoundExpr] <;> simp_all

omit [Unicode] [DecOps] in
/-- A cost specification which says what the components say. -/
theorem says_of (c : CostSpec) (xs : List (Spanned CostComp)) (h : xs.map (·.item) = costComps c) :
    ∃ c', Says c' (xs.flatMap costFacts) ∧ (∀ kind, timesSaid kind (xs.flatMap costFacts) ≤ 1) ∧ SameCost c c' := by
  unfold costComps at h
  obtain ⟨x1, xm, rfl, h1, hm⟩ := List.map_eq_append_iff.mp h
  obtain ⟨x2, xl, rfl, h2, hl⟩ := List.map_eq_append_iff.mp h1
  obtain ⟨xa, xd, rfl, ha, hd⟩ := List.map_eq_append_iff.mp h2
  have single : ∀ {α : Type} (f : α → CostComp) (o : Option α) (xs : List (Spanned CostComp)), xs.map (·.item) = o.toList.map f →
      (o = none ∧ xs = []) ∨ ∃ v sp, o = some v ∧ xs = [⟨f v, sp⟩] := by
    intro α f o xs h
    cases o with
    | none => exact .inl ⟨rfl, List.map_eq_nil_iff.mp h⟩
    | some v =>
      obtain ⟨y, ys, rfl, h1, h2⟩ := List.map_eq_cons_iff.mp h
      rw [List.map_eq_nil_iff.mp h2]
      exact .inr ⟨v, y.span, rfl, by rw [← h1]⟩
  have hm : (c.merge = false ∧ xm = []) ∨ ∃ sp, c.merge = true ∧ xm = [⟨.merge, sp⟩] := by
    cases hc : c.merge with
    | false => rw [hc] at hm; exact .inl ⟨rfl, List.map_eq_nil_iff.mp hm⟩
    | true =>
      rw [hc] at hm
      obtain ⟨y, ys, rfl, h1, h2⟩ := List.map_eq_cons_iff.mp hm
      rw [List.map_eq_nil_iff.mp h2]
      exact .inr ⟨y.span, rfl, by rw [← h1]⟩
  have hl := single (fun s : Spanned Str => .label s.item) c.label xl hl
  have hd := single (fun s : Spanned Date => .date s.item) c.date xd hd
  have ha := single .amount (costAmount c) xa ha
  clear single h h1 h2
  -- what the date, label and merge say
  have hfd : ∃ d' : Option (Spanned Date), c.date.map (·.item) = d'.map (·.item) ∧ xd.flatMap costFacts = d'.toList.map .date := by
    rcases hd with ⟨h1, h2⟩ | ⟨v, sp, h1, h2⟩
    · exact ⟨none, by rw [h1], by rw [h2]; rfl⟩
    · exact ⟨some ⟨v.item, sp⟩, by rw [h1]; rfl, by rw [h2]; rfl⟩
  have hfl : ∃ d' : Option (Spanned Str), c.label.map (·.item) = d'.map (·.item) ∧ xl.flatMap costFacts = d'.toList.map .label := by
    rcases hl with ⟨h1, h2⟩ | ⟨v, sp, h1, h2⟩
    · exact ⟨none, by rw [h1], by rw [h2]; rfl⟩
    · exact ⟨some ⟨v.item, sp⟩, by rw [h1]; rfl, by rw [h2]; rfl⟩
  have hfm : xm.flatMap costFacts = if c.merge = true then [.merge] else [] := by
    rcases hm with ⟨h1, h2⟩ | ⟨sp, h1, h2⟩
    · rw [h1, h2]; rfl
    · rw [h1, h2]; rfl
  have hfa : ∃ (p' t' : Option (Spanned ExprValue)) (x' : Option (Spanned Str)),
      c.perUnit.map (·.item) = p'.map (·.item) ∧ c.total.map (·.item) = t'.map (·.item) ∧ c.currency.map (·.item) = x'.map (·.item) ∧
      xa.flatMap costFacts = p'.toList.map .perUnit ++ t'.toList.map .total ++ x'.toList.map .currency := by
    obtain ⟨p, t, x, d, s, m⟩ := c
    rcases ha with ⟨h1, h2⟩ | ⟨v, sp, h1, h2⟩
    · refine ⟨none, none, none, ?_⟩
      rw [h2]
      cases p <;> cases t <;> cases x <;> simp [costAmount] at h1 ⊢
    · refine ⟨p.map (⟨·.item, sp⟩), t.map (⟨·.item, sp⟩), x.map (⟨·.item, sp⟩), ?_⟩
      rw [h2]
      cases p <;> cases t <;> cases x <;> simp only [costAmount, Option.some.injEq, reduceCtorEq] at h1 <;> subst h1 <;>
        simp [costFacts, costFacts.amountFacts]
  clear hm hl hd ha
  obtain ⟨d', hd1, hd2⟩ := hfd
  obtain ⟨l', hl1, hl2⟩ := hfl
  obtain ⟨p', t', x', hp1, ht1, hx1, ha2⟩ := hfa
  refine ⟨⟨p', t', x', d', l', c.merge⟩, ?_, ?_, hp1, ht1, hx1, hd1, hl1, rfl⟩
  all_goals simp only [List.flatMap_append, ha2, hd2, hl2, hfm]
  · refine ⟨?_, ?_, ?_, ?_, ?_, ?_⟩
    · intro v; cases c.merge <;> simp
    · intro v; cases c.merge <;> simp
    · intro v; cases c.merge <;> simp
    · intro v; cases c.merge <;> simp
    · intro v; cases c.merge <;> simp
    · cases c.merge <;> simp
  · intro kind
    cases kind <;> cases p' <;> cases t' <;> cases x' <;> cases d' <;> cases l' <;> cases c.merge <;>
      simp [timesSaid, CostFact.kind]

omit [Unicode] in
theorem costSpecP_of (cfg : ParseCfg) {c : CostSpec} (h : WfCost c) {run r : List Ranged} (hrun : run.map (·.tok) = costTokens c) :
    ∃ c', CostSpecP cfg (run ++ r) r c' ∧ SameCost c c' := by
  unfold costTokens at hrun
  obtain ⟨x, rb, rfl, hx, h1⟩ := run_cons hrun
  obtain ⟨ra, rb, rfl, h2, h3⟩ := run_append h1
  obtain ⟨y, rb', rfl, hy, h4⟩ := run_cons h3
  rw [run_nil h4]
  have e : x :: (ra ++ [y]) ++ r = x :: (ra ++ (y :: r)) := by simp
  rw [e]
  cases hc : costComps c with
  | nil =>
    rw [hc] at h2
    rw [run_nil h2]
    obtain ⟨c', h5, _, h6⟩ := says_of c [] (by rw [hc]; rfl)
    exact ⟨c', .empty (word_of hx _) (word_of hy _) h5, h6⟩
  | cons f fs =>
    rw [hc] at h2
    obtain ⟨rf, rfs, rfl, h5, h6⟩ := run_append h2
    have hwf := costComps_wf h
    rw [hc] at hwf
    obtain ⟨h7, xs, h8, h9⟩ := commaComps_of cfg fs (fun c hc => hwf c (by simp [hc])) h6 (NoOp.cons (r := r) hy (by simp))
    obtain ⟨z, hz1, hz2⟩ := at_of (cfg := cfg) (costCompP_of (hwf f (by simp)) h5 h7.not_continues)
    obtain ⟨c', h10, h11, h12⟩ := says_of c (z :: xs) (by rw [hc]; simp [hz2, h9])
    refine ⟨c', ?_, h12⟩
    rw [List.append_assoc]
    exact .comps (word_of hx _) hz1 h8 (word_of hy _) h10 h11

/-! ### Prices -/

def WfPrice : PriceSpec → Prop
  | .unspecified => True
  | .bareCurrency c => ValidCurrency c
  | .bareAmount (.perUnit e) => WfValue e
  | .bareAmount (.total _) => False
  | .currencyAmount (.perUnit e) c => WfValue e ∧ ValidCurrency c
  | .currencyAmount (.total _) _ => False

omit [Unicode] in
theorem priceP_of {p : PriceSpec} (h : WfPrice p) {run r : List Ranged} (hrun : run.map (·.tok) = priceTokens p) (hr : ¬ Continues r) :
    PriceP (run ++ r) r p := by
  cases p with
  | unspecified =>
    obtain ⟨x, rb, rfl, hx, h1⟩ := run_cons hrun
    rw [run_nil h1]
    exact .unspecified (.inl rfl) (word_of hx _)
  | bareCurrency c =>
    obtain ⟨x, rb, rfl, hx, h1⟩ := run_cons hrun
    exact .currency (.inl rfl) (word_of hx _) (currencyP_of h h1)
  | bareAmount a =>
    cases a with
    | total => exact h.elim
    | perUnit e =>
      obtain ⟨x, rb, rfl, hx, h1⟩ := run_cons hrun
      exact .perUnit (word_of hx _) (valueP_of h h1 hr)
  | currencyAmount a c =>
    cases a with
    | total => exact h.elim
    | perUnit e =>
      obtain ⟨x, rb, rfl, hx, h1⟩ := run_cons hrun
      obtain ⟨ra, rb, rfl, h2, h3⟩ := run_append h1
      obtain ⟨y, rb', rfl, hy, h4⟩ := run_cons h3
      have e : x :: (ra ++ y :: rb') ++ r = x :: (ra ++ (y :: rb' ++ r)) := by simp
      rw [e]
      exact .perUnitCurrency (word_of hx _) (valueP_of h.1 h2 (NoOp.cons (r := rb' ++ r) hy (by simp)).not_continues) (currencyP_of h.2 h3)

/-! ### Values -/

def WfSimple : SimpleValue → Prop
  | .currency c => ValidCurrency c
  | .account a => NameOk a.name
  | .tag t | .link t => ∀ c ∈ t, TagChar c
  | .expr e => WfValue e
  | _ => True

def WfMetaValue : MetaValue → Prop
  | .simple v => WfSimple v
  | .amount a => WfAmount a

theorem simpleValueP_of {o : ParserOptions} {v : SimpleValue} (h : WfSimple v) (hk : ∀ a, v = .account a → KnowsAccount o a)
    {run r : List Ranged} (hrun : run.map (·.tok) = simpleTokens v) (hr : ∀ e, v = .expr e → ¬ Continues r ∧ ∀ k c, ¬ CurrencyP r k c) :
    SimpleValueP o (run ++ r) r v := by
  cases v with
  | string s => exact .string (stringP_of hrun)
  | currency c => exact .currency (currencyP_of h hrun)
  | account a => exact .account (accountP_of h (hk a rfl) hrun)
  | tag t => exact .tag (tagP_of h hrun)
  | link t => exact .link (linkP_of h hrun)
  | date d => exact .date (dateP_of hrun)
  | bool b =>
    cases b
    · obtain ⟨x, rb, rfl, hx, h1⟩ := run_cons (t := .false_) (bs := []) hrun
      rw [run_nil h1]
      exact .bool (.inr ⟨rfl, word_of hx _⟩)
    · obtain ⟨x, rb, rfl, hx, h1⟩ := run_cons (t := .true_) (bs := []) hrun
      rw [run_nil h1]
      exact .bool (.inl ⟨rfl, word_of hx _⟩)
  | null =>
    obtain ⟨x, rb, rfl, hx, h1⟩ := run_cons hrun
    rw [run_nil h1]
    exact .null (word_of hx _)
  | expr e => exact .expr (valueP_of h hrun (hr e rfl).1) (hr e rfl).2

theorem metaValueP_of (cfg : ParseCfg) {o : ParserOptions} {v : MetaValue} (h : WfMetaValue v) (hk : ∀ a ∈ valueAccounts v, KnowsAccount o a)
    {run r : List Ranged} (hrun : run.map (·.tok) = metaValueTokens v)
    (hr : ∀ e, v = .simple (.expr e) → ¬ Continues r ∧ ∀ k c, ¬ CurrencyP r k c) :
    ∃ v', MetaValueP cfg o (run ++ r) r v' ∧ valueSaid v = valueSaid v' := by
  cases v with
  | simple v =>
    exact ⟨_, .simple (simpleValueP_of h (fun a e => hk a (by subst e; simp [valueAccounts])) hrun (fun e he => hr e (by rw [he]))), rfl⟩
  | amount a =>
    obtain ⟨a', h1, h2, h3⟩ := amountP_of cfg (r := r) h hrun
    exact ⟨.amount a', .amount h1, by simp [valueSaid, h2, h3]⟩

end

end Lima
