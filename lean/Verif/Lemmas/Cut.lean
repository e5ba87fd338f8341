import Verif.Lemmas.FirstLine
import Verif.Lemmas.FileRuns

/-! What a declaration means does not depend on what comes after it. -/

set_option linter.unusedSectionVars false

namespace Lima.Grammar

open Spec

/-! ### Expressions -/

/-- The phrase ends where it does whatever comes next. -/
def Free {α : Type} (i r : List Ranged) (a : α) (P : Phrase α) : Prop := ∃ run, i = run ++ r ∧ ∀ r', P (run ++ r') r' a

theorem free_word {t : Token} {i r : List Ranged} (h : Word t i r) : ∃ run, i = run ++ r ∧ ∀ r', Word t (run ++ r') r' := by
  obtain ⟨x, y, rfl⟩ := h
  exact ⟨[⟨t, x, y⟩], rfl, fun r' => ⟨x, y, rfl⟩⟩

mutual

theorem free_factor {i r : List Ranged} {e : Expr} : Factor i r e → Free i r e Factor
  | .number h => by
    obtain ⟨u, rfl, hu⟩ := free_word h
    exact ⟨u, rfl, fun r' => .number (hu r')⟩
  | .parens h1 h2 h3 => by
    obtain ⟨w, rfl, hw⟩ := free_word h3
    obtain ⟨v, rfl, hv⟩ := free_sum h2
    obtain ⟨u, rfl, hu⟩ := free_word h1
    refine ⟨u ++ (v ++ w), by simp, fun r' => ?_⟩
    rw [List.append_assoc, List.append_assoc]
    exact .parens (hu _) (hv _) (hw _)

theorem free_signed {i r : List Ranged} {e : Expr} : Signed i r e → Free i r e Signed
  | .unsigned h => by
    obtain ⟨u, rfl, hu⟩ := free_factor h
    exact ⟨u, rfl, fun r' => .unsigned (hu r')⟩
  | .plus h1 h2 => by
    obtain ⟨v, rfl, hv⟩ := free_factor h2
    obtain ⟨u, rfl, hu⟩ := free_word h1
    refine ⟨u ++ v, by simp, fun r' => ?_⟩
    rw [List.append_assoc]
    exact .plus (hu _) (hv _)
  | .minus h1 h2 => by
    obtain ⟨v, rfl, hv⟩ := free_factor h2
    obtain ⟨u, rfl, hu⟩ := free_word h1
    refine ⟨u ++ v, by simp, fun r' => ?_⟩
    rw [List.append_assoc]
    exact .minus (hu _) (hv _)

theorem free_product {i r : List Ranged} {e : Expr} : Product i r e → Free i r e Product
  | .single h => by
    obtain ⟨u, rfl, hu⟩ := free_signed h
    exact ⟨u, rfl, fun r' => .single (hu r')⟩
  | .times h1 h2 h3 => by
    obtain ⟨w, rfl, hw⟩ := free_signed h3
    obtain ⟨v, rfl, hv⟩ := free_word h2
    obtain ⟨u, rfl, hu⟩ := free_product h1
    refine ⟨u ++ (v ++ w), by simp, fun r' => ?_⟩
    rw [List.append_assoc, List.append_assoc]
    exact .times (hu _) (hv _) (hw _)
  | .over h1 h2 h3 => by
    obtain ⟨w, rfl, hw⟩ := free_signed h3
    obtain ⟨v, rfl, hv⟩ := free_word h2
    obtain ⟨u, rfl, hu⟩ := free_product h1
    refine ⟨u ++ (v ++ w), by simp, fun r' => ?_⟩
    rw [List.append_assoc, List.append_assoc]
    exact .over (hu _) (hv _) (hw _)

theorem free_sum {i r : List Ranged} {e : Expr} : SumExpr i r e → Free i r e SumExpr
  | .single h => by
    obtain ⟨u, rfl, hu⟩ := free_product h
    exact ⟨u, rfl, fun r' => .single (hu r')⟩
  | .plus h1 h2 h3 => by
    obtain ⟨w, rfl, hw⟩ := free_product h3
    obtain ⟨v, rfl, hv⟩ := free_word h2
    obtain ⟨u, rfl, hu⟩ := free_sum h1
    refine ⟨u ++ (v ++ w), by simp, fun r' => ?_⟩
    rw [List.append_assoc, List.append_assoc]
    exact .plus (hu _) (hv _) (hw _)
  | .minus h1 h2 h3 => by
    obtain ⟨w, rfl, hw⟩ := free_product h3
    obtain ⟨v, rfl, hv⟩ := free_word h2
    obtain ⟨u, rfl, hu⟩ := free_sum h1
    refine ⟨u ++ (v ++ w), by simp, fun r' => ?_⟩
    rw [List.append_assoc, List.append_assoc]
    exact .minus (hu _) (hv _) (hw _)

end

/-! ### Putting something else behind -/

/-- What is behind is put in the place of what was: `s'` of `s`. -/
structure Cut where
  s : List Ranged
  s' : List Ranged
  cfg : ParseCfg
  cfg' : ParseCfg
  source : cfg'.source = cfg.source
  path : cfg'.path = cfg.path
  decimal : cfg'.decimal = cfg.decimal
  empty : ∀ y, cfg.emptySpan (y ++ s) = cfg'.emptySpan (y ++ s')

namespace Cut

variable (c : Cut) {α β : Type} {o o' : ParserOptions} {i j r r' i' : List Ranged}

/-- The same tokens, and then what is behind. -/
def Sw0 (r r' : List Ranged) : Prop := ∃ y, r = y ++ c.s ∧ r' = y ++ c.s'

/-- The same tokens, one of which ends a line, and then what is behind. -/
def Sw (r r' : List Ranged) : Prop := ∃ y, r = y ++ c.s ∧ r' = y ++ c.s' ∧ ∃ e ∈ y, e.tok = .eol

variable {c}

theorem Sw.zero (h : c.Sw r r') : c.Sw0 r r' := let ⟨y, h1, h2, _⟩ := h; ⟨y, h1, h2⟩

theorem Sw.app (h : c.Sw r r') (x : List Ranged) : c.Sw (x ++ r) (x ++ r') := by
  obtain ⟨y, rfl, rfl, e, he, ht⟩ := h
  exact ⟨x ++ y, by simp, by simp, e, by simp [he], ht⟩

theorem Sw0.app (h : c.Sw0 r r') (x : List Ranged) : c.Sw0 (x ++ r) (x ++ r') := by
  obtain ⟨y, rfl, rfl⟩ := h
  exact ⟨x ++ y, by simp, by simp⟩

theorem Sw0.cancel (hi : c.Sw0 i i') (hr : c.Sw0 r r') {run : List Ranged} (h : i = run ++ r) : i' = run ++ r' := by
  obtain ⟨y, rfl, rfl⟩ := hi
  obtain ⟨z, rfl, rfl⟩ := hr
  rw [← List.append_assoc] at h
  rw [List.append_cancel_right h, List.append_assoc]

theorem Sw0.covers (hi : c.Sw0 i i') (hr : c.Sw0 r r') {span : Span} (h : Covers c.cfg i r span) : Covers c.cfg' i' r' span := by
  rcases h with ⟨first, run, last, h1, h2, h3, h4⟩ | ⟨h1, h2⟩
  · exact .inl ⟨first, run, last, hi.cancel hr h1, h2, h3, by rw [h4, c.source]⟩
  · refine .inr ⟨hi.cancel hr (run := []) h1, ?_⟩
    obtain ⟨y, rfl, rfl⟩ := hi
    rw [h2, c.empty]

theorem Sw.head (h : c.Sw r r') : r'.head? = r.head? := by
  obtain ⟨y, rfl, rfl, e, he, -⟩ := h
  cases y with
  | nil => cases he
  | cons a y => rfl

variable (c) in
/-- The phrase, in a line, is the same with something else behind. -/
def Loc (P P' : Phrase α) : Prop := ∀ ⦃i r : List Ranged⦄ ⦃a : α⦄, P i r a → ∀ r', c.Sw r r' → ∃ i', c.Sw i i' ∧ P' i' r' a

theorem word {t : Token} (h : Word t i r) (hr : c.Sw r r') : ∃ i', c.Sw i i' ∧ Word t i' r' := by
  obtain ⟨x, y, rfl⟩ := h
  exact ⟨⟨t, x, y⟩ :: r', hr.app [_], x, y, rfl⟩

theorem Loc.word {t : α → Token} : c.Loc (fun i r a => Word (t a) i r) (fun i r a => Word (t a) i r) := fun _ _ _ h _ hr =>
  Cut.word h hr

theorem Loc.at {P P' : Phrase α} (h : c.Loc P P') : c.Loc (At c.cfg P) (At c.cfg' P') := fun _ _ _ ha r' hr => by
  obtain ⟨i', hi, h1⟩ := h ha.1 r' hr
  exact ⟨i', hi, h1, hi.zero.covers hr.zero ha.2⟩

theorem Loc.maybe {P P' : Phrase α} (h : c.Loc P P') : c.Loc (Maybe P) (Maybe P') := by
  intro i r x hx r' hr
  cases x with
  | none => cases hx; exact ⟨r', hr, rfl⟩
  | some a => exact h (a := a) hx r' hr

theorem Loc.many {P P' : Phrase α} (h : c.Loc P P') : c.Loc (Many P) (Many P') := by
  intro i r x hx r' hr
  induction hx with
  | nil => exact ⟨r', hr, .nil⟩
  | cons h1 _ ih =>
    obtain ⟨j', hj, h2⟩ := ih hr
    obtain ⟨i', hi, h3⟩ := h h1 j' hj
    exact ⟨i', hi, .cons h3 h2⟩

theorem loc_free {P : Phrase α} (hP : ∀ {i r a}, P i r a → Free i r a P) : c.Loc P P := fun _ _ _ h r' hr => by
  obtain ⟨u, rfl, hu⟩ := hP h
  exact ⟨u ++ r', hr.app u, hu r'⟩

theorem Sw.not_continues (h : c.Sw r r') (hc : ¬ Continues r) : ¬ Continues r' := by
  rintro ⟨t, j, k, e, ht, ⟨x, y, rfl⟩, hs⟩
  obtain ⟨u, rfl, hu⟩ := free_signed hs
  obtain ⟨run, h1, h2⟩ := quiet_signed hs
  obtain rfl : u = run := List.append_cancel_right h1
  obtain ⟨z, h3, h4, f, hf, hft⟩ := h
  rw [← List.cons_append] at h4
  have : ∃ w, z = ⟨t, x, y⟩ :: u ++ w := by
    rcases List.append_eq_append_iff.mp h4 with ⟨w, h5, _⟩ | ⟨w, h5, _⟩
    · exact ⟨w, h5⟩
    · refine absurd hft ?_
      have hm : f ∈ (⟨t, x, y⟩ :: u : List Ranged) := by rw [h5]; exact List.mem_append_left _ hf
      rcases List.mem_cons.mp hm with rfl | hm
      · rcases ht with rfl | rfl | rfl | rfl <;> simp
      · exact (h2 f hm).1
  obtain ⟨w, rfl⟩ := this
  refine hc ⟨t, u ++ (w ++ c.s), w ++ c.s, e, ht, ⟨x, y, ?_⟩, hu _⟩
  rw [h3]
  simp

theorem Sw.not_currency (h : c.Sw r r') (hc : ∀ k x, ¬ CurrencyP r k x) : ∀ k x, ¬ CurrencyP r' k x := by
  rintro k x ⟨⟨a, b, rfl⟩, hx⟩
  obtain ⟨y, rfl, h2, e, he, -⟩ := h
  cases y with
  | nil => cases he
  | cons t y =>
    rw [List.cons_append, List.cons.injEq] at h2
    refine hc (y ++ c.s) x ⟨⟨a, b, ?_⟩, hx⟩
    rw [h2.1]
    rfl

/-! ### Phrases of a line -/

theorem date : c.Loc DateP DateP := fun _ _ _ h _ hr => Cut.word h hr

theorem number : c.Loc NumberP NumberP := fun _ _ _ h _ hr => Cut.word h hr

theorem bool : c.Loc BoolP BoolP := by
  rintro i r a (⟨ha, h⟩ | ⟨ha, h⟩) r' hr
  · obtain ⟨i', hi, h⟩ := Cut.word h hr
    exact ⟨i', hi, .inl ⟨ha, h⟩⟩
  · obtain ⟨i', hi, h⟩ := Cut.word h hr
    exact ⟨i', hi, .inr ⟨ha, h⟩⟩

theorem string : c.Loc StringP StringP := fun _ _ _ h _ hr => Cut.word h hr

theorem currency : c.Loc CurrencyP CurrencyP := fun _ _ _ h _ hr => by
  obtain ⟨i', hi, h'⟩ := Cut.word h.1 hr
  exact ⟨i', hi, h', h.2⟩

theorem flag : c.Loc FlagP FlagP := by
  rintro i r a (h | ⟨ha, h⟩ | ⟨ha, h⟩) r' hr
  · obtain ⟨i', hi, h⟩ := Cut.word h hr
    exact ⟨i', hi, .inl h⟩
  · obtain ⟨i', hi, h⟩ := Cut.word h hr
    exact ⟨i', hi, .inr (.inl ⟨ha, h⟩)⟩
  · obtain ⟨i', hi, h⟩ := Cut.word h hr
    exact ⟨i', hi, .inr (.inr ⟨ha, h⟩)⟩

theorem txn : c.Loc TxnP TxnP := by
  rintro i r a (⟨ha, h⟩ | h) r' hr
  · obtain ⟨i', hi, h⟩ := Cut.word h hr
    exact ⟨i', hi, .inl ⟨ha, h⟩⟩
  · obtain ⟨i', hi, h⟩ := flag h r' hr
    exact ⟨i', hi, .inr h⟩

theorem booking : c.Loc BookingP BookingP := by
  rintro i r a ⟨s, h, hs⟩ r' hr
  obtain ⟨i', hi, h⟩ := Cut.word h hr
  exact ⟨i', hi, s, h, hs⟩

section
variable [Unicode]

theorem tag : c.Loc TagP TagP := fun _ _ _ h _ hr => by
  obtain ⟨i', hi, h'⟩ := Cut.word h.1 hr
  exact ⟨i', hi, h', h.2⟩

theorem link : c.Loc LinkP LinkP := fun _ _ _ h _ hr => by
  obtain ⟨i', hi, h'⟩ := Cut.word h.1 hr
  exact ⟨i', hi, h', h.2⟩

theorem key : c.Loc KeyP KeyP := fun _ _ _ h _ hr => by
  obtain ⟨i', hi, h'⟩ := Cut.word h.1 hr
  exact ⟨i', hi, h', h.2⟩

theorem account : c.Loc (AccountP o) (AccountP o) := fun _ _ _ h _ hr => by
  obtain ⟨i', hi, h'⟩ := Cut.word h.1 hr
  exact ⟨i', hi, h', h.2⟩

end

section
variable [DecOps]

theorem value : c.Loc ValueP ValueP := fun _ _ _ h r' hr => by
  obtain ⟨⟨h1, h2⟩, h3⟩ := h
  obtain ⟨i', hi, h1⟩ := loc_free free_sum h1 r' hr
  exact ⟨i', hi, ⟨h1, hr.not_continues h2⟩, h3⟩

theorem amount : c.Loc (AmountP c.cfg) (AmountP c.cfg') := by
  rintro i r a ⟨h1, h2⟩ r' hr
  obtain ⟨j', hj, h2⟩ := currency.at h2 r' hr
  obtain ⟨i', hi, h1⟩ := value.at h1 j' hj
  exact ⟨i', hi, ⟨h1, h2⟩⟩

theorem tolerant : c.Loc (TolerantP c.cfg) (TolerantP c.cfg') := by
  intro i r a h r' hr
  cases h with
  | exact h =>
    obtain ⟨i', hi, h⟩ := amount.at h r' hr
    exact ⟨i', hi, .exact h⟩
  | tolerant h1 h2 h3 h4 h5 =>
    obtain ⟨l', hl, h4⟩ := currency.at h4 r' hr
    obtain ⟨k', hk, h3⟩ := number.at h3 l' hl
    obtain ⟨j', hj, h2⟩ := Cut.word h2 hk
    obtain ⟨i', hi, h1⟩ := value.at h1 j' hj
    exact ⟨i', hi, .tolerant h1 h2 h3 h4 (hi.zero.covers hr.zero h5)⟩

theorem compoundExpr : c.Loc CompoundExprP CompoundExprP := by
  intro i r a h r' hr
  cases h with
  | both h1 h2 h3 =>
    obtain ⟨k', hk, h3⟩ := value h3 r' hr
    obtain ⟨j', hj, h2⟩ := Cut.word h2 hk
    obtain ⟨i', hi, h1⟩ := value h1 j' hj
    exact ⟨i', hi, .both h1 h2 h3⟩
  | perUnitHash h1 h2 =>
    obtain ⟨j', hj, h2⟩ := Cut.word h2 hr
    obtain ⟨i', hi, h1⟩ := value h1 j' hj
    exact ⟨i', hi, .perUnitHash h1 h2⟩
  | perUnit h1 =>
    obtain ⟨i', hi, h1⟩ := value h1 r' hr
    exact ⟨i', hi, .perUnit h1⟩
  | total h1 h2 =>
    obtain ⟨j', hj, h2⟩ := value h2 r' hr
    obtain ⟨i', hi, h1⟩ := Cut.word h1 hj
    exact ⟨i', hi, .total h1 h2⟩

theorem compoundAmount : c.Loc CompoundAmountP CompoundAmountP := by
  intro i r a h r' hr
  cases h with
  | amountCurrency h1 h2 =>
    obtain ⟨j', hj, h2⟩ := currency h2 r' hr
    obtain ⟨i', hi, h1⟩ := compoundExpr h1 j' hj
    exact ⟨i', hi, .amountCurrency h1 h2⟩
  | amount h1 =>
    obtain ⟨i', hi, h1⟩ := compoundExpr h1 r' hr
    exact ⟨i', hi, .amount h1⟩
  | currency h1 =>
    obtain ⟨i', hi, h1⟩ := currency h1 r' hr
    exact ⟨i', hi, .currency h1⟩
  | hashCurrency h1 h2 =>
    obtain ⟨j', hj, h2⟩ := currency h2 r' hr
    obtain ⟨i', hi, h1⟩ := Cut.word h1 hj
    exact ⟨i', hi, .hashCurrency h1 h2⟩

theorem price : c.Loc PriceP PriceP := by
  intro i r a h r' hr
  cases h with
  | perUnit h1 h2 =>
    obtain ⟨j', hj, h2⟩ := value h2 r' hr
    obtain ⟨i', hi, h1⟩ := Cut.word h1 hj
    exact ⟨i', hi, .perUnit h1 h2⟩
  | total h1 h2 =>
    obtain ⟨j', hj, h2⟩ := value h2 r' hr
    obtain ⟨i', hi, h1⟩ := Cut.word h1 hj
    exact ⟨i', hi, .total h1 h2⟩
  | perUnitCurrency h1 h2 h3 =>
    obtain ⟨k', hk, h3⟩ := currency h3 r' hr
    obtain ⟨j', hj, h2⟩ := value h2 k' hk
    obtain ⟨i', hi, h1⟩ := Cut.word h1 hj
    exact ⟨i', hi, .perUnitCurrency h1 h2 h3⟩
  | totalCurrency h1 h2 h3 =>
    obtain ⟨k', hk, h3⟩ := currency h3 r' hr
    obtain ⟨j', hj, h2⟩ := value h2 k' hk
    obtain ⟨i', hi, h1⟩ := Cut.word h1 hj
    exact ⟨i', hi, .totalCurrency h1 h2 h3⟩
  | currency ht h1 h2 =>
    obtain ⟨j', hj, h2⟩ := currency h2 r' hr
    obtain ⟨i', hi, h1⟩ := Cut.word h1 hj
    exact ⟨i', hi, .currency ht h1 h2⟩
  | unspecified ht h1 =>
    obtain ⟨i', hi, h1⟩ := Cut.word h1 hr
    exact ⟨i', hi, .unspecified ht h1⟩

theorem costComp : c.Loc CostCompP CostCompP := by
  intro i r a h r' hr
  cases h with
  | amount h =>
    obtain ⟨i', hi, h⟩ := compoundAmount h r' hr
    exact ⟨i', hi, .amount h⟩
  | date h =>
    obtain ⟨i', hi, h⟩ := date h r' hr
    exact ⟨i', hi, .date h⟩
  | label h =>
    obtain ⟨i', hi, h⟩ := string h r' hr
    exact ⟨i', hi, .label h⟩
  | merge h =>
    obtain ⟨i', hi, h⟩ := Cut.word h hr
    exact ⟨i', hi, .merge h⟩

theorem commaCostComp : c.Loc (CommaCostCompP c.cfg) (CommaCostCompP c.cfg') := by
  rintro i r a ⟨j, h1, h2⟩ r' hr
  obtain ⟨j', hj, h2⟩ := costComp.at h2 r' hr
  obtain ⟨i', hi, h1⟩ := Cut.word h1 hj
  exact ⟨i', hi, j', h1, h2⟩

theorem costSpec : c.Loc (CostSpecP c.cfg) (CostSpecP c.cfg') := by
  intro i r a h r' hr
  cases h with
  | empty h1 h2 h3 =>
    obtain ⟨j', hj, h2⟩ := Cut.word h2 hr
    obtain ⟨i', hi, h1⟩ := Cut.word h1 hj
    exact ⟨i', hi, .empty h1 h2 h3⟩
  | comps h1 h2 h3 h4 h5 h6 =>
    obtain ⟨l', hl, h4⟩ := Cut.word h4 hr
    obtain ⟨k', hk, h3⟩ := commaCostComp.many h3 l' hl
    obtain ⟨j', hj, h2⟩ := costComp.at h2 k' hk
    obtain ⟨i', hi, h1⟩ := Cut.word h1 hj
    exact ⟨i', hi, .comps h1 h2 h3 h4 h5 h6⟩

end

section
variable [Unicode] [DecOps]

theorem simpleValue : c.Loc (SimpleValueP o) (SimpleValueP o) := by
  intro i r a h r' hr
  cases h with
  | string h => obtain ⟨i', hi, h⟩ := string h r' hr; exact ⟨i', hi, .string h⟩
  | currency h => obtain ⟨i', hi, h⟩ := currency h r' hr; exact ⟨i', hi, .currency h⟩
  | account h => obtain ⟨i', hi, h⟩ := account h r' hr; exact ⟨i', hi, .account h⟩
  | tag h => obtain ⟨i', hi, h⟩ := tag h r' hr; exact ⟨i', hi, .tag h⟩
  | link h => obtain ⟨i', hi, h⟩ := link h r' hr; exact ⟨i', hi, .link h⟩
  | date h => obtain ⟨i', hi, h⟩ := date h r' hr; exact ⟨i', hi, .date h⟩
  | bool h => obtain ⟨i', hi, h⟩ := bool h r' hr; exact ⟨i', hi, .bool h⟩
  | null h => obtain ⟨i', hi, h⟩ := Cut.word h hr; exact ⟨i', hi, .null h⟩
  | expr h h2 => obtain ⟨i', hi, h⟩ := value h r' hr; exact ⟨i', hi, .expr h (hr.not_currency h2)⟩

theorem metaValue : c.Loc (MetaValueP c.cfg o) (MetaValueP c.cfg' o) := by
  intro i r a h r' hr
  cases h with
  | simple h => obtain ⟨i', hi, h⟩ := simpleValue h r' hr; exact ⟨i', hi, .simple h⟩
  | amount h => obtain ⟨i', hi, h⟩ := amount h r' hr; exact ⟨i', hi, .amount h⟩

theorem keyValue : c.Loc (KeyValueP c.cfg o) (KeyValueP c.cfg' o) := by
  intro i r a h r' hr
  cases h with
  | value h1 h2 h3 =>
    obtain ⟨k', hk, h3⟩ := metaValue.at h3 r' hr
    obtain ⟨j', hj, h2⟩ := Cut.word h2 hk
    obtain ⟨i', hi, h1⟩ := key.at h1 j' hj
    exact ⟨i', hi, .value h1 h2 h3⟩
  | null h1 h2 h3 =>
    obtain ⟨j', hj, h2⟩ := Cut.word h2 hr
    obtain ⟨i', hi, h1⟩ := key.at h1 j' hj
    exact ⟨i', hi, .null h1 h2 (hr.zero.covers hr.zero h3)⟩

theorem tagOrLink : c.Loc (TagOrLinkP c.cfg) (TagOrLinkP c.cfg') := by
  intro i r a h r' hr
  cases h with
  | tag h => obtain ⟨i', hi, h⟩ := tag.at h r' hr; exact ⟨i', hi, .tag h⟩
  | link h => obtain ⟨i', hi, h⟩ := link.at h r' hr; exact ⟨i', hi, .link h⟩

theorem postingLine : c.Loc (PostingLineP c.cfg o) (PostingLineP c.cfg' o) := by
  rintro i r a ⟨h1, h2, h3, h4, h5, h6⟩ r' hr
  obtain ⟨n', hn, h6⟩ := price.at.maybe h6 r' hr
  obtain ⟨m', hm, h5⟩ := costSpec.at.maybe h5 n' hn
  obtain ⟨l', hl, h4⟩ := currency.at.maybe h4 m' hm
  obtain ⟨k', hk, h3⟩ := value.at.maybe h3 l' hl
  obtain ⟨j', hj, h2⟩ := account.at h2 k' hk
  obtain ⟨i', hi, h1⟩ := flag.at.maybe h1 j' hj
  exact ⟨i', hi, .mk h1 h2 h3 h4 h5 h6⟩

theorem payeeNarration : c.Loc (PayeeNarrationP c.cfg) (PayeeNarrationP c.cfg') := by
  intro i r a h r' hr
  cases h with
  | neither => exact ⟨r', hr, .neither⟩
  | narration h => obtain ⟨i', hi, h⟩ := string.at h r' hr; exact ⟨i', hi, .narration h⟩
  | both h1 h2 =>
    obtain ⟨j', hj, h2⟩ := string.at h2 r' hr
    obtain ⟨i', hi, h1⟩ := string.at h1 j' hj
    exact ⟨i', hi, .both h1 h2⟩

theorem commaCurrency : c.Loc (CommaCurrencyP c.cfg) (CommaCurrencyP c.cfg') := by
  rintro i r a ⟨j, h1, h2⟩ r' hr
  obtain ⟨j', hj, h2⟩ := currency.at h2 r' hr
  obtain ⟨i', hi, h1⟩ := Cut.word h1 hj
  exact ⟨i', hi, j', h1, h2⟩

theorem currencies : c.Loc (CurrenciesP c.cfg) (CurrenciesP c.cfg') := by
  intro i r a h r' hr
  cases h with
  | none => exact ⟨r', hr, .none⟩
  | some h1 h2 =>
    obtain ⟨j', hj, h2⟩ := commaCurrency.many h2 r' hr
    obtain ⟨i', hi, h1⟩ := currency.at h1 j' hj
    exact ⟨i', hi, .some h1 h2⟩

theorem body {t : Token} {v : DirectiveVariant} {es : List PErr} (h : BodyP c.cfg o t i r v es) (hr : c.Sw r r') :
    ∃ i', c.Sw i i' ∧ BodyP c.cfg' o t i' r' v es := by
  cases h with
  | price h1 h2 =>
    obtain ⟨j', hj, h2⟩ := amount.at h2 r' hr
    obtain ⟨i', hi, h1⟩ := currency.at h1 j' hj
    exact ⟨i', hi, .price h1 h2⟩
  | balance h1 h2 =>
    obtain ⟨j', hj, h2⟩ := tolerant.at h2 r' hr
    obtain ⟨i', hi, h1⟩ := account.at h1 j' hj
    exact ⟨i', hi, .balance h1 h2⟩
  | «open» h1 h2 h3 =>
    obtain ⟨k', hk, h3⟩ := booking.at.maybe h3 r' hr
    obtain ⟨j', hj, h2⟩ := currencies h2 k' hk
    obtain ⟨i', hi, h1⟩ := account.at h1 j' hj
    exact ⟨i', hi, .open h1 h2 h3⟩
  | close h1 => obtain ⟨i', hi, h1⟩ := account.at h1 r' hr; exact ⟨i', hi, .close h1⟩
  | commodity h1 => obtain ⟨i', hi, h1⟩ := currency.at h1 r' hr; exact ⟨i', hi, .commodity h1⟩
  | pad h1 h2 =>
    obtain ⟨j', hj, h2⟩ := account.at h2 r' hr
    obtain ⟨i', hi, h1⟩ := account.at h1 j' hj
    exact ⟨i', hi, .pad h1 h2⟩
  | document h1 h2 =>
    obtain ⟨j', hj, h2⟩ := string.at h2 r' hr
    obtain ⟨i', hi, h1⟩ := account.at h1 j' hj
    exact ⟨i', hi, .document h1 h2⟩
  | note h1 h2 =>
    obtain ⟨j', hj, h2⟩ := string.at h2 r' hr
    obtain ⟨i', hi, h1⟩ := account.at h1 j' hj
    exact ⟨i', hi, .note h1 h2⟩
  | event h1 h2 =>
    obtain ⟨j', hj, h2⟩ := string.at h2 r' hr
    obtain ⟨i', hi, h1⟩ := string.at h1 j' hj
    exact ⟨i', hi, .event h1 h2⟩
  | query h1 h2 =>
    obtain ⟨j', hj, h2⟩ := string.at h2 r' hr
    obtain ⟨i', hi, h1⟩ := string.at h1 j' hj
    exact ⟨i', hi, .query h1 h2⟩

theorem keyword {t : Token} {P P' : Phrase α} (h : c.Loc P P') : c.Loc (KeywordP t P) (KeywordP t P') := by
  rintro i r a ⟨j, h1, h2⟩ r' hr
  obtain ⟨j', hj, h2⟩ := h h2 r' hr
  obtain ⟨i', hi, h1⟩ := Cut.word h1 hj
  exact ⟨i', hi, j', h1, h2⟩

theorem keyColon : c.Loc KeyColonP KeyColonP := by
  rintro i r a ⟨j, h1, h2⟩ r' hr
  obtain ⟨j', hj, h2⟩ := Cut.word h2 hr
  obtain ⟨i', hi, h1⟩ := key h1 j' hj
  exact ⟨i', hi, j', h1, h2⟩

theorem optionP {name value : Spanned Str} {b : BOption} {es : List PErr} (h : OptionP c.cfg o name value b o' es) :
    OptionP c.cfg' o name value b o' es := by
  cases h with
  | unknown h => exact .unknown (by rw [c.decimal, c.path]; exact h)
  | badValue h => exact .badValue (by rw [c.decimal, c.path]; exact h)
  | accepted h h2 => exact .accepted (by rw [c.decimal, c.path]; exact h) h2
  | refused h h2 => exact .refused (by rw [c.decimal, c.path]; exact h) h2

theorem pragma {p : Pragma} {es : List PErr} (h : PragmaP c.cfg o i r p o' es) (hr : c.Sw r r') :
    ∃ i', c.Sw i i' ∧ PragmaP c.cfg' o i' r' p o' es := by
  cases h with
  | pushtag h => obtain ⟨i', hi, h⟩ := (keyword tag).at h r' hr; exact ⟨i', hi, .pushtag h⟩
  | poptag h => obtain ⟨i', hi, h⟩ := (keyword tag).at h r' hr; exact ⟨i', hi, .poptag h⟩
  | pushmeta h1 h2 =>
    obtain ⟨j', hj, h2⟩ := keyValue h2 r' hr
    obtain ⟨i', hi, h1⟩ := Cut.word h1 hj
    exact ⟨i', hi, .pushmeta h1 h2⟩
  | popmeta h => obtain ⟨i', hi, h⟩ := (keyword keyColon).at h r' hr; exact ⟨i', hi, .popmeta h⟩
  | «include» h1 h2 =>
    obtain ⟨j', hj, h2⟩ := string.at h2 r' hr
    obtain ⟨i', hi, h1⟩ := Cut.word h1 hj
    exact ⟨i', hi, .include h1 h2⟩
  | option h1 h2 h3 h4 =>
    obtain ⟨k', hk, h3⟩ := string.at h3 r' hr
    obtain ⟨j', hj, h2⟩ := string.at h2 k' hk
    obtain ⟨i', hi, h1⟩ := Cut.word h1 hj
    exact ⟨i', hi, .option h1 h2 h3 (optionP h4)⟩
  | plugin h1 h2 h3 =>
    obtain ⟨k', hk, h3⟩ := string.at.maybe h3 r' hr
    obtain ⟨j', hj, h2⟩ := string.at h2 k' hk
    obtain ⟨i', hi, h1⟩ := Cut.word h1 hj
    exact ⟨i', hi, .plugin h1 h2 h3⟩

end


end Cut

/-! ### Lines -/

/-- One line, and then lines which are indented. -/
inductive Lines : List Ranged → List Ranged → Prop
  | one {l r : List Ranged} {e : Ranged} : (∀ t ∈ l, t.tok ≠ .eol) → e.tok = .eol → Lines (l ++ e :: r) r
  | last {l : List Ranged} : (∀ t ∈ l, t.tok ≠ .eol) → l ≠ [] → Lines l []
  | cons {l m r : List Ranged} {e t : Ranged} : (∀ t ∈ l, t.tok ≠ .eol) → e.tok = .eol → t.tok = .indent →
      Lines (t :: m) r → Lines (l ++ e :: t :: m) r

/-- The tokens are those before, the last of which ends a line. -/
def Closed (i r : List Ranged) : Prop := ∃ run e, i = run ++ e :: r ∧ e.tok = .eol

section
variable {i j k r : List Ranged}

theorem Lines.suffix (h : Lines i r) : ∃ run, i = run ++ r ∧ run ≠ [] := by
  induction h with
  | @one l r e _ _ => exact ⟨l ++ [e], by simp, by simp⟩
  | @last l _ h => exact ⟨l, by simp, h⟩
  | @cons l m r e t _ _ _ _ ih =>
    obtain ⟨run, h, -⟩ := ih
    exact ⟨l ++ e :: run, by rw [h]; simp, by simp⟩

theorem Lines.closed (h : Lines i r) (hr : r ≠ []) : Closed i r := by
  induction h with
  | @one l r e _ he => exact ⟨l, e, rfl, he⟩
  | last _ _ => exact absurd rfl hr
  | @cons l m r e t _ _ _ _ ih =>
    obtain ⟨run, f, h, hf⟩ := ih hr
    exact ⟨l ++ e :: run, f, by rw [h]; simp, hf⟩

theorem Lines.append (h : Lines i j) {t : Ranged} {m : List Ranged} (hj : j = t :: m) (ht : t.tok = .indent) (h2 : Lines j r) :
    Lines i r := by
  induction h with
  | one hl he => subst hj; exact .cons hl he ht h2
  | last _ _ => cases hj
  | cons hl he ht' _ ih => exact .cons hl he ht' (ih hj h2)

/-- A cut between unindented lines is not inside. -/
theorem Lines.cut (h : Lines i r) {a b : List Ranged} {x : Ranged} (hi : i = a ++ x :: b) (hx : x.tok = .eol)
    (hb : ∀ t ∈ b.head?, t.tok ≠ .indent) : ∃ y, r = y ++ b ∧ (y = [] ∨ ∃ z e, y = z ++ [e] ∧ e.tok = .eol) := by
  induction h generalizing a with
  | @one l r e hl he =>
    rcases List.append_eq_append_iff.mp hi with ⟨w, h1, h2⟩ | ⟨w, h1, h2⟩
    · cases w with
      | nil => cases h2; exact ⟨[], rfl, .inl rfl⟩
      | cons f w =>
        rw [List.cons_append, List.cons.injEq] at h2
        exact ⟨w ++ [x], by rw [h2.2]; simp, .inr ⟨w, x, rfl, hx⟩⟩
    · cases w with
      | nil => cases h2; exact ⟨[], rfl, .inl rfl⟩
      | cons f w =>
        rw [List.cons_append, List.cons.injEq] at h2
        exact absurd hx (hl x (by rw [h1, h2.1]; simp))
  | @last l hl h0 => exact absurd hx (hl x (by rw [hi]; simp))
  | @cons l m r e t hl he ht _ ih =>
    rcases List.append_eq_append_iff.mp hi with ⟨w, h1, h2⟩ | ⟨w, h1, h2⟩
    · cases w with
      | nil =>
        cases h2
        exact absurd ht (hb t (by simp))
      | cons f w =>
        rw [List.cons_append, List.cons.injEq] at h2
        exact ih h2.2
    · cases w with
      | nil =>
        cases h2
        exact absurd ht (hb t (by simp))
      | cons f w =>
        rw [List.cons_append, List.cons.injEq] at h2
        exact absurd hx (hl x (by rw [h1, h2.1]; simp))

theorem Lines.of_line (h : SameLine i k) (hi : i ≠ k) (he : EndOfLine k r) : Lines i r := by
  obtain ⟨run, rfl, hr⟩ := h
  rcases he with ⟨x, y, rfl⟩ | ⟨rfl, rfl⟩
  · exact .one hr rfl
  · exact .last (by simpa using hr) (by simpa using hi)

theorem word_moves {t : Token} (h : Word t i j) : i ≠ j := by
  obtain ⟨x, y, rfl⟩ := h
  intro h
  exact absurd (congrArg List.length h) (by simp)

theorem SameLine.ne (h1 : SameLine i j) (h2 : SameLine j k) (h : i ≠ j) : i ≠ k := by
  obtain ⟨a, rfl, _⟩ := h1
  obtain ⟨b, rfl, _⟩ := h2
  intro he
  refine h ?_
  have := congrArg List.length he
  simp only [List.length_append] at this
  have : a = [] := List.eq_nil_of_length_eq_zero (by omega)
  rw [this]
  rfl

theorem closed_eol (he : EndOfLine k r) (h : SameLine i k) (hc : Closed i r) : Word .eol k r := by
  rcases he with he | ⟨rfl, rfl⟩
  · exact he
  · obtain ⟨run, rfl, hr⟩ := h
    obtain ⟨a, e, h1, h2⟩ := hc
    rw [List.append_nil] at h1
    exact absurd h2 (hr e (by rw [h1]; simp))

theorem Closed.tail (hc : Closed i r) {a b : List Ranged} (hi : i = a ++ j) (hj : j = b ++ r) (hb : b ≠ []) : Closed j r := by
  obtain ⟨run, e, h1, h2⟩ := hc
  obtain ⟨b', f, rfl⟩ : ∃ b' f, b = b' ++ [f] := ⟨b.dropLast, b.getLast hb, (List.dropLast_append_getLast hb).symm⟩
  subst hj
  rw [h1] at hi
  have : run ++ [e] = (a ++ b') ++ [f] := by
    refine List.append_cancel_right (as := _) (bs := r) ?_
    simpa using hi
  have := List.append_inj_right' this rfl
  cases this
  exact ⟨b', e, by simp, h2⟩

theorem SameLine.many {α : Type} {P : Phrase α} (hP : ∀ i r a, P i r a → SameLine i r) {as : List α} (h : Many P i r as) :
    SameLine i r := by
  induction h with
  | nil => exact .refl _
  | cons h _ ih => exact (hP _ _ _ h).trans ih

end

section
variable [Unicode] [DecOps] {cfg : ParseCfg} {o o' : ParserOptions} {i j k r : List Ranged}

theorem sameLine_keyValue {kv : MetaKeyValue} (h : KeyValueP cfg o i r kv) : SameLine i r := by
  cases h with
  | value h1 h2 h3 =>
    exact (SameLine.word h1.1.1 (by simp)).trans ((SameLine.word h2 (by simp)).trans (sameLine_value h3.1))
  | null h1 h2 _ => exact (SameLine.word h1.1.1 (by simp)).trans (SameLine.word h2 (by simp))

theorem sameLine_tagsLinks {head : List TagOrLink} (h : Many (TagOrLinkP cfg) i r head) : SameLine i r := by
  obtain ⟨run, h1, h2, _⟩ := tagsLinks_tokens h
  exact ⟨run, h1, h2⟩

/-- The lines begin with indentation. -/
def Indented (i : List Ranged) : Prop := ∃ t m, i = t :: m ∧ t.tok = .indent

omit [Unicode] [DecOps] in
theorem Indented.of (h : Word .indent i j) : Indented i := by
  obtain ⟨x, y, rfl⟩ := h
  exact ⟨_, _, rfl, rfl⟩

theorem lines_line {m : Metadatum} (h : LineP cfg o i r m) : Indented i ∧ Lines i r := by
  cases h with
  | keyValue h1 h2 h3 =>
    exact ⟨.of h1, .of_line ((SameLine.word h1 (by simp)).trans (sameLine_keyValue h2.1))
      ((SameLine.word h1 (by simp)).ne (sameLine_keyValue h2.1) (word_moves h1)) h3⟩
  | tag h1 h2 h3 =>
    exact ⟨.of h1, .of_line ((SameLine.word h1 (by simp)).trans (SameLine.word h2.1.1 (by simp)))
      ((SameLine.word h1 (by simp)).ne (SameLine.word h2.1.1 (by simp)) (word_moves h1)) h3⟩
  | link h1 h2 h3 =>
    exact ⟨.of h1, .of_line ((SameLine.word h1 (by simp)).trans (SameLine.word h2.1.1 (by simp)))
      ((SameLine.word h1 (by simp)).ne (SameLine.word h2.1.1 (by simp)) (word_moves h1)) h3⟩

omit [Unicode] [DecOps] in
/-- Nothing, or indented lines. -/
theorem lines_many {α : Type} {P : Phrase α} (hP : ∀ i r a, P i r a → Indented i ∧ Lines i r) {as : List α} (h : Many P i r as) :
    i = r ∨ (Indented i ∧ Lines i r) := by
  induction h with
  | nil => exact .inl rfl
  | cons h _ ih =>
    obtain ⟨h1, h2⟩ := hP _ _ _ h
    rcases ih with rfl | ⟨⟨t, m, h3, h4⟩, h5⟩
    · exact .inr ⟨h1, h2⟩
    · exact .inr ⟨h1, h2.append h3 h4 h5⟩

omit [Unicode] [DecOps] in
theorem Lines.more (h : Lines i j) (h2 : j = r ∨ (Indented j ∧ Lines j r)) : Lines i r := by
  rcases h2 with rfl | ⟨⟨t, m, h3, h4⟩, h5⟩
  · exact h
  · exact h.append h3 h4 h5

theorem lines_lines {lines : List Metadatum} (h : Many (LineP cfg o) i r lines) : i = r ∨ (Indented i ∧ Lines i r) :=
  lines_many (fun _ _ _ => lines_line) h

theorem lines_posting {p : Spanned Posting × List PErr} (h : PostingP cfg o i r p) : Indented i ∧ Lines i r := by
  cases h with
  | mk h1 h2 h3 h4 _ =>
    exact ⟨.of h1, (Lines.of_line ((SameLine.word h1 (by simp)).trans (quiet_postingLine h2.1).line)
      ((SameLine.word h1 (by simp)).ne (quiet_postingLine h2.1).line (word_moves h1)) h3).more (lines_lines h4)⟩

theorem lines_postings {ps : List (Spanned Posting × List PErr)} (h : Many (PostingP cfg o) i r ps) :
    i = r ∨ (Indented i ∧ Lines i r) :=
  lines_many (fun _ _ _ => lines_posting) h

theorem sameLine_pragma {p : Pragma} {es : List PErr} (h : PragmaP cfg o i r p o' es) : SameLine i r := by
  cases h with
  | pushtag h =>
    obtain ⟨⟨j, h1, h2⟩, _⟩ := h
    exact (SameLine.word h1 (by simp)).trans (SameLine.word h2.1 (by simp))
  | poptag h =>
    obtain ⟨⟨j, h1, h2⟩, _⟩ := h
    exact (SameLine.word h1 (by simp)).trans (SameLine.word h2.1 (by simp))
  | pushmeta h1 h2 => exact (SameLine.word h1 (by simp)).trans (sameLine_keyValue h2)
  | popmeta h =>
    obtain ⟨⟨j, h1, k, h2, h3⟩, _⟩ := h
    exact (SameLine.word h1 (by simp)).trans ((SameLine.word h2.1 (by simp)).trans (SameLine.word h3 (by simp)))
  | «include» h1 h2 => exact (SameLine.word h1 (by simp)).trans (SameLine.word h2.1 (by simp))
  | option h1 h2 h3 _ =>
    exact (SameLine.word h1 (by simp)).trans ((SameLine.word h2.1 (by simp)).trans (SameLine.word h3.1 (by simp)))
  | plugin h1 h2 h3 =>
    refine (SameLine.word h1 (by simp)).trans ((SameLine.word h2.1 (by simp)).trans ?_)
    exact (quiet_maybe (fun _ _ _ h => quiet_string h.1) h3).line

/-- The first line of a directive, and what is after the line. -/
theorem directive_header {d : Directive} {es : List PErr} (h : DirectiveP cfg o i r d es) :
    ∃ m n, SameLine i m ∧ i ≠ m ∧ EndOfLine m n ∧ (n = r ∨ (Indented n ∧ Lines n r)) := by
  cases h with
  | transaction h1 h2 h3 h4 h5 h6 _ h7 =>
    refine ⟨_, _, ?_, ?_, h5, ?_⟩
    · exact (quiet_date h1.1).line.trans ((quiet_txn h2.1).line.trans ((quiet_strings h3).line.trans (sameLine_tagsLinks h4)))
    · exact (quiet_date h1.1).line.ne ((quiet_txn h2.1).line.trans ((quiet_strings h3).line.trans (sameLine_tagsLinks h4)))
        (word_moves h1.1)
    · rcases lines_lines h6 with rfl | ⟨h8, h9⟩
      · exact lines_postings h7
      · exact .inr ⟨h8, h9.more (lines_postings h7)⟩
  | other h1 h2 h3 h4 h5 h6 _ =>
    exact ⟨_, _, (quiet_date h1.1).line.trans ((quiet_body h2 h3).line.trans (sameLine_tagsLinks h4)),
      (quiet_date h1.1).line.ne ((quiet_body h2 h3).line.trans (sameLine_tagsLinks h4)) (word_moves h1.1), h5, lines_lines h6⟩
  | custom h1 h2 h3 h4 h5 h6 _ =>
    have := (SameLine.word h2 (by simp)).trans ((quiet_string h3.1).line.trans (sameLine_values h4))
    exact ⟨_, _, (quiet_date h1.1).line.trans this, (quiet_date h1.1).line.ne this (word_moves h1.1), h5, lines_lines h6⟩

theorem lines_declaration {d : Spanned Declaration} {es : List PErr} (h : DeclarationP cfg o i r d o' es) : Lines i r := by
  cases h with
  | directive h _ =>
    obtain ⟨m, n, h1, h2, h3, h4⟩ := directive_header h
    exact (Lines.of_line h1 h2 h3).more h4
  | pragma h1 h2 _ =>
    refine Lines.of_line (sameLine_pragma h1) (fun h => ?_) h2
    have := pragma_lt h1
    rw [h] at this
    omega

end

namespace Cut

variable {c : Cut} {α β : Type} {o o' : ParserOptions} {i j r r' i' : List Ranged}

variable (c) in
/-- The lines are the same with something else behind. -/
def LocL (P P' : Phrase α) : Prop :=
  ∀ ⦃i r : List Ranged⦄ ⦃a : α⦄, P i r a → Closed i r → ∀ r', c.Sw0 r r' → ∃ i', c.Sw0 i i' ∧ P' i' r' a

theorem eol (h : Word .eol i r) (hr : c.Sw0 r r') : ∃ i', c.Sw i i' ∧ EndOfLine i' r' := by
  obtain ⟨x, y, rfl⟩ := h
  obtain ⟨z, rfl, rfl⟩ := hr
  exact ⟨⟨.eol, x, y⟩ :: (z ++ c.s'), ⟨⟨.eol, x, y⟩ :: z, rfl, rfl, _, List.mem_cons_self, rfl⟩, .inl ⟨x, y, rfl⟩⟩

theorem LocL.many {P P' : Phrase α} (h : c.LocL P P') (hP : ∀ i r a, P i r a → Indented i ∧ Lines i r) {as : List α}
    (ha : Many P i r as) (hc : i = r ∨ Closed i r) (hr : c.Sw0 r r') : ∃ i', c.Sw0 i i' ∧ Many P' i' r' as := by
  induction ha with
  | nil => exact ⟨r', hr, .nil⟩
  | @cons i j r a as h1 h2 ih =>
    obtain ⟨run, rfl, h3⟩ := (hP _ _ _ h1).2.suffix
    rcases lines_many hP h2 with rfl | ⟨⟨t, m, h4, _⟩, h5⟩
    · obtain ⟨j', hj, h2⟩ := ih (.inl rfl) hr
      have hc : Closed (run ++ j) j := by
        rcases hc with hc | hc
        · exact absurd (List.append_left_eq_self.mp hc) h3
        · exact hc
      obtain ⟨i', hi, h1⟩ := h h1 hc j' hj
      exact ⟨i', hi, .cons h1 h2⟩
    · obtain ⟨run2, h6, h7⟩ := h5.suffix
      have hc' : Closed (run ++ j) r := by
        rcases hc with hc | hc
        · refine absurd (congrArg List.length hc) ?_
          rw [h6]
          have := List.length_pos_iff.mpr h3
          simp only [List.length_append]
          omega
        · exact hc
      obtain ⟨j', hj, h2⟩ := ih (.inr (hc'.tail rfl h6 h7)) hr
      obtain ⟨i', hi, h1⟩ := h h1 ((hP _ _ _ h1).2.closed (by rw [h4]; simp)) j' hj
      exact ⟨i', hi, .cons h1 h2⟩

section
variable [Unicode] [DecOps]

theorem line : c.LocL (LineP c.cfg o) (LineP c.cfg' o) := by
  intro i r a h hc r' hr
  cases h with
  | keyValue h1 h2 h3 =>
    have := closed_eol h3 ((SameLine.word h1 (by simp)).trans (sameLine_keyValue h2.1)) hc
    obtain ⟨k', hk, h3⟩ := eol this hr
    obtain ⟨j', hj, h2⟩ := keyValue.at h2 k' hk
    obtain ⟨i', hi, h1⟩ := Cut.word h1 hj
    exact ⟨i', hi.zero, .keyValue h1 h2 h3⟩
  | tag h1 h2 h3 =>
    have := closed_eol h3 ((SameLine.word h1 (by simp)).trans (SameLine.word h2.1.1 (by simp))) hc
    obtain ⟨k', hk, h3⟩ := eol this hr
    obtain ⟨j', hj, h2⟩ := tag.at h2 k' hk
    obtain ⟨i', hi, h1⟩ := Cut.word h1 hj
    exact ⟨i', hi.zero, .tag h1 h2 h3⟩
  | link h1 h2 h3 =>
    have := closed_eol h3 ((SameLine.word h1 (by simp)).trans (SameLine.word h2.1.1 (by simp))) hc
    obtain ⟨k', hk, h3⟩ := eol this hr
    obtain ⟨j', hj, h2⟩ := link.at h2 k' hk
    obtain ⟨i', hi, h1⟩ := Cut.word h1 hj
    exact ⟨i', hi.zero, .link h1 h2 h3⟩

theorem lines {ls : List Metadatum} (h : Many (LineP c.cfg o) i r ls) (hc : i = r ∨ Closed i r) (hr : c.Sw0 r r') :
    ∃ i', c.Sw0 i i' ∧ Many (LineP c.cfg' o) i' r' ls :=
  line.many (fun _ _ _ => lines_line) h hc hr

/-- A first line and those after it: the first is ended, and so are those after it, if there are any. -/
theorem closed_split {k l : List Ranged} (h : SameLine i k) (hi : i ≠ k) (he : EndOfLine k l) (h2 : l = r ∨ (Indented l ∧ Lines l r))
    (hc : Closed i r) : Word .eol k l ∧ (l = r ∨ Closed l r) := by
  rcases h2 with rfl | ⟨⟨t, m, h3, _⟩, h4⟩
  · exact ⟨closed_eol he h hc, .inl rfl⟩
  · have hl : Lines i l := .of_line h hi he
    obtain ⟨run, h5, _⟩ := hl.suffix
    obtain ⟨run2, h6, h7⟩ := h4.suffix
    refine ⟨closed_eol he h (hl.closed (by rw [h3]; simp)), .inr (hc.tail h5 h6 h7)⟩

theorem posting : c.LocL (PostingP c.cfg o) (PostingP c.cfg' o) := by
  intro i r a h hc r' hr
  cases h with
  | mk h1 h2 h3 h4 h5 =>
    obtain ⟨he, hc⟩ := closed_split ((SameLine.word h1 (by simp)).trans (quiet_postingLine h2.1).line)
      ((SameLine.word h1 (by simp)).ne (quiet_postingLine h2.1).line (word_moves h1)) h3 (lines_lines h4) hc
    obtain ⟨l', hl, h4⟩ := lines h4 hc hr
    obtain ⟨k', hk, h3⟩ := eol he hl
    obtain ⟨j', hj, h2⟩ := postingLine.at h2 k' hk
    obtain ⟨i', hi, h1⟩ := Cut.word h1 hj
    exact ⟨i', hi.zero, .mk h1 h2 h3 h4 (hl.covers hr h5)⟩

theorem postings {ps : List (Spanned Posting × List PErr)} (h : Many (PostingP c.cfg o) i r ps) (hc : i = r ∨ Closed i r)
    (hr : c.Sw0 r r') : ∃ i', c.Sw0 i i' ∧ Many (PostingP c.cfg' o) i' r' ps :=
  posting.many (fun _ _ _ => lines_posting) h hc hr

theorem directive {d : Directive} {es : List PErr} (h : DirectiveP c.cfg o i r d es) (hc : Closed i r) (hr : c.Sw0 r r') :
    ∃ i', c.Sw0 i i' ∧ DirectiveP c.cfg' o i' r' d es := by
  cases h with
  | transaction h1 h2 h3 h4 h5 h6 h7 h8 =>
    have hs := (quiet_txn h2.1).line.trans ((quiet_strings h3).line.trans (sameLine_tagsLinks h4))
    have hl := lines_lines h6
    have hp := lines_postings h8
    have hnr := hl
    obtain ⟨he, hc'⟩ := closed_split ((quiet_date h1.1).line.trans hs) ((quiet_date h1.1).line.ne hs (word_moves h1.1)) h5
      (by
        rcases hl with rfl | ⟨ha, hb⟩
        · exact hp
        · exact .inr ⟨ha, hb.more hp⟩) hc
    rename_i j k l m n p _ _ _ _ _ _ _
    have hcl : (n = p ∨ Closed n p) ∧ (p = r ∨ Closed p r) := by
      rcases hl with rfl | ⟨ha, hb⟩
      · exact ⟨.inl rfl, hc'⟩
      · obtain ⟨u, hu, hu0⟩ := hb.suffix
        rcases hp with rfl | ⟨⟨t, m, hj, _⟩, hd⟩
        · exact ⟨hc', .inl rfl⟩
        · obtain ⟨v, hv, hv0⟩ := hd.suffix
          refine ⟨.inr (hb.closed (by rw [hj]; simp)), .inr ?_⟩
          rcases hc' with hc' | hc'
          · refine absurd (congrArg List.length (hu.symm.trans hc')) ?_
            rw [hv]
            have := List.length_pos_iff.mpr hu0
            simp only [List.length_append]
            omega
          · exact hc'.tail hu hv hv0
    obtain ⟨p', hp, h8⟩ := postings h8 hcl.2 hr
    obtain ⟨n', hn, h6⟩ := lines h6 hcl.1 hp
    obtain ⟨m', hm, h5⟩ := eol he hn
    obtain ⟨l', hl, h4⟩ := tagOrLink.many h4 m' hm
    obtain ⟨k', hk, h3⟩ := payeeNarration h3 l' hl
    obtain ⟨j', hj, h2⟩ := txn.at h2 k' hk
    obtain ⟨i', hi, h1⟩ := date.at h1 j' hj
    exact ⟨i', hi.zero, .transaction h1 h2 h3 h4 h5 h6 (hn.covers hp h7) h8⟩
  | other h1 h2 h3 h4 h5 h6 h7 =>
    have hs := (quiet_body h2 h3).line.trans (sameLine_tagsLinks h4)
    obtain ⟨he, hc'⟩ := closed_split ((quiet_date h1.1).line.trans hs) ((quiet_date h1.1).line.ne hs (word_moves h1.1)) h5
      (lines_lines h6) hc
    obtain ⟨n', hn, h6⟩ := lines h6 hc' hr
    obtain ⟨m', hm, h5⟩ := eol he hn
    obtain ⟨l', hl, h4⟩ := tagOrLink.many h4 m' hm
    obtain ⟨k', hk, h3⟩ := body h3 hl
    obtain ⟨j', hj, h2⟩ := Cut.word h2 hk
    obtain ⟨i', hi, h1⟩ := date.at h1 j' hj
    exact ⟨i', hi.zero, .other h1 h2 h3 h4 h5 h6 (hn.covers hr h7)⟩
  | custom h1 h2 h3 h4 h5 h6 h7 =>
    have hs := (SameLine.word h2 (by simp)).trans ((quiet_string h3.1).line.trans (sameLine_values h4))
    obtain ⟨he, hc'⟩ := closed_split ((quiet_date h1.1).line.trans hs) ((quiet_date h1.1).line.ne hs (word_moves h1.1)) h5
      (lines_lines h6) hc
    obtain ⟨n', hn, h6⟩ := lines h6 hc' hr
    obtain ⟨m', hm, h5⟩ := eol he hn
    obtain ⟨l', hl, h4⟩ := metaValue.at.many h4 m' hm
    obtain ⟨k', hk, h3⟩ := string.at h3 l' hl
    obtain ⟨j', hj, h2⟩ := Cut.word h2 hk
    obtain ⟨i', hi, h1⟩ := date.at h1 j' hj
    exact ⟨i', hi.zero, .custom h1 h2 h3 h4 h5 h6 (hn.covers hr h7)⟩

/-- A declaration of which the last line is ended is the same with something else behind. -/
theorem declaration {d : Spanned Declaration} {es : List PErr} (h : DeclarationP c.cfg o i r d o' es) (hc : Closed i r)
    (hr : c.Sw0 r r') : ∃ i', c.Sw0 i i' ∧ DeclarationP c.cfg' o i' r' d o' es := by
  cases h with
  | directive h1 h2 =>
    obtain ⟨i', hi, h1⟩ := directive h1 hc hr
    exact ⟨i', hi, .directive h1 (hi.covers hr h2)⟩
  | pragma h1 h2 h3 =>
    obtain ⟨j', hj, h2⟩ := eol (closed_eol h2 (sameLine_pragma h1) hc) hr
    obtain ⟨i', hi, h1⟩ := pragma h1 hj
    exact ⟨i', hi.zero, .pragma h1 h2 (hi.zero.covers hr h3)⟩

end

end Cut

end Lima.Grammar
