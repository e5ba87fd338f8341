import Verif.Lemmas.Forward
import Verif.Lemmas.GrammarSound

/-! The parsers accept what the specification of the language allows. -/

namespace Lima.Grammar

open Spec P

variable {α β : Type} {cfg : ParseCfg} {o : ParserOptions} {i r : List Ranged}

/-- Some file, where it does not matter which. -/
def anyCfg : ParseCfg := ⟨0, none, fun _ => ⟨0, 0, 0⟩, fun _ => .error ⟨[]⟩⟩

/-! ### Terminals -/

theorem fwd_eol (h : EndOfLine i r) : Fwd cfg o eol i r () [] := by
  rcases h with h | ⟨rfl, rfl⟩
  · exact Fwd.alt_left (Fwd.just h (by simp))
  · refine Fwd.alt_right (Fails.just (by intro x hx; cases hx)) ⟨List.suffix_refl _, fun errs warns => ?_⟩
    rw [warnsAt_self]
    simp only [List.append_nil]
    rfl

theorem fwd_date {d : Date} (h : DateP i r d) : Fwd cfg o date i r d [] := Fwd.select h (by simp) rfl

theorem fwd_decimal {d : Dec} (h : NumberP i r d) : Fwd cfg o decimal i r d [] := Fwd.select h (by simp) rfl

theorem fwd_bool {b : Bool} (h : BoolP i r b) : Fwd cfg o bool i r b [] := by
  rcases h with ⟨rfl, h⟩ | ⟨rfl, h⟩
  · exact Fwd.select h (by simp) rfl
  · exact Fwd.select h (by simp) rfl

theorem plain_currency {c : Str} (h : CurrencyP i r c) : Plain i r := Plain.word h.1 (by simp)

theorem fwd_currency {c : Str} (h : CurrencyP i r c) : Fwd cfg o currency i r c [] :=
  Fwd.plain (plain_currency h) fun s _ => currency_complete s h

theorem fwd_flag {f : Flag} (h : FlagP i r f) : Fwd cfg o flag i r f [] := by
  rcases h with h | ⟨rfl, h⟩ | ⟨rfl, h⟩
  · exact Fwd.select h (by simp) rfl
  · exact Fwd.select h (by simp) rfl
  · exact Fwd.select h (by simp) rfl

/-- Tokens of flags. -/
def FlagTok (t : Token) : Prop := (∃ f, t = .dedicatedFlag f) ∨ t = .asterisk ∨ t = .hash

theorem starts_flag {f : Flag} (h : FlagP i r f) : Starts i FlagTok := by
  rcases h with h | ⟨rfl, h⟩ | ⟨rfl, h⟩
  · exact starts_word h (.inl ⟨_, rfl⟩)
  · exact starts_word h (.inr (.inl rfl))
  · exact starts_word h (.inr (.inr rfl))

theorem fails_flag (h : Head i (fun t => ¬ FlagTok t)) : Fails o flag i := by
  refine Fails.select (h.mono fun t ht => ?_)
  cases t <;> simp_all [FlagTok]

theorem fwd_txn {f : Flag} (h : TxnP i r f) : Fwd cfg o txn i r f [] := by
  rcases h with ⟨rfl, h⟩ | h
  · exact Fwd.alt_left (Fwd.then (Fwd.just h (by simp)) (Fwd.pure _ _))
  · refine Fwd.alt_right (Fails.bind_left (Fails.just ((starts_flag h).head.mono fun t ht => ?_))) (fwd_flag h)
    rcases ht with ⟨f, rfl⟩ | rfl | rfl <;> simp

theorem fails_txn (h : Head i (fun t => ¬ FlagTok t ∧ t ≠ .txn)) : Fails o txn i :=
  Fails.alt (Fails.bind_left (Fails.just (h.mono fun _ h => h.2))) (fails_flag (h.mono fun _ h => h.1))

theorem lineCount_eq (s : Str) : lineCount s = s.count '\n' + 1 := by
  unfold lineCount
  rw [← List.countP_eq_length_filter, List.count]
  congr 1

theorem fwd_string {s : Str} (h : StringP i r s) : Fwd cfg o (string cfg) i r s [] := by
  obtain ⟨x, y, rfl⟩ := h
  refine ⟨List.suffix_cons _ _, fun errs warns => ?_⟩
  have hs : cfg.spanOf (⟨.stringLiteral s, x, y⟩ :: r) r = ⟨cfg.source, x, y⟩ :=
    (spanOf_of_covers (.inl ⟨_, [_], _, rfl, rfl, rfl, rfl⟩)).symm
  unfold string
  rw [spanned_of_ok (select_cons (a := s) ⟨[], errs, o, warns⟩ rfl)]
  simp only [hs, lineCount_eq, warnsAt, longStrings]
  rw [show between (⟨.stringLiteral s, x, y⟩ :: r) r = [⟨.stringLiteral s, x, y⟩] from between_append [_] r]
  simp only [List.filterMap_cons, List.filterMap_nil]
  split <;> simp

theorem fails_string (h : Head i (fun t => ∀ s, t ≠ .stringLiteral s)) : Fails o (string cfg) i := by
  intro errs warns
  have : Fails o (P.spanned cfg (P.select fun t => match t with | .stringLiteral s => some s | _ => none)) i := by
    refine Fails.spanned (Fails.select (h.mono fun t ht => ?_))
    cases t <;> simp_all
  obtain ⟨s', h1, h2⟩ := this errs warns
  refine ⟨s', ?_, h2⟩
  unfold string
  split
  · rename_i heq; cases heq.symm.trans h1
  · rename_i heq; cases heq.symm.trans h1; rfl
  · rename_i heq; cases heq.symm.trans h1

theorem fwd_booking {b : Booking} (h : BookingP i r b) : Fwd cfg o (booking cfg) i r b [] := by
  obtain ⟨s, h, hb⟩ := h
  refine Fwd.then (fwd_string h) ?_
  rw [hb]
  exact Fwd.pure _ _

theorem starts_booking {b : Booking} (h : BookingP i r b) : Starts i (fun t => ∃ s, t = .stringLiteral s) := by
  obtain ⟨s, h, _⟩ := h
  exact starts_word h ⟨s, rfl⟩

theorem fails_booking (h : Head i (fun t => ∀ s, t ≠ .stringLiteral s)) : Fails o (booking cfg) i :=
  Fails.bind_left (fails_string h)

section
variable [Unicode]

omit [Unicode] in
theorem fwd_checked {ε : Type} {sel : Token → Option Str} {f : Str → Except ε Str} {t : Token} {a : Str}
    (h : Word t i r) (ht : ∀ s, t ≠ .stringLiteral s) (hs : sel t = some a) (hf : f a = .ok a) :
    Fwd cfg o (checked sel f) i r a [] := by
  refine Fwd.then (Fwd.select h ht hs) ?_
  rw [hf]
  exact Fwd.pure _ _

theorem fwd_tag {t : Str} (h : TagP i r t) : Fwd cfg o tag i r t [] :=
  fwd_checked h.1 (by simp) rfl ((Props.C17_tag_link_accepted_iff _ _).mpr ⟨rfl, h.2⟩)

theorem fwd_link {t : Str} (h : LinkP i r t) : Fwd cfg o link i r t [] :=
  fwd_checked h.1 (by simp) rfl ((Props.C17_tag_link_accepted_iff _ _).mpr ⟨rfl, h.2⟩)

theorem fwd_key {t : Str} (h : KeyP i r t) : Fwd cfg o key i r t [] :=
  fwd_checked h.1 (by simp) rfl ((key_ok _ _).mpr ⟨rfl, h.2⟩)

theorem fails_tag (h : Head i (fun t => ∀ s, t ≠ .tag s)) : Fails o tag i := by
  refine Fails.bind_left (Fails.select (h.mono fun t ht => ?_))
  cases t <;> simp_all

theorem fails_link (h : Head i (fun t => ∀ s, t ≠ .link s)) : Fails o link i := by
  refine Fails.bind_left (Fails.select (h.mono fun t ht => ?_))
  cases t <;> simp_all

theorem fails_key (h : Head i (fun t => ∀ s, t ≠ .key s)) : Fails o key i := by
  refine Fails.bind_left (Fails.select (h.mono fun t ht => ?_))
  cases t <;> simp_all

theorem fwd_account {a : Account} (h : AccountP o i r a) : Fwd cfg o account i r a [] := by
  obtain ⟨h, h2⟩ := h
  refine Fwd.then (Fwd.select h (by simp) rfl) (Fwd.then (a := o) ⟨List.suffix_refl _, fun errs warns => ?_⟩ ?_)
  · rw [warnsAt_self]
    simp [options]
  · rw [(account_ok_iff _ _ _).mpr ⟨rfl, h2⟩]
    exact Fwd.pure _ _

theorem fails_account (h : Head i (fun t => ∀ s, t ≠ .account s)) : Fails o account i := by
  refine Fails.bind_left (Fails.select (h.mono fun t ht => ?_))
  cases t <;> simp_all

end

theorem fails_date (h : Head i (fun t => ∀ s, t ≠ .date s)) : Fails o date i := by
  refine Fails.select (h.mono fun t ht => ?_)
  cases t <;> simp_all

theorem fails_bool (h : Head i (fun t => t ≠ .true_ ∧ t ≠ .false_)) : Fails o bool i := by
  refine Fails.select (h.mono fun t ht => ?_)
  cases t <;> simp_all

theorem fails_currency (h : Head i (fun t => ∀ s, t ≠ .currency s)) : Fails o currency i := by
  refine Fails.bind_left (Fails.select (h.mono fun t ht => ?_))
  cases t <;> simp_all

/-! ### Expressions -/

/-- Tokens that begin an expression. -/
def ExprTok (t : Token) : Prop := (∃ d, t = .number d) ∨ t = .lparen ∨ t = .plus ∨ t = .minus

/-- The shape of a phrase: it begins as an expression and has no strings. -/
def ExprLike (i r : List Ranged) : Prop := Starts i ExprTok ∧ Plain i r

theorem ExprLike.append {i j k r : List Ranged} {t : Token} (h1 : ExprLike i j) (h2 : Word t j k)
    (ht : ∀ s, t ≠ .stringLiteral s) (h3 : ExprLike k r) : ExprLike i r :=
  ⟨h1.1, h1.2.trans ((Plain.word h2 ht).trans h3.2)⟩

mutual

theorem factor_like {i r : List Ranged} {e : Expr} : Factor i r e → ExprLike i r
  | .number h => ⟨starts_word h (.inl ⟨_, rfl⟩), Plain.word h (by simp)⟩
  | .parens h1 h2 h3 => ⟨starts_word h1 (.inr (.inl rfl)),
      (Plain.word h1 (by simp)).trans ((sum_like h2).2.trans (Plain.word h3 (by simp)))⟩

theorem signed_like {i r : List Ranged} {e : Expr} : Signed i r e → ExprLike i r
  | .unsigned h => factor_like h
  | .plus h1 h2 => ⟨starts_word h1 (.inr (.inr (.inl rfl))), (Plain.word h1 (by simp)).trans (factor_like h2).2⟩
  | .minus h1 h2 => ⟨starts_word h1 (.inr (.inr (.inr rfl))), (Plain.word h1 (by simp)).trans (factor_like h2).2⟩

theorem product_like {i r : List Ranged} {e : Expr} : Product i r e → ExprLike i r
  | .single h => signed_like h
  | .times h1 h2 h3 => (product_like h1).append h2 (by simp) (signed_like h3)
  | .over h1 h2 h3 => (product_like h1).append h2 (by simp) (signed_like h3)

theorem sum_like {i r : List Ranged} {e : Expr} : SumExpr i r e → ExprLike i r
  | .single h => product_like h
  | .plus h1 h2 h3 => (sum_like h1).append h2 (by simp) (product_like h3)
  | .minus h1 h2 h3 => (sum_like h1).append h2 (by simp) (product_like h3)

end

theorem fails_of_pur {p : P α} {R : ParserOptions → Phrase α} (hp : Pur p R) (hs : ∀ s, p s ≠ .panic)
    (h : ∀ r a, ¬ R o i r a) : Fails o p i := by
  intro errs warns
  cases hps : p ⟨i, errs, o, warns⟩ with
  | ok a s' =>
    obtain ⟨r, _, _, hr⟩ := hp.ok _ a s' hps
    exact absurd hr (h r a)
  | fail s' =>
    obtain ⟨r, hr⟩ := hp.fail _ _ hps
    exact ⟨s', rfl, by rw [hr], by rw [hr]⟩
  | panic => exact absurd hps (hs _)

theorem fails_expr (h : Head i (fun t => ¬ ExprTok t)) : Fails o expr i := by
  refine fails_of_pur pur_expr_sum expr_no_panic fun r e he => ?_
  obtain ⟨x, r', rfl, hx⟩ := (sum_like he).1
  exact h x rfl hx

section
variable [DecOps]

theorem value_like {v : ExprValue} (h : ValueP i r v) : ExprLike i r := sum_like h.1.1

theorem fwd_exprValue {v : ExprValue} (h : ValueP i r v) : Fwd cfg o exprValue i r v [] :=
  Fwd.plain (value_like h).2 fun s _ => exprValue_complete s h

theorem fails_exprValue (h : Head i (fun t => ¬ ExprTok t)) : Fails o exprValue i := Fails.bind_left (fails_expr h)

/-! ### Amounts -/

theorem fwd_amount {a : Amount} (h : AmountP cfg i r a) : Fwd cfg o (amount cfg) i r a [] := by
  obtain ⟨h1, h2⟩ := h
  exact Fwd.then ((fwd_exprValue h1.1).spanned h1.2) (Fwd.then ((fwd_currency h2.1).spanned h2.2) (Fwd.pure _ _))

theorem amount_like {a : Amount} (h : AmountP cfg i r a) : ExprLike i r := by
  obtain ⟨h1, h2⟩ := h
  exact ⟨(value_like h1.1).1, (value_like h1.1).2.trans (plain_currency h2.1)⟩

theorem fails_amount (h : Head i (fun t => ¬ ExprTok t)) : Fails o (amount cfg) i :=
  Fails.bind_left (Fails.spanned (fails_exprValue h))

/-- A number without a currency is no amount. -/
theorem fails_amount_value {v : ExprValue} (h : ValueP i r v) (hr : Head r (fun t => ∀ s, t ≠ .currency s)) :
    Fails o (amount cfg) i :=
  Fails.bind_right (cfg := cfg) ((fwd_exprValue h).spanned (covers_spanOf cfg (value_like h).2.suffix))
    (value_like h).2 (Fails.bind_left (Fails.spanned (fails_currency hr)))

theorem fwd_amountWithTolerance {a : AmountWithTolerance} (h : TolerantP cfg i r a) :
    Fwd cfg o (amountWithTolerance cfg) i r a [] := by
  cases h with
  | exact h => exact Fwd.alt_left (Fwd.then ((fwd_amount h.1).spanned h.2) (Fwd.pure _ _))
  | tolerant h1 h2 h3 h4 h5 =>
    refine Fwd.alt_right (Fails.bind_left (Fails.spanned (fails_amount_value h1.1
      ((starts_word (C := fun t => ∀ s, t ≠ .currency s) h2 (by simp)).head)))) ?_
    have : Fwd cfg o (tolerantAmount cfg) i r _ [] :=
      Fwd.then ((fwd_exprValue h1.1).spanned h1.2) (Fwd.then (Fwd.just h2 (by simp))
        (Fwd.then ((fwd_decimal h3.1).spanned h3.2) (Fwd.then ((fwd_currency h4.1).spanned h4.2) (Fwd.pure _ _))))
    exact Fwd.then (this.spanned h5) (Fwd.pure _ _)

/-- Tokens that begin a compound expression. -/
def CompoundTok (t : Token) : Prop := ExprTok t ∨ t = .hash

theorem compound_like {c : CompoundExprValue} (h : CompoundExprP i r c) : Starts i CompoundTok ∧ Plain i r := by
  cases h with
  | both h1 h2 h3 =>
    exact ⟨(value_like h1).1.mono fun _ => .inl,
      (value_like h1).2.trans ((Plain.word h2 (by simp)).trans (value_like h3).2)⟩
  | perUnitHash h1 h2 =>
    exact ⟨(value_like h1).1.mono fun _ => .inl, (value_like h1).2.trans (Plain.word h2 (by simp))⟩
  | perUnit h1 => exact ⟨(value_like h1).1.mono fun _ => .inl, (value_like h1).2⟩
  | total h1 h2 => exact ⟨starts_word h1 (.inr rfl), (Plain.word h1 (by simp)).trans (value_like h2).2⟩

/-- A compound expression is followed by something that does not belong to one. -/
theorem fwd_compoundExpr {c : CompoundExprValue} (h : CompoundExprP i r c) (hr : Head r (fun t => ¬ CompoundTok t)) :
    Fwd cfg o compoundExpr i r c [] := by
  have hr1 : Head r (fun t => ¬ ExprTok t) := hr.mono fun _ h h' => h (.inl h')
  have hr2 : Head r (fun t => t ≠ .hash) := hr.mono fun _ h h' => h (.inr h')
  cases h with
  | both h1 h2 h3 =>
    exact Fwd.alt_left (Fwd.then (fwd_exprValue h1) (Fwd.then (Fwd.just h2 (by simp))
      (Fwd.then (fwd_exprValue h3) (Fwd.pure _ _))))
  | perUnitHash h1 h2 =>
    refine Fwd.alt_right ?_ (Fwd.alt_left (Fwd.then (fwd_exprValue h1)
      (Fwd.then (Fwd.just h2 (by simp)) (Fwd.pure _ _))))
    exact Fails.bind_right (cfg := cfg) (fwd_exprValue h1) (value_like h1).2
      (Fails.bind_right (cfg := cfg) (Fwd.just h2 (by simp)) (Plain.word h2 (by simp))
        (Fails.bind_left (fails_exprValue hr1)))
  | perUnit h1 =>
    have hf : ∀ {β : Type} (f : ExprValue → P β),
        Fails o (do let p ← exprValue; P.just .hash; f p) i := fun f =>
      Fails.bind_right (cfg := cfg) (fwd_exprValue h1) (value_like h1).2 (Fails.bind_left (Fails.just hr2))
    exact Fwd.alt_right (hf _) (Fwd.alt_right (hf _) (Fwd.alt_left (Fwd.then (fwd_exprValue h1) (Fwd.pure _ _))))
  | total h1 h2 =>
    have hf : Fails o exprValue i :=
      fails_exprValue ((starts_word (C := fun t => ¬ ExprTok t) h1 (by simp [ExprTok])).head)
    exact Fwd.alt_right (Fails.bind_left hf) (Fwd.alt_right (Fails.bind_left hf) (Fwd.alt_right (Fails.bind_left hf)
      (Fwd.then (Fwd.just h1 (by simp)) (Fwd.then (fwd_exprValue h2) (Fwd.pure _ _)))))

theorem fails_compoundExpr (h : Head i (fun t => ¬ CompoundTok t)) : Fails o compoundExpr i := by
  have h1 : Head i (fun t => ¬ ExprTok t) := h.mono fun _ h h' => h (.inl h')
  have h2 : Head i (fun t => t ≠ .hash) := h.mono fun _ h h' => h (.inr h')
  exact Fails.alt (Fails.bind_left (fails_exprValue h1)) (Fails.alt (Fails.bind_left (fails_exprValue h1))
    (Fails.alt (Fails.bind_left (fails_exprValue h1)) (Fails.bind_left (Fails.just h2))))

/-- A hash that is not followed by an expression is no compound expression. -/
theorem fails_compoundExpr_hash {j : List Ranged} (h : Word .hash i j) (hj : Head j (fun t => ¬ ExprTok t)) :
    Fails o compoundExpr i := by
  have h1 : Head i (fun t => ¬ ExprTok t) :=
    ((starts_word (C := fun t => ¬ ExprTok t) h (by simp [ExprTok])).head)
  exact Fails.alt (Fails.bind_left (fails_exprValue h1)) (Fails.alt (Fails.bind_left (fails_exprValue h1))
    (Fails.alt (Fails.bind_left (fails_exprValue h1))
      (Fails.bind_right (cfg := anyCfg) (Fwd.just h (by simp)) (Plain.word h (by simp))
        (Fails.bind_left (fails_exprValue hj)))))

omit [DecOps] in
theorem not_compound_currency {c : Str} (h : CurrencyP i r c) : Head i (fun t => ¬ CompoundTok t) :=
  (starts_word (C := fun t => ¬ CompoundTok t) h.1 (by simp [CompoundTok, ExprTok])).head

theorem fwd_compoundAmount {a : CompoundAmount} (h : CompoundAmountP i r a)
    (hr : Head r (fun t => t = .comma ∨ t = .rcurl)) : Fwd cfg o compoundAmount i r a [] := by
  have hr1 : Head r (fun t => ¬ CompoundTok t) := hr.mono (by rintro t (rfl | rfl) <;> simp [CompoundTok, ExprTok])
  have hr2 : Head r (fun t => ∀ s, t ≠ .currency s) := hr.mono (by rintro t (rfl | rfl) <;> simp)
  cases h with
  | amountCurrency h1 h2 =>
    exact Fwd.alt_left (Fwd.then (fwd_compoundExpr h1 (not_compound_currency h2))
      (Fwd.then (fwd_currency h2) (Fwd.pure _ _)))
  | amount h1 =>
    exact Fwd.alt_right (Fails.bind_right (cfg := cfg) (fwd_compoundExpr h1 hr1) (compound_like h1).2
      (Fails.bind_left (fails_currency hr2))) (Fwd.alt_left (Fwd.then (fwd_compoundExpr h1 hr1) (Fwd.pure _ _)))
  | currency h1 =>
    have hf := fails_compoundExpr (o := o) (not_compound_currency h1)
    refine Fwd.alt_right (Fails.bind_left hf) (Fwd.alt_right (Fails.bind_left hf) ?_)
    refine Fwd.then (Fwd.orNot_none (Fails.just ?_)) (Fwd.then (fwd_currency h1) (Fwd.pure _ _))
    exact (starts_word (C := fun t => t ≠ .hash) h1.1 (by simp)).head
  | hashCurrency h1 h2 =>
    have hf := fails_compoundExpr_hash (o := o) h1 ((not_compound_currency h2).mono fun _ h h' => h (.inl h'))
    refine Fwd.alt_right (Fails.bind_left hf) (Fwd.alt_right (Fails.bind_left hf) ?_)
    exact Fwd.then (Fwd.orNot_some (Fwd.just h1 (by simp))) (Fwd.then (fwd_currency h2) (Fwd.pure _ _))

theorem fails_compoundAmount (h : Head i (fun t => ¬ CompoundTok t ∧ ∀ c, t ≠ .currency c)) :
    Fails o compoundAmount i := by
  have hf := fails_compoundExpr (o := o) (h.mono fun _ h => h.1)
  refine Fails.alt (Fails.bind_left hf) (Fails.alt (Fails.bind_left hf) ?_)
  refine Fails.bind_right (cfg := anyCfg)
    (Fwd.orNot_none (Fails.just (h.mono fun _ h h' => h.1 (.inr h')))) (Plain.refl _)
    (Fails.bind_left (fails_currency (h.mono fun _ h => h.2)))

end

end Lima.Grammar
