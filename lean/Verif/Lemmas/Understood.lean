import Verif.Lemmas.FileSound

/-! The tokens that occur in files of the language. -/

namespace Lima.Grammar

open Spec

/-- A token of the language which does not start a pragma. -/
def Inner (t : Token) : Prop :=
  Understood t ∧ t ≠ .include ∧ t ≠ .option ∧ t ≠ .plugin ∧ t ≠ .pushtag ∧ t ≠ .poptag ∧ t ≠ .pushmeta ∧ t ≠ .popmeta

/-- All tokens between two positions belong to the language, and none starts a pragma. -/
def Good (i r : List Ranged) : Prop := ∃ run, i = run ++ r ∧ ∀ t ∈ run, Inner t.tok

variable {α : Type} {cfg : ParseCfg} {o o' : ParserOptions} {i j r : List Ranged}

theorem Good.refl (i : List Ranged) : Good i i := ⟨[], rfl, by simp⟩

theorem Good.trans (h1 : Good i j) (h2 : Good j r) : Good i r := by
  obtain ⟨a, rfl, ha⟩ := h1
  obtain ⟨b, rfl, hb⟩ := h2
  refine ⟨a ++ b, by simp, fun t ht => ?_⟩
  rcases List.mem_append.mp ht with ht | ht
  · exact ha t ht
  · exact hb t ht

/-- Likewise, but for the first token. -/
def Led (i r : List Ranged) : Prop :=
  ∃ k run, i = k :: run ++ r ∧ Understood k.tok ∧ ∀ t ∈ run, Inner t.tok

theorem Good.led {t : Token} (h : Word t i j) (ht : Understood t) (h2 : Good j r) : Led i r := by
  obtain ⟨x, y, rfl⟩ := h
  obtain ⟨a, rfl, ha⟩ := h2
  exact ⟨⟨t, x, y⟩, a, rfl, ht, ha⟩

theorem Led.trans (h1 : Led i j) (h2 : Good j r) : Led i r := by
  obtain ⟨k, a, rfl, hk, ha⟩ := h1
  obtain ⟨b, rfl, hb⟩ := h2
  refine ⟨k, a ++ b, by simp, hk, fun t ht => ?_⟩
  rcases List.mem_append.mp ht with ht | ht
  · exact ha t ht
  · exact hb t ht

theorem Good.word {t : Token} (h : Word t i r) (ht : Inner t) : Good i r := by
  obtain ⟨x, y, rfl⟩ := h
  exact ⟨[⟨t, x, y⟩], rfl, by simpa using ht⟩

theorem good_maybe {R : Phrase α} (hR : ∀ i r a, R i r a → Good i r) {x : Option α} (h : Maybe R i r x) : Good i r := by
  cases x with
  | none => cases h; exact Good.refl _
  | some a => exact hR _ _ _ h

theorem good_many {R : Phrase α} (hR : ∀ i r a, R i r a → Good i r) {x : List α} (h : Many R i r x) : Good i r := by
  induction h with
  | nil => exact Good.refl _
  | cons h _ ih => exact (hR _ _ _ h).trans ih

theorem good_eol (h : EndOfLine i r) : Good i r := by
  rcases h with h | ⟨rfl, rfl⟩
  · exact Good.word h (by simp [Inner, Understood])
  · exact Good.refl _

mutual

theorem good_factor {i r : List Ranged} {e : Expr} : Factor i r e → Good i r
  | .number h => Good.word h (by simp [Inner, Understood])
  | .parens h1 h2 h3 => (Good.word h1 (by simp [Inner, Understood])).trans
      ((good_sum h2).trans (Good.word h3 (by simp [Inner, Understood])))

theorem good_signed {i r : List Ranged} {e : Expr} : Signed i r e → Good i r
  | .unsigned h => good_factor h
  | .plus h1 h2 => (Good.word h1 (by simp [Inner, Understood])).trans (good_factor h2)
  | .minus h1 h2 => (Good.word h1 (by simp [Inner, Understood])).trans (good_factor h2)

theorem good_product {i r : List Ranged} {e : Expr} : Product i r e → Good i r
  | .single h => good_signed h
  | .times h1 h2 h3 => (good_product h1).trans ((Good.word h2 (by simp [Inner, Understood])).trans (good_signed h3))
  | .over h1 h2 h3 => (good_product h1).trans ((Good.word h2 (by simp [Inner, Understood])).trans (good_signed h3))

theorem good_sum {i r : List Ranged} {e : Expr} : SumExpr i r e → Good i r
  | .single h => good_product h
  | .plus h1 h2 h3 => (good_sum h1).trans ((Good.word h2 (by simp [Inner, Understood])).trans (good_product h3))
  | .minus h1 h2 h3 => (good_sum h1).trans ((Good.word h2 (by simp [Inner, Understood])).trans (good_product h3))

end

theorem good_date {d : Date} (h : DateP i r d) : Good i r := Good.word h (by simp [Inner, Understood])

theorem good_number {d : Dec} (h : NumberP i r d) : Good i r := Good.word h (by simp [Inner, Understood])

theorem good_string {s : Str} (h : StringP i r s) : Good i r := Good.word h (by simp [Inner, Understood])

theorem good_currency {s : Str} (h : CurrencyP i r s) : Good i r := Good.word h.1 (by simp [Inner, Understood])

theorem good_flag {f : Flag} (h : FlagP i r f) : Good i r := by
  rcases h with h | ⟨_, h⟩ | ⟨_, h⟩ <;> exact Good.word h (by simp [Inner, Understood])

theorem good_txn {f : Flag} (h : TxnP i r f) : Good i r := by
  rcases h with ⟨_, h⟩ | h
  · exact Good.word h (by simp [Inner, Understood])
  · exact good_flag h

theorem good_booking {b : Booking} (h : BookingP i r b) : Good i r := by
  obtain ⟨s, h, _⟩ := h
  exact Good.word h (by simp [Inner, Understood])

section
variable [DecOps]

theorem good_value {v : ExprValue} (h : ValueP i r v) : Good i r := good_sum h.1.1

theorem good_amount {a : Amount} (h : AmountP cfg i r a) : Good i r := by
  obtain ⟨h1, h2⟩ := h
  exact (good_value h1.1).trans (good_currency h2.1)

theorem good_tolerant {a : AmountWithTolerance} (h : TolerantP cfg i r a) : Good i r := by
  cases h with
  | exact h => exact good_amount h.1
  | tolerant h1 h2 h3 h4 _ =>
    exact (good_value h1.1).trans ((Good.word h2 (by simp [Inner, Understood])).trans
      ((good_number h3.1).trans (good_currency h4.1)))

theorem good_compound {c : CompoundExprValue} (h : CompoundExprP i r c) : Good i r := by
  cases h with
  | both h1 h2 h3 => exact (good_value h1).trans ((Good.word h2 (by simp [Inner, Understood])).trans (good_value h3))
  | perUnitHash h1 h2 => exact (good_value h1).trans (Good.word h2 (by simp [Inner, Understood]))
  | perUnit h1 => exact good_value h1
  | total h1 h2 => exact (Good.word h1 (by simp [Inner, Understood])).trans (good_value h2)

theorem good_compoundAmount {c : CompoundAmount} (h : CompoundAmountP i r c) : Good i r := by
  cases h with
  | amountCurrency h1 h2 => exact (good_compound h1).trans (good_currency h2)
  | amount h1 => exact good_compound h1
  | currency h => exact good_currency h
  | hashCurrency h1 h2 => exact (Good.word h1 (by simp [Inner, Understood])).trans (good_currency h2)

theorem good_price {p : PriceSpec} (h : PriceP i r p) : Good i r := by
  have at' : ∀ {t : Token} {i r}, (t = .at ∨ t = .atAt) → Word t i r → Good i r := by
    rintro t i r (rfl | rfl) h <;> exact Good.word h (by simp [Inner, Understood])
  cases h with
  | perUnit h1 h2 => exact (at' (.inl rfl) h1).trans (good_value h2)
  | total h1 h2 => exact (at' (.inr rfl) h1).trans (good_value h2)
  | perUnitCurrency h1 h2 h3 => exact (at' (.inl rfl) h1).trans ((good_value h2).trans (good_currency h3))
  | totalCurrency h1 h2 h3 => exact (at' (.inr rfl) h1).trans ((good_value h2).trans (good_currency h3))
  | currency ht h1 h2 => exact (at' ht h1).trans (good_currency h2)
  | unspecified ht h1 => exact at' ht h1

theorem good_costComp {c : CostComp} (h : CostCompP i r c) : Good i r := by
  cases h with
  | amount h => exact good_compoundAmount h
  | date h => exact good_date h
  | label h => exact good_string h
  | merge h => exact Good.word h (by simp [Inner, Understood])

theorem good_costSpec {c : CostSpec} (h : CostSpecP cfg i r c) : Good i r := by
  cases h with
  | empty h1 h2 _ => exact (Good.word h1 (by simp [Inner, Understood])).trans (Good.word h2 (by simp [Inner, Understood]))
  | comps h1 h2 h3 h4 _ _ =>
    refine (Good.word h1 (by simp [Inner, Understood])).trans ((good_costComp h2.1).trans (Good.trans ?_
      (Good.word h4 (by simp [Inner, Understood]))))
    refine good_many (fun _ _ _ ⟨j, ha, hb⟩ => ?_) h3
    exact (Good.word ha (by simp [Inner, Understood])).trans (good_costComp hb.1)

end

section
variable [Unicode]

theorem good_tag {t : Str} (h : TagP i r t) : Good i r := Good.word h.1 (by simp [Inner, Understood])

theorem good_link {t : Str} (h : LinkP i r t) : Good i r := Good.word h.1 (by simp [Inner, Understood])

theorem good_key {t : Str} (h : KeyP i r t) : Good i r := Good.word h.1 (by simp [Inner, Understood])

theorem good_account {a : Account} (h : AccountP o i r a) : Good i r := Good.word h.1 (by simp [Inner, Understood])

theorem good_tagsLinks {l : List TagOrLink} (h : Many (TagOrLinkP cfg) i r l) : Good i r :=
  good_many (fun _ _ _ h => by
    cases h with
    | tag h => exact good_tag h.1
    | link h => exact good_link h.1) h

variable [DecOps]

theorem good_simpleValue {v : SimpleValue} (h : SimpleValueP o i r v) : Good i r := by
  cases h with
  | string h => exact good_string h
  | currency h => exact good_currency h
  | account h => exact good_account h
  | tag h => exact good_tag h
  | link h => exact good_link h
  | date h => exact good_date h
  | bool h => rcases h with ⟨_, h⟩ | ⟨_, h⟩ <;> exact Good.word h (by simp [Inner, Understood])
  | null h => exact Good.word h (by simp [Inner, Understood])
  | expr h _ => exact good_value h

theorem good_metaValue {v : MetaValue} (h : MetaValueP cfg o i r v) : Good i r := by
  cases h with
  | simple h => exact good_simpleValue h
  | amount h => exact good_amount h

theorem good_keyValue {kv : MetaKeyValue} (h : KeyValueP cfg o i r kv) : Good i r := by
  cases h with
  | value h1 h2 h3 => exact (good_key h1.1).trans ((Good.word h2 (by simp [Inner, Understood])).trans (good_metaValue h3.1))
  | null h1 h2 _ => exact (good_key h1.1).trans (Good.word h2 (by simp [Inner, Understood]))

theorem good_lines {l : List Metadatum} (h : Many (LineP cfg o) i r l) : Good i r :=
  good_many (fun _ _ _ h => by
    cases h with
    | keyValue h1 h2 h3 => exact (Good.word h1 (by simp [Inner, Understood])).trans ((good_keyValue h2.1).trans (good_eol h3))
    | tag h1 h2 h3 => exact (Good.word h1 (by simp [Inner, Understood])).trans ((good_tag h2.1).trans (good_eol h3))
    | link h1 h2 h3 => exact (Good.word h1 (by simp [Inner, Understood])).trans ((good_link h2.1).trans (good_eol h3))) h

theorem good_postingLine {p : PostingLine} (h : PostingLineP cfg o i r p) : Good i r := by
  obtain ⟨a, b, c, d, e, f⟩ := h
  exact (good_maybe (fun _ _ _ h => good_flag h.1) a).trans ((good_account b.1).trans
    ((good_maybe (fun _ _ _ h => good_value h.1) c).trans ((good_maybe (fun _ _ _ h => good_currency h.1) d).trans
      ((good_maybe (fun _ _ _ h => good_costSpec h.1) e).trans (good_maybe (fun _ _ _ h => good_price h.1) f)))))

theorem good_postings {l : List (Spanned Posting × List PErr)} (h : Many (PostingP cfg o) i r l) : Good i r := by
  refine good_many (fun i r x h => ?_) h
  obtain ⟨h1, h2, h3, h4, _⟩ := h
  exact (Good.word h1 (by simp [Inner, Understood])).trans ((good_postingLine h2.1).trans
    ((good_eol h3).trans (good_lines h4)))

omit [Unicode] [DecOps] in
theorem good_strings {x : Option (Spanned Str) × Option (Spanned Str)} (h : PayeeNarrationP cfg i r x) : Good i r := by
  cases h with
  | neither => exact Good.refl _
  | narration h => exact good_string h.1
  | both h1 h2 => exact (good_string h1.1).trans (good_string h2.1)

omit [Unicode] [DecOps] in
theorem good_currencies {cs : List (Spanned Str)} (h : CurrenciesP cfg i r cs) : Good i r := by
  cases h with
  | none => exact Good.refl _
  | some h1 h2 =>
    exact (good_currency h1.1).trans (good_many (fun _ _ _ ⟨j, ha, hb⟩ =>
      (Good.word ha (by simp [Inner, Understood])).trans (good_currency hb.1)) h2)

theorem good_body {keyword : Token} {v : DirectiveVariant} {es : List PErr} (h1 : Word keyword i j)
    (h : BodyP cfg o keyword j r v es) : Good i r := by
  cases h with
  | price a b => exact (Good.word h1 (by simp [Inner, Understood])).trans ((good_currency a.1).trans (good_amount b.1))
  | balance a b => exact (Good.word h1 (by simp [Inner, Understood])).trans ((good_account a.1).trans (good_tolerant b.1))
  | «open» a b c =>
    exact (Good.word h1 (by simp [Inner, Understood])).trans ((good_account a.1).trans ((good_currencies b).trans
      (good_maybe (fun _ _ _ h => good_booking h.1) c)))
  | close a => exact (Good.word h1 (by simp [Inner, Understood])).trans (good_account a.1)
  | commodity a => exact (Good.word h1 (by simp [Inner, Understood])).trans (good_currency a.1)
  | pad a b => exact (Good.word h1 (by simp [Inner, Understood])).trans ((good_account a.1).trans (good_account b.1))
  | document a b => exact (Good.word h1 (by simp [Inner, Understood])).trans ((good_account a.1).trans (good_string b.1))
  | note a b => exact (Good.word h1 (by simp [Inner, Understood])).trans ((good_account a.1).trans (good_string b.1))
  | event a b => exact (Good.word h1 (by simp [Inner, Understood])).trans ((good_string a.1).trans (good_string b.1))
  | query a b => exact (Good.word h1 (by simp [Inner, Understood])).trans ((good_string a.1).trans (good_string b.1))

theorem good_directive {d : Directive} {es : List PErr} (h : DirectiveP cfg o i r d es) : Good i r := by
  cases h with
  | transaction h1 h2 h3 h4 h5 h6 _ h8 =>
    exact (good_date h1.1).trans ((good_txn h2.1).trans ((good_strings h3).trans ((good_tagsLinks h4).trans
      ((good_eol h5).trans ((good_lines h6).trans (good_postings h8))))))
  | other h1 h2 h3 h4 h5 h6 _ =>
    exact (good_date h1.1).trans ((good_body h2 h3).trans ((good_tagsLinks h4).trans
      ((good_eol h5).trans (good_lines h6))))
  | custom h1 h2 h3 h4 h5 h6 _ =>
    exact (good_date h1.1).trans ((Good.word h2 (by simp [Inner, Understood])).trans ((good_string h3.1).trans
      ((good_many (fun _ _ _ h => good_metaValue h.1) h4).trans ((good_eol h5).trans (good_lines h6)))))

theorem led_pragma {p : Pragma} {es : List PErr} (h : PragmaP cfg o i r p o' es) : Led i r := by
  cases h with
  | pushtag h =>
    obtain ⟨⟨j, h1, h2⟩, _⟩ := h
    exact Good.led h1 (by simp [Understood]) (good_tag h2)
  | poptag h =>
    obtain ⟨⟨j, h1, h2⟩, _⟩ := h
    exact Good.led h1 (by simp [Understood]) (good_tag h2)
  | pushmeta h1 h2 => exact Good.led h1 (by simp [Understood]) (good_keyValue h2)
  | popmeta h =>
    obtain ⟨⟨j, h1, k, h2, h3⟩, _⟩ := h
    exact Good.led h1 (by simp [Understood]) ((good_key h2).trans (Good.word h3 (by simp [Inner, Understood])))
  | «include» h1 h2 => exact Good.led h1 (by simp [Understood]) (good_string h2.1)
  | option h1 h2 h3 _ => exact Good.led h1 (by simp [Understood]) ((good_string h2.1).trans (good_string h3.1))
  | plugin h1 h2 h3 =>
    exact Good.led h1 (by simp [Understood]) ((good_string h2.1).trans (good_maybe (fun _ _ _ h => good_string h.1) h3))

theorem understood_declaration {run : List Ranged} {d : Spanned Declaration} {es : List PErr}
    (h : DeclarationP cfg o (run ++ r) r d o' es) : ∀ t ∈ run, Understood t.tok := by
  intro t ht
  cases h with
  | directive h _ =>
    obtain ⟨run', h1, h2⟩ := good_directive h
    rw [List.append_cancel_right_eq] at h1
    subst h1
    exact (h2 t ht).1
  | pragma h1 h2 _ =>
    obtain ⟨k, run', h1, h2, h3⟩ := (led_pragma h1).trans (good_eol h2)
    rw [List.append_cancel_right_eq] at h1
    subst h1
    rcases List.mem_cons.mp ht with rfl | ht
    · exact h2
    · exact (h3 t ht).1

theorem good_file {ds : List (Spanned Declaration)} {es : List PErr} {ws : List Report}
    (h : FileP cfg o i ds o' es ws) : ∀ t ∈ i, Understood t.tok := by
  induction h with
  | nil => simp
  | cons h _ ih =>
    intro t ht
    rcases List.mem_append.mp ht with ht | ht
    · exact understood_declaration h t ht
    · exact ih t ht

/-- Wherever in a file there is the keyword of a pragma, there is a pragma among its declarations. -/
theorem keyword_pragma {before after : List Ranged} {t : Ranged} {ds : List (Spanned Declaration)} {es : List PErr}
    {ws : List Report} (h : FileP cfg o (before ++ t :: after) ds o' es ws) (ht : ¬ Inner t.tok) :
    ∃ o1 o2 j es' p span, PragmaP cfg o1 (t :: after) j p o2 es' ∧ ⟨.pragma p, span⟩ ∈ ds ∧ ∀ e ∈ es', e ∈ es := by
  generalize hi : before ++ t :: after = i at h
  induction h generalizing before with
  | nil => simp at hi
  | @cons o o' o'' run r d ds es es' ws' h _ ih =>
    rcases List.append_eq_append_iff.mp hi with ⟨m, hm, hr⟩ | ⟨m, hm, hr⟩
    · cases m with
      | nil =>
        obtain ⟨o1, o2, j, es1, p, span, k1, k2, k3⟩ := ih (before := []) (by simpa using hr)
        exact ⟨o1, o2, j, es1, p, span, k1, List.mem_cons_of_mem _ k2, fun e he => List.mem_append_right _ (k3 e he)⟩
      | cons x m =>
        rw [List.cons_append, List.cons.injEq] at hr
        obtain ⟨rfl, hr⟩ := hr
        have hmem : t ∈ run := by rw [hm]; simp
        cases h with
        | directive h _ =>
          obtain ⟨run', h1, h2⟩ := good_directive h
          rw [List.append_cancel_right_eq] at h1
          subst h1
          exact absurd (h2 t hmem) ht
        | pragma h1 h2 h3 =>
          obtain ⟨k, run', h4, h5, h6⟩ := (led_pragma h1).trans (good_eol h2)
          rw [List.append_cancel_right_eq] at h4
          have hb : before = [] := by
            cases before with
            | nil => rfl
            | cons y before =>
              rw [hm, List.cons_append, List.cons.injEq] at h4
              exact absurd (h6 t (by rw [← h4.2]; simp)) ht
          subst hb
          have hta : run ++ r = t :: after := by rw [← hi]; rfl
          rw [hta] at h1
          exact ⟨_, _, _, _, _, _, h1, List.mem_cons_self, fun e he => List.mem_append_left _ he⟩
    · obtain ⟨o1, o2, j, es1, p, span, k1, k2, k3⟩ := ih (before := m) hr.symm
      exact ⟨o1, o2, j, es1, p, span, k1, List.mem_cons_of_mem _ k2, fun e he => List.mem_append_right _ (k3 e he)⟩

end

end Lima.Grammar
