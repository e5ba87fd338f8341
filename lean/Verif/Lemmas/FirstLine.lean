import Verif.Lemmas.FileRuns

/-! The first lines of directives, and their metadata lines. -/

namespace Lima.Grammar

open Spec

/-- Tokens which neither end a line nor are a tag or link. -/
def QuietTok (t : Token) : Prop := t ≠ .eol ∧ (∀ s, t ≠ .tag s) ∧ ∀ s, t ≠ .link s

/-- All tokens between two positions are such tokens. -/
def Quiet (i r : List Ranged) : Prop := ∃ run, i = run ++ r ∧ ∀ t ∈ run, QuietTok t.tok

variable {α : Type} {cfg : ParseCfg} {o o' : ParserOptions} {i j r : List Ranged}

theorem Quiet.refl (i : List Ranged) : Quiet i i := ⟨[], rfl, by simp⟩

theorem Quiet.trans (h1 : Quiet i j) (h2 : Quiet j r) : Quiet i r := by
  obtain ⟨a, rfl, ha⟩ := h1
  obtain ⟨b, rfl, hb⟩ := h2
  refine ⟨a ++ b, by simp, fun t ht => ?_⟩
  rcases List.mem_append.mp ht with ht | ht
  · exact ha t ht
  · exact hb t ht

theorem Quiet.word {t : Token} (h : Word t i r) (ht : QuietTok t) : Quiet i r := by
  obtain ⟨x, y, rfl⟩ := h
  exact ⟨[⟨t, x, y⟩], rfl, by simpa using ht⟩

theorem quiet_maybe {R : Phrase α} (hR : ∀ i r a, R i r a → Quiet i r) {x : Option α} (h : Maybe R i r x) :
    Quiet i r := by
  cases x with
  | none => cases h; exact Quiet.refl _
  | some a => exact hR _ _ _ h

theorem quiet_many {R : Phrase α} (hR : ∀ i r a, R i r a → Quiet i r) {x : List α} (h : Many R i r x) : Quiet i r := by
  induction h with
  | nil => exact Quiet.refl _
  | cons h _ ih => exact (hR _ _ _ h).trans ih

mutual

theorem quiet_factor {i r : List Ranged} {e : Expr} : Factor i r e → Quiet i r
  | .number h => Quiet.word h (by simp [QuietTok])
  | .parens h1 h2 h3 => (Quiet.word h1 (by simp [QuietTok])).trans
      ((quiet_sum h2).trans (Quiet.word h3 (by simp [QuietTok])))

theorem quiet_signed {i r : List Ranged} {e : Expr} : Signed i r e → Quiet i r
  | .unsigned h => quiet_factor h
  | .plus h1 h2 => (Quiet.word h1 (by simp [QuietTok])).trans (quiet_factor h2)
  | .minus h1 h2 => (Quiet.word h1 (by simp [QuietTok])).trans (quiet_factor h2)

theorem quiet_product {i r : List Ranged} {e : Expr} : Product i r e → Quiet i r
  | .single h => quiet_signed h
  | .times h1 h2 h3 => (quiet_product h1).trans ((Quiet.word h2 (by simp [QuietTok])).trans (quiet_signed h3))
  | .over h1 h2 h3 => (quiet_product h1).trans ((Quiet.word h2 (by simp [QuietTok])).trans (quiet_signed h3))

theorem quiet_sum {i r : List Ranged} {e : Expr} : SumExpr i r e → Quiet i r
  | .single h => quiet_product h
  | .plus h1 h2 h3 => (quiet_sum h1).trans ((Quiet.word h2 (by simp [QuietTok])).trans (quiet_product h3))
  | .minus h1 h2 h3 => (quiet_sum h1).trans ((Quiet.word h2 (by simp [QuietTok])).trans (quiet_product h3))

end

theorem quiet_date {d : Date} (h : DateP i r d) : Quiet i r := Quiet.word h (by simp [QuietTok])

theorem quiet_number {d : Dec} (h : NumberP i r d) : Quiet i r := Quiet.word h (by simp [QuietTok])

theorem quiet_string {s : Str} (h : StringP i r s) : Quiet i r := Quiet.word h (by simp [QuietTok])

theorem quiet_currency {s : Str} (h : CurrencyP i r s) : Quiet i r := Quiet.word h.1 (by simp [QuietTok])

theorem quiet_flag {f : Flag} (h : FlagP i r f) : Quiet i r := by
  rcases h with h | ⟨_, h⟩ | ⟨_, h⟩ <;> exact Quiet.word h (by simp [QuietTok])

theorem quiet_txn {f : Flag} (h : TxnP i r f) : Quiet i r := by
  rcases h with ⟨_, h⟩ | h
  · exact Quiet.word h (by simp [QuietTok])
  · exact quiet_flag h

theorem quiet_booking {b : Booking} (h : BookingP i r b) : Quiet i r := by
  obtain ⟨s, h, _⟩ := h
  exact Quiet.word h (by simp [QuietTok])

theorem quiet_strings {x : Option (Spanned Str) × Option (Spanned Str)} (h : PayeeNarrationP cfg i r x) : Quiet i r := by
  cases h with
  | neither => exact Quiet.refl _
  | narration h => exact quiet_string h.1
  | both h1 h2 => exact (quiet_string h1.1).trans (quiet_string h2.1)

theorem quiet_currencies {cs : List (Spanned Str)} (h : CurrenciesP cfg i r cs) : Quiet i r := by
  cases h with
  | none => exact Quiet.refl _
  | some h1 h2 =>
    exact (quiet_currency h1.1).trans (quiet_many (fun _ _ _ ⟨j, ha, hb⟩ =>
      (Quiet.word ha (by simp [QuietTok])).trans (quiet_currency hb.1)) h2)

section
variable [DecOps]

theorem quiet_value {v : ExprValue} (h : ValueP i r v) : Quiet i r := quiet_sum h.1.1

theorem quiet_amount {a : Amount} (h : AmountP cfg i r a) : Quiet i r := by
  obtain ⟨h1, h2⟩ := h
  exact (quiet_value h1.1).trans (quiet_currency h2.1)

theorem quiet_tolerant {a : AmountWithTolerance} (h : TolerantP cfg i r a) : Quiet i r := by
  cases h with
  | exact h => exact quiet_amount h.1
  | tolerant h1 h2 h3 h4 _ =>
    exact (quiet_value h1.1).trans ((Quiet.word h2 (by simp [QuietTok])).trans
      ((quiet_number h3.1).trans (quiet_currency h4.1)))

variable [Unicode]

omit [DecOps] in
theorem quiet_account {a : Account} (h : AccountP o i r a) : Quiet i r := Quiet.word h.1 (by simp [QuietTok])

theorem quiet_body {keyword : Token} {v : DirectiveVariant} {es : List PErr} (h1 : Word keyword i j)
    (h : BodyP cfg o keyword j r v es) : Quiet i r := by
  cases h with
  | price a b => exact (Quiet.word h1 (by simp [QuietTok])).trans ((quiet_currency a.1).trans (quiet_amount b.1))
  | balance a b => exact (Quiet.word h1 (by simp [QuietTok])).trans ((quiet_account a.1).trans (quiet_tolerant b.1))
  | «open» a b c =>
    exact (Quiet.word h1 (by simp [QuietTok])).trans ((quiet_account a.1).trans ((quiet_currencies b).trans
      (quiet_maybe (fun _ _ _ h => quiet_booking h.1) c)))
  | close a => exact (Quiet.word h1 (by simp [QuietTok])).trans (quiet_account a.1)
  | commodity a => exact (Quiet.word h1 (by simp [QuietTok])).trans (quiet_currency a.1)
  | pad a b => exact (Quiet.word h1 (by simp [QuietTok])).trans ((quiet_account a.1).trans (quiet_account b.1))
  | document a b => exact (Quiet.word h1 (by simp [QuietTok])).trans ((quiet_account a.1).trans (quiet_string b.1))
  | note a b => exact (Quiet.word h1 (by simp [QuietTok])).trans ((quiet_account a.1).trans (quiet_string b.1))
  | event a b => exact (Quiet.word h1 (by simp [QuietTok])).trans ((quiet_string a.1).trans (quiet_string b.1))
  | query a b => exact (Quiet.word h1 (by simp [QuietTok])).trans ((quiet_string a.1).trans (quiet_string b.1))

theorem quiet_compound {e : CompoundExprValue} (h : CompoundExprP i r e) : Quiet i r := by
  cases h with
  | both a b c => exact (quiet_value a).trans ((Quiet.word b (by simp [QuietTok])).trans (quiet_value c))
  | perUnitHash a b => exact (quiet_value a).trans (Quiet.word b (by simp [QuietTok]))
  | perUnit a => exact quiet_value a
  | total a b => exact (Quiet.word a (by simp [QuietTok])).trans (quiet_value b)

theorem quiet_price {p : PriceSpec} (h : PriceP i r p) : Quiet i r := by
  cases h with
  | perUnit a b => exact (Quiet.word a (by simp [QuietTok])).trans (quiet_value b)
  | total a b => exact (Quiet.word a (by simp [QuietTok])).trans (quiet_value b)
  | perUnitCurrency a b c =>
    exact (Quiet.word a (by simp [QuietTok])).trans ((quiet_value b).trans (quiet_currency c))
  | totalCurrency a b c =>
    exact (Quiet.word a (by simp [QuietTok])).trans ((quiet_value b).trans (quiet_currency c))
  | currency t a b =>
    exact (Quiet.word a (by rcases t with rfl | rfl <;> simp [QuietTok])).trans (quiet_currency b)
  | unspecified t a => exact Quiet.word a (by rcases t with rfl | rfl <;> simp [QuietTok])

theorem quiet_costComp {c : CostComp} (h : CostCompP i r c) : Quiet i r := by
  cases h with
  | amount h =>
    cases h with
    | amountCurrency a b => exact (quiet_compound a).trans (quiet_currency b)
    | amount a => exact quiet_compound a
    | currency a => exact quiet_currency a
    | hashCurrency a b => exact (Quiet.word a (by simp [QuietTok])).trans (quiet_currency b)
  | date h => exact quiet_date h
  | label h => exact quiet_string h
  | merge h => exact Quiet.word h (by simp [QuietTok])

theorem quiet_cost {c : CostSpec} (h : CostSpecP cfg i r c) : Quiet i r := by
  cases h with
  | empty a b _ => exact (Quiet.word a (by simp [QuietTok])).trans (Quiet.word b (by simp [QuietTok]))
  | comps a b c d _ _ =>
    refine (Quiet.word a (by simp [QuietTok])).trans ((quiet_costComp b.1).trans (Quiet.trans (quiet_many ?_ c)
      (Quiet.word d (by simp [QuietTok]))))
    rintro _ _ _ ⟨j, h1, h2⟩
    exact (Quiet.word h1 (by simp [QuietTok])).trans (quiet_costComp h2.1)

theorem quiet_postingLine {p : PostingLine} (h : PostingLineP cfg o i r p) : Quiet i r := by
  cases h with
  | mk a b c d e f =>
    exact (quiet_maybe (fun _ _ _ h => quiet_flag h.1) a).trans ((quiet_account b.1).trans
      ((quiet_maybe (fun _ _ _ h => quiet_value h.1) c).trans ((quiet_maybe (fun _ _ _ h => quiet_currency h.1) d).trans
        ((quiet_maybe (fun _ _ _ h => quiet_cost h.1) e).trans (quiet_maybe (fun _ _ _ h => quiet_price h.1) f)))))

/-! ### The end of the first line -/

/-- The tokens between two positions, none of which ends the line. -/
def SameLine (i r : List Ranged) : Prop := ∃ run, i = run ++ r ∧ ∀ t ∈ run, t.tok ≠ .eol

omit [DecOps] [Unicode] in
theorem Quiet.line (h : Quiet i r) : SameLine i r := by
  obtain ⟨run, h1, h2⟩ := h
  exact ⟨run, h1, fun t ht => (h2 t ht).1⟩

omit [DecOps] [Unicode] in
theorem SameLine.trans (h1 : SameLine i j) (h2 : SameLine j r) : SameLine i r := by
  obtain ⟨a, rfl, ha⟩ := h1
  obtain ⟨b, rfl, hb⟩ := h2
  refine ⟨a ++ b, by simp, fun t ht => ?_⟩
  rcases List.mem_append.mp ht with ht | ht
  · exact ha t ht
  · exact hb t ht

omit [DecOps] [Unicode] in
theorem SameLine.word {t : Token} (h : Word t i r) (ht : t ≠ .eol) : SameLine i r := by
  obtain ⟨x, y, rfl⟩ := h
  exact ⟨[⟨t, x, y⟩], rfl, by simpa using ht⟩

omit [DecOps] [Unicode] in
theorem SameLine.refl (i : List Ranged) : SameLine i i := ⟨[], rfl, by simp⟩

theorem sameLine_value {v : MetaValue} (h : MetaValueP cfg o i r v) : SameLine i r := by
  cases h with
  | amount h => exact (quiet_amount h).line
  | simple h =>
    cases h with
    | string h => exact (quiet_string h).line
    | currency h => exact (quiet_currency h).line
    | account h => exact (quiet_account h).line
    | tag h => exact SameLine.word h.1 (by simp)
    | link h => exact SameLine.word h.1 (by simp)
    | date h => exact (quiet_date h).line
    | bool h => rcases h with ⟨_, h⟩ | ⟨_, h⟩ <;> exact SameLine.word h (by simp)
    | null h => exact SameLine.word h (by simp)
    | expr h _ => exact (quiet_value h).line

theorem sameLine_values {vs : List (Spanned MetaValue)} (h : Many (At cfg (MetaValueP cfg o)) i r vs) :
    SameLine i r := by
  induction h with
  | nil => exact SameLine.refl _
  | cons h _ ih => exact (sameLine_value h.1).trans ih


omit [DecOps] [Unicode] in
theorem line_end {m n : List Ranged} (h : SameLine i m) (he : EndOfLine m n) :
    i = firstLine i ++ m ∧ afterFirstLine i = n := by
  obtain ⟨run, rfl, hr⟩ := h
  have hr' : ∀ t ∈ run, decide (t.tok ≠ .eol) = true := fun t ht => by simpa using hr t ht
  rcases he with ⟨x, y, rfl⟩ | ⟨rfl, rfl⟩
  · constructor
    · unfold firstLine
      rw [List.takeWhile_append_of_pos hr', List.takeWhile_cons_of_neg (by simp)]
      simp
    · unfold afterFirstLine
      rw [List.dropWhile_append_of_pos hr', List.dropWhile_cons_of_neg (by simp)]
      rfl
  · constructor
    · unfold firstLine
      rw [List.takeWhile_append_of_pos hr']
      simp
    · unfold afterFirstLine
      rw [List.dropWhile_append_of_pos hr']
      rfl

/-- The tags and links among tokens. -/
def tagOrLinkTokens (cfg : ParseCfg) (line : List Ranged) : List TagOrLink :=
  line.filterMap (fun t =>
      match t.tok with
      | .tag n => some (.inl ⟨n, ⟨cfg.source, t.start, t.stop⟩⟩)
      | .link n => some (.inr ⟨n, ⟨cfg.source, t.start, t.stop⟩⟩)
      | _ => none)

omit [DecOps] [Unicode] in
theorem quiet_noTags {run : List Ranged} (h : ∀ t ∈ run, QuietTok t.tok) : tagOrLinkTokens cfg run = [] := by
  unfold tagOrLinkTokens
  rw [List.filterMap_eq_nil_iff]
  rintro ⟨t, x, y⟩ ht
  have := h _ ht
  cases t <;> first | rfl | exact absurd rfl (this.2.1 _) | exact absurd rfl (this.2.2 _)

omit [DecOps] in
theorem tagsLinks_tokens {head : List TagOrLink} (h : Many (TagOrLinkP cfg) i r head) :
    ∃ run, i = run ++ r ∧ (∀ t ∈ run, t.tok ≠ .eol) ∧ tagOrLinkTokens cfg run = head := by
  induction h with
  | nil => exact ⟨[], rfl, by simp, rfl⟩
  | cons h _ ih =>
    obtain ⟨run, rfl, h2, rfl⟩ := ih
    cases h with
    | @tag _ _ t h =>
      obtain ⟨x, y, rfl, hs⟩ := at_word h.1.1 h.2
      refine ⟨⟨.tag t.item, x, y⟩ :: run, rfl, by simpa using h2, ?_⟩
      obtain ⟨t, span⟩ := t
      cases hs
      rfl
    | @link _ _ t h =>
      obtain ⟨x, y, rfl, hs⟩ := at_word h.1.1 h.2
      refine ⟨⟨.link t.item, x, y⟩ :: run, rfl, by simpa using h2, ?_⟩
      obtain ⟨t, span⟩ := t
      cases hs
      rfl

omit [DecOps] in
theorem first_line {head : List TagOrLink} {l m n : List Ranged} (h1 : Quiet i l) (h2 : Many (TagOrLinkP cfg) l m head)
    (h3 : EndOfLine m n) : tagOrLinkTokens cfg (firstLine i) = head ∧ afterFirstLine i = n := by
  obtain ⟨run, rfl, hq⟩ := h1
  obtain ⟨run2, rfl, hn, rfl⟩ := tagsLinks_tokens h2
  have hl : SameLine (run ++ (run2 ++ m)) m := ⟨run ++ run2, by simp, fun t ht => by
    rcases List.mem_append.mp ht with ht | ht
    · exact (hq t ht).1
    · exact hn t ht⟩
  obtain ⟨h4, h5⟩ := line_end hl h3
  refine ⟨?_, h5⟩
  rw [← List.append_assoc, List.append_cancel_right_eq] at h4
  rw [← List.append_assoc, ← h4, tagOrLinkTokens, List.filterMap_append]
  have := quiet_noTags (cfg := cfg) hq
  unfold tagOrLinkTokens at this
  rw [this]
  rfl

/-! ### Where the metadata ends -/

theorem starts_key {kv : MetaKeyValue} (h : KeyValueP cfg o i r kv) : ∃ x rest k, i = x :: rest ∧ x.tok = .key k := by
  cases h with
  | value h _ _ =>
    obtain ⟨⟨⟨a, b, rfl⟩, _⟩, _⟩ := h
    exact ⟨_, _, _, rfl, rfl⟩
  | null h _ _ =>
    obtain ⟨⟨⟨a, b, rfl⟩, _⟩, _⟩ := h
    exact ⟨_, _, _, rfl, rfl⟩

theorem noLine (h : NotLine r) : ∀ q x, ¬ LineP cfg o r q x := by
  intro q x hl
  cases hl with
  | keyValue h1 h2 _ =>
    obtain ⟨x, rest, k, rfl, hk⟩ := starts_key h2.1
    exact (h _ h1 _ rfl).1 k hk
  | tag h1 h2 _ =>
    obtain ⟨⟨⟨a, b, rfl⟩, _⟩, _⟩ := h2
    exact (h _ h1 _ rfl).2.1 _ rfl
  | link h1 h2 _ =>
    obtain ⟨⟨⟨a, b, rfl⟩, _⟩, _⟩ := h2
    exact (h _ h1 _ rfl).2.2 _ rfl

theorem notLine_postings {ps : List (Spanned Posting × List PErr)} (h : Many (PostingP cfg o) i r ps)
    (hr : NotLine r) : NotLine i := by
  induction h with
  | nil => exact hr
  | cons h _ ih => exact (fwd_posting h (ih hr)).2

/-! ### Currency lists -/

omit [DecOps] [Unicode] in
theorem moreCurrencies_eq {cs : List (Spanned Str)} (h : Many (CommaCurrencyP cfg) i r cs)
    (hr : Head r (fun t => t ≠ .comma)) : moreCurrencies cfg i = cs := by
  induction h with
  | nil =>
    rename_i i
    cases i with
    | nil => rfl
    | cons x xs =>
      obtain ⟨t, a, b⟩ := x
      have := hr _ rfl
      unfold moreCurrencies
      split
      · rename_i h
        cases h
        exact absurd rfl this
      · rfl
  | cons h _ ih =>
    rename_i c cs _
    obtain ⟨k, ⟨a, b, rfl⟩, h1, h2⟩ := h
    obtain ⟨x, y, rfl, hs⟩ := at_word h1.1 h2
    obtain ⟨c, span⟩ := c
    cases hs
    simp only [moreCurrencies]
    rw [ih hr]

omit [DecOps] [Unicode] in
theorem listedCurrencies_eq {cs : List (Spanned Str)} (h : CurrenciesP cfg i r cs)
    (hr : Head r (fun t => t ≠ .comma ∧ ∀ c, t ≠ .currency c)) : (listedCurrencies cfg i).Perm cs := by
  cases h with
  | none =>
    cases i with
    | nil => exact .refl _
    | cons x xs =>
      obtain ⟨t, a, b⟩ := x
      have := hr _ rfl
      unfold listedCurrencies
      split
      · rename_i h
        cases h
        exact absurd rfl (this.2 _)
      · exact .refl _
  | @some _ _ _ c cs h1 h2 =>
    obtain ⟨x, y, rfl, hs⟩ := at_word h1.1.1 h1.2
    obtain ⟨c, span⟩ := c
    cases hs
    simp only [listedCurrencies]
    rw [moreCurrencies_eq h2 (hr.mono fun _ h => h.1)]
    exact List.perm_append_comm (l₁ := [_])

omit [DecOps] in
theorem afterCurrencies {k l m n : List Ranged} {b : Option (Spanned Booking)} {head : List TagOrLink}
    (h1 : Maybe (At cfg BookingP) k l b) (h2 : Many (TagOrLinkP cfg) l m head) (h3 : EndOfLine m n) :
    Head k (fun t => t ≠ .comma ∧ ∀ c, t ≠ .currency c) := by
  have h4 : Head l (fun t => t ≠ .comma ∧ ∀ c, t ≠ .currency c) := by
    refine (head_many (C := fun t => t ≠ .comma ∧ ∀ c, t ≠ .currency c) h2 (fun i r a h => ?_) (head_lineEnd h3)).mono ?_
    · cases h with
      | tag h => exact starts_word h.1.1 (by simp)
      | link h => exact starts_word h.1.1 (by simp)
    · rintro t (h | rfl)
      · exact h
      · simp
  refine (head_maybe (C := fun t => t ≠ .comma ∧ ∀ c, t ≠ .currency c) h1 (fun a h => ?_) h4).mono ?_
  · obtain ⟨⟨s, h, _⟩, _⟩ := h
    exact starts_word h (by simp)
  · rintro t (h | h) <;> exact h

end

end Lima.Grammar
