import Verif.Lemmas.ExprGrammar
import Verif.Props.Names
import Verif.Props.CostSpec

/-! The parsers of single tokens and amounts only accept phrases of the specification. -/

namespace Lima.Grammar

open Spec P

/-! ### Names -/

theorem currency_ok_iff (s t : Str) : Currency.tryFrom s = .ok t ↔ t = s ∧ ValidCurrency s := by
  refine ⟨(Props.C16_currency_partial s).1 t, ?_⟩
  rintro ⟨rfl, h⟩
  refine ((Props.C16_currency_partial t).2 ?_).2.mpr h
  have up : ∀ c, Upper c → Ascii c := fun c hc => by
    rw [Upper, char_le_iff, char_le_iff] at hc
    rw [Ascii, char_lt_iff]
    have : 'Z'.toNat = 90 := rfl
    have : '\x80'.toNat = 128 := rfl
    omega
  have dig : ∀ c, Digit c → Ascii c := fun c hc => by
    rw [Digit, char_le_iff, char_le_iff] at hc
    rw [Ascii, char_lt_iff]
    have : '9'.toNat = 57 := rfl
    have : '\x80'.toNat = 128 := rfl
    omega
  rcases h with ⟨a, rfl, ha⟩ | ⟨a, mid, z, rfl, ha, hm, hz, _⟩
  · simpa using up a ha
  · intro c hc
    simp only [List.mem_cons, List.mem_append, List.not_mem_nil, or_false] at hc
    rcases hc with rfl | hc | rfl
    · rcases ha with ha | rfl
      · exact up _ ha
      · unfold Ascii; decide
    · rcases hm c hc with h | h | rfl | rfl | rfl | rfl
      · exact up _ h
      · exact dig _ h
      all_goals (unfold Ascii; decide)
    · rcases hz with h | h
      · exact up _ h
      · exact dig _ h

section
variable [Unicode]

theorem account_ok_iff (names : AccountTypeNames) (s : Str) (a : Account) :
    Account.new s names = .ok a ↔ a.name = s ∧
      ∃ root subs, a.name = joinColon (root :: subs) ∧ ValidAccountTypeName root ∧
        (∀ sub ∈ subs, ValidAccountName sub) ∧ names.get root = some a.accountType := by
  unfold Account.new
  constructor
  · intro h
    cases hs : splitColon s with
    | nil => exact absurd hs (splitColon_ne_nil s)
    | cons root subs =>
      rw [hs] at h
      simp only at h
      cases ht : AccountTypeName.tryFrom root with
      | error e => simp [ht] at h
      | ok root' =>
        have ⟨e1, hv⟩ := (accountTypeName_ok root root').mp ht
        subst e1
        simp only [ht] at h
        cases hc : checkSubaccounts subs with
        | error e => simp [hc] at h
        | ok u =>
          simp only [hc] at h
          cases hg : names.get root' with
          | none => simp [hg] at h
          | some t =>
            simp only [hg, Except.ok.injEq] at h
            subst h
            refine ⟨rfl, root', subs, ?_, hv, (checkSubaccounts_ok subs).mp hc, hg⟩
            rw [← hs, join_splitColon]
  · rintro ⟨rfl, root, subs, hs, h1, h2, h3⟩
    have hsplit : splitColon a.name = root :: subs := by
      rw [hs]
      apply splitColon_join _ (by simp)
      intro w hw
      rcases List.mem_cons.mp hw with rfl | hw
      · exact Props.validAccountTypeName_noColon h1
      · exact Props.validAccountName_noColon (h2 w hw)
    have ht := (accountTypeName_ok root root).mpr ⟨rfl, h1⟩
    have hc := (checkSubaccounts_ok subs).mpr h2
    rw [hsplit]
    simp only [ht, hc, h3]

end

/-! ### Single tokens -/

theorem pur_date : Pur date (fun _ => DateP) :=
  (Pur.select _).mono fun _ _ _ _ ⟨t, h, h'⟩ => by
    cases t <;> simp only [reduceCtorEq] at h'
    cases h'; exact h

theorem pur_decimal : Pur decimal (fun _ => NumberP) :=
  (Pur.select _).mono fun _ _ _ _ ⟨t, h, h'⟩ => by
    cases t <;> simp only [reduceCtorEq] at h'
    cases h'; exact h

theorem pur_bool : Pur bool (fun _ => BoolP) :=
  (Pur.select _).mono fun _ _ _ _ ⟨t, h, h'⟩ => by
    cases t <;> simp only [reduceCtorEq] at h'
    · cases h'; exact .inl ⟨rfl, h⟩
    · cases h'; exact .inr ⟨rfl, h⟩

theorem pur_currency : Pur currency (fun _ => CurrencyP) := by
  refine ((Pur.select _).bind (S := fun s _ i r c => r = i ∧ c = s ∧ ValidCurrency s) fun s => ?_).mono ?_
  · split
    · rename_i c h
      obtain ⟨rfl, hv⟩ := (currency_ok_iff _ _).mp h
      exact (Pur.pure _).mono fun _ _ _ _ h => ⟨h.1, h.2, hv⟩
    · exact Pur.failure.mono fun _ _ _ _ h => h.elim
    · exact Pur.panicking.mono fun _ _ _ _ h => h.elim
  · rintro o i r c ⟨s, j, ⟨t, h, h'⟩, rfl, rfl, hv⟩
    cases t <;> simp only [reduceCtorEq] at h'
    cases h'; exact ⟨h, hv⟩

theorem pur_flag : Pur flag (fun _ => FlagP) :=
  (Pur.select _).mono fun _ _ _ _ ⟨t, h, h'⟩ => by
    cases t <;> simp only [reduceCtorEq] at h'
    · cases h'; exact .inr (.inr ⟨rfl, h⟩)
    · cases h'; exact .inr (.inl ⟨rfl, h⟩)
    · cases h'; exact .inl h

/-- A keyword standing for something. -/
theorem pur_word {α : Type} (t : Token) (x : α) : Pur (do P.just t; pure x : P α) (fun _ i r y => y = x ∧ Word t i r) :=
  ((Pur.just t).bind fun _ => Pur.pure x).mono fun _ _ _ _ ⟨_, _, h, h1, h2⟩ => ⟨h2, h1 ▸ h⟩

/-- A renamed result. -/
theorem Pur.map {α β : Type} {p : P α} {R : ParserOptions → Phrase α} (h : Pur p R) (f : α → β) :
    Pur (do let a ← p; pure (f a)) (fun o i r b => ∃ a, b = f a ∧ R o i r a) :=
  (h.bind fun a => Pur.pure (f a)).mono fun _ _ _ _ ⟨a, _, h, h1, h2⟩ => ⟨a, h2, h1 ▸ h⟩

theorem pur_txn : Pur txn (fun _ => TxnP) := by
  refine Pur.choice fun p hp => ?_
  simp only [List.mem_cons, List.not_mem_nil, or_false] at hp
  rcases hp with rfl | rfl
  · exact (pur_word _ _).mono fun _ _ _ _ h => .inl h
  · exact pur_flag.mono fun _ _ _ _ h => .inr h

section
variable [Unicode]

omit [Unicode] in
theorem pur_checked {ε : Type} (sel : Token → Option Str) (f : Str → Except ε Str) (V : Str → Prop)
    (hf : ∀ s t, f s = .ok t ↔ t = s ∧ V s) :
    Pur (checked sel f) (fun _ i r a => (∃ t, Word t i r ∧ sel t = some a) ∧ V a) := by
  refine ((Pur.select _).bind (S := fun s _ i r c => r = i ∧ c = s ∧ V s) fun s => ?_).mono ?_
  · split
    · rename_i c h
      obtain ⟨rfl, hv⟩ := (hf _ _).mp h
      exact (Pur.pure _).mono fun _ _ _ _ h => ⟨h.1, h.2, hv⟩
    · exact Pur.failure.mono fun _ _ _ _ h => h.elim
  · rintro o i r c ⟨s, j, ⟨t, h, h'⟩, rfl, rfl, hv⟩
    exact ⟨⟨t, h, h'⟩, hv⟩

theorem pur_tag : Pur tag (fun _ => TagP) :=
  (pur_checked _ _ _ Props.C17_tag_link_accepted_iff).mono fun _ _ _ _ ⟨⟨t, h, h'⟩, hv⟩ => by
    cases t <;> simp only [reduceCtorEq] at h'
    cases h'; exact ⟨h, hv⟩

theorem pur_link : Pur link (fun _ => LinkP) :=
  (pur_checked _ _ _ Props.C17_tag_link_accepted_iff).mono fun _ _ _ _ ⟨⟨t, h, h'⟩, hv⟩ => by
    cases t <;> simp only [reduceCtorEq] at h'
    cases h'; exact ⟨h, hv⟩

theorem pur_key : Pur key (fun _ => KeyP) :=
  (pur_checked _ _ _ key_ok).mono fun _ _ _ _ ⟨⟨t, h, h'⟩, hv⟩ => by
    cases t <;> simp only [reduceCtorEq] at h'
    cases h'; exact ⟨h, hv⟩

omit [Unicode] in
theorem pur_options : Pur options (fun o i r x => r = i ∧ x = o) := by
  constructor
  · intro s a s' h
    cases h
    exact ⟨_, rfl, List.suffix_refl _, rfl, rfl⟩
  · intro s s' h; cases h

theorem pur_account : Pur account AccountP := by
  refine ((Pur.select _).bind fun s => pur_options.bind
    (S := fun o _ i r a => r = i ∧ a.name = s ∧ ∃ root subs, a.name = joinColon (root :: subs) ∧
      ValidAccountTypeName root ∧ (∀ sub ∈ subs, ValidAccountName sub) ∧
      o.accountTypeNames.get root = some a.accountType) fun o => ?_).mono ?_
  · split
    · rename_i a h
      have := (account_ok_iff _ _ _).mp h
      exact (Pur.pure _).mono fun _ _ _ _ h => ⟨h.1, h.2 ▸ this⟩
    · exact Pur.failure.mono fun _ _ _ _ h => h.elim
  · rintro o i r a ⟨s, j, ⟨t, h, h'⟩, o', j', ⟨rfl, rfl⟩, rfl, rfl, h3⟩
    cases t <;> simp only [reduceCtorEq] at h'
    cases h'; exact ⟨h, h3⟩

end

/-! ### Amounts -/

section
variable [DecOps]

theorem ofExpr_expr {e : Expr} {v : ExprValue} (h : ExprValue.ofExpr e = some v) : v.expr = e := by
  unfold ExprValue.ofExpr at h
  split at h
  · cases h
  · cases h; rfl

theorem pur_exprValue : Pur exprValue (fun _ => ValueP) := by
  refine (pur_expr.bind (S := fun e _ i r v => r = i ∧ ExprValue.ofExpr e = some v) fun s => ?_).mono ?_
  · split
    · rename_i v h
      exact (Pur.pure _).mono fun _ _ _ _ h' => ⟨h'.1, h'.2 ▸ h⟩
    · exact Pur.panicking.mono fun _ _ _ _ h => h.elim
  · rintro o i r v ⟨e, j, h, rfl, h'⟩
    have := ofExpr_expr h'
    subst this
    exact ⟨h, h'⟩

theorem pur_amount (cfg : ParseCfg) : Pur (amount cfg) (fun _ => AmountP cfg) := by
  refine (pur_exprValue.spanned.bind fun n => pur_currency.spanned.bind fun c => Pur.pure _).mono ?_
  rintro o i r a ⟨n, j, h1, c, k, h2, rfl, rfl⟩
  exact .mk h1 h2

theorem pur_amountWithTolerance (cfg : ParseCfg) : Pur (amountWithTolerance cfg) (fun _ => TolerantP cfg) := by
  refine Pur.choice fun p hp => ?_
  simp only [List.mem_cons, List.not_mem_nil, or_false] at hp
  rcases hp with rfl | rfl
  · refine (Pur.map (pur_amount cfg).spanned _).mono ?_
    rintro o i r a ⟨a, rfl, h⟩
    exact .exact h
  · refine (Pur.map (Pur.spanned (pur_exprValue.spanned.bind fun n => (Pur.just _).bind fun _ =>
      pur_decimal.spanned.bind fun t => pur_currency.spanned.bind fun c => Pur.pure _)) _).mono ?_
    rintro o i r a ⟨⟨x, span⟩, rfl, ⟨n, j, h1, u, k, h2, t, l, h3, c, m, h4, rfl, hx⟩, h5⟩
    dsimp only at hx
    subst hx
    exact .tolerant h1 h2 h3 h4 h5

theorem pur_compoundExpr : Pur compoundExpr (fun _ => CompoundExprP) := by
  refine Pur.choice fun p hp => ?_
  simp only [List.mem_cons, List.not_mem_nil, or_false] at hp
  rcases hp with rfl | rfl | rfl | rfl
  · refine (pur_exprValue.bind fun _ => (Pur.just _).bind fun _ => pur_exprValue.bind fun _ => Pur.pure _).mono ?_
    rintro o i r a ⟨p, j, h1, _, k, h2, t, l, h3, rfl, rfl⟩
    exact .both h1 h2 h3
  · refine (pur_exprValue.bind fun _ => (Pur.just _).bind fun _ => Pur.pure _).mono ?_
    rintro o i r a ⟨p, j, h1, _, k, h2, rfl, rfl⟩
    exact .perUnitHash h1 h2
  · refine (Pur.map pur_exprValue _).mono ?_
    rintro o i r a ⟨p, rfl, h⟩
    exact .perUnit h
  · refine ((Pur.just _).bind fun _ => pur_exprValue.bind fun _ => Pur.pure _).mono ?_
    rintro o i r a ⟨_, j, h1, t, k, h2, rfl, rfl⟩
    exact .total h1 h2

theorem pur_compoundAmount : Pur compoundAmount (fun _ => CompoundAmountP) := by
  refine Pur.choice fun p hp => ?_
  simp only [List.mem_cons, List.not_mem_nil, or_false] at hp
  rcases hp with rfl | rfl | rfl
  · refine (pur_compoundExpr.bind fun _ => pur_currency.bind fun _ => Pur.pure _).mono ?_
    rintro o i r a ⟨a, j, h1, c, k, h2, rfl, rfl⟩
    exact .amountCurrency h1 h2
  · refine (Pur.map pur_compoundExpr _).mono ?_
    rintro o i r a ⟨p, rfl, h⟩
    exact .amount h
  · refine ((Pur.just _).orNot.bind fun _ => pur_currency.bind fun _ => Pur.pure _).mono ?_
    rintro o i r a ⟨x, j, h1, c, k, h2, rfl, rfl⟩
    cases x with
    | some u => exact .hashCurrency h1 h2
    | none => cases h1; exact .currency h2

theorem pur_priceAnnotation : Pur priceAnnotation (fun _ => PriceP) := by
  have hk : Pur (P.choice [(do P.just .at; pure false), (do P.just .atAt; pure true)])
      (fun _ i r b => (b = false ∧ Word .at i r) ∨ (b = true ∧ Word .atAt i r)) := by
    refine Pur.choice fun p hp => ?_
    simp only [List.mem_cons, List.not_mem_nil, or_false] at hp
    rcases hp with rfl | rfl
    · exact (pur_word _ _).mono fun _ _ _ _ h => .inl h
    · exact (pur_word _ _).mono fun _ _ _ _ h => .inr h
  refine (hk.bind fun isTotal => pur_exprValue.orNot.bind fun a => pur_currency.orNot.bind
    (S := fun c _ i r p => r = i ∧ p = (match a, c with
      | some a, some c => .currencyAmount (if isTotal then .total a else .perUnit a) c
      | some a, none => .bareAmount (if isTotal then .total a else .perUnit a)
      | none, some c => .bareCurrency c
      | none, none => .unspecified)) fun c => ?_).mono ?_
  · cases a <;> cases c <;> exact Pur.pure _
  · rintro o i r p ⟨b, j, hb, a, k, ha, c, l, hc, rfl, rfl⟩
    cases a with
    | none =>
      cases ha
      cases c with
      | none =>
        cases hc
        rcases hb with ⟨rfl, hb⟩ | ⟨rfl, hb⟩
        · exact .unspecified (.inl rfl) hb
        · exact .unspecified (.inr rfl) hb
      | some c =>
        rcases hb with ⟨rfl, hb⟩ | ⟨rfl, hb⟩
        · exact .currency (.inl rfl) hb hc
        · exact .currency (.inr rfl) hb hc
    | some a =>
      cases c with
      | none =>
        cases hc
        rcases hb with ⟨rfl, hb⟩ | ⟨rfl, hb⟩
        · exact .perUnit hb ha
        · exact .total hb ha
      | some c =>
        rcases hb with ⟨rfl, hb⟩ | ⟨rfl, hb⟩
        · exact .perUnitCurrency hb ha hc
        · exact .totalCurrency hb ha hc

end

end Lima.Grammar
