import Verif.Lemmas.GrammarComplete

/-! The parsers of cost specifications, metadata and directives accept what the specification allows. -/

namespace Lima.Grammar

open Spec P

variable {α β : Type} {cfg : ParseCfg} {o : ParserOptions} {i r : List Ranged}

theorem Fwd.congr {p : P α} {a a' : α} {es es' : List PErr} (h : Fwd cfg o p i r a es) (ha : a = a') (he : es = es') :
    Fwd cfg o p i r a' es' := ha ▸ he ▸ h

theorem head_word {t : Token} (h : Word t i r) : Head i (fun x => x = t) :=
  (starts_word (C := fun x => x = t) h rfl).head

theorem Fwd.emit_pure (es : List PErr) (a : α) (i : List Ranged) :
    Fwd cfg o (do P.emit es; Pure.pure a) i i a es := by
  have := Fwd.bind (f := fun _ => (Pure.pure a : P α)) (Fwd.emit (cfg := cfg) (o := o) es i) (Fwd.pure a i)
  rwa [List.append_nil] at this

/-- Phrases of which each may depend on what comes after it. -/
theorem Fwd.many {γ : Type} {p : P α} {R : Phrase γ} {f : γ → α} {e : γ → List PErr} (Good : List Ranged → Prop)
    (hc : Consumes p) (hp : ∀ i j a, R i j a → Good j → Fwd cfg o p i j (f a) (e a) ∧ Good i)
    {i r : List Ranged} {as : List γ} (h : Many R i r as) (hr : Good r) (hf : Fails o p r) :
    Fwd cfg o (P.rep p) i r (as.map f) (as.flatMap e) ∧ Good i := by
  induction h with
  | nil => exact ⟨Fwd.rep_nil hf, hr⟩
  | cons h _ ih =>
    obtain ⟨h1, h2⟩ := ih hr hf
    obtain ⟨h3, h4⟩ := hp _ _ _ h h2
    exact ⟨Fwd.rep_cons hc h3 h1, h4⟩

/-- Phrases without errors. -/
theorem Fwd.many_noErr {p : P α} {R : Phrase α} (Good : List Ranged → Prop)
    (hc : Consumes p) (hp : ∀ i j a, R i j a → Good j → Fwd cfg o p i j a [] ∧ Good i)
    {i r : List Ranged} {as : List α} (h : Many R i r as) (hr : Good r) (hf : Fails o p r) :
    Fwd cfg o (P.rep p) i r as [] ∧ Good i := by
  obtain ⟨h1, h2⟩ := Fwd.many (f := id) (e := fun _ => []) Good hc hp h hr hf
  exact ⟨h1.congr (List.map_id _) (by simp), h2⟩

section
variable [DecOps]

/-! ### Prices and costs -/

theorem starts_price {p : PriceSpec} (h : PriceP i r p) : Starts i (fun t => t = .at ∨ t = .atAt) := by
  cases h with
  | perUnit h _ => exact starts_word h (.inl rfl)
  | total h _ => exact starts_word h (.inr rfl)
  | perUnitCurrency h _ _ => exact starts_word h (.inl rfl)
  | totalCurrency h _ _ => exact starts_word h (.inr rfl)
  | currency ht h _ => exact starts_word h ht
  | unspecified ht h => exact starts_word h ht

theorem fwd_at {j : List Ranged} (h : Word .at i j) :
    Fwd cfg o (P.choice [(do P.just .at; pure false), (do P.just .atAt; pure true)]) i j false [] :=
  Fwd.alt_left (Fwd.then (Fwd.just h (by simp)) (Fwd.pure _ _))

theorem fwd_atAt {j : List Ranged} (h : Word .atAt i j) :
    Fwd cfg o (P.choice [(do P.just .at; pure false), (do P.just .atAt; pure true)]) i j true [] :=
  Fwd.alt_right (Fails.bind_left (Fails.just (starts_word (C := fun t => t ≠ .at) h (by simp)).head))
    (Fwd.then (Fwd.just h (by simp)) (Fwd.pure _ _))

theorem fails_currency_eol (hr : Head r (· = .eol)) : Fails o currency r :=
  fails_currency (hr.mono (by rintro _ rfl; simp))

theorem fails_exprValue_currency {c : Str} (h : CurrencyP i r c) : Fails o exprValue i :=
  fails_exprValue ((not_compound_currency h).mono fun _ h h' => h (.inl h'))

theorem fwd_price {p : PriceSpec} (h : PriceP i r p) (hr : Head r (· = .eol)) :
    Fwd cfg o priceAnnotation i r p [] := by
  have hr2 := fails_currency_eol (o := o) hr
  have hr1 : Fails o exprValue r := fails_exprValue (hr.mono (by rintro _ rfl; simp [ExprTok]))
  unfold priceAnnotation
  cases h with
  | perUnit h1 h2 =>
    exact Fwd.then (fwd_at h1) (Fwd.then (Fwd.orNot_some (fwd_exprValue h2))
      (Fwd.then (Fwd.orNot_none hr2) (Fwd.pure _ _)))
  | total h1 h2 =>
    exact Fwd.then (fwd_atAt h1) (Fwd.then (Fwd.orNot_some (fwd_exprValue h2))
      (Fwd.then (Fwd.orNot_none hr2) (Fwd.pure _ _)))
  | perUnitCurrency h1 h2 h3 =>
    exact Fwd.then (fwd_at h1) (Fwd.then (Fwd.orNot_some (fwd_exprValue h2))
      (Fwd.then (Fwd.orNot_some (fwd_currency h3)) (Fwd.pure _ _)))
  | totalCurrency h1 h2 h3 =>
    exact Fwd.then (fwd_atAt h1) (Fwd.then (Fwd.orNot_some (fwd_exprValue h2))
      (Fwd.then (Fwd.orNot_some (fwd_currency h3)) (Fwd.pure _ _)))
  | currency ht h1 h2 =>
    rcases ht with rfl | rfl
    · exact Fwd.then (fwd_at h1) (Fwd.then (Fwd.orNot_none (fails_exprValue_currency h2))
        (Fwd.then (Fwd.orNot_some (fwd_currency h2)) (Fwd.pure _ _)))
    · exact Fwd.then (fwd_atAt h1) (Fwd.then (Fwd.orNot_none (fails_exprValue_currency h2))
        (Fwd.then (Fwd.orNot_some (fwd_currency h2)) (Fwd.pure _ _)))
  | unspecified ht h1 =>
    rcases ht with rfl | rfl
    · exact Fwd.then (fwd_at h1) (Fwd.then (Fwd.orNot_none hr1) (Fwd.then (Fwd.orNot_none hr2) (Fwd.pure _ _)))
    · exact Fwd.then (fwd_atAt h1) (Fwd.then (Fwd.orNot_none hr1) (Fwd.then (Fwd.orNot_none hr2) (Fwd.pure _ _)))

theorem fails_price (h : Head i (fun t => t ≠ .at ∧ t ≠ .atAt)) : Fails o priceAnnotation i :=
  Fails.bind_left (Fails.alt (Fails.bind_left (Fails.just (h.mono fun _ h => h.1)))
    (Fails.bind_left (Fails.just (h.mono fun _ h => h.2))))

theorem fwd_costComp {c : CostComp} (h : CostCompP i r c) (hr : Head r (fun t => t = .comma ∨ t = .rcurl)) :
    Fwd cfg o (costComp cfg) i r c [] := by
  unfold costComp
  cases h with
  | amount h => exact Fwd.alt_left (Fwd.then (fwd_compoundAmount h hr) (Fwd.pure _ _))
  | date h =>
    refine Fwd.alt_right (Fails.bind_left (fails_compoundAmount ?_))
      (Fwd.alt_left (Fwd.then (fwd_date h) (Fwd.pure _ _)))
    exact (starts_word h (by simp [CompoundTok, ExprTok])).head
  | label h =>
    refine Fwd.alt_right (Fails.bind_left (fails_compoundAmount ?_)) (Fwd.alt_right (Fails.bind_left (fails_date ?_))
      (Fwd.alt_left (Fwd.then (fwd_string h) (Fwd.pure _ _))))
    · exact (starts_word h (by simp [CompoundTok, ExprTok])).head
    · exact (starts_word h (by simp)).head
  | merge h =>
    refine Fwd.alt_right (Fails.bind_left (fails_compoundAmount ?_)) (Fwd.alt_right (Fails.bind_left (fails_date ?_))
      (Fwd.alt_right (Fails.bind_left (fails_string ?_)) (Fwd.then (Fwd.just h (by simp)) (Fwd.pure _ _))))
    · exact (starts_word h (by simp [CompoundTok, ExprTok])).head
    · exact (starts_word h (by simp)).head
    · exact (starts_word h (by simp)).head

theorem fails_costComp (h : Head i (· = .rcurl)) : Fails o (costComp cfg) i := by
  refine Fails.alt (Fails.bind_left (fails_compoundAmount (h.mono (by rintro _ rfl; simp [CompoundTok, ExprTok]))))
    (Fails.alt (Fails.bind_left (fails_date (h.mono (by rintro _ rfl; simp))))
      (Fails.alt (Fails.bind_left (fails_string (h.mono (by rintro _ rfl; simp))))
        (Fails.bind_left (Fails.just (h.mono (by rintro _ rfl; simp))))))

theorem fwd_costSpec {c : CostSpec} (h : CostSpecP cfg i r c) : Fwd cfg o (costSpec cfg) i r c [] := by
  unfold costSpec
  cases h with
  | empty h1 h2 h3 =>
    refine Fwd.then (Fwd.just h1 (by simp)) (Fwd.then (Fwd.orNot_none (Fails.bind_left (Fails.spanned
      (fails_costComp (head_word h2))))) (Fwd.then (Fwd.just h2 (by simp)) ?_))
    have : costSpecOf [] = .ok c := (costSpecOf_ok_iff _ _).mpr ⟨h3, by intro kind; cases kind <;> simp [timesSaid]⟩
    simp only [this]
    exact Fwd.pure _ _
  | comps h1 h2 h3 h4 h5 h6 =>
    have hr : Head _ (fun t => t = .comma ∨ t = .rcurl) := (starts_word h4 (.inr rfl)).head
    obtain ⟨h7, h8⟩ := Fwd.many_noErr (cfg := cfg) (o := o) (fun i => Head i (fun t => t = .comma ∨ t = .rcurl))
      (consumes_commaCostComp cfg) (fun i j a ⟨k, hk, ha⟩ hj => ⟨Fwd.then (Fwd.just hk (by simp))
        ((fwd_costComp ha.1 hj).spanned ha.2), (starts_word hk (.inl rfl)).head⟩) h3 hr
      (Fails.bind_left (Fails.just (starts_word h4 (by simp)).head))
    refine Fwd.then (Fwd.just h1 (by simp)) (Fwd.then (Fwd.orNot_some (Fwd.then ((fwd_costComp h2.1 h8).spanned h2.2)
      (Fwd.then h7 (Fwd.pure _ _)))) (Fwd.then (Fwd.just h4 (by simp)) ?_))
    simp only [(costSpecOf_ok_iff _ _).mpr ⟨h5, h6⟩]
    exact Fwd.pure _ _

theorem starts_costSpec {c : CostSpec} (h : CostSpecP cfg i r c) : Starts i (· = .lcurl) := by
  cases h with
  | empty h => exact starts_word h rfl
  | comps h => exact starts_word h rfl

theorem fails_costSpec (h : Head i (fun t => t ≠ .lcurl)) : Fails o (costSpec cfg) i := Fails.bind_left (Fails.just h)

end

section
variable [Unicode]

/-! ### Tags and links of the first line -/

/-- Tokens of tags and links. -/
def TagLinkTok (t : Token) : Prop := (∃ s, t = .tag s) ∨ (∃ s, t = .link s)

theorem starts_tagOrLink {x : TagOrLink} (h : TagOrLinkP cfg i r x) : Starts i TagLinkTok := by
  cases h with
  | tag h => exact starts_word h.1.1 (.inl ⟨_, rfl⟩)
  | link h => exact starts_word h.1.1 (.inr ⟨_, rfl⟩)

theorem fwd_tagsLinks {head : List TagOrLink} (h : Many (TagOrLinkP cfg) i r head) (hr : Head r (· = .eol)) :
    Fwd cfg o (tagsLinks cfg) i r
      (headTags (firsts TagOrLink.name [] head), headLinks (firsts TagOrLink.name [] head)) (headErrors head) := by
  obtain ⟨h1, _⟩ := Fwd.many_noErr (cfg := cfg) (o := o) (fun _ => True) (consumes_tagOrLink cfg)
    (fun i j a ha _ => ⟨(by
      cases ha with
      | tag ha => exact Fwd.alt_left (Fwd.then ((fwd_tag ha.1).spanned ha.2) (Fwd.pure _ _))
      | link ha =>
        refine Fwd.alt_right (Fails.bind_left (Fails.spanned (fails_tag ?_)))
          (Fwd.then ((fwd_link ha.1).spanned ha.2) (Fwd.pure _ _))
        exact (starts_word ha.1.1 (by simp)).head), trivial⟩) h trivial
    (Fails.alt (Fails.bind_left (Fails.spanned (fails_tag (hr.mono (by rintro _ rfl; simp)))))
      (Fails.bind_left (Fails.spanned (fails_link (hr.mono (by rintro _ rfl; simp))))))
  refine Fwd.then h1 ?_
  simp only [collectTagsLinks_eq]
  exact Fwd.emit_pure _ _ _

/-! ### Metadata -/

variable [DecOps]

/-- The next token, if a currency, is a valid one. -/
def CurOk (r : List Ranged) : Prop := Head r (fun t => ∀ c, t = .currency c → ValidCurrency c)

omit [Unicode] [DecOps] in
theorem curOk_eol (h : Head r (· = .eol)) : CurOk r := h.mono (by rintro _ rfl; simp)

/-- Tokens that begin a value. -/
def ValueTok (t : Token) : Prop :=
  ExprTok t ∨ (∃ s, t = .stringLiteral s) ∨ (∃ s, t = .currency s) ∨ (∃ s, t = .account s) ∨ (∃ s, t = .tag s) ∨
    (∃ s, t = .link s) ∨ (∃ s, t = .date s) ∨ t = .true_ ∨ t = .false_ ∨ t = .null

theorem fails_simpleValue (h : Head i (fun t => ¬ ValueTok t)) : Fails o (simpleValue cfg) i := by
  refine Fails.choice fun p hp => ?_
  simp only [List.mem_cons, List.not_mem_nil, or_false] at hp
  rcases hp with rfl | rfl | rfl | rfl | rfl | rfl | rfl | rfl | rfl
  · exact Fails.bind_left (fails_string (h.mono (by rintro _ h s rfl; exact h (by simp [ValueTok]))))
  · exact Fails.bind_left (fails_currency (h.mono (by rintro _ h s rfl; exact h (by simp [ValueTok]))))
  · exact Fails.bind_left (fails_account (h.mono (by rintro _ h s rfl; exact h (by simp [ValueTok]))))
  · exact Fails.bind_left (fails_tag (h.mono (by rintro _ h s rfl; exact h (by simp [ValueTok]))))
  · exact Fails.bind_left (fails_link (h.mono (by rintro _ h s rfl; exact h (by simp [ValueTok]))))
  · exact Fails.bind_left (fails_date (h.mono (by rintro _ h s rfl; exact h (by simp [ValueTok]))))
  · exact Fails.bind_left (fails_bool (h.mono (by
      intro _ h; constructor <;> (rintro rfl; exact h (by simp [ValueTok])))))
  · exact Fails.bind_left (Fails.just (h.mono (by rintro _ h rfl; exact h (by simp [ValueTok]))))
  · exact Fails.bind_left (fails_exprValue (h.mono (by intro _ h h'; exact h (.inl h'))))

theorem fails_metaValue (h : Head i (fun t => ¬ ValueTok t)) : Fails o (metaValue cfg) i :=
  Fails.alt (Fails.bind_left (fails_amount (h.mono fun _ h h' => h (.inl h'))))
    (Fails.bind_left (fails_simpleValue h))

/-- The first tokens of simple values other than expressions. -/
def SimpleTok (t : Token) : Prop :=
  (∃ s, t = .stringLiteral s) ∨ (∃ s, t = .currency s) ∨ (∃ s, t = .account s) ∨ (∃ s, t = .tag s) ∨
    (∃ s, t = .link s) ∨ (∃ s, t = .date s) ∨ t = .true_ ∨ t = .false_ ∨ t = .null

omit [Unicode] [DecOps] in
theorem Head.and {C D : Token → Prop} (h1 : Head i C) (h2 : Head i D) : Head i (fun t => C t ∧ D t) :=
  fun x hx => ⟨h1 x hx, h2 x hx⟩

/-- A simple value: its parser accepts it, and that of amounts does not. -/
theorem fwd_simpleValue {v : SimpleValue} (h : SimpleValueP o i r v) (hr : CurOk r) :
    Fwd cfg o (simpleValue cfg) i r v [] ∧ Fails o (amount cfg) i ∧ CurOk i := by
  unfold simpleValue
  cases h with
  | string h =>
    have hd := head_word h
    refine ⟨Fwd.alt_left (Fwd.then (fwd_string h) (Fwd.pure _ _)), fails_amount ?_, hd.mono ?_⟩
    · exact hd.mono (by rintro _ rfl; simp [ExprTok])
    · rintro _ rfl; simp
  | currency h =>
    have hd := head_word h.1
    refine ⟨Fwd.alt_right (Fails.bind_left (fails_string (hd.mono (by rintro _ rfl; simp))))
      (Fwd.alt_left (Fwd.then (fwd_currency h) (Fwd.pure _ _))), fails_amount ?_, hd.mono ?_⟩
    · exact hd.mono (by rintro _ rfl; simp [ExprTok])
    · rintro _ rfl d hd'; cases hd'; exact h.2
  | account h =>
    have hd := head_word h.1
    refine ⟨Fwd.alt_right (Fails.bind_left (fails_string (hd.mono (by rintro _ rfl; simp))))
      (Fwd.alt_right (Fails.bind_left (fails_currency (hd.mono (by rintro _ rfl; simp))))
      (Fwd.alt_left (Fwd.then (fwd_account h) (Fwd.pure _ _)))), fails_amount ?_, hd.mono ?_⟩
    · exact hd.mono (by rintro _ rfl; simp [ExprTok])
    · rintro _ rfl; simp
  | tag h =>
    have hd := head_word h.1
    refine ⟨Fwd.alt_right (Fails.bind_left (fails_string (hd.mono (by rintro _ rfl; simp))))
      (Fwd.alt_right (Fails.bind_left (fails_currency (hd.mono (by rintro _ rfl; simp))))
      (Fwd.alt_right (Fails.bind_left (fails_account (hd.mono (by rintro _ rfl; simp))))
      (Fwd.alt_left (Fwd.then (fwd_tag h) (Fwd.pure _ _))))), fails_amount ?_, hd.mono ?_⟩
    · exact hd.mono (by rintro _ rfl; simp [ExprTok])
    · rintro _ rfl; simp
  | link h =>
    have hd := head_word h.1
    refine ⟨Fwd.alt_right (Fails.bind_left (fails_string (hd.mono (by rintro _ rfl; simp))))
      (Fwd.alt_right (Fails.bind_left (fails_currency (hd.mono (by rintro _ rfl; simp))))
      (Fwd.alt_right (Fails.bind_left (fails_account (hd.mono (by rintro _ rfl; simp))))
      (Fwd.alt_right (Fails.bind_left (fails_tag (hd.mono (by rintro _ rfl; simp))))
      (Fwd.alt_left (Fwd.then (fwd_link h) (Fwd.pure _ _)))))), fails_amount ?_, hd.mono ?_⟩
    · exact hd.mono (by rintro _ rfl; simp [ExprTok])
    · rintro _ rfl; simp
  | date h =>
    have hd := head_word h
    refine ⟨Fwd.alt_right (Fails.bind_left (fails_string (hd.mono (by rintro _ rfl; simp))))
      (Fwd.alt_right (Fails.bind_left (fails_currency (hd.mono (by rintro _ rfl; simp))))
      (Fwd.alt_right (Fails.bind_left (fails_account (hd.mono (by rintro _ rfl; simp))))
      (Fwd.alt_right (Fails.bind_left (fails_tag (hd.mono (by rintro _ rfl; simp))))
      (Fwd.alt_right (Fails.bind_left (fails_link (hd.mono (by rintro _ rfl; simp))))
      (Fwd.alt_left (Fwd.then (fwd_date h) (Fwd.pure _ _))))))), fails_amount ?_, hd.mono ?_⟩
    · exact hd.mono (by rintro _ rfl; simp [ExprTok])
    · rintro _ rfl; simp
  | bool h =>
    have hd : Head i (fun t => t = .true_ ∨ t = .false_) := by
      rcases h with ⟨_, h⟩ | ⟨_, h⟩
      · exact (starts_word h (.inl rfl)).head
      · exact (starts_word h (.inr rfl)).head
    refine ⟨Fwd.alt_right (Fails.bind_left (fails_string (hd.mono (by rintro _ (rfl | rfl) <;> simp))))
      (Fwd.alt_right (Fails.bind_left (fails_currency (hd.mono (by rintro _ (rfl | rfl) <;> simp))))
      (Fwd.alt_right (Fails.bind_left (fails_account (hd.mono (by rintro _ (rfl | rfl) <;> simp))))
      (Fwd.alt_right (Fails.bind_left (fails_tag (hd.mono (by rintro _ (rfl | rfl) <;> simp))))
      (Fwd.alt_right (Fails.bind_left (fails_link (hd.mono (by rintro _ (rfl | rfl) <;> simp))))
      (Fwd.alt_right (Fails.bind_left (fails_date (hd.mono (by rintro _ (rfl | rfl) <;> simp))))
      (Fwd.alt_left (Fwd.then (fwd_bool h) (Fwd.pure _ _)))))))), fails_amount ?_, hd.mono ?_⟩
    · exact hd.mono (by rintro _ (rfl | rfl) <;> simp [ExprTok])
    · rintro _ (rfl | rfl) <;> simp
  | null h =>
    have hd := head_word h
    refine ⟨Fwd.alt_right (Fails.bind_left (fails_string (hd.mono (by rintro _ rfl; simp))))
      (Fwd.alt_right (Fails.bind_left (fails_currency (hd.mono (by rintro _ rfl; simp))))
      (Fwd.alt_right (Fails.bind_left (fails_account (hd.mono (by rintro _ rfl; simp))))
      (Fwd.alt_right (Fails.bind_left (fails_tag (hd.mono (by rintro _ rfl; simp))))
      (Fwd.alt_right (Fails.bind_left (fails_link (hd.mono (by rintro _ rfl; simp))))
      (Fwd.alt_right (Fails.bind_left (fails_date (hd.mono (by rintro _ rfl; simp))))
      (Fwd.alt_right (Fails.bind_left (fails_bool (hd.mono (by rintro _ rfl; simp))))
      (Fwd.alt_left (Fwd.then (Fwd.just h (by simp)) (Fwd.pure _ _))))))))), fails_amount ?_, hd.mono ?_⟩
    · exact hd.mono (by rintro _ rfl; simp [ExprTok])
    · rintro _ rfl; simp
  | expr h hc =>
    have hd : Head i ExprTok := (value_like h).1.head
    have no : ∀ {C : Token → Prop}, (∀ d, C (.number d)) → C .lparen → C .plus → C .minus → Head i C := by
      intro C h1 h2 h3 h4
      exact hd.mono (by rintro _ (⟨d, rfl⟩ | rfl | rfl | rfl); exacts [h1 d, h2, h3, h4])
    refine ⟨Fwd.alt_right (Fails.bind_left (fails_string (no (by simp) (by simp) (by simp) (by simp))))
      (Fwd.alt_right (Fails.bind_left (fails_currency (no (by simp) (by simp) (by simp) (by simp))))
      (Fwd.alt_right (Fails.bind_left (fails_account (no (by simp) (by simp) (by simp) (by simp))))
      (Fwd.alt_right (Fails.bind_left (fails_tag (no (by simp) (by simp) (by simp) (by simp))))
      (Fwd.alt_right (Fails.bind_left (fails_link (no (by simp) (by simp) (by simp) (by simp))))
      (Fwd.alt_right (Fails.bind_left (fails_date (no (by simp) (by simp) (by simp) (by simp))))
      (Fwd.alt_right (Fails.bind_left (fails_bool (no (by simp) (by simp) (by simp) (by simp))))
      (Fwd.alt_right (Fails.bind_left (Fails.just (no (by simp) (by simp) (by simp) (by simp))))
      (Fwd.then (fwd_exprValue h) (Fwd.pure _ _))))))))), fails_amount_value h ?_, ?_⟩
    · intro x hx c hxc
      cases r with
      | nil => cases hx
      | cons y r =>
        cases hx
        exact hc r c ⟨⟨x.start, x.stop, by rw [← hxc]⟩, hr x rfl c hxc⟩
    · exact no (by simp) (by simp) (by simp) (by simp)

theorem fwd_metaValue {v : MetaValue} (h : MetaValueP cfg o i r v) (hr : CurOk r) :
    Fwd cfg o (metaValue cfg) i r v [] ∧ CurOk i := by
  cases h with
  | simple h =>
    obtain ⟨h1, h2, h3⟩ := fwd_simpleValue (cfg := cfg) h hr
    exact ⟨Fwd.alt_right (Fails.bind_left h2) (Fwd.then h1 (Fwd.pure _ _)), h3⟩
  | amount h =>
    refine ⟨Fwd.alt_left (Fwd.then (fwd_amount h) (Fwd.pure _ _)), (amount_like h).1.head.mono ?_⟩
    rintro _ (⟨d, rfl⟩ | rfl | rfl | rfl) <;> simp

omit [Unicode] [DecOps] in
theorem not_value_eol {t : Token} (h : t = .eol) : ¬ ValueTok t := by
  subst h
  simp [ValueTok, ExprTok]

theorem fwd_metaKeyValue {kv : MetaKeyValue} (h : KeyValueP cfg o i r kv) (hr : Head r (· = .eol)) :
    Fwd cfg o (metaKeyValue cfg) i r kv [] := by
  unfold metaKeyValue
  cases h with
  | value h1 h2 h3 =>
    exact Fwd.then ((fwd_key h1.1).spanned h1.2) (Fwd.then (Fwd.just h2 (by simp))
      (Fwd.then ((Fwd.orNot_some (fwd_metaValue h3.1 (curOk_eol hr)).1).spanned h3.2) (Fwd.pure _ _)))
  | null h1 h2 h3 =>
    exact Fwd.then ((fwd_key h1.1).spanned h1.2) (Fwd.then (Fwd.just h2 (by simp))
      (Fwd.then ((Fwd.orNot_none (fails_metaValue (hr.mono fun _ => not_value_eol))).spanned h3) (Fwd.pure _ _)))

theorem starts_keyValue {kv : MetaKeyValue} (h : KeyValueP cfg o i r kv) : Starts i (fun t => ∃ s, t = .key s) := by
  cases h with
  | value h1 h2 h3 => exact starts_word h1.1.1 ⟨_, rfl⟩
  | null h1 h2 h3 => exact starts_word h1.1.1 ⟨_, rfl⟩

theorem fails_metaKeyValue (h : Head i (fun t => ∀ s, t ≠ .key s)) : Fails o (metaKeyValue cfg) i :=
  Fails.bind_left (Fails.spanned (fails_key h))

theorem fwd_metadatumLine {m : Metadatum} (h : LineP cfg o i r m) : Fwd cfg o (metadatumLine cfg) i r m [] := by
  unfold metadatumLine
  cases h with
  | keyValue h1 h2 h3 =>
    exact Fwd.then (Fwd.just h1 (by simp)) (Fwd.then (Fwd.alt_left (Fwd.then
      ((fwd_metaKeyValue h2.1 (head_lineEnd h3)).spanned h2.2) (Fwd.pure _ _)))
      (Fwd.then (fwd_eol h3) (Fwd.pure _ _)))
  | tag h1 h2 h3 =>
    refine Fwd.then (Fwd.just h1 (by simp)) (Fwd.then (Fwd.alt_right (Fails.bind_left (Fails.spanned
      (fails_metaKeyValue ?_))) (Fwd.alt_left (Fwd.then ((fwd_tag h2.1).spanned h2.2) (Fwd.pure _ _))))
      (Fwd.then (fwd_eol h3) (Fwd.pure _ _)))
    exact (starts_word h2.1.1 (by simp)).head
  | link h1 h2 h3 =>
    refine Fwd.then (Fwd.just h1 (by simp)) (Fwd.then (Fwd.alt_right (Fails.bind_left (Fails.spanned
      (fails_metaKeyValue ?_))) (Fwd.alt_right (Fails.bind_left (Fails.spanned (fails_tag ?_)))
        (Fwd.then ((fwd_link h2.1).spanned h2.2) (Fwd.pure _ _))))
      (Fwd.then (fwd_eol h3) (Fwd.pure _ _)))
    · exact (starts_word h2.1.1 (by simp)).head
    · exact (starts_word h2.1.1 (by simp)).head

/-- No line of metadata can begin here. -/
def NotLine (i : List Ranged) : Prop :=
  ∀ j, Word .indent i j → Head j (fun t => (∀ s, t ≠ .key s) ∧ (∀ s, t ≠ .tag s) ∧ ∀ s, t ≠ .link s)

omit [Unicode] [DecOps] in
theorem notLine_of_head (h : Head i (fun t => t ≠ .indent)) : NotLine i := by
  rintro j ⟨x, y, rfl⟩
  exact absurd rfl (h _ rfl)

theorem fails_metadatumLine (h : NotLine i) : Fails o (metadatumLine cfg) i := by
  by_cases hi : ∃ j, Word .indent i j
  · obtain ⟨j, hj⟩ := hi
    have hd := h j hj
    exact Fails.bind_right (cfg := cfg) (Fwd.just hj (by simp)) (Plain.word hj (by simp))
      (Fails.bind_left (Fails.alt (Fails.bind_left (Fails.spanned (fails_metaKeyValue (hd.mono fun _ h => h.1))))
        (Fails.alt (Fails.bind_left (Fails.spanned (fails_tag (hd.mono fun _ h => h.2.1))))
          (Fails.bind_left (Fails.spanned (fails_link (hd.mono fun _ h => h.2.2)))))))
  · refine Fails.bind_left (Fails.just ?_)
    rintro ⟨t, x, y⟩ hx rfl
    cases i with
    | nil => cases hx
    | cons z i => cases hx; exact hi ⟨i, x, y, rfl⟩

theorem fwd_metadata {lines : List Metadatum} (h : Many (LineP cfg o) i r lines) (hr : NotLine r) :
    Fwd cfg o (metadata cfg) i r (lineMetadata lines) (lineErrors lines) := by
  obtain ⟨h1, _⟩ := Fwd.many_noErr (cfg := cfg) (o := o) (fun _ => True) (consumes_metadatumLine cfg)
    (fun i j a ha _ => ⟨fwd_metadatumLine ha, trivial⟩) h trivial (fails_metadatumLine hr)
  refine Fwd.then h1 ?_
  simp only [collectMetadata_eq]
  exact Fwd.emit_pure _ _ _

end

end Lima.Grammar
