import Verif.Lemmas.DirectiveComplete

/-! The parsers of directives, pragmas and files accept what the specification allows. -/

namespace Lima.Grammar

open Spec P

variable {α β : Type} {cfg : ParseCfg} {o o' : ParserOptions} {i r : List Ranged}

theorem Fwd.finish {p : P α} {f : α → β} {a : α} {es : List PErr} (h : Fwd cfg o p i r a es) :
    Fwd cfg o (do let a ← p; Pure.pure (f a)) i r (f a) es := Fwd.map f h

section
variable [Unicode] [DecOps]

/-! ### Postings -/

theorem starts_postingLine {p : PostingLine} (h : PostingLineP cfg o i r p) :
    Head i (fun t => FlagTok t ∨ ∃ s, t = .account s) := by
  obtain ⟨h1, h2, -⟩ := h
  exact head_maybe h1 (fun a ha => starts_flag ha.1) (head_word h2.1.1 |>.mono fun _ h => ⟨_, h⟩)

theorem fwd_postingLine {p : PostingLine} (h : PostingLineP cfg o i r p) (hr : Head r (· = .eol)) :
    Fwd cfg o (postingLine cfg) i r p [] := by
  obtain @⟨i, j, k, l, m, n, r, _, _, _, _, _, _, h1, h2, h3, h4, h5, h6⟩ := h
  have d6 : Head n (fun t => (t = .at ∨ t = .atAt) ∨ t = .eol) := head_maybe h6 (fun a ha => starts_price ha.1) hr
  have d5 : Head m _ := head_maybe h5 (fun a ha => starts_costSpec ha.1) d6
  have d4 : Head l _ := head_maybe h4
    (fun a ha => starts_word (C := fun t => ∃ s, t = .currency s) ha.1.1 ⟨_, rfl⟩) d5
  have d2 := head_word h2.1.1
  refine Fwd.then (Fwd.orNot h1 (fun e => Fails.spanned (fails_flag ?_)) fun a _ ha => (fwd_flag ha.1).spanned ha.2) ?_
  · subst e
    cases h1
    exact d2.mono (by rintro _ rfl; simp [FlagTok])
  refine Fwd.then ((fwd_account h2.1).spanned h2.2) ?_
  refine Fwd.then (Fwd.orNot h3 (fun e => Fails.spanned (fails_exprValue ?_))
    fun a _ ha => (fwd_exprValue ha.1).spanned ha.2) ?_
  · subst e
    cases h3
    exact d4.mono (by rintro _ (⟨s, rfl⟩ | rfl | (rfl | rfl) | rfl) <;> simp [ExprTok])
  refine Fwd.then (Fwd.orNot h4 (fun e => Fails.spanned (fails_currency ?_))
    fun a _ ha => (fwd_currency ha.1).spanned ha.2) ?_
  · subst e
    cases h4
    exact d5.mono (by rintro _ (rfl | (rfl | rfl) | rfl) <;> simp)
  refine Fwd.then (Fwd.orNot h5 (fun e => Fails.spanned (fails_costSpec ?_))
    fun a _ ha => (fwd_costSpec ha.1).spanned ha.2) ?_
  · subst e
    cases h5
    exact d6.mono (by rintro _ ((rfl | rfl) | rfl) <;> simp)
  refine Fwd.then (Fwd.orNot h6 (fun e => Fails.spanned (fails_price ?_))
    fun a _ ha => (fwd_price ha.1 hr).spanned ha.2) ?_
  · subst e
    cases h6
    exact hr.mono (by rintro _ rfl; simp)
  exact Fwd.pure _ _

theorem fwd_posting {p : Spanned Posting × List PErr} (h : PostingP cfg o i r p) (hr : NotLine r) :
    Fwd cfg o (posting cfg) i r p.1 p.2 ∧ NotLine i := by
  obtain ⟨h1, h2, h3, h4, h5⟩ := h
  constructor
  · refine Fwd.then (Fwd.just h1 (by simp)) (Fwd.then ((fwd_postingLine h2.1 (head_lineEnd h3)).spanned h2.2)
      (Fwd.then (fwd_eol h3) ?_))
    exact Fwd.finish ((fwd_metadata h4 hr).spanned h5)
  · intro j hj
    obtain ⟨x, y, rfl⟩ := h1
    obtain ⟨x', y', hj⟩ := hj
    cases hj
    exact (starts_postingLine h2.1).mono (by rintro _ ((⟨f, rfl⟩ | rfl | rfl) | ⟨s, rfl⟩) <;> simp)

theorem fails_posting (h : Head i (fun t => t ≠ .indent)) : Fails o (posting cfg) i := Fails.bind_left (Fails.just h)

/-! ### Directives -/

omit [DecOps] in
theorem head_tagsLinks {m n : List Ranged} {head : List TagOrLink} (h : Many (TagOrLinkP cfg) i m head)
    (hn : EndOfLine m n) : Head i (fun t => TagLinkTok t ∨ t = .eol) :=
  head_many h (fun _ _ _ ha => starts_tagOrLink ha) (head_lineEnd hn)

omit [Unicode] [DecOps] in
theorem fwd_payeeNarration {x : Option (Spanned Str) × Option (Spanned Str)} (h : PayeeNarrationP cfg i r x)
    (hr : Head r (fun t => ∀ s, t ≠ .stringLiteral s)) : ∃ s1 s2 j,
      Fwd cfg o (P.orNot (P.spanned cfg (string cfg))) i j s1 [] ∧
      Fwd cfg o (P.orNot (P.spanned cfg (string cfg))) j r s2 [] ∧ payeeNarration s1 s2 = x := by
  have none' := Fwd.orNot_none (cfg := cfg) (Fails.spanned (cfg := cfg) (fails_string (o := o) (cfg := cfg) hr))
  cases h with
  | neither => exact ⟨none, none, _, none', none', rfl⟩
  | @narration _ _ s h =>
    refine ⟨some s, none, _, Fwd.orNot_some ((fwd_string h.1).spanned h.2), none', ?_⟩
    simp [payeeNarration, replace_eq]
  | @both _ _ _ s t h1 h2 =>
    refine ⟨some s, some t, _, Fwd.orNot_some ((fwd_string h1.1).spanned h1.2),
      Fwd.orNot_some ((fwd_string h2.1).spanned h2.2), ?_⟩
    simp [payeeNarration, replace_eq]

theorem fwd_transactionHeaderLine {j k l m n : List Ranged} {date : Spanned Date} {flag : Spanned Flag}
    {x : Option (Spanned Str) × Option (Spanned Str)} {head : List TagOrLink} (h1 : At cfg DateP i j date)
    (h2 : At cfg TxnP j k flag) (h3 : PayeeNarrationP cfg k l x) (h4 : Many (TagOrLinkP cfg) l m head)
    (h5 : EndOfLine m n) : Fwd cfg o (transactionHeaderLine cfg) i n
      (date, flag, x, headTags (firsts TagOrLink.name [] head), headLinks (firsts TagOrLink.name [] head))
      (headErrors head) := by
  obtain ⟨s1, s2, k', h6, h7, h8⟩ := fwd_payeeNarration (o := o) h3
    ((head_tagsLinks h4 h5).mono (by rintro _ ((⟨s, rfl⟩ | ⟨s, rfl⟩) | rfl) <;> simp))
  refine Fwd.then ((fwd_date h1.1).spanned h1.2) (Fwd.then ((fwd_txn h2.1).spanned h2.2)
    (Fwd.then h6 (Fwd.then h7 ?_)))
  rw [h8]
  exact Fwd.congr (Fwd.bind (fwd_tagsLinks h4 (head_lineEnd h5)) (Fwd.then (fwd_eol h5) (Fwd.pure _ _))) rfl
    (List.append_nil _)

theorem fwd_transaction {j k l m n p : List Ranged} {date : Spanned Date} {flag : Spanned Flag}
    {x : Option (Spanned Str) × Option (Spanned Str)} {head : List TagOrLink} {lines : List Metadatum} {span : Span}
    {postings : List (Spanned Posting × List PErr)} (h1 : At cfg DateP i j date)
    (h2 : At cfg TxnP j k flag) (h3 : PayeeNarrationP cfg k l x) (h4 : Many (TagOrLinkP cfg) l m head)
    (h5 : EndOfLine m n) (h6 : Many (LineP cfg o) n p lines) (h7 : Covers cfg n p span)
    (h8 : Many (PostingP cfg o) p r postings) (hr : Head r (fun t => t ≠ .indent)) :
    Fwd cfg o (transaction cfg) i r
      ⟨date, ⟨metadataOf lines head, span⟩, .transaction ⟨flag, x.1, x.2, postings.map (·.1)⟩⟩
      (headErrors head ++ lineErrors lines ++ postings.flatMap (·.2) ++ clashErrors lines head) := by
  obtain ⟨h9, h10⟩ := Fwd.many (cfg := cfg) (o := o) (f := Prod.fst) (e := Prod.snd) NotLine (consumes_posting cfg)
    (fun i j a ha hj => fwd_posting ha hj) h8 (notLine_of_head hr) (fails_posting hr)
  rw [transaction_eq]
  refine Fwd.congr (Fwd.bind (fwd_transactionHeaderLine h1 h2 h3 h4 h5) (Fwd.bind ((fwd_metadata h6 h10).spanned h7)
    (Fwd.bind h9 (Fwd.emit_pure _ _ _)))) ?_ ?_
  · simp only [mergeHeader_eq]
  · simp only [mergeHeader_eq, List.append_assoc]

theorem fwd_simpleDirective {j k l m n : List Ranged} {date : Spanned Date} {keyword : Token}
    {body : P DirectiveVariant} {v : DirectiveVariant} {es : List PErr} {head : List TagOrLink}
    {lines : List Metadatum} {span : Span} (h1 : At cfg DateP i j date) (h2 : Word keyword j k)
    (hk : ∀ s, keyword ≠ .stringLiteral s) (h3 : Fwd cfg o body k l v es) (h4 : Many (TagOrLinkP cfg) l m head)
    (h5 : EndOfLine m n) (h6 : Many (LineP cfg o) n r lines) (h7 : Covers cfg n r span)
    (hr : Head r (fun t => t ≠ .indent)) :
    Fwd cfg o (simpleDirective cfg keyword body) i r ⟨date, ⟨metadataOf lines head, span⟩, v⟩
      (es ++ headErrors head ++ lineErrors lines ++ clashErrors lines head) := by
  refine Fwd.congr (Fwd.then ((fwd_date h1.1).spanned h1.2) (Fwd.then (Fwd.just h2 hk) (Fwd.bind h3 (Fwd.bind
    (fwd_tagsLinks h4 (head_lineEnd h5)) (Fwd.then (fwd_eol h5)
      (Fwd.bind ((fwd_metadata h6 (notLine_of_head hr)).spanned h7) (Fwd.emit_pure _ _ _))))))) ?_ ?_
  · simp only [mergeHeader_eq]
  · simp only [mergeHeader_eq, List.append_assoc]

omit [Unicode] [DecOps] in
theorem fwd_currencyList {cs : List (Spanned Str)} (h : CurrenciesP cfg i r cs)
    (hr : Head r (fun t => t ≠ .comma ∧ ∀ s, t ≠ .currency s)) :
    Fwd cfg o (currencyList cfg) i r (firsts (·.item) [] cs) (currencyErrors cs) := by
  unfold currencyList
  cases h with
  | none =>
    exact Fwd.then (Fwd.orNot_none (Fails.bind_left (Fails.spanned (fails_currency (hr.mono fun _ h => h.2)))))
      (Fwd.pure _ _)
  | some h1 h2 =>
    obtain ⟨h3, _⟩ := Fwd.many_noErr (cfg := cfg) (o := o) (fun _ => True) (consumes_commaCurrency cfg)
      (fun i j a ⟨k, hk, ha⟩ hj => ⟨Fwd.then (Fwd.just hk (by simp)) ((fwd_currency ha.1).spanned ha.2), trivial⟩)
      h2 trivial (Fails.bind_left (Fails.just (hr.mono fun _ h => h.1)))
    refine Fwd.congr (Fwd.bind (Fwd.orNot_some (Fwd.then ((fwd_currency h1.1).spanned h1.2)
      (Fwd.then h3 (Fwd.emit_pure _ _ _)))) (Fwd.pure _ _)) ?_ ?_
    · simp only [collectCurrencies_eq]
    · simp only [collectCurrencies_eq, List.append_nil]

/-- Keywords after which a directive is neither a transaction nor custom. -/
def parserOf (cfg : ParseCfg) : Token → Option (P Directive)
  | .price => some (price cfg)
  | .balance => some (balance cfg)
  | .open => some (open_ cfg)
  | .close => some (close cfg)
  | .commodity => some (commodity cfg)
  | .pad => some (pad cfg)
  | .document => some (document cfg)
  | .note => some (note cfg)
  | .event => some (event cfg)
  | .query => some (query cfg)
  | _ => none

theorem fwd_body {j k l m n : List Ranged} {date : Spanned Date} {keyword : Token}
    {v : DirectiveVariant} {es : List PErr} {head : List TagOrLink}
    {lines : List Metadatum} {span : Span} (h1 : At cfg DateP i j date) (h2 : Word keyword j k)
    (h3 : BodyP cfg o keyword k l v es) (h4 : Many (TagOrLinkP cfg) l m head)
    (h5 : EndOfLine m n) (h6 : Many (LineP cfg o) n r lines) (h7 : Covers cfg n r span)
    (hr : Head r (fun t => t ≠ .indent)) : ∃ p, parserOf cfg keyword = some p ∧
    Fwd cfg o p i r ⟨date, ⟨metadataOf lines head, span⟩, v⟩
      (es ++ headErrors head ++ lineErrors lines ++ clashErrors lines head) := by
  have hl := head_tagsLinks h4 h5
  cases h3 with
  | price a b =>
    exact ⟨_, rfl, fwd_simpleDirective h1 h2 (by simp) (Fwd.then ((fwd_currency a.1).spanned a.2)
      (Fwd.then ((fwd_amount b.1).spanned b.2) (Fwd.pure _ _))) h4 h5 h6 h7 hr⟩
  | balance a b =>
    exact ⟨_, rfl, fwd_simpleDirective h1 h2 (by simp) (Fwd.then ((fwd_account a.1).spanned a.2)
      (Fwd.then ((fwd_amountWithTolerance b.1).spanned b.2) (Fwd.pure _ _))) h4 h5 h6 h7 hr⟩
  | «open» a b c =>
    have hk := head_maybe c (fun a ha => starts_booking ha.1) hl
    refine ⟨_, rfl, fwd_simpleDirective h1 h2 (by simp) (Fwd.then ((fwd_account a.1).spanned a.2)
      (Fwd.congr (Fwd.bind (fwd_currencyList b (hk.mono ?_)) (Fwd.then (Fwd.orNot c
        (fun e => Fails.spanned (fails_booking ?_)) fun a _ ha => (fwd_booking ha.1).spanned ha.2) (Fwd.pure _ _)))
        rfl (List.append_nil _))) h4 h5 h6 h7 hr⟩
    · rintro _ (⟨s, rfl⟩ | (⟨s, rfl⟩ | ⟨s, rfl⟩) | rfl) <;> simp
    · subst e
      cases c
      exact hl.mono (by rintro _ ((⟨s, rfl⟩ | ⟨s, rfl⟩) | rfl) <;> simp)
  | close a =>
    exact ⟨_, rfl, fwd_simpleDirective h1 h2 (by simp) (Fwd.then ((fwd_account a.1).spanned a.2) (Fwd.pure _ _))
      h4 h5 h6 h7 hr⟩
  | commodity a =>
    exact ⟨_, rfl, fwd_simpleDirective h1 h2 (by simp) (Fwd.then ((fwd_currency a.1).spanned a.2) (Fwd.pure _ _))
      h4 h5 h6 h7 hr⟩
  | pad a b =>
    exact ⟨_, rfl, fwd_simpleDirective h1 h2 (by simp) (Fwd.then ((fwd_account a.1).spanned a.2)
      (Fwd.then ((fwd_account b.1).spanned b.2) (Fwd.pure _ _))) h4 h5 h6 h7 hr⟩
  | document a b =>
    exact ⟨_, rfl, fwd_simpleDirective h1 h2 (by simp) (Fwd.then ((fwd_account a.1).spanned a.2)
      (Fwd.then ((fwd_string b.1).spanned b.2) (Fwd.pure _ _))) h4 h5 h6 h7 hr⟩
  | note a b =>
    exact ⟨_, rfl, fwd_simpleDirective h1 h2 (by simp) (Fwd.then ((fwd_account a.1).spanned a.2)
      (Fwd.then ((fwd_string b.1).spanned b.2) (Fwd.pure _ _))) h4 h5 h6 h7 hr⟩
  | event a b =>
    exact ⟨_, rfl, fwd_simpleDirective h1 h2 (by simp) (Fwd.then ((fwd_string a.1).spanned a.2)
      (Fwd.then ((fwd_string b.1).spanned b.2) (Fwd.pure _ _))) h4 h5 h6 h7 hr⟩
  | query a b =>
    exact ⟨_, rfl, fwd_simpleDirective h1 h2 (by simp) (Fwd.then ((fwd_string a.1).spanned a.2)
      (Fwd.then ((fwd_string b.1).spanned b.2) (Fwd.pure _ _))) h4 h5 h6 h7 hr⟩

theorem fwd_custom {j k l m n : List Ranged} {date : Spanned Date} {type : Spanned Str}
    {values : List (Spanned MetaValue)} {lines : List Metadatum} {span : Span} (h1 : At cfg DateP i j date)
    (h2 : Word .custom j k) (h3 : At cfg StringP k l type) (h4 : Many (At cfg (MetaValueP cfg o)) l m values)
    (h5 : EndOfLine m n) (h6 : Many (LineP cfg o) n r lines) (h7 : Covers cfg n r span)
    (hr : Head r (fun t => t ≠ .indent)) :
    Fwd cfg o (custom cfg) i r ⟨date, ⟨lineMetadata lines, span⟩, .custom type values⟩ (lineErrors lines) := by
  obtain ⟨h8, _⟩ := Fwd.many_noErr (cfg := cfg) (o := o) CurOk (consumes_metaValue cfg).spanned
    (fun i j a ha hj => ⟨(fwd_metaValue ha.1 hj).1.spanned ha.2, (fwd_metaValue ha.1 hj).2⟩) h4
    (curOk_eol (head_lineEnd h5))
    (Fails.spanned (fails_metaValue ((head_lineEnd h5).mono fun _ => not_value_eol)))
  exact Fwd.then ((fwd_date h1.1).spanned h1.2) (Fwd.then (Fwd.just h2 (by simp))
    (Fwd.then ((fwd_string h3.1).spanned h3.2) (Fwd.then h8 (Fwd.then (fwd_eol h5)
      (Fwd.congr (Fwd.bind ((fwd_metadata h6 (notLine_of_head hr)).spanned h7) (Fwd.pure _ _)) rfl
        (List.append_nil _))))))

/-- After a date, a keyword that is not that of the directive. -/
theorem fails_simpleDirective {j : List Ranged} {d : Spanned Date} {keyword : Token} {body : P DirectiveVariant}
    (h1 : At cfg DateP i j d) (h2 : Head j (fun t => t ≠ keyword)) :
    Fails o (simpleDirective cfg keyword body) i :=
  Fails.bind_right (cfg := cfg) ((fwd_date h1.1).spanned h1.2) (Plain.word h1.1 (by simp))
    (Fails.bind_left (Fails.just h2))

theorem fails_transaction {j : List Ranged} {d : Spanned Date} (h1 : At cfg DateP i j d)
    (h2 : Head j (fun t => ¬ FlagTok t ∧ t ≠ .txn)) : Fails o (transaction cfg) i :=
  Fails.bind_left (Fails.bind_right (cfg := cfg) ((fwd_date h1.1).spanned h1.2) (Plain.word h1.1 (by simp))
    (Fails.bind_left (Fails.spanned (fails_txn h2))))

theorem fwd_directive {d : Directive} {es : List PErr} (h : DirectiveP cfg o i r d es)
    (hr : Head r (fun t => t ≠ .indent)) : Fwd cfg o (directive cfg) i r d es := by
  unfold directive
  cases h with
  | transaction h1 h2 h3 h4 h5 h6 h7 h8 => exact Fwd.alt_left (fwd_transaction h1 h2 h3 h4 h5 h6 h7 h8 hr)
  | other h1 h2 h3 h4 h5 h6 h7 =>
    obtain ⟨p, hp, h⟩ := fwd_body h1 h2 h3 h4 h5 h6 h7 hr
    have hd := head_word h2
    have hb : ∀ {k : Token} {body : P DirectiveVariant}, _ ≠ k → Fails o (simpleDirective cfg k body) i :=
      fun {k body} hk => fails_simpleDirective h1 (hd.mono (by rintro _ rfl; exact hk))
    have hx : _ → Fails o (transaction cfg) i := fun hk =>
      fails_transaction h1 (hd.mono (by rintro _ rfl; exact hk))
    cases h3 <;> cases hp
    · exact Fwd.alt_right (hx (by simp [FlagTok])) (Fwd.alt_left h)
    · exact Fwd.alt_right (hx (by simp [FlagTok])) (Fwd.alt_right (hb (by simp)) (Fwd.alt_left h))
    · exact Fwd.alt_right (hx (by simp [FlagTok])) (Fwd.alt_right (hb (by simp)) (Fwd.alt_right (hb (by simp))
        (Fwd.alt_left h)))
    · exact Fwd.alt_right (hx (by simp [FlagTok])) (Fwd.alt_right (hb (by simp)) (Fwd.alt_right (hb (by simp))
        (Fwd.alt_right (hb (by simp)) (Fwd.alt_left h))))
    · exact Fwd.alt_right (hx (by simp [FlagTok])) (Fwd.alt_right (hb (by simp)) (Fwd.alt_right (hb (by simp))
        (Fwd.alt_right (hb (by simp)) (Fwd.alt_right (hb (by simp)) (Fwd.alt_left h)))))
    · exact Fwd.alt_right (hx (by simp [FlagTok])) (Fwd.alt_right (hb (by simp)) (Fwd.alt_right (hb (by simp))
        (Fwd.alt_right (hb (by simp)) (Fwd.alt_right (hb (by simp)) (Fwd.alt_right (hb (by simp))
        (Fwd.alt_left h))))))
    · exact Fwd.alt_right (hx (by simp [FlagTok])) (Fwd.alt_right (hb (by simp)) (Fwd.alt_right (hb (by simp))
        (Fwd.alt_right (hb (by simp)) (Fwd.alt_right (hb (by simp)) (Fwd.alt_right (hb (by simp))
        (Fwd.alt_right (hb (by simp)) (Fwd.alt_left h)))))))
    · exact Fwd.alt_right (hx (by simp [FlagTok])) (Fwd.alt_right (hb (by simp)) (Fwd.alt_right (hb (by simp))
        (Fwd.alt_right (hb (by simp)) (Fwd.alt_right (hb (by simp)) (Fwd.alt_right (hb (by simp))
        (Fwd.alt_right (hb (by simp)) (Fwd.alt_right (hb (by simp)) (Fwd.alt_left h))))))))
    · exact Fwd.alt_right (hx (by simp [FlagTok])) (Fwd.alt_right (hb (by simp)) (Fwd.alt_right (hb (by simp))
        (Fwd.alt_right (hb (by simp)) (Fwd.alt_right (hb (by simp)) (Fwd.alt_right (hb (by simp))
        (Fwd.alt_right (hb (by simp)) (Fwd.alt_right (hb (by simp)) (Fwd.alt_right (hb (by simp))
        (Fwd.alt_left h)))))))))
    · exact Fwd.alt_right (hx (by simp [FlagTok])) (Fwd.alt_right (hb (by simp)) (Fwd.alt_right (hb (by simp))
        (Fwd.alt_right (hb (by simp)) (Fwd.alt_right (hb (by simp)) (Fwd.alt_right (hb (by simp))
        (Fwd.alt_right (hb (by simp)) (Fwd.alt_right (hb (by simp)) (Fwd.alt_right (hb (by simp))
        (Fwd.alt_right (hb (by simp)) (Fwd.alt_left h))))))))))
  | custom h1 h2 h3 h4 h5 h6 h7 =>
    have hd := head_word h2
    have hb : ∀ {k : Token} {body : P DirectiveVariant}, .custom ≠ k → Fails o (simpleDirective cfg k body) i :=
      fun {k body} hk => fails_simpleDirective h1 (hd.mono (by rintro _ rfl; exact hk))
    have hx : Fails o (transaction cfg) i := fails_transaction h1 (hd.mono (by rintro _ rfl; simp [FlagTok]))
    exact Fwd.alt_right hx (Fwd.alt_right (hb (by simp)) (Fwd.alt_right (hb (by simp))
        (Fwd.alt_right (hb (by simp)) (Fwd.alt_right (hb (by simp)) (Fwd.alt_right (hb (by simp))
        (Fwd.alt_right (hb (by simp)) (Fwd.alt_right (hb (by simp)) (Fwd.alt_right (hb (by simp))
        (Fwd.alt_right (hb (by simp)) (Fwd.alt_right (hb (by simp))
        (fwd_custom h1 h2 h3 h4 h5 h6 h7 hr)))))))))))

theorem fails_directive (h : Head i (fun t => ∀ d, t ≠ .date d)) : Fails o (directive cfg) i := by
  have hd : Fails o (P.spanned cfg date) i := Fails.spanned (fails_date h)
  refine Fails.choice fun p hp => ?_
  simp only [List.mem_cons, List.not_mem_nil, or_false] at hp
  rcases hp with rfl | rfl | rfl | rfl | rfl | rfl | rfl | rfl | rfl | rfl | rfl | rfl
  · exact Fails.bind_left (Fails.bind_left hd)
  all_goals exact Fails.bind_left hd

/-! ### Pragmas -/

/-- As `Fwd`, for a parser that may change the options. -/
def FwdO (cfg : ParseCfg) (o : ParserOptions) (p : P α) (i r : List Ranged) (a : α) (o' : ParserOptions)
    (es : List PErr) : Prop :=
  r <:+ i ∧ ∀ errs warns, p ⟨i, errs, o, warns⟩ = .ok a ⟨r, errs ++ es, o', warns ++ warnsAt cfg o i r⟩

omit [Unicode] [DecOps] in
theorem Fwd.opts {p : P α} {a : α} {es : List PErr} (h : Fwd cfg o p i r a es) : FwdO cfg o p i r a o es := h

omit [Unicode] [DecOps] in
theorem FwdO.alt_left {p q : P α} {a : α} {es : List PErr} (h : FwdO cfg o p i r a o' es) :
    FwdO cfg o (P.alt p q) i r a o' es :=
  ⟨h.1, fun errs warns => alt_ok.mpr (.inl (h.2 errs warns))⟩

omit [Unicode] [DecOps] in
theorem FwdO.alt_right {p q : P α} {a : α} {es : List PErr} (hf : Fails o p i) (h : FwdO cfg o q i r a o' es) :
    FwdO cfg o (P.alt p q) i r a o' es :=
  ⟨h.1, fun errs warns => by
    obtain ⟨s', h1, h2⟩ := hf.rewind errs warns
    exact alt_ok.mpr (.inr ⟨s', h1, by rw [h2]; exact h.2 errs warns⟩)⟩

omit [Unicode] [DecOps] in
theorem FwdO.spanned {p : P α} {a : α} {es : List PErr} {span : Span} (h : FwdO cfg o p i r a o' es)
    (hs : Covers cfg i r span) : FwdO cfg o (P.spanned cfg p) i r ⟨a, span⟩ o' es :=
  ⟨h.1, fun errs warns => by rw [spanned_of_ok (h.2 errs warns), spanOf_of_covers hs]⟩

omit [Unicode] [DecOps] in
/-- First what leaves the options alone. -/
theorem Fwd.thenO {p : P α} {f : α → P β} {j : List Ranged} {a : α} {b : β} {es : List PErr}
    (h1 : Fwd cfg o p i j a []) (h2 : FwdO cfg o (f a) j r b o' es) : FwdO cfg o (p >>= f) i r b o' es :=
  ⟨h2.1.trans h1.1, fun errs warns => by
    rw [bind_of_ok (h1.2 errs warns), h2.2, warnsAt_trans h1.1 h2.1, List.append_assoc, List.append_assoc]
    rfl⟩

omit [Unicode] [DecOps] in
/-- Then something without strings. -/
theorem FwdO.then {p : P α} {f : α → P β} {j : List Ranged} {a : α} {b : β} {es : List PErr}
    (h1 : FwdO cfg o p i j a o' es) (h2 : Fwd cfg o' (f a) j r b []) (hp : Plain j r) :
    FwdO cfg o (p >>= f) i r b o' es :=
  ⟨h2.1.trans h1.1, fun errs warns => by
    rw [bind_of_ok (h1.2 errs warns), h2.2, warnsAt_trans h1.1 h2.1, hp.warns, hp.warns]
    simp⟩

omit [Unicode] [DecOps] in
theorem plain_lineEnd (h : EndOfLine i r) : Plain i r := by
  rcases h with h | ⟨rfl, rfl⟩
  · exact Plain.word h (by simp)
  · exact Plain.refl _

omit [DecOps] in
theorem fwd_assimilateOption {name value : Spanned Str} {opt : BOption} {es : List PErr}
    (h : OptionP cfg o name value opt o' es) (i : List Ranged) :
    FwdO cfg o (assimilateOption cfg name value) i i opt o' es := by
  refine ⟨List.suffix_refl _, fun errs warns => ?_⟩
  rw [warnsAt_self, List.append_nil]
  unfold assimilateOption
  cases h with
  | unknown h => rw [h]
  | badValue h => rw [h]
  | accepted h h' => rw [h]; simp only [h', List.append_nil]
  | refused h h' => rw [h]; simp only [h']

/-- The keywords of pragmas. -/
def PragmaTok (t : Token) : Prop :=
  t = .pushtag ∨ t = .poptag ∨ t = .pushmeta ∨ t = .popmeta ∨ t = .include ∨ t = .option ∨ t = .plugin

omit [Unicode] [DecOps] in
theorem fails_keyword {γ : Type} {keyword t : Token} {j : List Ranged} {p : Unit → P γ} {f : Spanned γ → P β}
    (h : Word t i j) (hne : t ≠ keyword) : Fails o (P.spanned cfg (P.just keyword >>= p) >>= f) i :=
  Fails.bind_left (Fails.spanned (Fails.bind_left (Fails.just ((head_word h).mono (by rintro _ rfl; exact hne)))))

omit [Unicode] [DecOps] in
theorem fails_keyword' {keyword t : Token} {j : List Ranged} {p : Unit → P β} (h : Word t i j) (hne : t ≠ keyword) :
    Fails o (P.just keyword >>= p) i :=
  Fails.bind_left (Fails.just ((head_word h).mono (by rintro _ rfl; exact hne)))

theorem starts_pragma {p : Pragma} {es : List PErr} (h : PragmaP cfg o i r p o' es) : Starts i PragmaTok := by
  cases h with
  | pushtag h => obtain ⟨⟨j, h, _⟩, _⟩ := h; exact starts_word h (by simp [PragmaTok])
  | poptag h => obtain ⟨⟨j, h, _⟩, _⟩ := h; exact starts_word h (by simp [PragmaTok])
  | pushmeta h => exact starts_word h (by simp [PragmaTok])
  | popmeta h => obtain ⟨⟨j, h, _⟩, _⟩ := h; exact starts_word h (by simp [PragmaTok])
  | «include» h => exact starts_word h (by simp [PragmaTok])
  | option h => exact starts_word h (by simp [PragmaTok])
  | plugin h => exact starts_word h (by simp [PragmaTok])

theorem fwd_pragma {j : List Ranged} {p : Pragma} {es : List PErr} (h : PragmaP cfg o i j p o' es)
    (hr : EndOfLine j r) : FwdO cfg o (pragma cfg) i r p o' es := by
  have he := head_lineEnd hr
  unfold pragma
  refine FwdO.then (a := p) (j := j) ?_ (Fwd.then (fwd_eol hr) (Fwd.pure _ _)) (plain_lineEnd hr)
  cases h with
  | pushtag h =>
    obtain ⟨⟨k, h1, h2⟩, h3⟩ := h
    exact Fwd.opts (Fwd.alt_left (Fwd.then (Fwd.spanned (Fwd.then (Fwd.just h1 (by simp)) (fwd_tag h2)) h3) (Fwd.pure _ _)))
  | poptag h =>
    obtain ⟨⟨k, h1, h2⟩, h3⟩ := h
    exact Fwd.opts (Fwd.alt_right (fails_keyword h1 (by simp))
      (Fwd.alt_left (Fwd.then (Fwd.spanned (Fwd.then (Fwd.just h1 (by simp)) (fwd_tag h2)) h3) (Fwd.pure _ _))))
  | pushmeta h1 h2 =>
    exact Fwd.opts (Fwd.alt_right (fails_keyword h1 (by simp)) (Fwd.alt_right (fails_keyword h1 (by simp))
      (Fwd.alt_left (Fwd.then (Fwd.just h1 (by simp)) (Fwd.then (fwd_metaKeyValue h2 he) (Fwd.pure _ _))))))
  | popmeta h =>
    obtain ⟨⟨k, h1, l, h2, h4⟩, h3⟩ := h
    exact Fwd.opts (Fwd.alt_right (fails_keyword h1 (by simp)) (Fwd.alt_right (fails_keyword h1 (by simp))
      (Fwd.alt_right (fails_keyword' h1 (by simp)) (Fwd.alt_left (Fwd.then (Fwd.spanned (Fwd.then (Fwd.just h1 (by simp))
        (Fwd.then (fwd_key h2) (Fwd.then (Fwd.just h4 (by simp)) (Fwd.pure _ _)))) h3) (Fwd.pure _ _))))))
  | «include» h1 h2 =>
    exact Fwd.opts (Fwd.alt_right (fails_keyword h1 (by simp)) (Fwd.alt_right (fails_keyword h1 (by simp))
      (Fwd.alt_right (fails_keyword' h1 (by simp)) (Fwd.alt_right (fails_keyword h1 (by simp))
        (Fwd.alt_left (Fwd.then (Fwd.just h1 (by simp)) (Fwd.then ((fwd_string h2.1).spanned h2.2)
          (Fwd.pure _ _))))))))
  | option h1 h2 h3 h4 =>
    have h5 : FwdO cfg o (option cfg) i j _ o' es := Fwd.thenO (Fwd.just h1 (by simp))
      (Fwd.thenO ((fwd_string h2.1).spanned h2.2) (Fwd.thenO ((fwd_string h3.1).spanned h3.2)
        (fwd_assimilateOption h4 _)))
    exact FwdO.alt_right (fails_keyword h1 (by simp)) (FwdO.alt_right (fails_keyword h1 (by simp))
      (FwdO.alt_right (fails_keyword' h1 (by simp)) (FwdO.alt_right (fails_keyword h1 (by simp))
        (FwdO.alt_right (fails_keyword' h1 (by simp)) (FwdO.alt_left (FwdO.then h5 (Fwd.pure _ _) (Plain.refl _)))))))
  | plugin h1 h2 h3 =>
    have hn : Fails o (option cfg) i :=
      Fails.bind_left (Fails.just ((head_word h1).mono (by rintro _ rfl; simp)))
    exact Fwd.opts (Fwd.alt_right (fails_keyword h1 (by simp)) (Fwd.alt_right (fails_keyword h1 (by simp))
      (Fwd.alt_right (fails_keyword' h1 (by simp)) (Fwd.alt_right (fails_keyword h1 (by simp))
        (Fwd.alt_right (fails_keyword' h1 (by simp)) (Fwd.alt_right (Fails.bind_left hn)
          (Fwd.then (Fwd.just h1 (by simp)) (Fwd.then ((fwd_string h2.1).spanned h2.2)
            (Fwd.then (Fwd.orNot h3 (fun e => by
              subst e
              cases h3
              exact Fails.spanned (fails_string (he.mono (by rintro _ rfl; simp))))
              fun a _ ha => (fwd_string ha.1).spanned ha.2) (Fwd.pure _ _))))))))))

theorem fails_pragma (h : Head i (fun t => ¬ PragmaTok t)) : Fails o (pragma cfg) i := by
  have hn : ∀ t, PragmaTok t → Fails o (P.just t) i := fun t ht =>
    Fails.just (h.mono fun _ h e => h (e ▸ ht))
  refine Fails.bind_left (Fails.choice fun p hp => ?_)
  simp only [List.mem_cons, List.not_mem_nil, or_false] at hp
  rcases hp with rfl | rfl | rfl | rfl | rfl | rfl | rfl
  · exact Fails.bind_left (Fails.spanned (Fails.bind_left (hn _ (by simp [PragmaTok]))))
  · exact Fails.bind_left (Fails.spanned (Fails.bind_left (hn _ (by simp [PragmaTok]))))
  · exact Fails.bind_left (hn _ (by simp [PragmaTok]))
  · exact Fails.bind_left (Fails.spanned (Fails.bind_left (hn _ (by simp [PragmaTok]))))
  · exact Fails.bind_left (hn _ (by simp [PragmaTok]))
  · exact Fails.bind_left (Fails.bind_left (hn _ (by simp [PragmaTok])))
  · exact Fails.bind_left (hn _ (by simp [PragmaTok]))

/-! ### Declarations -/

theorem starts_directive {d : Directive} {es : List PErr} (h : DirectiveP cfg o i r d es) :
    Starts i (fun t => ∃ d, t = .date d) := by
  cases h with
  | transaction h => exact starts_word h.1 ⟨_, rfl⟩
  | other h => exact starts_word h.1 ⟨_, rfl⟩
  | custom h => exact starts_word h.1 ⟨_, rfl⟩

theorem starts_declaration {d : Spanned Declaration} {es : List PErr} (h : DeclarationP cfg o i r d o' es) :
    Starts i (fun t => (∃ d, t = .date d) ∨ PragmaTok t) := by
  cases h with
  | directive h => exact (starts_directive h).mono fun _ => .inl
  | pragma h => exact (starts_pragma h).mono fun _ => .inr

theorem fwd_declaration {d : Spanned Declaration} {es : List PErr} (h : DeclarationP cfg o i r d o' es)
    (hr : Head r (fun t => t ≠ .indent)) : FwdO cfg o (declaration cfg) i r d o' es := by
  unfold declaration
  cases h with
  | directive h hs => exact Fwd.opts (Fwd.spanned (Fwd.alt_left (Fwd.finish (fwd_directive h hr))) hs)
  | pragma h1 h2 hs =>
    refine FwdO.spanned (FwdO.alt_right (Fails.bind_left (fails_directive ((starts_pragma h1).head.mono ?_)))
      (FwdO.then (fwd_pragma h1 h2) (Fwd.pure _ _) (Plain.refl _))) hs
    rintro _ (rfl | rfl | rfl | rfl | rfl | rfl | rfl) <;> simp

theorem fails_declaration (h : Head i (fun t => (∀ d, t ≠ .date d) ∧ ¬ PragmaTok t)) : Fails o (declaration cfg) i :=
  Fails.spanned (Fails.alt (Fails.bind_left (fails_directive (h.mono fun _ h => h.1)))
    (Fails.bind_left (fails_pragma (h.mono fun _ h => h.2))))

/-! ### Files -/

theorem head_file {ds : List (Spanned Declaration)} {es : List PErr} {ws : List Report} (h : FileP cfg o i ds o' es ws) :
    Head i (fun t => t ≠ .indent) := by
  cases h with
  | nil => intro x hx; cases hx
  | cons h =>
    refine (starts_declaration h).head.mono ?_
    rintro _ (⟨d, rfl⟩ | rfl | rfl | rfl | rfl | rfl | rfl | rfl) <;> simp

theorem recover_nil (errs : List PErr) (warns : List Report) :
    P.recover (declaration cfg) ⟨[], errs, o, warns⟩ = .fail ⟨[], errs, o, warns⟩ := by
  obtain ⟨s', h1, h2⟩ := (fails_declaration (cfg := cfg) (o := o) (i := []) (by intro x hx; cases hx)).rewind errs warns
  unfold recover
  rw [h1]
  simp only [skipThenRetry, h2]

theorem file_complete {ds : List (Spanned Declaration)} {es : List PErr} {ws : List Report}
    (h : FileP cfg o i ds o' es ws) : ∀ errs warns,
    file cfg ⟨i, errs, o, warns⟩ = .ok ds ⟨[], errs ++ es, o', warns ++ ws⟩ := by
  induction h with
  | nil =>
    intro errs warns
    unfold file
    rw [P.rep_nil (recover_nil errs warns)]
    simp [PSt.rewind]
  | @cons o o1 o2 run r d ds es es' ws' h1 h2 ih =>
    intro errs warns
    have h3 := (fwd_declaration h1 (head_file h2)).2 errs warns
    have h4 : P.recover (declaration cfg) ⟨run ++ r, errs, o, warns⟩ =
        .ok d ⟨r, errs ++ es, o1, warns ++ warnsAt cfg o (run ++ r) r⟩ := by
      unfold recover
      rw [h3]
    unfold file at ih ⊢
    rw [P.rep_cons (consumes_recover (consumes_declaration cfg)) h4 (ih _ _), warnsAt, between_append]
    simp only [List.append_assoc]

theorem parseFile_complete {ds : List (Spanned Declaration)} {es : List PErr} {ws : List Report} (warns : List Report)
    (h : FileP cfg o i ds o' es ws) : parseFile cfg i o warns = some ⟨some ds, es, o', warns ++ ws⟩ := by
  unfold parseFile
  rw [file_complete h]
  rfl

end

end Lima.Grammar
