import Verif.Lemmas.FileSound
import Verif.Lemmas.FileRuns
import Verif.Spec.Recovery
import Mathlib.Tactic.ByContra

set_option linter.unusedSectionVars false

/-! Files with syntax errors. -/

namespace Lima.Grammar

open Spec P

variable {α β : Type} {cfg : ParseCfg} {o o' : ParserOptions} {i j r : List Ranged}

/-! ### What a parser does unless it panics -/

/-- On tokens `i` the parser succeeds with `a` and errors `es`, leaving `r`, unless it panics. -/
def Does (o : ParserOptions) (p : P α) (i r : List Ranged) (a : α) (o' : ParserOptions) (es : List PErr) : Prop :=
  r <:+ i ∧ ∀ errs warns, p ⟨i, errs, o, warns⟩ = .panic ∨
    ∃ warns', p ⟨i, errs, o, warns⟩ = .ok a ⟨r, errs ++ es, o', warns'⟩

/-- On tokens `i` the parser fails, unless it panics. -/
def Stops (o : ParserOptions) (p : P α) (i : List Ranged) : Prop :=
  ∀ errs warns, p ⟨i, errs, o, warns⟩ = .panic ∨ ∃ s', p ⟨i, errs, o, warns⟩ = .fail s' ∧ s'.opts = o

theorem FwdO.does {p : P α} {a : α} {es : List PErr} (h : FwdO cfg o p i r a o' es) : Does o p i r a o' es :=
  ⟨h.1, fun errs warns => .inr ⟨_, h.2 errs warns⟩⟩

theorem Fwd.does {p : P α} {a : α} {es : List PErr} (h : Fwd cfg o p i r a es) : Does o p i r a o es := h.opts.does

theorem Does.bind {p : P α} {f : α → P β} {a : α} {b : β} {o1 o2 : ParserOptions} {es1 es2 : List PErr}
    (h1 : Does o p i j a o1 es1) (h2 : Does o1 (f a) j r b o2 es2) : Does o (p >>= f) i r b o2 (es1 ++ es2) := by
  refine ⟨h2.1.trans h1.1, fun errs warns => ?_⟩
  rw [bind_eq]
  rcases h1.2 errs warns with h | ⟨w, h⟩
  · rw [h]; exact .inl rfl
  · rw [h]
    rcases h2.2 (errs ++ es1) w with h | ⟨w', h⟩
    · exact .inl h
    · exact .inr ⟨w', by simp only [h, List.append_assoc]⟩

theorem Does.then {p : P α} {f : α → P β} {a : α} {b : β} {o1 o2 : ParserOptions} {es : List PErr}
    (h1 : Does o p i j a o1 []) (h2 : Does o1 (f a) j r b o2 es) : Does o (p >>= f) i r b o2 es := Does.bind h1 h2

theorem Does.pure (a : α) (i : List Ranged) : Does o (Pure.pure a : P α) i i a o [] :=
  ⟨List.suffix_refl _, fun _ warns => .inr ⟨warns, by rw [pure_eq, List.append_nil]⟩⟩

theorem Does.emit_pure (es : List PErr) (a : α) (i : List Ranged) :
    Does o (do P.emit es; Pure.pure a) i i a o es :=
  ⟨List.suffix_refl _, fun _ warns => .inr ⟨warns, rfl⟩⟩

theorem Does.congr {p : P α} {a a' : α} {es es' : List PErr} (h : Does o p i r a o' es) (ha : a = a') (he : es = es') :
    Does o p i r a' o' es' := ha ▸ he ▸ h

theorem Does.spanned {p : P α} {a : α} {es : List PErr} {span : Span} (h : Does o p i r a o' es)
    (hs : Covers cfg i r span) : Does o (P.spanned cfg p) i r ⟨a, span⟩ o' es := by
  refine ⟨h.1, fun errs warns => ?_⟩
  rcases h.2 errs warns with h | ⟨w, h⟩
  · exact .inl (spanned_panic.mpr h)
  · refine .inr ⟨w, ?_⟩
    rw [spanned_of_ok h, spanOf_of_covers hs]

theorem Does.alt_left {p q : P α} {a : α} {es : List PErr} (h : Does o p i r a o' es) :
    Does o (P.alt p q) i r a o' es := by
  refine ⟨h.1, fun errs warns => ?_⟩
  unfold P.alt
  rcases h.2 errs warns with h | ⟨w, h⟩
  · rw [h]; exact .inl rfl
  · rw [h]; exact .inr ⟨w, rfl⟩

theorem Does.alt_right {p q : P α} {a : α} {es : List PErr} (hf : Fails o p i) (h : Does o q i r a o' es) :
    Does o (P.alt p q) i r a o' es := by
  refine ⟨h.1, fun errs warns => ?_⟩
  obtain ⟨s', h1, h2⟩ := hf.rewind errs warns
  unfold P.alt
  rw [h1]
  simp only [h2]
  exact h.2 errs warns

/-- One of several, where those tried before it fail. -/
theorem Does.choice {ps : List (P α)} {p : P α} {a : α} {es : List PErr} (hp : p ∈ ps)
    (hq : ∀ q ∈ ps, q = p ∨ Fails o q i) (h : Does o p i r a o' es) : Does o (P.choice ps) i r a o' es := by
  induction ps with
  | nil => cases hp
  | cons q qs ih =>
    cases qs with
    | nil =>
      have : p = q := by simpa using hp
      exact this ▸ h
    | cons q' qs =>
      by_cases e : q = p
      · exact Does.alt_left (e ▸ h)
      · refine Does.alt_right ((hq q (by simp)).resolve_left e) (ih ?_ fun q hq' => hq q (by simp [hq']))
        rcases List.mem_cons.mp hp with hp | hp
        · exact absurd hp.symm e
        · exact hp

theorem Does.rep_nil {p : P α} (hf : Stops o p i) : Does o (P.rep p) i i [] o [] := by
  refine ⟨List.suffix_refl _, fun errs warns => ?_⟩
  rcases hf errs warns with h | ⟨s', h1, h2⟩
  · left
    simp only [rep, repFuel, h]
  · refine .inr ⟨s'.warns, ?_⟩
    rw [P.rep_nil h1, List.append_nil]
    simp only [PSt.rewind, h2]

theorem Does.rep_cons {p : P α} (hc : Consumes p) {a : α} {as : List α} {o1 : ParserOptions} {es1 es2 : List PErr}
    (h1 : Does o p i j a o1 es1) (h2 : Does o1 (P.rep p) j r as o' es2) :
    Does o (P.rep p) i r (a :: as) o' (es1 ++ es2) := by
  refine ⟨h2.1.trans h1.1, fun errs warns => ?_⟩
  rw [rep_eq hc]
  rcases h1.2 errs warns with h | ⟨w, h⟩
  · rw [h]; exact .inl rfl
  · rw [h]
    rcases h2.2 (errs ++ es1) w with h | ⟨w', h⟩
    · simp only [h]; exact .inl trivial
    · exact .inr ⟨w', by simp only [h, List.append_assoc]⟩

theorem Does.many {γ : Type} {p : P α} {R : Phrase γ} {f : γ → α} {e : γ → List PErr} (Good : List Ranged → Prop)
    (hc : Consumes p) (hp : ∀ i j a, R i j a → Good j → Does o p i j (f a) o (e a) ∧ Good i)
    {as : List γ} (h : Many R i r as) (hr : Good r) (hf : Stops o p r) :
    Does o (P.rep p) i r (as.map f) o (as.flatMap e) ∧ Good i := by
  induction h with
  | nil => exact ⟨Does.rep_nil hf, hr⟩
  | cons h _ ih =>
    obtain ⟨h1, h2⟩ := ih hr hf
    obtain ⟨h3, h4⟩ := hp _ _ _ h h2
    exact ⟨Does.rep_cons hc h3 h1, h4⟩

theorem Stops.of_snd {p : P α} {R : Rel α} (h : Snd p R) (hn : ∀ r a es, ¬ R o i r a es) : Stops o p i := by
  intro errs warns
  cases hs : p ⟨i, errs, o, warns⟩ with
  | ok a s' =>
    obtain ⟨_, _, es, _, hR⟩ := h.ok _ _ _ hs
    exact absurd hR (hn _ _ _)
  | fail s' => exact .inr ⟨s', rfl, h.fail _ _ hs⟩
  | panic => exact .inl rfl

section
variable [Unicode] [DecOps]

/-! ### Declarations with all their lines are read -/

theorem noLine_of_notLine (h : NotLine i) : NoLine cfg o i := by
  intro r m hl
  obtain ⟨s', h1, _⟩ := fails_metadatumLine (cfg := cfg) (o := o) h [] []
  rw [(fwd_metadatumLine hl).2 [] []] at h1
  cases h1

theorem posting_notLine {p : Spanned Posting × List PErr} (h : PostingP cfg o i r p) : NotLine i := by
  obtain ⟨h1, h2, h3, h4, h5⟩ := h
  intro j hj
  obtain ⟨x, y, rfl⟩ := h1
  obtain ⟨x', y', hj⟩ := hj
  cases hj
  exact (starts_postingLine h2.1).mono (by rintro _ ((⟨f, rfl⟩ | rfl | rfl) | ⟨s, rfl⟩) <;> simp)

theorem stops_metadatumLine (h : NoLine cfg o i) : Stops o (metadatumLine cfg) i :=
  Stops.of_snd (snd_metadatumLine cfg) fun r m _ hR => h r m hR.2

theorem stops_posting (h : NoPosting cfg o i) : Stops o (posting cfg) i :=
  Stops.of_snd (snd_posting cfg) fun r _ _ hR => h r _ hR

theorem does_metadata {lines : List Metadatum} (h : Many (LineP cfg o) i r lines) (hr : NoLine cfg o r) :
    Does o (metadata cfg) i r (lineMetadata lines) o (lineErrors lines) := by
  obtain ⟨h1, _⟩ := Does.many (o := o) (f := id) (e := fun _ => []) (fun _ => True) (consumes_metadatumLine cfg)
    (fun i j a ha _ => ⟨(fwd_metadatumLine ha).does, trivial⟩) h trivial (stops_metadatumLine hr)
  rw [List.map_id] at h1
  refine Does.then (Does.congr h1 rfl (by simp)) ?_
  simp only [collectMetadata_eq]
  exact Does.emit_pure _ _ _

theorem Does.finish {p : P α} {f : α → β} {a : α} {es : List PErr} (h : Does o p i r a o' es) :
    Does o (do let a ← p; Pure.pure (f a)) i r (f a) o' es :=
  Does.congr (Does.bind h (Does.pure (f a) r)) rfl (List.append_nil _)

theorem does_posting {p : Spanned Posting × List PErr} (h : PostingP cfg o i r p) (hr : NoLine cfg o r) :
    Does o (posting cfg) i r p.1 o p.2 := by
  obtain ⟨h1, h2, h3, h4, h5⟩ := h
  refine Does.then (Fwd.just (cfg := cfg) h1 (by simp)).does
    (Does.then ((fwd_postingLine h2.1 (head_lineEnd h3)).spanned h2.2).does
      (Does.then (fwd_eol (cfg := cfg) h3).does ?_))
  exact Does.finish ((does_metadata h4 hr).spanned h5)

theorem does_transaction {k l m n p : List Ranged} {date : Spanned Date} {flag : Spanned Flag}
    {x : Option (Spanned Str) × Option (Spanned Str)} {head : List TagOrLink} {lines : List Metadatum} {span : Span}
    {postings : List (Spanned Posting × List PErr)} (h1 : At cfg DateP i j date)
    (h2 : At cfg TxnP j k flag) (h3 : PayeeNarrationP cfg k l x) (h4 : Many (TagOrLinkP cfg) l m head)
    (h5 : EndOfLine m n) (h6 : Many (LineP cfg o) n p lines) (h7 : Covers cfg n p span)
    (h8 : Many (PostingP cfg o) p r postings) (hl : NoLine cfg o r) (hp : NoPosting cfg o r) :
    Does o (transaction cfg) i r
      ⟨date, ⟨metadataOf lines head, span⟩, .transaction ⟨flag, x.1, x.2, postings.map (·.1)⟩⟩ o
      (headErrors head ++ lineErrors lines ++ postings.flatMap (·.2) ++ clashErrors lines head) := by
  obtain ⟨h9, h10⟩ := Does.many (o := o) (f := Prod.fst) (e := Prod.snd) (NoLine cfg o) (consumes_posting cfg)
    (fun i j a ha hj => ⟨does_posting ha hj, noLine_of_notLine (posting_notLine ha)⟩) h8 hl (stops_posting hp)
  rw [transaction_eq]
  refine Does.congr (Does.bind (fwd_transactionHeaderLine h1 h2 h3 h4 h5).does
    (Does.bind ((does_metadata h6 h10).spanned h7) (Does.bind h9 (Does.emit_pure _ _ _)))) ?_ ?_
  · simp only [mergeHeader_eq]
  · simp only [mergeHeader_eq, List.append_assoc]

theorem does_simpleDirective {k l m n : List Ranged} {date : Spanned Date} {keyword : Token}
    {body : P DirectiveVariant} {v : DirectiveVariant} {es : List PErr} {head : List TagOrLink}
    {lines : List Metadatum} {span : Span} (h1 : At cfg DateP i j date) (h2 : Word keyword j k)
    (hk : ∀ s, keyword ≠ .stringLiteral s) (h3 : Fwd cfg o body k l v es) (h4 : Many (TagOrLinkP cfg) l m head)
    (h5 : EndOfLine m n) (h6 : Many (LineP cfg o) n r lines) (h7 : Covers cfg n r span) (hr : NoLine cfg o r) :
    Does o (simpleDirective cfg keyword body) i r ⟨date, ⟨metadataOf lines head, span⟩, v⟩ o
      (es ++ headErrors head ++ lineErrors lines ++ clashErrors lines head) := by
  refine Does.congr (Does.then ((fwd_date h1.1).spanned h1.2).does (Does.then (Fwd.just (cfg := cfg) h2 hk).does
    (Does.bind h3.does (Does.bind (fwd_tagsLinks h4 (head_lineEnd h5)).does (Does.then (fwd_eol (cfg := cfg) h5).does
      (Does.bind ((does_metadata h6 hr).spanned h7) (Does.emit_pure _ _ _))))))) ?_ ?_
  · simp only [mergeHeader_eq]
  · simp only [mergeHeader_eq, List.append_assoc]

theorem does_custom {k l m n : List Ranged} {date : Spanned Date} {type : Spanned Str}
    {values : List (Spanned MetaValue)} {lines : List Metadatum} {span : Span} (h1 : At cfg DateP i j date)
    (h2 : Word .custom j k) (h3 : At cfg StringP k l type) (h4 : Many (At cfg (MetaValueP cfg o)) l m values)
    (h5 : EndOfLine m n) (h6 : Many (LineP cfg o) n r lines) (h7 : Covers cfg n r span) (hr : NoLine cfg o r) :
    Does o (custom cfg) i r ⟨date, ⟨lineMetadata lines, span⟩, .custom type values⟩ o (lineErrors lines) := by
  obtain ⟨h8, _⟩ := Fwd.many_noErr (cfg := cfg) (o := o) CurOk (consumes_metaValue cfg).spanned
    (fun i j a ha hj => ⟨(fwd_metaValue ha.1 hj).1.spanned ha.2, (fwd_metaValue ha.1 hj).2⟩) h4
    (curOk_eol (head_lineEnd h5))
    (Fails.spanned (fails_metaValue ((head_lineEnd h5).mono fun _ => not_value_eol)))
  exact Does.then ((fwd_date h1.1).spanned h1.2).does (Does.then (Fwd.just (cfg := cfg) h2 (by simp)).does
    (Does.then ((fwd_string h3.1).spanned h3.2).does (Does.then h8.does (Does.then (fwd_eol (cfg := cfg) h5).does
      (Does.finish ((does_metadata h6 hr).spanned h7))))))

/-- The parser of what comes after the keyword. -/
theorem fwd_bodyP {k l : List Ranged} {keyword : Token} {v : DirectiveVariant} {es : List PErr}
    (h3 : BodyP cfg o keyword k l v es) (hl : Head l (fun t => TagLinkTok t ∨ t = .eol)) :
    ∃ body, parserOf cfg keyword = some (simpleDirective cfg keyword body) ∧ Fwd cfg o body k l v es ∧
      ∀ s, keyword ≠ .stringLiteral s := by
  cases h3 with
  | price a b =>
    exact ⟨_, rfl, Fwd.then ((fwd_currency a.1).spanned a.2)
      (Fwd.then ((fwd_amount b.1).spanned b.2) (Fwd.pure _ _)), by simp⟩
  | balance a b =>
    exact ⟨_, rfl, Fwd.then ((fwd_account a.1).spanned a.2)
      (Fwd.then ((fwd_amountWithTolerance b.1).spanned b.2) (Fwd.pure _ _)), by simp⟩
  | «open» a b c =>
    have hk := head_maybe c (fun a ha => starts_booking ha.1) hl
    refine ⟨_, rfl, Fwd.then ((fwd_account a.1).spanned a.2)
      (Fwd.congr (Fwd.bind (fwd_currencyList b (hk.mono ?_)) (Fwd.then (Fwd.orNot c
        (fun e => Fails.spanned (fails_booking ?_)) fun a _ ha => (fwd_booking ha.1).spanned ha.2) (Fwd.pure _ _)))
        rfl (List.append_nil _)), by simp⟩
    · rintro _ (⟨s, rfl⟩ | (⟨s, rfl⟩ | ⟨s, rfl⟩) | rfl) <;> simp
    · subst e
      cases c
      exact hl.mono (by rintro _ ((⟨s, rfl⟩ | ⟨s, rfl⟩) | rfl) <;> simp)
  | close a => exact ⟨_, rfl, Fwd.then ((fwd_account a.1).spanned a.2) (Fwd.pure _ _), by simp⟩
  | commodity a => exact ⟨_, rfl, Fwd.then ((fwd_currency a.1).spanned a.2) (Fwd.pure _ _), by simp⟩
  | pad a b =>
    exact ⟨_, rfl, Fwd.then ((fwd_account a.1).spanned a.2)
      (Fwd.then ((fwd_account b.1).spanned b.2) (Fwd.pure _ _)), by simp⟩
  | document a b =>
    exact ⟨_, rfl, Fwd.then ((fwd_account a.1).spanned a.2)
      (Fwd.then ((fwd_string b.1).spanned b.2) (Fwd.pure _ _)), by simp⟩
  | note a b =>
    exact ⟨_, rfl, Fwd.then ((fwd_account a.1).spanned a.2)
      (Fwd.then ((fwd_string b.1).spanned b.2) (Fwd.pure _ _)), by simp⟩
  | event a b =>
    exact ⟨_, rfl, Fwd.then ((fwd_string a.1).spanned a.2)
      (Fwd.then ((fwd_string b.1).spanned b.2) (Fwd.pure _ _)), by simp⟩
  | query a b =>
    exact ⟨_, rfl, Fwd.then ((fwd_string a.1).spanned a.2)
      (Fwd.then ((fwd_string b.1).spanned b.2) (Fwd.pure _ _)), by simp⟩

/-- The alternatives of `directive`. -/
def directives (cfg : ParseCfg) : List (P Directive) :=
  [transaction cfg, price cfg, balance cfg, open_ cfg, close cfg, commodity cfg, pad cfg, document cfg,
    note cfg, event cfg, query cfg, custom cfg]

theorem parserOf_mem {keyword : Token} {p : P Directive} (h : parserOf cfg keyword = some p) : p ∈ directives cfg := by
  unfold parserOf at h
  split at h <;> cases h <;> simp [directives]

/-- With a given keyword after the date all other alternatives fail. -/
theorem others_fail {k : List Ranged} {date : Spanned Date} {keyword : Token} {p : P Directive}
    (h1 : At cfg DateP i j date) (h2 : Word keyword j k)
    (hp : parserOf cfg keyword = some p ∨ (keyword = .custom ∧ p = custom cfg)) :
    ∀ q ∈ directives cfg, q = p ∨ Fails o q i := by
  have hd := head_word h2
  have hb : ∀ {t : Token} {body : P DirectiveVariant}, keyword ≠ t → Fails o (simpleDirective cfg t body) i :=
    fun {t body} hk => fails_simpleDirective h1 (hd.mono (by rintro _ rfl; exact hk))
  have ht : Fails o (transaction cfg) i := by
    refine fails_transaction h1 (hd.mono ?_)
    rintro _ rfl
    rcases hp with hp | ⟨rfl, _⟩
    · unfold parserOf at hp
      split at hp <;> cases hp <;> simp [FlagTok]
    · simp [FlagTok]
  have hc : keyword ≠ .custom → Fails o (custom cfg) i := fun hk =>
    Fails.bind_right (cfg := cfg) ((fwd_date h1.1).spanned h1.2) (Plain.word h1.1 (by simp))
      (Fails.bind_left (Fails.just (hd.mono (by rintro _ rfl; exact hk))))
  intro q hq
  simp only [directives, List.mem_cons, List.not_mem_nil, or_false] at hq
  have same : ∀ t, keyword = t → ∀ q, parserOf cfg t = some q → q = p := by
    rintro _ rfl q hq'
    rcases hp with hp | ⟨rfl, _⟩
    · rw [hp] at hq'; cases hq'; rfl
    · cases hq'
  rcases hq with rfl | rfl | rfl | rfl | rfl | rfl | rfl | rfl | rfl | rfl | rfl | rfl
  · exact .inr ht
  · by_cases e : keyword = .price
    exacts [.inl (same _ e _ rfl), .inr (hb e)]
  · by_cases e : keyword = .balance
    exacts [.inl (same _ e _ rfl), .inr (hb e)]
  · by_cases e : keyword = .open
    exacts [.inl (same _ e _ rfl), .inr (hb e)]
  · by_cases e : keyword = .close
    exacts [.inl (same _ e _ rfl), .inr (hb e)]
  · by_cases e : keyword = .commodity
    exacts [.inl (same _ e _ rfl), .inr (hb e)]
  · by_cases e : keyword = .pad
    exacts [.inl (same _ e _ rfl), .inr (hb e)]
  · by_cases e : keyword = .document
    exacts [.inl (same _ e _ rfl), .inr (hb e)]
  · by_cases e : keyword = .note
    exacts [.inl (same _ e _ rfl), .inr (hb e)]
  · by_cases e : keyword = .event
    exacts [.inl (same _ e _ rfl), .inr (hb e)]
  · by_cases e : keyword = .query
    exacts [.inl (same _ e _ rfl), .inr (hb e)]
  · rcases hp with hp | ⟨_, rfl⟩
    · refine .inr (hc ?_)
      rintro rfl
      cases hp
    · exact .inl rfl

theorem does_directive {d : Directive} {es : List PErr} (h : DirectiveP cfg o i r d es)
    (hr : Ended cfg o (.directive d) r) : Does o (directive cfg) i r d o es := by
  cases h with
  | transaction h1 h2 h3 h4 h5 h6 h7 h8 =>
    exact Does.alt_left (does_transaction h1 h2 h3 h4 h5 h6 h7 h8 hr.1 hr.2)
  | other h1 h2 h3 h4 h5 h6 h7 =>
    obtain ⟨body, hp, h8, hk⟩ := fwd_bodyP h3 (head_tagsLinks h4 h5)
    refine Does.choice (parserOf_mem hp) (others_fail h1 h2 (.inl hp))
      (does_simpleDirective h1 h2 hk h8 h4 h5 h6 h7 ?_)
    cases h3 <;> exact hr
  | custom h1 h2 h3 h4 h5 h6 h7 =>
    exact Does.choice (p := custom cfg) (by simp) (others_fail h1 h2 (.inr ⟨rfl, rfl⟩))
      (does_custom h1 h2 h3 h4 h5 h6 h7 hr)

theorem does_declaration {d : Spanned Declaration} {es : List PErr} (h : ReadsP cfg o i r d o' es) :
    Does o (declaration cfg) i r d o' es := by
  obtain ⟨h, hr⟩ := h
  unfold declaration
  cases h with
  | directive h hs => exact Does.spanned (Does.alt_left (Does.finish (does_directive h hr))) hs
  | pragma h1 h2 hs =>
    refine Does.spanned (Does.alt_right (Fails.bind_left (fails_directive ((starts_pragma h1).head.mono ?_)))
      (Does.finish (fwd_pragma h1 h2).does)) hs
    rintro _ (rfl | rfl | rfl | rfl | rfl | rfl | rfl) <;> simp

/-! ### What begins with a declaration is read -/

omit [Unicode] [DecOps] in
/-- If all alternatives leave the options alone when they fail, then all of them have failed. -/
theorem choice_fail {ps : List (P α)} (hs : ∀ p ∈ ps, ∀ s s', p s = .fail s' → s'.opts = s.opts) : ∀ {s s' : PSt},
    P.choice ps s = .fail s' → s'.opts = s.opts ∧
      ∀ p ∈ ps, ∃ s1 s2, s1.toks = s.toks ∧ s1.opts = s.opts ∧ p s1 = .fail s2 := by
  induction ps with
  | nil => intro s s' h; cases h; exact ⟨rfl, fun _ h => by cases h⟩
  | cons p ps ih =>
    cases ps with
    | nil =>
      intro s s' h
      refine ⟨hs p (by simp) _ _ h, fun q hq => ?_⟩
      have : q = p := by simpa using hq
      exact ⟨s, s', rfl, rfl, this ▸ h⟩
    | cons q qs =>
      intro s s' h
      obtain ⟨s1, h1, h2⟩ := alt_fail.mp h
      have ho := hs p (by simp) _ _ h1
      obtain ⟨h3, h4⟩ := ih (fun p hp => hs p (by simp [hp])) h2
      refine ⟨h3.trans ho, fun q' hq => ?_⟩
      rcases List.mem_cons.mp hq with rfl | hq
      · exact ⟨s, s1, rfl, rfl, h1⟩
      · obtain ⟨s2, s3, k1, k2, k3⟩ := h4 q' hq
        exact ⟨s2, s3, k1, k2.trans ho, k3⟩

omit [Unicode] [DecOps] in
/-- If the first part succeeds, then the second part has failed. -/
theorem Fwd.fail_right {p : P α} {f : α → P β} {a : α} {es : List PErr} (h : Fwd cfg o p i j a es) {s s' : PSt}
    (hi : s.toks = i) (ho : s.opts = o) (hf : (p >>= f) s = .fail s') :
    ∃ s1, s1.toks = j ∧ s1.opts = o ∧ f a s1 = .fail s' := by
  obtain ⟨i', errs, o', warns⟩ := s
  dsimp only at hi ho
  subst hi ho
  rw [bind_eq, h.2] at hf
  exact ⟨_, rfl, rfl, hf⟩

theorem metadata_fail {s s' : PSt} : metadata cfg s ≠ .fail s' := by
  intro h
  rcases bind_fail.mp h with h | ⟨a, s1, _, h⟩
  · exact rep_fail h
  · cases h

theorem afterMetadata_fail {f : Spanned Metadata → P β} (hf : ∀ m s s', f m s ≠ .fail s') {s s' : PSt} :
    (P.spanned cfg (metadata cfg) >>= f) s ≠ .fail s' := by
  intro h
  rcases bind_fail.mp h with h | ⟨a, s1, _, h⟩
  · exact metadata_fail (spanned_fail.mp h)
  · exact hf _ _ _ h

theorem posting_noFail {p : Spanned Posting × List PErr} (h : PostingP cfg o i r p) {s s' : PSt} (hi : s.toks = i)
    (ho : s.opts = o) : posting cfg s ≠ .fail s' := by
  intro hf
  obtain ⟨h1, h2, h3, h4, h5⟩ := h
  obtain ⟨s1, hi, ho, hf⟩ := (Fwd.just (cfg := cfg) h1 (by simp)).fail_right hi ho hf
  obtain ⟨s1, hi, ho, hf⟩ := ((fwd_postingLine h2.1 (head_lineEnd h3)).spanned h2.2).fail_right hi ho hf
  obtain ⟨s1, hi, ho, hf⟩ := (fwd_eol (cfg := cfg) h3).fail_right hi ho hf
  exact afterMetadata_fail (fun _ _ _ h => by cases h) hf

theorem snd_directives (cfg : ParseCfg) : ∀ p ∈ directives cfg, Snd p (DirectiveP cfg) := by
  intro p hp
  simp only [directives, List.mem_cons, List.not_mem_nil, or_false] at hp
  rcases hp with rfl | rfl | rfl | rfl | rfl | rfl | rfl | rfl | rfl | rfl | rfl | rfl
  exacts [snd_transaction cfg, snd_price cfg, snd_balance cfg, snd_open cfg, snd_close cfg, snd_commodity cfg,
    snd_pad cfg, snd_document cfg, snd_note cfg, snd_event cfg, snd_query cfg, snd_custom cfg]

theorem directive_noFail {d : Directive} {es : List PErr} (h : DirectiveP cfg o i r d es) {s s' : PSt}
    (hi : s.toks = i) (ho : s.opts = o) : directive cfg s ≠ .fail s' := by
  intro hf
  obtain ⟨_, hall⟩ := choice_fail (ps := directives cfg) (fun p hp => (snd_directives cfg p hp).fail) hf
  cases h with
  | transaction h1 h2 h3 h4 h5 h6 h7 h8 =>
    obtain ⟨s1, s2, k1, k2, hf⟩ := hall (transaction cfg) (by simp [directives])
    rw [transaction_eq] at hf
    obtain ⟨s1, hi, ho, hf⟩ := (fwd_transactionHeaderLine h1 h2 h3 h4 h5).fail_right (k1.trans hi) (k2.trans ho) hf
    refine afterMetadata_fail (fun _ _ _ h => ?_) hf
    rcases bind_fail.mp h with h | ⟨a, s1, _, h⟩
    · exact rep_fail h
    · cases h
  | other h1 h2 h3 h4 h5 h6 h7 =>
    obtain ⟨body, hp, h8, hk⟩ := fwd_bodyP h3 (head_tagsLinks h4 h5)
    obtain ⟨s1, s2, k1, k2, hf⟩ := hall _ (parserOf_mem hp)
    obtain ⟨s1, hi, ho, hf⟩ := ((fwd_date h1.1).spanned h1.2).fail_right (k1.trans hi) (k2.trans ho) hf
    obtain ⟨s1, hi, ho, hf⟩ := (Fwd.just (cfg := cfg) h2 hk).fail_right hi ho hf
    obtain ⟨s1, hi, ho, hf⟩ := h8.fail_right hi ho hf
    obtain ⟨s1, hi, ho, hf⟩ := (fwd_tagsLinks h4 (head_lineEnd h5)).fail_right hi ho hf
    obtain ⟨s1, hi, ho, hf⟩ := (fwd_eol (cfg := cfg) h5).fail_right hi ho hf
    exact afterMetadata_fail (fun _ _ _ h => by cases h) hf
  | custom h1 h2 h3 h4 h5 h6 h7 =>
    obtain ⟨s1, s2, k1, k2, hf⟩ := hall (custom cfg) (by simp [directives])
    obtain ⟨s1, hi, ho, hf⟩ := ((fwd_date h1.1).spanned h1.2).fail_right (k1.trans hi) (k2.trans ho) hf
    obtain ⟨s1, hi, ho, hf⟩ := (Fwd.just (cfg := cfg) h2 (by simp)).fail_right hi ho hf
    obtain ⟨s1, hi, ho, hf⟩ := ((fwd_string h3.1).spanned h3.2).fail_right hi ho hf
    obtain ⟨h8, _⟩ := Fwd.many_noErr (cfg := cfg) (o := o) CurOk (consumes_metaValue cfg).spanned
      (fun i j a ha hj => ⟨(fwd_metaValue ha.1 hj).1.spanned ha.2, (fwd_metaValue ha.1 hj).2⟩) h4
      (curOk_eol (head_lineEnd h5))
      (Fails.spanned (fails_metaValue ((head_lineEnd h5).mono fun _ => not_value_eol)))
    obtain ⟨s1, hi, ho, hf⟩ := h8.fail_right hi ho hf
    obtain ⟨s1, hi, ho, hf⟩ := (fwd_eol (cfg := cfg) h5).fail_right hi ho hf
    exact afterMetadata_fail (fun _ _ _ h => by cases h) hf

/-- Where a declaration begins, looking for one does not fail. -/
theorem declaration_noFail {d : Spanned Declaration} {es : List PErr} (h : DeclarationP cfg o i r d o' es)
    {s s' : PSt} (hi : s.toks = i) (ho : s.opts = o) : declaration cfg s ≠ .fail s' := by
  intro hf
  obtain ⟨s1, h1, h2⟩ := alt_fail.mp (spanned_fail.mp hf)
  have ho1 := (Snd.map (snd_directive cfg) Declaration.directive).fail _ _ h1
  cases h with
  | directive h hs =>
    rcases bind_fail.mp h1 with h1 | ⟨_, _, _, h1⟩
    · exact directive_noFail h hi ho h1
    · cases h1
  | pragma h3 h4 hs =>
    rcases bind_fail.mp h2 with h2 | ⟨_, _, _, h2⟩
    · obtain ⟨i', errs, o1, warns⟩ := s
      have := (fwd_pragma h3 h4).2 errs s1.warns
      dsimp only at hi ho ho1
      subst hi ho
      rw [← ho1] at this
      change pragma cfg ((⟨i', errs, o1, warns⟩ : PSt).rewind s1) = _ at this
      rw [this] at h2
      cases h2
    · cases h2

/-! ### A declaration is read with all its lines -/

theorem noLine_after {s s' : PSt} {m : Metadata} (h : metadata cfg s = .ok m s') : NoLine cfg s'.opts s'.toks := by
  obtain ⟨l, s1, h1, h2⟩ := bind_ok.mp h
  have : s'.toks = s1.toks ∧ s'.opts = s1.opts := by cases h2; exact ⟨rfl, rfl⟩
  rw [this.1, this.2]
  have key : ∀ {s s1 : PSt} {l : List Metadatum}, Reps (metadatumLine cfg) s l s1 → NoLine cfg s1.opts s1.toks := by
    intro s s1 l h
    induction h with
    | nil h =>
      intro r m hl
      rename_i s s'
      have ho := (snd_metadatumLine cfg).fail _ _ h
      rw [rewind_toks, rewind_opts, ho] at hl
      have := (fwd_metadatumLine hl).2 s.errs s.warns
      change metadatumLine cfg s = _ at this
      rw [this] at h
      cases h
    | cons _ _ ih => exact ih
  exact key (rep_reps h1)

theorem noLine_posting {s s' : PSt} {p : Spanned Posting} (h : posting cfg s = .ok p s') :
    NoLine cfg s'.opts s'.toks := by
  obtain ⟨_, s1, _, h⟩ := bind_ok.mp h
  obtain ⟨_, s1, _, h⟩ := bind_ok.mp h
  obtain ⟨_, s1, _, h⟩ := bind_ok.mp h
  obtain ⟨_, s1, h1, h⟩ := bind_ok.mp h
  have : s'.toks = s1.toks ∧ s'.opts = s1.opts := by cases h; exact ⟨rfl, rfl⟩
  rw [this.1, this.2]
  exact noLine_after (spanned_ok.mp h1).1

theorem ended_postings {s s' : PSt} {ps : List (Spanned Posting)} (h : Reps (posting cfg) s ps s')
    (hs : NoLine cfg s.opts s.toks) : NoLine cfg s'.opts s'.toks ∧ NoPosting cfg s'.opts s'.toks := by
  induction h with
  | nil h =>
    rename_i s s'
    have ho := (snd_posting cfg).fail _ _ h
    rw [rewind_toks, rewind_opts, ho]
    exact ⟨hs, fun r p hp => posting_noFail hp rfl rfl h⟩
  | cons h _ ih => exact ih (noLine_posting h)

theorem ended_transaction {s s' : PSt} {d : Directive} (h : transaction cfg s = .ok d s') :
    Ended cfg s'.opts (.directive d) s'.toks := by
  rw [transaction_eq] at h
  obtain ⟨_, s1, _, h⟩ := bind_ok.mp h
  obtain ⟨_, s2, h2, h⟩ := bind_ok.mp h
  obtain ⟨_, s3, h3, h⟩ := bind_ok.mp h
  have := ended_postings (rep_reps h3) (noLine_after (spanned_ok.mp h2).1)
  cases h
  exact this

theorem ended_of_noLine {d : Directive} (h : NoLine cfg o i) (hd : ∀ t, d.variant ≠ .transaction t) :
    Ended cfg o (.directive d) i := by
  obtain ⟨a, b, v⟩ := d
  unfold Ended
  split
  · rename_i e
    cases e
    exact absurd rfl (hd _)
  · exact h
  · trivial

theorem ended_simpleDirective {keyword : Token} {body : P DirectiveVariant}
    (hb : ∀ s v s', body s = .ok v s' → ∀ t, v ≠ .transaction t) {s s' : PSt} {d : Directive}
    (h : simpleDirective cfg keyword body s = .ok d s') : Ended cfg s'.opts (.directive d) s'.toks := by
  obtain ⟨_, s1, _, h⟩ := bind_ok.mp h
  obtain ⟨_, s1, _, h⟩ := bind_ok.mp h
  obtain ⟨v, s2, hv, h⟩ := bind_ok.mp h
  obtain ⟨_, s1, _, h⟩ := bind_ok.mp h
  obtain ⟨_, s1, _, h⟩ := bind_ok.mp h
  obtain ⟨_, s3, h3, h⟩ := bind_ok.mp h
  have := noLine_after (spanned_ok.mp h3).1
  cases h
  exact ended_of_noLine this (hb _ _ _ hv)

theorem ended_custom {s s' : PSt} {d : Directive} (h : custom cfg s = .ok d s') :
    Ended cfg s'.opts (.directive d) s'.toks := by
  obtain ⟨_, s1, _, h⟩ := bind_ok.mp h
  obtain ⟨_, s1, _, h⟩ := bind_ok.mp h
  obtain ⟨v, s2, hv, h⟩ := bind_ok.mp h
  obtain ⟨_, s1, _, h⟩ := bind_ok.mp h
  obtain ⟨_, s1, _, h⟩ := bind_ok.mp h
  obtain ⟨_, s3, h3, h⟩ := bind_ok.mp h
  cases h
  exact ended_of_noLine (noLine_after (spanned_ok.mp h3).1) (by simp)

omit [Unicode] [DecOps] in
theorem choice_ok {ps : List (P α)} : ∀ {s s' : PSt} {a : α}, P.choice ps s = .ok a s' → ∃ p ∈ ps, ∃ s1, p s1 = .ok a s' := by
  induction ps with
  | nil => intro s s' a h; cases h
  | cons p ps ih =>
    cases ps with
    | nil => intro s s' a h; exact ⟨p, by simp, s, h⟩
    | cons q qs =>
      intro s s' a h
      rcases alt_ok.mp h with h | ⟨s1, _, h⟩
      · exact ⟨p, by simp, s, h⟩
      · obtain ⟨p', h1, h2⟩ := ih h
        exact ⟨p', by simp [h1], h2⟩

theorem ended_directive {s s' : PSt} {d : Directive} (h : directive cfg s = .ok d s') :
    Ended cfg s'.opts (.directive d) s'.toks := by
  obtain ⟨p, hp, s1, h⟩ := choice_ok h
  have two : ∀ {β γ : Type} {p : P β} {q : P γ} {f : β → γ → DirectiveVariant}, (∀ b c t, f b c ≠ .transaction t) →
      ∀ s v s', (do let b ← p; let c ← q; pure (f b c) : P DirectiveVariant) s = .ok v s' →
        ∀ t, v ≠ .transaction t := by
    intro β γ p q f hf s v s' h
    obtain ⟨_, _, _, h⟩ := bind_ok.mp h
    obtain ⟨_, _, _, h⟩ := bind_ok.mp h
    cases h
    exact hf _ _
  have one : ∀ {β : Type} {p : P β} {f : β → DirectiveVariant}, (∀ b t, f b ≠ .transaction t) →
      ∀ s v s', (do let b ← p; pure (f b) : P DirectiveVariant) s = .ok v s' → ∀ t, v ≠ .transaction t := by
    intro β p f hf s v s' h
    obtain ⟨_, _, _, h⟩ := bind_ok.mp h
    cases h
    exact hf _
  simp only [List.mem_cons, List.not_mem_nil, or_false] at hp
  rcases hp with rfl | rfl | rfl | rfl | rfl | rfl | rfl | rfl | rfl | rfl | rfl | rfl
  · exact ended_transaction h
  · exact ended_simpleDirective (two (by simp)) h
  · exact ended_simpleDirective (two (by simp)) h
  · refine ended_simpleDirective ?_ h
    intro s v s' h
    obtain ⟨_, _, _, h⟩ := bind_ok.mp h
    obtain ⟨_, _, _, h⟩ := bind_ok.mp h
    obtain ⟨_, _, _, h⟩ := bind_ok.mp h
    cases h
    simp
  · exact ended_simpleDirective (one (by simp)) h
  · exact ended_simpleDirective (one (by simp)) h
  · exact ended_simpleDirective (two (by simp)) h
  · exact ended_simpleDirective (two (by simp)) h
  · exact ended_simpleDirective (two (by simp)) h
  · exact ended_simpleDirective (two (by simp)) h
  · exact ended_simpleDirective (two (by simp)) h
  · exact ended_custom h

theorem declaration_reads {s s' : PSt} {d : Spanned Declaration} (h : declaration cfg s = .ok d s') :
    s'.toks <:+ s.toks ∧ ∃ es, s'.errs = s.errs ++ es ∧ ReadsP cfg s.opts s.toks s'.toks d s'.opts es := by
  obtain ⟨h1, es, h2, h3⟩ := declaration_ok cfg h
  refine ⟨h1, es, h2, h3, ?_⟩
  have h := (spanned_ok.mp h).1
  rcases alt_ok.mp h with h | ⟨s1, _, h⟩
  · obtain ⟨d', s2, h4, h5⟩ := bind_ok.mp h
    obtain ⟨item, span⟩ := d
    cases h5
    have := ended_directive h4
    rwa [((snd_directive cfg).ok _ _ _ h4).2.1] at this
  · obtain ⟨d', s2, h4, h5⟩ := bind_ok.mp h
    obtain ⟨item, span⟩ := d
    cases h5
    trivial

/-! ### The options after a failure -/

omit [DecOps] in
theorem assimilate_fail {name value : Spanned Str} {s s' : PSt} : assimilateOption cfg name value s ≠ .fail s' := by
  unfold assimilateOption
  split <;> try (intro h; cases h)
  split <;> (intro h; cases h)

omit [DecOps] in
theorem option_noFail {name value : Spanned Str} (h : OptionAt cfg i name value) {s s' : PSt} (hi : s.toks = i) :
    option cfg s ≠ .fail s' := by
  intro hf
  obtain ⟨j, k, r, h1, h2, h3⟩ := h
  obtain ⟨s1, hi, ho, hf⟩ := (Fwd.just (cfg := cfg) h1 (by simp)).fail_right hi rfl hf
  obtain ⟨s1, hi, ho, hf⟩ := ((fwd_string h2.1).spanned h2.2).fail_right hi ho hf
  obtain ⟨s1, hi, ho, hf⟩ := ((fwd_string h3.1).spanned h3.2).fail_right hi ho hf
  exact assimilate_fail hf

omit [Unicode] [DecOps] in
theorem optionAt_head {name value : Spanned Str} (h : OptionAt cfg i name value) {t : Token} (hw : Word t i j) :
    t = .option := by
  obtain ⟨j', k, r, ⟨x, y, rfl⟩, _⟩ := h
  obtain ⟨x', y', e⟩ := hw
  cases e
  rfl

theorem pragma_fail {s s' : PSt} (h : pragma cfg s = .fail s') : AfterFailure cfg s.opts s.toks s'.opts := by
  have hpl := snd_pragma_plain cfg
  simp only [List.forall_mem_cons, List.not_mem_nil, false_imp_iff, implies_true, and_true] at hpl
  obtain ⟨p1, p2, p3, p4, p5, p6⟩ := hpl
  have ho : Opt (do let o ← option cfg; pure (.option o)) (PragmaP cfg) := by
    refine (Opt.map (opt_option cfg) Pragma.option).mono ?_
    rintro o i r p o' es ⟨opt, rfl, j, k, name, value, h1, h2, h3, h4⟩
    exact .option h1 h2 h3 h4
  have hq : ∀ q ∈ [
    (do let t ← P.spanned cfg (do P.just .pushtag; tag); pure (.pushtag t)),
    (do let t ← P.spanned cfg (do P.just .poptag; tag); pure (.poptag t)),
    (do P.just .pushmeta; let kv ← metaKeyValue cfg; pure (.pushmeta kv)),
    (do let k ← P.spanned cfg (do P.just .popmeta; let k ← key; P.just .colon; pure k); pure (.popmeta k)),
    (do P.just .include; let s ← P.spanned cfg (string cfg); pure (.include s)),
    (do let o ← option cfg; pure (.option o)),
    (do P.just .plugin
        let m ← P.spanned cfg (string cfg)
        let c ← P.orNot (P.spanned cfg (string cfg))
        pure (.plugin ⟨m, c⟩) : P Pragma)], Opt q (PragmaP cfg) := by
    intro q hq
    simp only [List.mem_cons, List.not_mem_nil, or_false] at hq
    rcases hq with rfl | rfl | rfl | rfl | rfl | rfl | rfl
    · exact Opt.of_snd p1 fun _ _ _ _ _ h => h
    · exact Opt.of_snd p2 fun _ _ _ _ _ h => h
    · exact Opt.of_snd p3 fun _ _ _ _ _ h => h
    · exact Opt.of_snd p4 fun _ _ _ _ _ h => h
    · exact Opt.of_snd p5 fun _ _ _ _ _ h => h
    · exact ho
    · exact Opt.of_snd p6 fun _ _ _ _ _ h => h
  rcases bind_fail.mp h with h | ⟨p, s1, h1, h⟩
  · obtain ⟨h1, h2⟩ := choice_fail (fun q hq' => (hq q hq').fail) h
    rw [h1]
    refine .other fun name value hn => ?_
    obtain ⟨s1, s2, k1, _, h3⟩ := h2 (do let o ← option cfg; pure (.option o)) (by simp)
    rcases bind_fail.mp h3 with h3 | ⟨_, _, _, h3⟩
    · exact option_noFail hn k1 h3
    · cases h3
  · have hs : s'.opts = s1.opts := by
      rcases bind_fail.mp h with h | ⟨_, _, _, h⟩
      · obtain ⟨r, rfl⟩ := pur_eol.fail _ _ h
        rfl
      · cases h
    obtain ⟨_, es, _, h2⟩ := (Opt.choice hq).ok _ _ _ h1
    rw [hs]
    generalize s.toks = i at h2 ⊢
    generalize s1.toks = j at h2
    generalize s1.opts = o1 at h2 ⊢
    cases h2 with
    | pushtag a => obtain ⟨k, a, _⟩ := a.1; exact .other fun _ _ hn => by cases optionAt_head hn a
    | poptag a => obtain ⟨k, a, _⟩ := a.1; exact .other fun _ _ hn => by cases optionAt_head hn a
    | pushmeta a _ => exact .other fun _ _ hn => by cases optionAt_head hn a
    | popmeta a => obtain ⟨k, a, _⟩ := a.1; exact .other fun _ _ hn => by cases optionAt_head hn a
    | «include» a _ => exact .other fun _ _ hn => by cases optionAt_head hn a
    | plugin a _ _ => exact .other fun _ _ hn => by cases optionAt_head hn a
    | option a b c d => exact .option ⟨_, _, _, a, b, c⟩ d

theorem declaration_fail {s s' : PSt} (h : declaration cfg s = .fail s') :
    NoDeclaration cfg s.opts s.toks ∧ AfterFailure cfg s.opts s.toks s'.opts := by
  refine ⟨fun r d o' es hd => declaration_noFail hd rfl rfl h, ?_⟩
  obtain ⟨s1, h1, h2⟩ := alt_fail.mp (spanned_fail.mp h)
  have ho1 := (Snd.map (snd_directive cfg) Declaration.directive).fail _ _ h1
  rcases bind_fail.mp h2 with h2 | ⟨_, _, _, h2⟩
  · have := pragma_fail h2
    rwa [rewind_toks, rewind_opts, ho1] at this
  · cases h2

/-! ### Skipping tokens -/

omit [Unicode] [DecOps] in
theorem covers_unique {span span' : Span} (h : Covers cfg i r span) (h' : Covers cfg i r span') : span = span' := by
  rw [spanOf_of_covers h, spanOf_of_covers h']

omit [Unicode] [DecOps] in
theorem string_unique {x x' : Spanned Str} {r' : List Ranged} (h : At cfg StringP i r x) (h' : At cfg StringP i r' x') :
    r = r' ∧ x = x' := by
  obtain ⟨x, s⟩ := x
  obtain ⟨x', s'⟩ := x'
  obtain ⟨⟨a, b, rfl⟩, h2⟩ := h
  obtain ⟨⟨a', b', e⟩, h2'⟩ := h'
  cases e
  have : s = s' := covers_unique h2 h2'
  exact ⟨rfl, by rw [this]⟩

omit [Unicode] [DecOps] in
theorem optionAt_unique {n v n' v' : Spanned Str} (h : OptionAt cfg i n v) (h' : OptionAt cfg i n' v') :
    n = n' ∧ v = v' := by
  obtain ⟨j, k, r, ⟨a, b, rfl⟩, h2, h3⟩ := h
  obtain ⟨j', k', r', ⟨a', b', e⟩, h2', h3'⟩ := h'
  cases e
  obtain ⟨rfl, rfl⟩ := string_unique h2 h2'
  obtain ⟨rfl, rfl⟩ := string_unique h3 h3'
  exact ⟨rfl, rfl⟩

omit [DecOps] in
theorem optionP_unique {n v : Spanned Str} {opt opt' : BOption} {o1 o2 : ParserOptions} {es es' : List PErr}
    (h : OptionP cfg o n v opt o1 es) (h' : OptionP cfg o n v opt' o2 es') : o1 = o2 := by
  cases h with
  | unknown a => cases h' with
    | unknown => rfl
    | badValue => rfl
    | accepted b _ => rw [a] at b; cases b
    | refused b _ => rw [a] at b; cases b
  | badValue a => cases h' with
    | unknown => rfl
    | badValue => rfl
    | accepted b _ => rw [a] at b; cases b
    | refused b _ => rw [a] at b; cases b
  | accepted a c => cases h' with
    | unknown b => rw [a] at b; cases b
    | badValue b => rw [a] at b; cases b
    | accepted b d => rw [a] at b; cases b; rw [c] at d; cases d; rfl
    | refused b d => rw [a] at b; cases b; rw [c] at d; cases d
  | refused a c => cases h' with
    | unknown b => rw [a] at b; cases b
    | badValue b => rw [a] at b; cases b
    | accepted b d => rw [a] at b; cases b; rw [c] at d; cases d
    | refused b d => rw [a] at b; cases b; rw [c] at d; cases d; rfl

omit [DecOps] in
theorem afterFailure_unique {o1 o2 : ParserOptions} (h : AfterFailure cfg o i o1) (h' : AfterFailure cfg o i o2) :
    o1 = o2 := by
  cases h with
  | option a b =>
    cases h' with
    | option a' b' => obtain ⟨rfl, rfl⟩ := optionAt_unique a a'; exact optionP_unique b b'
    | other h => exact absurd a (h _ _)
  | other h =>
    cases h' with
    | option a' b' => exact absurd a' (h _ _)
    | other => rfl

/-- At the end there is no declaration. -/
theorem declaration_end (errs : List PErr) (warns : List Report) :
    ∃ s', declaration cfg ⟨[], errs, o, warns⟩ = .fail s' ∧ s'.opts = o := by
  obtain ⟨s', h1, h2, _⟩ := fails_declaration (cfg := cfg) (o := o) (i := []) (by intro t h; cases h) errs warns
  exact ⟨s', h1, h2⟩

/-- What looking for a declaration does where none is. -/
theorem noDeclaration_does (h1 : NoDeclaration cfg o i) (h2 : AfterFailure cfg o i o') (errs : List PErr)
    (warns : List Report) : declaration cfg ⟨i, errs, o, warns⟩ = .panic ∨
      ∃ s', declaration cfg ⟨i, errs, o, warns⟩ = .fail s' ∧ s'.opts = o' := by
  cases h : declaration cfg ⟨i, errs, o, warns⟩ with
  | ok d s' =>
    obtain ⟨_, es, _, h3⟩ := declaration_ok cfg h
    exact absurd h3 (h1 _ _ _ _)
  | fail s' => exact .inr ⟨s', rfl, afterFailure_unique (declaration_fail h).2 h2⟩
  | panic => exact .inl rfl

theorem skip_unfold (t : Ranged) (ts : List Ranged) (s : PSt) :
    skipThenRetry (declaration cfg) (t :: ts) s =
      match declaration cfg { s with toks := ts } with
      | .ok a s' =>
        if s'.errs.length = s.errs.length then .ok a { s' with errs := s'.errs ++ [.syntax] }
        else skipThenRetry (declaration cfg) ts (s.rewind s')
      | .fail s' => skipThenRetry (declaration cfg) ts (s.rewind s')
      | .panic => .panic := by
  simp only [skipThenRetry]
  cases declaration cfg { s with toks := ts } <;> rfl

/-- The tokens after the first, in a run of skipped ones: reading resumes, or not. -/
theorem skip_sound (ts : List Ranged) : ∀ (t : Ranged) (s : PSt),
    (∀ d s', skipThenRetry (declaration cfg) (t :: ts) s = .ok d s' → ∃ run i o1, ts = run ++ i ∧
      AllPassedOver cfg s.opts run i o1 ∧ s'.toks <:+ i ∧ ReadsP cfg o1 i s'.toks d s'.opts [] ∧
      s'.errs = s.errs ++ [.syntax]) ∧
    (∀ s', skipThenRetry (declaration cfg) (t :: ts) s = .fail s' → AllPassedOver cfg s.opts ts [] s'.opts) := by
  induction ts with
  | nil =>
    intro t s
    obtain ⟨s', h1, h2⟩ := declaration_end (cfg := cfg) (o := s.opts) s.errs s.warns
    have : skipThenRetry (declaration cfg) [t] s = .fail (s.rewind s') := by
      simp only [skipThenRetry]
      rw [h1]
    rw [this]
    refine ⟨fun d s' h => (by cases h), fun s1 h => ?_⟩
    cases h
    rw [rewind_opts, h2]
    exact .nil
  | cons u ts ih =>
    intro t s
    have next : ∀ s1 : PSt, PassedOver cfg s.opts (u :: ts) s1.opts →
        (∀ d s', skipThenRetry (declaration cfg) (u :: ts) (s.rewind s1) = .ok d s' → ∃ run i o1, u :: ts = run ++ i ∧
          AllPassedOver cfg s.opts run i o1 ∧ s'.toks <:+ i ∧ ReadsP cfg o1 i s'.toks d s'.opts [] ∧
          s'.errs = s.errs ++ [.syntax]) ∧
        (∀ s', skipThenRetry (declaration cfg) (u :: ts) (s.rewind s1) = .fail s' →
          AllPassedOver cfg s.opts (u :: ts) [] s'.opts) := by
      intro s1 hp
      obtain ⟨h1, h2⟩ := ih u (s.rewind s1)
      refine ⟨fun d s' h => ?_, fun s' h => .cons ?_ (h2 s' h)⟩
      · obtain ⟨run, i, o1, e, h3, h4, h5, h6⟩ := h1 d s' h
        subst e
        exact ⟨u :: run, i, o1, rfl, .cons hp h3, h4, h5, h6⟩
      · rw [List.append_nil]
        exact hp
    rw [skip_unfold]
    cases hd : declaration cfg { s with toks := u :: ts } with
    | ok a s1 =>
      obtain ⟨h1, es, h2, h3⟩ := declaration_reads hd
      dsimp only at h2 h3 ⊢
      by_cases hl : s1.errs.length = s.errs.length
      · rw [if_pos hl]
        refine ⟨fun d s' h => ?_, fun s' h => by cases h⟩
        cases h
        have : es = [] := by
          rw [h2, List.length_append] at hl
          exact List.length_eq_zero_iff.mp (by omega)
        subst this
        exact ⟨[], u :: ts, s.opts, rfl, .nil, h1, h3, by rw [h2, List.append_nil]⟩
      · rw [if_neg hl]
        refine next s1 (.withErrors h3 ?_)
        rintro rfl
        rw [h2, List.append_nil] at hl
        exact hl rfl
    | fail s1 =>
      obtain ⟨h1, h2⟩ := declaration_fail hd
      exact next s1 (.nothing h1 h2)
    | panic => exact ⟨fun _ _ h => (by cases h), fun _ h => (by cases h)⟩

/-- One token at which reading does not resume. -/
theorem skip_passed {t : Ranged} {ts : List Ranged} (h : PassedOver cfg o ts o') {s : PSt} (ho : s.opts = o) :
    skipThenRetry (declaration cfg) (t :: ts) s = .panic ∨ ∃ s', s'.opts = o' ∧
      skipThenRetry (declaration cfg) (t :: ts) s = skipThenRetry (declaration cfg) ts (s.rewind s') := by
  obtain ⟨i, errs, o1, warns⟩ := s
  dsimp only at ho
  subst ho
  rw [skip_unfold]
  cases h with
  | nothing h1 h2 =>
    rcases noDeclaration_does h1 h2 errs warns with h | ⟨s', h, ho⟩
    · rw [h]; exact .inl rfl
    · rw [h]; exact .inr ⟨s', ho, rfl⟩
  | @withErrors r d _ es h1 h2 =>
    rcases (does_declaration h1).2 errs warns with h | ⟨w, h⟩
    · rw [h]; exact .inl rfl
    · rw [h]
      refine .inr ⟨⟨r, errs ++ es, o', w⟩, rfl, ?_⟩
      dsimp only
      rw [if_neg]
      rw [List.length_append]
      have := List.length_pos_iff.mpr h2
      omega

theorem skip_all {run : List Ranged} {r : List Ranged} (h : AllPassedOver cfg o run r o') : ∀ (t : Ranged) (s : PSt),
    s.opts = o → skipThenRetry (declaration cfg) (t :: run ++ r) s = .panic ∨ ∃ t' s', s'.opts = o' ∧
      s'.errs = s.errs ∧
      skipThenRetry (declaration cfg) (t :: run ++ r) s = skipThenRetry (declaration cfg) (t' :: r) s' := by
  induction h with
  | nil => exact fun t s ho => .inr ⟨t, s, ho, rfl, rfl⟩
  | @cons o o1 o2 u run r h1 _ ih =>
    intro t s ho
    rcases skip_passed (t := t) h1 ho with h | ⟨s', hs, h⟩
    · exact .inl h
    · rcases ih u (s.rewind s') hs with h' | ⟨t', s2, h2, h3, h4⟩
      · exact .inl (h.trans h')
      · exact .inr ⟨t', s2, h2, h3, h.trans h4⟩

/-- After the skipped tokens reading resumes. -/
theorem skips_resume {skipped : List Ranged} {o1 o2 : ParserOptions} {d : Spanned Declaration}
    (h1 : SkipsP cfg o skipped i o1) (h2 : ReadsP cfg o1 i r d o2 []) (errs : List PErr) (warns : List Report) :
    recover (declaration cfg) ⟨skipped ++ i, errs, o, warns⟩ = .panic ∨ ∃ warns',
      recover (declaration cfg) ⟨skipped ++ i, errs, o, warns⟩ = .ok d ⟨r, errs ++ [.syntax], o2, warns'⟩ := by
  cases h1 with
  | @mk o' _ t run _ h3 h4 h5 =>
    unfold recover
    rcases noDeclaration_does h3 h4 errs warns with h | ⟨s', h, ho⟩
    · rw [h]; exact .inl rfl
    · rw [h]
      dsimp only
      rcases skip_all h5 t ((⟨t :: run ++ i, errs, o, warns⟩ : PSt).rewind s') ho with h6 | ⟨t', s2, h6, h7, h8⟩
      · exact .inl h6
      · rw [h8, skip_unfold]
        obtain ⟨i2, errs2, o2, warns2⟩ := s2
        dsimp only at h6 h7
        subst h6
        rw [rewind_errs] at h7
        dsimp only at h7
        subst h7
        rcases (does_declaration h2).2 errs2 warns2 with h | ⟨w, h⟩
        · rw [h]; exact .inl rfl
        · rw [h]
          simp only [List.append_nil, if_true]
          exact .inr ⟨w, rfl⟩

/-- Reading never resumes. -/
theorem skips_lost {skipped : List Ranged} {o1 : ParserOptions} (h1 : SkipsP cfg o skipped [] o1) (errs : List PErr)
    (warns : List Report) : recover (declaration cfg) ⟨skipped, errs, o, warns⟩ = .panic ∨ ∃ s',
      recover (declaration cfg) ⟨skipped, errs, o, warns⟩ = .fail s' ∧ s'.opts = o1 := by
  cases h1 with
  | @mk o' _ t run _ h3 h4 h5 =>
    rw [List.append_nil] at h3 h4
    unfold recover
    rcases noDeclaration_does h3 h4 errs warns with h | ⟨s', h, ho⟩
    · rw [h]; exact .inl rfl
    · rw [h]
      dsimp only
      rcases skip_all h5 t ((⟨t :: run, errs, o, warns⟩ : PSt).rewind s') ho with h6 | ⟨t', s2, h6, h7, h8⟩
      · rw [List.append_nil] at h6
        exact .inl h6
      · rw [List.append_nil] at h8
        rw [h8, skip_unfold]
        obtain ⟨i2, errs2, o2, warns2⟩ := s2
        dsimp only at h6
        subst h6
        obtain ⟨s3, h9, h10⟩ := declaration_end (cfg := cfg) (o := o2) errs2 warns2
        rw [h9]
        exact .inr ⟨_, rfl, h10⟩

/-! ### Files -/

/-- What the pieces make of the state. -/
theorem file_sound {s s' : PSt} {ds : List (Spanned Declaration)} (h : Reps (recover (declaration cfg)) s ds s') :
    ∃ ps, PiecesP cfg s.opts s.toks ps s'.opts ∧ ds = ps.filterMap Piece.read ∧
      ((s'.toks = [] ∧ ¬ Lost ps ∧ s'.errs = s.errs ++ ps.flatMap Piece.errors) ∨
        (s'.toks ≠ [] ∧ Lost ps ∧ s'.errs ++ [.syntax] = s.errs ++ ps.flatMap Piece.errors)) := by
  induction h with
  | @nil s s1 h =>
    cases hs : s.toks with
    | nil =>
      have ho : s1.opts = s.opts := by
        obtain ⟨i, errs, o, warns⟩ := s
        dsimp only at hs
        subst hs
        obtain ⟨s2, h1, h2⟩ := declaration_end (cfg := cfg) (o := o) errs warns
        unfold recover at h
        rw [h1] at h
        cases h
        exact h2
      exact ⟨[], by rw [rewind_opts, ho]; exact .nil, rfl, .inl ⟨by rw [rewind_toks, hs], by simp [Lost], by simp⟩⟩
    | cons t ts =>
      have hsk : SkipsP cfg s.opts (t :: ts) [] s1.opts := by
        unfold recover at h
        cases hd : declaration cfg s with
        | ok a s2 => rw [hd] at h; cases h
        | panic => rw [hd] at h; cases h
        | fail s2 =>
          rw [hd] at h
          obtain ⟨h1, h2⟩ := declaration_fail hd
          rw [hs] at h h1 h2
          refine .mk ?_ ?_ ((skip_sound ts t _).2 _ h)
          · rw [List.append_nil]; exact h1
          · rw [List.append_nil]; exact h2
      exact ⟨[.skipped (t :: ts)], by rw [rewind_opts]; exact .lost hsk, rfl,
        .inr ⟨by rw [rewind_toks, hs]; simp, ⟨_, rfl⟩, by simp [Piece.errors]⟩⟩
  | @cons s s1 s2 d ds h _ ih =>
    obtain ⟨ps, h1, rfl, h3⟩ := ih
    have lost : ∀ run es, Lost (Piece.declaration run d es :: ps) ↔ Lost ps := by
      intro run es
      cases ps with
      | nil => simp [Lost]
      | cons q qs => simp [Lost, List.getLast?_cons_cons]
    have lost' : ∀ q run es, Lost (q :: Piece.declaration run d es :: ps) ↔ Lost ps := by
      intro q run es
      refine Iff.trans ?_ (lost run es)
      simp only [Lost, List.getLast?_cons_cons]
    unfold recover at h
    cases hd : declaration cfg s with
    | ok a s3 =>
      rw [hd] at h
      cases h
      obtain ⟨⟨run, hr⟩, es, h4, h5⟩ := declaration_reads hd
      refine ⟨.declaration run d es :: ps, ?_, rfl, ?_⟩
      · rw [← hr] at h5 ⊢
        exact .declaration h5 h1
      · rw [lost]
        rw [h4] at h3
        simpa [Piece.errors] using h3
    | panic => rw [hd] at h; cases h
    | fail s3 =>
      rw [hd] at h
      dsimp only at h
      obtain ⟨h4, h5⟩ := declaration_fail hd
      cases hs : s.toks with
      | nil => rw [hs] at h; cases h
      | cons t ts =>
        rw [hs] at h h4 h5
        obtain ⟨run, i, o1, e, h6, ⟨run', h7⟩, h8, h9⟩ := (skip_sound ts t _).1 _ _ h
        rw [rewind_opts] at h6
        rw [rewind_errs] at h9
        subst e
        rw [← h7] at h4 h5 h6 h8 ⊢
        refine ⟨.skipped (t :: run) :: .declaration run' d [] :: ps, ?_, rfl, ?_⟩
        · exact .skipped (skipped := t :: run) (.mk h4 h5 h6) h8 h1
        · rw [lost']
          rw [h9] at h3
          simpa [Piece.errors] using h3

/-- The pieces determine the outcome. -/
theorem file_determined {ps : List Piece} (h : PiecesP cfg o i ps o') : ∀ errs warns,
    file cfg ⟨i, errs, o, warns⟩ = .panic ∨ ∃ s', file cfg ⟨i, errs, o, warns⟩ = .ok (ps.filterMap Piece.read) s' ∧
      s'.opts = o' ∧ ((s'.toks = [] ∧ ¬ Lost ps ∧ s'.errs = errs ++ ps.flatMap Piece.errors) ∨
        (s'.toks ≠ [] ∧ Lost ps ∧ s'.errs ++ [.syntax] = errs ++ ps.flatMap Piece.errors)) := by
  have lost : ∀ run d es (ps : List Piece), Lost (Piece.declaration run d es :: ps) ↔ Lost ps := by
    intro run d es ps
    cases ps with
    | nil => simp [Lost]
    | cons q qs => simp [Lost, List.getLast?_cons_cons]
  have lost' : ∀ q run d es (ps : List Piece), Lost (q :: Piece.declaration run d es :: ps) ↔ Lost ps := by
    intro q run d es ps
    refine Iff.trans ?_ (lost run d es ps)
    simp only [Lost, List.getLast?_cons_cons]
  induction h with
  | @nil o =>
    intro errs warns
    obtain ⟨s', h1, h2⟩ := declaration_end (cfg := cfg) (o := o) errs warns
    have : recover (declaration cfg) ⟨[], errs, o, warns⟩ = .fail ((⟨[], errs, o, warns⟩ : PSt).rewind s') := by
      unfold recover
      rw [h1]
      rfl
    refine .inr ⟨_, rep_nil this, h2, .inl ⟨rfl, by simp [Lost], by simp⟩⟩
  | @declaration o o' o'' run r d es ps h1 _ ih =>
    intro errs warns
    unfold file
    rw [rep_eq (consumes_recover (consumes_declaration cfg))]
    rcases (does_declaration h1).2 errs warns with h | ⟨w, h⟩
    · left
      simp only [recover, h]
    · have hr : recover (declaration cfg) ⟨run ++ r, errs, o, warns⟩ = .ok d ⟨r, errs ++ es, o', w⟩ := by
        simp only [recover, h]
      rw [hr]
      dsimp only
      rcases ih (errs ++ es) w with h | ⟨s', h2, h3, h4⟩
      · left
        unfold file at h
        rw [h]
      · unfold file at h2
        rw [h2]
        refine .inr ⟨s', rfl, h3, ?_⟩
        rw [lost]
        simpa [Piece.errors] using h4
  | @skipped o o1 o2 o3 skipped run r d ps h1 h2 _ ih =>
    intro errs warns
    unfold file
    rw [rep_eq (consumes_recover (consumes_declaration cfg))]
    rcases skips_resume h1 h2 errs warns with h | ⟨w, h⟩
    · left
      rw [h]
    · rw [h]
      dsimp only
      rcases ih (errs ++ [.syntax]) w with h | ⟨s', h2, h3, h4⟩
      · left
        unfold file at h
        rw [h]
      · unfold file at h2
        rw [h2]
        refine .inr ⟨s', rfl, h3, ?_⟩
        rw [lost']
        simpa [Piece.errors] using h4
  | @lost o o1 skipped h1 =>
    intro errs warns
    unfold file
    rcases skips_lost h1 errs warns with h | ⟨s', h, h2⟩
    · left
      rw [rep_eq (consumes_recover (consumes_declaration cfg)), h]
    · refine .inr ⟨_, rep_nil h, h2, .inr ⟨?_, ⟨_, rfl⟩, by simp [Piece.errors]⟩⟩
      cases h1
      simp

/-- The pieces are the tokens. -/
theorem pieces_flatten {ps : List Piece} (h : PiecesP cfg o i ps o') : (ps.map Piece.run).flatten = i := by
  induction h with
  | nil => rfl
  | declaration _ _ ih => simp [Piece.run, ih]
  | skipped _ _ _ ih => simp [Piece.run, ih]
  | lost => simp [Piece.run]

theorem parseFile_pieces {warns : List Report} {res : FileResult} (h : parseFile cfg i o warns = some res) :
    ∃ ps, PiecesP cfg o i ps res.opts ∧ res.errors = ps.flatMap Piece.errors ∧
      (¬ Lost ps ∧ res.declarations = some (ps.filterMap Piece.read) ∨ Lost ps ∧ res.declarations = none) := by
  unfold parseFile at h
  cases hf : file cfg ⟨i, [], o, warns⟩ with
  | panic => rw [hf] at h; cases h
  | fail s => exact absurd hf rep_fail
  | ok ds s =>
    rw [hf] at h
    obtain ⟨ps, h1, h2, h3⟩ := file_sound (rep_reps hf)
    refine ⟨ps, ?_⟩
    rcases h3 with ⟨h3, h4, h5⟩ | ⟨h3, h4, h5⟩
    · simp only [h3] at h
      cases h
      exact ⟨h1, by simpa using h5, .inl ⟨h4, by rw [h2]⟩⟩
    · cases ht : s.toks with
      | nil => exact absurd ht h3
      | cons t ts =>
        simp only [ht] at h
        cases h
        exact ⟨h1, by simpa using h5, .inr ⟨h4, rfl⟩⟩

theorem parseFile_determined {warns : List Report} {res : FileResult} (h : parseFile cfg i o warns = some res)
    {ps : List Piece} (hp : PiecesP cfg o i ps o') : res.opts = o' ∧ res.errors = ps.flatMap Piece.errors ∧
      (¬ Lost ps ∧ res.declarations = some (ps.filterMap Piece.read) ∨ Lost ps ∧ res.declarations = none) := by
  unfold parseFile at h
  rcases file_determined hp [] warns with hf | ⟨s, hf, h1, h3⟩
  · rw [hf] at h; cases h
  · rw [hf] at h
    rcases h3 with ⟨h3, h4, h5⟩ | ⟨h3, h4, h5⟩
    · simp only [h3] at h
      cases h
      exact ⟨h1, by simpa using h5, .inl ⟨h4, rfl⟩⟩
    · cases ht : s.toks with
      | nil => exact absurd ht h3
      | cons t ts =>
        simp only [ht] at h
        cases h
        exact ⟨h1, by simpa using h5, .inr ⟨h4, rfl⟩⟩

end

end Lima.Grammar
