import Verif.Lemmas.GrammarConsumes
import Verif.Spec.Panics
import Verif.Props.Expr
import Verif.Props.OptionDecoding

/-! Parsing does not panic except for `Spec.MayPanic`. -/

namespace Lima.Grammar

open Spec P

variable {α β : Type}

/-- Every account type has a name. -/
def AllNamed (o : ParserOptions) : Prop := o.accountTypeNames.nameByType.length = 5

/-- No panic, and what is needed for the next parser. -/
def Fine (i : List Ranged) : PRes α → Prop
  | .ok _ s' => s'.toks <:+ i ∧ AllNamed s'.opts
  | .fail s' => AllNamed s'.opts
  | .panic => False

/-- On tokens satisfying `T` the parser does not panic, and keeps what is needed for the next. -/
def Calm (T : List Ranged → Prop) (p : P α) : Prop := ∀ s : PSt, T s.toks → AllNamed s.opts → Fine s.toks (p s)

variable {T : List Ranged → Prop}

theorem Calm.bind {p : P α} {f : α → P β} (hT : Closed T) (hp : Calm T p) (hf : ∀ a, Calm T (f a)) :
    Calm T (p >>= f) := by
  intro s h1 h2
  have := hp s h1 h2
  rw [bind_eq]
  cases hs : p s with
  | ok a s' =>
    rw [hs] at this
    have h3 := hf a s' (hT _ _ this.1 h1) this.2
    simp only
    cases hs' : f a s' with
    | ok b s'' =>
      rw [hs'] at h3
      exact ⟨h3.1.trans this.1, h3.2⟩
    | fail s'' => rw [hs'] at h3; exact h3
    | panic => rw [hs'] at h3; exact h3
  | fail s' => rw [hs] at this; exact this
  | panic => rw [hs] at this; exact this

theorem Calm.pure (a : α) : Calm T (Pure.pure a : P α) := fun _ _ h => ⟨List.suffix_refl _, h⟩

theorem Calm.failure : Calm T (P.failure : P α) := fun _ _ h => h

theorem Calm.emit (es : List PErr) : Calm T (P.emit es) := fun _ _ h => ⟨List.suffix_refl _, h⟩

theorem Calm.select (f : Token → Option α) : Calm T (P.select f) := by
  intro s _ h
  cases hs : P.select f s with
  | ok a s' =>
    obtain ⟨t, ts, h1, _, rfl⟩ := select_ok.mp hs
    exact ⟨by rw [h1]; exact List.suffix_cons _ _, h⟩
  | fail s' =>
    obtain ⟨rfl, _⟩ := select_fail.mp hs
    exact h
  | panic => exact select_panic hs

theorem Calm.just (t : Token) : Calm T (P.just t) := Calm.select _

theorem Calm.eoi : Calm T P.eoi := by
  intro s _ h
  cases hs : P.eoi s with
  | ok a s' =>
    obtain ⟨_, rfl⟩ := eoi_ok.mp hs
    exact ⟨List.suffix_refl _, h⟩
  | fail s' =>
    obtain ⟨_, rfl⟩ := eoi_fail.mp hs
    exact h
  | panic =>
    unfold P.eoi at hs
    split at hs <;> cases hs

theorem Calm.alt {p q : P α} (hp : Calm T p) (hq : Calm T q) : Calm T (P.alt p q) := by
  intro s h1 h2
  have := hp s h1 h2
  unfold P.alt
  cases hs : p s with
  | ok a s' => rw [hs] at this; exact this
  | fail s' => rw [hs] at this; exact hq (s.rewind s') h1 this
  | panic => rw [hs] at this; exact this

theorem Calm.choice {ps : List (P α)} (h : ∀ p ∈ ps, Calm T p) : Calm T (P.choice ps) := by
  induction ps with
  | nil => exact Calm.failure
  | cons p ps ih =>
    cases ps with
    | nil => exact h p (by simp)
    | cons q qs => exact Calm.alt (h p (by simp)) (ih fun p hp => h p (by simp [hp]))

theorem Calm.choice_cons {p : P α} {ps : List (P α)} (h1 : Calm T p) (h2 : Calm T (P.choice ps)) :
    Calm T (P.choice (p :: ps)) := by
  cases ps with
  | nil => exact h1
  | cons q qs => exact Calm.alt h1 h2

theorem Calm.orNot {p : P α} (hp : Calm T p) : Calm T (P.orNot p) := by
  intro s h1 h2
  have := hp s h1 h2
  unfold P.orNot
  cases hs : p s with
  | ok a s' => rw [hs] at this; exact this
  | fail s' => rw [hs] at this; exact ⟨List.suffix_refl _, this⟩
  | panic => rw [hs] at this; exact this

theorem Calm.spanned {cfg : ParseCfg} {p : P α} (hp : Calm T p) : Calm T (P.spanned cfg p) := by
  intro s h1 h2
  have := hp s h1 h2
  unfold P.spanned
  cases hs : p s with
  | ok a s' => rw [hs] at this; exact this
  | fail s' => rw [hs] at this; exact this
  | panic => rw [hs] at this; exact this

theorem calm_repFuel {p : P α} (hT : Closed T) (hc : Consumes p) (hp : Calm T p) (n : Nat) :
    ∀ s : PSt, s.toks.length < n → T s.toks → AllNamed s.opts →
      Fine s.toks (P.repFuel p n s) := by
  induction n with
  | zero => intro s h; omega
  | succ n ih =>
    intro s hn h1 h2
    simp only [P.repFuel]
    have := hp s h1 h2
    cases hs : p s with
    | ok a s1 =>
      rw [hs] at this
      have h3 := ih s1 (by have := hc.lt hs; omega) (hT _ _ this.1 h1) this.2
      simp only
      cases hs' : P.repFuel p n s1 with
      | ok b s'' =>
        rw [hs'] at h3
        exact ⟨h3.1.trans this.1, h3.2⟩
      | fail s'' => rw [hs'] at h3; exact h3
      | panic => rw [hs'] at h3; exact h3
    | fail s' => rw [hs] at this; exact ⟨List.suffix_refl _, this⟩
    | panic => rw [hs] at this; exact this

theorem Calm.rep {p : P α} (hT : Closed T) (hc : Consumes p) (hp : Calm T p) : Calm T (P.rep p) :=
  fun s h1 h2 => calm_repFuel hT hc hp (s.toks.length + 1) s (Nat.lt_succ_self _) h1 h2

theorem calm_skip {p : P α} (hT : Closed T) (hp : Calm T p) (ts : List Ranged) : ∀ s : PSt, T ts → AllNamed s.opts →
    Fine ts (P.skipThenRetry p ts s) := by
  induction ts with
  | nil => intro s _ h; exact h
  | cons t ts ih =>
    intro s h1 h2
    have ht := hT _ _ (List.suffix_cons t ts) h1
    have := hp { s with toks := ts } ht h2
    have next : ∀ s', AllNamed s'.opts → Fine (t :: ts) (P.skipThenRetry p ts (s.rewind s')) := by
      intro s' h'
      have := ih (s.rewind s') ht h'
      cases hs : P.skipThenRetry p ts (s.rewind s') with
      | ok a s'' => rw [hs] at this; exact ⟨this.1.trans (List.suffix_cons _ _), this.2⟩
      | fail s'' => rw [hs] at this; exact this
      | panic => rw [hs] at this; exact this
    simp only [P.skipThenRetry]
    cases hs : p { s with toks := ts } with
    | ok a s' =>
      rw [hs] at this
      by_cases hl : s'.errs.length = s.errs.length
      · simp only [hl, if_true]
        exact ⟨this.1.trans (List.suffix_cons _ _), this.2⟩
      · simp only [hl, if_false]
        exact next s' this.2
    | fail s' => rw [hs] at this; exact next s' this
    | panic => rw [hs] at this; exact this

theorem Calm.recover {p : P α} (hT : Closed T) (hp : Calm T p) : Calm T (P.recover p) := by
  intro s h1 h2
  have := hp s h1 h2
  unfold P.recover
  cases hs : p s with
  | ok a s' => rw [hs] at this; exact this
  | fail s' => rw [hs] at this; exact calm_skip hT hp _ _ h1 this
  | panic => rw [hs] at this; exact this

/-- From a description of success, if there is no panic. -/
theorem Calm.of_snd {p : P α} {R : Rel α} (h : Snd p R) (hp : ∀ s : PSt, T s.toks → p s ≠ .panic) : Calm T p := by
  intro s h1 h2
  cases hs : p s with
  | ok a s' =>
    obtain ⟨h3, h4, _⟩ := h.ok s a s' hs
    exact ⟨h3, by rw [h4]; exact h2⟩
  | fail s' =>
    show AllNamed s'.opts
    rw [h.fail s s' hs]
    exact h2
  | panic => exact hp s h1 hs

theorem Calm.of_pur {p : P α} {R : ParserOptions → Phrase α} (h : Pur p R) (hp : ∀ s : PSt, T s.toks → p s ≠ .panic) :
    Calm T p := Calm.of_snd (Pur.snd h) hp

/-! ### The grammar -/

section
variable [DecOps]

/-- Tokens on which parsing does not panic. -/
def Harmless (toks : List Ranged) : Prop := ¬ MayPanic toks

theorem closed_harmless : Closed Harmless := by
  rintro i r ⟨pre, rfl⟩ h hm
  apply h
  cases hm with
  | currency t s c h1 h2 h3 h4 => exact .currency t s c (List.mem_append_right _ h1) h2 h3 h4
  | expression b i r e h1 h2 h3 => exact .expression (pre ++ b) i r e (by rw [h1, List.append_assoc]) h2 h3
  | option b i r n v h1 h2 h3 => exact .option (pre ++ b) i r n v (by rw [h1, List.append_assoc]) h2 h3

theorem calm_eol : Calm T eol := Calm.choice (by
  intro p hp
  simp only [List.mem_cons, List.not_mem_nil, or_false] at hp
  rcases hp with rfl | rfl
  · exact Calm.just _
  · exact Calm.eoi)

theorem calm_currency : Calm Harmless currency := by
  refine Calm.of_pur pur_currency fun s h hp => ?_
  rcases bind_panic.mp hp with h1 | ⟨a, s1, h1, h2⟩
  · exact select_panic h1
  · obtain ⟨t, ts, h3, h4, -⟩ := select_ok.mp h1
    cases h5 : Currency.tryFrom a with
    | ok c => rw [h5] at h2; cases h2
    | err e => rw [h5] at h2; cases h2
    | panic =>
      obtain ⟨c, hc, ha⟩ := (Props.C16_currency_panic_iff a).mp h5
      split at h4
      · cases h4
        exact h (.currency t a c (by rw [h3]; simp) ‹_› hc ha)
      · cases h4

theorem calm_txn : Calm T txn := Calm.choice (by
  intro p hp
  simp only [List.mem_cons, List.not_mem_nil, or_false] at hp
  rcases hp with rfl | rfl
  · exact Calm.of_pur (pur_word _ _) fun s _ h => by
      rcases bind_panic.mp h with h1 | ⟨a, s1, h1, h2⟩
      · exact select_panic h1
      · cases h2
  · exact Calm.select _)

theorem calm_string (cfg : ParseCfg) : Calm T (string cfg) := by
  refine Calm.of_snd (snd_string cfg) fun s _ h => ?_
  unfold string at h
  split at h
  · split at h <;> cases h
  · cases h
  · rename_i h'
    exact select_panic (spanned_panic.mp h')

theorem calm_exprValue : Calm Harmless exprValue := by
  refine Calm.of_pur pur_exprValue fun s h hp => ?_
  rcases bind_panic.mp hp with h1 | ⟨e, s1, h1, h2⟩
  · exact expr_no_panic s h1
  · obtain ⟨r, rfl, _, he⟩ := pur_expr.ok s e s1 h1
    cases h5 : ExprValue.ofExpr e with
    | some v => rw [h5] at h2; cases h2
    | none => exact h (.expression [] s.toks r e rfl he ((Props.ofExpr_none_iff e).mp h5))

/-- Apply what is known of the parts of a parser. -/
macro "calm" "[" ts:term,* "]" : tactic => do
  let mut known : Array (Lean.TSyntax `tactic) := #[]
  for t in ts.getElems do
    known := known.push (← `(tactic| exact $t))
  `(tactic| repeat' first
    | exact Calm.pure _
    | exact Calm.just _
    | exact Calm.emit _
    | exact Calm.failure
    | exact calm_eol
    $[| $known:tactic]*
    | exact Calm.select _
    | refine Calm.spanned ?_
    | refine Calm.orNot ?_
    | refine Calm.choice_cons ?_ ?_
    | refine Calm.rep closed_harmless ?_ ?_
    | refine Calm.bind closed_harmless ?_ (fun _ => ?_))

theorem calm_booking (cfg : ParseCfg) : Calm Harmless (booking cfg) := by
  unfold booking
  calm [calm_string cfg]
  split <;> calm []

theorem calm_amount (cfg : ParseCfg) : Calm Harmless (amount cfg) := by
  unfold amount
  calm [calm_exprValue, calm_currency]

theorem calm_amountWithTolerance (cfg : ParseCfg) : Calm Harmless (amountWithTolerance cfg) := by
  unfold amountWithTolerance tolerantAmount decimal
  calm [calm_amount cfg, calm_exprValue, calm_currency]

theorem calm_compoundExpr : Calm Harmless compoundExpr := by
  unfold compoundExpr
  calm [calm_exprValue]

theorem calm_compoundAmount : Calm Harmless compoundAmount := by
  unfold compoundAmount
  calm [calm_compoundExpr, calm_currency]

theorem calm_priceAnnotation : Calm Harmless priceAnnotation := by
  unfold priceAnnotation
  calm [calm_exprValue, calm_currency]
  dsimp only
  cases ‹Option ExprValue› <;> cases ‹Option Str› <;> calm []

theorem calm_costComp (cfg : ParseCfg) : Calm Harmless (costComp cfg) := by
  unfold costComp date
  calm [calm_compoundAmount, calm_string cfg]

theorem calm_costSpec (cfg : ParseCfg) : Calm Harmless (costSpec cfg) := by
  unfold costSpec
  calm [calm_costComp cfg, consumes_commaCostComp cfg]
  split <;> calm []

variable [Unicode]

omit [DecOps] in
theorem calm_checked {ε : Type} (hT : Closed T) (sel : Token → Option Str) (f : Str → Except ε Str) :
    Calm T (checked sel f) := by
  refine Calm.bind hT (Calm.select _) fun _ => ?_
  split
  · exact Calm.pure _
  · exact Calm.failure

theorem calm_tag : Calm Harmless tag := calm_checked closed_harmless _ _

theorem calm_link : Calm Harmless link := calm_checked closed_harmless _ _

theorem calm_key : Calm Harmless key := calm_checked closed_harmless _ _

theorem calm_account : Calm Harmless account := by
  refine Calm.bind closed_harmless (Calm.select _) fun _ => Calm.bind closed_harmless ?_ fun _ => ?_
  · exact fun s _ h => ⟨List.suffix_refl _, h⟩
  · split
    · exact Calm.pure _
    · exact Calm.failure

theorem calm_tagsLinks (cfg : ParseCfg) : Calm Harmless (tagsLinks cfg) := by
  unfold tagsLinks
  calm [consumes_tagOrLink cfg, calm_tag, calm_link]

theorem calm_simpleValue (cfg : ParseCfg) : Calm Harmless (simpleValue cfg) := by
  unfold simpleValue date bool
  calm [calm_string cfg, calm_currency, calm_account, calm_tag, calm_link, calm_exprValue]

theorem calm_metaValue (cfg : ParseCfg) : Calm Harmless (metaValue cfg) := by
  unfold metaValue
  calm [calm_amount cfg, calm_simpleValue cfg]

theorem calm_metaKeyValue (cfg : ParseCfg) : Calm Harmless (metaKeyValue cfg) := by
  unfold metaKeyValue
  calm [calm_key, calm_metaValue cfg]

theorem calm_metadatumLine (cfg : ParseCfg) : Calm Harmless (metadatumLine cfg) := by
  unfold metadatumLine
  calm [calm_metaKeyValue cfg, calm_tag, calm_link]

theorem calm_metadata (cfg : ParseCfg) : Calm Harmless (metadata cfg) := by
  unfold metadata
  calm [consumes_metadatumLine cfg, calm_metadatumLine cfg]

theorem calm_postingLine (cfg : ParseCfg) : Calm Harmless (postingLine cfg) := by
  unfold postingLine flag
  calm [calm_account, calm_exprValue, calm_currency, calm_costSpec cfg, calm_priceAnnotation]

theorem calm_posting (cfg : ParseCfg) : Calm Harmless (posting cfg) := by
  unfold posting
  calm [calm_postingLine cfg, calm_metadata cfg]

theorem calm_transaction (cfg : ParseCfg) : Calm Harmless (transaction cfg) := by
  unfold transaction transactionHeaderLine date
  calm [calm_txn, calm_string cfg, calm_tagsLinks cfg, calm_metadata cfg, consumes_posting cfg, calm_posting cfg]

theorem calm_simpleDirective (cfg : ParseCfg) (keyword : Token) {body : P DirectiveVariant}
    (h : Calm Harmless body) : Calm Harmless (simpleDirective cfg keyword body) := by
  unfold simpleDirective date
  calm [h, calm_tagsLinks cfg, calm_metadata cfg]

theorem calm_currencyList (cfg : ParseCfg) : Calm Harmless (currencyList cfg) := by
  unfold currencyList
  calm [calm_currency, consumes_commaCurrency cfg]
  split <;> calm []

theorem calm_custom (cfg : ParseCfg) : Calm Harmless (custom cfg) := by
  unfold custom date
  calm [calm_string cfg, calm_metaValue cfg, Consumes.spanned (consumes_metaValue cfg), calm_metadata cfg]

theorem calm_directive (cfg : ParseCfg) : Calm Harmless (directive cfg) := by
  have known : ∀ (keyword : Token) (body : P DirectiveVariant), Calm Harmless body →
    Calm Harmless (simpleDirective cfg keyword body) := fun _ _ h => calm_simpleDirective cfg _ h
  refine Calm.choice_cons (calm_transaction cfg) (Calm.choice_cons (known _ _ ?_) (Calm.choice_cons (known _ _ ?_)
    (Calm.choice_cons (known _ _ ?_) (Calm.choice_cons (known _ _ ?_) (Calm.choice_cons (known _ _ ?_)
    (Calm.choice_cons (known _ _ ?_) (Calm.choice_cons (known _ _ ?_) (Calm.choice_cons (known _ _ ?_)
    (Calm.choice_cons (known _ _ ?_) (Calm.choice_cons (known _ _ ?_) (Calm.choice_cons (calm_custom cfg)
    Calm.failure)))))))))))
  all_goals
    calm [calm_currency, calm_account, calm_string cfg, calm_amount cfg, calm_amountWithTolerance cfg,
      calm_currencyList cfg, calm_booking cfg]

/-- Renaming an account type keeps that all are named, and does not panic. -/
theorem calm_update {n : AccountTypeNames} (h : n.nameByType.length = 5) (t : AccountType) (name : Str) :
    (n.update t name).1 ≠ .panic ∧ (n.update t name).2.nameByType.length = 5 := by
  unfold AccountTypeNames.update
  split
  · split
    · rename_i h'
      have := AccountType.idx_lt t
      rw [List.getElem?_eq_none_iff] at h'
      omega
    · exact ⟨by simp, by simpa using h⟩
  · split
    · exact ⟨by simp, h⟩
    · exact ⟨by simp, h⟩

theorem calm_assimilate {o : ParserOptions} (h : AllNamed o) (opt : BOption) :
    (o.assimilate opt).1 ≠ .panic ∧ AllNamed (o.assimilate opt).2 := by
  unfold ParserOptions.assimilate
  split
  · rename_i t name _
    obtain ⟨h1, h2⟩ := calm_update h t name
    refine ⟨?_, h2⟩
    simp only
    cases hr : (o.accountTypeNames.update t name).1 with
    | ok => simp [Res.map]
    | err => simp [Res.map]
    | panic => exact absurd hr h1
  · exact ⟨by simp, h⟩
  · exact ⟨by simp, h⟩

theorem calm_option (cfg : ParseCfg) : Calm Harmless (option cfg) := by
  intro s h1 h2
  cases hs : option cfg s with
  | ok a s' =>
    obtain ⟨h3, es, _, j, k, name, value, _, _, _, h4⟩ := (opt_option cfg).ok s a s' hs
    refine ⟨h3, ?_⟩
    generalize s'.opts = o' at h4
    cases h4 with
    | unknown => exact h2
    | badValue => exact h2
    | @accepted opt _ _ _ h5 =>
      have := (calm_assimilate h2 opt).2
      rwa [h5] at this
    | @refused opt _ _ _ h5 =>
      have := (calm_assimilate h2 opt).2
      rwa [h5] at this
  | fail s' =>
    have := (opt_option cfg).fail s s' hs
    show AllNamed s'.opts
    rw [this]
    exact h2
  | panic =>
    rcases bind_panic.mp hs with e1 | ⟨_, s1, e1, hs⟩
    · exact select_panic e1
    have nostring : ∀ s, P.spanned cfg (string cfg) s ≠ .panic := by
      intro s hp
      have hp := spanned_panic.mp hp
      unfold string at hp
      split at hp
      · split at hp <;> cases hp
      · cases hp
      · rename_i h'
        exact select_panic (spanned_panic.mp h')
    rcases bind_panic.mp hs with e2 | ⟨name, s2, e2, hs3⟩
    · exact nostring _ e2
    rcases bind_panic.mp hs3 with e3 | ⟨value, s3, e3, hs4⟩
    · exact nostring _ e3
    obtain ⟨r1, rfl, _, w1⟩ := (Pur.just .option).ok _ _ _ e1
    obtain ⟨_, o2, _, _, _, w2, _⟩ := (snd_string cfg).spanned_noErr.ok _ _ _ e2
    obtain ⟨_, o3, _, _, _, w3, _⟩ := (snd_string cfg).spanned_noErr.ok _ _ _ e3
    unfold assimilateOption at hs4
    split at hs4
    · rename_i hp
      refine h1 (.option [] s.toks s3.toks name.item value.item rfl ⟨_, _, w1, w2, w3⟩ ?_)
      refine (Props.C46_panics_iff cfg.decimal cfg.path name.item value.item).mp ?_
      unfold BOption.parse at hp
      exact (Props.map_panic _ _).mp hp
    · cases hs4
    · cases hs4
    · split at hs4
      · cases hs4
      · cases hs4
      · rename_i opt _ _ _ hp
        have := (calm_assimilate (o := s3.opts) (by rw [o3, o2]; exact h2) opt).1
        rw [hp] at this
        exact this rfl

theorem calm_pragma (cfg : ParseCfg) : Calm Harmless (pragma cfg) := by
  unfold pragma
  calm [calm_option cfg, calm_tag, calm_key, calm_metaKeyValue cfg, calm_string cfg]

theorem calm_declaration (cfg : ParseCfg) : Calm Harmless (declaration cfg) := by
  unfold declaration
  calm [calm_directive cfg, calm_pragma cfg]

theorem calm_file (cfg : ParseCfg) : Calm Harmless (file cfg) :=
  Calm.rep closed_harmless (consumes_recover (consumes_declaration cfg))
    (Calm.recover closed_harmless (calm_declaration cfg))

/-- Without such tokens there is no panic, and all account types keep a name. -/
theorem parseFile_calm (cfg : ParseCfg) {toks : List Ranged} {o : ParserOptions} (warns : List Report)
    (h : ¬ MayPanic toks) (ho : AllNamed o) :
    ∃ res, parseFile cfg toks o warns = some res ∧ AllNamed res.opts := by
  have := calm_file cfg ⟨toks, [], o, warns⟩ h ho
  unfold parseFile
  cases hs : file cfg ⟨toks, [], o, warns⟩ with
  | ok ds s =>
    rw [hs] at this
    simp only
    split
    · exact ⟨_, rfl, this.2⟩
    · exact ⟨_, rfl, this.2⟩
  | fail s =>
    rw [hs] at this
    exact ⟨_, rfl, this⟩
  | panic => rw [hs] at this; exact this.elim

end

end Lima.Grammar
