import Verif.Lemmas.GrammarSound

/-! Every parser that is repeated consumes a token. -/

namespace Lima.Grammar

open Spec P

variable {α β : Type}

theorem Snd.shrinks {p : P α} {R : Rel α} (h : Snd p R) : Shrinks p := fun s a s' hp => (h.ok s a s' hp).1

theorem Pur.shrinks {p : P α} {R : ParserOptions → Phrase α} (h : Pur p R) : Shrinks p := Snd.shrinks (Pur.snd h)

theorem consumes_map {p : P α} (h : Consumes p) (f : α → β) : Consumes (do let a ← p; pure (f a)) :=
  h.bind fun _ => Shrinks.pure _

theorem consumes_date : Consumes date := Consumes.select _

theorem consumes_bool : Consumes bool := Consumes.select _

theorem consumes_flag : Consumes flag := Consumes.select _

theorem consumes_currency : Consumes currency := by
  refine (Consumes.select _).bind fun s => ?_
  split
  · exact Shrinks.pure _
  · exact Consumes.failure.shrinks
  · exact Consumes.panicking.shrinks

theorem consumes_string (cfg : ParseCfg) : Consumes (string cfg) := by
  intro s a s' h
  unfold string at h
  split at h
  · rename_i x s1 h1
    have := (Consumes.spanned (Consumes.select _)) _ _ _ h1
    split at h <;> cases h <;> exact this
  · cases h
  · cases h

theorem consumes_booking (cfg : ParseCfg) : Consumes (booking cfg) := by
  refine (consumes_string cfg).bind fun s => ?_
  split
  · exact Shrinks.pure _
  · exact Consumes.failure.shrinks

theorem consumes_checked {ε : Type} (sel : Token → Option Str) (f : Str → Except ε Str) : Consumes (checked sel f) := by
  refine (Consumes.select _).bind fun s => ?_
  split
  · exact Shrinks.pure _
  · exact Consumes.failure.shrinks

section
variable [Unicode]

theorem consumes_tag : Consumes tag := consumes_checked _ _
theorem consumes_link : Consumes link := consumes_checked _ _
theorem consumes_key : Consumes key := consumes_checked _ _

theorem consumes_account : Consumes account := by
  refine (Consumes.select _).bind fun s => ?_
  refine (Pur.shrinks pur_options).bind fun o => ?_
  split
  · exact Shrinks.pure _
  · exact Consumes.failure.shrinks

theorem consumes_tagOrLink (cfg : ParseCfg) : Consumes (P.choice [
    (do let t ← P.spanned cfg tag; pure (.inl t)),
    (do let t ← P.spanned cfg link; pure (.inr t))] : P TagOrLink) := by
  refine Consumes.choice fun p hp => ?_
  simp only [List.mem_cons, List.not_mem_nil, or_false] at hp
  rcases hp with rfl | rfl
  · exact consumes_map consumes_tag.spanned _
  · exact consumes_map consumes_link.spanned _

end

section
variable [DecOps]

theorem consumes_exprValue : Consumes exprValue := by
  refine consumes_expr.bind fun s => ?_
  split
  · exact Shrinks.pure _
  · exact Consumes.panicking.shrinks

theorem consumes_amount (cfg : ParseCfg) : Consumes (amount cfg) :=
  consumes_exprValue.spanned.bind fun _ => consumes_currency.spanned.shrinks.bind fun _ => Shrinks.pure _

theorem consumes_compoundExpr : Consumes compoundExpr := by
  refine Consumes.choice fun p hp => ?_
  simp only [List.mem_cons, List.not_mem_nil, or_false] at hp
  rcases hp with rfl | rfl | rfl | rfl
  · exact consumes_exprValue.bind fun _ => (Consumes.just _).shrinks.bind fun _ =>
      consumes_exprValue.shrinks.bind fun _ => Shrinks.pure _
  · exact consumes_exprValue.bind fun _ => (Consumes.just _).shrinks.bind fun _ => Shrinks.pure _
  · exact consumes_map consumes_exprValue _
  · exact (Consumes.just _).bind fun _ => consumes_exprValue.shrinks.bind fun _ => Shrinks.pure _

theorem consumes_compoundAmount : Consumes compoundAmount := by
  refine Consumes.choice fun p hp => ?_
  simp only [List.mem_cons, List.not_mem_nil, or_false] at hp
  rcases hp with rfl | rfl | rfl
  · exact consumes_compoundExpr.bind fun _ => consumes_currency.shrinks.bind fun _ => Shrinks.pure _
  · exact consumes_map consumes_compoundExpr _
  · exact Consumes.bind_right (Consumes.just _).shrinks.orNot fun _ => consumes_map consumes_currency _

theorem consumes_costComp (cfg : ParseCfg) : Consumes (costComp cfg) := by
  refine Consumes.choice fun p hp => ?_
  simp only [List.mem_cons, List.not_mem_nil, or_false] at hp
  rcases hp with rfl | rfl | rfl | rfl
  · exact consumes_map consumes_compoundAmount _
  · exact consumes_map consumes_date _
  · exact consumes_map (consumes_string cfg) _
  · exact (Consumes.just _).bind fun _ => Shrinks.pure _

theorem consumes_commaCostComp (cfg : ParseCfg) : Consumes (do P.just .comma; P.spanned cfg (costComp cfg)) :=
  (Consumes.just _).bind fun _ => (consumes_costComp cfg).spanned.shrinks

end

theorem consumes_commaCurrency (cfg : ParseCfg) : Consumes (do P.just .comma; P.spanned cfg currency) :=
  (Consumes.just _).bind fun _ => consumes_currency.spanned.shrinks

section
variable [Unicode] [DecOps]

theorem consumes_simpleValue (cfg : ParseCfg) : Consumes (simpleValue cfg) := by
  refine Consumes.choice fun p hp => ?_
  simp only [List.mem_cons, List.not_mem_nil, or_false] at hp
  rcases hp with rfl | rfl | rfl | rfl | rfl | rfl | rfl | rfl | rfl
  · exact consumes_map (consumes_string cfg) _
  · exact consumes_map consumes_currency _
  · exact consumes_map consumes_account _
  · exact consumes_map consumes_tag _
  · exact consumes_map consumes_link _
  · exact consumes_map consumes_date _
  · exact consumes_map consumes_bool _
  · exact (Consumes.just _).bind fun _ => Shrinks.pure _
  · exact consumes_map consumes_exprValue _

theorem consumes_metaValue (cfg : ParseCfg) : Consumes (metaValue cfg) := by
  refine Consumes.choice fun p hp => ?_
  simp only [List.mem_cons, List.not_mem_nil, or_false] at hp
  rcases hp with rfl | rfl
  · exact consumes_map (consumes_amount cfg) _
  · exact consumes_map (consumes_simpleValue cfg) _

theorem consumes_metadatumLine (cfg : ParseCfg) : Consumes (metadatumLine cfg) := by
  have : Shrinks (metadatumLine cfg) := Snd.shrinks (snd_metadatumLine cfg)
  refine (Consumes.just _).bind fun _ => Shrinks.bind ?_ fun _ => (Pur.shrinks pur_eol).bind fun _ => Shrinks.pure _
  refine Shrinks.choice fun p hp => ?_
  simp only [List.mem_cons, List.not_mem_nil, or_false] at hp
  rcases hp with rfl | rfl | rfl
  · exact (Snd.shrinks (snd_metaKeyValue cfg)).spanned.bind fun _ => Shrinks.pure _
  · exact (consumes_map consumes_tag.spanned _).shrinks
  · exact (consumes_map consumes_link.spanned _).shrinks

theorem consumes_posting (cfg : ParseCfg) : Consumes (posting cfg) :=
  (Consumes.just _).bind fun _ => (Snd.shrinks (snd_postingLine cfg)).spanned.bind fun _ =>
    (Pur.shrinks pur_eol).bind fun _ => (Snd.shrinks (snd_metadata cfg)).spanned.bind fun _ => Shrinks.pure _

theorem consumes_transaction (cfg : ParseCfg) : Consumes (transaction cfg) := by
  rw [transaction_eq]
  refine Consumes.bind ?_ fun _ => (Snd.shrinks (snd_metadata cfg)).spanned.bind fun _ =>
    (consumes_posting cfg).shrinks.rep.bind fun _ => (Shrinks.emit _).bind fun _ => Shrinks.pure _
  exact consumes_date.spanned.bind fun _ => (Pur.shrinks pur_txn).spanned.bind fun _ =>
    (consumes_string cfg).spanned.shrinks.orNot.bind fun _ => (consumes_string cfg).spanned.shrinks.orNot.bind fun _ =>
    (Snd.shrinks (snd_tagsLinks cfg)).bind fun _ => (Pur.shrinks pur_eol).bind fun _ => Shrinks.pure _

theorem consumes_simpleDirective (cfg : ParseCfg) (keyword : Token) {body : P DirectiveVariant} (h : Shrinks body) :
    Consumes (simpleDirective cfg keyword body) :=
  consumes_date.spanned.bind fun _ => (Consumes.just _).shrinks.bind fun _ => h.bind fun _ =>
    (Snd.shrinks (snd_tagsLinks cfg)).bind fun _ => (Pur.shrinks pur_eol).bind fun _ =>
    (Snd.shrinks (snd_metadata cfg)).spanned.bind fun _ => (Shrinks.emit _).bind fun _ => Shrinks.pure _

theorem consumes_directive (cfg : ParseCfg) : Consumes (directive cfg) := by
  have hs := ((consumes_string cfg).spanned (cfg := cfg)).shrinks
  have ha := (consumes_account.spanned (cfg := cfg)).shrinks
  have hc := (consumes_currency.spanned (cfg := cfg)).shrinks
  refine Consumes.choice fun p hp => ?_
  simp only [List.mem_cons, List.not_mem_nil, or_false] at hp
  rcases hp with rfl | rfl | rfl | rfl | rfl | rfl | rfl | rfl | rfl | rfl | rfl | rfl
  · exact consumes_transaction cfg
  · exact consumes_simpleDirective cfg _ (hc.bind fun _ => (consumes_map (consumes_amount cfg).spanned _).shrinks)
  · exact consumes_simpleDirective cfg _ (ha.bind fun _ =>
      (Pur.shrinks (pur_amountWithTolerance cfg)).spanned.bind fun _ => Shrinks.pure _)
  · exact consumes_simpleDirective cfg _ (ha.bind fun _ => (Snd.shrinks (snd_currencyList cfg)).bind fun _ =>
      (consumes_booking cfg).spanned.shrinks.orNot.bind fun _ => Shrinks.pure _)
  · exact consumes_simpleDirective cfg _ (ha.bind fun _ => Shrinks.pure _)
  · exact consumes_simpleDirective cfg _ (hc.bind fun _ => Shrinks.pure _)
  · exact consumes_simpleDirective cfg _ (ha.bind fun _ => ha.bind fun _ => Shrinks.pure _)
  · exact consumes_simpleDirective cfg _ (ha.bind fun _ => hs.bind fun _ => Shrinks.pure _)
  · exact consumes_simpleDirective cfg _ (ha.bind fun _ => hs.bind fun _ => Shrinks.pure _)
  · exact consumes_simpleDirective cfg _ (hs.bind fun _ => hs.bind fun _ => Shrinks.pure _)
  · exact consumes_simpleDirective cfg _ (hs.bind fun _ => hs.bind fun _ => Shrinks.pure _)
  · exact consumes_date.spanned.bind fun _ => (Consumes.just _).shrinks.bind fun _ => hs.bind fun _ =>
      (consumes_metaValue cfg).spanned.shrinks.rep.bind fun _ => (Pur.shrinks pur_eol).bind fun _ =>
      (Snd.shrinks (snd_metadata cfg)).spanned.bind fun _ => Shrinks.pure _

omit [DecOps] in
theorem consumes_option (cfg : ParseCfg) : Consumes (option cfg) :=
  (Consumes.just _).bind fun _ => (consumes_string cfg).spanned.shrinks.bind fun _ =>
    (consumes_string cfg).spanned.shrinks.bind fun _ => fun s a s' h => ((opt_assimilate cfg _ _).ok s a s' h).1

theorem consumes_pragma (cfg : ParseCfg) : Consumes (pragma cfg) := by
  have hs := ((consumes_string cfg).spanned (cfg := cfg)).shrinks
  refine Consumes.bind ?_ fun _ => (Pur.shrinks pur_eol).bind fun _ => Shrinks.pure _
  refine Consumes.choice fun p hp => ?_
  simp only [List.mem_cons, List.not_mem_nil, or_false] at hp
  rcases hp with rfl | rfl | rfl | rfl | rfl | rfl | rfl
  · exact consumes_map ((Consumes.just _).bind fun _ => consumes_tag.shrinks).spanned _
  · exact consumes_map ((Consumes.just _).bind fun _ => consumes_tag.shrinks).spanned _
  · exact (Consumes.just _).bind fun _ => (Snd.shrinks (snd_metaKeyValue cfg)).bind fun _ => Shrinks.pure _
  · exact consumes_map ((Consumes.just _).bind fun _ => consumes_key.shrinks.bind fun _ =>
      (Consumes.just _).shrinks.bind fun _ => Shrinks.pure _).spanned _
  · exact (Consumes.just _).bind fun _ => hs.bind fun _ => Shrinks.pure _
  · exact consumes_map (consumes_option cfg) _
  · exact (Consumes.just _).bind fun _ => hs.bind fun _ => hs.orNot.bind fun _ => Shrinks.pure _

theorem consumes_declaration (cfg : ParseCfg) : Consumes (declaration cfg) := by
  refine Consumes.spanned (Consumes.choice fun p hp => ?_)
  simp only [List.mem_cons, List.not_mem_nil, or_false] at hp
  rcases hp with rfl | rfl
  · exact consumes_map (consumes_directive cfg) _
  · exact consumes_map (consumes_pragma cfg) _

end

theorem consumes_skipThenRetry {p : P α} (hp : Consumes p) (ts : List Ranged) : ∀ (s : PSt) (a : α) (s' : PSt),
    skipThenRetry p ts s = .ok a s' → s'.toks <:+ ts ∧ s'.toks.length < ts.length := by
  induction ts with
  | nil => intro s a s' h; cases h
  | cons t ts ih =>
    intro s a s' h
    simp only [skipThenRetry] at h
    have key : ∀ s1, skipThenRetry p ts s1 = .ok a s' →
        s'.toks <:+ t :: ts ∧ s'.toks.length < (t :: ts).length := fun s1 h => by
      obtain ⟨h1, h2⟩ := ih _ _ _ h
      exact ⟨h1.trans (List.suffix_cons _ _), Nat.lt_succ_of_lt h2⟩
    split at h
    · rename_i a' s1 h1
      obtain ⟨h2, h3⟩ := hp _ _ _ h1
      split at h
      · cases h
        exact ⟨h2.trans (List.suffix_cons _ _), Nat.lt_succ_of_lt h3⟩
      · exact key _ h
    · exact key _ h
    · cases h

theorem consumes_recover {p : P α} (hp : Consumes p) : Consumes (recover p) := by
  intro s a s' h
  unfold recover at h
  split at h
  · cases h
    rename_i h
    exact hp _ _ _ h
  · exact consumes_skipThenRetry hp _ _ _ _ h
  · cases h

end Lima.Grammar
