import Verif.Lemmas.GrammarTerminals
import Verif.Lemmas.Duplicates

/-! The parsers of directives and pragmas only accept phrases of the specification. -/

namespace Lima.Grammar

open Spec P

variable {α β : Type}

/-- A renamed result. -/
theorem Snd.map {p : P α} {R : Rel α} (h : Snd p R) (f : α → β) :
    Snd (do let a ← p; pure (f a)) (fun o i r b es => ∃ a, b = f a ∧ R o i r a es) :=
  (h.bind fun a => (Pur.pure (f a)).snd).mono fun _ _ _ _ _ ⟨a, _, _, _, he, h, h1, h2, h3⟩ =>
    ⟨a, h3, by subst h2 h1; simpa [he] using h⟩

theorem Snd.map_noErr {p : P α} {R : ParserOptions → Phrase α} (h : Snd p (NoErr R)) (f : α → β) :
    Snd (do let a ← p; pure (f a)) (NoErr fun o i r b => ∃ a, b = f a ∧ R o i r a) :=
  (Snd.map h f).mono fun _ _ _ _ _ ⟨a, h, h1, h2⟩ => ⟨h1, a, h, h2⟩

theorem Snd.bind_noErr {p : P α} {f : α → P β} {R : ParserOptions → Phrase α} {S : α → ParserOptions → Phrase β}
    (hp : Snd p (NoErr R)) (hf : ∀ a, Snd (f a) (NoErr (S a))) :
    Snd (p >>= f) (NoErr fun o i r b => ∃ a j, R o i j a ∧ S a o j r b) :=
  (Snd.bind hp hf).mono fun _ _ _ _ _ ⟨a, j, _, _, he, ⟨h1, h2⟩, h3, h4⟩ => ⟨by simp [he, h1, h3], a, j, h2, h4⟩

/-- The errors are those of the second parser. -/
theorem Snd.bind_left {p : P α} {f : α → P β} {R : ParserOptions → Phrase α} {S : α → Rel β}
    (hp : Snd p (NoErr R)) (hf : ∀ a, Snd (f a) (S a)) :
    Snd (p >>= f) (fun o i r b es => ∃ a j, R o i j a ∧ S a o j r b es) :=
  (Snd.bind hp hf).mono fun _ _ _ _ _ ⟨a, j, _, _, he, ⟨h1, h2⟩, h3⟩ => ⟨a, j, h2, by subst h1; simpa [he] using h3⟩

theorem Snd.noErr_mono {p : P α} {R R' : ParserOptions → Phrase α} (h : Snd p (NoErr R))
    (hR : ∀ o i r a, R o i r a → R' o i r a) : Snd p (NoErr R') :=
  h.mono fun _ _ _ _ _ ⟨h1, h2⟩ => ⟨h1, hR _ _ _ _ h2⟩

theorem pur_eol : Pur eol (fun _ i r _ => EndOfLine i r) := by
  refine Pur.choice fun p hp => ?_
  simp only [List.mem_cons, List.not_mem_nil, or_false] at hp
  rcases hp with rfl | rfl
  · exact (Pur.just _).mono fun _ _ _ _ h => .inl h
  · constructor
    · intro s a s' h
      obtain ⟨h1, rfl⟩ := eoi_ok.mp h
      exact ⟨_, rfl, List.suffix_refl _, .inr ⟨h1, h1⟩⟩
    · intro s s' h
      obtain ⟨_, rfl⟩ := eoi_fail.mp h
      exact ⟨_, rfl⟩

theorem snd_string (cfg : ParseCfg) : Snd (string cfg) (NoErr fun _ => StringP) := by
  have hs : Pur (P.spanned cfg (P.select fun t => match t with | .stringLiteral s => some s | _ => none))
      (fun _ i r x => StringP i r x.item) :=
    (Pur.spanned (Pur.select _)).mono fun _ _ _ x ⟨⟨t, h, h'⟩, _⟩ => by
      cases t <;> simp only [reduceCtorEq] at h'
      cases h'; exact h
  constructor
  · intro s a s' h
    unfold string at h
    split at h
    · rename_i x s1 h1
      obtain ⟨r, rfl, hr, hx⟩ := hs.ok s x s1 h1
      split at h
      · cases h; exact ⟨hr, rfl, [], by simp, rfl, hx⟩
      · cases h; exact ⟨hr, rfl, [], by simp, rfl, hx⟩
    · cases h
    · cases h
  · intro s s' h
    unfold string at h
    split at h
    · split at h <;> cases h
    · rename_i s1 h1
      cases h
      obtain ⟨r, rfl⟩ := hs.fail _ _ h1
      rfl
    · cases h

theorem snd_booking (cfg : ParseCfg) : Snd (booking cfg) (NoErr fun _ => BookingP) := by
  refine Snd.noErr_mono (Snd.bind_noErr (snd_string cfg)
    (S := fun s _ i r b => r = i ∧ Booking.tryFrom s = some b) fun s => ?_) ?_
  · split
    · rename_i b h
      exact ((Pur.pure _).mono fun _ _ _ _ h' => ⟨h'.1, h'.2 ▸ h⟩).snd
    · exact (Pur.failure.mono fun _ _ _ _ h => h.elim).snd
  · rintro o i r b ⟨s, j, h, rfl, h'⟩
    exact ⟨s, h, h'⟩

/-! ### Cost specifications -/

section
variable [DecOps]

theorem snd_costComp (cfg : ParseCfg) : Snd (costComp cfg) (NoErr fun _ => CostCompP) := by
  refine Snd.choice fun p hp => ?_
  simp only [List.mem_cons, List.not_mem_nil, or_false] at hp
  rcases hp with rfl | rfl | rfl | rfl
  · exact ((Pur.map pur_compoundAmount _).mono fun _ _ _ _ ⟨a, h, h'⟩ => h ▸ .amount h').snd
  · exact ((Pur.map pur_date _).mono fun _ _ _ _ ⟨a, h, h'⟩ => h ▸ .date h').snd
  · exact Snd.noErr_mono (Snd.map_noErr (snd_string cfg) _) fun _ _ _ _ ⟨a, h, h'⟩ => h ▸ .label h'
  · exact ((pur_word _ _).mono fun _ _ _ _ ⟨h, h'⟩ => h ▸ .merge h').snd

theorem snd_commaCostComp (cfg : ParseCfg) :
    Snd (do P.just .comma; P.spanned cfg (costComp cfg)) (NoErr fun _ => CommaCostCompP cfg) := by
  refine Snd.noErr_mono (Snd.bind_noErr (Pur.just _).snd fun _ => (snd_costComp cfg).spanned_noErr) ?_
  rintro o i r x ⟨_, j, h1, h2⟩
  exact ⟨j, h1, h2⟩

omit [DecOps] in
theorem costSpecOf_ok_iff (comps : List (Spanned CostComp)) (c : CostSpec) :
    costSpecOf comps = .ok c ↔
      Says c (comps.flatMap costFacts) ∧ ∀ kind, timesSaid kind (comps.flatMap costFacts) ≤ 1 := by
  constructor
  · intro h
    exact ⟨Props.C21_fields comps c h, (Props.C21_at_most_once comps).mp ⟨c, h⟩⟩
  · rintro ⟨⟨b1, b2, b3, b4, b5, b6⟩, h2⟩
    obtain ⟨c', h'⟩ := (Props.C21_at_most_once comps).mpr h2
    obtain ⟨a1, a2, a3, a4, a5, a6⟩ := Props.C21_fields comps c' h'
    rw [h']
    congr 1
    cases c; cases c'
    simp only [CostSpec.mk.injEq]
    refine ⟨Option.ext fun v => ?_, Option.ext fun v => ?_, Option.ext fun v => ?_, Option.ext fun v => ?_,
      Option.ext fun v => ?_, ?_⟩
    · exact (a1 v).trans (b1 v).symm
    · exact (a2 v).trans (b2 v).symm
    · exact (a3 v).trans (b3 v).symm
    · exact (a4 v).trans (b4 v).symm
    · exact (a5 v).trans (b5 v).symm
    · exact Bool.eq_iff_iff.mpr (a6.trans b6.symm)

theorem snd_costSpec (cfg : ParseCfg) : Snd (costSpec cfg) (NoErr fun _ => CostSpecP cfg) := by
  refine Snd.noErr_mono (Snd.bind_noErr (Pur.just _).snd fun _ => Snd.bind_noErr (Snd.orNot_noErr
    (Snd.bind_noErr (snd_costComp cfg).spanned_noErr fun head => Snd.bind_noErr (snd_commaCostComp cfg).rep_noErr
      fun tail => (Pur.pure _).snd)) fun comps => Snd.bind_noErr (Pur.just _).snd
    (S := fun _ _ i r c => r = i ∧ costSpecOf (match comps with | some l => l | none => []) = .ok c) fun _ => ?_) ?_
  · split
    · rename_i c h
      exact ((Pur.pure _).mono fun _ _ _ _ h' => ⟨h'.1, h'.2 ▸ h⟩).snd
    · exact (Pur.failure.mono fun _ _ _ _ h => h.elim).snd
  · rintro o i r c ⟨_, j, h1, comps, k, h2, _, l, h3, rfl, h4⟩
    rw [costSpecOf_ok_iff] at h4
    cases comps with
    | none =>
      cases h2
      exact .empty h1 h3 h4.1
    | some comps =>
      obtain ⟨first, m, h2, others, n, h5, rfl, rfl⟩ := h2
      exact .comps h1 h2 h5 h3 h4.1 h4.2

end

/-! ### Tags, links and metadata -/

section
variable [Unicode]

theorem pur_tagOrLink (cfg : ParseCfg) : Pur (P.choice [
    (do let t ← P.spanned cfg tag; pure (.inl t)),
    (do let t ← P.spanned cfg link; pure (.inr t))] : P TagOrLink) (fun _ => TagOrLinkP cfg) := by
  refine Pur.choice fun p hp => ?_
  simp only [List.mem_cons, List.not_mem_nil, or_false] at hp
  rcases hp with rfl | rfl
  · exact (Pur.map pur_tag.spanned _).mono fun _ _ _ _ ⟨a, h, h'⟩ => h ▸ .tag h'
  · exact (Pur.map pur_link.spanned _).mono fun _ _ _ _ ⟨a, h, h'⟩ => h ▸ .link h'

theorem snd_tagsLinks (cfg : ParseCfg) : Snd (tagsLinks cfg) (fun _ i r tl es => ∃ head,
    Many (TagOrLinkP cfg) i r head ∧ tl = (headTags (firsts TagOrLink.name [] head),
      headLinks (firsts TagOrLink.name [] head)) ∧ es = headErrors head) := by
  refine (Snd.bind_left (pur_tagOrLink cfg).rep.snd fun l => (Snd.emit _).bind fun _ => (Pur.pure _).snd).mono ?_
  rintro o i r tl es ⟨l, j, h, _, k, es1, es2, rfl, ⟨rfl, rfl⟩, rfl, rfl, rfl⟩
  exact ⟨l, h, by rw [collectTagsLinks_eq], by rw [collectTagsLinks_eq]; simp⟩

variable [DecOps]

omit [Unicode] in
theorem exprValue_complete (s : PSt) {i r : List Ranged} {v : ExprValue} (h : ValueP i r v) :
    exprValue { s with toks := i } = .ok v { s with toks := r } := by
  unfold exprValue
  rw [bind_of_ok (expr_complete s h.1), h.2]
  rfl

omit [Unicode] [DecOps] in
theorem currency_complete (s : PSt) {i r : List Ranged} {c : Str} (h : CurrencyP i r c) :
    currency { s with toks := i } = .ok c { s with toks := r } := by
  unfold currency
  obtain ⟨⟨x, y, rfl⟩, hv⟩ := h
  rw [bind_of_ok (select_cons (a := c) s rfl), (currency_ok_iff c c).mpr ⟨rfl, hv⟩]
  rfl

/-- As `SimpleValueP`, whatever comes after an expression. -/
def SimpleValueR (o : ParserOptions) : Phrase SimpleValue := fun i r v =>
  SimpleValueP o i r v ∨ ∃ e, v = .expr e ∧ ValueP i r e

theorem snd_simpleValue (cfg : ParseCfg) : Snd (simpleValue cfg) (NoErr SimpleValueR) := by
  refine Snd.choice fun p hp => ?_
  simp only [List.mem_cons, List.not_mem_nil, or_false] at hp
  rcases hp with rfl | rfl | rfl | rfl | rfl | rfl | rfl | rfl | rfl
  · exact Snd.noErr_mono (Snd.map_noErr (snd_string cfg) _) fun _ _ _ _ ⟨a, h, h'⟩ => .inl (h ▸ .string h')
  · exact ((Pur.map pur_currency _).mono fun _ _ _ _ ⟨a, h, h'⟩ => .inl (h ▸ .currency h')).snd
  · exact ((Pur.map pur_account _).mono fun _ _ _ _ ⟨a, h, h'⟩ => .inl (h ▸ .account h')).snd
  · exact ((Pur.map pur_tag _).mono fun _ _ _ _ ⟨a, h, h'⟩ => .inl (h ▸ .tag h')).snd
  · exact ((Pur.map pur_link _).mono fun _ _ _ _ ⟨a, h, h'⟩ => .inl (h ▸ .link h')).snd
  · exact ((Pur.map pur_date _).mono fun _ _ _ _ ⟨a, h, h'⟩ => .inl (h ▸ .date h')).snd
  · exact ((Pur.map pur_bool _).mono fun _ _ _ _ ⟨a, h, h'⟩ => .inl (h ▸ .bool h')).snd
  · exact ((pur_word _ _).mono fun _ _ _ _ ⟨h, h'⟩ => .inl (h ▸ .null h')).snd
  · exact ((Pur.map pur_exprValue _).mono fun _ _ _ _ ⟨a, h, h'⟩ => .inr ⟨a, h, h'⟩).snd

theorem snd_metaValue (cfg : ParseCfg) : Snd (metaValue cfg) (NoErr (MetaValueP cfg)) := by
  have ha := Pur.map (pur_amount cfg) MetaValue.amount
  have hv := Snd.map_noErr (snd_simpleValue cfg) MetaValue.simple
  constructor
  · intro s a s' h
    rcases alt_ok.mp h with h | ⟨s1, h1, h2⟩
    · obtain ⟨t1, o1, es1, e1, he, a, rfl, r1⟩ := ha.snd.ok s a s' h
      exact ⟨t1, o1, es1, e1, he, .amount r1⟩
    · rw [ha.rewind h1] at h2
      obtain ⟨t1, o1, es1, e1, he, v, rfl, r1⟩ := hv.ok s a s' h2
      refine ⟨t1, o1, es1, e1, he, .simple ?_⟩
      rcases r1 with r1 | ⟨e, rfl, r1⟩
      · exact r1
      · refine .expr r1 fun k c hc => ?_
        have e1 := exprValue_complete s r1
        have e2 := currency_complete s hc
        have : amount cfg s = .ok ⟨⟨e, cfg.spanOf s.toks s'.toks⟩, ⟨c, cfg.spanOf s'.toks k⟩⟩ { s with toks := k } := by
          unfold amount
          have e3 : P.spanned cfg exprValue s = .ok ⟨e, cfg.spanOf s.toks s'.toks⟩ { s with toks := s'.toks } :=
            spanned_of_ok e1
          rw [bind_of_ok e3, bind_of_ok (spanned_of_ok e2)]
          rfl
        rw [bind_of_ok this] at h1
        cases h1
  · intro s s' h
    obtain ⟨s1, h1, h2⟩ := alt_fail.mp h
    rw [ha.rewind h1] at h2
    exact hv.fail s s' h2

theorem snd_metaKeyValue (cfg : ParseCfg) : Snd (metaKeyValue cfg) (NoErr (KeyValueP cfg)) := by
  refine Snd.noErr_mono (Snd.bind_noErr pur_key.spanned.snd fun k => Snd.bind_noErr (Pur.just _).snd fun _ =>
    Snd.bind_noErr (snd_metaValue cfg).orNot_noErr.spanned_noErr fun v => (Pur.pure _).snd) ?_
  rintro o i r kv ⟨k, j, h1, _, l, h2, ⟨v, span⟩, m, ⟨h3, h4⟩, rfl, rfl⟩
  cases v with
  | some v => exact .value h1 h2 ⟨h3, h4⟩
  | none => cases h3; exact .null h1 h2 h4

theorem snd_metadatumLine (cfg : ParseCfg) : Snd (metadatumLine cfg) (NoErr (LineP cfg)) := by
  have hc : Snd (P.choice [
    (do let kv ← P.spanned cfg (metaKeyValue cfg); pure (.keyValue kv)),
    (do let t ← P.spanned cfg tag; pure (.tag t)),
    (do let l ← P.spanned cfg link; pure (.link l))] : P Metadatum)
      (NoErr fun o i r m => match m with
        | .keyValue kv => At cfg (KeyValueP cfg o) i r kv
        | .tag t => At cfg TagP i r t
        | .link l => At cfg LinkP i r l) := by
    refine Snd.choice fun p hp => ?_
    simp only [List.mem_cons, List.not_mem_nil, or_false] at hp
    rcases hp with rfl | rfl | rfl
    · exact Snd.noErr_mono (Snd.map_noErr (snd_metaKeyValue cfg).spanned_noErr _) fun _ _ _ _ ⟨a, h, h'⟩ => by subst h; exact h'
    · exact Snd.noErr_mono (Snd.map_noErr pur_tag.spanned.snd _) fun _ _ _ _ ⟨a, h, h'⟩ => by subst h; exact h'
    · exact Snd.noErr_mono (Snd.map_noErr pur_link.spanned.snd _) fun _ _ _ _ ⟨a, h, h'⟩ => by subst h; exact h'
  refine Snd.noErr_mono (Snd.bind_noErr (Pur.just _).snd fun _ => Snd.bind_noErr hc fun m =>
    Snd.bind_noErr pur_eol.snd fun _ => (Pur.pure _).snd) ?_
  rintro o i r m ⟨_, j, h1, m, k, h2, _, l, h3, rfl, rfl⟩
  cases m with
  | keyValue kv => exact .keyValue h1 h2 h3
  | tag t => exact .tag h1 h2 h3
  | link t => exact .link h1 h2 h3

theorem snd_metadata (cfg : ParseCfg) : Snd (metadata cfg) (fun o i r m es => ∃ lines,
    Many (LineP cfg o) i r lines ∧ m = lineMetadata lines ∧ es = lineErrors lines) := by
  refine (Snd.bind_left (snd_metadatumLine cfg).rep_noErr fun l => (Snd.emit _).bind fun _ => (Pur.pure _).snd).mono ?_
  rintro o i r m es ⟨l, j, h, _, k, es1, es2, rfl, ⟨rfl, rfl⟩, rfl, rfl, rfl⟩
  exact ⟨l, h, by rw [collectMetadata_eq], by rw [collectMetadata_eq]; simp⟩

/-! ### Directives -/

theorem snd_postingLine (cfg : ParseCfg) : Snd (postingLine cfg) (NoErr (PostingLineP cfg)) := by
  refine Snd.noErr_mono (Snd.bind_noErr pur_flag.spanned.orNot.snd fun _ => Snd.bind_noErr pur_account.spanned.snd fun _ =>
    Snd.bind_noErr pur_exprValue.spanned.orNot.snd fun _ => Snd.bind_noErr pur_currency.spanned.orNot.snd fun _ =>
    Snd.bind_noErr (snd_costSpec cfg).spanned_noErr.orNot_noErr fun _ =>
    Snd.bind_noErr pur_priceAnnotation.spanned.orNot.snd fun _ => (Pur.pure _).snd) ?_
  rintro o i r p ⟨_, _, h1, _, _, h2, _, _, h3, _, _, h4, _, _, h5, _, _, h6, rfl, rfl⟩
  exact .mk h1 h2 h3 h4 h5 h6

theorem snd_posting (cfg : ParseCfg) : Snd (posting cfg) (fun o i r p es => PostingP cfg o i r (p, es)) := by
  refine (Snd.bind_left (Pur.just _).snd fun _ => Snd.bind_left (snd_postingLine cfg).spanned_noErr fun line =>
    Snd.bind_left pur_eol.snd fun _ => Snd.bind (snd_metadata cfg).spanned fun m => (Pur.pure _).snd).mono ?_
  rintro o i r p es ⟨_, j, h1, line, k, h2, _, l, h3, ⟨m, span⟩, n, es1, es2, rfl, ⟨⟨lines, h4, h5, rfl⟩, h6⟩, rfl, rfl, rfl⟩
  dsimp only at h5
  subst h5
  rw [List.append_nil]
  exact .mk h1 h2 h3 h4 h6

theorem many_postings {cfg : ParseCfg} {o : ParserOptions} {i r : List Ranged} {ps : List (Spanned Posting)}
    {es : List PErr} (h : ManyRel (fun o i r p es => PostingP cfg o i r (p, es)) o i r ps es) :
    ∃ qs, Many (PostingP cfg o) i r qs ∧ ps = qs.map (·.1) ∧ es = qs.flatMap (·.2) := by
  induction h with
  | nil => exact ⟨[], .nil, rfl, rfl⟩
  | @cons _ _ _ a _ es1 _ h1 _ ih =>
    obtain ⟨qs, h, rfl, rfl⟩ := ih
    exact ⟨(a, es1) :: qs, .cons h1 h, rfl, rfl⟩

omit [Unicode] [DecOps] in
theorem replace_eq (x : Option (Spanned Str)) :
    replaceSomeEmptyWithNone x = match x with | some s => nonEmpty s | none => none := by
  cases x with
  | none => rfl
  | some s =>
    unfold replaceSomeEmptyWithNone nonEmpty
    simp only [List.isEmpty_iff]

omit [Unicode] [DecOps] in
theorem payeeNarration_spec {cfg : ParseCfg} {i j r : List Ranged} {s1 s2 : Option (Spanned Str)}
    (h1 : Maybe (At cfg StringP) i j s1) (h2 : Maybe (At cfg StringP) j r s2) (hc : s1 = none → s2 = none) :
    PayeeNarrationP cfg i r (payeeNarration s1 s2) := by
  cases s1 with
  | none =>
    cases hc rfl
    cases h1; cases h2
    exact .neither
  | some s1 =>
    cases s2 with
    | none =>
      cases h2
      have : payeeNarration (some s1) none = (none, nonEmpty s1) := by
        simp only [payeeNarration, replace_eq]
      rw [this]
      exact .narration h1
    | some s2 =>
      have : payeeNarration (some s1) (some s2) = (nonEmpty s1, nonEmpty s2) := by
        simp only [payeeNarration, replace_eq]
      rw [this]
      exact .both h1 h2

omit [Unicode] [DecOps] in
theorem string_complete (cfg : ParseCfg) (s : PSt) {i r : List Ranged} {x : Str} (h : StringP i r x) :
    ∃ ws, string cfg { s with toks := i } = .ok x { s with toks := r, warns := s.warns ++ ws } := by
  obtain ⟨a, b, rfl⟩ := h
  unfold string
  rw [spanned_of_ok (select_cons (a := x) s rfl)]
  simp only
  split
  · exact ⟨_, rfl⟩
  · exact ⟨[], by simp⟩

omit [Unicode] [DecOps] in
theorem snd_orNot_string (cfg : ParseCfg) : Snd (P.orNot (P.spanned cfg (string cfg)))
    (NoErr fun _ i r x => Maybe (At cfg StringP) i r x ∧ (x = none → ∀ r a, ¬ StringP i r a)) := by
  constructor
  · intro s x s' h
    obtain ⟨h1, h2, es, h3, h4, h5⟩ := (snd_string cfg).spanned_noErr.orNot_noErr.ok s x s' h
    refine ⟨h1, h2, es, h3, h4, h5, ?_⟩
    rintro rfl r a ha
    obtain ⟨ws, hw⟩ := string_complete cfg s ha
    rcases orNot_ok.mp h with ⟨_, h, _⟩ | ⟨_, s1, h, _⟩
    · cases h
    · have : P.spanned cfg (string cfg) s = _ := spanned_of_ok (s := s) hw
      rw [this] at h
      cases h
  · intro s s' h
    exact absurd h orNot_fail

theorem snd_transactionHeaderLine (cfg : ParseCfg) : Snd (transactionHeaderLine cfg) (fun _ i r x es =>
    ∃ j k l m head, At cfg DateP i j x.1 ∧ At cfg TxnP j k x.2.1 ∧ PayeeNarrationP cfg k l x.2.2.1 ∧
      Many (TagOrLinkP cfg) l m head ∧ EndOfLine m r ∧
      x.2.2.2 = (headTags (firsts TagOrLink.name [] head), headLinks (firsts TagOrLink.name [] head)) ∧
      es = headErrors head) := by
  refine (Snd.bind_left pur_date.spanned.snd fun _ => Snd.bind_left pur_txn.spanned.snd fun _ =>
    Snd.bind_left (snd_orNot_string cfg) fun s1 => Snd.bind_left (snd_orNot_string cfg) fun s2 =>
    Snd.bind (snd_tagsLinks cfg) fun tl => Snd.bind_noErr pur_eol.snd fun _ => (Pur.pure _).snd).mono ?_
  rintro o i r x es ⟨date, j, h1, flag, k, h2, s1, l, ⟨h3, h3'⟩, s2, m, ⟨h4, _⟩, tl, n, es1, es2, rfl,
    ⟨head, h5, rfl, rfl⟩, rfl, _, q, h6, rfl, rfl⟩
  refine ⟨j, k, m, n, head, h1, h2, payeeNarration_spec h3 h4 ?_, h5, h6, rfl, by simp⟩
  rintro rfl
  cases s2 with
  | none => rfl
  | some s2 =>
    cases h3
    exact absurd h4.1 (h3' rfl _ _)

theorem transaction_eq (cfg : ParseCfg) : transaction cfg = (do
    let x ← transactionHeaderLine cfg
    let metadata ← P.spanned cfg (metadata cfg)
    let postings ← P.rep (posting cfg)
    P.emit (mergeHeader metadata x.2.2.2).2
    pure ⟨x.1, (mergeHeader metadata x.2.2.2).1, .transaction ⟨x.2.1, x.2.2.1.1, x.2.2.1.2, postings⟩⟩) := rfl

theorem snd_transaction (cfg : ParseCfg) : Snd (transaction cfg) (DirectiveP cfg) := by
  rw [transaction_eq]
  refine (Snd.bind (snd_transactionHeaderLine cfg) fun x =>
    Snd.bind (snd_metadata cfg).spanned fun metadata => Snd.bind (snd_posting cfg).rep fun postings =>
    Snd.bind (Snd.emit _) fun _ => (Pur.pure _).snd).mono ?_
  rintro o i r d es ⟨⟨date, flag, ⟨payee, narration⟩, tl⟩, n, es1, es2, rfl,
    ⟨j, k, l, m, head, h1, h2, h3, h4, h5, h6, rfl⟩, ⟨md, span⟩, p, es3, es4, rfl, ⟨⟨lines, h7, h7', rfl⟩, h8⟩,
    ps, q, es5, es6, rfl, h9, _, _, es7, es8, rfl, ⟨rfl, rfl⟩, rfl, rfl, rfl⟩
  obtain ⟨qs, h10, rfl, rfl⟩ := many_postings h9
  dsimp only at h6 h7'
  subst h6 h7'
  have := DirectiveP.transaction h1 h2 h3 h4 h5 h7 h8 h10
  rw [mergeHeader_eq]
  simpa [List.append_assoc] using this

theorem snd_simpleDirective (cfg : ParseCfg) {keyword : Token} {body : P DirectiveVariant}
    (h : Snd body (fun o => BodyP cfg o keyword)) : Snd (simpleDirective cfg keyword body) (DirectiveP cfg) := by
  refine (Snd.bind_left pur_date.spanned.snd fun _ => Snd.bind_left (Pur.just _).snd fun _ =>
    Snd.bind h fun _ => Snd.bind (snd_tagsLinks cfg) fun tl => Snd.bind_left pur_eol.snd fun _ =>
    Snd.bind (snd_metadata cfg).spanned fun metadata => Snd.bind (Snd.emit _) fun _ => (Pur.pure _).snd).mono ?_
  rintro o i r d es ⟨date, j, h1, _, k, h2, v, l, es1, es2, rfl, h3, tl, m, es3, es4, rfl, ⟨head, h4, rfl, rfl⟩,
    _, n, h5, ⟨md, span⟩, p, es5, es6, rfl, ⟨⟨lines, h6, h6', rfl⟩, h7⟩, _, _, es7, es8, rfl, ⟨rfl, rfl⟩, rfl, rfl, rfl⟩
  dsimp only at h6'
  subst h6'
  have := DirectiveP.other h1 h2 h3 h4 h5 h6 h7
  rw [mergeHeader_eq]
  simpa [List.append_assoc] using this

theorem snd_currencyList (cfg : ParseCfg) : Snd (currencyList cfg) (fun _ i r cs es => ∃ l,
    CurrenciesP cfg i r l ∧ cs = firsts (·.item) [] l ∧ es = currencyErrors l) := by
  have hc : Snd (do P.just .comma; P.spanned cfg currency) (NoErr fun _ => CommaCurrencyP cfg) :=
    Snd.noErr_mono (Snd.bind_noErr (Pur.just _).snd fun _ => pur_currency.spanned.snd)
      fun _ _ _ _ ⟨_, j, h1, h2⟩ => ⟨j, h1, h2⟩
  refine (Snd.bind (Snd.orNot (Snd.bind_left pur_currency.spanned.snd fun first =>
    Snd.bind_left hc.rep_noErr fun others => Snd.bind (Snd.emit _) fun _ => (Pur.pure _).snd))
    (S := fun l _ i r cs es => es = [] ∧ r = i ∧ cs = (match l with | some l => l | none => [])) fun l => ?_).mono ?_
  · cases l <;> exact (Pur.pure _).snd
  · rintro o i r cs es ⟨l, j, es1, es2, rfl, h1, rfl, rfl, rfl⟩
    cases l with
    | none =>
      obtain ⟨rfl, rfl⟩ := h1
      exact ⟨[], .none, rfl, rfl⟩
    | some l =>
      obtain ⟨first, k, h1, others, m, h2, _, _, es3, es4, rfl, ⟨rfl, rfl⟩, rfl, rfl, rfl⟩ := h1
      refine ⟨_, .some h1 h2, ?_, ?_⟩
      · rw [collectCurrencies_eq]
      · rw [collectCurrencies_eq]; simp

theorem snd_price (cfg : ParseCfg) : Snd (price cfg) (DirectiveP cfg) :=
  snd_simpleDirective cfg ((Snd.bind_noErr pur_currency.spanned.snd fun _ =>
    Snd.map_noErr (pur_amount cfg).spanned.snd _).mono fun _ _ _ _ _ ⟨h, _, _, h1, _, h2, h3⟩ => by
      subst h h2; exact .price h1 h3)

theorem snd_balance (cfg : ParseCfg) : Snd (balance cfg) (DirectiveP cfg) :=
  snd_simpleDirective cfg ((Snd.bind_noErr pur_account.spanned.snd fun _ =>
    Snd.map_noErr (pur_amountWithTolerance cfg).spanned.snd _).mono fun _ _ _ _ _ ⟨h, _, _, h1, _, h2, h3⟩ => by
      subst h h2; exact .balance h1 h3)

theorem snd_open (cfg : ParseCfg) : Snd (open_ cfg) (DirectiveP cfg) := by
  refine snd_simpleDirective cfg ((Snd.bind_left pur_account.spanned.snd fun _ =>
    Snd.bind (snd_currencyList cfg) fun _ => Snd.map_noErr (snd_booking cfg).spanned_noErr.orNot_noErr _).mono ?_)
  rintro o i r v es ⟨_, _, h1, _, _, _, _, rfl, ⟨l, h2, rfl, rfl⟩, rfl, _, rfl, h3⟩
  rw [List.append_nil]
  exact .open h1 h2 h3

theorem snd_close (cfg : ParseCfg) : Snd (close cfg) (DirectiveP cfg) :=
  snd_simpleDirective cfg ((Snd.map_noErr pur_account.spanned.snd _).mono fun _ _ _ _ _ ⟨h, _, h2, h3⟩ => by
      subst h h2; exact .close h3)

theorem snd_commodity (cfg : ParseCfg) : Snd (commodity cfg) (DirectiveP cfg) :=
  snd_simpleDirective cfg ((Snd.map_noErr pur_currency.spanned.snd _).mono fun _ _ _ _ _ ⟨h, _, h2, h3⟩ => by
      subst h h2; exact .commodity h3)

theorem snd_pad (cfg : ParseCfg) : Snd (pad cfg) (DirectiveP cfg) :=
  snd_simpleDirective cfg ((Snd.bind_noErr pur_account.spanned.snd fun _ =>
    Snd.map_noErr pur_account.spanned.snd _).mono fun _ _ _ _ _ ⟨h, _, _, h1, _, h2, h3⟩ => by
      subst h h2; exact .pad h1 h3)

theorem snd_document (cfg : ParseCfg) : Snd (document cfg) (DirectiveP cfg) :=
  snd_simpleDirective cfg ((Snd.bind_noErr pur_account.spanned.snd fun _ =>
    Snd.map_noErr (snd_string cfg).spanned_noErr _).mono fun _ _ _ _ _ ⟨h, _, _, h1, _, h2, h3⟩ => by
      subst h h2; exact .document h1 h3)

theorem snd_note (cfg : ParseCfg) : Snd (note cfg) (DirectiveP cfg) :=
  snd_simpleDirective cfg ((Snd.bind_noErr pur_account.spanned.snd fun _ =>
    Snd.map_noErr (snd_string cfg).spanned_noErr _).mono fun _ _ _ _ _ ⟨h, _, _, h1, _, h2, h3⟩ => by
      subst h h2; exact .note h1 h3)

theorem snd_event (cfg : ParseCfg) : Snd (event cfg) (DirectiveP cfg) :=
  snd_simpleDirective cfg ((Snd.bind_noErr (snd_string cfg).spanned_noErr fun _ =>
    Snd.map_noErr (snd_string cfg).spanned_noErr _).mono fun _ _ _ _ _ ⟨h, _, _, h1, _, h2, h3⟩ => by
      subst h h2; exact .event h1 h3)

theorem snd_query (cfg : ParseCfg) : Snd (query cfg) (DirectiveP cfg) :=
  snd_simpleDirective cfg ((Snd.bind_noErr (snd_string cfg).spanned_noErr fun _ =>
    Snd.map_noErr (snd_string cfg).spanned_noErr _).mono fun _ _ _ _ _ ⟨h, _, _, h1, _, h2, h3⟩ => by
      subst h h2; exact .query h1 h3)

theorem snd_custom (cfg : ParseCfg) : Snd (custom cfg) (DirectiveP cfg) := by
  refine (Snd.bind_left pur_date.spanned.snd fun _ => Snd.bind_left (Pur.just _).snd fun _ =>
    Snd.bind_left (snd_string cfg).spanned_noErr fun _ => Snd.bind_left (snd_metaValue cfg).spanned_noErr.rep_noErr fun _ =>
    Snd.bind_left pur_eol.snd fun _ => Snd.map (snd_metadata cfg).spanned _).mono ?_
  rintro o i r d es ⟨_, _, h1, _, _, h2, _, _, h3, _, _, h4, _, _, h5, ⟨md, span⟩, rfl, ⟨lines, h6, h6', rfl⟩, h7⟩
  dsimp only at h6'
  subst h6'
  exact .custom h1 h2 h3 h4 h5 h6 h7

theorem snd_directive (cfg : ParseCfg) : Snd (directive cfg) (DirectiveP cfg) := by
  refine Snd.choice fun p hp => ?_
  simp only [List.mem_cons, List.not_mem_nil, or_false] at hp
  rcases hp with rfl | rfl | rfl | rfl | rfl | rfl | rfl | rfl | rfl | rfl | rfl | rfl
  · exact snd_transaction cfg
  · exact snd_price cfg
  · exact snd_balance cfg
  · exact snd_open cfg
  · exact snd_close cfg
  · exact snd_commodity cfg
  · exact snd_pad cfg
  · exact snd_document cfg
  · exact snd_note cfg
  · exact snd_event cfg
  · exact snd_query cfg
  · exact snd_custom cfg

/-! ### Pragmas -/

/-- As `PragmaP`, for the pragmas which do not change the options. -/
theorem snd_pragma_plain (cfg : ParseCfg) : ∀ p ∈ [
    (do let t ← P.spanned cfg (do P.just .pushtag; tag); pure (.pushtag t)),
    (do let t ← P.spanned cfg (do P.just .poptag; tag); pure (.poptag t)),
    (do P.just .pushmeta; let kv ← metaKeyValue cfg; pure (.pushmeta kv)),
    (do let k ← P.spanned cfg (do P.just .popmeta; let k ← key; P.just .colon; pure k); pure (.popmeta k)),
    (do P.just .include; let s ← P.spanned cfg (string cfg); pure (.include s)),
    (do P.just .plugin
        let m ← P.spanned cfg (string cfg)
        let c ← P.orNot (P.spanned cfg (string cfg))
        pure (.plugin ⟨m, c⟩) : P Pragma)],
    Snd p (fun o i r a es => PragmaP cfg o i r a o es) := by
  intro p hp
  simp only [List.mem_cons, List.not_mem_nil, or_false] at hp
  rcases hp with rfl | rfl | rfl | rfl | rfl | rfl
  · refine (Snd.map_noErr (Pur.spanned ((Pur.just _).bind fun _ => pur_tag)).snd _).mono ?_
    rintro o i r a es ⟨rfl, t, rfl, ⟨_, j, h1, h2⟩, h3⟩
    exact .pushtag ⟨⟨j, h1, h2⟩, h3⟩
  · refine (Snd.map_noErr (Pur.spanned ((Pur.just _).bind fun _ => pur_tag)).snd _).mono ?_
    rintro o i r a es ⟨rfl, t, rfl, ⟨_, j, h1, h2⟩, h3⟩
    exact .poptag ⟨⟨j, h1, h2⟩, h3⟩
  · refine (Snd.bind_noErr (Pur.just _).snd fun _ => Snd.map_noErr (snd_metaKeyValue cfg) _).mono ?_
    rintro o i r a es ⟨rfl, _, j, h1, kv, rfl, h2⟩
    exact .pushmeta h1 h2
  · refine (Snd.map_noErr (Pur.spanned ((Pur.just _).bind fun _ => pur_key.bind fun k => pur_word _ _)).snd _).mono ?_
    rintro o i r a es ⟨rfl, t, rfl, ⟨_, j, h1, k, l, h2, h4, h5⟩, h3⟩
    exact .popmeta ⟨⟨j, h1, l, h4 ▸ h2, h5⟩, h3⟩
  · refine (Snd.bind_noErr (Pur.just _).snd fun _ => Snd.map_noErr (snd_string cfg).spanned_noErr _).mono ?_
    rintro o i r a es ⟨rfl, _, j, h1, kv, rfl, h2⟩
    exact .include h1 h2
  · refine (Snd.bind_noErr (Pur.just _).snd fun _ => Snd.bind_noErr (snd_string cfg).spanned_noErr fun _ =>
      Snd.map_noErr (snd_string cfg).spanned_noErr.orNot_noErr _).mono ?_
    rintro o i r a es ⟨rfl, _, j, h1, m, k, h2, c, rfl, h3⟩
    exact .plugin h1 h2 h3

/-- What it means to succeed for a parser which may change the options when it succeeds. -/
abbrev ORel (α : Type) := ParserOptions → List Ranged → List Ranged → α → ParserOptions → List PErr → Prop

/-- A parser which may change the options, but only when it succeeds. -/
structure Opt (p : P α) (R : ORel α) : Prop where
  ok : ∀ s a s', p s = .ok a s' → s'.toks <:+ s.toks ∧
    ∃ es, s'.errs = s.errs ++ es ∧ R s.opts s.toks s'.toks a s'.opts es
  fail : ∀ s s', p s = .fail s' → s'.opts = s.opts

omit [Unicode] [DecOps] in
theorem Opt.of_snd {p : P α} {R : Rel α} {R' : ORel α} (h : Snd p R) (hR : ∀ o i r a es, R o i r a es → R' o i r a o es) :
    Opt p R' :=
  ⟨fun s a s' hp => let ⟨h1, h2, es, h3, h4⟩ := h.ok s a s' hp; ⟨h1, es, h3, by rw [h2]; exact hR _ _ _ _ _ h4⟩, h.fail⟩

omit [Unicode] [DecOps] in
theorem Opt.alt {p q : P α} {R : ORel α} (hp : Opt p R) (hq : Opt q R) : Opt (P.alt p q) R := by
  constructor
  · intro s a s' h
    rcases alt_ok.mp h with h | ⟨s1, h1, h2⟩
    · exact hp.ok s a s' h
    · have ho := hp.fail s s1 h1
      obtain ⟨t1, es1, e1, r1⟩ := hq.ok _ a s' h2
      simp only [rewind_opts, ho] at r1
      exact ⟨t1, es1, e1, r1⟩
  · intro s s' h
    obtain ⟨s1, h1, h2⟩ := alt_fail.mp h
    exact (hq.fail _ s' h2).trans (hp.fail s s1 h1)

omit [Unicode] [DecOps] in
theorem Opt.choice {ps : List (P α)} {R : ORel α} (h : ∀ p ∈ ps, Opt p R) : Opt (P.choice ps) R := by
  induction ps with
  | nil => exact Opt.of_snd Pur.failure.snd fun _ _ _ _ _ h => h.2.elim
  | cons p ps ih =>
    cases ps with
    | nil => exact h p (by simp)
    | cons q qs => exact Opt.alt (h p (by simp)) (ih fun p hp => h p (by simp [hp]))

omit [DecOps] in
theorem opt_assimilate (cfg : ParseCfg) (name value : Spanned Str) :
    Opt (assimilateOption cfg name value) (fun o i r opt o' es => r = i ∧ OptionP cfg o name value opt o' es) := by
  constructor
  · intro s opt s' h
    unfold assimilateOption at h
    split at h
    · cases h
    · rename_i h1
      cases h
      exact ⟨List.suffix_refl _, _, rfl, rfl, .unknown h1⟩
    · rename_i e h1
      cases h
      exact ⟨List.suffix_refl _, _, rfl, rfl, .badValue h1⟩
    · rename_i opt' h1
      split at h
      · rename_i h2
        cases h
        exact ⟨List.suffix_refl _, [], by simp, rfl, .accepted h1 h2⟩
      · rename_i h2
        cases h
        exact ⟨List.suffix_refl _, _, rfl, rfl, .refused h1 h2⟩
      · cases h
  · intro s s' h
    unfold assimilateOption at h
    split at h
    · cases h
    · cases h
    · cases h
    · split at h <;> cases h

omit [Unicode] [DecOps] in
theorem Opt.bind_left {p : P α} {f : α → P β} {R : ParserOptions → Phrase α} {S : α → ORel β}
    (hp : Snd p (NoErr R)) (hf : ∀ a, Opt (f a) (S a)) :
    Opt (p >>= f) (fun o i r b o' es => ∃ a j, R o i j a ∧ S a o j r b o' es) := by
  constructor
  · intro s b s' h
    obtain ⟨a, s1, h1, h2⟩ := bind_ok.mp h
    obtain ⟨t1, o1, es1, e1, rfl, r1⟩ := hp.ok s a s1 h1
    obtain ⟨t2, es2, e2, r2⟩ := (hf a).ok _ b s' h2
    refine ⟨t2.trans t1, es2, by rw [e2, e1, List.append_nil], a, _, r1, ?_⟩
    rw [← o1]
    exact r2
  · intro s s' h
    rcases bind_fail.mp h with h | ⟨a, s1, h1, h2⟩
    · exact hp.fail s s' h
    · exact ((hf a).fail _ s' h2).trans (hp.ok s a s1 h1).2.1

omit [Unicode] [DecOps] in
theorem Opt.mono {p : P α} {R R' : ORel α} (h : Opt p R) (hR : ∀ o i r a o' es, R o i r a o' es → R' o i r a o' es) :
    Opt p R' :=
  ⟨fun s a s' hp => let ⟨h1, es, h3, h4⟩ := h.ok s a s' hp; ⟨h1, es, h3, hR _ _ _ _ _ _ h4⟩, h.fail⟩

omit [Unicode] [DecOps] in
theorem Opt.map {p : P α} {R : ORel α} (h : Opt p R) (f : α → β) :
    Opt (do let a ← p; pure (f a)) (fun o i r b o' es => ∃ a, b = f a ∧ R o i r a o' es) := by
  constructor
  · intro s b s' hb
    obtain ⟨a, s1, h1, h2⟩ := bind_ok.mp hb
    cases h2
    obtain ⟨t1, es1, e1, r1⟩ := h.ok _ _ _ h1
    exact ⟨t1, es1, e1, a, rfl, r1⟩
  · intro s s' hb
    rcases bind_fail.mp hb with hb | ⟨a, s1, h1, h2⟩
    · exact h.fail _ _ hb
    · cases h2

omit [DecOps] in
theorem opt_option (cfg : ParseCfg) : Opt (option cfg) (fun o i r opt o' es => ∃ j k name value,
    Word .option i j ∧ At cfg StringP j k name ∧ At cfg StringP k r value ∧ OptionP cfg o name value opt o' es) := by
  refine (Opt.bind_left (Pur.just _).snd fun _ => Opt.bind_left (snd_string cfg).spanned_noErr fun _ =>
    Opt.bind_left (snd_string cfg).spanned_noErr fun _ => opt_assimilate cfg _ _).mono ?_
  rintro o i r opt o' es ⟨_, j, h1, name, k, h2, value, l, h3, rfl, h4⟩
  exact ⟨j, k, name, value, h1, h2, h3, h4⟩

theorem pragma_ok (cfg : ParseCfg) {s s' : PSt} {p : Pragma} (h : pragma cfg s = .ok p s') :
    s'.toks <:+ s.toks ∧ ∃ es j, s'.errs = s.errs ++ es ∧ PragmaP cfg s.opts s.toks j p s'.opts es ∧
      EndOfLine j s'.toks := by
  obtain ⟨q, s1, h1, h2⟩ := bind_ok.mp h
  obtain ⟨_, s2, h2, h3⟩ := bind_ok.mp h2
  cases h3
  obtain ⟨r, rfl, hr, he⟩ := pur_eol.ok _ _ _ h2
  have hpl := snd_pragma_plain cfg
  simp only [List.forall_mem_cons, List.not_mem_nil, false_imp_iff, implies_true, and_true] at hpl
  obtain ⟨p1, p2, p3, p4, p5, p6⟩ := hpl
  have ho : Opt (do let o ← option cfg; pure (.option o)) (PragmaP cfg) := by
    refine (Opt.map (opt_option cfg) Pragma.option).mono ?_
    rintro o i r p o' es ⟨opt, rfl, j, k, name, value, h1, h2, h3, h4⟩
    exact .option h1 h2 h3 h4
  have hc := (Opt.choice (R := PragmaP cfg) (fun q hq => by
    simp only [List.mem_cons, List.not_mem_nil, or_false] at hq
    rcases hq with rfl | rfl | rfl | rfl | rfl | rfl | rfl
    · exact Opt.of_snd p1 fun _ _ _ _ _ h => h
    · exact Opt.of_snd p2 fun _ _ _ _ _ h => h
    · exact Opt.of_snd p3 fun _ _ _ _ _ h => h
    · exact Opt.of_snd p4 fun _ _ _ _ _ h => h
    · exact Opt.of_snd p5 fun _ _ _ _ _ h => h
    · exact ho
    · exact Opt.of_snd p6 fun _ _ _ _ _ h => h)).ok _ _ _ h1
  obtain ⟨t1, es, e1, r1⟩ := hc
  exact ⟨hr.trans t1, es, s1.toks, e1, r1, he⟩

theorem declaration_ok (cfg : ParseCfg) {s s' : PSt} {d : Spanned Declaration}
    (h : declaration cfg s = .ok d s') :
    s'.toks <:+ s.toks ∧ ∃ es, s'.errs = s.errs ++ es ∧ DeclarationP cfg s.opts s.toks s'.toks d s'.opts es := by
  obtain ⟨h1, h2⟩ := spanned_ok.mp h
  obtain ⟨item, span⟩ := d
  dsimp only at h1 h2
  rcases alt_ok.mp h1 with h1 | ⟨s1, h1, h3⟩
  · obtain ⟨t1, o1, es, e1, d', rfl, r1⟩ := (Snd.map (snd_directive cfg) Declaration.directive).ok _ _ _ h1
    refine ⟨t1, es, e1, ?_⟩
    rw [o1, h2]
    exact .directive r1 (covers_spanOf cfg t1)
  · have ho := (Snd.map (snd_directive cfg) Declaration.directive).fail _ _ h1
    obtain ⟨p, s2, h3, h4⟩ := bind_ok.mp h3
    cases h4
    obtain ⟨t1, es, j, e1, r1, r2⟩ := pragma_ok cfg h3
    simp only [rewind_opts, ho] at r1
    refine ⟨t1, es, e1, ?_⟩
    rw [h2]
    exact .pragma r1 r2 (covers_spanOf cfg t1)

end

end Lima.Grammar
