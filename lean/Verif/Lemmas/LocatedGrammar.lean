import Verif.Lemmas.Located

/-! Everything that is parsed is located where it was parsed: the grammar. -/

set_option linter.unusedSectionVars false

namespace Lima.Grammar

open Spec P

variable {α β : Type} {cfg : ParseCfg} {K : List Location}

/-- Closes `every location of the result is known`. -/
macro "locs" : tactic => `(tactic| (
  intro x hx
  simp only [Locations.amount, Locations.amountWithTolerance, Locations.metaValue, Locations.keyValue,
    Locations.spannedMetadata, Locations.posting, Locations.transaction, Locations.variant, Locations.directive,
    Locations.plugin, Locations.pragma, Locations.declaration, hereOpt, readsOpt, Option.toList_none, Option.toList_some, List.map_nil,
    List.flatMap_nil, List.flatMap_cons, List.map_cons,
    List.mem_append, List.mem_cons, List.not_mem_nil, or_false, false_or, List.append_nil, List.nil_append] at hx ⊢
  tauto))

theorem located_eol : Located cfg K eol (fun _ => []) := .choice_cons (.just _) (.choice_cons .eoi .choice_nil)

theorem located_date : Located cfg K date (fun _ => []) := .select _

theorem located_decimal : Located cfg K decimal (fun _ => []) := .select _

theorem located_bool : Located cfg K bool (fun _ => []) := .select _

theorem located_flag : Located cfg K flag (fun _ => []) := .select _

theorem located_currency : Located cfg K currency (fun _ => []) := by
  refine (Located.select (cfg := cfg) _).bind fun s => ?_
  split
  · exact .pure (by simp)
  · exact .failure
  · exact .panicking

theorem located_txn : Located cfg K txn (fun _ => []) :=
  .choice_cons ((Located.just _).bind fun _ => .pure (by simp)) (.choice_cons located_flag .choice_nil)

theorem located_string : Located cfg K (string cfg) (fun _ => []) := by
  have hs : Located cfg K _ _ := .spanned0 (Consumes.select _)
    (.select (fun t => match t with | .stringLiteral s => some s | _ => none))
  constructor
  · intro s a s' h
    unfold string at h
    split at h
    · rename_i x s1 h1
      obtain ⟨k1, k2, ⟨es, k3, k4⟩, k5⟩ := hs.ok _ _ _ h1
      split at h
      · cases h
        refine ⟨k1, by simp, ⟨es, k3, k4⟩, k5.opts, ?_⟩
        obtain ⟨ws, e, hw⟩ := k5.warns
        refine ⟨ws ++ [longStringWarning s1.opts (lineCount x.item) x.span], by simp [e], ?_⟩
        intro w hwm y hy
        rcases List.mem_append.mp hwm with hwm | hwm
        · exact hw w hwm y hy
        · rw [List.mem_singleton.mp hwm] at hy
          have hx : StateKnown cfg K s ⟨x.span, false, none⟩ :=
            .inr ((k2 (here x) (by simp)).mono (List.suffix_refl _) List.nil_suffix)
          unfold longStringWarning at hy
          simp only at hy
          split at hy
          · rename_i n hn
            simp only [Locations.report, Report.new, Report.relatedToNamedSpan, Report.contextsIter, Report.relatedIter,
              orEmpty, List.nil_append, List.map_cons, List.map_nil, List.mem_cons, List.not_mem_nil, or_false] at hy
            rcases hy with rfl | rfl
            · exact hx
            · refine k5.opts _ ?_
              simp [Locations.parserOptions, Locations.sourced, hn, Locations.source]
          · simp only [Locations.report, Report.new, Report.contextsIter, Report.relatedIter, List.append_nil,
              List.map_nil, List.mem_cons, List.not_mem_nil, or_false] at hy
            rw [hy]
            exact hx
      · cases h
        exact ⟨k1, by simp, ⟨es, k3, k4⟩, k5⟩
    · cases h
    · cases h
  · intro s s' h
    unfold string at h
    split at h
    · split at h <;> cases h
    · cases h
      exact hs.fail _ _ ‹_›
    · cases h

/-- The last token consumed. -/
theorem word_mem_last {t : Token} {i j r run : List Ranged} (hj : j <:+ i) (h : Word t j r) (e : i = run ++ r) :
    t ∈ run.map (·.tok) := by
  obtain ⟨pre, hpre⟩ := hj
  obtain ⟨a, b, rfl⟩ := h
  have h1 : (pre ++ [⟨t, a, b⟩]) ++ r = run ++ r := by
    rw [← e, ← hpre]
    simp
  rw [← List.append_cancel_right h1]
  simp

theorem reads_date : Reads date .date := reads_pur pur_date fun _ _ _ _ h => h

theorem reads_decimal : Reads decimal .number := reads_pur pur_decimal fun _ _ _ _ h => h

theorem reads_currency : Reads currency .currency := reads_pur pur_currency fun _ _ _ _ h => h.1

theorem reads_string : Reads (string cfg) .stringLiteral := reads_snd (snd_string cfg) fun _ _ _ _ _ h => h.2

theorem located_booking : Located cfg K (booking cfg) (fun _ => []) := by
  refine located_string.bind fun s => ?_
  split
  · exact .pure (by simp)
  · exact .failure

theorem located_checked {ε : Type} (sel : Token → Option Str) (f : Str → Except ε Str) :
    Located cfg K (checked sel f) (fun _ => []) := by
  refine (Located.select (cfg := cfg) _).bind fun s => ?_
  split
  · exact .pure (by simp)
  · exact .failure

section
variable [Unicode]

theorem located_tag : Located cfg K tag (fun _ => []) := located_checked _ _
theorem located_link : Located cfg K link (fun _ => []) := located_checked _ _
theorem located_key : Located cfg K key (fun _ => []) := located_checked _ _

theorem reads_tag : Reads tag .tag := reads_pur pur_tag fun _ _ _ _ h => h.1
theorem reads_link : Reads link .link := reads_pur pur_link fun _ _ _ _ h => h.1
theorem reads_key : Reads key .key := reads_pur pur_key fun _ _ _ _ h => h.1
theorem reads_account : Reads account accountWord := reads_pur pur_account fun _ _ _ _ h => h.1

theorem located_account : Located cfg K account (fun _ => []) := by
  refine (Located.select (cfg := cfg) _).bind fun s => ?_
  refine (Located.options (cfg := cfg)).bind fun o => ?_
  split
  · exact .pure (by simp)
  · exact .failure

end

/-! ### Expressions -/

/-- A parser that leaves the state alone but for the tokens, of something without locations. -/
theorem located_pur {p : P α} {R : ParserOptions → Phrase α} (h : Pur p R) : Located cfg K p (fun _ => []) := by
  constructor
  · intro s a s' hp
    obtain ⟨r, rfl, h1, _⟩ := h.ok _ _ _ hp
    exact ⟨h1, by simp, ⟨[], by simp, by simp⟩, .same rfl rfl⟩
  · intro s s' hp
    obtain ⟨r, rfl⟩ := h.fail _ _ hp
    exact .same rfl rfl

section
variable [DecOps]

theorem located_exprValue : Located cfg K exprValue (fun _ => []) := located_pur pur_exprValue

theorem located_amount : Located cfg K (amount cfg) Locations.amount := by
  refine (Located.spanned0 consumes_exprValue located_exprValue).bind fun n => ?_
  refine (Located.reads reads_currency located_currency).bind fun c => ?_
  exact .pure (by locs)

theorem consumes_decimal : Consumes decimal := Consumes.select _

theorem consumes_tolerantAmount : Consumes (tolerantAmount cfg) :=
  consumes_exprValue.spanned.bind fun _ => (Consumes.just _).shrinks.bind fun _ =>
    consumes_decimal.spanned.shrinks.bind fun _ => consumes_currency.spanned.shrinks.bind fun _ => Shrinks.pure _

theorem located_tolerantAmount :
    Located cfg K (tolerantAmount cfg) (fun x => Locations.amount x.1 ++ [reads .number x.2]) := by
  refine (Located.spanned0 consumes_exprValue located_exprValue).bind fun n => ?_
  refine (Located.just _).bind fun _ => ?_
  refine (Located.reads reads_decimal located_decimal).bind fun d => ?_
  refine (Located.reads reads_currency located_currency).bind fun c => ?_
  exact .pure (by locs)

theorem consumes_amountWithTolerance : Consumes (amountWithTolerance cfg) := by
  refine Consumes.choice fun p hp => ?_
  simp only [List.mem_cons, List.not_mem_nil, or_false] at hp
  rcases hp with rfl | rfl
  · exact consumes_map (consumes_amount cfg).spanned _
  · exact consumes_map consumes_tolerantAmount.spanned _

theorem located_amountWithTolerance :
    Located cfg K (amountWithTolerance cfg) Locations.amountWithTolerance := by
  refine .choice_cons ?_ (.choice_cons ?_ .choice_nil)
  · refine (Located.spanned (consumes_amount cfg) located_amount).bind fun a => .pure ?_
    locs
  · refine (Located.spanned consumes_tolerantAmount located_tolerantAmount).bind fun a => .pure ?_
    intro x hx
    simp only [Locations.amountWithTolerance, readsOpt, Option.toList_some, List.map_cons, List.map_nil, List.mem_cons,
      List.mem_append, here, List.not_mem_nil, or_false] at hx ⊢
    tauto

theorem located_compoundAmount : Located cfg K compoundAmount (fun _ => []) := located_pur pur_compoundAmount

theorem located_priceAnnotation : Located cfg K priceAnnotation (fun _ => []) := located_pur pur_priceAnnotation

theorem located_costComp : Located cfg K (costComp cfg) (fun _ => []) := by
  refine .choice_cons ?_ (.choice_cons ?_ (.choice_cons ?_ (.choice_cons ?_ .choice_nil)))
  · exact located_compoundAmount.map (by simp)
  · exact located_date.map (by simp)
  · exact located_string.map (by simp)
  · exact (Located.just _).map (by simp)

/-- The locations of what a component of a cost specification says. -/
def compLocations (c : Spanned CostComp) : List Location :=
  here c :: match c.item with
    | .amount (.bareCurrency cur) => [⟨c.span, false, some (.currency cur)⟩]
    | .amount (.currencyAmount _ cur) => [⟨c.span, false, some (.currency cur)⟩]
    | .amount (.bareAmount _) => []
    | .date d => [⟨c.span, false, some (.date d)⟩]
    | .label s => [⟨c.span, false, some (.stringLiteral s)⟩]
    | .merge => []

theorem compoundExprP_suffix {i r : List Ranged} {a : CompoundExprValue} (h : CompoundExprP i r a) : r <:+ i := by
  have hw : ∀ {t : Token} {i r : List Ranged}, Word t i r → r <:+ i := by
    rintro t i r ⟨_, _, rfl⟩
    exact List.suffix_cons _ _
  have hv : ∀ {i r : List Ranged} {v : ExprValue}, ValueP i r v → r <:+ i := fun h =>
    (consumes_exprValue _ _ _ (exprValue_complete ⟨[], [], .default, []⟩ h)).1
  cases h with
  | both h1 h2 h3 => exact (hv h3).trans ((hw h2).trans (hv h1))
  | perUnitHash h1 h2 => exact (hw h2).trans (hv h1)
  | perUnit h1 => exact hv h1
  | total h1 h2 => exact (hv h2).trans (hw h1)

theorem located_spanned_costComp : Located cfg K (P.spanned cfg (costComp cfg)) compLocations := by
  refine (Located.spannedWith (g := compLocations) located_costComp ?_).weaken (by simp)
  intro s a s' run span h e x hx
  have hne : run ≠ [] := by
    rintro rfl
    have := (consumes_costComp cfg _ _ _ h).2
    rw [e] at this
    simp at this
  obtain ⟨_, _, es, _, _, hc⟩ := (snd_costComp cfg).ok _ _ _ h
  have last : ∀ {t : Token} {j : List Ranged}, j <:+ s.toks → Word t j s'.toks → t ∈ run.map (·.tok) :=
    fun hj hw => word_mem_last hj hw e
  simp only [compLocations, List.mem_cons] at hx
  rcases hx with rfl | hx
  · exact ⟨rfl, by simp [here], fun h => absurd h hne⟩
  · cases hc with
    | amount ha =>
      cases ha with
      | amountCurrency h1 h2 =>
        rw [List.mem_singleton.mp hx]
        refine ⟨rfl, ?_, fun h => absurd h hne⟩
        rintro _ ⟨⟩
        exact last (compoundExprP_suffix h1) h2.1
      | amount h1 => cases hx
      | currency h1 =>
        rw [List.mem_singleton.mp hx]
        refine ⟨rfl, ?_, fun h => absurd h hne⟩
        rintro _ ⟨⟩
        exact last (List.suffix_refl _) h1.1
      | hashCurrency h1 h2 =>
        rw [List.mem_singleton.mp hx]
        refine ⟨rfl, ?_, fun h => absurd h hne⟩
        rintro _ ⟨⟩
        obtain ⟨_, _, h1⟩ := h1
        exact last (by rw [h1]; exact List.suffix_cons _ _) h2.1
    | date h1 =>
      rw [List.mem_singleton.mp hx]
      refine ⟨rfl, ?_, fun h => absurd h hne⟩
      rintro _ ⟨⟩
      exact last (List.suffix_refl _) h1
    | label h1 =>
      rw [List.mem_singleton.mp hx]
      refine ⟨rfl, ?_, fun h => absurd h hne⟩
      rintro _ ⟨⟩
      exact last (List.suffix_refl _) h1
    | merge h1 => cases hx

end

theorem build_locations (comps : List (Spanned CostComp)) (b : CostSpecBuilder) :
    ∀ x ∈ Locations.costSpec (comps.foldl CostSpecBuilder.add b).spec,
      x ∈ Locations.costSpec b.spec ∨ x ∈ comps.flatMap compLocations := by
  induction comps generalizing b with
  | nil => exact fun x hx => .inl hx
  | cons c cs ih =>
    intro x hx
    rw [List.foldl_cons] at hx
    have step : ∀ y ∈ Locations.costSpec (b.add c).spec, y ∈ Locations.costSpec b.spec ∨ y ∈ compLocations c := by
      have hpu : ∀ (b : CostSpecBuilder) v, ∀ y ∈ Locations.costSpec (b.perUnit ⟨v, c.span⟩).spec,
          y ∈ Locations.costSpec b.spec ∨ y = here c := by
        intro b v y hy
        unfold CostSpecBuilder.perUnit at hy
        split at hy
        · simp only [Locations.costSpec, hereOpt, List.mem_append, Option.toList_some, List.map_cons, List.map_nil,
            List.mem_singleton, here] at hy ⊢
          tauto
        · exact .inl hy
      have htot : ∀ (b : CostSpecBuilder) v, ∀ y ∈ Locations.costSpec (b.total ⟨v, c.span⟩).spec,
          y ∈ Locations.costSpec b.spec ∨ y = here c := by
        intro b v y hy
        unfold CostSpecBuilder.total at hy
        split at hy
        · simp only [Locations.costSpec, hereOpt, List.mem_append, Option.toList_some, List.map_cons, List.map_nil,
            List.mem_singleton, here] at hy ⊢
          tauto
        · exact .inl hy
      have hcur : ∀ (b : CostSpecBuilder) v, ∀ y ∈ Locations.costSpec (b.currency v c.span).spec,
          y ∈ Locations.costSpec b.spec ∨ y = ⟨c.span, false, some (.currency v)⟩ := by
        intro b v y hy
        unfold CostSpecBuilder.currency at hy
        split at hy
        · simp only [Locations.costSpec, readsOpt, List.mem_append, Option.toList_some, List.map_cons, List.map_nil,
            List.mem_singleton, reads] at hy ⊢
          tauto
        · exact .inl hy
      have hexp : ∀ (b : CostSpecBuilder) v, ∀ y ∈ Locations.costSpec (b.compoundExpr v c.span).spec,
          y ∈ Locations.costSpec b.spec ∨ y = here c := by
        intro b v y hy
        cases v with
        | perUnit e => exact hpu _ _ y hy
        | total e => exact htot _ _ y hy
        | perUnitAndTotal p t =>
          rcases htot _ _ y hy with h | h
          · exact hpu _ _ y h
          · exact .inr h
      intro y hy
      unfold CostSpecBuilder.add at hy
      unfold compLocations
      rw [List.mem_cons]
      split at hy
      · rename_i hc
        rw [hc]
        rcases hcur _ _ y hy with h | h
        · exact .inl h
        · exact .inr (.inr (by simp [h]))
      · rcases hexp _ _ y hy with h | h
        · exact .inl h
        · exact .inr (.inl h)
      · rename_i hc
        rw [hc]
        rcases hcur _ _ y hy with h | h
        · rcases hexp _ _ y h with h | h
          · exact .inl h
          · exact .inr (.inl h)
        · exact .inr (.inr (by simp [h]))
      · rename_i hc
        rw [hc]
        unfold CostSpecBuilder.date at hy
        split at hy
        · simp only [Locations.costSpec, readsOpt, List.mem_append, Option.toList_some, List.map_cons, List.map_nil,
            List.mem_singleton, reads] at hy ⊢
          tauto
        · exact .inl hy
      · rename_i hc
        rw [hc]
        unfold CostSpecBuilder.label at hy
        split at hy
        · simp only [Locations.costSpec, readsOpt, List.mem_append, Option.toList_some, List.map_cons, List.map_nil,
            List.mem_singleton, reads] at hy ⊢
          tauto
        · exact .inl hy
      · unfold CostSpecBuilder.merge at hy
        split at hy <;> exact .inl hy
    rcases ih _ x hx with h | h
    · rcases step x h with h | h
      · exact .inl h
      · exact .inr (by rw [List.flatMap_cons]; exact List.mem_append_left _ h)
    · exact .inr (by rw [List.flatMap_cons]; exact List.mem_append_right _ h)

theorem costSpecOf_locations {comps : List (Spanned CostComp)} {c : CostSpec} (h : costSpecOf comps = .ok c) :
    ∀ x ∈ Locations.costSpec c, x ∈ comps.flatMap compLocations := by
  unfold costSpecOf CostSpecBuilder.build at h
  split at h
  · cases h
    intro x hx
    rcases build_locations comps _ x hx with h | h
    · simp [Locations.costSpec, CostSpecBuilder.default, hereOpt, readsOpt] at h
    · exact h
  · cases h

section
variable [DecOps]

theorem located_costSpec : Located cfg K (costSpec cfg) Locations.costSpec := by
  refine (Located.just _).bind fun _ => ?_
  refine (Located.orNot (f := fun l => l.flatMap compLocations) ?_).bind fun comps => ?_
  · refine located_spanned_costComp.bind fun head => ?_
    refine (Located.rep (f := compLocations) ((Located.just _).bind fun _ => located_spanned_costComp)).bind fun tail => ?_
    refine .pure ?_
    intro x hx
    simpa using hx
  · refine (Located.just _).bind fun _ => ?_
    split
    · rename_i c hc
      refine .pure fun x hx => ?_
      have := costSpecOf_locations hc x hx
      cases comps with
      | none => cases this
      | some l => exact List.mem_append_left _ (List.mem_append_right _ (by simpa using this))
    · exact .failure

theorem consumes_costSpec : Consumes (costSpec cfg) := by
  intro s a s' h
  obtain ⟨_, s1, h1, h2⟩ := bind_ok.mp h
  have k := (Consumes.just .lcurl) _ _ _ h1
  have : Located cfg [] (do
      let comps ← P.orNot (do
        let head ← P.spanned cfg (costComp cfg)
        let tail ← P.rep (do P.just .comma; P.spanned cfg (costComp cfg))
        pure (head :: tail))
      P.just .rcurl
      match costSpecOf (match comps with | some l => l | none => []) with
      | .ok c => pure c
      | .error _ => P.failure) (fun _ => []) := by
    refine (Located.orNot (f := fun l => l.map here) ?_).bind fun comps => ?_
    · refine (Located.spanned0 (consumes_costComp cfg) located_costComp).bind fun head => ?_
      refine (Located.rep (f := fun x => [here x]) ((Located.just _).bind fun _ =>
        Located.spanned0 (consumes_costComp cfg) located_costComp)).bind fun tail => ?_
      exact .pure (fun x hx => by simpa [eq_comm] using hx)
    · refine (Located.just _).bind fun _ => ?_
      split
      · exact .pure (by simp)
      · exact .failure
  have m := (this.ok _ _ _ h2).1
  exact ⟨m.trans k.1, by have := m.length_le; omega⟩

theorem consumes_priceAnnotation : Consumes priceAnnotation := by
  refine Consumes.bind ?_ fun _ => ?_
  · refine Consumes.choice fun p hp => ?_
    simp only [List.mem_cons, List.not_mem_nil, or_false] at hp
    rcases hp with rfl | rfl <;> exact (Consumes.just _).bind fun _ => Shrinks.pure _
  · refine Shrinks.bind consumes_exprValue.shrinks.orNot fun _ => ?_
    refine Shrinks.bind consumes_currency.shrinks.orNot fun _ => ?_
    simp only
    split <;> exact Shrinks.pure _

end

/-! ### Tags, links, metadata -/

theorem insert_locations {w : Str → Token} {s : List (Spanned Str)} {t : Spanned Str} {x : Location}
    (h : x ∈ (SSet.insert s t).map (reads w)) : x ∈ s.map (reads w) ∨ x = reads w t := by
  unfold SSet.insert at h
  split at h
  · exact .inl h
  · simpa [eq_comm] using h

/-- The locations in a set under construction and in the errors so far. -/
def accLocations (kind : DupKind) (acc : List (Spanned Str) × List PErr) : List Location :=
  acc.1.map (reads (kindWord kind)) ++ acc.2.flatMap Locations.parserError

theorem collectOne_locations (kind : DupKind) (acc : List (Spanned Str) × List PErr) (t : Spanned Str) :
    ∀ x ∈ accLocations kind (collectOne kind acc t), x ∈ accLocations kind acc ∨ x = reads (kindWord kind) t := by
  intro x hx
  unfold collectOne at hx
  split at hx
  · simp only [accLocations, List.flatMap_append, List.flatMap_cons, List.flatMap_nil, Locations.parserError,
      List.mem_append, List.mem_singleton, List.append_nil, reads] at hx ⊢
    tauto
  · simp only [accLocations, List.mem_append] at hx ⊢
    rcases hx with hx | hx
    · rcases insert_locations hx with h | h
      · exact .inl (.inl h)
      · exact .inr h
    · exact .inl (.inr hx)

theorem collect_locations (kind : DupKind) (ts : List (Spanned Str)) (acc : List (Spanned Str) × List PErr) :
    ∀ x ∈ accLocations kind (ts.foldl (collectOne kind) acc), x ∈ accLocations kind acc ∨ x ∈ ts.map (reads (kindWord kind)) := by
  induction ts generalizing acc with
  | nil => exact fun x hx => .inl hx
  | cons t ts ih =>
    intro x hx
    rcases ih _ x hx with h | h
    · rcases collectOne_locations kind acc t x h with h | h
      · exact .inl h
      · exact .inr (by simp [h])
    · exact .inr (List.mem_cons_of_mem _ h)

/-- The location of a tag or link. -/
def eitherLocations : Sum (Spanned Str) (Spanned Str) → List Location
  | .inl t => [reads (kindWord .tag) t]
  | .inr t => [reads (kindWord .link) t]

/-- The locations in tags, links and errors. -/
def tagsLinksLocations (r : (List (Spanned Str) × List (Spanned Str)) × List PErr) : List Location :=
  r.1.1.map (reads (kindWord .tag)) ++ r.1.2.map (reads (kindWord .link)) ++ r.2.flatMap Locations.parserError

theorem collectTagsLinks_locations (l : List (Sum (Spanned Str) (Spanned Str))) :
    ∀ x ∈ tagsLinksLocations (collectTagsLinks l), x ∈ l.flatMap eitherLocations := by
  have key : ∀ (l : List (Sum (Spanned Str) (Spanned Str))) (acc : (List (Spanned Str) × List (Spanned Str)) × List PErr),
      ∀ x ∈ tagsLinksLocations (l.foldl (fun acc item =>
        match item with
        | .inl t =>
          let r := collectOne .tag (acc.1.1, acc.2) t
          ((r.1, acc.1.2), r.2)
        | .inr t =>
          let r := collectOne .link (acc.1.2, acc.2) t
          ((acc.1.1, r.1), r.2)) acc), x ∈ tagsLinksLocations acc ∨ x ∈ l.flatMap eitherLocations := by
    intro l
    induction l with
    | nil => exact fun acc x hx => .inl hx
    | cons t ts ih =>
      intro acc x hx
      rw [List.foldl_cons] at hx
      rcases ih _ x hx with h | h
      · cases t with
        | inl t =>
          have := collectOne_locations .tag (acc.1.1, acc.2) t x
          simp only [tagsLinksLocations, accLocations, List.mem_append, List.flatMap_cons, eitherLocations,
            List.mem_singleton] at h this ⊢
          tauto
        | inr t =>
          have := collectOne_locations .link (acc.1.2, acc.2) t x
          simp only [tagsLinksLocations, accLocations, List.mem_append, List.flatMap_cons, eitherLocations,
            List.mem_singleton] at h this ⊢
          tauto
      · exact .inr (by rw [List.flatMap_cons]; exact List.mem_append_right _ h)
  intro x hx
  rcases key l (([], []), []) x hx with h | h
  · simp [tagsLinksLocations] at h
  · exact h

theorem mergeInto_locations (kind : DupKind) (own extra : List (Spanned Str)) :
    ∀ x ∈ accLocations kind (mergeInto kind own extra), x ∈ own.map (reads (kindWord kind)) ∨ x ∈ extra.map (reads (kindWord kind)) := by
  have key : ∀ (extra : List (Spanned Str)) (acc : List (Spanned Str) × List PErr),
      ∀ x ∈ accLocations kind (extra.foldl (fun acc t =>
        match SSet.get acc.1 t.item with
        | none => (SSet.insert acc.1 t, acc.2)
        | some existing => (acc.1, acc.2 ++ [.duplicate kind t.item existing.span])) acc),
      x ∈ accLocations kind acc ∨ x ∈ extra.map (reads (kindWord kind)) := by
    intro extra
    induction extra with
    | nil => exact fun acc x hx => .inl hx
    | cons t ts ih =>
      intro acc x hx
      rw [List.foldl_cons] at hx
      rcases ih _ x hx with h | h
      · split at h
        · simp only [accLocations, List.mem_append] at h ⊢
          rcases h with h | h
          · rcases insert_locations h with h | h
            · exact .inl (.inl h)
            · exact .inr (by simp [h])
          · exact .inl (.inr h)
        · rename_i e he
          have hm : e ∈ acc.1 ∧ e.item = t.item := by
            unfold SSet.get at he
            exact ⟨List.mem_of_find?_eq_some he, by simpa using List.find?_some he⟩
          simp only [accLocations, List.flatMap_append, List.flatMap_cons, List.flatMap_nil, Locations.parserError,
            List.mem_append, List.mem_singleton, List.append_nil] at h ⊢
          rcases h with h | h | h
          · exact .inl (.inl h)
          · exact .inl (.inr h)
          · exact .inl (.inl (List.mem_map.mpr ⟨e, hm.1, by rw [h, ← hm.2]; rfl⟩))
      · exact .inr (List.mem_cons_of_mem _ h)
  intro x hx
  rcases key extra (own, []) x hx with h | h
  · left; simpa [accLocations] using h
  · exact .inr h

theorem mergeHeader_locations (m : Spanned Metadata) (tl : List (Spanned Str) × List (Spanned Str)) :
    ∀ x ∈ Locations.spannedMetadata (mergeHeader m tl).1 ++ (mergeHeader m tl).2.flatMap Locations.parserError,
      x ∈ Locations.spannedMetadata m ∨ x ∈ tl.1.map (reads .tag) ++ tl.2.map (reads .link) := by
  intro x hx
  have h1 := mergeInto_locations .tag m.item.tags tl.1 x
  have h2 := mergeInto_locations .link m.item.links tl.2 x
  have e1 : reads (α := Str) (kindWord .tag) = reads .tag := rfl
  have e2 : reads (α := Str) (kindWord .link) = reads .link := rfl
  simp only [mergeHeader, Locations.spannedMetadata, Locations.metadata, accLocations, List.mem_append,
    List.mem_cons, List.flatMap_append, e1, e2] at hx h1 h2 ⊢
  tauto

section
variable [Unicode]

theorem located_tagsLinks : Located cfg K (tagsLinks cfg) (fun r => r.1.map (reads .tag) ++ r.2.map (reads .link)) := by
  refine (Located.rep (f := eitherLocations) (.choice_cons ?_ (.choice_cons ?_ .choice_nil))).bind fun l => ?_
  · exact (Located.reads reads_tag located_tag).map (fun _ x hx => List.mem_cons_of_mem _ hx)
  · exact (Located.reads reads_link located_link).map (fun _ x hx => List.mem_cons_of_mem _ hx)
  · have key := collectTagsLinks_locations l
    simp only
    refine Located.emit_bind ?_ fun _ => .pure ?_
    · intro e he x hx
      refine List.mem_append_right _ (key x ?_)
      exact List.mem_append_right _ (List.mem_flatMap.mpr ⟨e, he, hx⟩)
    · intro x hx
      exact List.mem_append_right _ (key x (List.mem_append_left _ hx))

variable [DecOps]

theorem located_simpleValue : Located cfg K (simpleValue cfg) (fun _ => []) := by
  refine .choice_cons ?_ (.choice_cons ?_ (.choice_cons ?_ (.choice_cons ?_ (.choice_cons ?_ (.choice_cons ?_
    (.choice_cons ?_ (.choice_cons ?_ (.choice_cons ?_ .choice_nil))))))))
  · exact located_string.map (by simp)
  · exact located_currency.map (by simp)
  · exact located_account.map (by simp)
  · exact located_tag.map (by simp)
  · exact located_link.map (by simp)
  · exact located_date.map (by simp)
  · exact located_bool.map (by simp)
  · exact (Located.just _).map (by simp)
  · exact located_exprValue.map (by simp)

theorem located_metaValue : Located cfg K (metaValue cfg) Locations.metaValue := by
  refine .choice_cons ?_ (.choice_cons ?_ .choice_nil)
  · exact located_amount.map (fun _ x hx => hx)
  · exact located_simpleValue.map (fun _ x hx => hx)

/-- The word for a value is one of its tokens. -/
theorem metaValue_word {s s' : PSt} {v : MetaValue} {run : List Ranged} (h : metaValue cfg s = .ok v s')
    (e : s.toks = run ++ s'.toks) : run ≠ [] ∧ ∀ t, valueWord v = some t → t ∈ run.map (·.tok) := by
  constructor
  · rintro rfl
    have := (consumes_metaValue cfg _ _ _ h).2
    rw [e] at this
    simp at this
  · intro t ht
    obtain ⟨_, _, es, _, _, hv⟩ := (snd_metaValue cfg).ok _ _ _ h
    cases hv with
    | simple hv =>
      cases hv with
      | string hw => cases ht; exact word_mem hw e
      | currency hw => cases ht; exact word_mem hw.1 e
      | account hw => cases ht; exact word_mem hw.1 e
      | tag hw => cases ht; exact word_mem hw.1 e
      | link hw => cases ht; exact word_mem hw.1 e
      | date hw => cases ht; exact word_mem hw e
      | bool hw =>
        rename_i b
        cases b with
        | true => cases ht; rcases hw with ⟨hb, hw⟩ | ⟨hb, hw⟩ <;> first | exact word_mem hw e | cases hb
        | false => cases ht; rcases hw with ⟨hb, hw⟩ | ⟨hb, hw⟩ <;> first | exact word_mem hw e | cases hb
      | null hw => cases ht
      | expr h _ => cases ht
    | amount ha =>
      cases ha with
      | mk hn hc =>
        cases ht
        refine word_mem_last ?_ hc.1.1 e
        exact (consumes_exprValue _ _ _ (exprValue_complete ⟨[], [], .default, []⟩ hn.1)).1

theorem located_spanned_metaValue : Located cfg K (P.spanned cfg (metaValue cfg))
    (fun v => ⟨v.span, false, valueWord v.item⟩ :: Locations.metaValue v.item) :=
  Located.spannedWith (g := fun v => [⟨v.span, false, valueWord v.item⟩]) located_metaValue
    fun s a s' run span h e x hx => by
      rw [List.mem_singleton.mp hx]
      obtain ⟨h1, h2⟩ := metaValue_word h e
      exact ⟨rfl, h2, fun h => absurd h h1⟩

theorem located_metaKeyValue :
    Located cfg K (metaKeyValue cfg) (fun kv => Locations.keyValue (kv.key, kv.value)) := by
  refine (Located.reads reads_key located_key).bind fun k => ?_
  refine (Located.just _).bind fun _ => ?_
  refine (Located.spannedWith (g := fun v => [match v.item with
    | some w => ⟨v.span, decide (w = .simple .null), valueWord w⟩
    | none => ⟨v.span, true, none⟩]) located_metaValue.orNot ?_).bind fun v => ?_
  · intro s o s' run span h e x hx
    rw [List.mem_singleton.mp hx]
    rcases orNot_ok.mp h with ⟨a, rfl, h1⟩ | ⟨rfl, s1, h1, rfl⟩
    · obtain ⟨h1, h2⟩ := metaValue_word h1 e
      exact ⟨rfl, h2, fun h => absurd h h1⟩
    · exact ⟨rfl, by simp, fun _ => rfl⟩
  refine .pure fun x hx => ?_
  obtain ⟨v, span⟩ := v
  cases v with
  | none =>
    simp only [Locations.keyValue, Locations.metaValue, valueWord, List.mem_cons, List.not_mem_nil, or_false,
      List.mem_append, Option.toList_none, List.flatMap_nil, decide_true] at hx ⊢
    tauto
  | some v =>
    simp only [Locations.keyValue, List.mem_cons, List.not_mem_nil, or_false,
      List.mem_append, Option.toList_some, List.flatMap_cons, List.flatMap_nil] at hx ⊢
    tauto

theorem consumes_metaKeyValue : Consumes (metaKeyValue cfg) :=
  consumes_key.spanned.bind fun _ => (Consumes.just _).shrinks.bind fun _ =>
    (consumes_metaValue cfg).shrinks.orNot.spanned.bind fun _ => Shrinks.pure _

/-- The locations in a line of metadata. -/
def metadatumLocations : Metadatum → List Location
  | .keyValue kv => here kv :: Locations.keyValue (kv.item.key, kv.item.value)
  | .tag t => [reads .tag t]
  | .link t => [reads .link t]

theorem located_metadatumLine : Located cfg K (metadatumLine cfg) metadatumLocations := by
  refine (Located.just _).bind fun _ => ?_
  refine (Located.choice_cons (f := metadatumLocations) ?_ (.choice_cons ?_ (.choice_cons ?_ .choice_nil))).bind fun m => ?_
  · exact (Located.spanned consumes_metaKeyValue located_metaKeyValue).map (fun _ x hx => hx)
  · exact (Located.reads reads_tag located_tag).map (fun _ x hx => List.mem_cons_of_mem _ hx)
  · exact (Located.reads reads_link located_link).map (fun _ x hx => List.mem_cons_of_mem _ hx)
  · refine located_eol.bind fun _ => .pure fun x hx => ?_
    simp [hx]

omit [Unicode] [DecOps] in
theorem smap_insert_locations {m : List (Spanned Str × Spanned MetaValue)} {k : Spanned Str} {v : Spanned MetaValue}
    {x : Location} (hn : SMap.has m k.item = false) (h : x ∈ (SMap.insert m k v).flatMap Locations.keyValue) :
    x ∈ m.flatMap Locations.keyValue ∨ x ∈ Locations.keyValue (k, v) := by
  unfold SMap.insert at h
  rw [hn] at h
  simpa [List.flatMap_append] using h

omit [Unicode] [DecOps] in
theorem collectMetadatum_locations (l : List Metadatum) (acc : Metadata × List PErr) :
    ∀ x ∈ Locations.metadata (l.foldl collectMetadatum acc).1 ++
        (l.foldl collectMetadatum acc).2.flatMap Locations.parserError,
      x ∈ Locations.metadata acc.1 ++ acc.2.flatMap Locations.parserError ∨ x ∈ l.flatMap metadatumLocations := by
  induction l generalizing acc with
  | nil => exact fun x hx => .inl hx
  | cons m ms ih =>
    intro x hx
    rw [List.foldl_cons] at hx
    rcases ih _ x hx with h | h
    · rw [List.flatMap_cons, List.mem_append]
      cases m with
      | keyValue kv =>
        unfold collectMetadatum at h
        simp only at h
        split at h
        · simp only [List.flatMap_append, List.flatMap_cons, List.flatMap_nil, Locations.parserError, List.mem_append,
            List.mem_cons, List.not_mem_nil, or_false, List.append_nil, metadatumLocations, Locations.keyValue, here] at h ⊢
          tauto
        · rename_i hn
          have hk := smap_insert_locations (x := x) (k := kv.item.key) (v := kv.item.value) (Bool.not_eq_true _ ▸ hn)
          simp only [Locations.metadata, List.mem_append, metadatumLocations, List.mem_cons] at h ⊢
          tauto
      | tag t =>
        unfold collectMetadatum at h
        have := collectOne_locations .tag (acc.1.tags, acc.2) t x
        have e1 : reads (α := Str) (kindWord .tag) = reads .tag := rfl
        simp only [e1, Locations.metadata, accLocations, List.mem_append, metadatumLocations, List.mem_singleton] at h this ⊢
        tauto
      | link t =>
        unfold collectMetadatum at h
        have := collectOne_locations .link (acc.1.links, acc.2) t x
        have e1 : reads (α := Str) (kindWord .link) = reads .link := rfl
        simp only [e1, Locations.metadata, accLocations, List.mem_append, metadatumLocations, List.mem_singleton] at h this ⊢
        tauto
    · exact .inr (by rw [List.flatMap_cons]; exact List.mem_append_right _ h)

theorem located_metadata : Located cfg K (metadata cfg) Locations.metadata := by
  refine located_metadatumLine.rep.bind fun l => ?_
  have key := collectMetadatum_locations l (⟨[], [], []⟩, [])
  simp only [Locations.metadata, List.flatMap_nil, List.map_nil, List.append_nil, List.not_mem_nil, false_or] at key
  simp only
  refine Located.emit_bind ?_ fun _ => .pure ?_
  · intro e he x hx
    exact List.mem_append_right _ (key x (List.mem_append_right _ (List.mem_flatMap.mpr ⟨e, he, hx⟩)))
  · intro x hx
    exact List.mem_append_right _ (key x (List.mem_append_left _ hx))

theorem located_spannedMetadata : Located cfg K (P.spanned cfg (metadata cfg)) Locations.spannedMetadata :=
  located_metadata.spannedAny

/-! ### Directives -/

/-- The locations in the first line of a posting. -/
def postingLineLocations (p : PostingLine) : List Location :=
  hereOpt p.flag ++ [reads accountWord p.account] ++ hereOpt p.amount ++ readsOpt .currency p.currency ++
    p.costSpec.toList.flatMap (fun c => here c :: Locations.costSpec c.item) ++ hereOpt p.priceAnnotation

theorem located_postingLine : Located cfg K (postingLine cfg) postingLineLocations := by
  refine (Located.opt consumes_flag located_flag).bind fun f => ?_
  refine (Located.reads reads_account located_account).bind fun a => ?_
  refine (Located.opt consumes_exprValue located_exprValue).bind fun n => ?_
  refine (Located.optReads reads_currency located_currency).bind fun c => ?_
  refine (Located.orNot (Located.spanned consumes_costSpec located_costSpec)).bind fun cs => ?_
  refine (Located.opt consumes_priceAnnotation located_priceAnnotation).bind fun p => ?_
  refine .pure fun x hx => ?_
  simp only [postingLineLocations, List.mem_append, List.mem_cons] at hx ⊢
  tauto

theorem consumes_postingLine : Consumes (postingLine cfg) :=
  Consumes.bind_right consumes_flag.spanned.shrinks.orNot fun _ => consumes_account.spanned.bind fun _ =>
    consumes_exprValue.spanned.shrinks.orNot.bind fun _ => consumes_currency.spanned.shrinks.orNot.bind fun _ =>
      consumes_costSpec.spanned.shrinks.orNot.bind fun _ =>
        consumes_priceAnnotation.spanned.shrinks.orNot.bind fun _ => Shrinks.pure _

theorem located_posting : Located cfg K (posting cfg) (fun p => here p :: Locations.posting p.item) := by
  refine (Located.just _).bind fun _ => ?_
  refine (Located.spanned consumes_postingLine located_postingLine).bind fun l => ?_
  refine located_eol.bind fun _ => ?_
  refine located_spannedMetadata.bind fun m => ?_
  refine .pure fun x hx => ?_
  simp only [Locations.posting, postingLineLocations, List.mem_append, List.mem_cons, here] at hx ⊢
  tauto

omit [Unicode] [DecOps] in
theorem payeeNarration_locations (a b : Option (Spanned Str)) :
    ∀ x ∈ readsOpt Token.stringLiteral (payeeNarration a b).1 ++
        readsOpt Token.stringLiteral (payeeNarration a b).2, x ∈ readsOpt Token.stringLiteral a ++ readsOpt Token.stringLiteral b := by
  have hr : ∀ o : Option (Spanned Str), ∀ x ∈ readsOpt Token.stringLiteral (replaceSomeEmptyWithNone o),
      x ∈ readsOpt Token.stringLiteral o := by
    intro o x hx
    unfold replaceSomeEmptyWithNone at hx
    split at hx
    · split at hx
      · cases hx
      · exact hx
    · exact hx
  intro x hx
  rw [List.mem_append] at hx ⊢
  unfold payeeNarration at hx
  cases a with
  | none => exact hx.imp (hr _ _) (hr _ _)
  | some a =>
    cases b with
    | none =>
      rcases hx with hx | hx
      · exact .inr (hr _ _ hx)
      · exact .inl (hr _ _ hx)
    | some b => exact hx.imp (hr _ _) (hr _ _)

/-- The locations in the first line of a transaction. -/
def headerLocations (h : Spanned Date × Spanned Flag ×
    (Option (Spanned Str) × Option (Spanned Str)) × (List (Spanned Str) × List (Spanned Str))) : List Location :=
  [reads .date h.1, here h.2.1] ++ (readsOpt .stringLiteral h.2.2.1.1 ++ readsOpt .stringLiteral h.2.2.1.2) ++
    (h.2.2.2.1.map (reads .tag) ++ h.2.2.2.2.map (reads .link))

theorem consumes_txn : Consumes txn := by
  refine Consumes.choice fun p hp => ?_
  simp only [List.mem_cons, List.not_mem_nil, or_false] at hp
  rcases hp with rfl | rfl
  · exact (Consumes.just _).bind fun _ => Shrinks.pure _
  · exact consumes_flag

theorem located_transactionHeaderLine : Located cfg K (transactionHeaderLine cfg) headerLocations := by
  refine (Located.reads reads_date located_date).bind fun d => ?_
  refine (Located.spanned0 consumes_txn located_txn).bind fun f => ?_
  refine (Located.optReads reads_string located_string).bind fun s1 => ?_
  refine (Located.optReads reads_string located_string).bind fun s2 => ?_
  refine located_tagsLinks.bind fun tl => ?_
  refine located_eol.bind fun _ => ?_
  refine .pure fun x hx => ?_
  have := payeeNarration_locations s1 s2 x
  simp only [headerLocations, List.mem_append, List.mem_cons, List.not_mem_nil, or_false] at hx this ⊢
  tauto

theorem located_transaction : Located cfg K (transaction cfg) Locations.directive := by
  refine located_transactionHeaderLine.bind fun h => ?_
  obtain ⟨date, flag, ⟨payee, narration⟩, tl⟩ := h
  refine located_spannedMetadata.bind fun m => ?_
  refine located_posting.rep.bind fun ps => ?_
  have key := mergeHeader_locations m tl
  simp only
  refine Located.emit_bind ?_ fun _ => .pure ?_
  · intro e he x hx
    have := key x (List.mem_append_right _ (List.mem_flatMap.mpr ⟨e, he, hx⟩))
    simp only [headerLocations, List.mem_append, List.mem_cons] at this ⊢
    tauto
  · intro x hx
    have := fun h => key x (List.mem_append_left _ h)
    simp only [headerLocations, Locations.directive, Locations.variant, Locations.transaction, List.mem_append,
      List.mem_cons, List.not_mem_nil, or_false] at hx this ⊢
    tauto

theorem located_simpleDirective {keyword : Token} {body : P DirectiveVariant} (hb : Located cfg [] body Locations.variant) :
    Located cfg K (simpleDirective cfg keyword body) Locations.directive := by
  refine (Located.reads reads_date located_date).bind fun d => ?_
  refine (Located.just _).bind fun _ => ?_
  refine hb.bind fun v => ?_
  refine located_tagsLinks.bind fun tl => ?_
  refine located_eol.bind fun _ => ?_
  refine located_spannedMetadata.bind fun m => ?_
  have key := mergeHeader_locations m tl
  simp only
  refine Located.emit_bind ?_ fun _ => .pure ?_
  · intro e he x hx
    have := key x (List.mem_append_right _ (List.mem_flatMap.mpr ⟨e, he, hx⟩))
    simp only [List.mem_append] at this ⊢
    tauto
  · intro x hx
    have := fun h => key x (List.mem_append_left _ h)
    simp only [Locations.directive, List.mem_append, List.mem_cons, List.not_mem_nil, or_false] at hx this ⊢
    tauto

theorem located_currencyList : Located cfg K (currencyList cfg) (fun l => l.map (reads .currency)) := by
  refine (Located.orNot (f := fun l => l.map (reads .currency)) ?_).bind fun l => ?_
  · refine (Located.reads reads_currency located_currency).bind fun first => ?_
    refine (Located.rep (f := fun x => [here x, reads .currency x]) ((Located.just _).bind fun _ =>
      Located.reads reads_currency located_currency)).bind fun others => ?_
    have key := collect_locations .currency (others ++ [first]) ([], [])
    simp only
    have key' : ∀ x ∈ accLocations .currency (collectCurrencies first others),
        x ∈ [] ++ [here first, reads .currency first] ++ others.flatMap (fun x => [here x, reads .currency x]) := by
      intro x hx
      rcases key x hx with h | h
      · simp [accLocations] at h
      · simp only [List.map_append, List.mem_append, List.map_cons, List.map_nil, List.mem_singleton] at h
        simp only [List.nil_append, List.mem_append]
        rcases h with h | h
        · obtain ⟨c, hc, rfl⟩ := List.mem_map.mp h
          exact .inr (List.mem_flatMap.mpr ⟨c, hc, by simp [kindWord, reads]⟩)
        · exact .inl (by rw [h]; simp [kindWord, reads])
    refine Located.emit_bind ?_ fun _ => .pure ?_
    · intro e he x hx
      exact key' x (List.mem_append_right _ (List.mem_flatMap.mpr ⟨e, he, hx⟩))
    · intro x hx
      exact key' x (List.mem_append_left _ hx)
  · split
    · exact .pure fun x hx => List.mem_append_right _ (by simpa using hx)
    · exact .pure (by simp)

theorem located_directive : Located cfg K (directive cfg) Locations.directive := by
  refine .choice_cons located_transaction (.choice_cons ?_ (.choice_cons ?_ (.choice_cons ?_ (.choice_cons ?_ (.choice_cons ?_
    (.choice_cons ?_ (.choice_cons ?_ (.choice_cons ?_ (.choice_cons ?_ (.choice_cons ?_ (.choice_cons ?_ .choice_nil)))))))))))
  · refine located_simpleDirective ?_
    refine (Located.reads reads_currency located_currency).bind fun c => ?_
    refine (Located.spanned (consumes_amount cfg) located_amount).bind fun a => .pure ?_
    locs
  · refine located_simpleDirective ?_
    refine (Located.reads reads_account located_account).bind fun c => ?_
    refine (Located.spanned consumes_amountWithTolerance located_amountWithTolerance).bind fun a => .pure ?_
    locs
  · refine located_simpleDirective ?_
    refine (Located.reads reads_account located_account).bind fun c => ?_
    refine located_currencyList.bind fun cs => ?_
    refine (Located.opt (consumes_booking cfg) located_booking).bind fun a => .pure ?_
    locs
  · refine located_simpleDirective ?_
    refine (Located.reads reads_account located_account).bind fun c => .pure ?_
    locs
  · refine located_simpleDirective ?_
    refine (Located.reads reads_currency located_currency).bind fun c => .pure ?_
    locs
  · refine located_simpleDirective ?_
    refine (Located.reads reads_account located_account).bind fun c => ?_
    refine (Located.reads reads_account located_account).bind fun c => .pure ?_
    locs
  · refine located_simpleDirective ?_
    refine (Located.reads reads_account located_account).bind fun c => ?_
    refine (Located.reads reads_string located_string).bind fun c => .pure ?_
    locs
  · refine located_simpleDirective ?_
    refine (Located.reads reads_account located_account).bind fun c => ?_
    refine (Located.reads reads_string located_string).bind fun c => .pure ?_
    locs
  · refine located_simpleDirective ?_
    refine (Located.reads reads_string located_string).bind fun c => ?_
    refine (Located.reads reads_string located_string).bind fun c => .pure ?_
    locs
  · refine located_simpleDirective ?_
    refine (Located.reads reads_string located_string).bind fun c => ?_
    refine (Located.reads reads_string located_string).bind fun c => .pure ?_
    locs
  · refine (Located.reads reads_date located_date).bind fun d => ?_
    refine (Located.just _).bind fun _ => ?_
    refine (Located.reads reads_string located_string).bind fun t => ?_
    refine (Located.rep located_spanned_metaValue).bind fun vs => ?_
    refine located_eol.bind fun _ => ?_
    refine located_spannedMetadata.bind fun m => .pure ?_
    locs

/-! ### Pragmas -/

theorem located_assimilateOption {name value : Spanned Str} (hn : here name ∈ K) (hv : here value ∈ K) :
    Located cfg K (assimilateOption cfg name value) Locations.option := by
  constructor
  · intro s a s' h
    unfold assimilateOption at h
    split at h
    · cases h
    · cases h
      refine ⟨List.suffix_refl _, by simp [BOption.ignored, Locations.option], ⟨_, rfl, ?_⟩, .same rfl rfl⟩
      intro e he x hx
      rw [List.mem_singleton.mp he] at hx
      rw [List.mem_singleton.mp hx]
      exact .inl hn
    · cases h
      refine ⟨List.suffix_refl _, by simp [BOption.ignored, Locations.option], ⟨_, rfl, ?_⟩, .same rfl rfl⟩
      intro e he x hx
      rw [List.mem_singleton.mp he] at hx
      rw [List.mem_singleton.mp hx]
      exact .inl hv
    · rename_i opt ho
      have hsrc : opt.source = ⟨name.span, value.span⟩ := by
        unfold BOption.parse Res.map at ho
        split at ho <;> cases ho
        rfl
      have hK : ∀ x ∈ Locations.source opt.source, x ∈ K := by
        intro x hx
        rw [hsrc] at hx
        simp only [Locations.source, List.mem_cons, List.not_mem_nil, or_false] at hx
        rcases hx with rfl | rfl
        · exact hn
        · exact hv
      have hopts : ∀ x ∈ Locations.parserOptions (s.opts.assimilate opt).2, StateKnown cfg K s x := by
        intro x hx
        unfold ParserOptions.assimilate at hx
        split at hx
        · exact .inl hx
        · simp only [Locations.parserOptions, Locations.sourced, Option.toList_some, List.flatMap_cons, List.flatMap_nil,
            List.append_nil, List.mem_cons, sourced] at hx
          rcases hx with rfl | hx
          · exact .inr (.inl (hK _ (by simp [Locations.source, here])))
          · exact .inr (.inl (hK _ hx))
        · exact .inl hx
      split at h
      · rename_i opt' o' ha
        have hs' : opt'.source = opt.source := by
          unfold ParserOptions.assimilate at ha
          split at ha
          · simp only [Prod.mk.injEq] at ha
            have := ha.1
            unfold Res.map at this
            split at this <;> cases this
            rfl
          · simp only [Prod.mk.injEq, Res.ok.injEq] at ha
            rw [← ha.1]
          · simp only [Prod.mk.injEq, Res.ok.injEq] at ha
            rw [← ha.1]
        cases h
        have e2 : (s.opts.assimilate opt).2 = o' := by rw [ha]
        refine ⟨List.suffix_refl _, ?_, ⟨[], by simp, by simp⟩, e2 ▸ hopts, [], by simp, by simp⟩
        intro x hx
        unfold Locations.option at hx
        split at hx
        · cases hx
        · rw [hs'] at hx
          exact .inl (hK x hx)
      · rename_i t o' ha
        cases h
        have e2 : (s.opts.assimilate opt).2 = o' := by rw [ha]
        refine ⟨List.suffix_refl _, by simp [BOption.ignored, Locations.option], ⟨_, rfl, ?_⟩, e2 ▸ hopts, [], by simp, by simp⟩
        intro e he x hx
        rw [List.mem_singleton.mp he] at hx
        rw [List.mem_singleton.mp hx]
        exact .inl hv
      · cases h
  · intro s s' h
    unfold assimilateOption at h
    split at h
    · cases h
    · cases h
    · cases h
    · split at h <;> cases h

theorem located_option : Located cfg K (option cfg) Locations.option := by
  refine (Located.just _).bind fun _ => ?_
  refine (Located.reads reads_string located_string).bind fun n => ?_
  refine (Located.reads reads_string located_string).bind fun v => ?_
  exact located_assimilateOption (by simp) (by simp)

theorem located_pragma : Located cfg K (pragma cfg) Locations.pragma := by
  refine (Located.choice_cons (f := Locations.pragma) ?_ (.choice_cons ?_ (.choice_cons ?_ (.choice_cons ?_ (.choice_cons ?_
    (.choice_cons ?_ (.choice_cons ?_ .choice_nil))))))).bind fun p => ?_
  · exact (Located.reads (Reads.after (Consumes.just _).shrinks consumes_tag.shrinks reads_tag)
      ((Located.just _).bind fun _ => located_tag)).map (fun _ x hx => List.mem_cons_of_mem _ hx)
  · exact (Located.reads (Reads.after (Consumes.just _).shrinks consumes_tag.shrinks reads_tag)
      ((Located.just _).bind fun _ => located_tag)).map (fun _ x hx => List.mem_cons_of_mem _ hx)
  · exact (Located.just _).bind fun _ => located_metaKeyValue.bind fun kv => .pure (by locs)
  · refine (Located.reads (word := .key) ?_ ?_).map (fun _ x hx => List.mem_cons_of_mem _ hx)
    · refine Reads.after (Consumes.just _).shrinks ?_ (reads_key.before (fun _ => (Consumes.just _).shrinks) consumes_key.shrinks)
      exact consumes_key.shrinks.bind fun _ => (Consumes.just _).shrinks.bind fun _ => Shrinks.pure _
    · exact (Located.just _).bind fun _ => located_key.bind fun _ => (Located.just _).bind fun _ => .pure (by simp)
  · exact (Located.just _).bind fun _ => (Located.reads reads_string located_string).bind fun s =>
      .pure (by locs)
  · exact located_option.map (fun _ x hx => hx)
  · refine (Located.just _).bind fun _ => ?_
    refine (Located.reads reads_string located_string).bind fun n => ?_
    refine (Located.optReads reads_string located_string).bind fun v => .pure ?_
    locs
  · refine located_eol.bind fun _ => .pure fun x hx => ?_
    simp [hx]

/-! ### Files -/

theorem consumes_declarationItem : Consumes (P.choice [
    (do let d ← directive cfg; pure (.directive d)),
    (do let p ← pragma cfg; pure (.pragma p))] : P Declaration) := by
  refine Consumes.choice fun p hp => ?_
  simp only [List.mem_cons, List.not_mem_nil, or_false] at hp
  rcases hp with rfl | rfl
  · exact consumes_map (consumes_directive cfg) _
  · exact consumes_map (consumes_pragma cfg) _

theorem located_declaration : Located cfg K (declaration cfg) (fun d => here d :: Locations.declaration d.item) := by
  refine Located.spanned consumes_declarationItem (.choice_cons ?_ (.choice_cons ?_ .choice_nil))
  · exact located_directive.map (fun _ x hx => hx)
  · exact located_pragma.map (fun _ x hx => hx)

theorem declaration_declaredIn {s s' : PSt} {d : Spanned Declaration} (h : declaration cfg s = .ok d s') :
    DeclaredIn cfg s.toks d := by
  have h0 := h
  unfold declaration at h0
  obtain ⟨h1, h2⟩ := spanned_ok.mp h0
  have hl : Located cfg [] (P.choice [
      (do let d ← directive cfg; pure (.directive d)),
      (do let p ← pragma cfg; pure (.pragma p))] : P Declaration) Locations.declaration := by
    refine .choice_cons ?_ (.choice_cons ?_ .choice_nil)
    · exact located_directive.map (fun _ x hx => hx)
    · exact located_pragma.map (fun _ x hx => hx)
  obtain ⟨k1, k2, -, -⟩ := hl.ok _ _ _ h1
  have hcov := covers_spanOf cfg k1
  rw [← h2] at hcov
  rcases hcov with ⟨first, run, last, e, e1, e2, e3⟩ | ⟨e, e1⟩
  · refine ⟨[], run, s'.toks, by simpa using e, ⟨first, last, e1, e2, e3⟩, ?_⟩
    intro x hx
    rcases k2 x hx with h | h
    · cases h
    · rwa [e] at h
  · have := (consumes_declarationItem _ _ _ h1).2
    rw [e] at this
    omega

omit [Unicode] [DecOps] in
theorem DeclaredIn_mono {i j : List Ranged} {d : Spanned Declaration} (h : DeclaredIn cfg i d) (hs : i <:+ j) :
    DeclaredIn cfg j d := by
  obtain ⟨b, run, a, rfl, h1, h2⟩ := h
  obtain ⟨c, rfl⟩ := hs
  exact ⟨c ++ b, run, a, by simp, h1, h2⟩

/-- What parsing a declaration, or several, comes to. -/
structure Declares (cfg : ParseCfg) (s : PSt) (ds : List (Spanned Declaration)) (s' : PSt) : Prop where
  suffix : s'.toks <:+ s.toks
  decls : ∀ d ∈ ds, DeclaredIn cfg s.toks d
  errs : ∃ es, s'.errs = s.errs ++ es ∧ ∀ e ∈ es, ∀ x ∈ Locations.parserError e, LocatedIn cfg s.toks [] x
  grow : Grow cfg [] s s'

theorem declares_declaration {s s' : PSt} {d : Spanned Declaration} (h : declaration cfg s = .ok d s') :
    Declares cfg s [d] s' := by
  obtain ⟨k1, k2, ⟨es, k3, k4⟩, k5⟩ := located_declaration.ok _ _ _ h
  refine ⟨k1, ?_, ⟨es, k3, ?_⟩, k5⟩
  · intro x hx
    rw [List.mem_singleton.mp hx]
    exact declaration_declaredIn h
  · intro e he x hx
    rcases (k4 e he x hx).mono (List.suffix_refl _) List.nil_suffix with h | h
    · cases h
    · exact h

omit [Unicode] [DecOps] in
theorem Declares.trans {s s1 s2 : PSt} {ds ds' : List (Spanned Declaration)} (h1 : Declares cfg s ds s1)
    (h2 : Declares cfg s1 ds' s2) : Declares cfg s (ds ++ ds') s2 := by
  obtain ⟨es, e1, w1⟩ := h1.errs
  obtain ⟨es', e2, w2⟩ := h2.errs
  refine ⟨h2.suffix.trans h1.suffix, ?_, ⟨es ++ es', by rw [e2, e1, List.append_assoc], ?_⟩,
    h1.grow.trans h2.grow h1.suffix (by simp)⟩
  · intro d hd
    rcases List.mem_append.mp hd with hd | hd
    · exact h1.decls d hd
    · exact DeclaredIn_mono (h2.decls d hd) h1.suffix
  · intro e he x hx
    rcases List.mem_append.mp he with he | he
    · exact w1 e he x hx
    · exact LocatedIn_mono (w2 e he x hx) h1.suffix (List.suffix_refl _)

theorem declares_skipThenRetry : ∀ (toks : List Ranged) {s s' : PSt}, s.toks = toks →
    (∀ d, skipThenRetry (declaration cfg) toks s = .ok d s' → Declares cfg s [d] s') ∧
    (skipThenRetry (declaration cfg) toks s = .fail s' → Grow cfg [] s s') := by
  intro toks
  suffices hmain : ∀ {s s' : PSt}, toks <:+ s.toks →
      (∀ d, skipThenRetry (declaration cfg) toks s = .ok d s' → Declares cfg s [d] s') ∧
      (skipThenRetry (declaration cfg) toks s = .fail s' → Grow cfg [] s s') by
    intro s s' h
    exact hmain (h ▸ List.suffix_refl _)
  induction toks with
  | nil =>
    intro s s' _
    exact ⟨fun d h => (by cases h), fun h => (by cases h; exact .same rfl rfl)⟩
  | cons t ts ih =>
    intro s s' hs
    have hts : ts <:+ s.toks := (List.suffix_cons t ts).trans hs
    have next : ∀ s1 : PSt, Grow cfg [] s s1 →
        (∀ d, skipThenRetry (declaration cfg) ts (s.rewind s1) = .ok d s' → Declares cfg s [d] s') ∧
        (skipThenRetry (declaration cfg) ts (s.rewind s1) = .fail s' → Grow cfg [] s s') := by
      intro s1 hg
      have hg' := grow_rewind hg
      obtain ⟨k1, k2⟩ := ih (s := s.rewind s1) (s' := s') hts
      refine ⟨fun d h => ?_, fun h => hg'.trans (k2 h) (List.suffix_refl _) (by simp)⟩
      have := k1 d h
      exact ⟨this.suffix, this.decls, this.errs, hg'.trans this.grow (List.suffix_refl _) (by simp)⟩
    have start : Grow cfg [] s { s with toks := ts } := .same rfl rfl
    have hsub : ∀ {s1 : PSt}, Grow cfg [] { s with toks := ts } s1 → Grow cfg [] s s1 := fun h =>
      start.trans h hts (by simp)
    simp only [skipThenRetry]
    cases h1 : declaration cfg { s with toks := ts } with
    | ok a s1 =>
      have hd := declares_declaration h1
      simp only
      split
      · refine ⟨fun d h => ?_, fun h => (by cases h)⟩
        cases h
        obtain ⟨es, e1, w1⟩ := hd.errs
        refine ⟨hd.suffix.trans hts, fun d hm => DeclaredIn_mono (hd.decls d hm) hts, ⟨es ++ [.syntax], ?_, ?_⟩, ?_⟩
        · simp only at e1 ⊢
          rw [e1, List.append_assoc]
        · intro e he x hx
          rcases List.mem_append.mp he with he | he
          · exact LocatedIn_mono (w1 e he x hx) hts (List.suffix_refl _)
          · rw [List.mem_singleton.mp he] at hx
            cases hx
        · have := hsub hd.grow
          exact ⟨this.opts, this.warns⟩
      · exact next _ (hsub hd.grow)
    | fail s1 => exact next _ (hsub (located_declaration.fail _ _ h1))
    | panic => exact ⟨fun d h => (by cases h), fun h => (by cases h)⟩

theorem declares_recover {s s' : PSt} :
    (∀ d, recover (declaration cfg) s = .ok d s' → Declares cfg s [d] s') ∧
    (recover (declaration cfg) s = .fail s' → Grow cfg [] s s') := by
  unfold recover
  cases h1 : declaration cfg s with
  | ok a s1 => exact ⟨fun d h => (by cases h; exact declares_declaration h1), fun h => (by cases h)⟩
  | fail s1 =>
    have hg := grow_rewind (located_declaration.fail (cfg := cfg) (K := []) _ _ h1)
    obtain ⟨k1, k2⟩ := declares_skipThenRetry (cfg := cfg) s.toks (s := s.rewind s1) (s' := s') rfl
    refine ⟨fun d h => ?_, fun h => hg.trans (k2 h) (List.suffix_refl _) (by simp)⟩
    have := k1 d h
    exact ⟨this.suffix, this.decls, this.errs, hg.trans this.grow (List.suffix_refl _) (by simp)⟩
  | panic => exact ⟨fun d h => (by cases h), fun h => (by cases h)⟩

theorem declares_file {s s' : PSt} {ds : List (Spanned Declaration)} (h : file cfg s = .ok ds s') :
    Declares cfg s ds s' := by
  have := rep_reps h
  clear h
  induction this with
  | nil h =>
    exact ⟨List.suffix_refl _, by simp, ⟨[], by simp [PSt.rewind], by simp⟩, grow_rewind (declares_recover.2 h)⟩
  | cons h _ ih => exact (declares_recover.1 _ h).trans ih

/-- What parsing a file comes to. -/
theorem parseFile_located {toks : List Ranged} {o : ParserOptions} {warns : List Report} {res : FileResult}
    (h : parseFile cfg toks o warns = some res) :
    (∀ ds, res.declarations = some ds → ∀ d ∈ ds, DeclaredIn cfg toks d) ∧
    (∀ e ∈ res.errors, ∀ x ∈ Locations.parserError e, LocatedIn cfg toks [] x) ∧
    (∀ x ∈ Locations.parserOptions res.opts, x ∈ Locations.parserOptions o ∨ LocatedIn cfg toks [] x) ∧
    ∃ ws, res.warns = warns ++ ws ∧
      ∀ w ∈ ws, ∀ x ∈ Locations.report w, x ∈ Locations.parserOptions o ∨ LocatedIn cfg toks [] x := by
  have state : ∀ {x}, StateKnown cfg [] ⟨toks, [], o, warns⟩ x → x ∈ Locations.parserOptions o ∨ LocatedIn cfg toks [] x := by
    rintro x (h | h | h)
    · exact .inl h
    · cases h
    · exact .inr h
  unfold parseFile at h
  split at h
  · cases h
  · rename_i s hf
    exact absurd hf rep_fail
  · rename_i ds s hf
    have hd := declares_file hf
    obtain ⟨es, e1, w1⟩ := hd.errs
    obtain ⟨ws, e2, w2⟩ := hd.grow.warns
    simp only [List.nil_append] at e1
    split at h
    · cases h
      exact ⟨fun ds' he d hm => (by cases he; exact hd.decls d hm), fun e he => w1 e (e1 ▸ he),
        fun x hx => state (hd.grow.opts x hx), ws, e2, fun w hw x hx => state (w2 w hw x hx)⟩
    · cases h
      refine ⟨fun ds' he => (by cases he), ?_,
        fun x hx => state (hd.grow.opts x hx), ws, e2, fun w hw x hx => state (w2 w hw x hx)⟩
      intro e he x hx
      rcases List.mem_append.mp he with he | he
      · exact w1 e (e1 ▸ he) x hx
      · rw [List.mem_singleton.mp he] at hx
        cases hx

end

end Lima.Grammar
