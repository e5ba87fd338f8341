import Verif.Spec.Options
import Verif.Props.Names
import Verif.Lemmas.Callbacks
import Verif.Lemmas.Sources

/-!
# C37-C39 option histories, C46 option decoding
-/

namespace Lima.Props
open Lima Lima.Spec

/-! ## Histories -/

/-- Induction from the front, adding an element at the end. -/
theorem snocInduction {α : Type} {P : List α → Prop} (nil : P [])
    (append_singleton : ∀ l a, P l → P (l ++ [a])) (l : List α) : P l := by
  have h : ∀ n, ∀ l : List α, l.length = n → P l := by
    intro n
    induction n with
    | zero => intro l hl; rw [List.length_eq_zero_iff] at hl; subst hl; exact nil
    | succ n ih =>
      intro l hl
      have hne : l ≠ [] := by intro e; subst e; simp at hl
      rw [← List.dropLast_concat_getLast hne]
      exact append_singleton _ _ (ih _ (by simp [hl]))
  exact h _ l rfl

/-- The source of the value kept for a setting. -/
def keptSource (o : Options) : Setting → Option OptSource
  | .title => o.title.map (·.source)
  | .previousBalances => o.accountPreviousBalances.map (·.source)
  | .previousEarnings => o.accountPreviousEarnings.map (·.source)
  | .previousConversions => o.accountPreviousConversions.map (·.source)
  | .currentEarnings => o.accountCurrentEarnings.map (·.source)
  | .currentConversions => o.accountCurrentConversions.map (·.source)
  | .unrealizedGains => o.accountUnrealizedGains.map (·.source)
  | .rounding => o.accountRounding.map (·.source)
  | .conversionCurrency => o.conversionCurrency.map (·.source)
  | .toleranceMultiplier => o.inferredToleranceMultiplier.map (·.source)
  | .toleranceFromCost => o.inferToleranceFromCost.map (·.source)
  | .renderCommas => o.renderCommas.map (·.source)
  | .bookingMethod => o.bookingMethod.map (·.source)
  | .pluginProcessingMode => o.pluginProcessingMode.map (·.source)
  | .tolerance c => (AMap.get o.inferredToleranceDefault c).map (·.2)
  | .document p => AMap.get o.documents p
  | .operatingCurrency c => AMap.get o.operatingCurrency c

theorem updateOptional_source {α : Type} (f : Option (Sourced α)) (v : α) (src : OptSource) :
    (updateOptional f v src).1.map (·.source) = (f.map (·.source)).or (some src) ∧
    (updateOptional f v src).2 = (f.map (·.source)).map (fun s => .duplicateOption s.name) := by
  cases f <;> simp [updateOptional, sourced]

theorem updateHashmap_source {κ ν : Type} [DecidableEq κ] (f : List (κ × (ν × OptSource))) (k : κ) (v : ν)
    (src : OptSource) :
    (∀ k', (AMap.get (updateHashmap f k v src).1 k').map (·.2) =
      ((AMap.get f k').map (·.2)).or (if k = k' then some src else none)) ∧
    (updateHashmap f k v src).2 = ((AMap.get f k).map (·.2)).map (fun s => .duplicateValue s.value) := by
  unfold updateHashmap
  cases h : AMap.get f k with
  | none =>
    refine ⟨fun k' => ?_, rfl⟩
    rw [AMap.get_insert]
    by_cases hk : k = k'
    · subst hk; simp [h]
    · simp [hk]
  | some e =>
    refine ⟨fun k' => ?_, rfl⟩
    by_cases hk : k = k'
    · subst hk; simp [h]
    · simp [hk]

theorem updateUnitHashmap_source {κ : Type} [DecidableEq κ] (f : List (κ × OptSource)) (k : κ)
    (src : OptSource) :
    (∀ k', AMap.get (updateUnitHashmap f k src).1 k' =
      (AMap.get f k').or (if k = k' then some src else none)) ∧
    (updateUnitHashmap f k src).2 = (AMap.get f k).map (fun s => .duplicateValue s.value) := by
  unfold updateUnitHashmap
  cases h : AMap.get f k with
  | none =>
    refine ⟨fun k' => ?_, rfl⟩
    rw [AMap.get_insert]
    by_cases hk : k = k'
    · subst hk; simp [h]
    · simp [hk]
  | some e =>
    refine ⟨fun k' => ?_, rfl⟩
    by_cases hk : k = k'
    · subst hk; simp [h]
    · simp [hk]

/-- One option: what is kept afterwards. -/
theorem keptSource_assimilate (o : Options) (opt : BOption) (s : Setting) :
    keptSource (o.assimilate opt).1 s =
      (keptSource o s).or (if settingOf opt.variant = some s then some opt.source else none) := by
  obtain ⟨src, v⟩ := opt
  cases v
  all_goals simp only [Options.assimilate, Options.update, settingOf]
  case inferredToleranceDefault c d =>
    cases s
    case tolerance c' =>
      simp only [keptSource, (updateHashmap_source _ _ _ _).1, Option.some.injEq, Setting.tolerance.injEq]
    all_goals simp [keptSource]
  case documents p =>
    cases s
    case document p' =>
      simp only [keptSource, (updateUnitHashmap_source _ _ _).1, Option.some.injEq, Setting.document.injEq]
    all_goals simp [keptSource]
  case operatingCurrency p =>
    cases s
    case operatingCurrency p' =>
      simp only [keptSource, (updateUnitHashmap_source _ _ _).1, Option.some.injEq,
        Setting.operatingCurrency.injEq]
    all_goals simp [keptSource]
  all_goals
    cases s <;>
      simp [keptSource, (updateOptional_source _ _ _).1]

/-- One option: what is reported. -/
theorem report_assimilate (o : Options) (opt : BOption) :
    (o.assimilate opt).2 = (settingOf opt.variant).bind (fun s => (keptSource o s).map (fun first =>
      open Classical in
      if s.Multi then
        (Report.new (str "invalid option") (str "duplicate value") opt.source.value).relatedToNamedSpan
          (str "option value") first.value
      else
        (Report.new (str "invalid option") (str "duplicate") opt.source.name).relatedToNamedSpan
          (str "option") first.name)) := by
  obtain ⟨src, v⟩ := opt
  cases v
  all_goals simp only [Options.assimilate, Options.update, settingOf]
  all_goals
    simp [keptSource, (updateOptional_source _ _ _).2, (updateHashmap_source _ _ _ _).2,
      (updateUnitHashmap_source _ _ _).2, Setting.Multi, OptError.report, Function.comp_def]

theorem optionsAfter_append (p : ParserOptions) (h : List BOption) (opt : BOption) :
    optionsAfter p (h ++ [opt]) = ((optionsAfter p h).assimilate opt).1 := by
  simp [optionsAfter]

/-- After any history, the value kept for a setting comes from the first option addressing it. -/
theorem keptSource_after (p : ParserOptions) (h : List BOption) (s : Setting) :
    keptSource (optionsAfter p h) s = (firstFor h s).map (·.source) := by
  induction h using snocInduction with
  | nil => cases s <;> rfl
  | append_singleton h opt ih =>
    rw [optionsAfter_append, keptSource_assimilate, ih]
    unfold firstFor
    rw [List.find?_append]
    cases hf : h.find? (fun o => decide (settingOf o.variant = some s)) with
    | some f => simp
    | none =>
      by_cases hs : settingOf opt.variant = some s <;> simp [hs]

/-- A single-valued field holds the first value given. -/
theorem field_after {α : Type} (f : Options → Option (Sourced α)) (select : OptVariant → Option α)
    (hnew : ∀ p, f (Options.new p) = none)
    (hstep : ∀ o opt, f (o.assimilate opt).1 =
      (f o).or ((select opt.variant).map (fun v => sourced v opt.source)))
    (p : ParserOptions) (h : List BOption) :
    (f (optionsAfter p h)).map (·.spanned) = firstValue select h := by
  have key : f (optionsAfter p h) =
      h.findSome? (fun o => (select o.variant).map (fun v => sourced v o.source)) := by
    induction h using snocInduction with
    | nil => exact hnew p
    | append_singleton h opt ih =>
      rw [optionsAfter_append, hstep, ih, List.findSome?_append]
      simp [List.findSome?_cons]
      cases hs : select opt.variant <;> simp
  rw [key]
  unfold firstValue
  clear key
  induction h with
  | nil => rfl
  | cons o h ih =>
    simp only [List.findSome?_cons]
    cases select o.variant with
    | none => simpa using ih
    | some v => rfl

macro "option_field" : tactic => `(tactic| (
  apply field_after
  · intro p; rfl
  · intro o opt
    obtain ⟨src, v⟩ := opt
    cases v <;> simp [Options.assimilate, Options.update]
    unfold updateOptional
    split <;> simp_all))

/-- C37: after any sequence of options, each single-valued setting has the value, and the location, of its
first occurrence, or is absent if there was none. -/
theorem C37_first_wins (p : ParserOptions) (h : List BOption) :
    let o := optionsAfter p h
    o.title.map (·.spanned) = firstValue (fun | .title v => some v | _ => none) h ∧
    o.accountPreviousBalances.map (·.spanned) =
      firstValue (fun | .accountPreviousBalances v => some v | _ => none) h ∧
    o.accountPreviousEarnings.map (·.spanned) =
      firstValue (fun | .accountPreviousEarnings v => some v | _ => none) h ∧
    o.accountPreviousConversions.map (·.spanned) =
      firstValue (fun | .accountPreviousConversions v => some v | _ => none) h ∧
    o.accountCurrentEarnings.map (·.spanned) =
      firstValue (fun | .accountCurrentEarnings v => some v | _ => none) h ∧
    o.accountCurrentConversions.map (·.spanned) =
      firstValue (fun | .accountCurrentConversions v => some v | _ => none) h ∧
    o.accountUnrealizedGains.map (·.spanned) =
      firstValue (fun | .accountUnrealizedGains v => some v | _ => none) h ∧
    o.accountRounding.map (·.spanned) = firstValue (fun | .accountRounding v => some v | _ => none) h ∧
    o.conversionCurrency.map (·.spanned) = firstValue (fun | .conversionCurrency v => some v | _ => none) h ∧
    o.inferredToleranceMultiplier.map (·.spanned) =
      firstValue (fun | .inferredToleranceMultiplier v => some v | _ => none) h ∧
    o.inferToleranceFromCost.map (·.spanned) =
      firstValue (fun | .inferToleranceFromCost v => some v | _ => none) h ∧
    o.renderCommas.map (·.spanned) = firstValue (fun | .renderCommas v => some v | _ => none) h ∧
    o.bookingMethod.map (·.spanned) = firstValue (fun | .bookingMethod v => some v | _ => none) h ∧
    o.pluginProcessingMode.map (·.spanned) =
      firstValue (fun | .pluginProcessingMode v => some v | _ => none) h := by
  intro o
  refine ⟨?_, ?_, ?_, ?_, ?_, ?_, ?_, ?_, ?_, ?_, ?_, ?_, ?_, ?_⟩
  all_goals option_field

/-- C37: an option for a single-valued setting is reported exactly when the setting was given before; the
report is located at the name of the later option and refers to the name of the first one. -/
theorem C37_duplicate_reported (p : ParserOptions) (h : List BOption) (opt : BOption) (s : Setting)
    (hs : settingOf opt.variant = some s) (hsingle : ¬ s.Multi) :
    ((optionsAfter p h).assimilate opt).2 = (firstFor h s).map (fun first =>
      (Report.new (str "invalid option") (str "duplicate") opt.source.name).relatedToNamedSpan
        (str "option") first.source.name) := by
  rw [report_assimilate, hs]
  simp only [Option.bind_some, keptSource_after, Option.map_map, hsingle, if_false]
  rfl

/-- C38: after any sequence of options, the operating currencies, the document roots and the currencies with a
tolerance are those given, each once, and a tolerance is the first one given for its currency. -/
theorem C38_accumulates (p : ParserOptions) (h : List BOption) :
    let o := optionsAfter p h
    (∀ c, c ∈ o.operatingCurrency.map (·.1) ↔ ∃ opt ∈ h, opt.variant = .operatingCurrency c) ∧
    (o.operatingCurrency.map (·.1)).Nodup ∧
    (∀ d, d ∈ o.documents.map (·.1) ↔ ∃ opt ∈ h, opt.variant = .documents d) ∧
    (o.documents.map (·.1)).Nodup ∧
    (∀ c, c ∈ o.inferredToleranceDefault.map (·.1) ↔
      ∃ opt ∈ h, ∃ d, opt.variant = .inferredToleranceDefault c d) ∧
    (o.inferredToleranceDefault.map (·.1)).Nodup ∧
    (∀ c, (AMap.get o.inferredToleranceDefault c).map (·.1) =
      h.findSome? (fun opt => match opt.variant with
        | .inferredToleranceDefault c' d => if c' = c then some d else none
        | _ => none)) := by
  intro o
  have hmem : ∀ {κ ν : Type} [DecidableEq κ] (m : List (κ × ν)) (k : κ),
      k ∈ m.map (·.1) ↔ (AMap.get m k).isSome = true := by
    intro κ ν _ m k
    rw [← AMap.has_eq_isSome, AMap.has_iff]
    simp
  have hnodup : (o.operatingCurrency.map (·.1)).Nodup ∧ (o.documents.map (·.1)).Nodup ∧
      (o.inferredToleranceDefault.map (·.1)).Nodup := by
    simp only [o]
    clear o
    induction h using snocInduction with
    | nil => simp [optionsAfter, Options.new]
    | append_singleton h opt ih =>
      rw [optionsAfter_append]
      obtain ⟨src, v⟩ := opt
      obtain ⟨i1, i2, i3⟩ := ih
      cases v
      all_goals simp only [Options.assimilate, Options.update]
      case inferredToleranceDefault c d =>
        refine ⟨i1, i2, ?_⟩
        unfold updateHashmap
        split
        · exact AMap.keys_insert _ _ _ i3
        · exact i3
      case documents d =>
        refine ⟨i1, ?_, i3⟩
        unfold updateUnitHashmap
        split
        · exact AMap.keys_insert _ _ _ i2
        · exact i2
      case operatingCurrency d =>
        refine ⟨?_, i2, i3⟩
        unfold updateUnitHashmap
        split
        · exact AMap.keys_insert _ _ _ i1
        · exact i1
      all_goals exact ⟨i1, i2, i3⟩
  refine ⟨fun c => ?_, hnodup.1, fun d => ?_, hnodup.2.1, fun c => ?_, hnodup.2.2, fun c => ?_⟩
  · rw [hmem]
    have := keptSource_after p h (.operatingCurrency c)
    simp only [keptSource] at this
    rw [this, Option.isSome_map, firstFor, List.find?_isSome]
    constructor
    · rintro ⟨opt, h1, h2⟩
      refine ⟨opt, h1, ?_⟩
      obtain ⟨src, v⟩ := opt
      cases v <;> simp [settingOf] at h2 ⊢
      exact h2
    · rintro ⟨opt, h1, h2⟩
      exact ⟨opt, h1, by simp [h2, settingOf]⟩
  · rw [hmem]
    have := keptSource_after p h (.document d)
    simp only [keptSource] at this
    rw [this, Option.isSome_map, firstFor, List.find?_isSome]
    constructor
    · rintro ⟨opt, h1, h2⟩
      refine ⟨opt, h1, ?_⟩
      obtain ⟨src, v⟩ := opt
      cases v <;> simp [settingOf] at h2 ⊢
      exact h2
    · rintro ⟨opt, h1, h2⟩
      exact ⟨opt, h1, by simp [h2, settingOf]⟩
  · rw [hmem]
    have := keptSource_after p h (.tolerance c)
    simp only [keptSource] at this
    rw [← Option.isSome_map (f := (·.2)), this, Option.isSome_map, firstFor, List.find?_isSome]
    constructor
    · rintro ⟨opt, h1, h2⟩
      refine ⟨opt, h1, ?_⟩
      obtain ⟨src, v⟩ := opt
      cases v <;> simp [settingOf] at h2 ⊢
      exact h2
    · rintro ⟨opt, h1, d, h2⟩
      exact ⟨opt, h1, by simp [h2, settingOf]⟩
  · simp only [o]
    clear hnodup hmem o
    induction h using snocInduction with
    | nil => simp [optionsAfter, Options.new, AMap.get_nil]
    | append_singleton h opt ih =>
      rw [optionsAfter_append, List.findSome?_append, ← ih]
      obtain ⟨src, v⟩ := opt
      cases v
      all_goals simp only [Options.assimilate, Options.update]
      case inferredToleranceDefault c' d =>
        unfold updateHashmap
        split
        · rename_i hg
          rw [AMap.get_insert]
          by_cases hc : c' = c
          · subst hc; simp [hg]
          · simp [hc]
        · rename_i e hg
          by_cases hc : c' = c
          · subst hc; simp [hg]
          · simp [hc]
      all_goals simp

/-- C38: an element of a multi-valued setting is reported exactly when it was given before; the report is
located at the later value and refers to the first one. -/
theorem C38_duplicate_reported (p : ParserOptions) (h : List BOption) (opt : BOption) (s : Setting)
    (hs : settingOf opt.variant = some s) (hmulti : s.Multi) :
    ((optionsAfter p h).assimilate opt).2 = (firstFor h s).map (fun first =>
      (Report.new (str "invalid option") (str "duplicate value") opt.source.value).relatedToNamedSpan
        (str "option value") first.source.value) := by
  rw [report_assimilate, hs]
  simp only [Option.bind_some, keptSource_after, Option.map_map, hmulti, if_true]
  rfl

/-- C37, C38: the remaining decoded options change nothing here and report nothing. -/
theorem C37_others_ignored (o : Options) (opt : BOption) (hs : settingOf opt.variant = none) :
    o.assimilate opt = (o, none) := by
  obtain ⟨src, v⟩ := opt
  cases v <;> simp [settingOf] at hs <;> rfl

/-- C39: the tolerance of a currency is the first one given for it, else the first one given for `*`. -/
theorem C39_lookup (p : ParserOptions) (h : List BOption) (c : Str) :
    (optionsAfter p h).toleranceDefault c =
      (h.findSome? (fun opt => match opt.variant with
        | .inferredToleranceDefault (.currency c') d => if c' = c then some d else none
        | _ => none)).or
      (h.findSome? (fun opt => match opt.variant with
        | .inferredToleranceDefault .any d => some d
        | _ => none)) := by
  have hk := (C38_accumulates p h).2.2.2.2.2.2
  unfold Options.toleranceDefault
  rw [hk, hk]
  have e1 : (fun opt : BOption => match opt.variant with
      | .inferredToleranceDefault c' d => if c' = CurrencyOrAny.currency c then some d else none
      | _ => none) = (fun opt : BOption => match opt.variant with
        | .inferredToleranceDefault (.currency c') d => if c' = c then some d else none
        | _ => none) := by
    funext opt
    obtain ⟨src, v⟩ := opt
    cases v <;> try rfl
    rename_i c' d
    cases c' <;> simp
  have e2 : (fun opt : BOption => match opt.variant with
      | .inferredToleranceDefault c' d => if c' = CurrencyOrAny.any then some d else none
      | _ => none) = (fun opt : BOption => match opt.variant with
        | .inferredToleranceDefault .any d => some d
        | _ => none) := by
    funext opt
    obtain ⟨src, v⟩ := opt
    cases v <;> try rfl
    rename_i c' d
    cases c' <;> simp
  rw [e1, e2]

/-- C39: the fallback is the first tolerance given for `*`. -/
theorem C39_fallback (p : ParserOptions) (h : List BOption) :
    (optionsAfter p h).toleranceFallback =
      h.findSome? (fun opt => match opt.variant with
        | .inferredToleranceDefault .any d => some d
        | _ => none) := by
  have hk := (C38_accumulates p h).2.2.2.2.2.2
  unfold Options.toleranceFallback
  rw [hk]
  congr 1
  funext opt
  obtain ⟨src, v⟩ := opt
  cases v <;> try rfl
  rename_i c' d
  cases c' <;> simp

/-- C39: the list of tolerances has each currency once and agrees with the lookup. -/
theorem C39_list (p : ParserOptions) (h : List BOption) :
    let o := optionsAfter p h
    (o.toleranceDefaults.map (·.1)).Nodup ∧
    (∀ c d, (some c, d) ∈ o.toleranceDefaults ↔
      (AMap.get o.inferredToleranceDefault (.currency c)).map (·.1) = some d) ∧
    (∀ d, (none, d) ∈ o.toleranceDefaults ↔ o.toleranceFallback = some d) := by
  intro o
  have hn := (C38_accumulates p h).2.2.2.2.2.1
  have hfst : o.toleranceDefaults.map (·.1) = (o.inferredToleranceDefault.map (·.1)).map
      (fun | .currency c => some c | .any => none) := by
    unfold Options.toleranceDefaults
    rw [List.map_map, List.map_map]
    apply List.map_congr_left
    rintro ⟨c, d, src⟩ _
    cases c <;> rfl
  refine ⟨?_, fun c d => ?_, fun d => ?_⟩
  · rw [hfst]
    refine List.Pairwise.map _ ?_ hn
    intro a b hab
    cases a <;> cases b <;> simp_all
  · constructor
    · intro hm
      obtain ⟨⟨k, d', src⟩, h1, h2⟩ := List.mem_map.mp hm
      cases k with
      | any => simp at h2
      | currency c' =>
        simp at h2
        obtain ⟨rfl, rfl⟩ := h2
        rw [AMap.get_of_mem hn h1]; rfl
    · intro hg
      cases hc : AMap.get o.inferredToleranceDefault (.currency c) with
      | none => rw [hc] at hg; cases hg
      | some e =>
        rw [hc] at hg
        cases hg
        exact List.mem_map.mpr ⟨_, AMap.mem_of_get hc, rfl⟩
  · unfold Options.toleranceFallback
    constructor
    · intro hm
      obtain ⟨⟨k, d', src⟩, h1, h2⟩ := List.mem_map.mp hm
      cases k with
      | currency c' => simp at h2
      | any =>
        simp at h2
        subst h2
        rw [AMap.get_of_mem hn h1]; rfl
    · intro hg
      cases hc : AMap.get o.inferredToleranceDefault .any with
      | none => rw [hc] at hg; cases hg
      | some e =>
        rw [hc] at hg
        cases hg
        exact List.mem_map.mpr ⟨_, AMap.mem_of_get hc, rfl⟩

/-- A history with a repeated title, a tolerance for USD and one for `*`. -/
def exampleHistory : List BOption :=
  let at_ (n : Nat) : OptSource := ⟨⟨0, n, n + 5⟩, ⟨0, n + 6, n + 9⟩⟩
  [⟨at_ 0, .title (str "one")⟩, ⟨at_ 10, .inferredToleranceDefault .any ⟨5, 1⟩⟩,
   ⟨at_ 20, .title (str "two")⟩, ⟨at_ 30, .inferredToleranceDefault (.currency (str "USD")) ⟨5, 3⟩⟩]

example : ((optionsAfter ParserOptions.default exampleHistory).title).map (·.spanned) =
    some ⟨str "one", ⟨0, 6, 9⟩⟩ := rfl
example : (optionsAfter ParserOptions.default exampleHistory).toleranceDefault (str "USD") = some ⟨5, 3⟩ := rfl
example : (optionsAfter ParserOptions.default exampleHistory).toleranceDefault (str "EUR") = some ⟨5, 1⟩ := rfl
/-- The hypotheses of `C37_duplicate_reported` and `C38_duplicate_reported` are met by repeated options. -/
example : settingOf (.title (str "two")) = some .title ∧ ¬ Setting.title.Multi ∧
    firstFor exampleHistory .title = some ⟨⟨⟨0, 0, 5⟩, ⟨0, 6, 9⟩⟩, .title (str "one")⟩ :=
  ⟨rfl, by simp [Setting.Multi], rfl⟩
example : settingOf (.inferredToleranceDefault .any ⟨7, 0⟩) = some (.tolerance .any) ∧
    (Setting.tolerance .any).Multi ∧ (firstFor exampleHistory (.tolerance .any)).isSome = true :=
  ⟨rfl, by simp [Setting.Multi], rfl⟩

end Lima.Props
