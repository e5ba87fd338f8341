import Verif.Model.Getters
import Verif.Spec.Getters
import Verif.Props.Success

/-!
# C64: what the options can be asked for is what is written
-/

set_option linter.unusedSectionVars false

namespace Lima
open Lima Spec Grammar Props

section
variable [Unicode] [DecOps] {fs : FileSystem} {env : ParseEnv} {rootPath : Option Path} {rootContent : Str} {s : Sources}
  {a : ParseSuccess}

/-- In a file without errors every option is understood. -/
theorem option_understood {cfg : ParseCfg} {o o' : ParserOptions} {toks : List Ranged} {ds : List (Spanned Declaration)}
    {ws : List Report} (h : FileP cfg o toks ds o' [] ws) {at' : OptSource} {name value : Str}
    (hw : WritesOption toks cfg.source name value at') : ∃ v, Decodes (okOf cfg.decimal) cfg.path name value v := by
  obtain ⟨before, after, x, y, a, b, c, d, rfl, rfl⟩ := hw
  obtain ⟨o1, o2, j, es', p, span, h1, h2, h3⟩ := keyword_pragma h (by simp [Inner])
  have hes : es' = [] := List.eq_nil_iff_forall_not_mem.mpr (fun e he => by cases h3 e he)
  subst hes
  cases h1 with
  | pushtag h => obtain ⟨⟨j, ⟨_, _, h⟩, _⟩, _⟩ := h; cases h
  | poptag h => obtain ⟨⟨j, ⟨_, _, h⟩, _⟩, _⟩ := h; cases h
  | popmeta h => obtain ⟨⟨j, ⟨_, _, h⟩, _⟩, _⟩ := h; cases h
  | pushmeta h => obtain ⟨_, _, h⟩ := h; cases h
  | «include» h => obtain ⟨_, _, h⟩ := h; cases h
  | plugin h => obtain ⟨_, _, h⟩ := h; cases h
  | option k1 k2 k3 k4 =>
    obtain ⟨x', y', hi⟩ := k1
    obtain ⟨a', b', rfl, hs1⟩ := at_word k2.1 k2.2
    obtain ⟨c', d', rfl, hs2⟩ := at_word k3.1 k3.2
    injection hi with hi1 hi
    injection hi with hi2 hi
    injection hi with hi3 hi
    injection hi2 with hi21 hi22 hi23
    injection hi3 with hi31 hi32 hi33
    injection hi21 with hi21
    injection hi31 with hi31
    cases k4 with
    | accepted k5 k6 =>
      obtain ⟨w, k7, rfl⟩ := (map_ok _ _ _).mp k5
      rw [← hi21, ← hi31] at k7
      exact ⟨w, (C46_decodes _ _ _ _ _).mp k7⟩

end

namespace Props

section
variable [Unicode] [DecOps] {fs : FileSystem} {env : ParseEnv} {rootPath : Option Path} {rootContent : Str} {s : Sources}
  {a : ParseSuccess}

/-- C64: after a successful parse every option written in a source has a documented name, and a value the option can have. -/
theorem C64_understood (hwf : GlobsWF fs) (hs : ReadInSomeOrder fs env.tokens rootPath rootContent s)
    (ha : parseSources env s = .ok a) {path : Option Path} {name value : Str} {at' : Span}
    (h : OptionWritten env s path name value at') :
    name ∈ optionNames ∧ ∃ v, Decodes (okOf env.decimal) path name value v := by
  obtain ⟨rs, o, ds, data, es, visited, hh⟩ := succeeds hwf hs ha
  obtain ⟨id, text, nameAt, hsrc, hw⟩ := h
  obtain ⟨ds', hds, o1, o2, ws, hf⟩ := (filesP_mem hh.filesP).1 _ (mem_contentIter.mpr hsrc)
  obtain ⟨v, hv⟩ := option_understood hf hw
  refine ⟨?_, v, hv⟩
  cases hv <;> decide

/-- A single value is asked for, and answered with its location. -/
theorem asked (hwf : GlobsWF fs) (hs : ReadInSomeOrder fs env.tokens rootPath rootContent s)
    (ha : parseSources env s = .ok a) {α : Type} (get : Options → Option (Spanned α)) (mk : α → OptVariant)
    (hmk : ∀ v, settingOf (mk v) ≠ none)
    (hget : ∀ p h v at', get (optionsAfter p h) = some ⟨v, at'⟩ → ∃ opt ∈ h, opt.variant = mk v ∧ opt.source.value = at')
    (hhold : ∀ o v at', Holds o at' (mk v) → get o = some ⟨v, at'.value⟩) (v : α) (at' : Span) :
    get a.options = some ⟨v, at'⟩ ↔ ∃ path name value, OptionWritten env s path name value at' ∧
      Decodes (okOf env.decimal) path name value (mk v) := by
  obtain ⟨rs, o, ds, data, es, visited, h⟩ := succeeds hwf hs ha
  constructor
  · intro hg
    rw [h.result] at hg
    dsimp only at hg
    rw [(C37_run h.history h.expanded h.run).1] at hg
    obtain ⟨⟨src, w⟩, h1, h2, h3⟩ := hget _ _ _ _ hg
    dsimp only at h2 h3
    subst h2 h3
    obtain ⟨id, path, text, name, value, k1, k2, k3⟩ := (h.written_iff hwf hs (hmk v)).mp h1
    exact ⟨path, name, value, ⟨id, text, src.name, k1, k2⟩, k3⟩
  · rintro ⟨path, name, value, ⟨id, text, nameAt, k1, k2⟩, k3⟩
    exact hhold _ _ _ ((h.options hwf hs (hmk v)).mpr ⟨id, path, text, name, value, k1, k2, k3⟩)

theorem spanned_of {α : Type} {f : Option (Sourced α)} {v : α} {at' : OptSource} (h : f = some (sourced v at')) :
    f.map (·.spanned) = some ⟨v, at'.value⟩ := by
  rw [h]
  rfl

theorem colon_split {c c' t t' : Str} (hc : ':' ∉ c) (hc' : ':' ∉ c') (h : c ++ ':' :: t = c' ++ ':' :: t') : c = c' ∧ t = t' := by
  induction c generalizing c' with
  | nil =>
    cases c' with
    | nil => exact ⟨rfl, by simpa using h⟩
    | cons x c' =>
      simp only [List.nil_append, List.cons_append, List.cons.injEq] at h
      exact absurd (by rw [h.1]; simp) hc'
  | cons x c ih =>
    cases c' with
    | nil =>
      simp only [List.nil_append, List.cons_append, List.cons.injEq] at h
      exact absurd (by rw [h.1]; simp) hc
    | cons y c' =>
      simp only [List.cons_append, List.cons.injEq] at h
      obtain ⟨h1, h2⟩ := ih (fun hm => hc (by simp [hm])) (fun hm => hc' (by simp [hm])) h.2
      exact ⟨by rw [h.1, h1], h2⟩

theorem get_mem {κ ν : Type} [DecidableEq κ] {m : List (κ × ν)} {k : κ} {v : ν} (h : AMap.get m k = some v) : (k, v) ∈ m := by
  induction m with
  | nil => cases h
  | cons e m ih =>
    rw [AMap.get_cons] at h
    split at h
    · rename_i he
      cases h
      subst he
      exact List.mem_cons_self
    · exact List.mem_cons_of_mem _ (ih h)

theorem valid_no_colon {c : Str} (h : ValidCurrency c) : ':' ∉ c := by
  have hu : ¬ Upper ':' := by unfold Upper; decide
  have hd : ¬ Digit ':' := by unfold Digit; decide
  rintro hm
  rcases h with ⟨a, rfl, ha⟩ | ⟨a, mid, z, rfl, ha, hmid, hz, _⟩
  · simp only [List.mem_singleton] at hm
    exact hu (hm ▸ ha)
  · simp only [List.mem_cons, List.mem_append, List.not_mem_nil, or_false] at hm
    rcases hm with rfl | hm | rfl
    · rcases ha with ha | ha
      · exact hu ha
      · exact absurd ha (by decide)
    · rcases hmid _ hm with h | h | h | h | h | h
      · exact hu h
      · exact hd h
      all_goals exact absurd h (by decide)
    · exact hz.elim hu hd

theorem valid_not_star {c t t' : Str} (hv : ValidCurrency c) (h : '*' :: ':' :: t = c ++ ':' :: t') : False := by
  have hu : ¬ Upper '*' := by unfold Upper; decide
  rcases hv with ⟨a, rfl, ha⟩ | ⟨a, mid, z, rfl, ha, _⟩
  · injection h with h1 _
    exact hu (h1 ▸ ha)
  · injection h with h1 _
    subst h1
    rcases ha with ha | ha
    · exact hu ha
    · exact absurd ha (by decide)

theorem firstValue_some {α : Type} {select : OptVariant → Option α} {mk : α → OptVariant}
    (hsel : ∀ w v, select w = some v → w = mk v) {h : List BOption} {v : α} {at' : Span}
    (hf : firstValue select h = some ⟨v, at'⟩) : ∃ opt ∈ h, opt.variant = mk v ∧ opt.source.value = at' := by
  unfold firstValue at hf
  obtain ⟨opt, h1, h2⟩ := List.exists_of_findSome?_eq_some hf
  obtain ⟨w, h3, h4⟩ := Option.map_eq_some_iff.mp h2
  cases h4
  exact ⟨opt, h1, hsel _ _ h3, rfl⟩


/-- C64: after a successful parse, the title, each of the accounts for which there is an option, and the currency of conversions is
the text written in a source, with the location it is written at; and there is none if the option is not written. -/
theorem C64_text (hwf : GlobsWF fs) (hs : ReadInSomeOrder fs env.tokens rootPath rootContent s)
    (ha : parseSources env s = .ok a) (v : Str) (at' : Span) :
    (Getters.title a.options = some ⟨v, at'⟩ ↔ OptionSet env s "title".toList v at') ∧
    (Getters.accountPreviousBalances a.options = some ⟨v, at'⟩ ↔ OptionSet env s "account_previous_balances".toList v at') ∧
    (Getters.accountPreviousEarnings a.options = some ⟨v, at'⟩ ↔ OptionSet env s "account_previous_earnings".toList v at') ∧
    (Getters.accountPreviousConversions a.options = some ⟨v, at'⟩ ↔ OptionSet env s "account_previous_conversions".toList v at') ∧
    (Getters.accountCurrentEarnings a.options = some ⟨v, at'⟩ ↔ OptionSet env s "account_current_earnings".toList v at') ∧
    (Getters.accountCurrentConversions a.options = some ⟨v, at'⟩ ↔ OptionSet env s "account_current_conversions".toList v at') ∧
    (Getters.accountUnrealizedGains a.options = some ⟨v, at'⟩ ↔ OptionSet env s "account_unrealized_gains".toList v at') ∧
    (Getters.accountRounding a.options = some ⟨v, at'⟩ ↔ OptionSet env s "account_rounding".toList v at') ∧
    (Getters.conversionCurrency a.options = some ⟨v, at'⟩ ↔ OptionSet env s "conversion_currency".toList v at') := by
  refine ⟨?_, ?_, ?_, ?_, ?_, ?_, ?_, ?_, ?_⟩
  · have key : Getters.title a.options = some ⟨v, at'⟩ ↔ ∃ path name value, OptionWritten env s path name value at' ∧
        Decodes (okOf env.decimal) path name value (.title v) :=
      asked hwf hs ha Getters.title OptVariant.title (by intro v; simp [settingOf])
        (fun p h v at' hg => firstValue_some (by intro w v hw; split at hw <;> cases hw; rfl)
          (Eq.trans (C37_first_wins p h).1.symm hg)) (fun o v at' hh => spanned_of hh) v at'
    rw [key]
    constructor
    · rintro ⟨path, name, value, h1, h2⟩
      cases h2
      exact ⟨path, h1⟩
    · rintro ⟨path, h1⟩
      obtain ⟨_, w, hw⟩ := C64_understood hwf hs ha h1
      generalize hn : "title".toList = n at hw h1
      cases hw
      case title => exact ⟨_, _, _, h1, .title _⟩
      all_goals exact absurd hn (by decide)
  · have key : Getters.accountPreviousBalances a.options = some ⟨v, at'⟩ ↔ ∃ path name value, OptionWritten env s path name value at' ∧
        Decodes (okOf env.decimal) path name value (.accountPreviousBalances v) :=
      asked hwf hs ha Getters.accountPreviousBalances OptVariant.accountPreviousBalances (by intro v; simp [settingOf])
        (fun p h v at' hg => firstValue_some (by intro w v hw; split at hw <;> cases hw; rfl)
          (Eq.trans (C37_first_wins p h).2.1.symm hg)) (fun o v at' hh => spanned_of hh) v at'
    rw [key]
    constructor
    · rintro ⟨path, name, value, h1, h2⟩
      cases h2
      exact ⟨path, h1⟩
    · rintro ⟨path, h1⟩
      obtain ⟨_, w, hw⟩ := C64_understood hwf hs ha h1
      generalize hn : "account_previous_balances".toList = n at hw h1
      cases hw
      case previousBalances => exact ⟨_, _, _, h1, .previousBalances _ ‹_› ‹_›⟩
      all_goals exact absurd hn (by decide)
  · have key : Getters.accountPreviousEarnings a.options = some ⟨v, at'⟩ ↔ ∃ path name value, OptionWritten env s path name value at' ∧
        Decodes (okOf env.decimal) path name value (.accountPreviousEarnings v) :=
      asked hwf hs ha Getters.accountPreviousEarnings OptVariant.accountPreviousEarnings (by intro v; simp [settingOf])
        (fun p h v at' hg => firstValue_some (by intro w v hw; split at hw <;> cases hw; rfl)
          (Eq.trans (C37_first_wins p h).2.2.1.symm hg)) (fun o v at' hh => spanned_of hh) v at'
    rw [key]
    constructor
    · rintro ⟨path, name, value, h1, h2⟩
      cases h2
      exact ⟨path, h1⟩
    · rintro ⟨path, h1⟩
      obtain ⟨_, w, hw⟩ := C64_understood hwf hs ha h1
      generalize hn : "account_previous_earnings".toList = n at hw h1
      cases hw
      case previousEarnings => exact ⟨_, _, _, h1, .previousEarnings _ ‹_› ‹_›⟩
      all_goals exact absurd hn (by decide)
  · have key : Getters.accountPreviousConversions a.options = some ⟨v, at'⟩ ↔ ∃ path name value, OptionWritten env s path name value at' ∧
        Decodes (okOf env.decimal) path name value (.accountPreviousConversions v) :=
      asked hwf hs ha Getters.accountPreviousConversions OptVariant.accountPreviousConversions (by intro v; simp [settingOf])
        (fun p h v at' hg => firstValue_some (by intro w v hw; split at hw <;> cases hw; rfl)
          (Eq.trans (C37_first_wins p h).2.2.2.1.symm hg)) (fun o v at' hh => spanned_of hh) v at'
    rw [key]
    constructor
    · rintro ⟨path, name, value, h1, h2⟩
      cases h2
      exact ⟨path, h1⟩
    · rintro ⟨path, h1⟩
      obtain ⟨_, w, hw⟩ := C64_understood hwf hs ha h1
      generalize hn : "account_previous_conversions".toList = n at hw h1
      cases hw
      case previousConversions => exact ⟨_, _, _, h1, .previousConversions _ ‹_› ‹_›⟩
      all_goals exact absurd hn (by decide)
  · have key : Getters.accountCurrentEarnings a.options = some ⟨v, at'⟩ ↔ ∃ path name value, OptionWritten env s path name value at' ∧
        Decodes (okOf env.decimal) path name value (.accountCurrentEarnings v) :=
      asked hwf hs ha Getters.accountCurrentEarnings OptVariant.accountCurrentEarnings (by intro v; simp [settingOf])
        (fun p h v at' hg => firstValue_some (by intro w v hw; split at hw <;> cases hw; rfl)
          (Eq.trans (C37_first_wins p h).2.2.2.2.1.symm hg)) (fun o v at' hh => spanned_of hh) v at'
    rw [key]
    constructor
    · rintro ⟨path, name, value, h1, h2⟩
      cases h2
      exact ⟨path, h1⟩
    · rintro ⟨path, h1⟩
      obtain ⟨_, w, hw⟩ := C64_understood hwf hs ha h1
      generalize hn : "account_current_earnings".toList = n at hw h1
      cases hw
      case currentEarnings => exact ⟨_, _, _, h1, .currentEarnings _ ‹_› ‹_›⟩
      all_goals exact absurd hn (by decide)
  · have key : Getters.accountCurrentConversions a.options = some ⟨v, at'⟩ ↔ ∃ path name value, OptionWritten env s path name value at' ∧
        Decodes (okOf env.decimal) path name value (.accountCurrentConversions v) :=
      asked hwf hs ha Getters.accountCurrentConversions OptVariant.accountCurrentConversions (by intro v; simp [settingOf])
        (fun p h v at' hg => firstValue_some (by intro w v hw; split at hw <;> cases hw; rfl)
          (Eq.trans (C37_first_wins p h).2.2.2.2.2.1.symm hg)) (fun o v at' hh => spanned_of hh) v at'
    rw [key]
    constructor
    · rintro ⟨path, name, value, h1, h2⟩
      cases h2
      exact ⟨path, h1⟩
    · rintro ⟨path, h1⟩
      obtain ⟨_, w, hw⟩ := C64_understood hwf hs ha h1
      generalize hn : "account_current_conversions".toList = n at hw h1
      cases hw
      case currentConversions => exact ⟨_, _, _, h1, .currentConversions _ ‹_› ‹_›⟩
      all_goals exact absurd hn (by decide)
  · have key : Getters.accountUnrealizedGains a.options = some ⟨v, at'⟩ ↔ ∃ path name value, OptionWritten env s path name value at' ∧
        Decodes (okOf env.decimal) path name value (.accountUnrealizedGains v) :=
      asked hwf hs ha Getters.accountUnrealizedGains OptVariant.accountUnrealizedGains (by intro v; simp [settingOf])
        (fun p h v at' hg => firstValue_some (by intro w v hw; split at hw <;> cases hw; rfl)
          (Eq.trans (C37_first_wins p h).2.2.2.2.2.2.1.symm hg)) (fun o v at' hh => spanned_of hh) v at'
    rw [key]
    constructor
    · rintro ⟨path, name, value, h1, h2⟩
      cases h2
      exact ⟨path, h1⟩
    · rintro ⟨path, h1⟩
      obtain ⟨_, w, hw⟩ := C64_understood hwf hs ha h1
      generalize hn : "account_unrealized_gains".toList = n at hw h1
      cases hw
      case unrealizedGains => exact ⟨_, _, _, h1, .unrealizedGains _ ‹_› ‹_›⟩
      all_goals exact absurd hn (by decide)
  · have key : Getters.accountRounding a.options = some ⟨v, at'⟩ ↔ ∃ path name value, OptionWritten env s path name value at' ∧
        Decodes (okOf env.decimal) path name value (.accountRounding v) :=
      asked hwf hs ha Getters.accountRounding OptVariant.accountRounding (by intro v; simp [settingOf])
        (fun p h v at' hg => firstValue_some (by intro w v hw; split at hw <;> cases hw; rfl)
          (Eq.trans (C37_first_wins p h).2.2.2.2.2.2.2.1.symm hg)) (fun o v at' hh => spanned_of hh) v at'
    rw [key]
    constructor
    · rintro ⟨path, name, value, h1, h2⟩
      cases h2
      exact ⟨path, h1⟩
    · rintro ⟨path, h1⟩
      obtain ⟨_, w, hw⟩ := C64_understood hwf hs ha h1
      generalize hn : "account_rounding".toList = n at hw h1
      cases hw
      case rounding => exact ⟨_, _, _, h1, .rounding _ ‹_› ‹_›⟩
      all_goals exact absurd hn (by decide)
  · have key : Getters.conversionCurrency a.options = some ⟨v, at'⟩ ↔ ∃ path name value, OptionWritten env s path name value at' ∧
        Decodes (okOf env.decimal) path name value (.conversionCurrency v) :=
      asked hwf hs ha Getters.conversionCurrency OptVariant.conversionCurrency (by intro v; simp [settingOf])
        (fun p h v at' hg => firstValue_some (by intro w v hw; split at hw <;> cases hw; rfl)
          (Eq.trans (C37_first_wins p h).2.2.2.2.2.2.2.2.1.symm hg)) (fun o v at' hh => spanned_of hh) v at'
    rw [key]
    constructor
    · rintro ⟨path, name, value, h1, h2⟩
      cases h2
      exact ⟨path, h1⟩
    · rintro ⟨path, h1⟩
      obtain ⟨_, w, hw⟩ := C64_understood hwf hs ha h1
      generalize hn : "conversion_currency".toList = n at hw h1
      cases hw
      case conversionCurrency => exact ⟨_, _, _, h1, .conversionCurrency _ ‹_›⟩
      all_goals exact absurd hn (by decide)

/-- C64: after a successful parse, a flag, the booking method, the mode of plugin processing and the multiplier of tolerances are
what is written in a source, with the location it is written at; and there is none if the option is not written. -/
theorem C64_value (hwf : GlobsWF fs) (hs : ReadInSomeOrder fs env.tokens rootPath rootContent s)
    (ha : parseSources env s = .ok a) (at' : Span) :
    (∀ v, Getters.inferredToleranceMultiplier a.options = some ⟨v, at'⟩ ↔
      ∃ text, OptionSet env s "inferred_tolerance_multiplier".toList text at' ∧ env.decimal text = .ok v) ∧
    (∀ v, Getters.inferToleranceFromCost a.options = some ⟨v, at'⟩ ↔
      ∃ text, OptionSet env s "infer_tolerance_from_cost".toList text at' ∧ BoolText text v) ∧
    (∀ v, Getters.renderCommas a.options = some ⟨v, at'⟩ ↔ ∃ text, OptionSet env s "render_commas".toList text at' ∧
      (BoolText text v ∨ (text = ['1'] ∧ v = true) ∨ (text = ['0'] ∧ v = false))) ∧
    (∀ v, Getters.bookingMethod a.options = some ⟨v, at'⟩ ↔ OptionSet env s "booking_method".toList (bookingText v) at') ∧
    (∀ v, Getters.pluginProcessingMode a.options = some ⟨v, at'⟩ ↔
      OptionSet env s "plugin_processing_mode".toList (modeText v) at') := by
  refine ⟨?_, ?_, ?_, ?_, ?_⟩ <;> intro v
  · have key : Getters.inferredToleranceMultiplier a.options = some ⟨v, at'⟩ ↔ ∃ path name value, OptionWritten env s path name value at' ∧
        Decodes (okOf env.decimal) path name value (.inferredToleranceMultiplier v) :=
      asked hwf hs ha Getters.inferredToleranceMultiplier OptVariant.inferredToleranceMultiplier (by intro v; simp [settingOf])
        (fun p h v at' hg => firstValue_some (by intro w v hw; split at hw <;> cases hw; rfl)
          (Eq.trans (C37_first_wins p h).2.2.2.2.2.2.2.2.2.1.symm hg)) (fun o v at' hh => spanned_of hh) v at'
    rw [key]
    constructor
    · rintro ⟨path, name, value, h1, h2⟩
      cases h2
      exact ⟨_, ⟨path, h1⟩, (okOf_iff _ _ _).mp ‹_›⟩
    · rintro ⟨text, ⟨path, h1⟩, h2⟩
      exact ⟨_, _, _, h1, .toleranceMultiplier _ _ ((okOf_iff _ _ _).mpr h2)⟩
  · have key : Getters.inferToleranceFromCost a.options = some ⟨v, at'⟩ ↔ ∃ path name value, OptionWritten env s path name value at' ∧
        Decodes (okOf env.decimal) path name value (.inferToleranceFromCost v) :=
      asked hwf hs ha Getters.inferToleranceFromCost OptVariant.inferToleranceFromCost (by intro v; simp [settingOf])
        (fun p h v at' hg => firstValue_some (by intro w v hw; split at hw <;> cases hw; rfl)
          (Eq.trans (C37_first_wins p h).2.2.2.2.2.2.2.2.2.2.1.symm hg)) (fun o v at' hh => spanned_of hh) v at'
    rw [key]
    constructor
    · rintro ⟨path, name, value, h1, h2⟩
      cases h2
      exact ⟨_, ⟨path, h1⟩, ‹_›⟩
    · rintro ⟨text, ⟨path, h1⟩, h2⟩
      exact ⟨_, _, _, h1, .toleranceFromCost _ _ h2⟩
  · have key : Getters.renderCommas a.options = some ⟨v, at'⟩ ↔ ∃ path name value, OptionWritten env s path name value at' ∧
        Decodes (okOf env.decimal) path name value (.renderCommas v) :=
      asked hwf hs ha Getters.renderCommas OptVariant.renderCommas (by intro v; simp [settingOf])
        (fun p h v at' hg => firstValue_some (by intro w v hw; split at hw <;> cases hw; rfl)
          (Eq.trans (C37_first_wins p h).2.2.2.2.2.2.2.2.2.2.2.1.symm hg)) (fun o v at' hh => spanned_of hh) v at'
    rw [key]
    constructor
    · rintro ⟨path, name, value, h1, h2⟩
      cases h2
      exact ⟨_, ⟨path, h1⟩, ‹_›⟩
    · rintro ⟨text, ⟨path, h1⟩, h2⟩
      exact ⟨_, _, _, h1, .renderCommas _ _ h2⟩
  · have key : Getters.bookingMethod a.options = some ⟨v, at'⟩ ↔ ∃ path name value, OptionWritten env s path name value at' ∧
        Decodes (okOf env.decimal) path name value (.bookingMethod v) :=
      asked hwf hs ha Getters.bookingMethod OptVariant.bookingMethod (by intro v; simp [settingOf])
        (fun p h v at' hg => firstValue_some (by intro w v hw; split at hw <;> cases hw; rfl)
          (Eq.trans (C37_first_wins p h).2.2.2.2.2.2.2.2.2.2.2.2.1.symm hg)) (fun o v at' hh => spanned_of hh) v at'
    rw [key]
    constructor
    · rintro ⟨path, name, value, h1, h2⟩
      cases h2
      exact ⟨path, h1⟩
    · rintro ⟨path, h1⟩
      exact ⟨_, _, _, h1, .bookingMethod _⟩
  · have key : Getters.pluginProcessingMode a.options = some ⟨v, at'⟩ ↔ ∃ path name value, OptionWritten env s path name value at' ∧
        Decodes (okOf env.decimal) path name value (.pluginProcessingMode v) :=
      asked hwf hs ha Getters.pluginProcessingMode OptVariant.pluginProcessingMode (by intro v; simp [settingOf])
        (fun p h v at' hg => firstValue_some (by intro w v hw; split at hw <;> cases hw; rfl)
          (Eq.trans (C37_first_wins p h).2.2.2.2.2.2.2.2.2.2.2.2.2.symm hg)) (fun o v at' hh => spanned_of hh) v at'
    rw [key]
    constructor
    · rintro ⟨path, name, value, h1, h2⟩
      cases h2
      exact ⟨path, h1⟩
    · rintro ⟨path, h1⟩
      exact ⟨_, _, _, h1, .pluginProcessingMode _⟩

theorem optionWritten_iff (hwf : GlobsWF fs) (hs : ReadInSomeOrder fs env.tokens rootPath rootContent s)
    {rs : List FileResult} {o : ParserOptions} {ds : List (Spanned Directive)} {data : PragmaData} {es : List Event}
    {visited : List (Option Path)} (h : Succeeds env s a rs o ds data es visited) {v : OptVariant} (hv : settingOf v ≠ none) :
    (∃ opt ∈ optionHistory es, opt.variant = v) ↔ ∃ at' path name value, OptionWritten env s path name value at' ∧
      Decodes (okOf env.decimal) path name value v := by
  constructor
  · rintro ⟨⟨src, w⟩, h1, h2⟩
    dsimp only at h2
    subst h2
    obtain ⟨id, path, text, name, value, k1, k2, k3⟩ := (h.written_iff hwf hs hv).mp h1
    exact ⟨src.value, path, name, value, ⟨id, text, src.name, k1, k2⟩, k3⟩
  · rintro ⟨at', path, name, value, ⟨id, text, nameAt, k1, k2⟩, k3⟩
    exact ⟨_, (h.written_iff hwf hs hv).mpr ⟨id, path, text, name, value, k1, k2, k3⟩, rfl⟩

/-- C64: after a successful parse, the operating currencies are those written in the sources, and the document roots are
the paths written in the sources, each once. -/
theorem C64_collected (hwf : GlobsWF fs) (hs : ReadInSomeOrder fs env.tokens rootPath rootContent s)
    (ha : parseSources env s = .ok a) :
    (∀ c, c ∈ Getters.operatingCurrency a.options ↔ ∃ at', OptionSet env s "operating_currency".toList c at') ∧
    (Getters.operatingCurrency a.options).Nodup ∧
    (∀ p, p ∈ Getters.documents a.options ↔ ∃ path value at', OptionWritten env s path "documents".toList value at' ∧
      DocumentsPath path value p) ∧
    (Getters.documents a.options).Nodup := by
  obtain ⟨rs, o, ds, data, es, visited, h⟩ := succeeds hwf hs ha
  have hopt : a.options = optionsAfter o (optionHistory es) := by
    rw [h.result]; exact (C37_run h.history h.expanded h.run).1
  have hacc := C38_accumulates o (optionHistory es)
  dsimp only at hacc
  rw [← hopt] at hacc
  obtain ⟨h1, h2, h3, h4, _⟩ := hacc
  refine ⟨fun c => (h1 c).trans ((optionWritten_iff hwf hs h (by simp [settingOf])).trans ?_), h2,
    fun p => (h3 p).trans ((optionWritten_iff hwf hs h (by simp [settingOf])).trans ?_), h4⟩
  · constructor
    · rintro ⟨at', path, name, value, k1, k2⟩
      cases k2
      exact ⟨at', path, k1⟩
    · rintro ⟨at', path, k1⟩
      obtain ⟨_, w, hw⟩ := C64_understood hwf hs ha k1
      generalize hn : "operating_currency".toList = n at hw k1
      cases hw
      case operatingCurrency => exact ⟨_, _, _, _, k1, .operatingCurrency _ ‹_›⟩
      all_goals exact absurd hn (by decide)
  · constructor
    · rintro ⟨at', path, name, value, k1, k2⟩
      cases k2 with
      | documents v hf =>
        refine ⟨path, _, at', k1, ?_⟩
        cases path with
        | none => exact .inline _
        | some f => exact .bare _ _ (hf f rfl)
      | documentsIn v f hf hn =>
        subst hf
        exact ⟨_, _, at', k1, .inFile _ _ hn⟩
    · rintro ⟨path, value, at', k1, k2⟩
      refine ⟨at', path, _, value, k1, ?_⟩
      cases k2 with
      | inline => exact .documents _ (by simp)
      | bare f v hf => exact .documents _ (by rintro g hg; cases hg; exact hf)
      | inFile f v hf => exact .documentsIn _ _ rfl hf

/-- C64: after a successful parse, the tolerance of a currency is the one written for it in a source, or else the one written for
`*`; and the list of tolerances is of those written. -/
theorem C64_tolerances (hwf : GlobsWF fs) (hs : ReadInSomeOrder fs env.tokens rootPath rootContent s)
    (ha : parseSources env s = .ok a) :
    (∀ c d, (c, d) ∈ a.options.toleranceDefaults ↔ ToleranceSet env s c d) ∧
    (a.options.toleranceDefaults.map (·.1)).Nodup ∧
    (∀ d, a.options.toleranceFallback = some d ↔ ToleranceSet env s none d) ∧
    ∀ c d, a.options.toleranceDefault c = some d ↔
      ToleranceSet env s (some c) d ∨ (∀ d', ¬ ToleranceSet env s (some c) d') ∧ ToleranceSet env s none d := by
  obtain ⟨rs, o, ds, data, es, visited, h⟩ := succeeds hwf hs ha
  have hopt : a.options = optionsAfter o (optionHistory es) := by
    rw [h.result]; exact (C37_run h.history h.expanded h.run).1
  have hlist := C39_list o (optionHistory es)
  dsimp only at hlist
  rw [← hopt] at hlist
  obtain ⟨h1, h2, h3⟩ := hlist
  have hkey : ∀ (c : CurrencyOrAny) d, (AMap.get a.options.inferredToleranceDefault c).map (·.1) = some d ↔
      ∃ at', Holds a.options at' (.inferredToleranceDefault c d) := by
    intro c d
    have hn := (C38_accumulates o (optionHistory es)).2.2.2.2.2.1
    rw [← hopt] at hn
    constructor
    · intro hg
      obtain ⟨⟨d', src⟩, hg', rfl⟩ := Option.map_eq_some_iff.mp hg
      exact ⟨src, get_mem hg'⟩
    · rintro ⟨at', hh⟩
      rw [AMap.get_of_mem hn hh]
      rfl
  have hset : ∀ c d, (∃ at', Holds a.options at' (.inferredToleranceDefault (match c with | none => .any | some c => .currency c) d)) ↔
      ToleranceSet env s c d := by
    intro c d
    constructor
    · rintro ⟨at', hh⟩
      obtain ⟨id, path, text, name, value, k1, k2, k3⟩ := (h.options hwf hs (by simp [settingOf])).mp hh
      cases c with
      | none =>
        dsimp only at k3
        cases k3 with
        | toleranceAny t d hc ht => exact .any ⟨path, id, text, at'.name, k1, k2⟩ ((okOf_iff _ _ _).mp ht)
      | some c =>
        dsimp only at k3
        cases k3 with
        | tolerance c t d hv hc ht => exact .currency ⟨path, id, text, at'.name, k1, k2⟩ hv ((okOf_iff _ _ _).mp ht)
    · intro hset
      cases hset with
      | any k1 k2 =>
        rename_i t at'
        obtain ⟨path, k1⟩ := k1
        obtain ⟨_, w, hw⟩ := C64_understood hwf hs ha k1
        have hw' : Decodes (okOf env.decimal) path "inferred_tolerance_default".toList ('*' :: ':' :: t)
            (.inferredToleranceDefault .any d) := by
          generalize hn : "inferred_tolerance_default".toList = n at hw
          generalize hv : '*' :: ':' :: t = val at hw
          cases hw
          case toleranceAny t' d' hc ht =>
            injection hv with _ hv
            injection hv with _ hv
            subst hv
            rw [← hn]
            exact .toleranceAny _ _ hc ((okOf_iff _ _ _).mpr k2)
          case tolerance c t' d' hv' hc ht =>
            exfalso
            exact valid_not_star hv' (h := hv)
          all_goals exact absurd hn (by decide)
        obtain ⟨id, text, nameAt, k3, k4⟩ := k1
        exact ⟨⟨nameAt, at'⟩, (h.options hwf hs (by simp [settingOf])).mpr ⟨id, path, text, _, _, k3, k4, hw'⟩⟩
      | currency k1 k2 k3 =>
        rename_i c t at'
        obtain ⟨path, k1⟩ := k1
        obtain ⟨_, w, hw⟩ := C64_understood hwf hs ha k1
        have hw' : Decodes (okOf env.decimal) path "inferred_tolerance_default".toList (c ++ ':' :: t)
            (.inferredToleranceDefault (.currency c) d) := by
          generalize hn : "inferred_tolerance_default".toList = n at hw
          generalize hv : c ++ ':' :: t = val at hw
          cases hw
          case toleranceAny t' d' hc ht =>
            exfalso
            exact valid_not_star k2 (h := hv.symm)
          case tolerance c' t' d' hv' hc ht =>
            obtain ⟨rfl, rfl⟩ := colon_split (valid_no_colon k2) (valid_no_colon hv') hv
            rw [← hn]
            exact .tolerance _ _ _ k2 hc ((okOf_iff _ _ _).mpr k3)
          all_goals exact absurd hn (by decide)
        obtain ⟨id, text, nameAt, k4, k5⟩ := k1
        exact ⟨⟨nameAt, at'⟩, (h.options hwf hs (by simp [settingOf])).mpr ⟨id, path, text, _, _, k4, k5, hw'⟩⟩
  have hfall : ∀ d, a.options.toleranceFallback = some d ↔ ToleranceSet env s none d := fun d => (hkey .any d).trans (hset none d)
  refine ⟨fun c d => ?_, h1, hfall, fun c d => ?_⟩
  · cases c with
    | none => exact (h3 d).trans (hfall d)
    | some c => exact (h2 c d).trans ((hkey _ d).trans (hset (some c) d))
  · have hc : ∀ d, (AMap.get a.options.inferredToleranceDefault (.currency c)).map (·.1) = some d ↔ ToleranceSet env s (some c) d :=
      fun d => (hkey _ d).trans (hset (some c) d)
    unfold Options.toleranceDefault
    have hfall' := hfall d
    unfold Options.toleranceFallback at hfall'
    cases hg : (AMap.get a.options.inferredToleranceDefault (.currency c)).map (·.1) with
    | none =>
      rw [Option.none_or, hfall']
      constructor
      · intro hx
        refine .inr ⟨fun d' hd' => ?_, hx⟩
        have := (hc d').mpr hd'
        rw [hg] at this
        cases this
      · rintro (hx | hx)
        · have := (hc d).mpr hx
          rw [hg] at this
          cases this
        · exact hx.2
    | some e =>
      rw [Option.some_or, ← hc, hg]
      constructor
      · exact .inl
      · rintro (hx | hx)
        · exact hx
        · exact absurd ((hc e).mp hg) (hx.1 e)

/-- C64: after a successful parse, the limit for long strings is the one written last, with the location it is written at; and
the name of an account type is the one written last, or else the usual one. -/
theorem C64_last (hwf : GlobsWF fs) (hs : ReadInSomeOrder fs env.tokens rootPath rootContent s)
    (ha : parseSources env s = .ok a) :
    let all := s.contentIter.flatMap (fun e => writtenOptions e.1 (env.tokens e.2.2))
    (∀ n at', Getters.longStringMaxlines a.options = some ⟨n, at'⟩ ↔
      ∃ value nameAt, GivenLast all "long_string_maxlines".toList value ⟨nameAt, at'⟩ ∧ UsizeText value n) ∧
    ∀ t name, Getters.accountTypeName a.options t = some name ↔
      (∃ at', GivenLast all (nameOption t) name at') ∨ ((∀ x ∈ all, x.1 ≠ nameOption t) ∧ name = Naming.initial t) := by
  obtain ⟨h1, h2⟩ := C56_last_wins hwf hs ha
  refine ⟨fun n at' => ?_, h2⟩
  constructor
  · intro hg
    obtain ⟨x, hg1, hg2⟩ := Option.map_eq_some_iff.mp hg
    obtain ⟨m, src, rfl⟩ : ∃ m src, x = sourced m src := by
      obtain ⟨dss, o, hf, ho⟩ := C56_language hwf hs ha
      obtain ⟨h3, _⟩ := lastInv_files hf [] lastInv_default
      rw [← ho, hg1] at h3
      split at h3
      · cases h3
      · obtain ⟨m, _, he⟩ := h3
        exact ⟨m, _, Option.some.inj he⟩
    obtain ⟨value, h3, h4⟩ := (h1 m src).mp hg1
    cases hg2
    exact ⟨value, src.name, h3, h4⟩
  · rintro ⟨value, nameAt, h3, h4⟩
    exact spanned_of ((h1 n ⟨nameAt, at'⟩).mpr ⟨value, h3, h4⟩)

end

/-! ### Cases -/

section
attribute [local instance] Categories.asciiOnly Sample.unicode Sample.decOps
open Printed Located

namespace Asked

/-- Options of each kind. -/
def text : Str := "option \"title\" \"T\"\noption \"operating_currency\" \"EUR\"\noption \"inferred_tolerance_default\" \"*:1\"\n".toList ++
  "option \"render_commas\" \"1\"\noption \"name_income\" \"Einkommen\"\noption \"documents\" \"d\"\n".toList ++
  "option \"inferred_tolerance_default\" \"EUR:2\"\noption \"long_string_maxlines\" \"5\"\n".toList

/-- Two numbers are known. -/
def env : ParseEnv := { Printed.env with decimal := fun s => if s = str "1" then .ok ⟨1, 0⟩ else if s = str "2" then .ok ⟨2, 0⟩ else .error ⟨[]⟩ }

theorem read : ReadInSomeOrder Whole.files Asked.env.tokens none text (inline text) := by
  rw [← inline_read Whole.files (by decide +kernel : getIncludes Asked.env.tokens text = [])]
  exact ⟨_, .refl _, rfl⟩

theorem parses : ∃ a, parseSources Asked.env (inline text) = .ok a :=
  Whole.succeeds_iff (by decide +kernel)

/-- A value and its location. -/
def pair {α : Type} (x : Spanned α) : α × Span := (x.item, x.span)

/-- Options after a successful parse, as they are asked for. -/
def texts (r : Res ParseError ParseSuccess) : Option (Option (Str × Span) × List Str × Option Str) :=
  match r with
  | .ok a => some ((Getters.title a.options).map pair, Getters.operatingCurrency a.options, Getters.accountTypeName a.options .income)
  | _ => none

def values (r : Res ParseError ParseSuccess) : Option (Option (Bool × Span) × List Path × Option (Nat × Span)) :=
  match r with
  | .ok a => some ((Getters.renderCommas a.options).map pair, Getters.documents a.options,
      (Getters.longStringMaxlines a.options).map pair)
  | _ => none

/-- The tolerances after a successful parse. -/
def tolerances (r : Res ParseError ParseSuccess) : List (Option Dec) :=
  match r with
  | .ok a => [a.options.toleranceDefault (str "EUR"), a.options.toleranceDefault (str "USD"), a.options.toleranceFallback]
  | _ => []

end Asked

/-- What the sample is asked for. -/
example : Asked.texts (parseSources Asked.env (inline Asked.text)) =
    some (some (str "T", ⟨0, 15, 18⟩), [str "EUR"], some (str "Einkommen")) := by decide +kernel

example : Asked.values (parseSources Asked.env (inline Asked.text)) =
    some (some (true, ⟨0, 118, 121⟩), [Path.ofStr (str "d")], some (5, ⟨0, 252, 255⟩)) := by decide +kernel

example : Asked.tolerances (parseSources Asked.env (inline Asked.text)) = [some ⟨2, 0⟩, some ⟨1, 0⟩, some ⟨1, 0⟩] := by
  decide +kernel

/-- The hypotheses of `C64_understood`, `C64_text`, `C64_value`, `C64_collected`, `C64_tolerances` and `C64_last` are met. -/
example : ∃ a, parseSources Asked.env (inline Asked.text) = .ok a ∧
    (Getters.title a.options = some ⟨str "T", ⟨0, 15, 18⟩⟩ ↔ OptionSet Asked.env (inline Asked.text) "title".toList (str "T") ⟨0, 15, 18⟩) ∧
    (∃ b, Getters.renderCommas a.options = some ⟨b, ⟨0, 118, 121⟩⟩ → ∃ text,
      OptionSet Asked.env (inline Asked.text) "render_commas".toList text ⟨0, 118, 121⟩) ∧
    (str "EUR" ∈ Getters.operatingCurrency a.options ↔
      ∃ at', OptionSet Asked.env (inline Asked.text) "operating_currency".toList (str "EUR") at') ∧
    (a.options.toleranceDefault (str "USD") = some ⟨1, 0⟩ ↔ ToleranceSet Asked.env (inline Asked.text) (some (str "USD")) ⟨1, 0⟩ ∨
      (∀ d', ¬ ToleranceSet Asked.env (inline Asked.text) (some (str "USD")) d') ∧ ToleranceSet Asked.env (inline Asked.text) none ⟨1, 0⟩) := by
  obtain ⟨a, ha⟩ := Asked.parses
  refine ⟨a, ha, (C64_text Whole.files_wf Asked.read ha _ _).1, ⟨true, fun h => ?_⟩,
    (C64_collected Whole.files_wf Asked.read ha).1 _, (C64_tolerances Whole.files_wf Asked.read ha).2.2.2 _ _⟩
  obtain ⟨text, h1, _⟩ := ((C64_value Whole.files_wf Asked.read ha _).2.2.1 true).mp h
  exact ⟨text, h1⟩

end

end Props
end Lima
