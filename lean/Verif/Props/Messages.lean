import Verif.Lemmas.Messages
import Verif.Lemmas.SampleFile

/-!
# C55: what errors say
-/

set_option linter.unusedSectionVars false

namespace Lima.Props

open Spec

/-! ## Names -/

/-- C55: a currency is refused with a message exactly when it consists of ASCII characters and the complaint
applies. -/
theorem C55_currency (s m : Str) :
    (∃ e, Currency.tryFrom s = .err e ∧ currencyMessage e = m) ↔ (∀ c ∈ s, Ascii c) ∧ CurrencyComplaint s m := by
  constructor
  · rintro ⟨e, h, rfl⟩
    exact ⟨currency_err_ascii h, currency_complaint h⟩
  · rintro ⟨h1, h2⟩
    exact complaint_currency h1 h2

/-- C55: letters of flags. -/
theorem C55_flag (c : Char) (m : Str) :
    (∃ e, FlagLetter.tryFrom c = .error e ∧ flagLetterMessage e = m) ↔ FlagComplaint c m := by
  constructor
  · rintro ⟨e, h, rfl⟩
    exact flag_complaint c e h
  · intro hc
    obtain ⟨h⟩ := hc
    exact ⟨c, (C17_flag_letter c c).2.mpr ⟨rfl, h⟩, flag_text c⟩

section
variable [Unicode]

/-- C55: tags and links. -/
theorem C55_tag_link (s m : Str) :
    (∃ bad, tagOrLinkTryFrom s = .error bad ∧ tagOrLinkMessage bad = m) ↔ TagComplaint s m := by
  constructor
  · rintro ⟨e, h, rfl⟩
    exact tag_complaint h
  · intro hc
    obtain @⟨bad, h1, h2⟩ := hc
    exact ⟨bad, (C17_tag_link_rejected_iff s bad).mpr ⟨h1, h2⟩, tag_text h2⟩

/-- C55: metadata keys. -/
theorem C55_key (s m : Str) : (∃ e, Key.tryFrom s = .error e ∧ keyMessage e = m) ↔ KeyComplaint s m := by
  constructor
  · rintro ⟨e, h, rfl⟩
    exact key_complaint h
  · intro h
    cases h with
    | empty => exact ⟨.empty, rfl, rfl⟩
    | initial a rest h1 =>
      exact ⟨.initial a, (C17_key_rejected_iff _ _).mpr (.inr (.inl ⟨a, rest, rfl, h1, rfl⟩)), key_initial_text a⟩
    | subsequent a rest bad h1 h2 h3 =>
      exact ⟨.subsequent bad, (C17_key_rejected_iff _ _).mpr (.inr (.inr ⟨a, rest, bad, rfl, h1, h2, h3, rfl⟩)),
        key_subsequent_text h3⟩

/-- C55: names of account types. -/
theorem C55_account_type_name (s m : Str) :
    (∃ e, AccountTypeName.tryFrom s = .error e ∧ accountTypeNameMessage e = m) ↔ TypeNameComplaint s m := by
  constructor
  · rintro ⟨e, h, rfl⟩
    exact typeName_complaint h
  · intro h
    cases h with
    | empty => exact ⟨.empty, rfl, rfl⟩
    | initial a rest h1 =>
      exact ⟨.initial a, (C17_account_type_name_rejected_iff _ _).mpr (.inr (.inl ⟨a, rest, rfl, h1, rfl⟩)),
        typeName_initial_text a⟩
    | subsequent a rest bad h1 h2 h3 =>
      exact ⟨.subsequent bad,
        (C17_account_type_name_rejected_iff _ _).mpr (.inr (.inr ⟨a, rest, bad, rfl, h1, h2, h3, rfl⟩)),
        typeName_subsequent_text h3⟩

/-- C55: components of accounts. -/
theorem C55_account_name (s m : Str) :
    (∃ e, AccountName.tryFrom s = .error e ∧ accountNameMessage e = m) ↔ AccountNameComplaint s m := by
  constructor
  · rintro ⟨e, h, rfl⟩
    exact accountName_complaint h
  · intro h
    cases h with
    | empty => exact ⟨.empty, rfl, rfl⟩
    | initial a rest h1 =>
      exact ⟨.initial a, (C17_account_name_rejected_iff _ _).mpr (.inr (.inl ⟨a, rest, rfl, h1, rfl⟩)),
        accountName_initial_text a⟩
    | subsequent a rest bad h1 h2 h3 =>
      exact ⟨.subsequent bad,
        (C17_account_name_rejected_iff _ _).mpr (.inr (.inr ⟨a, rest, bad, rfl, h1, h2, h3, rfl⟩)),
        accountName_subsequent_text h3⟩

/-- C55: accounts, after any renaming of account types. -/
theorem C55_account (us : List (AccountType × Str)) (s : Str) (e : AccountError)
    (h : Account.new s (namesAfter us) = .error e) : AccountComplaint (Naming.after us) s (accountMessage e) :=
  account_complaint us h

end

/-- C55: the characters complained about can be read off the message, whatever they are. -/
theorem C55_readable : ∀ cs ds : List Char, quoted cs = quoted ds → cs = ds := by
  have hcons : ∀ (c : Char) (d : Char) (cs : List Char),
      quoted (c :: d :: cs) = '\'' :: c :: '\'' :: ',' :: ' ' :: quoted (d :: cs) := fun _ _ _ => rfl
  have hone : ∀ c : Char, quoted [c] = ['\'', c, '\''] := fun _ => rfl
  intro cs
  induction cs with
  | nil =>
    intro ds h
    match ds with
    | [] => rfl
    | [d] => rw [hone] at h; cases h
    | d :: d' :: ds => rw [hcons] at h; cases h
  | cons c cs ih =>
    intro ds h
    match cs, ds with
    | [], [] => rw [hone] at h; cases h
    | [], [d] => rw [hone, hone] at h; cases h; rfl
    | [], d :: d' :: ds => rw [hone, hcons] at h; cases h
    | _ :: _, [] => rw [hcons] at h; cases h
    | _ :: _, [d] => rw [hone, hcons] at h; cases h
    | c' :: cs, d :: d' :: ds =>
      rw [hcons, hcons] at h
      injection h with _ h
      injection h with h1 h
      injection h with _ h
      injection h with _ h
      injection h with _ h
      rw [h1, ih _ h]

/-! ## Options and cost specifications -/

section
variable [Unicode]

/-- C55: what is said of an option which is refused; `none` is a text from elsewhere. -/
theorem C55_option (decimal : Str → Except LexerError Dec) (ok : Str → Option Dec)
    (hok : ∀ s d, ok s = some d ↔ decimal s = .ok d) (name v : Str) (path : Option Path) (e : OptParseError)
    (h : OptVariant.parse decimal name v path = .err e) : OptionComplaint ok name v (optionMessage e) := by
  have : ok = okOf decimal := by
    funext s
    cases hs : decimal s with
    | ok d => rw [(hok s d).mpr hs]; simp [okOf, hs]
    | error x =>
      simp only [okOf, hs]
      cases ho : ok s with
      | none => rfl
      | some d => rw [(hok s d).mp ho] at hs; cases hs
  rw [this]
  exact option_complaint h

theorem booking_complaint {ok : Str → Option Dec} {n v : Str} {m : Option Str} (h : OptionComplaint ok n v m)
    (hn : n = "booking_method".toList) :
    m = some ("Expected one of ".toList ++ commas ([.strict, .strictWithSize, .none, .average, .fifo, .lifo,
      .hifo].map bookingText)) := by
  cases h with
  | bookingMethod _ _ => decide +kernel
  | unknown _ _ h => exact absurd (hn ▸ h) (by decide +kernel)
  | accountTypeName _ _ _ h => exact absurd (hn ▸ h) (by decide +kernel)
  | subaccount _ _ _ h => exact absurd (hn ▸ h) (by decide +kernel)
  | currency _ _ _ h => exact absurd (hn ▸ h) (by decide +kernel)
  | _ => exact absurd hn (by decide +kernel)

theorem mode_complaint {ok : Str → Option Dec} {n v : Str} {m : Option Str} (h : OptionComplaint ok n v m)
    (hn : n = "plugin_processing_mode".toList) :
    m = some ("Expected one of ".toList ++ commas ([.default, .raw].map modeText)) := by
  cases h with
  | pluginProcessingMode _ _ => decide +kernel
  | unknown _ _ h => exact absurd (hn ▸ h) (by decide +kernel)
  | accountTypeName _ _ _ h => exact absurd (hn ▸ h) (by decide +kernel)
  | subaccount _ _ _ h => exact absurd (hn ▸ h) (by decide +kernel)
  | currency _ _ _ h => exact absurd (hn ▸ h) (by decide +kernel)
  | _ => exact absurd hn (by decide +kernel)

theorem decodes_booking {ok : Str → Option Dec} {path : Option Path} {n w : Str} {o : OptVariant}
    (h : Decodes ok path n w o) (hn : n = "booking_method".toList) : ∃ b, w = bookingText b := by
  cases h with
  | bookingMethod b => exact ⟨b, rfl⟩
  | _ => exact absurd hn (by decide +kernel)

theorem decodes_mode {ok : Str → Option Dec} {path : Option Path} {n w : Str} {o : OptVariant}
    (h : Decodes ok path n w o) (hn : n = "plugin_processing_mode".toList) : ∃ b, w = modeText b := by
  cases h with
  | pluginProcessingMode b => exact ⟨b, rfl⟩
  | _ => exact absurd hn (by decide +kernel)

/-- C55: the booking methods and processing modes listed in the messages are those which are accepted. -/
theorem C55_listed (decimal : Str → Except LexerError Dec) (v : Str) (path : Option Path) :
    (∀ e, OptVariant.parse decimal "booking_method".toList v path = .err e →
      ∃ words : List Str, optionMessage e = some ("Expected one of ".toList ++ commas words) ∧
        ∀ w, w ∈ words ↔ ∃ o, OptVariant.parse decimal "booking_method".toList w path = .ok o) ∧
    (∀ e, OptVariant.parse decimal "plugin_processing_mode".toList v path = .err e →
      ∃ words : List Str, optionMessage e = some ("Expected one of ".toList ++ commas words) ∧
        ∀ w, w ∈ words ↔ ∃ o, OptVariant.parse decimal "plugin_processing_mode".toList w path = .ok o) := by
  constructor
  · intro e h
    refine ⟨_, booking_complaint (option_complaint h) rfl, fun w => ?_⟩
    simp only [C46_decodes]
    constructor
    · intro hw
      obtain ⟨b, _, rfl⟩ := List.mem_map.mp hw
      exact ⟨_, .bookingMethod b⟩
    · rintro ⟨o, ho⟩
      obtain ⟨b, rfl⟩ := decodes_booking ho rfl
      exact List.mem_map.mpr ⟨b, by cases b <;> simp, rfl⟩
  · intro e h
    refine ⟨_, mode_complaint (option_complaint h) rfl, fun w => ?_⟩
    simp only [C46_decodes]
    constructor
    · intro hw
      obtain ⟨b, _, rfl⟩ := List.mem_map.mp hw
      exact ⟨_, .pluginProcessingMode b⟩
    · rintro ⟨o, ho⟩
      obtain ⟨b, rfl⟩ := decodes_mode ho rfl
      exact List.mem_map.mpr ⟨b, by cases b <;> simp, rfl⟩

/-- C55, the falsity of part of it: not every message tells the rule.  A component of an account may begin with
a letter which is neither an uppercase ASCII letter nor a digit, although the message says it must be one;
`render_commas` may be `1`, although the message says it must be true or false. -/
theorem C55_tells_rule_false (c : Char) (hc : ¬ Ascii c) (hl : Unicode.isAlphabetic c = true)
    (decimal : Str → Except LexerError Dec) (path : Option Path) :
    (¬ (Upper c ∨ Digit c) ∧ AccountName.tryFrom [c] = .ok [c] ∧
      AccountName.tryFrom "a".toList = .error (.initial 'a') ∧
      accountNameMessage (.initial 'a') =
        "invalid character 'a' for account name initial - must be uppercase ASCII letter or digit".toList) ∧
    ((∀ b, ¬ BoolText "1".toList b) ∧
      OptVariant.parse decimal "render_commas".toList "1".toList path = .ok (.renderCommas true) ∧
      OptVariant.parse decimal "render_commas".toList "2".toList path = .err (.badValue .bool) ∧
      optionMessage (.badValue .bool) = some "must be true or false or case-insensitive equivalent".toList) := by
  refine ⟨⟨?_, ?_, ?_, by decide +kernel⟩, ?_, ?_, ?_, by decide +kernel⟩
  · rintro (h | h)
    · have := (isAsciiUpper_iff c).mpr h
      refine hc ((isAscii_iff c).mp ?_)
      simp only [isAsciiUpper, isAscii, decide_eq_true_eq] at this ⊢
      omega
    · have := (isAsciiDigit_iff c).mpr h
      refine hc ((isAscii_iff c).mp ?_)
      simp only [isAsciiDigit, isAscii, decide_eq_true_eq] at this ⊢
      omega
  · exact (C17_account_name_accepted_iff _ _).mpr ⟨rfl, c, [], rfl, .inr (.inr ⟨hc, hl⟩), by simp⟩
  · rfl
  · rintro b (⟨⟨h, _⟩, _⟩ | ⟨⟨h, _⟩, _⟩) <;> exact absurd h (by decide)
  · rfl
  · rfl

end

/-- C55: what is said of a cost specification with repetitions: each repeated aspect, in the order of the
components. -/
theorem C55_cost_spec (comps : List (Spanned CostComp)) (es : List CostSpecError) (h : costSpecOf comps = .error es) :
    costSpecErrorsMessage es =
      commas ((repeats CostFact.kind [] (comps.flatMap costFacts)).map (fun f =>
        "duplicate ".toList ++ aspectText f.kind ++ " field in cost specification".toList)) := by
  rw [costSpec_errors h]
  unfold costSpecErrorsMessage
  rw [format_commas_none, List.map_map]
  refine congrArg commas (List.map_congr_left fun f _ => ?_)
  have : ∀ k, costSpecErrorMessage k =
      "duplicate ".toList ++ aspectText k ++ " field in cost specification".toList := by
    intro k; cases k <;> decide +kernel
  exact this f.kind

/-! ## Files -/

section
variable [Unicode] [DecOps]

/-- C55: every error of a file, apart from those about unexpected tokens, is about something which stands in the
file at the location of the error, and the reason says what is wrong with it. -/
theorem C55_file_partial {cfg : ParseCfg} {o : ParserOptions} {toks : List Ranged} {warns : List Report}
    {res : Grammar.FileResult} (h : Grammar.parseFile cfg toks o warns = some res) (e : PErr) (he : e ∈ res.errors) :
    Explained cfg o toks e.reason e.span := file_explained h he

end

/-! ## Examples -/

/-- Names of each kind are refused. -/
example : Currency.tryFrom (str "US$%D") = .err (.intermediate ['$', '%']) := by decide
example : CurrencyComplaint "US$%D".toList
    ("invalid intermediate characters '$', '%' for currency - must be upppercase ASCII alphanumeric or one of " ++
      "''', '.', '_', '-'").toList :=
  ((C55_currency _ _).mp ⟨.intermediate ['$', '%'], by decide, by decide +kernel⟩).2
example : @TagComplaint Unicode.asciiOnly "a b".toList
    "invalid characters ' ' for tag or link identifier - must be alphanumeric or one of '-', '_', '/', '.'".toList :=
  (@C55_tag_link Unicode.asciiOnly _ _).mp ⟨[' '], by rfl, by decide +kernel⟩
example : @KeyComplaint Unicode.asciiOnly "Key".toList
    "invalid character 'K' for key initial - must be lowercase ASCII letter".toList :=
  (@C55_key Unicode.asciiOnly _ _).mp ⟨.initial 'K', by rfl, by decide +kernel⟩
example : FlagComplaint 'a' "invalid character 'a' for flag letter - must be uppercase ASCII".toList :=
  (C55_flag _ _).mp ⟨'a', by rfl, by decide +kernel⟩

/-- An account of a type whose name was changed. -/
example : @AccountComplaint Unicode.asciiOnly (Naming.after [(.assets, "Aktiva".toList)]) "Assets:Cash".toList
    "unknown account type Assets, must be one of Aktiva, Liabilities, Equity, Income, Expenses".toList := by
  have h := @C55_account Unicode.asciiOnly [(.assets, "Aktiva".toList)] "Assets:Cash".toList
    (.unknownAccountType (str "Assets")
      [str "Aktiva", str "Liabilities", str "Equity", str "Income", str "Expenses"]) (by rfl)
  have ht : accountMessage (.unknownAccountType (str "Assets")
      [str "Aktiva", str "Liabilities", str "Equity", str "Income", str "Expenses"]) =
      "unknown account type Assets, must be one of Aktiva, Liabilities, Equity, Income, Expenses".toList := by
    decide +kernel
  exact cast (congrArg (@AccountComplaint Unicode.asciiOnly _ _) ht) h

/-- Options are refused, with texts of their own and from elsewhere. -/
example : @OptVariant.parse Unicode.asciiOnly (fun _ => .error ⟨[]⟩) "booking_method".toList "strict".toList none =
    .err (.badValue .booking) := by decide +kernel
example : @OptVariant.parse Unicode.asciiOnly (fun _ => .error ⟨[]⟩) "inferred_tolerance_default".toList
    "USD:x".toList none = .err (.badValue .decimal) := by decide +kernel
example : @OptVariant.parse Unicode.asciiOnly (fun _ => .error ⟨[]⟩) "plugin_processing_mode".toList "raw".toList
    none = .err (.badValue .pluginProcessingMode) := by decide +kernel

/-- `{10, USD, # 2, 20, EUR}` -/
example : costSpecErrorsMessage [.perUnit, .currency] =
    "duplicate per-unit field in cost specification, duplicate currency field in cost specification".toList := by
  decide +kernel
example : ∃ es, costSpecOf [⟨.amount (.bareAmount (.perUnit ⟨⟨10, 0⟩, .value ⟨10, 0⟩⟩)), ⟨0, 1, 3⟩⟩,
      ⟨.amount (.bareCurrency (str "USD")), ⟨0, 5, 8⟩⟩,
      ⟨.amount (.bareAmount (.total ⟨⟨2, 0⟩, .value ⟨2, 0⟩⟩)), ⟨0, 10, 13⟩⟩,
      ⟨.amount (.bareAmount (.perUnit ⟨⟨20, 0⟩, .value ⟨20, 0⟩⟩)), ⟨0, 15, 17⟩⟩,
      ⟨.amount (.bareCurrency (str "EUR")), ⟨0, 19, 22⟩⟩] = .error es ∧ es = [.perUnit, .currency] :=
  ⟨_, rfl, rfl⟩

section
open Grammar

attribute [local instance] Sample.unicode Sample.decOps

/-- A file with repeated things. -/
example (e : PErr) (he : e ∈ Sample.errors) : Explained Sample.cfg Sample.opts (Sample.tx ++ Sample.opening)
    e.reason e.span := C55_file_partial Sample.parsed e he

/-- A file with bad options: a name in use for another account type by way of an earlier option, and a bad
value. -/
example : ((parseFile Sample.cfg
    [⟨.option, 0, 6⟩, ⟨.stringLiteral (str "name_assets"), 7, 20⟩, ⟨.stringLiteral (str "Aktiva"), 21, 29⟩,
      ⟨.eol, 29, 30⟩,
      ⟨.option, 30, 36⟩, ⟨.stringLiteral (str "name_equity"), 37, 50⟩, ⟨.stringLiteral (str "Aktiva"), 51, 59⟩,
      ⟨.eol, 59, 60⟩,
      ⟨.option, 60, 66⟩, ⟨.stringLiteral (str "render_commas"), 67, 82⟩, ⟨.stringLiteral (str "2"), 83, 86⟩,
      ⟨.eol, 86, 87⟩] Sample.opts []).any
    (fun r => r.errors.map (fun e => (e.reason, e.span)) ==
      [(some (str "account type name in use for Assets"), some ⟨7, 51, 59⟩),
        (some (str "must be true or false or case-insensitive equivalent"), some ⟨7, 83, 86⟩)])) = true := by
  decide +kernel

end

end Lima.Props
