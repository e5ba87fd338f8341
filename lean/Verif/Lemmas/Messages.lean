import Verif.Model.Messages
import Verif.Spec.Messages
import Verif.Props.CostSpec
import Verif.Props.OptionDecoding
import Verif.Props.Locations
import Verif.Props.Recovery

/-! Lemmas on the texts of errors. -/

set_option linter.unusedSectionVars false

namespace Lima.Props
open Lima Lima.Spec

theorem flatMap_commas {α : Type} (f : α → Str) (a : α) (l : List α) :
    f a ++ l.flatMap (fun x => str ", " ++ f x) = commas ((a :: l).map f) := by
  induction l generalizing a with
  | nil => simp [commas]
  | cons b l ih =>
    have := ih b
    simp only [List.map_cons, commas, List.flatMap_cons] at this ⊢
    rw [← this]
    simp [str]

theorem format_commas {α : Type} (f : α → Str) (pre : Str) {l : List α} (h : l ≠ []) :
    Display.format f (str ", ") (some pre) l = pre ++ commas (l.map f) := by
  cases l with
  | nil => exact absurd rfl h
  | cons a l => rw [← flatMap_commas]; simp [Display.format]

theorem format_commas_none {α : Type} (f : α → Str) (l : List α) :
    Display.format f (str ", ") none l = commas (l.map f) := by
  cases l with
  | nil => rfl
  | cons a l => rw [← flatMap_commas]; simp [Display.format]

theorem format_quoted (pre : Str) {l : List Char} (h : l ≠ []) :
    Display.format singleQuoted (str ", ") (some pre) l = pre ++ quoted l := by
  rw [format_commas _ _ h]; rfl

theorem wrap {p p' q q' : Str} (c : Char) (hp : p' = p ++ ['\'']) (hq : q' = '\'' :: q) :
    p' ++ [c] ++ q' = p ++ quoted [c] ++ q := by
  subst hp hq; simp [quoted, commas]

theorem offending_eq {allowed : Char → Prop} {f : Char → Bool} (h : ∀ c, f c = true ↔ allowed c) (s : Str) :
    offending allowed s = s.filter (fun c => !f c) := by
  unfold offending
  congr 1
  funext c
  cases hc : f c with
  | true => simp [(h c).mp hc]
  | false => simp [mt (h c).mpr (by simp [hc])]

/-! ### Texts -/

theorem currency_initial_text (c : Char) : currencyMessage (.initial c) =
    "invalid initial character ".toList ++ quoted [c] ++
      " for currency - must be uppercase ASCII letter or '/'".toList :=
  wrap c (by decide +kernel) (by decide +kernel)

theorem currency_final_text (c : Char) : currencyMessage (.final c) =
    "invalid final character ".toList ++ quoted [c] ++
      " for currency - must be uppercase ASCII alphanumeric".toList :=
  wrap c (by decide +kernel) (by decide +kernel)

theorem currency_extra_text : str " for currency - must be upppercase ASCII alphanumeric or one of " ++
    quoted ['\'', '.', '_', '-'] =
      " for currency - must be upppercase ASCII alphanumeric or one of ''', '.', '_', '-'".toList := by decide +kernel

theorem currency_intermediate_text {cs : List Char} (h : cs ≠ []) : currencyMessage (.intermediate cs) =
    "invalid intermediate characters ".toList ++ quoted cs ++
      " for currency - must be upppercase ASCII alphanumeric or one of ''', '.', '_', '-'".toList := 
  congr (congrArg (· ++ ·) (format_quoted (str _) h)) ((format_quoted (str _) (by simp)).trans currency_extra_text)

theorem flag_text (c : Char) : flagLetterMessage c =
    "invalid character ".toList ++ quoted [c] ++ " for flag letter - must be uppercase ASCII".toList :=
  wrap c (by decide +kernel) (by decide +kernel)

theorem tag_extra_text : str " for tag or link identifier - must be alphanumeric or one of " ++
    quoted ['-', '_', '/', '.'] =
      " for tag or link identifier - must be alphanumeric or one of '-', '_', '/', '.'".toList := by decide +kernel

theorem tag_text {cs : List Char} (h : cs ≠ []) : tagOrLinkMessage cs =
    "invalid characters ".toList ++ quoted cs ++
      " for tag or link identifier - must be alphanumeric or one of '-', '_', '/', '.'".toList := 
  have h2 := (format_quoted (l := ['-', '_', '/', '.']) (str _) (by simp)).trans tag_extra_text
  (congrArg (· ++ _) (format_quoted (str _) h)).trans (congrArg (_ ++ ·) h2)

theorem key_initial_text (c : Char) : keyMessage (.initial c) =
    "invalid character ".toList ++ quoted [c] ++ " for key initial - must be lowercase ASCII letter".toList :=
  wrap c (by decide +kernel) (by decide +kernel)

theorem key_subsequent_text {cs : List Char} (h : cs ≠ []) : keyMessage (.subsequent cs) =
    "invalid characters ".toList ++ quoted cs ++ " for key - must be alphanumeric or '-' or '_'".toList :=
  congrArg (· ++ str _) (format_quoted (str _) h)

theorem typeName_initial_text (c : Char) : accountTypeNameMessage (.initial c) =
    "invalid character ".toList ++ quoted [c] ++
      " for account name initial - must be uppercase ASCII letter".toList :=
  wrap c (by decide +kernel) (by decide +kernel)

theorem typeName_subsequent_text {cs : List Char} (h : cs ≠ []) : accountTypeNameMessage (.subsequent cs) =
    "invalid character ".toList ++ quoted cs ++ " in account name - must be alphanumeric or '-'".toList :=
  congrArg (· ++ str _) (format_quoted (str _) h)

theorem accountName_initial_text (c : Char) : accountNameMessage (.initial c) =
    "invalid character ".toList ++ quoted [c] ++
      " for account name initial - must be uppercase ASCII letter or digit".toList :=
  wrap c (by decide +kernel) (by decide +kernel)

theorem accountName_subsequent_text {cs : List Char} (h : cs ≠ []) : accountNameMessage (.subsequent cs) =
    "invalid character ".toList ++ quoted cs ++ " in account name - must be alphanumeric or '-'".toList :=
  congrArg (· ++ str _) (format_quoted (str _) h)

theorem unknown_text (root : Str) (names : List Str) : accountMessage (.unknownAccountType root names) =
    "unknown account type ".toList ++ root ++ ", must be one of ".toList ++ commas names :=
  congrArg (_ ++ ·) ((format_commas_none id names).trans (congrArg commas (List.map_id names)))

theorem booking_text : badValueMessage .booking =
    some "Expected one of STRICT, STRICT_WITH_SIZE, NONE, AVERAGE, FIFO, LIFO, HIFO".toList := by decide +kernel

theorem mode_text : badValueMessage .pluginProcessingMode = some "Expected one of DEFAULT, RAW".toList := by decide +kernel

/-! ### Names -/

/-- A refused currency is ASCII. -/
theorem currency_err_ascii {s : Str} {e : CurrencyError} (h : Currency.tryFrom s = .err e) : ∀ c ∈ s, Ascii c := by
  intro c hc
  apply Classical.byContradiction
  intro hn
  rw [(C16_currency_panic_iff s).mpr ⟨c, hc, hn⟩] at h
  cases h

theorem check_complaint {s : Str} {a z : Char} {mid : List Char} {e : CurrencyError}
    (hs : s = a :: (mid ++ [z]) ∨ s = [a] ∧ mid = [] ∧ z = a) (h : Currency.check s a mid z = .err e) :
    CurrencyComplaint s (currencyMessage e) := by
  have hI : ∀ c, Currency.isValidInitial c = true ↔ (Upper c ∨ c = '/') := by
    intro c; simp [Currency.isValidInitial, isAsciiUpper_iff]
  have hF : ∀ c, Currency.isValidFinal c = true ↔ (Upper c ∨ Digit c) := by
    intro c; simp [Currency.isValidFinal, isAsciiUpper_iff, isAsciiDigit_iff]
  have hM : ∀ c, Currency.isValidIntermediate c = true ↔
      (Upper c ∨ Digit c ∨ c = '\'' ∨ c = '.' ∨ c = '_' ∨ c = '-') := by
    intro c; simp [Currency.isValidIntermediate, isAsciiUpper_iff, isAsciiDigit_iff, or_assoc]
  have hhead : s.head? = some a := by rcases hs with rfl | ⟨rfl, _⟩ <;> rfl
  have hlast : s.getLast? = some z := by
    rcases hs with rfl | ⟨rfl, _, rfl⟩
    · rw [← List.cons_append, List.getLast?_append]; simp
    · rfl
  unfold Currency.check at h
  split at h
  · rename_i hi
    cases h
    obtain ⟨rest, rfl⟩ : ∃ rest, s = a :: rest := by
      rcases hs with rfl | ⟨rfl, _⟩ <;> exact ⟨_, rfl⟩
    rw [currency_initial_text]
    exact CurrencyComplaint.initial a rest (by rw [← hI]; simpa using hi)
  rename_i hi
  have hi : Upper a ∨ a = '/' := (hI a).mp (by simpa using hi)
  split at h
  · rename_i hf
    cases h
    rw [currency_final_text]
    exact CurrencyComplaint.final a z s hhead hlast hi (by rw [← hF]; simpa using hf)
  rename_i hf
  have hf : Upper z ∨ Digit z := (hF z).mp (by simpa using hf)
  simp only at h
  split at h
  · rename_i hb
    cases h
    have hb' : mid.filter (fun c => !Currency.isValidIntermediate c) ≠ [] := by
      intro e; rw [e] at hb; simp at hb
    have hs' : s = a :: (mid ++ [z]) := by
      rcases hs with hs | ⟨_, hm, _⟩
      · exact hs
      · subst hm; exact absurd rfl hb'
    subst hs'
    rw [currency_intermediate_text hb']
    exact CurrencyComplaint.intermediate a z mid _ hi hf (offending_eq hM mid).symm hb'
  rename_i hb
  have hb' : mid.filter (fun c => !Currency.isValidIntermediate c) = [] := by simpa using hb
  split at h
  · rename_i hn
    cases h
    have hup : ∀ c ∈ s, ¬ Upper c := by
      intro c hc hu
      have := (List.find?_eq_none.mp (Option.isNone_iff_eq_none.mp hn)) c hc
      exact this ((isAsciiUpper_iff c).mpr hu)
    have hs' : s = a :: (mid ++ [z]) := by
      rcases hs with hs | ⟨rfl, _, rfl⟩
      · exact hs
      · exfalso
        rcases hi with hi | rfl
        · exact hup _ (by simp) hi
        · revert hf; simp only [Upper, Digit]; decide
    subst hs'
    refine CurrencyComplaint.missingLetter a z mid hi hf ?_ hup
    intro c hc
    rw [← hM]
    have := List.filter_eq_nil_iff.mp hb' c hc
    simpa using this
  · cases h

theorem currency_complaint {s : Str} {e : CurrencyError} (h : Currency.tryFrom s = .err e) :
    CurrencyComplaint s (currencyMessage e) := by
  have hasc := currency_err_ascii h
  cases s with
  | nil => cases h; exact .empty
  | cons a rest =>
    have hl : byteLen (a :: rest) = rest.length + 1 := by
      rw [(byteLen_eq_length_iff _).mpr (fun c hc => (isAscii_iff c).mpr (hasc c hc))]; rfl
    unfold Currency.tryFrom at h
    simp only [hl] at h
    rcases List.eq_nil_or_concat rest with rfl | ⟨mid, z, rfl⟩
    · simp only [List.length_nil, Nat.zero_add, Nat.lt_irrefl, if_false] at h
      exact check_complaint (.inr ⟨rfl, by simp, rfl⟩) h
    · simp only [List.concat_eq_append, List.length_append, List.length_cons, List.length_nil] at h hl ⊢
      rw [if_pos (by omega)] at h
      have ht : (if mid.length + (0 + 1) + 1 > 2 then mid.length + (0 + 1) + 1 - 2 else 0) = mid.length := by
        split <;> omega
      rw [ht] at h
      simp only [List.drop_left, List.take_left] at h
      exact check_complaint (.inl rfl) h

theorem tryFrom_two {a z : Char} {mid : List Char} (hasc : ∀ c ∈ a :: (mid ++ [z]), Ascii c) :
    Currency.tryFrom (a :: (mid ++ [z])) = Currency.check (a :: (mid ++ [z])) a mid z := by
  have hl : byteLen (a :: (mid ++ [z])) = mid.length + 2 := by
    rw [(byteLen_eq_length_iff _).mpr (fun c hc => (isAscii_iff c).mpr (hasc c hc))]; simp
  unfold Currency.tryFrom
  simp only [hl]
  rw [if_pos (by omega)]
  have ht : (if mid.length + 2 > 2 then mid.length + 2 - 2 else 0) = mid.length := by
    split <;> omega
  rw [ht]
  simp only [List.drop_left, List.take_left]

theorem tryFrom_one {a : Char} (hasc : Ascii a) : Currency.tryFrom [a] = Currency.check [a] a [] a := by
  have hl : byteLen [a] = 1 := by
    rw [(byteLen_eq_length_iff _).mpr (fun c hc => (isAscii_iff c).mpr (by simp at hc; exact hc ▸ hasc))]; simp
  unfold Currency.tryFrom
  simp only [hl]
  rfl

theorem complaint_currency {s m : Str} (hasc : ∀ c ∈ s, Ascii c) (h : CurrencyComplaint s m) :
    ∃ e, Currency.tryFrom s = .err e ∧ currencyMessage e = m := by
  have hI : ∀ c, Currency.isValidInitial c = true ↔ (Upper c ∨ c = '/') := by
    intro c; simp [Currency.isValidInitial, isAsciiUpper_iff]
  have hF : ∀ c, Currency.isValidFinal c = true ↔ (Upper c ∨ Digit c) := by
    intro c; simp [Currency.isValidFinal, isAsciiUpper_iff, isAsciiDigit_iff]
  have hM : ∀ c, Currency.isValidIntermediate c = true ↔
      (Upper c ∨ Digit c ∨ c = '\'' ∨ c = '.' ∨ c = '_' ∨ c = '-') := by
    intro c; simp [Currency.isValidIntermediate, isAsciiUpper_iff, isAsciiDigit_iff, or_assoc]
  cases h with
  | empty => exact ⟨.empty, rfl, rfl⟩
  | initial a rest hn =>
    refine ⟨.initial a, ?_, currency_initial_text a⟩
    have hi : Currency.isValidInitial a = false := by simpa using mt (hI a).mp hn
    rcases List.eq_nil_or_concat rest with rfl | ⟨mid, z, rfl⟩
    · rw [tryFrom_one (hasc a (by simp))]; simp [Currency.check, hi]
    · rw [List.concat_eq_append] at hasc ⊢
      rw [tryFrom_two hasc]; simp [Currency.check, hi]
  | final a z _ h1 h2 h3 h4 =>
    refine ⟨.final z, ?_, currency_final_text z⟩
    have hi : Currency.isValidInitial a = true := (hI a).mpr h3
    have hf : Currency.isValidFinal z = false := by simpa using mt (hF z).mp h4
    cases s with
    | nil => cases h1
    | cons a' rest =>
      cases h1
      rcases List.eq_nil_or_concat rest with rfl | ⟨mid, z', rfl⟩
      · rw [List.getLast?_singleton, Option.some.injEq] at h2
        subst h2
        rw [tryFrom_one (hasc a (by simp))]; simp [Currency.check, hi, hf]
      · rw [List.concat_eq_append] at hasc h2 ⊢
        rw [← List.cons_append, List.getLast?_append] at h2
        simp at h2
        subst h2
        rw [tryFrom_two hasc]; simp [Currency.check, hi, hf]
  | intermediate a z mid bad h1 h2 h3 h4 =>
    refine ⟨.intermediate bad, ?_, currency_intermediate_text h4⟩
    rw [offending_eq hM] at h3
    rw [tryFrom_two hasc]
    have : (mid.filter (fun c => !Currency.isValidIntermediate c)).isEmpty = false := by
      rw [← h3]; simpa using h4
    simp only [Currency.check, (hI a).mpr h1, (hF z).mpr h2, this]
    simp [h3]
  | missingLetter a z mid h1 h2 h3 h4 =>
    refine ⟨.missingLetter, ?_, rfl⟩
    rw [tryFrom_two hasc]
    have : mid.filter (fun c => !Currency.isValidIntermediate c) = [] := by
      rw [List.filter_eq_nil_iff]
      intro c hc
      simp [(hM c).mpr (h3 c hc)]
    have h5 : (a :: (mid ++ [z])).find? isAsciiUpper = none := by
      rw [List.find?_eq_none]
      intro c hc hu
      exact h4 c hc ((isAsciiUpper_iff c).mp hu)
    simp only [Currency.check, (hI a).mpr h1, (hF z).mpr h2, this, h5]
    simp

theorem flag_complaint (c d : Char) (h : FlagLetter.tryFrom c = .error d) : FlagComplaint c (flagLetterMessage d) := by
  obtain ⟨rfl, hn⟩ := (C17_flag_letter c d).2.mp h
  rw [flag_text]
  exact .mk d hn

section
variable [Unicode]

theorem tag_complaint {s : Str} {bad : List Char} (h : tagOrLinkTryFrom s = .error bad) :
    TagComplaint s (tagOrLinkMessage bad) := by
  obtain ⟨h1, h2⟩ := (C17_tag_link_rejected_iff s bad).mp h
  rw [tag_text h2]
  exact .mk s bad h1 h2

theorem key_complaint {s : Str} {e : NameError} (h : Key.tryFrom s = .error e) : KeyComplaint s (keyMessage e) := by
  rcases (C17_key_rejected_iff s e).mp h with ⟨rfl, rfl⟩ | ⟨a, rest, rfl, h1, rfl⟩ | ⟨a, rest, bad, rfl, h1, h2, h3, rfl⟩
  · exact .empty
  · rw [key_initial_text]; exact .initial a rest h1
  · rw [key_subsequent_text h3]; exact .subsequent a rest bad h1 h2 h3

theorem typeName_complaint {s : Str} {e : NameError} (h : AccountTypeName.tryFrom s = .error e) :
    TypeNameComplaint s (accountTypeNameMessage e) := by
  rcases (C17_account_type_name_rejected_iff s e).mp h with
    ⟨rfl, rfl⟩ | ⟨a, rest, rfl, h1, rfl⟩ | ⟨a, rest, bad, rfl, h1, h2, h3, rfl⟩
  · exact .empty
  · rw [typeName_initial_text]; exact .initial a rest h1
  · rw [typeName_subsequent_text h3]; exact .subsequent a rest bad h1 h2 h3

theorem accountName_complaint {s : Str} {e : NameError} (h : AccountName.tryFrom s = .error e) :
    AccountNameComplaint s (accountNameMessage e) := by
  rcases (C17_account_name_rejected_iff s e).mp h with
    ⟨rfl, rfl⟩ | ⟨a, rest, rfl, h1, rfl⟩ | ⟨a, rest, bad, rfl, h1, h2, h3, rfl⟩
  · exact .empty
  · rw [accountName_initial_text]; exact .initial a rest h1
  · rw [accountName_subsequent_text h3]; exact .subsequent a rest bad h1 h2 h3

/-- The first bad component. -/
theorem checkSubaccounts_error {ws : List Str} {e : AccountError} (h : checkSubaccounts ws = .error e) :
    ∃ good w bad n, ws = good ++ w :: bad ∧ (∀ g ∈ good, ValidAccountName g) ∧ AccountName.tryFrom w = .error n ∧
      e = .accountName n := by
  induction ws with
  | nil => cases h
  | cons w ws ih =>
    unfold checkSubaccounts at h
    split at h
    · rename_i n hn
      cases h
      exact ⟨[], w, ws, n, rfl, by simp, hn, rfl⟩
    · rename_i t ht
      obtain ⟨good, w', bad, n, rfl, h1, h2, h3⟩ := ih h
      refine ⟨w :: good, w', bad, n, rfl, ?_, h2, h3⟩
      intro g hg
      rcases List.mem_cons.mp hg with rfl | hg
      · exact ((accountName_ok g t).mp ht).2
      · exact h1 g hg

theorem subaccount_go_error {s : Str} {ws : List Str} {b : Bool} {n : NameError} (hb : ws ≠ [] ∨ b = false)
    (h : Subaccount.tryFrom.go s ws b = .error n) :
    ∃ good w bad, ws = good ++ w :: bad ∧ (∀ g ∈ good, ValidAccountName g) ∧ AccountName.tryFrom w = .error n := by
  induction ws generalizing b with
  | nil =>
    rcases hb with hb | rfl
    · exact absurd rfl hb
    · cases h
  | cons w ws ih =>
    unfold Subaccount.tryFrom.go at h
    split at h
    · rename_i n hn
      cases h
      exact ⟨[], w, ws, rfl, by simp, hn⟩
    · rename_i t ht
      obtain ⟨good, w', bad, rfl, h1, h2⟩ := ih (.inr rfl) h
      refine ⟨w :: good, w', bad, rfl, ?_, h2⟩
      intro g hg
      rcases List.mem_cons.mp hg with rfl | hg
      · exact ((accountName_ok g t).mp ht).2
      · exact h1 g hg

theorem subaccount_complaint {s : Str} {n : NameError} (h : Subaccount.tryFrom s = .error n) :
    ComponentsComplaint s (accountNameMessage n) := by
  obtain ⟨good, w, bad, hs, h1, h2⟩ := subaccount_go_error (.inl (splitColon_ne_nil s)) h
  rw [← join_splitColon s, hs]
  refine .mk good bad w _ h1 ?_ (accountName_complaint h2)
  intro x hx
  exact splitColon_noColon s x (by rw [hs]; simp only [List.mem_append]; exact .inr hx)

theorem account_complaint (us : List (AccountType × Str)) {s : Str} {e : AccountError}
    (h : Account.new s (namesAfter us) = .error e) : AccountComplaint (Naming.after us) s (accountMessage e) := by
  have hr : Refines (namesAfter us) (Naming.after us) := refines_after us
  have hj := join_splitColon s
  have hn := splitColon_noColon s
  unfold Account.new at h
  cases hs : splitColon s with
  | nil => exact absurd hs (splitColon_ne_nil s)
  | cons root subs =>
    rw [hs] at h hj hn
    simp only at h
    rw [← hj]
    cases ht : AccountTypeName.tryFrom root with
    | error n =>
      rw [ht] at h
      cases h
      exact .root root subs _ hn (typeName_complaint ht)
    | ok root' =>
      obtain ⟨rfl, hv⟩ := (accountTypeName_ok root root').mp ht
      rw [ht] at h
      simp only at h
      cases hc : checkSubaccounts subs with
      | error n =>
        rw [hc] at h
        cases h
        obtain ⟨good, w, bad, n', rfl, h1, h2, rfl⟩ := checkSubaccounts_error hc
        refine .component root' good bad w _ hv h1 ?_ (accountName_complaint h2)
        intro x hx
        exact hn x (by simp only [List.mem_cons, List.mem_append]; exact .inr (.inr (List.mem_cons.mp hx)))
      | ok u =>
        rw [hc] at h
        simp only at h
        cases hg : (namesAfter us).get root' with
        | some t => rw [hg] at h; cases h
        | none =>
          rw [hg] at h
          cases h
          have hl : (namesAfter us).nameByType = [Naming.after us .assets, Naming.after us .liabilities,
              Naming.after us .equity, Naming.after us .income, Naming.after us .expenses] := by
            have hlen := hr.len
            have g := fun t => hr.name t
            unfold AccountTypeNames.name at g
            have g0 := g .assets
            have g1 := g .liabilities
            have g2 := g .equity
            have g3 := g .income
            have g4 := g .expenses
            simp only [AccountType.idx] at g0 g1 g2 g3 g4
            apply List.ext_getElem?
            intro i
            match i with
            | 0 => exact g0
            | 1 => exact g1
            | 2 => exact g2
            | 3 => exact g3
            | 4 => exact g4
            | i + 5 => simp [hlen]
          have := AccountComplaint.unknown (names := Naming.after us) root' subs hv ((checkSubaccounts_ok subs).mp hc) (by
            intro t ht
            rw [(hr.get _ _).mpr ht] at hg
            cases hg)
          rw [unknown_text, hl]
          exact this

/-! ### Options -/

theorem mapErr_err {ε δ α : Type} {f : ε → δ} {r : Res ε α} {d : δ} (h : r.mapErr f = .err d) :
    ∃ e, r = .err e ∧ f e = d := by
  cases r <;> simp [Res.mapErr] at h
  exact ⟨_, rfl, h⟩

theorem ofExcept_err {ε α : Type} {r : Except ε α} {e : ε} (h : Res.ofExcept r = .err e) : r = .error e := by
  cases r <;> simp [Res.ofExcept] at h
  rw [h]

theorem ofOption_err {α : Type} {b : BadValue} {r : Option α} {e : OptParseError} (h : Res.ofOption b r = .err e) :
    r = none ∧ e = .badValue b := by
  cases r <;> simp [Res.ofOption] at h
  exact ⟨rfl, h.symm⟩

theorem parseAccountTypeName_err {v : Str} {e : OptParseError} (h : parseAccountTypeName v = .err e) :
    ∃ m, optionMessage e = some m ∧ TypeNameComplaint v m := by
  obtain ⟨n, h1, rfl⟩ := mapErr_err h
  exact ⟨_, rfl, typeName_complaint (ofExcept_err h1)⟩

theorem parseSubaccount_err {v : Str} {e : OptParseError} (h : parseSubaccount v = .err e) :
    ∃ m, optionMessage e = some m ∧ ComponentsComplaint v m := by
  obtain ⟨n, h1, rfl⟩ := mapErr_err h
  exact ⟨_, rfl, subaccount_complaint (ofExcept_err h1)⟩

theorem parseCurrency_err {v : Str} {e : OptParseError} (h : parseCurrency v = .err e) :
    ∃ m, optionMessage e = some m ∧ CurrencyComplaint v m := by
  obtain ⟨n, h1, rfl⟩ := mapErr_err h
  exact ⟨_, rfl, currency_complaint h1⟩

theorem currencyOrAny_err {v : Str} {e : CurrencyError} (h : CurrencyOrAny.tryFrom v = .err e) :
    v ≠ str "*" ∧ Currency.tryFrom v = .err e := by
  unfold CurrencyOrAny.tryFrom at h
  split at h
  · cases h
  · rename_i hn
    exact ⟨hn, (map_err _ _ _).mp h⟩

theorem okOf_none {decimal : Str → Except LexerError Dec} {v : Str} {x : LexerError} (h : decimal v = .error x) :
    okOf decimal v = none := by
  unfold okOf; rw [h]

theorem tolerance_err {decimal : Str → Except LexerError Dec} {v : Str} {e : OptParseError}
    (h : parseInferredToleranceDefault decimal v = .err e) :
    OptionComplaint (okOf decimal) "inferred_tolerance_default".toList v (optionMessage e) := by
  have hj := join_splitColon v
  have hn := splitColon_noColon v
  unfold parseInferredToleranceDefault at h
  cases hs : splitColon v with
  | nil => exact absurd hs (splitColon_ne_nil v)
  | cons first rest =>
    rw [hs] at h hj hn
    simp only at h
    have hf : ':' ∉ first := hn first (by simp)
    cases hc : CurrencyOrAny.tryFrom first with
    | panic => rw [hc] at h; cases h
    | err n =>
      rw [hc] at h
      cases h
      obtain ⟨h1, h2⟩ := currencyOrAny_err hc
      cases rest with
      | nil => exact .toleranceCurrency first [] v _ (.inl hj.symm) hf h1 (currency_complaint h2)
      | cons second rest =>
        exact .toleranceCurrency first (joinColon (second :: rest)) v _ (.inr hj.symm) hf h1 (currency_complaint h2)
    | ok c =>
      rw [hc] at h
      simp only at h
      have hv : first = "*".toList ∨ ValidCurrency first := by
        rcases (currencyOrAny_ok first c).mp hc with ⟨h1, _⟩ | ⟨h1, _⟩
        · exact .inl h1
        · exact .inr h1
      cases rest with
      | nil =>
        cases h
        have e : v = first := hj.symm
        subst e
        exact .toleranceMissing v hf hv
      | cons second rest =>
        have h2 : ':' ∉ second := hn second (by simp)
        simp only at h
        cases hd : decimal second with
        | error x =>
          rw [hd] at h
          cases h
          cases rest with
          | nil => exact .toleranceNumber first second [] v (.inl hj.symm) hf h2 hv (okOf_none hd)
          | cons third rest =>
            exact .toleranceNumber first second (joinColon (third :: rest)) v (.inr hj.symm) hf h2 hv (okOf_none hd)
        | ok d =>
          rw [hd] at h
          simp only at h
          cases rest with
          | nil => cases h
          | cons third rest =>
            cases h
            rw [← hj]
            exact .toleranceMore first second (joinColon (third :: rest)) d hf h2 hv (by unfold okOf; rw [hd])

theorem option_complaint {decimal : Str → Except LexerError Dec} {name v : Str} {path : Option Path}
    {e : OptParseError} (h : OptVariant.parse decimal name v path = .err e) :
    OptionComplaint (okOf decimal) name v (optionMessage e) := by
  have h0 := h
  have T : ∀ {n}, n ∈ ["name_assets", "name_liabilities", "name_equity", "name_income",
      "name_expenses"].map (·.toList) → parseAccountTypeName v = .err e →
      OptionComplaint (okOf decimal) n v (optionMessage e) := by
    intro n hn h
    obtain ⟨m, h1, h2⟩ := parseAccountTypeName_err h
    rw [h1]; exact .accountTypeName n v m hn h2
  have S : ∀ {n}, n ∈ ["account_previous_balances", "account_previous_earnings", "account_previous_conversions",
      "account_current_earnings", "account_current_conversions", "account_unrealized_gains",
      "account_rounding"].map (·.toList) → parseSubaccount v = .err e →
      OptionComplaint (okOf decimal) n v (optionMessage e) := by
    intro n hn h
    obtain ⟨m, h1, h2⟩ := parseSubaccount_err h
    rw [h1]; exact .subaccount n v m hn h2
  have C : ∀ {n}, n ∈ ["conversion_currency", "operating_currency"].map (·.toList) → parseCurrency v = .err e →
      OptionComplaint (okOf decimal) n v (optionMessage e) := by
    intro n hn h
    obtain ⟨m, h1, h2⟩ := parseCurrency_err h
    rw [h1]; exact .currency n v m hn h2
  unfold OptVariant.parse at h
  rcases ite_res h with ⟨hn, h⟩ | ⟨-, h⟩
  · cases h
  rcases ite_res h with ⟨rfl, h⟩ | ⟨-, h⟩
  · exact T (by decide) ((map_err _ _ _).mp h)
  rcases ite_res h with ⟨rfl, h⟩ | ⟨-, h⟩
  · exact T (by decide) ((map_err _ _ _).mp h)
  rcases ite_res h with ⟨rfl, h⟩ | ⟨-, h⟩
  · exact T (by decide) ((map_err _ _ _).mp h)
  rcases ite_res h with ⟨rfl, h⟩ | ⟨-, h⟩
  · exact T (by decide) ((map_err _ _ _).mp h)
  rcases ite_res h with ⟨rfl, h⟩ | ⟨-, h⟩
  · exact T (by decide) ((map_err _ _ _).mp h)
  rcases ite_res h with ⟨rfl, h⟩ | ⟨-, h⟩
  · exact S (by decide) ((map_err _ _ _).mp h)
  rcases ite_res h with ⟨rfl, h⟩ | ⟨-, h⟩
  · exact S (by decide) ((map_err _ _ _).mp h)
  rcases ite_res h with ⟨rfl, h⟩ | ⟨-, h⟩
  · exact S (by decide) ((map_err _ _ _).mp h)
  rcases ite_res h with ⟨rfl, h⟩ | ⟨-, h⟩
  · exact S (by decide) ((map_err _ _ _).mp h)
  rcases ite_res h with ⟨rfl, h⟩ | ⟨-, h⟩
  · exact S (by decide) ((map_err _ _ _).mp h)
  rcases ite_res h with ⟨rfl, h⟩ | ⟨-, h⟩
  · exact S (by decide) ((map_err _ _ _).mp h)
  rcases ite_res h with ⟨rfl, h⟩ | ⟨-, h⟩
  · exact S (by decide) ((map_err _ _ _).mp h)
  rcases ite_res h with ⟨rfl, h⟩ | ⟨-, h⟩
  · exact C (by decide) ((map_err _ _ _).mp h)
  rcases ite_res h with ⟨rfl, h⟩ | ⟨-, h⟩
  · exact tolerance_err ((map_err _ _ _).mp h)
  rcases ite_res h with ⟨rfl, h⟩ | ⟨-, h⟩
  · cases hd : decimal v with
    | ok d => rw [hd] at h; cases h
    | error x => rw [hd] at h; cases h; exact .toleranceMultiplier v (okOf_none hd)
  rcases ite_res h with ⟨rfl, h⟩ | ⟨-, h⟩
  · obtain ⟨h1, rfl⟩ := ofOption_err ((map_err _ _ _).mp h)
    refine .toleranceFromCost v fun b hb => ?_
    rw [(parseBool_ok v b).mpr hb] at h1
    cases h1
  rcases ite_res h with ⟨rfl, h⟩ | ⟨-, h⟩
  · cases h
  rcases ite_res h with ⟨rfl, h⟩ | ⟨-, h⟩
  · exact C (by decide) ((map_err _ _ _).mp h)
  rcases ite_res h with ⟨rfl, h⟩ | ⟨-, h⟩
  · obtain ⟨h1, rfl⟩ := ofOption_err ((map_err _ _ _).mp h)
    obtain ⟨h1, h2⟩ := Option.or_eq_none_iff.mp h1
    refine .renderCommas v (fun b hb => ?_) ?_ ?_
    · rw [(parseBool_ok v b).mpr hb] at h1
      cases h1
    · rintro rfl; cases h2
    · rintro rfl; cases h2
  rcases ite_res h with ⟨rfl, h⟩ | ⟨-, h⟩
  · obtain ⟨h1, rfl⟩ := ofOption_err ((map_err _ _ _).mp h)
    refine .longStringMaxlines v fun n hn => ?_
    rw [(parseUsize_ok v n).mpr hn] at h1
    cases h1
  rcases ite_res h with ⟨rfl, h⟩ | ⟨-, h⟩
  · obtain ⟨h1, rfl⟩ := ofOption_err ((map_err _ _ _).mp h)
    rw [optionMessage, booking_text]
    refine .bookingMethod v fun b hb => ?_
    rw [(booking_ok v b).mpr hb] at h1
    cases h1
  rcases ite_res h with ⟨rfl, h⟩ | ⟨-, h⟩
  · obtain ⟨h1, rfl⟩ := ofOption_err ((map_err _ _ _).mp h)
    rw [optionMessage, mode_text]
    refine .pluginProcessingMode v fun b hb => ?_
    rw [(mode_ok v b).mpr hb] at h1
    cases h1
  · cases h
    exact .unknown name v ((C46_unknown decimal path name v).mp h0)

end

/-! ### Cost specifications -/

/-- Whether something was said of this aspect. -/
def said (b : CostSpecBuilder) : CostSpecError → Bool
  | .perUnit => b.spec.perUnit.isSome
  | .total => b.spec.total.isSome
  | .currency => b.spec.currency.isSome
  | .date => b.spec.date.isSome
  | .label => b.spec.label.isSome
  | .merge => b.spec.merge

theorem addFact_said (b : CostSpecBuilder) (f : CostFact) (k : CostSpecError) :
    said (addFact b f) k = (said b k || decide (f.kind = k)) := by
  cases f <;> simp only [addFact, CostSpecBuilder.perUnit, CostSpecBuilder.total, CostSpecBuilder.currency,
    CostSpecBuilder.date, CostSpecBuilder.label, CostSpecBuilder.merge] <;> split <;> rename_i h <;>
    cases k <;> simp_all [said, CostFact.kind, Option.isSome_iff_ne_none]

theorem addFact_errors (b : CostSpecBuilder) (f : CostFact) :
    (addFact b f).errors = if said b f.kind then b.errors ++ [f.kind] else b.errors := by
  cases f <;> simp only [addFact, CostSpecBuilder.perUnit, CostSpecBuilder.total, CostSpecBuilder.currency,
    CostSpecBuilder.date, CostSpecBuilder.label, CostSpecBuilder.merge] <;> split <;> rename_i h <;>
    simp_all [said, CostFact.kind, Option.isSome_iff_ne_none]

theorem foldl_addFact_errors (fs : List CostFact) : ∀ (b : CostSpecBuilder) (seen : List CostSpecError),
    (∀ k, k ∈ seen ↔ said b k = true) →
    (fs.foldl addFact b).errors = b.errors ++ (repeats CostFact.kind seen fs).map CostFact.kind := by
  induction fs with
  | nil => intro b seen h; simp [repeats]
  | cons f fs ih =>
    intro b seen h
    rw [List.foldl_cons]
    by_cases hf : f.kind ∈ seen
    · rw [ih _ seen (fun k => by
        rw [addFact_said, Bool.or_eq_true, ← h, decide_eq_true_eq]
        constructor
        · exact .inl
        · rintro (h1 | rfl)
          · exact h1
          · exact hf), addFact_errors, if_pos ((h _).mp hf), repeats, if_pos hf]
      simp
    · rw [ih _ (f.kind :: seen) (fun k => by
        rw [addFact_said, Bool.or_eq_true, ← h, decide_eq_true_eq, List.mem_cons]
        constructor
        · rintro (rfl | h1)
          · exact .inr rfl
          · exact .inl h1
        · rintro (h1 | rfl)
          · exact .inr h1
          · exact .inl rfl), addFact_errors, if_neg (fun hs => hf ((h _).mpr hs)), repeats, if_neg hf]

theorem costSpec_errors {comps : List (Spanned CostComp)} {es : List CostSpecError}
    (h : costSpecOf comps = .error es) :
    es = (repeats CostFact.kind [] (comps.flatMap costFacts)).map CostFact.kind := by
  unfold costSpecOf CostSpecBuilder.build at h
  rw [foldl_add] at h
  split at h
  · cases h
  · cases h
    rw [foldl_addFact_errors _ _ [] (by intro k; cases k <;> simp [said, CostSpecBuilder.default])]
    simp [CostSpecBuilder.default]

/-! ### Files -/

section
variable [Unicode] [DecOps] {cfg : ParseCfg}

def IsDuplicate (e : PErr) : Prop := ∃ kind name span, e = .duplicate kind name span

theorem headErrors_dup {head : List TagOrLink} : ∀ e ∈ headErrors head, IsDuplicate e := by
  intro e he
  unfold headErrors at he
  obtain ⟨x, _, rfl⟩ := List.mem_map.mp he
  cases x <;> exact ⟨_, _, _, rfl⟩

theorem lineErrors_dup {lines : List Grammar.Metadatum} : ∀ e ∈ lineErrors lines, IsDuplicate e := by
  intro e he
  unfold lineErrors at he
  obtain ⟨x, _, rfl⟩ := List.mem_map.mp he
  cases x <;> exact ⟨_, _, _, rfl⟩

theorem clashErrors_dup {lines : List Grammar.Metadatum} {head : List TagOrLink} :
    ∀ e ∈ clashErrors lines head, IsDuplicate e := by
  intro e he
  unfold clashErrors at he
  rcases List.mem_append.mp he with he | he <;> obtain ⟨x, _, rfl⟩ := List.mem_map.mp he <;> exact ⟨_, _, _, rfl⟩

theorem bodyP_dup {o : ParserOptions} {k : Token} {i r : List Ranged} {v : DirectiveVariant} {es : List PErr}
    (h : BodyP cfg o k i r v es) : ∀ e ∈ es, IsDuplicate e := by
  intro e he
  cases h with
  | «open» _ _ _ =>
    unfold currencyErrors at he
    obtain ⟨x, _, rfl⟩ := List.mem_map.mp he
    exact ⟨_, _, _, rfl⟩
  | _ => cases he

theorem many_mem {α : Type} {p : Phrase α} {i r : List Ranged} {l : List α} (h : Many p i r l) :
    ∀ a ∈ l, ∃ j k, p j k a := by
  induction h with
  | nil => simp
  | cons h1 _ ih =>
    intro a ha
    rcases List.mem_cons.mp ha with rfl | ha
    · exact ⟨_, _, h1⟩
    · exact ih a ha

theorem directiveP_dup {o : ParserOptions} {i r : List Ranged} {d : Directive} {es : List PErr}
    (h : DirectiveP cfg o i r d es) : ∀ e ∈ es, IsDuplicate e := by
  intro e he
  cases h with
  | transaction _ _ _ _ _ _ _ hp =>
    simp only [List.mem_append] at he
    rcases he with ((he | he) | he) | he
    · exact headErrors_dup e he
    · exact lineErrors_dup e he
    · obtain ⟨p, hm, he⟩ := List.mem_flatMap.mp he
      obtain ⟨j, k, hq⟩ := many_mem hp p hm
      cases hq
      exact lineErrors_dup e he
    · exact clashErrors_dup e he
  | other _ _ hb _ _ _ _ =>
    simp only [List.mem_append] at he
    rcases he with ((he | he) | he) | he
    · exact bodyP_dup hb e he
    · exact headErrors_dup e he
    · exact lineErrors_dup e he
    · exact clashErrors_dup e he
  | custom _ _ _ _ _ _ _ => exact lineErrors_dup e he

/-- An error of a declaration which is not about something given twice is about an option. -/
theorem declarationP_option {o o' : ParserOptions} {i r : List Ranged} {d : Spanned Declaration} {es : List PErr}
    (h : DeclarationP cfg o i r d o' es) {e : PErr} (he : e ∈ es) : IsDuplicate e ∨
      ∃ name value opt, OptionAt cfg i name value ∧ OptionP cfg o name value opt o' es := by
  cases h with
  | directive h _ => exact .inl (directiveP_dup h e he)
  | pragma h _ _ =>
    cases h with
    | option h1 h2 h3 h4 => exact .inr ⟨_, _, _, ⟨_, _, _, h1, h2, h3⟩, h4⟩
    | _ => cases he

theorem duplicate_tag_text (name : Str) : duplicateMessage .tag name = "duplicate tag #".toList ++ name :=
  (List.append_assoc (str "duplicate tag ") (str "#") name).symm.trans
    (congrArg (· ++ name) (show str "duplicate tag " ++ str "#" = "duplicate tag #".toList by decide +kernel))

theorem duplicate_link_text (name : Str) : duplicateMessage .link name = "duplicate link ^".toList ++ name :=
  (List.append_assoc (str "duplicate link ") (str "^") name).symm.trans
    (congrArg (· ++ name) (show str "duplicate link " ++ str "^" = "duplicate link ^".toList by decide +kernel))

theorem duplicate_key_text (name : Str) : duplicateMessage .key name = "duplicate key ".toList ++ name :=
  congrArg (· ++ name) (show str "duplicate key " = "duplicate key ".toList by decide +kernel)

theorem duplicate_currency_text (name : Str) :
    duplicateMessage .currency name = "duplicate currency ".toList ++ name :=
  congrArg (· ++ name) (show str "duplicate currency " = "duplicate currency ".toList by decide +kernel)

theorem typeText_mem (t : AccountType) : (t, accountTypeText t) ∈ typeTexts := by cases t <;> decide +kernel

theorem assimilate_err {o o' : ParserOptions} {opt : BOption} {t' : AccountType}
    (h : o.assimilate opt = (.err t', o')) :
    ∃ t name, opt.variant = .accountTypeName t name ∧ o.accountTypeNames.get name = some t' ∧ t' ≠ t := by
  unfold ParserOptions.assimilate at h
  split at h
  · rename_i t name hv
    simp only [Prod.mk.injEq] at h
    have h1 := (map_err _ _ _).mp h.1
    unfold AccountTypeNames.update at h1
    split at h1
    · split at h1 <;> cases h1
    · rename_i t'' hg
      split at h1
      · cases h1
      · rename_i hne
        cases h1
        exact ⟨t, name, hv, hg, hne⟩
  · cases h
  · cases h

theorem update_get {n : AccountTypeNames} {t t' : AccountType} {s v : Str}
    (h : (n.update t s).2.get v = some t') : n.get v = some t' ∨ v = s ∧ t' = t := by
  unfold AccountTypeNames.update at h
  unfold AccountTypeNames.get at h ⊢
  have hi : ∀ {m : List (Str × AccountType)}, AMap.get (AMap.insert m s t) v = some t' →
      AMap.get m v = some t' ∨ v = s ∧ t' = t := by
    intro m hm
    rw [AMap.get_insert] at hm
    split at hm
    · rename_i hv
      cases hm
      exact .inr ⟨hv.symm, rfl⟩
    · exact .inl hm
  split at h
  · split at h
    · exact hi h
    · simp only [AMap.get_erase] at h
      split at h
      · cases h
      · exact hi h
  · split at h <;> exact .inl h

theorem renaming_of_decodes {decimal : Str → Option Dec} {path : Option Path} {n v : Str} {t : AccountType} {nm : Str}
    (hdec : Decodes decimal path n v (.accountTypeName t nm)) : nm = v ∧ (n, t) ∈ renamingOptions := by
  cases hdec <;> exact ⟨rfl, by decide +kernel⟩

theorem optionP_get {o o' : ParserOptions} {name value : Spanned Str} {opt : BOption} {es : List PErr}
    (h : OptionP cfg o name value opt o' es) {v : Str} {t : AccountType} (hg : o'.accountTypeNames.get v = some t) :
    o.accountTypeNames.get v = some t ∨ (name.item, t) ∈ renamingOptions ∧ value.item = v := by
  have step : ∀ {b : BOption} {r}, BOption.parse cfg.decimal name value cfg.path = .ok b →
      o.assimilate b = (r, o') →
      o.accountTypeNames.get v = some t ∨ (name.item, t) ∈ renamingOptions ∧ value.item = v := by
    intro b r hp ha
    unfold ParserOptions.assimilate at ha
    split at ha
    · rename_i t0 nm hv
      obtain ⟨_, _, hdec⟩ := C46_source _ _ _ _ _ hp
      rw [hv] at hdec
      obtain ⟨rfl, hr⟩ := renaming_of_decodes hdec
      cases ha
      rcases update_get hg with h1 | ⟨rfl, rfl⟩
      · exact .inl h1
      · exact .inr ⟨hr, rfl⟩
    · cases ha; exact .inl hg
    · cases ha; exact .inl hg
  cases h with
  | unknown _ => exact .inl hg
  | badValue _ => exact .inl hg
  | accepted hp ha => exact step hp ha
  | refused hp ha => exact step hp ha

/-- The names known to the options come from where they should. -/
def Known (cfg : ParseCfg) (o : ParserOptions) (toks : List Ranged) (o1 : ParserOptions) (i : List Ranged) : Prop :=
  ∀ v t, o1.accountTypeNames.get v = some t → InUse cfg o toks i v t

theorem Known.later {o o1 : ParserOptions} {toks i r : List Ranged} (h : Known cfg o toks o1 i) (hr : r <:+ i) :
    Known cfg o toks o1 r := by
  intro v t hg
  rcases h v t hg with h | ⟨j, n, u, h1, h2, h3⟩
  · exact .inl h
  · exact .inr ⟨j, n, u, h1, hr.trans h2, h3⟩

theorem Known.option {o o1 o2 : ParserOptions} {toks i : List Ranged} {name value : Spanned Str} {opt : BOption}
    {es : List PErr} (h : Known cfg o toks o1 i) (hi : i <:+ toks) (hat : OptionAt cfg i name value)
    (ho : OptionP cfg o1 name value opt o2 es) : Known cfg o toks o2 i := by
  intro v t hg
  rcases optionP_get ho hg with h1 | ⟨h1, h2⟩
  · exact h v t h1
  · exact .inr ⟨i, name, value, hi, List.suffix_rfl, hat, h1, h2⟩

theorem Known.declaration {o o1 o2 : ParserOptions} {toks i r : List Ranged} {d : Spanned Declaration}
    {es : List PErr} (h : Known cfg o toks o1 i) (hi : i <:+ toks) (hd : DeclarationP cfg o1 i r d o2 es) :
    Known cfg o toks o2 i := by
  cases hd with
  | directive _ _ => exact h
  | pragma hp _ _ =>
    cases hp with
    | option h1 h2 h3 h4 => exact h.option hi ⟨_, _, _, h1, h2, h3⟩ h4
    | _ => exact h

theorem Known.afterFailure {o o1 o2 : ParserOptions} {toks i : List Ranged} (h : Known cfg o toks o1 i)
    (hi : i <:+ toks) (hf : AfterFailure cfg o1 i o2) : Known cfg o toks o2 i := by
  cases hf with
  | option h1 h2 => exact h.option hi h1 h2
  | other _ => exact h

theorem Known.passedOver {o : ParserOptions} {toks : List Ranged} : ∀ {o1 o2 : ParserOptions} {run r : List Ranged},
    Known cfg o toks o1 (run ++ r) → (run ++ r) <:+ toks → AllPassedOver cfg o1 run r o2 → Known cfg o toks o2 r := by
  intro o1 o2 run r h hi hp
  induction hp with
  | nil => exact h
  | @cons a b c t run r hp _ ih =>
    have hs : run ++ r <:+ t :: run ++ r := List.suffix_cons t _
    refine ih (Known.later ?_ hs) (hs.trans hi)
    cases hp with
    | nothing _ h1 => exact h.afterFailure hi h1
    | withErrors h1 _ => exact h.declaration hi h1.1

theorem Known.skips {o o1 o2 : ParserOptions} {toks run r : List Ranged} (h : Known cfg o toks o1 (run ++ r))
    (hi : (run ++ r) <:+ toks) (hp : SkipsP cfg o1 run r o2) : Known cfg o toks o2 r := by
  cases hp with
  | @mk o' _ t run _ _ h1 h2 =>
    have hs : run ++ r <:+ t :: run ++ r := List.suffix_cons t _
    exact ((h.afterFailure hi h1).later hs).passedOver (hs.trans hi) h2

/-- Where the errors of a file come from. -/
theorem pieces_errors {o0 o o' : ParserOptions} {all toks : List Ranged} {ps : List Piece}
    (h : PiecesP cfg o toks ps o') (hs : toks <:+ all) (hk : Known cfg o0 all o toks)
    {e : PErr} (he : e ∈ ps.flatMap Piece.errors) : e = .syntax ∨
      ∃ o1 i r d o2 es, i <:+ all ∧ Known cfg o0 all o1 i ∧ DeclarationP cfg o1 i r d o2 es ∧ e ∈ es := by
  induction h with
  | nil => simp at he
  | @declaration o o' o'' run r d es ps hr _ ih =>
    rw [List.flatMap_cons, List.mem_append] at he
    rcases he with he | he
    · exact .inr ⟨_, _, _, _, _, _, hs, hk, hr.1, he⟩
    · have h1 : r <:+ run ++ r := List.suffix_append _ _
      exact ih (h1.trans hs) ((hk.declaration hs hr.1).later h1) he
  | @skipped o o1 o2 o3 skipped run r d ps hsk hr _ ih =>
    rw [List.flatMap_cons, List.mem_append] at he
    rcases he with he | he
    · exact .inl (List.mem_singleton.mp he)
    · rw [List.flatMap_cons, List.mem_append] at he
      rcases he with he | he
      · cases he
      · have h1 : run ++ r <:+ skipped ++ (run ++ r) := List.suffix_append _ _
        have h2 : r <:+ run ++ r := List.suffix_append _ _
        exact ih ((h2.trans h1).trans hs) (((hk.skips hs hsk).declaration (h1.trans hs) hr.1).later h2) he
  | lost => simp [Piece.errors] at he; exact .inl he

theorem file_explained {o : ParserOptions} {toks : List Ranged} {warns : List Report} {res : Grammar.FileResult}
    (h : Grammar.parseFile cfg toks o warns = some res) {e : PErr} (he : e ∈ res.errors) :
    Explained cfg o toks e.reason e.span := by
  obtain ⟨ps, h1, _, h3, _⟩ := C54_pieces h
  have hloc := (C52_reports_of_file h).1 e he
  have hk : Known cfg o toks o toks := fun v t hg => .inl hg
  rcases pieces_errors h1 List.suffix_rfl hk (h3 ▸ he) with rfl | ⟨o1, i, r, d, o2, es, hi, hk, hd, hm⟩
  · exact .syntax
  rcases declarationP_option hd hm with ⟨kind, name, span, rfl⟩ | ⟨name, value, opt, hat, ho⟩
  · have hloc := hloc _ (List.mem_singleton.mpr rfl)
    simp only [PErr.reason, PErr.span]
    cases kind
    · rw [duplicate_tag_text]; exact .tag name span hloc
    · rw [duplicate_link_text]; exact .link name span hloc
    · rw [duplicate_key_text]; exact .key name span hloc
    · rw [duplicate_currency_text]; exact .currency name span hloc
  · cases ho with
    | unknown hp =>
      rw [List.mem_singleton] at hm
      subst hm
      exact .unknownOption i name value hi hat ((C46_unknown _ _ _ _).mp ((map_err _ _ _).mp hp))
    | @badValue b hp =>
      rw [List.mem_singleton] at hm
      subst hm
      have hp := (map_err _ _ _).mp hp
      refine .badValue (okOf cfg.decimal) i name value _ hi hat ?_ ?_ (option_complaint hp)
      · apply Classical.byContradiction
        intro hn
        have := (C46_unknown cfg.decimal cfg.path name.item value.item).mpr hn
        rw [this] at hp
        cases hp
      · intro s d
        unfold okOf
        cases cfg.decimal s <;> simp
    | accepted _ _ => cases hm
    | @refused bopt _ t' hp ha =>
      rw [List.mem_singleton] at hm
      subst hm
      obtain ⟨t, nm, hv, hg, hne⟩ := assimilate_err ha
      obtain ⟨_, _, hdec⟩ := C46_source _ _ _ _ _ hp
      rw [hv] at hdec
      obtain ⟨rfl, hr⟩ := renaming_of_decodes hdec
      exact .nameInUse i name value t t' _ hi hat hr (hk _ _ hg) hne (typeText_mem t')

end

end Lima.Props
