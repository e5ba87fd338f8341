import Verif.Props.Options

/-!
# C46: decoding of option pragmas
-/

namespace Lima.Props
open Lima Lima.Spec

theorem currency_ok_iff (s t : Str) : Currency.tryFrom s = .ok t ↔ t = s ∧ ValidCurrency s := by
  obtain ⟨h1, h2⟩ := C16_currency_partial s
  constructor
  · exact h1 t
  · rintro ⟨rfl, hv⟩
    have hup : ∀ c, Upper c → Ascii c := by
      intro c h
      simp only [Upper, Ascii, char_le_iff, char_lt_iff] at *
      have : 'Z'.toNat = 90 := rfl
      have : '\x80'.toNat = 128 := rfl
      omega
    have hdg : ∀ c, Digit c → Ascii c := by
      intro c h
      simp only [Digit, Ascii, char_le_iff, char_lt_iff] at *
      have : '9'.toNat = 57 := rfl
      have : '\x80'.toNat = 128 := rfl
      omega
    refine ((h2 ?_).2).mpr hv
    intro c hc
    rcases hv with ⟨a, rfl, ha⟩ | ⟨a, mid, z, rfl, ha, hm, hz, _⟩
    · simp at hc; subst hc; exact hup _ ha
    · simp only [List.mem_cons, List.mem_append, List.not_mem_nil, or_false] at hc
      rcases hc with rfl | hc | rfl
      · rcases ha with ha | rfl
        · exact hup _ ha
        · exact (isAscii_iff _).mp (by decide)
      · rcases hm c hc with h | h | rfl | rfl | rfl | rfl
        · exact hup _ h
        · exact hdg _ h
        all_goals exact (isAscii_iff _).mp (by decide)
      · rcases hz with h | h
        · exact hup _ h
        · exact hdg _ h

theorem parseCurrency_ok (s t : Str) : parseCurrency s = .ok t ↔ t = s ∧ ValidCurrency s := by
  rw [← currency_ok_iff]
  unfold parseCurrency
  cases Currency.tryFrom s <;> simp [Res.mapErr]

section
variable [Unicode]

theorem parseAccountTypeName_ok (s t : Str) :
    parseAccountTypeName s = .ok t ↔ t = s ∧ ValidAccountTypeName s := by
  rw [← C17_account_type_name_accepted_iff]
  unfold parseAccountTypeName
  cases AccountTypeName.tryFrom s <;> simp [Res.mapErr, Res.ofExcept]

theorem parseSubaccount_ok (s t : Str) :
    parseSubaccount s = .ok t ↔ t = s ∧ ∃ subs, subs ≠ [] ∧ s = joinColon subs ∧ ∀ w ∈ subs, ValidAccountName w := by
  rw [← C17_subaccount_accepted_iff]
  unfold parseSubaccount
  cases Subaccount.tryFrom s <;> simp [Res.mapErr, Res.ofExcept]

end

theorem toAsciiLower_eq (c d : Char) (hd : Lower d) :
    toAsciiLower c = d ↔ c = d ∨ (Upper c ∧ d.toNat = c.toNat + 32) := by
  unfold toAsciiLower
  have e := isAsciiUpper_iff c
  by_cases h : isAsciiUpper c = true
  · have hu := e.mp h
    simp only [h, if_true]
    have hu' := hu
    simp only [Upper, char_le_iff] at hu'
    have hZ : 'Z'.toNat = 90 := rfl
    have hA : 'A'.toNat = 65 := rfl
    have hval : (Char.ofNat (c.toNat + 32)).toNat = c.toNat + 32 := by
      have hv : (c.toNat + 32).isValidChar := Or.inl (by omega)
      unfold Char.ofNat
      rw [dif_pos hv]
      rfl
    constructor
    · intro heq
      subst heq
      exact Or.inr ⟨hu, hval⟩
    · rintro (rfl | ⟨_, h2⟩)
      · simp only [Lower, char_le_iff] at hd
        have : 'a'.toNat = 97 := rfl
        omega
      · rw [← h2, Char.ofNat_toNat]
  · simp only [h]
    constructor
    · intro h; exact Or.inl h
    · rintro (h' | ⟨h', _⟩)
      · exact h'
      · exact absurd (e.mpr h') h

theorem lower_id (s : Str) (h : ∀ c ∈ s, Lower c) : s.map toAsciiLower = s := by
  rw [List.map_congr_left (g := id), List.map_id]
  intro c hc
  exact (toAsciiLower_eq c c (h c hc)).mpr (Or.inl rfl)

theorem map_lower_iff (s l : Str) (hl : ∀ c ∈ l, Lower c) : s.map toAsciiLower = l ↔ SameLetters s l := by
  unfold SameLetters
  induction s generalizing l with
  | nil => cases l <;> simp
  | cons c s ih =>
    cases l with
    | nil => simp
    | cons d l =>
      simp only [List.map_cons, List.cons.injEq, List.length_cons, Nat.add_right_cancel_iff, List.zip_cons_cons,
        List.mem_cons, forall_eq_or_imp]
      rw [ih l (fun c hc => hl c (by simp [hc])), toAsciiLower_eq c d (hl d (by simp))]
      constructor
      · rintro ⟨h1, h2, h3⟩; exact ⟨h2, h1, h3⟩
      · rintro ⟨h2, h1, h3⟩; exact ⟨h1, h2, h3⟩

theorem lower_of_bool (s : Str) (h : s.all isAsciiLower = true) : ∀ c ∈ s, Lower c := by
  intro c hc
  exact (isAsciiLower_iff c).mp (List.all_eq_true.mp h c hc)

theorem parseBool_ok (s : Str) (b : Bool) : parseBool s = some b ↔ BoolText s b := by
  have ht := lower_of_bool (str "true") (by decide)
  have hf := lower_of_bool (str "false") (by decide)
  unfold parseBool BoolText eqIgnoreAsciiCase
  rw [lower_id _ ht, lower_id _ hf]
  simp only [decide_eq_true_eq]
  have e1 := map_lower_iff s _ ht
  have e2 := map_lower_iff s _ hf
  rw [← e1, ← e2]
  by_cases h1 : s.map toAsciiLower = str "true"
  · have h2 : ¬ s.map toAsciiLower = str "false" := by rw [h1]; decide
    simp only [h1, if_true, true_and]
    have h3 : ¬ (str "true" = str "false") := by decide
    simp only [h3, false_and, or_false, Option.some.injEq, eq_comm]
  · by_cases h2 : s.map toAsciiLower = str "false"
    · simp only [h1, h2, if_true, if_false, true_and, Option.some.injEq]
      have h3 : ¬ (str "false" = str "true") := by decide
      simp only [h3, false_and, false_or, if_false, Option.some.injEq, eq_comm]
    · simp [h1, h2]

theorem allDigits (s : Str) : s.all isAsciiDigit = true ↔ ∃ ds : List (Fin 10), s = ds.map digit := by
  constructor
  · intro h
    induction s with
    | nil => exact ⟨[], rfl⟩
    | cons c s ih =>
      rw [List.all_cons, Bool.and_eq_true] at h
      obtain ⟨ds, rfl⟩ := ih h.2
      obtain ⟨n, rfl⟩ := isAsciiDigit_exists c h.1
      exact ⟨n :: ds, rfl⟩
  · rintro ⟨ds, rfl⟩
    rw [List.all_eq_true]
    intro c hc
    obtain ⟨n, _, rfl⟩ := List.mem_map.mp hc
    exact digit_isAsciiDigit n

theorem parseUnsigned_ok (max : Nat) (s : Str) (n : Nat) :
    parseUnsigned max s = some n ↔ ∃ ds : List (Fin 10), ds ≠ [] ∧ s = ds.map digit ∧ n = number ds ∧ n ≤ max := by
  unfold parseUnsigned
  constructor
  · intro h
    split at h
    · rename_i hc
      obtain ⟨ds, rfl⟩ := (allDigits s).mp hc.2.1
      cases h
      refine ⟨ds, ?_, rfl, decimalValue_eq ds, hc.2.2⟩
      intro e; subst e; exact hc.1 rfl
    · cases h
  · rintro ⟨ds, h1, rfl, rfl, h4⟩
    rw [if_pos ⟨by simpa using h1, (allDigits _).mpr ⟨ds, rfl⟩, by rw [decimalValue_eq]; exact h4⟩,
      decimalValue_eq]

theorem parseUsize_ok (s : Str) (n : Nat) : parseUsize s = some n ↔ UsizeText s n := by
  unfold parseUsize UsizeText
  cases s with
  | nil =>
    simp only [reduceCtorEq, false_iff]
    rintro ⟨ds, h1, _, _, h | h⟩
    · cases ds with
      | nil => exact h1 rfl
      | cons _ _ => cases h
    · cases h
  | cons c cs =>
    simp only
    split
    · rename_i hc
      subst hc
      rw [parseUnsigned_ok]
      constructor
      · rintro ⟨ds, h1, rfl, h3, h4⟩
        exact ⟨ds, h1, by omega, h3, Or.inr rfl⟩
      · rintro ⟨ds, h1, h2, h3, h | h⟩
        · cases ds with
          | nil => exact absurd rfl h1
          | cons d ds =>
            simp only [List.map_cons, List.cons.injEq] at h
            exact absurd h.1.symm (digit_ne d '+' (by decide))
        · simp only [List.cons.injEq, true_and] at h
          exact ⟨ds, h1, h, h3, by omega⟩
    · rename_i hc
      rw [parseUnsigned_ok]
      constructor
      · rintro ⟨ds, h1, h2, h3, h4⟩
        exact ⟨ds, h1, by omega, h3, Or.inl h2⟩
      · rintro ⟨ds, h1, h2, h3, h | h⟩
        · exact ⟨ds, h1, h, h3, by omega⟩
        · simp only [List.cons.injEq] at h
          exact absurd h.1 hc

theorem booking_ok (s : Str) (b : Booking) : Booking.tryFrom s = some b ↔ s = bookingText b := by
  constructor
  · intro h
    unfold Booking.tryFrom at h
    repeat' split at h
    all_goals first | (cases h; assumption) | cases h
  · rintro rfl
    cases b <;> decide

theorem mode_ok (s : Str) (m : PluginProcessingMode) :
    PluginProcessingMode.tryFrom s = some m ↔ s = modeText m := by
  constructor
  · intro h
    unfold PluginProcessingMode.tryFrom at h
    repeat' split at h
    all_goals first | (cases h; assumption) | cases h
  · rintro rfl
    cases m <;> decide

theorem validCurrency_noColon {c : Str} (h : ValidCurrency c) : ':' ∉ c := by
  have hup : ∀ x, Upper x → x ≠ ':' := by
    rintro x hx rfl
    simp only [Upper, char_le_iff] at hx
    revert hx; decide
  have hdg : ∀ x, Digit x → x ≠ ':' := by
    rintro x hx rfl
    simp only [Digit, char_le_iff] at hx
    revert hx; decide
  intro hc
  rcases h with ⟨a, rfl, ha⟩ | ⟨a, mid, z, rfl, ha, hm, hz, _⟩
  · simp at hc; subst hc; exact hup _ ha rfl
  · simp only [List.mem_cons, List.mem_append, List.not_mem_nil, or_false] at hc
    rcases hc with rfl | hc | rfl
    · rcases ha with ha | ha
      · exact hup _ ha rfl
      · revert ha; decide
    · rcases hm _ hc with h | h | h | h | h | h
      · exact hup _ h rfl
      · exact hdg _ h rfl
      all_goals revert h; decide
    · rcases hz with h | h
      · exact hup _ h rfl
      · exact hdg _ h rfl

theorem not_star_valid : ¬ ValidCurrency (str "*") := by
  intro h
  have := (currency_ok_iff (str "*") (str "*")).mpr ⟨rfl, h⟩
  revert this
  decide

theorem currencyOrAny_ok (s : Str) (c : CurrencyOrAny) :
    CurrencyOrAny.tryFrom s = .ok c ↔ (s = str "*" ∧ c = .any) ∨ (ValidCurrency s ∧ c = .currency s) := by
  unfold CurrencyOrAny.tryFrom
  split
  · rename_i h
    subst h
    constructor
    · intro h; cases h; exact Or.inl ⟨rfl, rfl⟩
    · rintro (⟨_, rfl⟩ | ⟨h, _⟩)
      · rfl
      · exact absurd h not_star_valid
  · rename_i h
    constructor
    · intro h'
      cases hc : Currency.tryFrom s with
      | ok t =>
        rw [hc] at h'
        cases h'
        obtain ⟨rfl, hv⟩ := (currency_ok_iff s t).mp hc
        exact Or.inr ⟨hv, rfl⟩
      | err e => rw [hc] at h'; cases h'
      | panic => rw [hc] at h'; cases h'
    · rintro (⟨h', _⟩ | ⟨h', rfl⟩)
      · exact absurd h' h
      · rw [(currency_ok_iff s s).mpr ⟨rfl, h'⟩]; rfl

theorem joinColon_two (a b : Str) : joinColon [a, b] = a ++ ':' :: b := rfl

theorem tolerance_ok (decimal : Str → Except LexerError Dec) (v : Str) (c : CurrencyOrAny) (d : Dec) :
    parseInferredToleranceDefault decimal v = .ok (c, d) ↔
      ∃ first t, v = first ++ ':' :: t ∧ ':' ∉ t ∧ decimal t = .ok d ∧
        ((first = str "*" ∧ c = .any) ∨ (ValidCurrency first ∧ c = .currency first)) := by
  unfold parseInferredToleranceDefault
  constructor
  · intro h
    have hj := join_splitColon v
    have hn := splitColon_noColon v
    cases hs : splitColon v with
    | nil => rw [hs] at h; cases h
    | cons first rest =>
      rw [hs] at h hj hn
      simp only at h
      cases hc : CurrencyOrAny.tryFrom first with
      | panic => rw [hc] at h; cases h
      | err e => rw [hc] at h; cases h
      | ok c' =>
        rw [hc] at h
        simp only at h
        cases rest with
        | nil => cases h
        | cons second rest =>
          simp only at h
          cases hd : decimal second with
          | error e => rw [hd] at h; cases h
          | ok d' =>
            rw [hd] at h
            cases rest with
            | cons _ _ => cases h
            | nil =>
              cases h
              exact ⟨first, second, hj.symm, hn second (by simp), hd, (currencyOrAny_ok first c).mp hc⟩
  · rintro ⟨first, t, rfl, ht, hd, hc⟩
    have hf : ':' ∉ first := by
      rcases hc with ⟨rfl, _⟩ | ⟨hv, _⟩
      · decide
      · exact validCurrency_noColon hv
    have hs : splitColon (first ++ ':' :: t) = [first, t] := by
      rw [← joinColon_two]
      exact splitColon_join _ (by simp) (by simp [hf, ht])
    rw [hs]
    simp only [(currencyOrAny_ok first c).mpr hc, hd]

theorem map_ok {ε α β : Type} (f : α → β) (r : Res ε α) (b : β) :
    r.map f = .ok b ↔ ∃ a, r = .ok a ∧ f a = b := by
  cases r <;> simp [Res.map]

theorem ofOption_ok {α : Type} (e : BadValue) (o : Option α) (a : α) :
    Res.ofOption e o = .ok a ↔ o = some a := by
  cases o <;> simp [Res.ofOption]

theorem ite_ok {c : Prop} [Decidable c] {ε α : Type} {a b : Res ε α} {v : α}
    (h : (if c then a else b) = .ok v) : (c ∧ a = .ok v) ∨ (¬ c ∧ b = .ok v) := by
  by_cases hc : c
  · rw [if_pos hc] at h; exact Or.inl ⟨hc, h⟩
  · rw [if_neg hc] at h; exact Or.inr ⟨hc, h⟩

/-- A decimal reader without its error. -/
def okOf (decimal : Str → Except LexerError Dec) (s : Str) : Option Dec :=
  match decimal s with
  | .ok d => some d
  | .error _ => none

theorem okOf_iff (decimal : Str → Except LexerError Dec) (s : Str) (d : Dec) :
    okOf decimal s = some d ↔ decimal s = .ok d := by
  unfold okOf
  cases decimal s <;> simp

/-- C46: an option pragma is accepted exactly as documented: name, value and resulting setting. -/
theorem C46_decodes [Unicode] (decimal : Str → Except LexerError Dec) (file : Option Path) (name value : Str)
    (v : OptVariant) :
    OptVariant.parse decimal name value file = .ok v ↔ Decodes (okOf decimal) file name value v := by
  constructor
  · intro h
    unfold OptVariant.parse at h
    rcases ite_ok h with ⟨hn, h⟩ | ⟨-, h⟩
    · subst hn; cases h; exact .title _
    rcases ite_ok h with ⟨hn, h⟩ | ⟨-, h⟩
    · subst hn
      obtain ⟨t, h1, rfl⟩ := (map_ok _ _ _).mp h
      obtain ⟨rfl, hv⟩ := (parseAccountTypeName_ok _ _).mp h1
      exact .nameAssets _ hv
    rcases ite_ok h with ⟨hn, h⟩ | ⟨-, h⟩
    · subst hn
      obtain ⟨t, h1, rfl⟩ := (map_ok _ _ _).mp h
      obtain ⟨rfl, hv⟩ := (parseAccountTypeName_ok _ _).mp h1
      exact .nameLiabilities _ hv
    rcases ite_ok h with ⟨hn, h⟩ | ⟨-, h⟩
    · subst hn
      obtain ⟨t, h1, rfl⟩ := (map_ok _ _ _).mp h
      obtain ⟨rfl, hv⟩ := (parseAccountTypeName_ok _ _).mp h1
      exact .nameEquity _ hv
    rcases ite_ok h with ⟨hn, h⟩ | ⟨-, h⟩
    · subst hn
      obtain ⟨t, h1, rfl⟩ := (map_ok _ _ _).mp h
      obtain ⟨rfl, hv⟩ := (parseAccountTypeName_ok _ _).mp h1
      exact .nameIncome _ hv
    rcases ite_ok h with ⟨hn, h⟩ | ⟨-, h⟩
    · subst hn
      obtain ⟨t, h1, rfl⟩ := (map_ok _ _ _).mp h
      obtain ⟨rfl, hv⟩ := (parseAccountTypeName_ok _ _).mp h1
      exact .nameExpenses _ hv
    rcases ite_ok h with ⟨hn, h⟩ | ⟨-, h⟩
    · subst hn
      obtain ⟨t, h1, rfl⟩ := (map_ok _ _ _).mp h
      obtain ⟨rfl, subs, hne, rfl, hv⟩ := (parseSubaccount_ok _ _).mp h1
      exact .previousBalances _ hne hv
    rcases ite_ok h with ⟨hn, h⟩ | ⟨-, h⟩
    · subst hn
      obtain ⟨t, h1, rfl⟩ := (map_ok _ _ _).mp h
      obtain ⟨rfl, subs, hne, rfl, hv⟩ := (parseSubaccount_ok _ _).mp h1
      exact .previousEarnings _ hne hv
    rcases ite_ok h with ⟨hn, h⟩ | ⟨-, h⟩
    · subst hn
      obtain ⟨t, h1, rfl⟩ := (map_ok _ _ _).mp h
      obtain ⟨rfl, subs, hne, rfl, hv⟩ := (parseSubaccount_ok _ _).mp h1
      exact .previousConversions _ hne hv
    rcases ite_ok h with ⟨hn, h⟩ | ⟨-, h⟩
    · subst hn
      obtain ⟨t, h1, rfl⟩ := (map_ok _ _ _).mp h
      obtain ⟨rfl, subs, hne, rfl, hv⟩ := (parseSubaccount_ok _ _).mp h1
      exact .currentEarnings _ hne hv
    rcases ite_ok h with ⟨hn, h⟩ | ⟨-, h⟩
    · subst hn
      obtain ⟨t, h1, rfl⟩ := (map_ok _ _ _).mp h
      obtain ⟨rfl, subs, hne, rfl, hv⟩ := (parseSubaccount_ok _ _).mp h1
      exact .currentConversions _ hne hv
    rcases ite_ok h with ⟨hn, h⟩ | ⟨-, h⟩
    · subst hn
      obtain ⟨t, h1, rfl⟩ := (map_ok _ _ _).mp h
      obtain ⟨rfl, subs, hne, rfl, hv⟩ := (parseSubaccount_ok _ _).mp h1
      exact .unrealizedGains _ hne hv
    rcases ite_ok h with ⟨hn, h⟩ | ⟨-, h⟩
    · subst hn
      obtain ⟨t, h1, rfl⟩ := (map_ok _ _ _).mp h
      obtain ⟨rfl, subs, hne, rfl, hv⟩ := (parseSubaccount_ok _ _).mp h1
      exact .rounding _ hne hv
    rcases ite_ok h with ⟨hn, h⟩ | ⟨-, h⟩
    · subst hn
      obtain ⟨t, h1, rfl⟩ := (map_ok _ _ _).mp h
      obtain ⟨rfl, hv⟩ := (parseCurrency_ok _ _).mp h1
      exact .conversionCurrency _ hv
    rcases ite_ok h with ⟨hn, h⟩ | ⟨-, h⟩
    · subst hn
      obtain ⟨⟨c, d⟩, h1, rfl⟩ := (map_ok _ _ _).mp h
      obtain ⟨first, t, rfl, ht, hd, ⟨rfl, rfl⟩ | ⟨hv, rfl⟩⟩ := (tolerance_ok _ _ _ _).mp h1
      · exact .toleranceAny t d ht ((okOf_iff _ _ _).mpr hd)
      · exact .tolerance first t d hv ht ((okOf_iff _ _ _).mpr hd)
    rcases ite_ok h with ⟨hn, h⟩ | ⟨-, h⟩
    · subst hn
      cases hd : decimal value with
      | error e => rw [hd] at h; cases h
      | ok d => rw [hd] at h; cases h; exact .toleranceMultiplier _ d ((okOf_iff _ _ _).mpr hd)
    rcases ite_ok h with ⟨hn, h⟩ | ⟨-, h⟩
    · subst hn
      obtain ⟨b, h1, rfl⟩ := (map_ok _ _ _).mp h
      exact .toleranceFromCost _ b ((parseBool_ok _ _).mp ((ofOption_ok _ _ _).mp h1))
    rcases ite_ok h with ⟨hn, h⟩ | ⟨-, h⟩
    · subst hn
      cases hf : file with
      | none =>
        rw [hf] at h
        cases h
        exact .documents _ (by simp)
      | some f =>
        rw [hf] at h
        simp only [Option.bind_some, Path.parent] at h
        by_cases hn : f.names = []
        · simp only [hn, if_true] at h
          cases h
          exact .documents _ (by rintro g hg; cases hg; exact hn)
        · simp only [hn, if_false] at h
          cases h
          exact .documentsIn _ f rfl hn
    rcases ite_ok h with ⟨hn, h⟩ | ⟨-, h⟩
    · subst hn
      obtain ⟨t, h1, rfl⟩ := (map_ok _ _ _).mp h
      obtain ⟨rfl, hv⟩ := (parseCurrency_ok _ _).mp h1
      exact .operatingCurrency _ hv
    rcases ite_ok h with ⟨hn, h⟩ | ⟨-, h⟩
    · subst hn
      obtain ⟨b, h1, rfl⟩ := (map_ok _ _ _).mp h
      have h2 := (ofOption_ok _ _ _).mp h1
      refine .renderCommas _ b ?_
      rw [Option.or_eq_some_iff] at h2
      rcases h2 with h2 | ⟨_, h2⟩
      · exact Or.inl ((parseBool_ok _ _).mp h2)
      · unfold parseZeroOrOneAsBool at h2
        split at h2
        · rename_i e; cases h2; exact Or.inr (Or.inl ⟨e, rfl⟩)
        · split at h2
          · rename_i e; cases h2; exact Or.inr (Or.inr ⟨e, rfl⟩)
          · cases h2
    rcases ite_ok h with ⟨hn, h⟩ | ⟨-, h⟩
    · subst hn
      obtain ⟨n, h1, rfl⟩ := (map_ok _ _ _).mp h
      exact .longStringMaxlines _ n ((parseUsize_ok _ _).mp ((ofOption_ok _ _ _).mp h1))
    rcases ite_ok h with ⟨hn, h⟩ | ⟨-, h⟩
    · subst hn
      obtain ⟨b, h1, rfl⟩ := (map_ok _ _ _).mp h
      have := (booking_ok _ _).mp ((ofOption_ok _ _ _).mp h1)
      subst this
      exact .bookingMethod b
    rcases ite_ok h with ⟨hn, h⟩ | ⟨-, h⟩
    · subst hn
      obtain ⟨b, h1, rfl⟩ := (map_ok _ _ _).mp h
      have := (mode_ok _ _).mp ((ofOption_ok _ _ _).mp h1)
      subst this
      exact .pluginProcessingMode b
    · cases h
  · intro h
    have hb : ∀ {v b}, parseBool v = some b → (Res.ofOption .bool (parseBool v)) = .ok b := by
      intro v b h; rw [h]; rfl
    cases h
    case title => rfl
    case nameAssets h =>
      exact (map_ok _ _ _).mpr ⟨_, (parseAccountTypeName_ok _ _).mpr ⟨rfl, h⟩, rfl⟩
    case nameLiabilities h =>
      exact (map_ok _ _ _).mpr ⟨_, (parseAccountTypeName_ok _ _).mpr ⟨rfl, h⟩, rfl⟩
    case nameEquity h =>
      exact (map_ok _ _ _).mpr ⟨_, (parseAccountTypeName_ok _ _).mpr ⟨rfl, h⟩, rfl⟩
    case nameIncome h =>
      exact (map_ok _ _ _).mpr ⟨_, (parseAccountTypeName_ok _ _).mpr ⟨rfl, h⟩, rfl⟩
    case nameExpenses h =>
      exact (map_ok _ _ _).mpr ⟨_, (parseAccountTypeName_ok _ _).mpr ⟨rfl, h⟩, rfl⟩
    case previousBalances subs hne h =>
      exact (map_ok _ _ _).mpr ⟨_, (parseSubaccount_ok _ _).mpr ⟨rfl, _, hne, rfl, h⟩, rfl⟩
    case previousEarnings subs hne h =>
      exact (map_ok _ _ _).mpr ⟨_, (parseSubaccount_ok _ _).mpr ⟨rfl, _, hne, rfl, h⟩, rfl⟩
    case previousConversions subs hne h =>
      exact (map_ok _ _ _).mpr ⟨_, (parseSubaccount_ok _ _).mpr ⟨rfl, _, hne, rfl, h⟩, rfl⟩
    case currentEarnings subs hne h =>
      exact (map_ok _ _ _).mpr ⟨_, (parseSubaccount_ok _ _).mpr ⟨rfl, _, hne, rfl, h⟩, rfl⟩
    case currentConversions subs hne h =>
      exact (map_ok _ _ _).mpr ⟨_, (parseSubaccount_ok _ _).mpr ⟨rfl, _, hne, rfl, h⟩, rfl⟩
    case unrealizedGains subs hne h =>
      exact (map_ok _ _ _).mpr ⟨_, (parseSubaccount_ok _ _).mpr ⟨rfl, _, hne, rfl, h⟩, rfl⟩
    case rounding subs hne h =>
      exact (map_ok _ _ _).mpr ⟨_, (parseSubaccount_ok _ _).mpr ⟨rfl, _, hne, rfl, h⟩, rfl⟩
    case conversionCurrency h =>
      exact (map_ok _ _ _).mpr ⟨_, (parseCurrency_ok _ _).mpr ⟨rfl, h⟩, rfl⟩
    case toleranceAny t d ht hd =>
      exact (map_ok _ _ _).mpr ⟨(.any, d), (tolerance_ok _ _ _ _).mpr
        ⟨str "*", t, rfl, ht, (okOf_iff _ _ _).mp hd, Or.inl ⟨rfl, rfl⟩⟩, rfl⟩
    case tolerance c t d hv ht hd =>
      exact (map_ok _ _ _).mpr ⟨(.currency c, d), (tolerance_ok _ _ _ _).mpr
        ⟨c, t, rfl, ht, (okOf_iff _ _ _).mp hd, Or.inr ⟨hv, rfl⟩⟩, rfl⟩
    case toleranceMultiplier d hd =>
      have : decimal value = .ok d := (okOf_iff _ _ _).mp hd
      change (match decimal value with
        | .ok d => (Res.ok (OptVariant.inferredToleranceMultiplier d) : Res OptParseError OptVariant)
        | .error _ => .err (.badValue .decimal)) = _
      rw [this]
    case toleranceFromCost b h =>
      exact (map_ok _ _ _).mpr ⟨b, (ofOption_ok _ _ _).mpr ((parseBool_ok _ _).mpr h), rfl⟩
    case documents h =>
      change (Res.ok (OptVariant.documents (match file.bind Path.parent with
        | none => Path.ofStr value
        | some parent => parent.join (Path.ofStr value))) : Res OptParseError OptVariant) = _
      cases file with
      | none => rfl
      | some f => simp [Path.parent, h f rfl]
    case documentsIn f h hn =>
      change (Res.ok (OptVariant.documents (match file.bind Path.parent with
        | none => Path.ofStr value
        | some parent => parent.join (Path.ofStr value))) : Res OptParseError OptVariant) = _
      subst h
      simp [Path.parent, hn]
    case operatingCurrency h =>
      exact (map_ok _ _ _).mpr ⟨_, (parseCurrency_ok _ _).mpr ⟨rfl, h⟩, rfl⟩
    case renderCommas b h =>
      refine (map_ok _ _ _).mpr ⟨b, (ofOption_ok _ _ _).mpr ?_, rfl⟩
      rcases h with h | ⟨rfl, rfl⟩ | ⟨rfl, rfl⟩
      · rw [(parseBool_ok _ _).mpr h]; rfl
      · decide
      · decide
    case longStringMaxlines n h =>
      exact (map_ok _ _ _).mpr ⟨n, (ofOption_ok _ _ _).mpr ((parseUsize_ok _ _).mpr h), rfl⟩
    case bookingMethod b =>
      exact (map_ok _ _ _).mpr ⟨b, (ofOption_ok _ _ _).mpr ((booking_ok _ _).mpr rfl), rfl⟩
    case pluginProcessingMode m =>
      exact (map_ok _ _ _).mpr ⟨m, (ofOption_ok _ _ _).mpr ((mode_ok _ _).mpr rfl), rfl⟩

theorem ite_res {c : Prop} [Decidable c] {ε α : Type} {a b r : Res ε α}
    (h : (if c then a else b) = r) : (c ∧ a = r) ∨ (¬ c ∧ b = r) := by
  by_cases hc : c
  · rw [if_pos hc] at h; exact Or.inl ⟨hc, h⟩
  · rw [if_neg hc] at h; exact Or.inr ⟨hc, h⟩

theorem map_err {ε α β : Type} (f : α → β) (r : Res ε α) (e : ε) : r.map f = .err e ↔ r = .err e := by
  cases r <;> simp [Res.map]

theorem map_panic {ε α β : Type} (f : α → β) (r : Res ε α) : r.map f = .panic ↔ r = .panic := by
  cases r <;> simp [Res.map]

theorem mapErr_panic {ε δ α : Type} (f : ε → δ) (r : Res ε α) : r.mapErr f = .panic ↔ r = .panic := by
  cases r <;> simp [Res.mapErr]

theorem ofOption_not_panic {α : Type} (e : BadValue) (o : Option α) : Res.ofOption e o ≠ .panic := by
  cases o <;> simp [Res.ofOption]

theorem ofOption_known {α : Type} (e : BadValue) (o : Option α) : Res.ofOption e o ≠ .err .unknownOption := by
  cases o <;> simp [Res.ofOption]

theorem parseCurrency_known (s : Str) : parseCurrency s ≠ .err .unknownOption := by
  unfold parseCurrency
  cases Currency.tryFrom s <;> simp [Res.mapErr]

theorem tolerance_known (decimal : Str → Except LexerError Dec) (v : Str) :
    parseInferredToleranceDefault decimal v ≠ .err .unknownOption := by
  unfold parseInferredToleranceDefault
  repeat' split
  all_goals simp

theorem parseCurrency_panic (s : Str) : parseCurrency s = .panic ↔ ∃ c ∈ s, ¬ Ascii c := by
  unfold parseCurrency
  rw [mapErr_panic, C16_currency_panic_iff]

theorem splitColon_head (v : Str) : ∃ first rest, splitColon v = first :: rest ∧ ':' ∉ first ∧
    (v = first ∨ ∃ t, v = first ++ ':' :: t) := by
  cases hs : splitColon v with
  | nil => exact absurd hs (splitColon_ne_nil v)
  | cons first rest =>
    refine ⟨first, rest, rfl, splitColon_noColon v first (by simp [hs]), ?_⟩
    have hj := join_splitColon v
    rw [hs] at hj
    cases rest with
    | nil => exact Or.inl hj.symm
    | cons r rs => exact Or.inr ⟨_, hj.symm⟩

theorem prefix_unique {v a b : Str} (ha : ':' ∉ a) (hb : ':' ∉ b) (h1 : v = a ∨ ∃ t, v = a ++ ':' :: t)
    (h2 : v = b ∨ ∃ t, v = b ++ ':' :: t) : a = b := by
  have key : ∀ (a : Str), ':' ∉ a → (v = a ∨ ∃ t, v = a ++ ':' :: t) → v.takeWhile (· ≠ ':') = a := by
    intro a ha h
    have hall : ∀ x ∈ a, (decide (x ≠ ':')) = true := by
      intro x hx
      simp only [decide_eq_true_eq]
      rintro rfl
      exact ha hx
    rcases h with rfl | ⟨t, rfl⟩
    · have := List.takeWhile_append_of_pos (l₂ := []) hall
      simpa using this
    · rw [List.takeWhile_append_of_pos hall]
      simp
  rw [← key a ha h1, ← key b hb h2]

theorem tolerance_panic (decimal : Str → Except LexerError Dec) (v : Str) :
    parseInferredToleranceDefault decimal v = .panic ↔
      ∃ first, ':' ∉ first ∧ (v = first ∨ ∃ t, v = first ++ ':' :: t) ∧ ∃ c ∈ first, ¬ Ascii c := by
  obtain ⟨first, rest, hs, hf, hv⟩ := splitColon_head v
  unfold parseInferredToleranceDefault
  rw [hs]
  have hc : CurrencyOrAny.tryFrom first = .panic ↔ ∃ c ∈ first, ¬ Ascii c := by
    unfold CurrencyOrAny.tryFrom
    split
    · rename_i e
      subst e
      constructor
      · intro h; cases h
      · rintro ⟨c, hc, h⟩
        have hc' : c = '*' := List.mem_singleton.mp hc
        subst hc'
        exact absurd ((isAscii_iff '*').mp rfl) h
    · rw [map_panic, C16_currency_panic_iff]
  constructor
  · intro h
    refine ⟨first, hf, hv, hc.mp ?_⟩
    cases ht : CurrencyOrAny.tryFrom first with
    | panic => rfl
    | err e => simp only [ht] at h; cases h
    | ok c =>
      simp only [ht] at h
      repeat' split at h
      all_goals cases h
  · rintro ⟨g, hg, hv', hx⟩
    have := prefix_unique hf hg hv hv'
    subst this
    simp only [hc.mpr hx]

theorem ne_of_not_mem {n x : Str} {l : List Str} (h : n ∉ l) (hx : x ∈ l) : ¬ n = x := by
  rintro rfl
  exact h hx

section
variable [Unicode]

theorem parseSubaccount_known (s : Str) : parseSubaccount s ≠ .err .unknownOption := by
  unfold parseSubaccount
  cases Subaccount.tryFrom s <;> simp [Res.mapErr, Res.ofExcept]

theorem parseAccountTypeName_known (s : Str) : parseAccountTypeName s ≠ .err .unknownOption := by
  unfold parseAccountTypeName
  cases AccountTypeName.tryFrom s <;> simp [Res.mapErr, Res.ofExcept]

theorem parseSubaccount_not_panic (s : Str) : parseSubaccount s ≠ .panic := by
  unfold parseSubaccount
  cases Subaccount.tryFrom s <;> simp [Res.mapErr, Res.ofExcept]

theorem parseAccountTypeName_not_panic (s : Str) : parseAccountTypeName s ≠ .panic := by
  unfold parseAccountTypeName
  cases AccountTypeName.tryFrom s <;> simp [Res.mapErr, Res.ofExcept]

/-- C46: an option is reported as unknown exactly when its name is not a documented one. -/
theorem C46_unknown (decimal : Str → Except LexerError Dec) (file : Option Path) (name value : Str) :
    OptVariant.parse decimal name value file = .err .unknownOption ↔ name ∉ optionNames := by
  constructor
  · intro h hmem
    unfold OptVariant.parse at h
    rcases ite_res h with ⟨-, h⟩ | ⟨h0, h⟩
    · cases h
    rcases ite_res h with ⟨-, h⟩ | ⟨h1, h⟩
    · exact parseAccountTypeName_known _ ((map_err _ _ _).mp h)
    rcases ite_res h with ⟨-, h⟩ | ⟨h2, h⟩
    · exact parseAccountTypeName_known _ ((map_err _ _ _).mp h)
    rcases ite_res h with ⟨-, h⟩ | ⟨h3, h⟩
    · exact parseAccountTypeName_known _ ((map_err _ _ _).mp h)
    rcases ite_res h with ⟨-, h⟩ | ⟨h4, h⟩
    · exact parseAccountTypeName_known _ ((map_err _ _ _).mp h)
    rcases ite_res h with ⟨-, h⟩ | ⟨h5, h⟩
    · exact parseAccountTypeName_known _ ((map_err _ _ _).mp h)
    rcases ite_res h with ⟨-, h⟩ | ⟨h6, h⟩
    · exact parseSubaccount_known _ ((map_err _ _ _).mp h)
    rcases ite_res h with ⟨-, h⟩ | ⟨h7, h⟩
    · exact parseSubaccount_known _ ((map_err _ _ _).mp h)
    rcases ite_res h with ⟨-, h⟩ | ⟨h8, h⟩
    · exact parseSubaccount_known _ ((map_err _ _ _).mp h)
    rcases ite_res h with ⟨-, h⟩ | ⟨h9, h⟩
    · exact parseSubaccount_known _ ((map_err _ _ _).mp h)
    rcases ite_res h with ⟨-, h⟩ | ⟨h10, h⟩
    · exact parseSubaccount_known _ ((map_err _ _ _).mp h)
    rcases ite_res h with ⟨-, h⟩ | ⟨h11, h⟩
    · exact parseSubaccount_known _ ((map_err _ _ _).mp h)
    rcases ite_res h with ⟨-, h⟩ | ⟨h12, h⟩
    · exact parseSubaccount_known _ ((map_err _ _ _).mp h)
    rcases ite_res h with ⟨-, h⟩ | ⟨h13, h⟩
    · exact parseCurrency_known _ ((map_err _ _ _).mp h)
    rcases ite_res h with ⟨-, h⟩ | ⟨h14, h⟩
    · exact tolerance_known _ _ ((map_err _ _ _).mp h)
    rcases ite_res h with ⟨-, h⟩ | ⟨h15, h⟩
    · revert h; cases decimal value <;> (intro h; cases h)
    rcases ite_res h with ⟨-, h⟩ | ⟨h16, h⟩
    · exact ofOption_known _ _ ((map_err _ _ _).mp h)
    rcases ite_res h with ⟨-, h⟩ | ⟨h17, h⟩
    · cases h
    rcases ite_res h with ⟨-, h⟩ | ⟨h18, h⟩
    · exact parseCurrency_known _ ((map_err _ _ _).mp h)
    rcases ite_res h with ⟨-, h⟩ | ⟨h19, h⟩
    · exact ofOption_known _ _ ((map_err _ _ _).mp h)
    rcases ite_res h with ⟨-, h⟩ | ⟨h20, h⟩
    · exact ofOption_known _ _ ((map_err _ _ _).mp h)
    rcases ite_res h with ⟨-, h⟩ | ⟨h21, h⟩
    · exact ofOption_known _ _ ((map_err _ _ _).mp h)
    rcases ite_res h with ⟨-, h⟩ | ⟨h22, h⟩
    · exact ofOption_known _ _ ((map_err _ _ _).mp h)
    simp only [optionNames, List.map, List.mem_cons, List.not_mem_nil, or_false] at hmem
    rcases hmem with e | e | e | e | e | e | e | e | e | e | e | e | e | e | e | e | e | e | e | e | e | e | e
    · exact h0 e
    · exact h1 e
    · exact h2 e
    · exact h3 e
    · exact h4 e
    · exact h5 e
    · exact h6 e
    · exact h7 e
    · exact h8 e
    · exact h9 e
    · exact h10 e
    · exact h11 e
    · exact h12 e
    · exact h13 e
    · exact h14 e
    · exact h15 e
    · exact h16 e
    · exact h17 e
    · exact h18 e
    · exact h19 e
    · exact h20 e
    · exact h21 e
    · exact h22 e
  · intro h
    unfold OptVariant.parse
    rw [if_neg (ne_of_not_mem (x := str "title") h (by decide))]
    rw [if_neg (ne_of_not_mem (x := str "name_assets") h (by decide))]
    rw [if_neg (ne_of_not_mem (x := str "name_liabilities") h (by decide))]
    rw [if_neg (ne_of_not_mem (x := str "name_equity") h (by decide))]
    rw [if_neg (ne_of_not_mem (x := str "name_income") h (by decide))]
    rw [if_neg (ne_of_not_mem (x := str "name_expenses") h (by decide))]
    rw [if_neg (ne_of_not_mem (x := str "account_previous_balances") h (by decide))]
    rw [if_neg (ne_of_not_mem (x := str "account_previous_earnings") h (by decide))]
    rw [if_neg (ne_of_not_mem (x := str "account_previous_conversions") h (by decide))]
    rw [if_neg (ne_of_not_mem (x := str "account_current_earnings") h (by decide))]
    rw [if_neg (ne_of_not_mem (x := str "account_current_conversions") h (by decide))]
    rw [if_neg (ne_of_not_mem (x := str "account_unrealized_gains") h (by decide))]
    rw [if_neg (ne_of_not_mem (x := str "account_rounding") h (by decide))]
    rw [if_neg (ne_of_not_mem (x := str "conversion_currency") h (by decide))]
    rw [if_neg (ne_of_not_mem (x := str "inferred_tolerance_default") h (by decide))]
    rw [if_neg (ne_of_not_mem (x := str "inferred_tolerance_multiplier") h (by decide))]
    rw [if_neg (ne_of_not_mem (x := str "infer_tolerance_from_cost") h (by decide))]
    rw [if_neg (ne_of_not_mem (x := str "documents") h (by decide))]
    rw [if_neg (ne_of_not_mem (x := str "operating_currency") h (by decide))]
    rw [if_neg (ne_of_not_mem (x := str "render_commas") h (by decide))]
    rw [if_neg (ne_of_not_mem (x := str "long_string_maxlines") h (by decide))]
    rw [if_neg (ne_of_not_mem (x := str "booking_method") h (by decide))]
    rw [if_neg (ne_of_not_mem (x := str "plugin_processing_mode") h (by decide))]

/-- C46: where decoding panics instead: a currency with a non-ASCII character. -/
theorem C46_panics_iff (decimal : Str → Except LexerError Dec) (file : Option Path) (name value : Str) :
    OptVariant.parse decimal name value file = .panic ↔
      ((name = "conversion_currency".toList ∨ name = "operating_currency".toList) ∧ ∃ c ∈ value, ¬ Ascii c) ∨
      (name = "inferred_tolerance_default".toList ∧
        ∃ first, ':' ∉ first ∧ (value = first ∨ ∃ t, value = first ++ ':' :: t) ∧ ∃ c ∈ first, ¬ Ascii c) := by
  constructor
  · intro h
    unfold OptVariant.parse at h
    rcases ite_res h with ⟨hn, h⟩ | ⟨-, h⟩
    · cases h
    rcases ite_res h with ⟨hn, h⟩ | ⟨-, h⟩
    · exact absurd ((map_panic _ _).mp h) (parseAccountTypeName_not_panic _)
    rcases ite_res h with ⟨hn, h⟩ | ⟨-, h⟩
    · exact absurd ((map_panic _ _).mp h) (parseAccountTypeName_not_panic _)
    rcases ite_res h with ⟨hn, h⟩ | ⟨-, h⟩
    · exact absurd ((map_panic _ _).mp h) (parseAccountTypeName_not_panic _)
    rcases ite_res h with ⟨hn, h⟩ | ⟨-, h⟩
    · exact absurd ((map_panic _ _).mp h) (parseAccountTypeName_not_panic _)
    rcases ite_res h with ⟨hn, h⟩ | ⟨-, h⟩
    · exact absurd ((map_panic _ _).mp h) (parseAccountTypeName_not_panic _)
    rcases ite_res h with ⟨hn, h⟩ | ⟨-, h⟩
    · exact absurd ((map_panic _ _).mp h) (parseSubaccount_not_panic _)
    rcases ite_res h with ⟨hn, h⟩ | ⟨-, h⟩
    · exact absurd ((map_panic _ _).mp h) (parseSubaccount_not_panic _)
    rcases ite_res h with ⟨hn, h⟩ | ⟨-, h⟩
    · exact absurd ((map_panic _ _).mp h) (parseSubaccount_not_panic _)
    rcases ite_res h with ⟨hn, h⟩ | ⟨-, h⟩
    · exact absurd ((map_panic _ _).mp h) (parseSubaccount_not_panic _)
    rcases ite_res h with ⟨hn, h⟩ | ⟨-, h⟩
    · exact absurd ((map_panic _ _).mp h) (parseSubaccount_not_panic _)
    rcases ite_res h with ⟨hn, h⟩ | ⟨-, h⟩
    · exact absurd ((map_panic _ _).mp h) (parseSubaccount_not_panic _)
    rcases ite_res h with ⟨hn, h⟩ | ⟨-, h⟩
    · exact absurd ((map_panic _ _).mp h) (parseSubaccount_not_panic _)
    rcases ite_res h with ⟨hn, h⟩ | ⟨-, h⟩
    · exact Or.inl ⟨Or.inl hn, (parseCurrency_panic _).mp ((map_panic _ _).mp h)⟩
    rcases ite_res h with ⟨hn, h⟩ | ⟨-, h⟩
    · exact Or.inr ⟨hn, (tolerance_panic _ _).mp ((map_panic _ _).mp h)⟩
    rcases ite_res h with ⟨hn, h⟩ | ⟨-, h⟩
    · revert h; cases decimal value <;> (intro h; cases h)
    rcases ite_res h with ⟨hn, h⟩ | ⟨-, h⟩
    · exact absurd ((map_panic _ _).mp h) (ofOption_not_panic _ _)
    rcases ite_res h with ⟨hn, h⟩ | ⟨-, h⟩
    · cases h
    rcases ite_res h with ⟨hn, h⟩ | ⟨-, h⟩
    · exact Or.inl ⟨Or.inr hn, (parseCurrency_panic _).mp ((map_panic _ _).mp h)⟩
    rcases ite_res h with ⟨hn, h⟩ | ⟨-, h⟩
    · exact absurd ((map_panic _ _).mp h) (ofOption_not_panic _ _)
    rcases ite_res h with ⟨hn, h⟩ | ⟨-, h⟩
    · exact absurd ((map_panic _ _).mp h) (ofOption_not_panic _ _)
    rcases ite_res h with ⟨hn, h⟩ | ⟨-, h⟩
    · exact absurd ((map_panic _ _).mp h) (ofOption_not_panic _ _)
    rcases ite_res h with ⟨hn, h⟩ | ⟨-, h⟩
    · exact absurd ((map_panic _ _).mp h) (ofOption_not_panic _ _)
    cases h
  · rintro (⟨rfl | rfl, h⟩ | ⟨rfl, h⟩)
    · exact (map_panic _ _).mpr ((parseCurrency_panic _).mpr h)
    · exact (map_panic _ _).mpr ((parseCurrency_panic _).mpr h)
    · exact (map_panic _ _).mpr ((tolerance_panic _ _).mpr h)

/-- C46: a documented option whose value does not decode is reported as having a bad value.
Missing from the full statement: on a non-ASCII currency the code panics instead. -/
theorem C46_bad_value_partial (decimal : Str → Except LexerError Dec) (file : Option Path) (name value : Str)
    (hn : name ∈ optionNames) (hd : ∀ v, ¬ Decodes (okOf decimal) file name value v)
    (ha : ∀ c ∈ value, Ascii c) :
    ∃ e, OptVariant.parse decimal name value file = .err (.badValue e) := by
  cases h : OptVariant.parse decimal name value file with
  | ok v => exact absurd ((C46_decodes _ _ _ _ _).mp h) (hd v)
  | panic =>
    rcases (C46_panics_iff _ _ _ _).mp h with ⟨_, c, hc, hx⟩ | ⟨_, first, _, hv, c, hc, hx⟩
    · exact absurd (ha c hc) hx
    · refine absurd (ha c ?_) hx
      rcases hv with rfl | ⟨t, rfl⟩
      · exact hc
      · simp [hc]
  | err e =>
    cases e with
    | unknownOption => exact absurd hn ((C46_unknown _ _ _ _).mp h)
    | badValue e => exact ⟨e, rfl⟩

/-- C46 as stated is false of the code: a documented option with a value that is neither decoded nor
reported. -/
theorem C46_always_reported_false : ¬ ∀ (decimal : Str → Except LexerError Dec) (file : Option Path)
    (name value : Str), name ∈ optionNames → OptVariant.parse decimal name value file ≠ .panic := by
  intro h
  refine h (fun _ => .error ⟨[]⟩) none "operating_currency".toList "é".toList (by decide) ?_
  rw [C46_panics_iff]
  exact Or.inl ⟨Or.inr rfl, 'é', by decide, fun h => absurd ((isAscii_iff 'é').mpr h) (by decide)⟩

/-- C46: the locations of name and value are kept with the option. -/
theorem C46_source (decimal : Str → Except LexerError Dec) (file : Option Path) (name value : Spanned Str)
    (o : BOption) (h : BOption.parse decimal name value file = .ok o) :
    o.source.name = name.span ∧ o.source.value = value.span ∧
      Decodes (okOf decimal) file name.item value.item o.variant := by
  obtain ⟨v, hv, rfl⟩ := (map_ok _ _ _).mp h
  exact ⟨rfl, rfl, (C46_decodes _ _ _ _ _).mp hv⟩

end

/-- C46: the stand-in for an option that was not understood alters no option and reports nothing more. -/
theorem C46_ignored (o : Options) (p : ParserOptions) :
    o.assimilate BOption.ignored = (o, none) ∧ p.assimilate BOption.ignored = (.ok BOption.ignored, p) :=
  ⟨rfl, rfl⟩

/-- The hypotheses of C46 are met by ordinary options, good, bad and unknown. -/
example : @OptVariant.parse Unicode.asciiOnly (fun _ => .error ⟨[]⟩) (str "render_commas") (str "TRUE") none
    = .ok (.renderCommas true) := by decide
example : @OptVariant.parse Unicode.asciiOnly (fun _ => .error ⟨[]⟩) (str "render_commas") (str "2") none
    = .err (.badValue .bool) := by decide
example : @OptVariant.parse Unicode.asciiOnly (fun _ => .ok ⟨5, 3⟩) (str "inferred_tolerance_default") (str "USD:0.005") none
    = .ok (.inferredToleranceDefault (.currency (str "USD")) ⟨5, 3⟩) := by decide
example : str "render_comma" ∉ optionNames := by decide

end Lima.Props
