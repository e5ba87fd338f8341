import Verif.Lemmas.AccountTypes

/-!
# C14-C17: names
-/

namespace Lima.Props
open Lima Lima.Spec

/-! ## C14 -/

/-- The account type tables after any sequence of renamings. -/
def namesAfter (us : List (AccountType × Str)) : AccountTypeNames :=
  us.foldl (fun n u => (n.update u.1 u.2).2) AccountTypeNames.default

/-- C14: after any sequence of renamings, looking a type up gives its name, and looking a name up gives the
type with that name, where names are as if each accepted renaming changed one type's name and each refused
one changed nothing. -/
theorem C14_naming (us : List (AccountType × Str)) :
    (∀ t, (namesAfter us).name t = some (Naming.after us t)) ∧
    (∀ s t, (namesAfter us).get s = some t ↔ Naming.after us t = s) :=
  ⟨(refines_after us).name, (refines_after us).get⟩

/-- C14: types and names stay in one-to-one correspondence. -/
theorem C14_bijection (us : List (AccountType × Str)) :
    (∀ t, ∃ s, (namesAfter us).name t = some s ∧ (namesAfter us).get s = some t) ∧
    (∀ t t' s, (namesAfter us).name t = some s → (namesAfter us).name t' = some s → t = t') ∧
    (∀ s t, (namesAfter us).get s = some t → (namesAfter us).name t = some s) := by
  have h := refines_after us
  refine ⟨fun t => ⟨_, h.name t, (h.get _ t).mpr rfl⟩, fun t t' s h1 h2 => ?_, fun s t h1 => ?_⟩
  · have e1 := (h.name t).symm.trans h1
    have e2 := (h.name t').symm.trans h2
    exact h.inj _ _ ((Option.some.inj e1).trans (Option.some.inj e2).symm)
  · exact (h.name t).trans (congrArg some ((h.get s t).mp h1))

/-- C14: a renaming is refused exactly when another type has the name, the refusal names that type and
changes nothing; otherwise it is accepted.  It never panics. -/
theorem C14_update_outcome (us : List (AccountType × Str)) (t : AccountType) (s : Str) :
    let before := namesAfter us
    let r := before.update t s
    (r.1 = .ok () ↔ ∀ t', before.name t' = some s → t' = t) ∧
    (∀ t', r.1 = .err t' ↔ before.name t' = some s ∧ t' ≠ t) ∧
    (r.1 ≠ .ok () → r.2 = before) ∧
    r.1 ≠ .panic ∧
    (r.1 = .ok () → r.2.name t = some s ∧ ∀ t', t' ≠ t → r.2.name t' = before.name t') := by
  intro before r
  have h : Refines before (Naming.after us) := refines_after us
  obtain ⟨hr, hc⟩ := refines_update h t s
  have hname : ∀ x, before.name x = some s ↔ Naming.after us x = s := by
    intro x; rw [h.name x]; exact ⟨Option.some.inj, congrArg some⟩
  change Refines r.2 _ at hr
  change (r.1 = _ ∧ _) ∨ (∃ t', r.1 = _ ∧ _ ∧ _ ∧ r.2 = _) at hc
  rcases hc with ⟨h1, h2⟩ | ⟨t', h1, h2, h3, h4⟩
  · rw [h1]
    have hno : ∀ x, before.name x = some s → x = t := by
      intro x hx
      apply Classical.byContradiction
      intro hne
      exact h2 ⟨x, hne, (hname x).mp hx⟩
    refine ⟨⟨fun _ => hno, fun _ => rfl⟩, ?_, by simp, by simp, fun _ => ?_⟩
    · intro x
      constructor
      · intro e; cases e
      · rintro ⟨e, ne⟩; exact absurd (hno x e) ne
    · have hre : (Naming.after us).rename (t, s) = fun t' => if t' = t then s else Naming.after us t' := by
        unfold Naming.rename; rw [if_neg h2]
      rw [hre] at hr
      refine ⟨by simpa using hr.name t, fun x hx => ?_⟩
      rw [h.name x]
      simpa [hx] using hr.name x
  · rw [h1]
    refine ⟨⟨(by intro e; cases e), fun hh => absurd (hh t' ((hname t').mpr h3)) h2⟩, ?_, fun _ => h4, by simp,
      (by intro e; cases e)⟩
    intro x
    constructor
    · intro e; cases e; exact ⟨(hname _).mpr h3, h2⟩
    · rintro ⟨e, _⟩
      rw [h.inj x t' (((hname x).mp e).trans h3.symm)]

/-- A non-trivial history: swap two names through a temporary one, then a refused renaming. -/
example :
    (namesAfter [(.income, str "X"), (.expenses, str "Income"), (.income, str "Expenses"),
      (.assets, str "Equity")]).nameByType =
      [str "Assets", str "Liabilities", str "Equity", str "Expenses", str "Income"] := by decide

/-! ## C15 -/

section
variable [Unicode]

theorem colon_not_subsequent : ¬ (Alnum ':' ∨ ':' = '-') := by
  rw [← accountSubsequent_iff]
  have h1 := Unicode.alphabetic_ascii ':' (by decide)
  have h2 := Unicode.numeric_ascii ':' (by decide)
  simp only [accountSubsequent, isAlphanumeric, h1, h2]
  decide

theorem validAccountTypeName_noColon {s : Str} (h : ValidAccountTypeName s) : ':' ∉ s := by
  obtain ⟨a, rest, rfl, h1, h2⟩ := h
  intro hm
  rcases List.mem_cons.mp hm with rfl | hm
  · exact absurd h1 (by unfold Upper; decide)
  · exact colon_not_subsequent (h2 _ hm)

theorem validAccountName_noColon {s : Str} (h : ValidAccountName s) : ':' ∉ s := by
  obtain ⟨a, rest, rfl, h1, h2⟩ := h
  intro hm
  rcases List.mem_cons.mp hm with rfl | hm
  · rcases h1 with h1 | h1 | h1
    · exact absurd h1 (by unfold Upper; decide)
    · exact absurd h1 (by unfold Digit; decide)
    · exact h1.1 (by unfold Ascii; decide)
  · exact colon_not_subsequent (h2 _ hm)

/-- C15: a string is accepted as account `a` exactly when it is well-formed components joined by colons, the
first being the current name of `a`'s type; `a` carries the string as written. -/
theorem C15_account_accepted_iff (us : List (AccountType × Str)) (s : Str) (a : Account) :
    Account.new s (namesAfter us) = .ok a ↔
      ∃ root subs, s = joinColon (root :: subs) ∧
        ValidAccountTypeName root ∧ (∀ sub ∈ subs, ValidAccountName sub) ∧
        Naming.after us a.accountType = root ∧ a.name = s := by
  have hr := refines_after us
  change Refines (namesAfter us) _ at hr
  unfold Account.new
  constructor
  · intro h
    cases hs : splitColon s with
    | nil => exact absurd hs (splitColon_ne_nil s)
    | cons root subs =>
      rw [hs] at h
      simp only at h
      cases ht : AccountTypeName.tryFrom root with
      | error e => simp [ht] at h
      | ok root' =>
        have ⟨e1, hv⟩ := (accountTypeName_ok root root').mp ht
        subst e1
        simp only [ht] at h
        cases hc : checkSubaccounts subs with
        | error e => simp [hc] at h
        | ok u =>
          simp only [hc] at h
          cases hg : (namesAfter us).get root' with
          | none => simp [hg] at h
          | some t =>
            simp only [hg, Except.ok.injEq] at h
            subst h
            refine ⟨root', subs, ?_, hv, (checkSubaccounts_ok subs).mp hc, (hr.get _ _).mp hg, rfl⟩
            rw [← hs, join_splitColon]
  · rintro ⟨root, subs, hs, h1, h2, h3, h4⟩
    have hsplit : splitColon s = root :: subs := by
      rw [hs]
      apply splitColon_join _ (by simp)
      intro w hw
      rcases List.mem_cons.mp hw with rfl | hw
      · exact validAccountTypeName_noColon h1
      · exact validAccountName_noColon (h2 w hw)
    have ht := (accountTypeName_ok root root).mpr ⟨rfl, h1⟩
    have hg := (hr.get root a.accountType).mpr h3
    have hc := (checkSubaccounts_ok subs).mpr h2
    rw [hsplit]
    simp only [ht, hc, hg]
    cases a
    simp_all

omit [Unicode] in
/-- C15: the components of a string are determined by it. -/
theorem C15_components_unique (ws vs : List Str) (hw : ws ≠ []) (hv : vs ≠ [])
    (hws : ∀ w ∈ ws, ':' ∉ w) (hvs : ∀ w ∈ vs, ':' ∉ w) (h : joinColon ws = joinColon vs) : ws = vs := by
  rw [← splitColon_join ws hw hws, h, splitColon_join vs hv hvs]

end

example : @Account.new Unicode.asciiOnly (str "Capital:Bank-1:2USD") (namesAfter [(.equity, str "Capital")]) =
    .ok ⟨.equity, str "Capital:Bank-1:2USD"⟩ := by rfl

example : @Account.new Unicode.asciiOnly (str "Equity:Bank") (namesAfter [(.equity, str "Capital")]) =
    .error (.unknownAccountType (str "Equity")
      [str "Assets", str "Liabilities", str "Capital", str "Income", str "Expenses"]) := by rfl

/-! ## C16 -/

/-- C16, the part that holds: every accepted currency is as documented; for ASCII strings acceptance is
exactly the documented set and there is no panic.  Missing: the absence of panics on other strings, which
fails, see `C16_currency_panic_iff`. -/
theorem C16_currency_partial (s : Str) :
    (∀ t, Currency.tryFrom s = .ok t → t = s ∧ ValidCurrency s) ∧
    ((∀ c ∈ s, Ascii c) → Currency.tryFrom s ≠ .panic ∧ (Currency.tryFrom s = .ok s ↔ ValidCurrency s)) := by
  cases s with
  | nil =>
    refine ⟨by simp [Currency.tryFrom], fun _ => ⟨by simp [Currency.tryFrom], ?_⟩⟩
    simp [Currency.tryFrom, ValidCurrency]
  | cons a rest =>
    by_cases hasc : ∀ c ∈ a :: rest, isAscii c = true
    · have hlen := (byteLen_eq_length_iff (a :: rest)).mpr hasc
      have hok : Currency.tryFrom (a :: rest) ≠ .panic ∧
          ∀ t, Currency.tryFrom (a :: rest) = .ok t ↔ t = a :: rest ∧ ValidCurrency (a :: rest) := by
        unfold Currency.tryFrom
        simp only [hlen]
        rcases List.eq_nil_or_concat rest with hr | ⟨mid, z, hr⟩
        · subst hr
          simp only [List.length_cons, List.length_nil, Nat.zero_add, Nat.lt_irrefl, if_false,
            gt_iff_lt]
          refine ⟨currency_check_not_panic _ _ _ _, fun t => ?_⟩
          rw [currency_check_ok]
          simp only [ValidCurrency, List.take_nil, List.not_mem_nil, false_imp_iff, implies_true,
            true_and, List.mem_singleton, exists_eq_left]
          constructor
          · rintro ⟨h1, _, _, h4⟩
            exact ⟨h1, Or.inl ⟨a, rfl, h4⟩⟩
          · rintro ⟨h1, h2⟩
            rcases h2 with ⟨b, hb, hb'⟩ | ⟨b, m, z, hb, _⟩
            · simp only [List.cons.injEq, and_true] at hb
              subst hb
              exact ⟨h1, Or.inl hb', Or.inl hb', hb'⟩
            · simp at hb
        · subst hr
          have hl : (a :: (mid ++ [z])).length = mid.length + 2 := by simp
          rw [List.concat_eq_append] at *
          simp only [hl]
          have htk : (if mid.length + 2 > 2 then mid.length + 2 - 2 else 0) = mid.length := by
            split <;> omega
          rw [htk]
          simp only [List.take_left', List.drop_left', gt_iff_lt]
          rw [if_pos (by omega)]
          refine ⟨currency_check_not_panic _ _ _ _, fun t => ?_⟩
          rw [currency_check_ok]
          constructor
          · rintro ⟨h1, h2, h3, h4, h5⟩
            exact ⟨h1, Or.inr ⟨a, mid, z, rfl, h2, h3, h4, h5⟩⟩
          · rintro ⟨h1, h2⟩
            rcases h2 with ⟨b, hb, hb'⟩ | ⟨b, m, y, hb, h2, h3, h4, h5⟩
            · simp at hb
            · simp only [List.cons.injEq] at hb
              obtain ⟨rfl, hb⟩ := hb
              have := List.append_inj' hb rfl
              obtain ⟨rfl, e⟩ := this
              simp only [List.cons.injEq, and_true] at e
              subst e
              exact ⟨h1, h2, h3, h4, h5⟩
      refine ⟨fun t h => (hok.2 t).mp h, fun _ => ⟨hok.1, ?_⟩⟩
      rw [hok.2]; simp
    · have hgt : (a :: rest).length < byteLen (a :: rest) := by
        have h1 := length_le_byteLen (a :: rest)
        have h2 := mt (byteLen_eq_length_iff (a :: rest)).mp hasc
        omega
      have hp : Currency.tryFrom (a :: rest) = .panic := by
        unfold Currency.tryFrom
        simp only [List.length_cons] at hgt ⊢
        rw [if_pos (by omega)]
        have : rest.drop (if byteLen (a :: rest) > 2 then byteLen (a :: rest) - 2 else 0) = [] := by
          rw [List.drop_eq_nil_iff]
          split <;> omega
        rw [this]
      refine ⟨fun t h => (by rw [hp] at h; cases h), fun h => ?_⟩
      exact absurd (fun c hc => (isAscii_iff c).mpr (h c hc)) hasc

/-- The documented set contains these, and not those. -/
example : Currency.tryFrom (str "/6J.N'V-X_2") = .ok (str "/6J.N'V-X_2") := by decide
example : ∀ c ∈ str "/6J.N'V-X_2", Ascii c := by unfold Ascii; decide
example : Currency.tryFrom (str "/63") = .err .missingLetter := by decide

/-- C16, what is false: checking a currency panics exactly on strings with a character that is not ASCII. -/
theorem C16_currency_panic_iff (s : Str) : Currency.tryFrom s = .panic ↔ ∃ c ∈ s, ¬ Ascii c := by
  constructor
  · intro h
    apply Classical.byContradiction
    intro hn
    have : ∀ c ∈ s, Ascii c := fun c hc => Classical.byContradiction fun hc' => hn ⟨c, hc, hc'⟩
    exact ((C16_currency_partial s).2 this).1 h
  · rintro ⟨c, hc, hna⟩
    cases s with
    | nil => simp at hc
    | cons a rest =>
      have hasc : ¬ ∀ c ∈ a :: rest, isAscii c = true := fun h => hna ((isAscii_iff c).mp (h c hc))
      have hgt : (a :: rest).length < byteLen (a :: rest) := by
        have h1 := length_le_byteLen (a :: rest)
        have h2 := mt (byteLen_eq_length_iff (a :: rest)).mp hasc
        omega
      unfold Currency.tryFrom
      simp only [List.length_cons] at hgt ⊢
      rw [if_pos (by omega)]
      have : rest.drop (if byteLen (a :: rest) > 2 then byteLen (a :: rest) - 2 else 0) = [] := by
        rw [List.drop_eq_nil_iff]
        split <;> omega
      rw [this]

/-- C16 as stated is false of the code. -/
theorem C16_never_panics_false : ¬ ∀ s, Currency.tryFrom s ≠ .panic :=
  fun h => h (str "É") (by decide)

/-! ## C17 -/

section
variable [Unicode]

/-- C17: tags and links. -/
theorem C17_tag_link_accepted_iff (s t : Str) :
    tagOrLinkTryFrom s = .ok t ↔ t = s ∧ ∀ c ∈ s, TagChar c := by
  unfold tagOrLinkTryFrom
  simp only [List.isEmpty_iff]
  split
  · rename_i h
    rw [List.filter_eq_nil_iff] at h
    simp only [Except.ok.injEq]
    constructor
    · intro e
      refine ⟨e.symm, fun c hc => ?_⟩
      rw [← tagChar_iff]
      simpa using h c hc
    · intro e; exact e.1.symm
  · rename_i h
    rw [List.filter_eq_nil_iff] at h
    simp only [reduceCtorEq, false_iff]
    rintro ⟨_, h'⟩
    apply h
    intro c hc
    have := (tagChar_iff c).mpr (h' c hc)
    simp [this]

open Classical in
/-- C17: a refused tag or link reports its bad characters, all of them, in order. -/
theorem C17_tag_link_rejected_iff (s : Str) (bad : List Char) :
    tagOrLinkTryFrom s = .error bad ↔ bad = s.filter (fun c => decide (¬ TagChar c)) ∧ bad ≠ [] := by
  have hf : s.filter (fun c => !isValidTagOrLinkChar c) = s.filter (fun c => decide (¬ TagChar c)) := by
    apply List.filter_congr
    intro c _
    by_cases h : TagChar c
    · simp [h, (tagChar_iff c).mpr h]
    · have := mt (tagChar_iff c).mp h
      simp [h, this]
  unfold tagOrLinkTryFrom
  rw [hf]
  simp only [List.isEmpty_iff]
  split
  · rename_i h
    simp only [reduceCtorEq, false_iff, not_and, ne_eq, Decidable.not_not]
    intro e; rw [e, h]
  · rename_i h
    simp only [Except.error.injEq]
    constructor
    · intro e; subst e; exact ⟨rfl, h⟩
    · intro e; exact e.1.symm

/-- C17: account type names. -/
theorem C17_account_type_name_accepted_iff (s t : Str) :
    AccountTypeName.tryFrom s = .ok t ↔ t = s ∧ ValidAccountTypeName s := accountTypeName_ok s t

/-- C17: account components. -/
theorem C17_account_name_accepted_iff (s t : Str) :
    AccountName.tryFrom s = .ok t ↔ t = s ∧ ValidAccountName s := accountName_ok s t

/-- C17: metadata keys. -/
theorem C17_key_accepted_iff (s t : Str) : Key.tryFrom s = .ok t ↔ t = s ∧ ValidKey s := key_ok s t

/-- C17: a sub-account is accepted exactly when it is well-formed components joined by colons. -/
theorem C17_subaccount_accepted_iff (s t : Str) :
    Subaccount.tryFrom s = .ok t ↔
      t = s ∧ ∃ subs, subs ≠ [] ∧ s = joinColon subs ∧ ∀ w ∈ subs, ValidAccountName w := by
  have hgo : ∀ ws b, Subaccount.tryFrom.go s ws b = .ok t ↔
      t = s ∧ (ws = [] → b = false) ∧ ∀ w ∈ ws, ValidAccountName w := by
    intro ws
    induction ws with
    | nil => intro b; cases b <;> simp [Subaccount.tryFrom.go] <;> exact ⟨Eq.symm, Eq.symm⟩
    | cons w ws ih =>
      intro b
      unfold Subaccount.tryFrom.go
      cases h : AccountName.tryFrom w with
      | error e =>
        simp only [reduceCtorEq, false_iff]
        rintro ⟨_, _, h'⟩
        have := (accountName_ok w w).mpr ⟨rfl, h' w (by simp)⟩
        rw [h] at this
        cases this
      | ok v =>
        have := ((accountName_ok w v).mp h).2
        simp only [ih]
        simp [this]
  unfold Subaccount.tryFrom
  rw [hgo]
  constructor
  · rintro ⟨h1, _, h3⟩
    exact ⟨h1, splitColon s, splitColon_ne_nil s, (join_splitColon s).symm, h3⟩
  · rintro ⟨h1, subs, h2, h3, h4⟩
    have : splitColon s = subs := by
      rw [h3]
      exact splitColon_join subs h2 (fun w hw => validAccountName_noColon (h4 w hw))
    rw [this]
    exact ⟨h1, fun h => absurd h h2, h4⟩

open Classical in
/-- How a name is refused: nothing there, a bad first character, or the bad later characters, all of them in
order. -/
def RefusedWith (I S : Char → Prop) (s : Str) (e : NameError) : Prop :=
  (s = [] ∧ e = .empty) ∨
  (∃ a rest, s = a :: rest ∧ ¬ I a ∧ e = .initial a) ∨
  (∃ a rest bad, s = a :: rest ∧ I a ∧ bad = rest.filter (fun c => decide (¬ S c)) ∧ bad ≠ [] ∧
    e = .subsequent bad)

omit [Unicode] in
open Classical in
theorem nameTryFrom_error (p q : Char → Bool) (I S : Char → Prop) (hp : ∀ c, p c = true ↔ I c)
    (hq : ∀ c, q c = true ↔ S c) (s : Str) (e : NameError) :
    nameTryFrom p q s = .error e ↔ RefusedWith I S s e := by
  have hfun : (fun c => !q c) = fun c => decide (¬ S c) := by
    funext c
    by_cases h : S c
    · simp [h, (hq c).mpr h]
    · have := mt (hq c).mp h
      simp [h, this]
  unfold RefusedWith
  cases s with
  | nil => simp [nameTryFrom, eq_comm]
  | cons a rest =>
    simp only [nameTryFrom, hfun, reduceCtorEq, false_and, false_or, List.cons.injEq]
    by_cases ha : I a
    · have hpa := (hp a).mpr ha
      simp only [hpa, Bool.not_true, Bool.false_eq_true, if_false, List.isEmpty_iff]
      constructor
      · intro h
        split at h
        · cases h
        · rename_i hb
          cases h
          exact Or.inr ⟨a, rest, _, ⟨rfl, rfl⟩, ha, rfl, hb, rfl⟩
      · rintro (⟨x, y, ⟨rfl, rfl⟩, h1, _⟩ | ⟨x, y, bad, ⟨rfl, rfl⟩, _, h2, h3, rfl⟩)
        · exact absurd ha h1
        · subst h2
          rw [if_neg h3]
    · have hpa : p a = false := by simpa using mt (hp a).mp ha
      simp only [hpa, Bool.not_false, if_true]
      constructor
      · intro h
        cases h
        exact Or.inl ⟨a, rest, ⟨rfl, rfl⟩, ha, rfl⟩
      · rintro (⟨x, y, ⟨rfl, rfl⟩, _, rfl⟩ | ⟨x, y, bad, ⟨rfl, rfl⟩, h1, _⟩)
        · rfl
        · exact absurd h1 ha

/-- C17: how account type names are refused. -/
theorem C17_account_type_name_rejected_iff (s : Str) (e : NameError) :
    AccountTypeName.tryFrom s = .error e ↔ RefusedWith Upper (fun c => Alnum c ∨ c = '-') s e :=
  nameTryFrom_error _ _ _ _ isAsciiUpper_iff accountSubsequent_iff s e

/-- C17: how account components are refused. -/
theorem C17_account_name_rejected_iff (s : Str) (e : NameError) :
    AccountName.tryFrom s = .error e ↔
      RefusedWith (fun c => Upper c ∨ Digit c ∨ (¬ Ascii c ∧ Unicode.isAlphabetic c = true))
        (fun c => Alnum c ∨ c = '-') s e :=
  nameTryFrom_error _ _ _ _ accountName_initial_iff accountSubsequent_iff s e

/-- C17: how keys are refused. -/
theorem C17_key_rejected_iff (s : Str) (e : NameError) :
    Key.tryFrom s = .error e ↔ RefusedWith Lower (fun c => Alnum c ∨ c = '-' ∨ c = '_') s e :=
  nameTryFrom_error _ _ _ _ isAsciiLower_iff key_subsequent_iff s e

omit [Unicode] in
/-- C17: flag letters are the ASCII uppercase letters; a refusal reports the character. -/
theorem C17_flag_letter (c d : Char) :
    (FlagLetter.tryFrom c = .ok d ↔ d = c ∧ Upper c) ∧
    (FlagLetter.tryFrom c = .error d ↔ d = c ∧ ¬ Upper c) := by
  unfold FlagLetter.tryFrom
  by_cases h : Upper c
  · simp [h, (isAsciiUpper_iff c).mpr h, eq_comm]
  · have := mt (isAsciiUpper_iff c).mp h
    simp [h, this, eq_comm]

end

example : @tagOrLinkTryFrom Unicode.asciiOnly (str "a b!c") = .error [' ', '!'] := by rfl
example : @Key.tryFrom Unicode.asciiOnly (str "a b!c") = .error (.subsequent [' ', '!']) := by rfl
example : @AccountName.tryFrom Unicode.latin1 (str "Été") = .ok (str "Été") := by rfl
example : @AccountTypeName.tryFrom Unicode.latin1 (str "Été") = .error (.initial 'É') := by rfl

end Lima.Props
