import Verif.Model.AccountTypes
import Verif.Spec.Names
import Verif.Lemmas.Maps

/-! Lemmas about validated names. -/

namespace Lima
open Spec

theorem char_le_iff (a b : Char) : a ≤ b ↔ a.toNat ≤ b.toNat := by
  rw [Char.le_def, UInt32.le_iff_toNat_le]; rfl

theorem char_lt_iff (a b : Char) : a < b ↔ a.toNat < b.toNat := by
  rw [Char.lt_def, UInt32.lt_iff_toNat_lt]; rfl

theorem isAsciiUpper_iff (c : Char) : isAsciiUpper c = true ↔ Upper c := by
  simp only [isAsciiUpper, Upper, decide_eq_true_eq, char_le_iff]; rfl

theorem isAsciiLower_iff (c : Char) : isAsciiLower c = true ↔ Lower c := by
  simp only [isAsciiLower, Lower, decide_eq_true_eq, char_le_iff]; rfl

theorem isAsciiDigit_iff (c : Char) : isAsciiDigit c = true ↔ Digit c := by
  simp only [isAsciiDigit, Digit, decide_eq_true_eq, char_le_iff]; rfl

theorem isAscii_iff (c : Char) : isAscii c = true ↔ Ascii c := by
  simp only [isAscii, Ascii, decide_eq_true_eq, char_lt_iff]; rfl

theorem utf8Size_pos' (c : Char) : 0 < c.utf8Size := Char.utf8Size_pos c

theorem utf8Size_eq_one_iff (c : Char) : c.utf8Size = 1 ↔ isAscii c = true := by
  have h : c.toNat = c.val.toNat := rfl
  simp only [Char.utf8Size, isAscii, decide_eq_true_eq, h, UInt32.le_iff_toNat_le]
  repeat' split
  all_goals first | (simp_all; omega) | skip

theorem byteLen_cons (c : Char) (s : Str) : byteLen (c :: s) = c.utf8Size + byteLen s := by
  simp [byteLen]

theorem byteLen_append (s t : Str) : byteLen (s ++ t) = byteLen s + byteLen t := by
  simp [byteLen]

theorem length_le_byteLen (s : Str) : s.length ≤ byteLen s := by
  induction s with
  | nil => simp
  | cons c s ih =>
    rw [byteLen_cons, List.length_cons]
    have := utf8Size_pos' c
    omega

theorem byteLen_eq_length_iff (s : Str) : byteLen s = s.length ↔ ∀ c ∈ s, isAscii c = true := by
  induction s with
  | nil => simp [byteLen]
  | cons c s ih =>
    rw [byteLen_cons, List.length_cons]
    have h1 := utf8Size_pos' c
    have h2 := length_le_byteLen s
    have h3 := utf8Size_eq_one_iff c
    simp only [List.mem_cons, forall_eq_or_imp]
    rw [← ih, ← h3]
    omega

theorem currency_check_ok (s : Str) (a z t) (mid : List Char) :
    Currency.check s a mid z = .ok t ↔
      t = s ∧ (Upper a ∨ a = '/') ∧
      (∀ c ∈ mid, Upper c ∨ Digit c ∨ c = '\'' ∨ c = '.' ∨ c = '_' ∨ c = '-') ∧
      (Upper z ∨ Digit z) ∧ ∃ c ∈ s, Upper c := by
  have hi : Currency.isValidInitial a = true ↔ (Upper a ∨ a = '/') := by
    simp [Currency.isValidInitial, isAsciiUpper_iff]
  have hf : Currency.isValidFinal z = true ↔ (Upper z ∨ Digit z) := by
    simp [Currency.isValidFinal, isAsciiUpper_iff, isAsciiDigit_iff]
  have hm : (mid.filter (fun c => !Currency.isValidIntermediate c)).isEmpty = true ↔
      ∀ c ∈ mid, Upper c ∨ Digit c ∨ c = '\'' ∨ c = '.' ∨ c = '_' ∨ c = '-' := by
    rw [List.isEmpty_iff, List.filter_eq_nil_iff]
    refine forall_congr' fun c => forall_congr' fun _ => ?_
    simp only [Bool.not_eq_true', Bool.not_eq_false]
    simp only [Currency.isValidIntermediate, Bool.or_eq_true, isAsciiUpper_iff, isAsciiDigit_iff,
      List.contains_eq_mem, List.mem_cons, List.not_mem_nil, or_false, decide_eq_true_eq, or_assoc]
  have hu : (s.find? isAsciiUpper).isNone = false ↔ ∃ c ∈ s, Upper c := by
    rw [Option.isNone_eq_false_iff, List.find?_isSome]
    simp [isAsciiUpper_iff]
  rw [← hi, ← hf, ← hm, ← hu]
  unfold Currency.check
  dsimp only
  generalize Currency.isValidInitial a = b1
  generalize Currency.isValidFinal z = b2
  generalize mid.filter (fun c => !Currency.isValidIntermediate c) = bad
  generalize (s.find? isAsciiUpper).isNone = b4
  cases b1 <;> cases b2 <;> cases bad <;> cases b4 <;> simp <;> exact ⟨Eq.symm, Eq.symm⟩

theorem currency_check_not_panic (s : Str) (a z) (mid : List Char) :
    Currency.check s a mid z ≠ .panic := by
  unfold Currency.check
  dsimp only
  repeat' split
  all_goals (intro h; cases h)

theorem nameTryFrom_ok (p q : Char → Bool) (s t : Str) :
    nameTryFrom p q s = .ok t ↔ t = s ∧ ∃ a rest, s = a :: rest ∧ p a = true ∧ ∀ c ∈ rest, q c = true := by
  cases s with
  | nil => simp [nameTryFrom]
  | cons a rest =>
    simp only [nameTryFrom, List.cons.injEq]
    cases hp : p a with
    | false =>
      simp only [Bool.not_false, if_true, reduceCtorEq, false_iff]
      rintro ⟨_, x, y, ⟨rfl, rfl⟩, h3, _⟩
      simp [hp] at h3
    | true =>
      simp only [Bool.not_true, Bool.false_eq_true, if_false, List.isEmpty_iff]
      split
      · rename_i h
        rw [List.filter_eq_nil_iff] at h
        simp only [Except.ok.injEq]
        constructor
        · intro e; exact ⟨e.symm, a, rest, ⟨rfl, rfl⟩, hp, fun c hc => by simpa using h c hc⟩
        · rintro ⟨e, _⟩; exact e.symm
      · rename_i h
        rw [List.filter_eq_nil_iff] at h
        simp only [reduceCtorEq, false_iff]
        rintro ⟨_, x, y, ⟨rfl, rfl⟩, _, h'⟩
        exact h (fun c hc => by simp [h' c hc])

theorem splitColon_ne_nil (s : Str) : splitColon s ≠ [] := by
  induction s with
  | nil => simp [splitColon]
  | cons c s ih =>
    unfold splitColon
    split
    · simp
    · split <;> simp_all

theorem splitColon_of_noColon (w : Str) (h : ':' ∉ w) (s : Str) :
    splitColon (w ++ s) = match splitColon s with
      | [] => [w]
      | x :: xs => (w ++ x) :: xs := by
  induction w with
  | nil =>
    cases hs : splitColon s with
    | nil => exact absurd hs (splitColon_ne_nil s)
    | cons => simp [hs]
  | cons c w ih =>
    have hc : c ≠ ':' := fun e => h (by simp [e])
    have hw : ':' ∉ w := fun e => h (by simp [e])
    rw [List.cons_append, splitColon, if_neg hc, ih hw]
    cases splitColon s <;> simp

/-- `split` undoes joining. -/
theorem splitColon_join (ws : List Str) (hne : ws ≠ []) (h : ∀ w ∈ ws, ':' ∉ w) :
    splitColon (joinColon ws) = ws := by
  induction ws with
  | nil => exact absurd rfl hne
  | cons w ws ih =>
    cases ws with
    | nil =>
      have := splitColon_of_noColon w (h w (by simp)) []
      simpa [joinColon, splitColon] using this
    | cons v vs =>
      have hj : joinColon (w :: v :: vs) = w ++ ':' :: joinColon (v :: vs) := rfl
      rw [hj, splitColon_of_noColon w (h w (by simp))]
      have : splitColon (':' :: joinColon (v :: vs)) = [] :: splitColon (joinColon (v :: vs)) := by
        rw [splitColon]; simp
      rw [this, ih (by simp) (fun x hx => h x (by simp [hx]))]
      simp

/-- Joining undoes `split`. -/
theorem join_splitColon (s : Str) : joinColon (splitColon s) = s := by
  induction s with
  | nil => rfl
  | cons c s ih =>
    unfold splitColon
    cases hs : splitColon s with
    | nil => exact absurd hs (splitColon_ne_nil s)
    | cons w ws =>
      rw [hs] at ih
      split
      · rename_i hc
        subst hc
        simp only [joinColon, List.nil_append, ih]
      · cases ws with
        | nil => simpa [joinColon] using ih
        | cons v vs => simpa [joinColon] using ih

theorem splitColon_noColon (s : Str) : ∀ w ∈ splitColon s, ':' ∉ w := by
  induction s with
  | nil => simp [splitColon]
  | cons c s ih =>
    unfold splitColon
    split
    · intro w hw
      rcases List.mem_cons.mp hw with rfl | hw
      · simp
      · exact ih w hw
    · rename_i hc
      split
      · intro w hw
        simp at hw; subst hw
        simpa using fun e => hc e.symm
      · rename_i x xs hs
        rw [hs] at ih
        intro w hw
        rcases List.mem_cons.mp hw with rfl | hw
        · simp only [List.mem_cons, not_or]
          exact ⟨fun e => hc e.symm, ih x (by simp)⟩
        · exact ih w (by simp [hw])

section
variable [Unicode]

theorem isAlphanumeric_iff (c : Char) : isAlphanumeric c = true ↔ Alnum c := by
  simp [isAlphanumeric, Alnum]

theorem accountSubsequent_iff (c : Char) : accountSubsequent c = true ↔ Alnum c ∨ c = '-' := by
  simp [accountSubsequent, isAlphanumeric_iff]

theorem accountTypeName_ok (s t : Str) :
    AccountTypeName.tryFrom s = .ok t ↔ t = s ∧ ValidAccountTypeName s := by
  unfold AccountTypeName.tryFrom ValidAccountTypeName
  rw [nameTryFrom_ok]
  simp only [isAsciiUpper_iff, accountSubsequent_iff]

theorem accountName_initial_iff (c : Char) : AccountName.isValidInitial c = true ↔
    (Upper c ∨ Digit c ∨ (¬ Ascii c ∧ Unicode.isAlphabetic c = true)) := by
  simp only [AccountName.isValidInitial, Bool.or_eq_true, isAsciiUpper_iff, isAsciiDigit_iff,
    Bool.and_eq_true, Bool.not_eq_true', ← isAscii_iff, Bool.not_eq_true, or_assoc]

theorem key_subsequent_iff (c : Char) :
    Key.isValidSubsequent c = true ↔ (Alnum c ∨ c = '-' ∨ c = '_') := by
  simp [Key.isValidSubsequent, isAlphanumeric_iff, or_assoc]

theorem accountName_ok (s t : Str) :
    AccountName.tryFrom s = .ok t ↔ t = s ∧ ValidAccountName s := by
  unfold AccountName.tryFrom ValidAccountName
  rw [nameTryFrom_ok]
  simp only [accountName_initial_iff, accountSubsequent_iff]

theorem key_ok (s t : Str) : Key.tryFrom s = .ok t ↔ t = s ∧ ValidKey s := by
  unfold Key.tryFrom ValidKey
  rw [nameTryFrom_ok]
  simp only [key_subsequent_iff, isAsciiLower_iff]

theorem tagChar_iff (c : Char) : isValidTagOrLinkChar c = true ↔ TagChar c := by
  simp [isValidTagOrLinkChar, TagChar, isAlphanumeric_iff]

theorem checkSubaccounts_ok (ss : List Str) :
    checkSubaccounts ss = .ok () ↔ ∀ s ∈ ss, ValidAccountName s := by
  induction ss with
  | nil => simp [checkSubaccounts]
  | cons s ss ih =>
    unfold checkSubaccounts
    cases h : AccountName.tryFrom s with
    | error e =>
      simp only [reduceCtorEq, false_iff, List.mem_cons, forall_eq_or_imp, not_and]
      intro hv
      have := (accountName_ok s s).mpr ⟨rfl, hv⟩
      rw [h] at this
      cases this
    | ok t =>
      have := ((accountName_ok s t).mp h).2
      simp [ih, this]

end

end Lima
