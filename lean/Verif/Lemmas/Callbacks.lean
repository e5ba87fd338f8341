import Verif.Model.Callbacks
import Verif.Spec.Callbacks
import Verif.Lemmas.Text

/-! # Lemmas about literals and splitting -/

namespace Lima
open Lima.Spec

theorem digit_isAsciiDigit (n : Fin 10) : isAsciiDigit (digit n) = true := by
  revert n; decide

theorem digit_value (n : Fin 10) : digitValue (digit n) = n := by
  revert n; decide

theorem digit_ne (n : Fin 10) (c : Char) (h : isAsciiDigit c = false) : digit n ≠ c := by
  intro e; rw [← e, digit_isAsciiDigit] at h; cases h

/-- Every ASCII digit character is one of the digits. -/
theorem isAsciiDigit_exists (c : Char) (h : isAsciiDigit c = true) : ∃ n, digit n = c := by
  simp only [isAsciiDigit, decide_eq_true_eq] at h
  refine ⟨⟨c.toNat - 48, by omega⟩, ?_⟩
  unfold digit
  have : 48 + (c.toNat - 48) = c.toNat := by omega
  simp only [this]
  exact Char.ofNat_toNat c

theorem decimalValue_eq (ds : List (Fin 10)) : decimalValue (ds.map digit) = number ds := by
  have h : ∀ acc, (ds.map digit).foldl (fun acc c => 10 * acc + digitValue c) acc =
      acc * 10 ^ ds.length + number ds := by
    induction ds with
    | nil => intro acc; simp [number]
    | cons d ds ih =>
      intro acc
      simp only [List.map_cons, List.foldl_cons, List.length_cons, number]
      rw [ih, digit_value, Nat.pow_succ, Nat.add_mul]
      have : 10 * acc * 10 ^ ds.length = acc * (10 ^ ds.length * 10) := by
        rw [Nat.mul_comm 10 acc, Nat.mul_assoc, Nat.mul_comm 10]
      omega
  simpa [decimalValue] using h 0

theorem number_lt (ds : List (Fin 10)) : number ds < 10 ^ ds.length := by
  induction ds with
  | nil => simp [number]
  | cons d ds ih =>
    simp only [number, List.length_cons, Nat.pow_succ]
    have : d.val * 10 ^ ds.length ≤ 9 * 10 ^ ds.length := Nat.mul_le_mul_right _ (by omega)
    omega

theorem parseUnsigned_digits (max : Nat) (ds : List (Fin 10)) (h1 : ds ≠ []) (h2 : 10 ^ ds.length ≤ max + 1) :
    parseUnsigned max (ds.map digit) = some (number ds) := by
  unfold parseUnsigned
  have hall : (ds.map digit).all isAsciiDigit = true := by
    rw [List.all_eq_true]
    intro c hc
    obtain ⟨n, _, rfl⟩ := List.mem_map.mp hc
    exact digit_isAsciiDigit n
  have hlt := number_lt ds
  rw [if_pos]
  · rw [decimalValue_eq]
  · refine ⟨by simpa using h1, hall, ?_⟩
    rw [decimalValue_eq]; omega

theorem splitBy_ne_nil (p : Char → Bool) (s : Str) : splitBy p s ≠ [] := by
  induction s with
  | nil => simp [splitBy]
  | cons c s ih =>
    unfold splitBy
    split
    · simp
    · split <;> simp

theorem splitBy_append (p : Char → Bool) (w : Str) (h : ∀ c ∈ w, p c = false) (s : Str) :
    splitBy p (w ++ s) = match splitBy p s with
      | [] => [w]
      | x :: xs => (w ++ x) :: xs := by
  have hne := splitBy_ne_nil p
  induction w with
  | nil =>
    cases hs : splitBy p s with
    | nil => exact absurd hs (hne s)
    | cons => simp [hs]
  | cons c w ih =>
    have hc := h c (by simp)
    rw [List.cons_append, splitBy, hc, ih (fun c hc => h c (by simp [hc]))]
    cases splitBy p s <;> simp

theorem splitBy_word (p : Char → Bool) (w : Str) (h : ∀ c ∈ w, p c = false) : splitBy p w = [w] := by
  have := splitBy_append p w h []
  simpa [splitBy] using this

theorem splitBy_sep (p : Char → Bool) (w : Str) (h : ∀ c ∈ w, p c = false) (c : Char) (hc : p c = true)
    (s : Str) : splitBy p (w ++ c :: s) = w :: splitBy p s := by
  rw [splitBy_append p w h]
  simp [splitBy, hc]

end Lima
