import Verif.Model.Decimal

/-! Lemmas about decimals, and operators satisfying the laws of `DecOps`. -/

namespace Lima

theorem pow10_pos (n : Nat) : (0 : ℚ) < 10 ^ n := by positivity

theorem Dec.val_mul_pow (d : Dec) : d.val * 10 ^ d.scale = d.mant := by
  unfold Dec.val
  field_simp

theorem Dec.addExact_val (a b : Dec) : (a.addExact b).val = a.val + b.val := by
  unfold Dec.addExact Dec.val
  have ha : max a.scale b.scale = (max a.scale b.scale - a.scale) + a.scale := by omega
  have hb : max a.scale b.scale = (max a.scale b.scale - b.scale) + b.scale := by omega
  simp only
  push_cast
  rw [add_div]
  congr 1
  · conv_lhs => rw [show (10 : ℚ) ^ max a.scale b.scale = 10 ^ (max a.scale b.scale - a.scale) * 10 ^ a.scale by
      rw [← pow_add, ← ha]]
    field_simp
  · conv_lhs => rw [show (10 : ℚ) ^ max a.scale b.scale = 10 ^ (max a.scale b.scale - b.scale) * 10 ^ b.scale by
      rw [← pow_add, ← hb]]
    field_simp

theorem Dec.neg_val (a : Dec) : a.neg.val = -a.val := by
  unfold Dec.neg Dec.val
  simp [neg_div]

theorem Dec.neg_fits {a : Dec} (h : a.Fits) : a.neg.Fits := by
  unfold Dec.Fits Dec.neg at *
  simpa using h

theorem Dec.mulExact_val (a b : Dec) : (a.mulExact b).val = a.val * b.val := by
  unfold Dec.mulExact Dec.val
  simp only
  push_cast
  rw [pow_add]
  field_simp

theorem Dec.val_eq_zero_iff (a : Dec) : a.val = 0 ↔ a.mant = 0 := by
  unfold Dec.val
  simp

/-- Integers within a half of the same number, one of them further from zero in a tie, are equal. -/
theorem round_unique {x : ℚ} {m n : ℤ} (hm : 2 * |(m : ℚ) - x| ≤ 1) (hn : 2 * |(n : ℚ) - x| ≤ 1)
    (tm : 2 * |(m : ℚ) - x| = 1 → |x| ≤ |(m : ℚ)|) (tn : 2 * |(n : ℚ) - x| = 1 → |x| ≤ |(n : ℚ)|) : m = n := by
  by_contra hne
  wlog hlt : m < n generalizing m n
  · exact this hn hm tn tm (fun e => hne e.symm) (by omega)
  have h1 : (m : ℚ) + 1 ≤ n := by exact_mod_cast hlt
  rw [← abs_two, ← abs_mul, abs_le] at hm hn
  have e1 : x = m + 1 / 2 := by linarith [hm.1, hn.2]
  have e2 : x = n - 1 / 2 := by linarith [hm.1, hn.2]
  have a1 : |x| ≤ |(m : ℚ)| := tm (by
    rw [e1, show (m : ℚ) - (m + 1 / 2) = -(1 / 2) by ring, abs_neg, abs_of_pos (by norm_num)]; norm_num)
  have a2 : |x| ≤ |(n : ℚ)| := tn (by
    rw [e2, show (n : ℚ) - (n - 1 / 2) = 1 / 2 by ring, abs_of_pos (by norm_num)]; norm_num)
  rcases le_or_gt 0 m with h | h
  · have h' : (0 : ℚ) ≤ m := by exact_mod_cast h
    rw [e1, abs_of_nonneg (by linarith), abs_of_nonneg h'] at a1
    linarith
  · have h' : (m : ℚ) + 1 ≤ 0 := by exact_mod_cast h
    have h'' : (n : ℚ) ≤ 0 := by linarith
    rw [e2, abs_of_nonpos (by linarith), abs_of_nonpos h''] at a2
    linarith

/-- Scaling a distance to the nearest multiple. -/
theorem IsRounded.scaled {x : ℚ} {n : Nat} {r : Dec} (h : IsRounded x n r) :
    2 * |(r.mant : ℚ) - x * 10 ^ n| ≤ 1 ∧ (2 * |(r.mant : ℚ) - x * 10 ^ n| = 1 → |x * 10 ^ n| ≤ |(r.mant : ℚ)|) := by
  obtain ⟨hs, h1, h2⟩ := h
  have hp := pow10_pos n
  have e : (r.mant : ℚ) - x * 10 ^ n = (r.val - x) * 10 ^ n := by
    rw [sub_mul, ← hs, Dec.val_mul_pow]
  have e' : 2 * |(r.mant : ℚ) - x * 10 ^ n| = 2 * 10 ^ n * |r.val - x| := by
    rw [e, abs_mul, abs_of_pos hp]; ring
  refine ⟨by rw [e']; exact h1, fun h => ?_⟩
  rw [e'] at h
  have := h2 h
  rw [abs_mul, abs_of_pos hp, show (r.mant : ℚ) = r.val * 10 ^ n by rw [← hs, Dec.val_mul_pow], abs_mul,
    abs_of_pos hp]
  exact mul_le_mul_of_nonneg_right this hp.le

theorem IsRounded.of_scaled {x : ℚ} {n : Nat} {r : Dec} (hs : r.scale = n)
    (h1 : 2 * |(r.mant : ℚ) - x * 10 ^ n| ≤ 1)
    (h2 : 2 * |(r.mant : ℚ) - x * 10 ^ n| = 1 → |x * 10 ^ n| ≤ |(r.mant : ℚ)|) : IsRounded x n r := by
  have hp := pow10_pos n
  have e : (r.mant : ℚ) - x * 10 ^ n = (r.val - x) * 10 ^ n := by
    rw [sub_mul, ← hs, Dec.val_mul_pow]
  have e' : 2 * |(r.mant : ℚ) - x * 10 ^ n| = 2 * 10 ^ n * |r.val - x| := by
    rw [e, abs_mul, abs_of_pos hp]; ring
  refine ⟨hs, by rw [← e']; exact h1, fun h => ?_⟩
  have := h2 (by rw [e']; exact h)
  rw [abs_mul, abs_of_pos hp, show (r.mant : ℚ) = r.val * 10 ^ n by rw [← hs, Dec.val_mul_pow], abs_mul,
    abs_of_pos hp] at this
  exact le_of_mul_le_mul_right this hp

theorem IsRounded.unique {x : ℚ} {n : Nat} {r s : Dec} (hr : IsRounded x n r) (hs : IsRounded x n s) : r = s := by
  have h1 := hr.scaled
  have h2 := hs.scaled
  have := round_unique h1.1 h2.1 h1.2 h2.2
  cases r; cases s
  simp only [Dec.mk.injEq]
  exact ⟨this, hr.1.trans hs.1.symm⟩

/-- Rounding an integer quotient half away from zero. -/
def roundDiv (m : ℤ) (p : Nat) : ℤ :=
  if 0 ≤ m then ((2 * m.natAbs + p) / (2 * p) : Nat) else -((2 * m.natAbs + p) / (2 * p) : Nat)

theorem roundDiv_nat (a p : Nat) (hp : 0 < p) :
    2 * |(((2 * a + p) / (2 * p) : Nat) : ℚ) - (a : ℚ) / p| ≤ 1 ∧
    (2 * |(((2 * a + p) / (2 * p) : Nat) : ℚ) - (a : ℚ) / p| = 1 →
      |(a : ℚ) / p| ≤ |(((2 * a + p) / (2 * p) : Nat) : ℚ)|) := by
  have hp' : (0 : ℚ) < p := by exact_mod_cast hp
  have h := Nat.div_add_mod (2 * a + p) (2 * p)
  have hlt := Nat.mod_lt (2 * a + p) (show 0 < 2 * p by omega)
  generalize (2 * a + p) / (2 * p) = q at *
  generalize (2 * a + p) % (2 * p) = r at *
  have h' : (2 : ℚ) * p * q + r = 2 * a + p := by exact_mod_cast h
  have hlt' : (r : ℚ) < 2 * p := by exact_mod_cast hlt
  have hr : (0 : ℚ) ≤ r := by positivity
  have e : (q : ℚ) - (a : ℚ) / p = (p - r) / (2 * p) := by
    field_simp
    linarith
  have e2 : 2 * |(q : ℚ) - (a : ℚ) / p| = |(p : ℚ) - r| / p := by
    rw [e, abs_div, abs_of_pos (show (0 : ℚ) < 2 * p by linarith)]
    field_simp
  constructor
  · rw [e2, div_le_one hp', abs_le]
    constructor <;> linarith
  · intro h1
    rw [e2, div_eq_one_iff_eq hp'.ne'] at h1
    have : r = 0 ∨ (r : ℚ) = 2 * p := by
      rcases abs_cases ((p : ℚ) - r) with ⟨h2, _⟩ | ⟨h2, _⟩
      · left
        have : (r : ℚ) = 0 := by linarith
        exact_mod_cast this
      · right; linarith
    rcases this with h0 | h0
    · rw [abs_of_nonneg (by positivity), abs_of_nonneg (by positivity)]
      rw [h0] at e
      have : (q : ℚ) - (a : ℚ) / p = 1 / 2 := by rw [e]; field_simp; simp
      linarith
    · linarith

theorem roundDiv_spec (m : ℤ) (p : Nat) (hp : 0 < p) :
    2 * |((roundDiv m p : ℤ) : ℚ) - (m : ℚ) / p| ≤ 1 ∧
    (2 * |((roundDiv m p : ℤ) : ℚ) - (m : ℚ) / p| = 1 → |(m : ℚ) / p| ≤ |((roundDiv m p : ℤ) : ℚ)|) := by
  have h := roundDiv_nat m.natAbs p hp
  unfold roundDiv
  split
  · rename_i hm
    have : (m : ℚ) = (m.natAbs : ℚ) := by
      rw [← Int.cast_natCast, Int.natAbs_of_nonneg hm]
    rw [this]
    exact_mod_cast h
  · rename_i hm
    have : (m : ℚ) = -(m.natAbs : ℚ) := by
      rw [← Int.cast_natCast, ← Int.cast_neg]
      congr 1
      omega
    rw [this]
    rw [Int.cast_neg, Int.cast_natCast, abs_neg, show ∀ y z : ℚ, (-y) - (-z / p) = -(y - z / p) by intros; ring,
      abs_neg, neg_div, abs_neg]
    exact h

/-- A rounded decimal. -/
def Dec.round (d : Dec) (n : Nat) : Dec :=
  if d.scale ≤ n then ⟨d.mant * 10 ^ (n - d.scale), n⟩ else ⟨roundDiv d.mant (10 ^ (d.scale - n)), n⟩

theorem Dec.round_spec (d : Dec) (n : Nat) : IsRounded d.val n (d.round n) := by
  unfold Dec.round
  split
  · rename_i h
    have e : ((d.mant * 10 ^ (n - d.scale) : ℤ) : ℚ) = d.val * 10 ^ n := by
      push_cast
      rw [← Dec.val_mul_pow, mul_assoc, ← pow_add]
      congr 2
      omega
    apply IsRounded.of_scaled rfl
    · simp [e]
    · simp [e]
  · rename_i h
    have e : d.val * 10 ^ n = (d.mant : ℚ) / ((10 ^ (d.scale - n) : Nat) : ℚ) := by
      unfold Dec.val
      have : (10 : ℚ) ^ d.scale = 10 ^ (d.scale - n) * 10 ^ n := by rw [← pow_add]; congr 1; omega
      rw [this]
      push_cast
      field_simp
    have := roundDiv_spec d.mant (10 ^ (d.scale - n)) (by positivity)
    apply IsRounded.of_scaled rfl
    · rw [e]; exact this.1
    · rw [e]; exact this.2

/-- Keep an exact result that fits; otherwise cut to an integer, if that fits. -/
def Dec.fit (d : Dec) : Option Dec :=
  if d.Fits then some d
  else if (d.mant.natAbs / 10 ^ d.scale) < 2 ^ 96 then
    some ⟨d.mant.sign * (d.mant.natAbs / 10 ^ d.scale : Nat), 0⟩
  else none

theorem Dec.fit_fits {d c : Dec} (h : d.fit = some c) : c.Fits := by
  unfold Dec.fit at h
  split at h
  · cases h; assumption
  · split at h
    · rename_i h1
      cases h
      refine ⟨?_, by simp⟩
      simp only
      rw [Int.natAbs_mul, Int.natAbs_sign]
      split
      · simp
      · rw [Int.natAbs_natCast]; omega
    · cases h

theorem Dec.abs_val (d : Dec) : |d.val| = (d.mant.natAbs : ℚ) / 10 ^ d.scale := by
  unfold Dec.val
  rw [abs_div, abs_of_pos (pow10_pos d.scale)]
  congr 1
  rw [← Int.cast_natCast, Int.natCast_natAbs, Int.cast_abs]

theorem Dec.fit_none {d : Dec} (h : d.fit = none) : decMax < |d.val| := by
  unfold Dec.fit at h
  split at h
  · cases h
  · split at h
    · cases h
    · rename_i h1
      rw [Dec.abs_val]
      have h2 : 2 ^ 96 * 10 ^ d.scale ≤ d.mant.natAbs := by
        rw [← Nat.le_div_iff_mul_le (by positivity)]
        omega
      have h3 : (2 : ℚ) ^ 96 * 10 ^ d.scale ≤ d.mant.natAbs := by exact_mod_cast h2
      rw [lt_div_iff₀ (pow10_pos _)]
      unfold decMax
      have := pow10_pos d.scale
      linarith

/-- Operators satisfying the laws: a witness that they can be met. -/
@[reducible] def DecOps.simple : DecOps where
  add a b := (a.addExact b).fit
  sub a b := (a.addExact b.neg).fit
  mul a b := (a.mulExact b).fit
  div a b := if b.mant = 0 then none
    else if (a.mant.natAbs * 10 ^ b.scale) / (b.mant.natAbs * 10 ^ a.scale) < 2 ^ 96 then
      some ⟨((a.mant.natAbs * 10 ^ b.scale) / (b.mant.natAbs * 10 ^ a.scale) : Nat) * (a.mant.sign * b.mant.sign), 0⟩
    else none
  rescale := Dec.round
  add_exact a b _ _ h := by
    refine ⟨a.addExact b, ?_, Dec.addExact_val a b, le_refl _⟩
    simp [Dec.fit, h]
  sub_exact a b _ _ h := by
    refine ⟨a.addExact b.neg, ?_, ?_, le_refl _⟩
    · simp [Dec.fit, h]
    · rw [Dec.addExact_val, Dec.neg_val]; ring
  mul_exact a b _ _ h := by
    refine ⟨a.mulExact b, ?_, Dec.mulExact_val a b, le_refl _⟩
    simp [Dec.fit, h]
  add_fits _ _ _ _ _ h := Dec.fit_fits h
  sub_fits _ _ _ _ _ h := Dec.fit_fits h
  mul_fits _ _ _ _ _ h := Dec.fit_fits h
  div_fits a b c _ _ h := by
    split at h
    · cases h
    · split at h
      · rename_i h1
        cases h
        refine ⟨?_, by simp⟩
        simp only
        rw [Int.natAbs_mul, Int.natAbs_natCast, Int.natAbs_mul, Int.natAbs_sign, Int.natAbs_sign]
        generalize (a.mant.natAbs * 10 ^ b.scale) / (b.mant.natAbs * 10 ^ a.scale) = q at *
        split <;> simp <;> omega
      · cases h
  add_panic a b _ _ h := by
    rw [← Dec.addExact_val]; exact Dec.fit_none h
  sub_panic a b _ _ h := by
    have := Dec.fit_none h
    rwa [Dec.addExact_val, Dec.neg_val, ← sub_eq_add_neg] at this
  mul_panic a b _ _ h := by
    rw [← Dec.mulExact_val]; exact Dec.fit_none h
  div_zero a b _ _ h := by simp [h]
  div_panic a b _ _ hb h := by
    simp only [hb, if_false] at h
    split at h
    · cases h
    · rename_i h1
      have hpos : 0 < b.mant.natAbs * 10 ^ a.scale := by
        have : 0 < b.mant.natAbs := by omega
        positivity
      have h2 : 2 ^ 96 * (b.mant.natAbs * 10 ^ a.scale) ≤ a.mant.natAbs * 10 ^ b.scale := by
        rw [← Nat.le_div_iff_mul_le hpos]
        omega
      have h3 : (2 : ℚ) ^ 96 * (b.mant.natAbs * 10 ^ a.scale) ≤ a.mant.natAbs * 10 ^ b.scale := by
        exact_mod_cast h2
      have hb' : (0 : ℚ) < b.mant.natAbs := by
        have : 0 < b.mant.natAbs := by omega
        exact_mod_cast this
      rw [abs_div, Dec.abs_val, Dec.abs_val]
      have pa := pow10_pos a.scale
      have pb := pow10_pos b.scale
      rw [lt_div_iff₀ (by positivity), lt_div_iff₀ pa, mul_assoc, div_mul_eq_mul_div, ← mul_div_assoc,
        div_lt_iff₀ pb]
      unfold decMax
      nlinarith [mul_pos hb' pa]
  rescale_rounds d n r _ _ h := IsRounded.unique (Dec.round_spec d n) h

end Lima
