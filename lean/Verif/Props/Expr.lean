import Verif.Lemmas.Decimal
import Verif.Spec.Expr

/-! C19 and C20: the value of an expression. -/

namespace Lima.Props

open Spec

theorem self_mem_parts (e : Expr) : e ∈ parts e := by
  cases e <;> simp [parts]

theorem parts_trans {s e : Expr} (h : s ∈ parts e) : ∀ t ∈ parts s, t ∈ parts e := by
  induction e with
  | value d => simp only [parts, List.mem_singleton] at h; subst h; exact fun t h => h
  | add a b iha ihb | sub a b iha ihb | mul a b iha ihb | div a b iha ihb =>
    simp only [parts, List.mem_cons, List.mem_append] at h
    rcases h with rfl | h | h
    · exact fun t h => h
    · exact fun t ht => by simp [parts, iha h t ht]
    · exact fun t ht => by simp [parts, ihb h t ht]
  | neg a iha | paren a iha =>
    simp only [parts, List.mem_cons] at h
    rcases h with rfl | h
    · exact fun t h => h
    · exact fun t ht => by simp [parts, iha h t ht]

section
variable [DecOps]

omit [DecOps] in
theorem evaluate_binary {op : Dec → Dec → Option Dec} {a b : Option (Dec × Nat)} {d : Dec} {n : Nat} :
    Expr.evaluate.binary op a b = some (d, n) ↔
      ∃ d1 s1 d2 s2, a = some (d1, s1) ∧ b = some (d2, s2) ∧ op d1 d2 = some d ∧ n = max s1 s2 := by
  unfold Expr.evaluate.binary
  constructor
  · intro h
    split at h
    · cases h
    · split at h
      · cases h
      · split at h
        · cases h
        · rename_i ho
          simp only [Option.some.injEq, Prod.mk.injEq] at h
          exact ⟨_, _, _, _, rfl, rfl, by rw [ho, h.1], h.2.symm⟩
  · rintro ⟨d1, s1, d2, s2, rfl, rfl, h, rfl⟩
    simp [h]

theorem evaluate_iff (e : Expr) (d : Dec) (n : Nat) :
    e.evaluate = some (d, n) ↔ Evaluates e d ∧ n = places e := by
  induction e generalizing d n with
  | value v =>
    simp only [Expr.evaluate, Option.some.injEq, Prod.mk.injEq, places]
    constructor
    · rintro ⟨rfl, rfl⟩; exact ⟨.value _, rfl⟩
    · rintro ⟨h, rfl⟩; cases h; exact ⟨rfl, rfl⟩
  | add a b iha ihb =>
    simp only [Expr.evaluate, evaluate_binary, iha, ihb, places]
    constructor
    · rintro ⟨d1, s1, d2, s2, ⟨h1, rfl⟩, ⟨h2, rfl⟩, h, rfl⟩; exact ⟨.add h1 h2 h, rfl⟩
    · rintro ⟨h, rfl⟩; cases h with | add h1 h2 h => exact ⟨_, _, _, _, ⟨h1, rfl⟩, ⟨h2, rfl⟩, h, rfl⟩
  | sub a b iha ihb =>
    simp only [Expr.evaluate, evaluate_binary, iha, ihb, places]
    constructor
    · rintro ⟨d1, s1, d2, s2, ⟨h1, rfl⟩, ⟨h2, rfl⟩, h, rfl⟩; exact ⟨.sub h1 h2 h, rfl⟩
    · rintro ⟨h, rfl⟩; cases h with | sub h1 h2 h => exact ⟨_, _, _, _, ⟨h1, rfl⟩, ⟨h2, rfl⟩, h, rfl⟩
  | mul a b iha ihb =>
    simp only [Expr.evaluate, evaluate_binary, iha, ihb, places]
    constructor
    · rintro ⟨d1, s1, d2, s2, ⟨h1, rfl⟩, ⟨h2, rfl⟩, h, rfl⟩; exact ⟨.mul h1 h2 h, rfl⟩
    · rintro ⟨h, rfl⟩; cases h with | mul h1 h2 h => exact ⟨_, _, _, _, ⟨h1, rfl⟩, ⟨h2, rfl⟩, h, rfl⟩
  | div a b iha ihb =>
    simp only [Expr.evaluate, evaluate_binary, iha, ihb, places]
    constructor
    · rintro ⟨d1, s1, d2, s2, ⟨h1, rfl⟩, ⟨h2, rfl⟩, h, rfl⟩; exact ⟨.div h1 h2 h, rfl⟩
    · rintro ⟨h, rfl⟩; cases h with | div h1 h2 h => exact ⟨_, _, _, _, ⟨h1, rfl⟩, ⟨h2, rfl⟩, h, rfl⟩
  | neg a iha =>
    simp only [Expr.evaluate, Option.map_eq_some_iff, Prod.exists, Prod.mk.injEq, iha, places]
    constructor
    · rintro ⟨d1, s1, ⟨h1, rfl⟩, rfl, rfl⟩; exact ⟨.neg h1, rfl⟩
    · rintro ⟨h, rfl⟩; cases h with | neg h1 => exact ⟨_, _, ⟨h1, rfl⟩, rfl, rfl⟩
  | paren a iha =>
    simp only [Expr.evaluate, iha, places]
    constructor
    · rintro ⟨h1, rfl⟩; exact ⟨.paren h1, rfl⟩
    · rintro ⟨h, rfl⟩; cases h with | paren h1 => exact ⟨h1, rfl⟩

theorem evaluates_unique {e : Expr} {a b : Dec} (h1 : Evaluates e a) (h2 : Evaluates e b) : a = b := by
  have e1 := (evaluate_iff e a _).mpr ⟨h1, rfl⟩
  have e2 := (evaluate_iff e b _).mpr ⟨h2, rfl⟩
  rw [e1] at e2
  simp at e2
  exact e2

theorem evaluates_fits {e : Expr} {a : Dec} (hl : LiteralsFit e) (h : Evaluates e a) : a.Fits := by
  induction h with
  | value d => exact hl d (by simp [parts])
  | add h1 h2 h ih1 ih2 =>
    exact DecOps.add_fits _ _ _ (ih1 fun d hd => hl d (by simp [parts, hd]))
      (ih2 fun d hd => hl d (by simp [parts, hd])) h
  | sub h1 h2 h ih1 ih2 =>
    exact DecOps.sub_fits _ _ _ (ih1 fun d hd => hl d (by simp [parts, hd]))
      (ih2 fun d hd => hl d (by simp [parts, hd])) h
  | mul h1 h2 h ih1 ih2 =>
    exact DecOps.mul_fits _ _ _ (ih1 fun d hd => hl d (by simp [parts, hd]))
      (ih2 fun d hd => hl d (by simp [parts, hd])) h
  | div h1 h2 h ih1 ih2 =>
    exact DecOps.div_fits _ _ _ (ih1 fun d hd => hl d (by simp [parts, hd]))
      (ih2 fun d hd => hl d (by simp [parts, hd])) h
  | neg h ih => exact Dec.neg_fits (ih fun d hd => hl d (by simp [parts, hd]))
  | paren h ih => exact ih fun d hd => hl d (by simp [parts, hd])

omit [DecOps] in
/-- A decimal fits if its value written with more places does. -/
theorem fits_of_abs {d : Dec} {m : Nat} (hm : d.scale ≤ m) (h28 : m ≤ 28) (h : |d.val| * 10 ^ m < 2 ^ 96) :
    d.Fits := by
  refine ⟨?_, by omega⟩
  have h1 : |d.val| * 10 ^ d.scale < 2 ^ 96 := by
    refine lt_of_le_of_lt ?_ h
    exact mul_le_mul_of_nonneg_left (pow_le_pow_right₀ (by norm_num) hm) (abs_nonneg _)
  rw [Dec.abs_val, div_mul_cancel₀ _ (pow10_pos _).ne'] at h1
  exact_mod_cast h1

/-- Without overflow and division evaluation is exact. -/
theorem evaluates_exact (e : Expr) (h : NoOverflow e) :
    ∃ d, Evaluates e d ∧ d.val = exact e ∧ d.scale ≤ exactPlaces e ∧ d.Fits := by
  have self := h e (self_mem_parts e)
  have fits : ∀ d : Dec, d.val = exact e → d.scale ≤ exactPlaces e → d.Fits := fun d h1 h2 =>
    fits_of_abs h2 self.2.1 (by rw [h1]; exact self.2.2)
  induction e with
  | value d => exact ⟨d, .value d, rfl, le_refl _, fits d rfl (le_refl _)⟩
  | add a b iha ihb =>
    have ha : NoOverflow a := fun s hs => h s (by simp [parts, hs])
    have hb : NoOverflow b := fun s hs => h s (by simp [parts, hs])
    obtain ⟨x, x1, x2, x3, x4⟩ := iha ha (ha a (self_mem_parts a)) (fun d h1 h2 =>
      fits_of_abs h2 (ha a (self_mem_parts a)).2.1 (by rw [h1]; exact (ha a (self_mem_parts a)).2.2))
    obtain ⟨y, y1, y2, y3, y4⟩ := ihb hb (hb b (self_mem_parts b)) (fun d h1 h2 =>
      fits_of_abs h2 (hb b (self_mem_parts b)).2.1 (by rw [h1]; exact (hb b (self_mem_parts b)).2.2))
    have hf : (x.addExact y).Fits := fits _ (by rw [Dec.addExact_val, x2, y2]; rfl)
      (by simp only [Dec.addExact, exactPlaces]; omega)
    obtain ⟨c, c1, c2, c3⟩ := DecOps.add_exact x y x4 y4 hf
    have c2' : c.val = exact (.add a b) := by rw [c2, x2, y2]; rfl
    have c3' : c.scale ≤ exactPlaces (.add a b) := by simp only [exactPlaces]; omega
    exact ⟨c, .add x1 y1 c1, c2', c3', fits c c2' c3'⟩
  | sub a b iha ihb =>
    have ha : NoOverflow a := fun s hs => h s (by simp [parts, hs])
    have hb : NoOverflow b := fun s hs => h s (by simp [parts, hs])
    obtain ⟨x, x1, x2, x3, x4⟩ := iha ha (ha a (self_mem_parts a)) (fun d h1 h2 =>
      fits_of_abs h2 (ha a (self_mem_parts a)).2.1 (by rw [h1]; exact (ha a (self_mem_parts a)).2.2))
    obtain ⟨y, y1, y2, y3, y4⟩ := ihb hb (hb b (self_mem_parts b)) (fun d h1 h2 =>
      fits_of_abs h2 (hb b (self_mem_parts b)).2.1 (by rw [h1]; exact (hb b (self_mem_parts b)).2.2))
    have hf : (x.addExact y.neg).Fits := fits _ (by rw [Dec.addExact_val, Dec.neg_val, x2, y2]; exact (sub_eq_add_neg _ _).symm)
      (by simp only [Dec.addExact, Dec.neg, exactPlaces]; omega)
    obtain ⟨c, c1, c2, c3⟩ := DecOps.sub_exact x y x4 y4 hf
    have c2' : c.val = exact (.sub a b) := by rw [c2, x2, y2]; rfl
    have c3' : c.scale ≤ exactPlaces (.sub a b) := by simp only [exactPlaces]; omega
    exact ⟨c, .sub x1 y1 c1, c2', c3', fits c c2' c3'⟩
  | mul a b iha ihb =>
    have ha : NoOverflow a := fun s hs => h s (by simp [parts, hs])
    have hb : NoOverflow b := fun s hs => h s (by simp [parts, hs])
    obtain ⟨x, x1, x2, x3, x4⟩ := iha ha (ha a (self_mem_parts a)) (fun d h1 h2 =>
      fits_of_abs h2 (ha a (self_mem_parts a)).2.1 (by rw [h1]; exact (ha a (self_mem_parts a)).2.2))
    obtain ⟨y, y1, y2, y3, y4⟩ := ihb hb (hb b (self_mem_parts b)) (fun d h1 h2 =>
      fits_of_abs h2 (hb b (self_mem_parts b)).2.1 (by rw [h1]; exact (hb b (self_mem_parts b)).2.2))
    have hf : (x.mulExact y).Fits := fits _ (by rw [Dec.mulExact_val, x2, y2]; rfl)
      (by simp only [Dec.mulExact, exactPlaces]; omega)
    obtain ⟨c, c1, c2, c3⟩ := DecOps.mul_exact x y x4 y4 hf
    have c2' : c.val = exact (.mul a b) := by rw [c2, x2, y2]; rfl
    have c3' : c.scale ≤ exactPlaces (.mul a b) := by simp only [exactPlaces]; omega
    exact ⟨c, .mul x1 y1 c1, c2', c3', fits c c2' c3'⟩
  | div a b => exact absurd rfl (self.1 a b)
  | neg a iha =>
    have ha : NoOverflow a := fun s hs => h s (by simp [parts, hs])
    obtain ⟨x, x1, x2, x3, x4⟩ := iha ha (ha a (self_mem_parts a)) (fun d h1 h2 =>
      fits_of_abs h2 (ha a (self_mem_parts a)).2.1 (by rw [h1]; exact (ha a (self_mem_parts a)).2.2))
    exact ⟨x.neg, .neg x1, by rw [Dec.neg_val, x2]; rfl, x3, Dec.neg_fits x4⟩
  | paren a iha =>
    have ha : NoOverflow a := fun s hs => h s (by simp [parts, hs])
    obtain ⟨x, x1, x2, x3, x4⟩ := iha ha (ha a (self_mem_parts a)) (fun d h1 h2 =>
      fits_of_abs h2 (ha a (self_mem_parts a)).2.1 (by rw [h1]; exact (ha a (self_mem_parts a)).2.2))
    exact ⟨x, .paren x1, x2, x3, x4⟩

omit [DecOps] in
/-- Rounding to fewer places does not make a number too large. -/
theorem round_fits {d : Dec} {n m : Nat} (hd : d.scale ≤ m) (hnm : n ≤ m) (h28 : m ≤ 28)
    (h : |d.val| * 10 ^ m < 2 ^ 96) : (d.round n).Fits := by
  refine ⟨?_, by rw [(Dec.round_spec d n).1]; omega⟩
  have hr := (Dec.round_spec d n).scaled.1
  by_cases hlt : d.scale ≤ n
  · have e : d.round n = ⟨d.mant * 10 ^ (n - d.scale), n⟩ := by simp [Dec.round, hlt]
    have hv : (d.round n).val = d.val := by
      rw [e]; unfold Dec.val
      simp only
      push_cast
      rw [show (10 : ℚ) ^ n = 10 ^ (n - d.scale) * 10 ^ d.scale by rw [← pow_add]; congr 1; omega]
      field_simp
    exact (fits_of_abs (d := d.round n) (m := m) (by rw [e]; exact hnm) h28 (by rw [hv]; exact h)).1
  · have h1 : |d.val| * 10 ^ n * 10 ≤ |d.val| * 10 ^ m := by
      rw [mul_assoc, ← pow_succ]
      exact mul_le_mul_of_nonneg_left (pow_le_pow_right₀ (by norm_num) (by omega)) (abs_nonneg _)
    have h2 : |((d.round n).mant : ℚ)| ≤ |d.val| * 10 ^ n + 1 / 2 := by
      have h3 := abs_sub_abs_le_abs_sub ((d.round n).mant : ℚ) (d.val * 10 ^ n)
      rw [abs_mul d.val, abs_of_pos (pow10_pos n)] at h3
      linarith
    have h4 : |((d.round n).mant : ℚ)| < 2 ^ 96 := by
      have : (0 : ℚ) ≤ |d.val| * 10 ^ n := by positivity
      norm_num at *
      linarith
    rw [← Int.cast_abs, ← Int.natCast_natAbs] at h4
    exact_mod_cast h4

omit [DecOps] in
theorem places_le_exactPlaces (e : Expr) : places e ≤ exactPlaces e := by
  induction e <;> simp only [places, exactPlaces] <;> omega

/-- C19: without division and overflow, the value of an expression is its exact value, rounded half away from
zero to the largest number of decimal places of its literals; it has that many places. -/
theorem C19_value (e : Expr) (h : NoOverflow e) :
    ∃ v, ExprValue.ofExpr e = some v ∧ v.expr = e ∧ IsRounded (exact e) (places e) v.value := by
  obtain ⟨d, h1, h2, h3, h4⟩ := evaluates_exact e h
  have self := h e (self_mem_parts e)
  have he := (evaluate_iff e d _).mpr ⟨h1, rfl⟩
  have hr := Dec.round_spec d (places e)
  have hfit := round_fits (d := d) (n := places e) (m := exactPlaces e) h3 (places_le_exactPlaces e) self.2.1
    (by rw [h2]; exact self.2.2)
  have hres := DecOps.rescale_rounds d (places e) _ h4 hfit hr
  refine ⟨⟨DecOps.rescale d (places e), e⟩, by simp [ExprValue.ofExpr, he], rfl, ?_⟩
  simp only [hres]
  rw [← h2]
  exact hr

/-- C19: sums, differences, negations and parentheses need no rounding. -/
theorem C19_exact_without_products (e : Expr) (h : NoOverflow e) (hm : ∀ a b, Expr.mul a b ∉ parts e) :
    ∃ v, ExprValue.ofExpr e = some v ∧ v.value.val = exact e ∧ v.value.scale = places e := by
  obtain ⟨v, hv, hx, hr⟩ := C19_value e h
  clear hx
  refine ⟨v, hv, ?_, hr.1⟩
  have hp : exactPlaces e = places e := by
    have hd : ∀ a b, Expr.div a b ∉ parts e := fun a b hab => (h _ hab).1 a b rfl
    clear h hv hr
    induction e with
    | value d => rfl
    | add a b iha ihb | sub a b iha ihb =>
      simp only [exactPlaces, places]
      rw [iha (fun x y hx => hm x y (by simp [parts, hx])) (fun x y hx => hd x y (by simp [parts, hx])),
        ihb (fun x y hx => hm x y (by simp [parts, hx])) (fun x y hx => hd x y (by simp [parts, hx]))]
    | mul a b => exact absurd (self_mem_parts _) (hm a b)
    | div a b => exact absurd (self_mem_parts _) (hd a b)
    | neg a iha | paren a iha =>
      simp only [exactPlaces, places]
      exact iha (fun x y hx => hm x y (by simp [parts, hx])) (fun x y hx => hd x y (by simp [parts, hx]))
  obtain ⟨d, h1, h2, h3, h4⟩ := evaluates_exact e h
  have hle : d.scale ≤ places e := by omega
  have hv2 : (d.round (places e)).val = d.val := by
    unfold Dec.round
    rw [if_pos hle]
    unfold Dec.val
    simp only
    push_cast
    rw [show (10 : ℚ) ^ places e = 10 ^ (places e - d.scale) * 10 ^ d.scale by rw [← pow_add]; congr 1; omega]
    field_simp
  have := IsRounded.unique hr (h2 ▸ Dec.round_spec d (places e))
  rw [this, hv2, h2]

/-- `1.5 * 1.5 + 2` is `2.25 + 2`, rounded to one place: `4.3`. -/
example : ∃ v, ExprValue.ofExpr (.add (.mul (.value ⟨15, 1⟩) (.value ⟨15, 1⟩)) (.value ⟨2, 0⟩)) = some v ∧
    v.value = ⟨43, 1⟩ := by
  obtain ⟨v, h1, _, h3⟩ := C19_value (.add (.mul (.value ⟨15, 1⟩) (.value ⟨15, 1⟩)) (.value ⟨2, 0⟩)) (by
    intro s hs
    simp only [parts, List.cons_append, List.nil_append, List.mem_cons, List.not_mem_nil, or_false] at hs
    rcases hs with rfl | rfl | rfl | rfl | rfl <;>
      refine ⟨by intros; exact Expr.noConfusion, by simp [exactPlaces], ?_⟩ <;>
      norm_num [exact, exactPlaces, Dec.val])
  refine ⟨v, h1, IsRounded.unique h3 ?_⟩
  refine ⟨by simp [places], ?_, ?_⟩ <;> norm_num [exact, places, Dec.val, abs_of_pos]

omit [DecOps] in
/-- A product of literals with many places is the only case in which digits are lost: `0.1 * 0.1` is `0.0`. -/
example : IsRounded (exact (.mul (.value ⟨1, 1⟩) (.value ⟨1, 1⟩))) 1 ⟨0, 1⟩ := by
  refine ⟨rfl, ?_, ?_⟩ <;> norm_num [exact, Dec.val, abs_of_pos]

/-- C20 is false: an expression can panic. -/
theorem C20_never_panics_false : ∃ e, LiteralsFit e ∧ ExprValue.ofExpr e = none := by
  refine ⟨.div (.value ⟨1, 0⟩) (.value ⟨0, 0⟩), ?_, ?_⟩
  · intro d hd
    simp only [parts, List.cons_append, List.nil_append, List.mem_cons, List.not_mem_nil, or_false, reduceCtorEq,
      false_or, Expr.value.injEq] at hd
    rcases hd with rfl | rfl <;> exact ⟨by norm_num, by norm_num⟩
  · have := DecOps.div_zero ⟨1, 0⟩ ⟨0, 0⟩ ⟨by norm_num, by norm_num⟩ ⟨by norm_num, by norm_num⟩ rfl
    simp [ExprValue.ofExpr, Expr.evaluate, Expr.evaluate.binary, this]

theorem ofExpr_none_iff (e : Expr) : ExprValue.ofExpr e = none ↔ ∀ d, ¬ Evaluates e d := by
  unfold ExprValue.ofExpr
  constructor
  · intro h d hd
    rw [(evaluate_iff e d _).mpr ⟨hd, rfl⟩] at h
    simp at h
  · intro h
    cases he : e.evaluate with
    | none => rfl
    | some r => exact absurd ((evaluate_iff e r.1 r.2).mp he).1 (h r.1)

theorem parts_evaluate {e s : Expr} {d : Dec} (hs : s ∈ parts e) (h : Evaluates e d) : ∃ a, Evaluates s a := by
  induction h with
  | value v => simp only [parts, List.mem_singleton] at hs; subst hs; exact ⟨_, .value _⟩
  | add h1 h2 h ih1 ih2 =>
    simp only [parts, List.mem_cons, List.mem_append] at hs
    rcases hs with rfl | hs | hs
    · exact ⟨_, .add h1 h2 h⟩
    · exact ih1 hs
    · exact ih2 hs
  | sub h1 h2 h ih1 ih2 =>
    simp only [parts, List.mem_cons, List.mem_append] at hs
    rcases hs with rfl | hs | hs
    · exact ⟨_, .sub h1 h2 h⟩
    · exact ih1 hs
    · exact ih2 hs
  | mul h1 h2 h ih1 ih2 =>
    simp only [parts, List.mem_cons, List.mem_append] at hs
    rcases hs with rfl | hs | hs
    · exact ⟨_, .mul h1 h2 h⟩
    · exact ih1 hs
    · exact ih2 hs
  | div h1 h2 h ih1 ih2 =>
    simp only [parts, List.mem_cons, List.mem_append] at hs
    rcases hs with rfl | hs | hs
    · exact ⟨_, .div h1 h2 h⟩
    · exact ih1 hs
    · exact ih2 hs
  | neg h ih =>
    simp only [parts, List.mem_cons] at hs
    rcases hs with rfl | hs
    · exact ⟨_, .neg h⟩
    · exact ih hs
  | paren h ih =>
    simp only [parts, List.mem_cons] at hs
    rcases hs with rfl | hs
    · exact ⟨_, .paren h⟩
    · exact ih hs

/-- C20: a division by zero anywhere in an expression panics. -/
theorem C20_division_by_zero_panics (e : Expr) (hl : LiteralsFit e) (h : DividesByZero e) :
    ExprValue.ofExpr e = none := by
  rw [ofExpr_none_iff]
  intro d hd
  obtain ⟨l, r, a, b, hm, ha, hb, hz⟩ := h
  obtain ⟨c, hc⟩ := parts_evaluate hm hd
  cases hc with
  | div ha' hb' hc =>
    have e1 := evaluates_unique ha ha'
    have e2 := evaluates_unique hb hb'
    subst e1; subst e2
    have hl' : ∀ t ∈ parts (.div l r), t ∈ parts e := parts_trans hm
    have fa := evaluates_fits (fun d hd => hl d (hl' _ (by simp [parts, hd]))) ha
    have fb := evaluates_fits (fun d hd => hl d (hl' _ (by simp [parts, hd]))) hb
    rw [DecOps.div_zero a b fa fb ((Dec.val_eq_zero_iff b).mp hz)] at hc
    cases hc

/-- C20 (what holds of it): an expression panics only because of a division by zero or because the result of an
operator is larger than the largest decimal.  The full statement, that no expression panics, is false. -/
theorem C20_panics_only_partial (e : Expr) (hl : LiteralsFit e) (h : ExprValue.ofExpr e = none) :
    DividesByZero e ∨ TooLarge e := by
  rw [ofExpr_none_iff] at h
  have go : ∀ s, (∀ t ∈ parts s, t ∈ parts e) → (∃ d, Evaluates s d) ∨ DividesByZero e ∨ TooLarge e := by
    intro s
    induction s with
    | value d => exact fun _ => .inl ⟨d, .value d⟩
    | add a b iha ihb =>
      intro hp
      rcases iha (fun t ht => hp t (by simp [parts, ht])) with ⟨x, hx⟩ | h'
      · rcases ihb (fun t ht => hp t (by simp [parts, ht])) with ⟨y, hy⟩ | h'
        · have fx := evaluates_fits (fun d hd => hl d (hp _ (by simp [parts, hd]))) hx
          have fy := evaluates_fits (fun d hd => hl d (hp _ (by simp [parts, hd]))) hy
          cases ho : DecOps.add x y with
          | some c => exact .inl ⟨c, .add hx hy ho⟩
          | none =>
            exact .inr (.inr ⟨a, b, x, y, hx, hy, .inl ⟨hp _ (self_mem_parts _), DecOps.add_panic x y fx fy ho⟩⟩)
        · exact .inr h'
      · exact .inr h'
    | sub a b iha ihb =>
      intro hp
      rcases iha (fun t ht => hp t (by simp [parts, ht])) with ⟨x, hx⟩ | h'
      · rcases ihb (fun t ht => hp t (by simp [parts, ht])) with ⟨y, hy⟩ | h'
        · have fx := evaluates_fits (fun d hd => hl d (hp _ (by simp [parts, hd]))) hx
          have fy := evaluates_fits (fun d hd => hl d (hp _ (by simp [parts, hd]))) hy
          cases ho : DecOps.sub x y with
          | some c => exact .inl ⟨c, .sub hx hy ho⟩
          | none =>
            exact .inr (.inr ⟨a, b, x, y, hx, hy,
              .inr (.inl ⟨hp _ (self_mem_parts _), DecOps.sub_panic x y fx fy ho⟩)⟩)
        · exact .inr h'
      · exact .inr h'
    | mul a b iha ihb =>
      intro hp
      rcases iha (fun t ht => hp t (by simp [parts, ht])) with ⟨x, hx⟩ | h'
      · rcases ihb (fun t ht => hp t (by simp [parts, ht])) with ⟨y, hy⟩ | h'
        · have fx := evaluates_fits (fun d hd => hl d (hp _ (by simp [parts, hd]))) hx
          have fy := evaluates_fits (fun d hd => hl d (hp _ (by simp [parts, hd]))) hy
          cases ho : DecOps.mul x y with
          | some c => exact .inl ⟨c, .mul hx hy ho⟩
          | none =>
            exact .inr (.inr ⟨a, b, x, y, hx, hy,
              .inr (.inr (.inl ⟨hp _ (self_mem_parts _), DecOps.mul_panic x y fx fy ho⟩))⟩)
        · exact .inr h'
      · exact .inr h'
    | div a b iha ihb =>
      intro hp
      rcases iha (fun t ht => hp t (by simp [parts, ht])) with ⟨x, hx⟩ | h'
      · rcases ihb (fun t ht => hp t (by simp [parts, ht])) with ⟨y, hy⟩ | h'
        · have fx := evaluates_fits (fun d hd => hl d (hp _ (by simp [parts, hd]))) hx
          have fy := evaluates_fits (fun d hd => hl d (hp _ (by simp [parts, hd]))) hy
          by_cases hz : y.val = 0
          · exact .inr (.inl ⟨a, b, x, y, hp _ (self_mem_parts _), hx, hy, hz⟩)
          · cases ho : DecOps.div x y with
            | some c => exact .inl ⟨c, .div hx hy ho⟩
            | none =>
              exact .inr (.inr ⟨a, b, x, y, hx, hy, .inr (.inr (.inr ⟨hp _ (self_mem_parts _), hz,
                DecOps.div_panic x y fx fy (fun h0 => hz ((Dec.val_eq_zero_iff y).mpr h0)) ho⟩))⟩)
        · exact .inr h'
      · exact .inr h'
    | neg a iha =>
      intro hp
      rcases iha (fun t ht => hp t (by simp [parts, ht])) with ⟨x, hx⟩ | h'
      · exact .inl ⟨_, .neg hx⟩
      · exact .inr h'
    | paren a iha =>
      intro hp
      rcases iha (fun t ht => hp t (by simp [parts, ht])) with ⟨x, hx⟩ | h'
      · exact .inl ⟨_, .paren hx⟩
      · exact .inr h'
  rcases go e (fun t ht => ht) with ⟨d, hd⟩ | h'
  · exact absurd hd (h d)
  · exact h'

/-- `2 / (1 - 1)` divides by zero. -/
example : DividesByZero (.div (.value ⟨2, 0⟩) (.paren (.sub (.value ⟨1, 0⟩) (.value ⟨1, 0⟩)))) := by
  obtain ⟨c, h1, h2, _⟩ := DecOps.sub_exact ⟨1, 0⟩ ⟨1, 0⟩ ⟨by norm_num, by norm_num⟩ ⟨by norm_num, by norm_num⟩
    ⟨by norm_num [Dec.addExact, Dec.neg], by norm_num [Dec.addExact, Dec.neg]⟩
  exact ⟨_, _, _, c, self_mem_parts _, .value _, .paren (.sub (.value _) (.value _) h1), by rw [h2]; simp⟩

end

/-- The assumptions about decimal operators can be met. -/
example : ∃ e, @LiteralsFit e ∧ @ExprValue.ofExpr DecOps.simple e = some ⟨⟨43, 1⟩, e⟩ :=
  ⟨.add (.mul (.value ⟨15, 1⟩) (.value ⟨15, 1⟩)) (.value ⟨2, 0⟩), by
    intro d hd
    simp only [parts, List.cons_append, List.nil_append, List.mem_cons, List.not_mem_nil, or_false, reduceCtorEq,
      false_or, Expr.value.injEq] at hd
    rcases hd with rfl | rfl | rfl <;> exact ⟨by norm_num, by norm_num⟩, by rfl⟩

end Lima.Props
