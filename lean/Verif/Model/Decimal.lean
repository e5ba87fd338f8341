import Verif.Model.Callbacks
import Mathlib.Algebra.Order.Ring.Rat
import Mathlib.Algebra.Field.Rat
import Mathlib.Tactic.Linarith
import Mathlib.Tactic.FieldSimp
import Mathlib.Tactic.Positivity
import Mathlib.Tactic.NormNum
import Mathlib.Tactic.Ring

/-!
# Decimal arithmetic and the evaluation of expressions, `/repo/src/types.rs:2201-2297`

`rust_decimal` is external code.  What its operators do is a parameter, `DecOps`, with the laws below as
assumptions: results are exact when they fit, an operator panics (`none`) only when the exact result is too
large or on division by zero, and `rescale` rounds half away from zero.
-/

namespace Lima

/-- The number denoted by a decimal. -/
def Dec.val (d : Dec) : ℚ := (d.mant : ℚ) / 10 ^ d.scale

/-- The sum written with the larger of the two scales. -/
def Dec.addExact (a b : Dec) : Dec :=
  ⟨a.mant * 10 ^ (max a.scale b.scale - a.scale) + b.mant * 10 ^ (max a.scale b.scale - b.scale),
    max a.scale b.scale⟩

/-- `Neg for Decimal`. -/
def Dec.neg (a : Dec) : Dec := ⟨-a.mant, a.scale⟩

/-- The product written with the sum of the scales. -/
def Dec.mulExact (a b : Dec) : Dec := ⟨a.mant * b.mant, a.scale + b.scale⟩

/-- `r` is `x` rounded half away from zero to `n` decimal places: it has `n` places, no number with `n` places is
closer, and of two equally close ones it is the one further from zero. -/
def IsRounded (x : ℚ) (n : Nat) (r : Dec) : Prop :=
  r.scale = n ∧ 2 * 10 ^ n * |r.val - x| ≤ 1 ∧ (2 * 10 ^ n * |r.val - x| = 1 → |x| ≤ |r.val|)

/-- The largest magnitude of a decimal. -/
def decMax : ℚ := 2 ^ 96 - 1

/-- The operators of `rust_decimal::Decimal` used by the code, with the assumptions about them. -/
class DecOps where
  /-- `Add for Decimal`; `none` is a panic. -/
  add : Dec → Dec → Option Dec
  /-- `Sub for Decimal`; `none` is a panic. -/
  sub : Dec → Dec → Option Dec
  /-- `Mul for Decimal`; `none` is a panic. -/
  mul : Dec → Dec → Option Dec
  /-- `Div for Decimal`; `none` is a panic. -/
  div : Dec → Dec → Option Dec
  /-- `Decimal::rescale`. -/
  rescale : Dec → Nat → Dec
  /-- A sum that fits with the larger scale is exact, and not written with more places. -/
  add_exact : ∀ a b, a.Fits → b.Fits → (a.addExact b).Fits →
    ∃ c, add a b = some c ∧ c.val = a.val + b.val ∧ c.scale ≤ max a.scale b.scale
  sub_exact : ∀ a b, a.Fits → b.Fits → (a.addExact b.neg).Fits →
    ∃ c, sub a b = some c ∧ c.val = a.val - b.val ∧ c.scale ≤ max a.scale b.scale
  /-- A product that fits with the sum of the scales is exact, and not written with more places. -/
  mul_exact : ∀ a b, a.Fits → b.Fits → (a.mulExact b).Fits →
    ∃ c, mul a b = some c ∧ c.val = a.val * b.val ∧ c.scale ≤ a.scale + b.scale
  /-- Results are decimals. -/
  add_fits : ∀ a b c, a.Fits → b.Fits → add a b = some c → c.Fits
  sub_fits : ∀ a b c, a.Fits → b.Fits → sub a b = some c → c.Fits
  mul_fits : ∀ a b c, a.Fits → b.Fits → mul a b = some c → c.Fits
  div_fits : ∀ a b c, a.Fits → b.Fits → div a b = some c → c.Fits
  /-- An operator panics only if the exact result is too large. -/
  add_panic : ∀ a b, a.Fits → b.Fits → add a b = none → decMax < |a.val + b.val|
  sub_panic : ∀ a b, a.Fits → b.Fits → sub a b = none → decMax < |a.val - b.val|
  mul_panic : ∀ a b, a.Fits → b.Fits → mul a b = none → decMax < |a.val * b.val|
  /-- Division panics by zero, and otherwise only if the exact result is too large. -/
  div_zero : ∀ a b, a.Fits → b.Fits → b.mant = 0 → div a b = none
  div_panic : ∀ a b, a.Fits → b.Fits → b.mant ≠ 0 → div a b = none → decMax < |a.val / b.val|
  /-- `rescale` rounds half away from zero, if the rounded number is a decimal. -/
  rescale_rounds : ∀ d n r, d.Fits → r.Fits → IsRounded d.val n r → rescale d n = r

section
variable [DecOps]

/-- `Expr::evaluate`, `/repo/src/types.rs:2263-2297`: the value and the largest scale; `none` is a panic. -/
def Expr.evaluate : Expr → Option (Dec × Nat)
  | .value d => some (d, d.scale)
  | .add a b => binary DecOps.add a.evaluate b.evaluate
  | .sub a b => binary DecOps.sub a.evaluate b.evaluate
  | .mul a b => binary DecOps.mul a.evaluate b.evaluate
  | .div a b => binary DecOps.div a.evaluate b.evaluate
  | .neg a => a.evaluate.map (fun r => (r.1.neg, r.2))
  | .paren a => a.evaluate
where
  /-- `evaluate_binary`, `/repo/src/types.rs:2272-2279`. -/
  binary (op : Dec → Dec → Option Dec) (a b : Option (Dec × Nat)) : Option (Dec × Nat) :=
    match a with
    | none => none
    | some (d1, s1) =>
      match b with
      | none => none
      | some (d2, s2) =>
        match op d1 d2 with
        | none => none
        | some d => some (d, max s1 s2)

/-- `From<Expr> for ExprValue`, `/repo/src/types.rs:2227-2234`; `none` is a panic. -/
def ExprValue.ofExpr (e : Expr) : Option ExprValue :=
  match e.evaluate with
  | none => none
  | some (value, scale) => some ⟨DecOps.rescale value scale, e⟩

end

end Lima
