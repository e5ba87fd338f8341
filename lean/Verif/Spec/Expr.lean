import Verif.Model.Decimal

/-! Specification of the value of arithmetic expressions. -/

namespace Lima.Spec

/-- The exact value of an expression. -/
def exact : Expr → ℚ
  | .value d => d.val
  | .add a b => exact a + exact b
  | .sub a b => exact a - exact b
  | .mul a b => exact a * exact b
  | .div a b => exact a / exact b
  | .neg a => -exact a
  | .paren a => exact a

/-- The expression and all its parts. -/
def parts : Expr → List Expr
  | .value d => [.value d]
  | .add a b => .add a b :: (parts a ++ parts b)
  | .sub a b => .sub a b :: (parts a ++ parts b)
  | .mul a b => .mul a b :: (parts a ++ parts b)
  | .div a b => .div a b :: (parts a ++ parts b)
  | .neg a => .neg a :: parts a
  | .paren a => .paren a :: parts a

/-- The largest number of decimal places of any literal. -/
def places : Expr → Nat
  | .value d => d.scale
  | .add a b | .sub a b | .mul a b | .div a b => max (places a) (places b)
  | .neg a | .paren a => places a

/-- Enough decimal places to write the exact value of an expression without division. -/
def exactPlaces : Expr → Nat
  | .value d => d.scale
  | .add a b | .sub a b => max (exactPlaces a) (exactPlaces b)
  | .mul a b => exactPlaces a + exactPlaces b
  | .div a b => max (exactPlaces a) (exactPlaces b)
  | .neg a | .paren a => exactPlaces a

/-- Every literal in the expression is a decimal: 96 bits, at most 28 places. -/
def LiteralsFit (e : Expr) : Prop := ∀ d, Expr.value d ∈ parts e → d.Fits

/-- No division, and the exact value of every part can be written as a decimal. -/
def NoOverflow (e : Expr) : Prop :=
  ∀ s ∈ parts e, (∀ a b, s ≠ .div a b) ∧ exactPlaces s ≤ 28 ∧ |exact s| * 10 ^ exactPlaces s < 2 ^ 96

variable [DecOps]

/-- Working out an expression from the inside to the outside with decimal operators. -/
inductive Evaluates : Expr → Dec → Prop
  | value (d : Dec) : Evaluates (.value d) d
  | add {l r : Expr} {a b c : Dec} : Evaluates l a → Evaluates r b → DecOps.add a b = some c → Evaluates (.add l r) c
  | sub {l r : Expr} {a b c : Dec} : Evaluates l a → Evaluates r b → DecOps.sub a b = some c → Evaluates (.sub l r) c
  | mul {l r : Expr} {a b c : Dec} : Evaluates l a → Evaluates r b → DecOps.mul a b = some c → Evaluates (.mul l r) c
  | div {l r : Expr} {a b c : Dec} : Evaluates l a → Evaluates r b → DecOps.div a b = some c → Evaluates (.div l r) c
  | neg {l : Expr} {a : Dec} : Evaluates l a → Evaluates (.neg l) ⟨-a.mant, a.scale⟩
  | paren {l : Expr} {a : Dec} : Evaluates l a → Evaluates (.paren l) a

/-- A part of the expression divides by something that works out as zero. -/
def DividesByZero (e : Expr) : Prop :=
  ∃ l r a b, Expr.div l r ∈ parts e ∧ Evaluates l a ∧ Evaluates r b ∧ b.val = 0

/-- The result of some operator in the expression is larger than the largest decimal. -/
def TooLarge (e : Expr) : Prop :=
  ∃ l r a b, Evaluates l a ∧ Evaluates r b ∧
    ((Expr.add l r ∈ parts e ∧ decMax < |a.val + b.val|) ∨ (Expr.sub l r ∈ parts e ∧ decMax < |a.val - b.val|) ∨
     (Expr.mul l r ∈ parts e ∧ decMax < |a.val * b.val|) ∨
     (Expr.div l r ∈ parts e ∧ b.val ≠ 0 ∧ decMax < |a.val / b.val|))

end Lima.Spec
