import Verif.Model.Grammar

/-! Specification of cost specifications. -/

namespace Lima.Spec

/-- Something a cost specification says. -/
inductive CostFact where
  | perUnit (v : Spanned ExprValue)
  | total (v : Spanned ExprValue)
  | currency (v : Spanned Str)
  | date (v : Spanned Date)
  | label (v : Spanned Str)
  | merge
deriving DecidableEq

/-- What one component between commas says. -/
def costFacts (c : Spanned CostComp) : List CostFact :=
  match c.item with
  | .amount (.bareCurrency cur) => [.currency ⟨cur, c.span⟩]
  | .amount (.bareAmount a) => amountFacts a c.span
  | .amount (.currencyAmount a cur) => amountFacts a c.span ++ [.currency ⟨cur, c.span⟩]
  | .date d => [.date ⟨d, c.span⟩]
  | .label s => [.label ⟨s, c.span⟩]
  | .merge => [.merge]
where
  amountFacts (a : CompoundExprValue) (span : Span) : List CostFact :=
    match a with
    | .perUnit p => [.perUnit ⟨p, span⟩]
    | .total t => [.total ⟨t, span⟩]
    | .perUnitAndTotal p t => [.perUnit ⟨p, span⟩, .total ⟨t, span⟩]

/-- The aspect of the cost a fact is about. -/
def CostFact.kind : CostFact → CostSpecError
  | .perUnit _ => .perUnit
  | .total _ => .total
  | .currency _ => .currency
  | .date _ => .date
  | .label _ => .label
  | .merge => .merge

/-- How often something is said about an aspect. -/
def timesSaid (kind : CostSpecError) (facts : List CostFact) : Nat :=
  (facts.filter (fun f => decide (f.kind = kind))).length

/-- The cost specification says these facts and nothing else. -/
def Says (c : CostSpec) (facts : List CostFact) : Prop :=
  (∀ v, c.perUnit = some v ↔ .perUnit v ∈ facts) ∧ (∀ v, c.total = some v ↔ .total v ∈ facts) ∧
  (∀ v, c.currency = some v ↔ .currency v ∈ facts) ∧ (∀ v, c.date = some v ↔ .date v ∈ facts) ∧
  (∀ v, c.label = some v ↔ .label v ∈ facts) ∧ (c.merge = true ↔ .merge ∈ facts)

end Lima.Spec
