import Verif.Model.Token

/-! Specification of the syntax of expressions. -/

namespace Lima.Spec

/-- A kind of phrase with a meaning: `p i r a` says that the tokens `i` begin with such a phrase, that it means
`a`, and that `r` are the tokens after it. -/
abbrev Phrase (α : Type) := List Ranged → List Ranged → α → Prop

/-- The tokens `i` are the token `t`, wherever it is, and then `r`. -/
def Word (t : Token) (i r : List Ranged) : Prop := ∃ start stop, i = ⟨t, start, stop⟩ :: r

mutual

/-- A number or a parenthesised expression. -/
inductive Factor : Phrase Expr
  | number {i r : List Ranged} {d : Dec} : Word (.number d) i r → Factor i r (.value d)
  | parens {i j k r : List Ranged} {e : Expr} :
      Word .lparen i j → SumExpr j k e → Word .rparen k r → Factor i r (.paren e)

/-- A factor with at most one sign. -/
inductive Signed : Phrase Expr
  | unsigned {i r : List Ranged} {e : Expr} : Factor i r e → Signed i r e
  | plus {i j r : List Ranged} {e : Expr} : Word .plus i j → Factor j r e → Signed i r e
  | minus {i j r : List Ranged} {e : Expr} : Word .minus i j → Factor j r e → Signed i r (.neg e)

/-- Multiplication and division, from left to right. -/
inductive Product : Phrase Expr
  | single {i r : List Ranged} {e : Expr} : Signed i r e → Product i r e
  | times {i j k r : List Ranged} {a b : Expr} :
      Product i j a → Word .asterisk j k → Signed k r b → Product i r (.mul a b)
  | over {i j k r : List Ranged} {a b : Expr} :
      Product i j a → Word .slash j k → Signed k r b → Product i r (.div a b)

/-- Addition and subtraction, from left to right, of products. -/
inductive SumExpr : Phrase Expr
  | single {i r : List Ranged} {e : Expr} : Product i r e → SumExpr i r e
  | plus {i j k r : List Ranged} {a b : Expr} :
      SumExpr i j a → Word .plus j k → Product k r b → SumExpr i r (.add a b)
  | minus {i j k r : List Ranged} {a b : Expr} :
      SumExpr i j a → Word .minus j k → Product k r b → SumExpr i r (.sub a b)

end

/-- The tokens go on with an operator and something to apply it to. -/
def Continues (r : List Ranged) : Prop :=
  ∃ t j k e, (t = .plus ∨ t = .minus ∨ t = .asterisk ∨ t = .slash) ∧ Word t r j ∧ Signed j k e

/-- An expression as it is written: as long as can be. -/
def Expression : Phrase Expr := fun i r e => SumExpr i r e ∧ ¬ Continues r

/-- The tokens an expression is printed as. -/
def exprTokens : Expr → List Token
  | .value d => [.number d]
  | .add a b => exprTokens a ++ [.plus] ++ exprTokens b
  | .sub a b => exprTokens a ++ [.minus] ++ exprTokens b
  | .mul a b => exprTokens a ++ [.asterisk] ++ exprTokens b
  | .div a b => exprTokens a ++ [.slash] ++ exprTokens b
  | .neg a => [.minus] ++ exprTokens a
  | .paren a => [.lparen] ++ exprTokens a ++ [.rparen]

end Lima.Spec
