import Mathlib.Data.List.Forall2
import Verif.Model.Ast
import Verif.Model.Options
import Verif.Model.Display
import Verif.Model.Logos

/-! Specification of what it means for a printed directive to be read back as the same directive. -/

namespace Lima.Spec

/-! ### The same but for locations and the order of hash containers -/

/-- What a metadata value says: a simple value, or a number and a currency. -/
def valueSaid : MetaValue → SimpleValue ⊕ (ExprValue × Str)
  | .simple v => .inl v
  | .amount a => .inr (a.number.item, a.currency.item)

/-- What a key and value say. -/
def keyValueSaid (kv : Spanned Str × Spanned MetaValue) : Str × (SimpleValue ⊕ (ExprValue × Str)) :=
  (kv.1.item, valueSaid kv.2.item)

/-- The same keys and values, tags and links, in any order. -/
def SameMetadata (m n : Metadata) : Prop :=
  (m.keyValues.map keyValueSaid).Perm (n.keyValues.map keyValueSaid) ∧
  (m.tags.map (·.item)).Perm (n.tags.map (·.item)) ∧ (m.links.map (·.item)).Perm (n.links.map (·.item))

/-- The same number and currency. -/
def SameAmount (a b : Amount) : Prop := a.number.item = b.number.item ∧ a.currency.item = b.currency.item

/-- The same cost specification. -/
def SameCost (a b : CostSpec) : Prop :=
  a.perUnit.map (·.item) = b.perUnit.map (·.item) ∧ a.total.map (·.item) = b.total.map (·.item) ∧
  a.currency.map (·.item) = b.currency.map (·.item) ∧ a.date.map (·.item) = b.date.map (·.item) ∧
  a.label.map (·.item) = b.label.map (·.item) ∧ a.merge = b.merge

/-- Both or neither, and if both then as given. -/
def BothOrNeither {α : Type} (same : α → α → Prop) : Option (Spanned α) → Option (Spanned α) → Prop
  | some a, some b => same a.item b.item
  | none, none => True
  | _, _ => False

/-- The same posting. -/
def SamePosting (p q : Posting) : Prop :=
  p.flag.map (·.item) = q.flag.map (·.item) ∧ p.account.item = q.account.item ∧
  p.amount.map (·.item) = q.amount.map (·.item) ∧ p.currency.map (·.item) = q.currency.map (·.item) ∧
  BothOrNeither SameCost p.costSpec q.costSpec ∧ p.priceAnnotation.map (·.item) = q.priceAnnotation.map (·.item) ∧
  SameMetadata p.metadata.item q.metadata.item

/-- The same kind of directive with the same content. -/
def SameVariant : DirectiveVariant → DirectiveVariant → Prop
  | .transaction t, .transaction u =>
    t.flag.item = u.flag.item ∧ t.payee.map (·.item) = u.payee.map (·.item) ∧
    t.narration.map (·.item) = u.narration.map (·.item) ∧
    List.Forall₂ (fun p q => SamePosting p.item q.item) t.postings u.postings
  | .price c a, .price c' a' => c.item = c'.item ∧ SameAmount a.item a'.item
  | .balance x t, .balance x' t' =>
    x.item = x'.item ∧ SameAmount t.item.amount.item t'.item.amount.item ∧
    t.item.tolerance.map (·.item) = t'.item.tolerance.map (·.item)
  | .open x cs b, .open x' cs' b' =>
    x.item = x'.item ∧ (cs.map (·.item)).Perm (cs'.map (·.item)) ∧ b.map (·.item) = b'.map (·.item)
  | .close x, .close x' => x.item = x'.item
  | .commodity c, .commodity c' => c.item = c'.item
  | .pad x y, .pad x' y' => x.item = x'.item ∧ y.item = y'.item
  | .document x s, .document x' s' => x.item = x'.item ∧ s.item = s'.item
  | .note x s, .note x' s' => x.item = x'.item ∧ s.item = s'.item
  | .event s t, .event s' t' => s.item = s'.item ∧ t.item = t'.item
  | .query s t, .query s' t' => s.item = s'.item ∧ t.item = t'.item
  | .custom s vs, .custom s' vs' => s.item = s'.item ∧ vs.map (valueSaid ·.item) = vs'.map (valueSaid ·.item)
  | _, _ => False

/-- The same directive: only locations, and the order in hash containers, may differ. -/
def Same (d e : Directive) : Prop :=
  d.date.item = e.date.item ∧ SameMetadata d.metadata.item e.metadata.item ∧ SameVariant d.variant e.variant

/-! ### Parts of a directive -/

/-- The accounts in a value. -/
def valueAccounts : MetaValue → List Account
  | .simple (.account a) => [a]
  | _ => []

/-- The accounts in metadata. -/
def metadataAccounts (m : Metadata) : List Account := m.keyValues.flatMap (fun kv => valueAccounts kv.2.item)

/-- The accounts in the variant of a directive. -/
def variantAccounts : DirectiveVariant → List Account
  | .transaction t => t.postings.flatMap (fun p => p.item.account.item :: metadataAccounts p.item.metadata.item)
  | .balance a _ | .open a _ _ | .close a | .document a _ | .note a _ => [a.item]
  | .pad a b => [a.item, b.item]
  | .custom _ vs => vs.flatMap (fun v => valueAccounts v.item)
  | _ => []

/-- The accounts in a directive. -/
def accountsOf (d : Directive) : List Account := metadataAccounts d.metadata.item ++ variantAccounts d.variant

/-- The options know the type of the account by the part of its name before the first colon. -/
def KnowsAccount (o : ParserOptions) (a : Account) : Prop :=
  o.accountTypeNames.get (a.name.takeWhile (fun c => decide (c ≠ ':'))) = some a.accountType

/-- The strings in a value. -/
def valueStrings : MetaValue → List Str
  | .simple (.string s) => [s]
  | _ => []

/-- The strings in metadata. -/
def metadataStrings (m : Metadata) : List Str := m.keyValues.flatMap (fun kv => valueStrings kv.2.item)

/-- The strings in a posting. -/
def postingStrings (p : Posting) : List Str :=
  (match p.costSpec with | some c => c.item.label.toList.map (·.item) | none => []) ++ metadataStrings p.metadata.item

/-- The strings in the variant of a directive. -/
def variantStrings : DirectiveVariant → List Str
  | .transaction t =>
    t.payee.toList.map (·.item) ++ t.narration.toList.map (·.item) ++ t.postings.flatMap (fun p => postingStrings p.item)
  | .document _ s | .note _ s => [s.item]
  | .event s t | .query s t => [s.item, t.item]
  | .custom s vs => s.item :: vs.flatMap (fun v => valueStrings v.item)
  | _ => []

/-- The strings in a directive. -/
def stringsOf (d : Directive) : List Str := metadataStrings d.metadata.item ++ variantStrings d.variant

/-- A price annotation for the total, `@@`. -/
def IsTotal : PriceSpec → Prop
  | .bareAmount (.total _) | .currencyAmount (.total _) _ => True
  | _ => False

/-- What printing does not keep: total prices, tolerances, and strings with quotes or backslashes. -/
def Printable (d : Directive) : Prop :=
  (∀ t, d.variant = .transaction t → ∀ p ∈ t.postings, ∀ x, p.item.priceAnnotation = some x → ¬ IsTotal x.item) ∧
  (∀ a t, d.variant = .balance a t → t.item.tolerance = none) ∧
  (∀ s ∈ stringsOf d, '"' ∉ s ∧ '\\' ∉ s)

/-! ### Texts -/

/-- The printed directives, one after the other, each with its line end. -/
def printAll (ds : List Directive) : Str := ds.flatMap (fun d => Display.directive d ++ ['\n'])

/-- The printed directives, one after the other, each with its line end and an empty line. -/
def printAllApart (ds : List Directive) : Str := ds.flatMap (fun d => Display.directive d ++ ['\n', '\n'])

/-- The tokens are those of the lexer. -/
def LexedBy [Categories] (l : Logos) (tokens : Str → List Ranged) : Prop :=
  ∀ text toks, lexText l text = some toks → tokens text = toks

end Lima.Spec
