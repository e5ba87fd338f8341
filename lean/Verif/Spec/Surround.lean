import Verif.Spec.Revised
import Verif.Spec.Grammar

/-!
# Specification of a tag for a passage (C66), and of metadata for a passage (C67)

A passage is put between `pushtag` and `poptag`, or between `pushmeta` and `popmeta`.
-/

namespace Lima.Spec

/-- The directive with the tag, which it may have already.  The location of the tag is not specified. -/
def withTag (t : Str) (d : Directive) : Directive :=
  if t ∈ d.metadata.item.tags.map (·.item) then d
  else { d with metadata := ⟨{ d.metadata.item with tags := d.metadata.item.tags ++ [⟨t, ⟨0, 0, 0⟩⟩] }, d.metadata.span⟩ }

/-- The directive with the key and value, unless it has the key already.  The locations are not specified. -/
def withMeta (k : Str) (v : MetaValue) (d : Directive) : Directive :=
  if k ∈ d.metadata.item.keyValues.map (·.1.item) then d
  else { d with metadata :=
    ⟨{ d.metadata.item with keyValues := d.metadata.item.keyValues ++ [(⟨k, ⟨0, 0, 0⟩⟩, ⟨v, ⟨0, 0, 0⟩⟩)] }, d.metadata.span⟩ }

/-- These tokens, at the end of a line, are that value of metadata, whatever the options: anything but accounts, that is.
No tokens are the value `NULL`. -/
def MeansValue [Unicode] [DecOps] (ts : List Token) (v : MetaValue) : Prop :=
  .include ∉ ts ∧ ((ts = [] ∧ v = .simple .null) ∨
    ∀ (cfg : ParseCfg) (o : ParserOptions) (i r : List Ranged) (e : Ranged), i.map (·.tok) = ts → e.tok = .eol →
      ∃ v', At cfg (MetaValueP cfg o) (i ++ e :: r) (e :: r) v' ∧ SameButPlaces v'.item v)

/-- Values of one or two tokens: strings, currencies, tags, links, dates, booleans, nothing, numbers and amounts. -/
inductive PlainValue [Unicode] [DecOps] : List Token → MetaValue → Prop
  | string (s : Str) : PlainValue [.stringLiteral s] (.simple (.string s))
  | currency {c : Str} : ValidCurrency c → PlainValue [.currency c] (.simple (.currency c))
  | tag {t : Str} : (∀ c ∈ t, TagChar c) → PlainValue [.tag t] (.simple (.tag t))
  | link {t : Str} : (∀ c ∈ t, TagChar c) → PlainValue [.link t] (.simple (.link t))
  | date (d : Date) : PlainValue [.date d] (.simple (.date d))
  | true : PlainValue [.true_] (.simple (.bool true))
  | false : PlainValue [.false_] (.simple (.bool false))
  | null : PlainValue [.null] (.simple .null)
  | nothing : PlainValue [] (.simple .null)
  | number {n : Dec} {e : ExprValue} : ExprValue.ofExpr (.value n) = some e → PlainValue [.number n] (.simple (.expr e))
  | amount {n : Dec} {e : ExprValue} {c : Str} : ExprValue.ofExpr (.value n) = some e → ValidCurrency c →
      PlainValue [.number n, .currency c] (.amount ⟨⟨e, ⟨0, 0, 0⟩⟩, ⟨c, ⟨0, 0, 0⟩⟩⟩)

/-- Metadata with this key is pushed somewhere among the tokens. -/
def Pushes (k : Str) (ts : List Token) : Prop := ∃ a b, ts = a ++ .pushmeta :: .key k :: b

/-- Five passages, of which the second and the fourth are a line each, and there is no pragma in the one in the middle. -/
structure Between [Categories] (l : Logos) (tokens : Str → List Ranged) (first last : List Token)
    (before push passage pop after : Str) : Prop where
  passages : ∀ t ∈ [before, push, passage, pop, after], Passage l t
  push : (tokens push).map (·.tok) = first
  pop : (tokens pop).map (·.tok) = last
  noPragma : NoPragma ((tokens passage).map (·.tok))

/-- A text, and the text with a passage of it between two lines; or it is any text, as it was. -/
def Surrounded (before push passage pop after text text' : Str) : Prop :=
  text' = text ∨ (text = before ++ passage ++ after ∧ text' = before ++ push ++ passage ++ pop ++ after)

/-- The location is in the passage which is between two lines in the other sources. -/
def InPassage (s s' : Sources) (before push passage pop after : Str) (sp : Span) : Prop :=
  (∃ path, IsSource s sp.source path (before ++ passage ++ after) ∧
    IsSource s' sp.source path (before ++ push ++ passage ++ pop ++ after)) ∧
  byteLen before ≤ sp.start ∧ sp.start < byteLen (before ++ passage)

/-- The second result is the first, but for locations and that the directives which are `inside` are as `edit` has them. -/
structure EditedInside (inside : Span → Prop) (edit : Directive → Directive) (r r' : ParseSuccess) : Prop where
  directives : List.Forall₂ (fun d d' => (inside d.span → SameButPlaces d'.item (edit d.item)) ∧
    (¬ inside d.span → SameButPlaces d' d)) r.directives r'.directives
  options : SameButPlaces r.options r'.options
  plugins : SameButPlaces r.plugins r'.plugins

end Lima.Spec
