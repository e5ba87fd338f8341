import Verif.Lemmas.Provenance
import Verif.Lemmas.PrintDirective
import Verif.Lemmas.Duplicates

/-! Parsed directives are well-formed, and what is in them could be read from a text. -/

set_option linter.unusedSectionVars false

namespace Lima
open Spec

section
variable [Categories]

/-- The content of all tokens could be read from a text. -/
def AllOk (i : List Ranged) : Prop := ∀ t ∈ i, LexOk t.tok

/-- Likewise. -/
def Ok (ts : List Token) : Prop := ∀ t ∈ ts, LexOk t

theorem Ok.nil : Ok [] := fun _ h => by cases h

theorem Ok.cons {t : Token} {ts : List Token} (h : LexOk t) (hs : Ok ts) : Ok (t :: ts) := by
  intro u hu
  rcases List.mem_cons.mp hu with rfl | hu
  · exact h
  · exact hs u hu

theorem Ok.append {as bs : List Token} (h : Ok as) (hs : Ok bs) : Ok (as ++ bs) := by
  intro u hu
  rcases List.mem_append.mp hu with hu | hu
  · exact h u hu
  · exact hs u hu

theorem Ok.one {t : Token} (h : LexOk t) : Ok [t] := Ok.cons h Ok.nil

theorem Ok.flatMap {α : Type} {f : α → List Token} {xs : List α} (h : ∀ x ∈ xs, Ok (f x)) : Ok (xs.flatMap f) := by
  intro u hu
  obtain ⟨x, hx, hu⟩ := List.mem_flatMap.mp hu
  exact h x hx u hu

theorem Ok.map {α : Type} {f : α → Token} {xs : List α} (h : ∀ x ∈ xs, LexOk (f x)) : Ok (xs.map f) := by
  intro u hu
  obtain ⟨x, hx, rfl⟩ := List.mem_map.mp hu
  exact h x hx

theorem ok_append {as bs : List Token} : Ok (as ++ bs) ↔ Ok as ∧ Ok bs :=
  ⟨fun h => ⟨fun t ht => h t (by simp [ht]), fun t ht => h t (by simp [ht])⟩, fun h => h.1.append h.2⟩

theorem ok_cons {t : Token} {ts : List Token} : Ok (t :: ts) ↔ LexOk t ∧ Ok ts :=
  ⟨fun h => ⟨h t (by simp), fun t ht => h t (by simp [ht])⟩, fun h => Ok.cons h.1 h.2⟩

theorem ok_nil : Ok [] ↔ True := iff_true_intro Ok.nil

/-! ### Phrases -/

/-- The phrase passes on what it leaves, and means something good. -/
def Sound {α : Type} (p : Phrase α) (G : α → Prop) : Prop := ∀ i r a, p i r a → AllOk i → AllOk r ∧ G a

theorem word_ok {t : Token} {i r : List Ranged} (h : Word t i r) (hi : AllOk i) : AllOk r ∧ LexOk t := by
  obtain ⟨s, e, rfl⟩ := h
  exact ⟨fun u hu => hi u (List.mem_cons_of_mem _ hu), hi ⟨t, s, e⟩ List.mem_cons_self⟩

theorem Sound.at {α : Type} {cfg : ParseCfg} {p : Phrase α} {G : α → Prop} (h : Sound p G) : Sound (At cfg p) (fun a => G a.item) :=
  fun i r a ha hi => h i r a.item ha.1 hi

theorem Sound.maybe {α : Type} {p : Phrase α} {G : α → Prop} (h : Sound p G) : Sound (Maybe p) (fun a => ∀ x, a = some x → G x) := by
  intro i r a ha hi
  cases a with
  | none =>
    simp only [Maybe] at ha
    subst ha
    exact ⟨hi, fun _ h => by cases h⟩
  | some x =>
    obtain ⟨h1, h2⟩ := h i r x ha hi
    exact ⟨h1, fun y hy => by cases hy; exact h2⟩

theorem Sound.many {α : Type} {p : Phrase α} {G : α → Prop} (h : Sound p G) : Sound (Many p) (fun as => ∀ a ∈ as, G a) := by
  intro i r as ha hi
  induction ha with
  | nil => exact ⟨hi, by simp⟩
  | cons h1 _ ih =>
    obtain ⟨h2, h3⟩ := h _ _ _ h1 hi
    obtain ⟨h4, h5⟩ := ih h2
    exact ⟨h4, fun a ha => by
      rcases List.mem_cons.mp ha with rfl | ha
      · exact h3
      · exact h5 a ha⟩

theorem eol_ok {i r : List Ranged} (h : EndOfLine i r) (hi : AllOk i) : AllOk r := by
  rcases h with h | ⟨_, rfl⟩
  · exact (word_ok h hi).1
  · intro t ht; cases ht

/-! ### Expressions -/

mutual

theorem factor_ok {i r : List Ranged} {e : Expr} : Factor i r e → AllOk i → AllOk r ∧ Ok (exprTokens e)
  | .number h, hi => ⟨(word_ok h hi).1, Ok.one (word_ok h hi).2⟩
  | .parens h1 h2 h3, hi => by
    obtain ⟨h4, h5⟩ := sum_ok h2 (word_ok h1 hi).1
    refine ⟨(word_ok h3 h4).1, ?_⟩
    simp [exprTokens, ok_append, ok_cons, ok_nil, LexOk, h5]

theorem signed_ok {i r : List Ranged} {e : Expr} : Signed i r e → AllOk i → AllOk r ∧ Ok (exprTokens e)
  | .unsigned h, hi => factor_ok h hi
  | .plus h1 h2, hi => factor_ok h2 (word_ok h1 hi).1
  | .minus h1 h2, hi => by
    obtain ⟨h4, h5⟩ := factor_ok h2 (word_ok h1 hi).1
    refine ⟨h4, ?_⟩
    simp [exprTokens, ok_cons, LexOk, h5]

theorem product_ok {i r : List Ranged} {e : Expr} : Product i r e → AllOk i → AllOk r ∧ Ok (exprTokens e)
  | .single h, hi => signed_ok h hi
  | .times h1 h2 h3, hi => by
    obtain ⟨h4, h5⟩ := product_ok h1 hi
    obtain ⟨h6, h7⟩ := signed_ok h3 (word_ok h2 h4).1
    refine ⟨h6, ?_⟩
    simp [exprTokens, ok_append, ok_cons, LexOk, h5, h7]
  | .over h1 h2 h3, hi => by
    obtain ⟨h4, h5⟩ := product_ok h1 hi
    obtain ⟨h6, h7⟩ := signed_ok h3 (word_ok h2 h4).1
    refine ⟨h6, ?_⟩
    simp [exprTokens, ok_append, ok_cons, LexOk, h5, h7]

theorem sum_ok {i r : List Ranged} {e : Expr} : SumExpr i r e → AllOk i → AllOk r ∧ Ok (exprTokens e)
  | .single h, hi => product_ok h hi
  | .plus h1 h2 h3, hi => by
    obtain ⟨h4, h5⟩ := sum_ok h1 hi
    obtain ⟨h6, h7⟩ := product_ok h3 (word_ok h2 h4).1
    refine ⟨h6, ?_⟩
    simp [exprTokens, ok_append, ok_cons, LexOk, h5, h7]
  | .minus h1 h2 h3, hi => by
    obtain ⟨h4, h5⟩ := sum_ok h1 hi
    obtain ⟨h6, h7⟩ := product_ok h3 (word_ok h2 h4).1
    refine ⟨h6, ?_⟩
    simp [exprTokens, ok_append, ok_cons, LexOk, h5, h7]

end

variable [Unicode] [DecOps]

def GoodValue (v : ExprValue) : Prop := WfValue v ∧ Ok (exprTokens v.expr)

theorem value_ok : Sound ValueP GoodValue := fun i r v h hi => by
  obtain ⟨h1, h2⟩ := sum_ok h.1.1 hi
  exact ⟨h1, ⟨i, r, h⟩, h2⟩

/-! ### Single tokens -/

def GoodCurrency (c : Str) : Prop := ValidCurrency c ∧ LexOk (.currency c)

theorem currency_ok : Sound CurrencyP GoodCurrency := fun _ _ _ h hi => ⟨(word_ok h.1 hi).1, h.2, (word_ok h.1 hi).2⟩

def GoodAccount (a : Account) : Prop := NameOk a.name ∧ LexOk (.account a.name)

theorem account_ok {o : ParserOptions} : Sound (AccountP o) GoodAccount := fun _ _ _ h hi => by
  obtain ⟨h1, root, subs, h2, h3, h4, _⟩ := h
  exact ⟨(word_ok h1 hi).1, ⟨root, subs, h2, h3, h4⟩, (word_ok h1 hi).2⟩

theorem date_ok : Sound DateP (fun d => LexOk (.date d)) := fun _ _ _ h hi => word_ok h hi

theorem string_ok : Sound StringP (fun _ => True) := fun _ _ _ h hi => ⟨(word_ok h hi).1, trivial⟩

def GoodTag (t : Str) : Prop := (∀ c ∈ t, TagChar c) ∧ LexOk (.tag t)

theorem tag_ok : Sound TagP GoodTag := fun _ _ _ h hi => ⟨(word_ok h.1 hi).1, h.2, (word_ok h.1 hi).2⟩

theorem link_ok : Sound LinkP GoodTag := fun _ _ _ h hi => ⟨(word_ok h.1 hi).1, h.2, (word_ok h.1 hi).2⟩

theorem keyP_ok : Sound KeyP (fun k => ValidKey k ∧ LexOk (.key k)) := fun _ _ _ h hi => ⟨(word_ok h.1 hi).1, h.2, (word_ok h.1 hi).2⟩

theorem flagP_ok : Sound FlagP (fun f => LexOk (flagToken f)) := fun _ _ f h hi => by
  rcases h with h | ⟨rfl, h⟩ | ⟨rfl, h⟩
  · obtain ⟨h1, h2⟩ := word_ok h hi
    refine ⟨h1, ?_⟩
    cases f <;> exact h2
  · exact ⟨(word_ok h hi).1, trivial⟩
  · exact ⟨(word_ok h hi).1, trivial⟩

theorem txn_ok : Sound TxnP (fun f => LexOk (flagToken f)) := fun i r f h hi => by
  rcases h with ⟨rfl, h⟩ | h
  · exact ⟨(word_ok h hi).1, trivial⟩
  · exact flagP_ok i r f h hi

/-! ### Amounts -/

def GoodAmount (a : Amount) : Prop := WfAmount a ∧ Ok (amountTokens a)

theorem GoodAmount.of {n : Spanned ExprValue} {c : Spanned Str} (h1 : GoodValue n.item) (h2 : GoodCurrency c.item) : GoodAmount ⟨n, c⟩ :=
  ⟨⟨h1.1, h2.1⟩, h1.2.append (Ok.one h2.2)⟩

theorem amount_ok (cfg : ParseCfg) : Sound (AmountP cfg) GoodAmount := fun _ _ _ h hi => by
  obtain ⟨h1, h2⟩ := h
  obtain ⟨h3, h4⟩ := value_ok.at _ _ _ h1 hi
  obtain ⟨h5, h6⟩ := currency_ok.at _ _ _ h2 h3
  exact ⟨h5, .of h4 h6⟩

theorem tolerant_ok (cfg : ParseCfg) : Sound (TolerantP cfg) (fun t => GoodAmount t.amount.item) := fun _ _ _ h hi => by
  cases h with
  | exact h => exact (amount_ok cfg).at _ _ _ h hi
  | tolerant h1 h2 h3 h4 _ =>
    obtain ⟨h5, h6⟩ := value_ok.at _ _ _ h1 hi
    obtain ⟨h7, _⟩ := word_ok h3.1 (word_ok h2 h5).1
    obtain ⟨h8, h9⟩ := currency_ok.at _ _ _ h4 h7
    exact ⟨h8, .of h6 h9⟩

def GoodCompoundExpr : CompoundExprValue → Prop
  | .perUnit e | .total e => GoodValue e
  | .perUnitAndTotal p t => GoodValue p ∧ GoodValue t

theorem compoundExpr_ok : Sound CompoundExprP GoodCompoundExpr := fun _ _ _ h hi => by
  cases h with
  | both h1 h2 h3 =>
    obtain ⟨h4, h5⟩ := value_ok _ _ _ h1 hi
    obtain ⟨h6, h7⟩ := value_ok _ _ _ h3 (word_ok h2 h4).1
    exact ⟨h6, h5, h7⟩
  | perUnitHash h1 h2 =>
    obtain ⟨h4, h5⟩ := value_ok _ _ _ h1 hi
    exact ⟨(word_ok h2 h4).1, h5⟩
  | perUnit h1 => exact value_ok _ _ _ h1 hi
  | total h1 h2 => exact value_ok _ _ _ h2 (word_ok h1 hi).1

def GoodCompoundAmount : CompoundAmount → Prop
  | .bareCurrency c => GoodCurrency c
  | .bareAmount a => GoodCompoundExpr a
  | .currencyAmount a c => GoodCompoundExpr a ∧ GoodCurrency c

theorem compoundAmount_ok : Sound CompoundAmountP GoodCompoundAmount := fun _ _ _ h hi => by
  cases h with
  | amountCurrency h1 h2 =>
    obtain ⟨h4, h5⟩ := compoundExpr_ok _ _ _ h1 hi
    obtain ⟨h6, h7⟩ := currency_ok _ _ _ h2 h4
    exact ⟨h6, h5, h7⟩
  | amount h1 => exact compoundExpr_ok _ _ _ h1 hi
  | currency h1 => exact currency_ok _ _ _ h1 hi
  | hashCurrency h1 h2 => exact currency_ok _ _ _ h2 (word_ok h1 hi).1

def GoodCostComp : CostComp → Prop
  | .amount a => GoodCompoundAmount a
  | .date d => LexOk (.date d)
  | _ => True

theorem costComp_ok : Sound CostCompP GoodCostComp := fun _ _ _ h hi => by
  cases h with
  | amount h => exact compoundAmount_ok _ _ _ h hi
  | date h => exact date_ok _ _ _ h hi
  | label h => exact string_ok _ _ _ h hi
  | merge h => exact ⟨(word_ok h hi).1, trivial⟩

def GoodFact : CostFact → Prop
  | .perUnit v | .total v => GoodValue v.item
  | .currency c => GoodCurrency c.item
  | .date d => LexOk (.date d.item)
  | _ => True

theorem facts_ok {c : Spanned CostComp} (h : GoodCostComp c.item) : ∀ f ∈ costFacts c, GoodFact f := by
  have am : ∀ {a : CompoundExprValue} {span : Span}, GoodCompoundExpr a → ∀ f ∈ costFacts.amountFacts a span, GoodFact f := by
    intro a span h f hf
    cases a with
    | perUnit e => rw [List.mem_singleton.mp hf]; exact h
    | total e => rw [List.mem_singleton.mp hf]; exact h
    | perUnitAndTotal p t =>
      simp only [costFacts.amountFacts, List.mem_cons, List.not_mem_nil, or_false] at hf
      rcases hf with rfl | rfl
      · exact h.1
      · exact h.2
  obtain ⟨c, span⟩ := c
  intro f hf
  rcases c with a | d | s | _
  · rcases a with c | a | ⟨a, c⟩
    · rw [List.mem_singleton.mp hf]; exact h
    · exact am h f hf
    · rcases List.mem_append.mp hf with hf | hf
      · exact am h.1 f hf
      · rw [List.mem_singleton.mp hf]; exact h.2
  · rw [List.mem_singleton.mp hf]; exact h
  · rw [List.mem_singleton.mp hf]; trivial
  · rw [List.mem_singleton.mp hf]; trivial

def GoodCost (c : CostSpec) : Prop := WfCost c ∧ Ok (costTokens c)

theorem goodCost_of {c : CostSpec} {facts : List CostFact} (h : Says c facts) (hf : ∀ f ∈ facts, GoodFact f) : GoodCost c := by
  obtain ⟨h1, h2, h3, h4, h5, h6⟩ := h
  have p : ∀ x, c.perUnit = some x → GoodValue x.item := fun x hx => hf _ ((h1 x).mp hx)
  have t : ∀ x, c.total = some x → GoodValue x.item := fun x hx => hf _ ((h2 x).mp hx)
  have u : ∀ x, c.currency = some x → GoodCurrency x.item := fun x hx => hf _ ((h3 x).mp hx)
  have d : ∀ x, c.date = some x → LexOk (.date x.item) := fun x hx => hf _ ((h4 x).mp hx)
  refine ⟨⟨fun x hx => (p x hx).1, fun x hx => (t x hx).1, fun x hx => (u x hx).1⟩, ?_⟩
  have comps : ∀ x ∈ costComps c, Ok (costCompTokens x) := by
    intro x hx
    simp only [costComps, List.mem_append, List.mem_map] at hx
    rcases hx with ((⟨a, ha, rfl⟩ | ⟨x, hx, rfl⟩) | ⟨x, hx, rfl⟩) | hx
    · rw [Option.mem_toList] at ha
      unfold costAmount at ha
      split at ha <;> simp only [Option.some.injEq, reduceCtorEq] at ha <;> subst ha <;>
        simp only [costCompTokens, compoundAmountTokens, compoundExprTokens]
      · exact Ok.one (u _ (by assumption)).2
      · exact (p _ (by assumption)).2
      · exact Ok.cons trivial (t _ (by assumption)).2
      · exact (p _ (by assumption)).2.append (Ok.cons trivial (t _ (by assumption)).2)
      · exact (p _ (by assumption)).2.append (Ok.one (u _ (by assumption)).2)
      · exact ok_append.mpr ⟨ok_cons.mpr ⟨trivial, (t _ (by assumption)).2⟩, Ok.one (u _ (by assumption)).2⟩
      · exact ok_append.mpr ⟨ok_append.mpr ⟨(p _ (by assumption)).2, ok_cons.mpr ⟨trivial, (t _ (by assumption)).2⟩⟩, Ok.one (u _ (by assumption)).2⟩
    · exact Ok.one (d x (by simpa using hx))
    · exact Ok.one trivial
    · split at hx
      · rw [List.mem_singleton.mp hx]; exact Ok.one trivial
      · cases hx
  refine Ok.append (Ok.cons trivial ?_) (Ok.one trivial)
  generalize costComps c = xs at comps
  cases xs with
  | nil => exact Ok.nil
  | cons x xs => exact (comps x (by simp)).append (Ok.flatMap fun y hy => Ok.cons trivial (comps y (by simp [hy])))

theorem commaCost_ok (cfg : ParseCfg) : Sound (CommaCostCompP cfg) (fun c => GoodCostComp c.item) := fun _ _ _ h hi => by
  obtain ⟨j, h1, h2⟩ := h
  exact costComp_ok.at _ _ _ h2 (word_ok h1 hi).1

theorem costSpec_ok (cfg : ParseCfg) : Sound (CostSpecP cfg) GoodCost := fun _ _ _ h hi => by
  cases h with
  | empty h1 h2 h3 => exact ⟨(word_ok h2 (word_ok h1 hi).1).1, goodCost_of h3 (by simp)⟩
  | comps h1 h2 h3 h4 h5 _ =>
    obtain ⟨h6, h7⟩ := costComp_ok.at _ _ _ h2 (word_ok h1 hi).1
    obtain ⟨h8, h9⟩ := (commaCost_ok cfg).many _ _ _ h3 h6
    refine ⟨(word_ok h4 h8).1, goodCost_of h5 ?_⟩
    intro f hf
    obtain ⟨c, hc, hcf⟩ := List.mem_flatMap.mp hf
    rcases List.mem_cons.mp hc with rfl | hc
    · exact facts_ok h7 f hcf
    · exact facts_ok (h9 c hc) f hcf

def GoodPrice (p : PriceSpec) : Prop := NotTotal p → WfPrice p ∧ Ok (priceTokens p)

theorem price_ok : Sound PriceP GoodPrice := fun _ _ _ h hi => by
  cases h with
  | perUnit h1 h2 =>
    obtain ⟨h3, h4⟩ := value_ok _ _ _ h2 (word_ok h1 hi).1
    exact ⟨h3, fun _ => ⟨h4.1, Ok.cons trivial h4.2⟩⟩
  | total h1 h2 => exact ⟨(value_ok _ _ _ h2 (word_ok h1 hi).1).1, fun h => absurd h (by simp [NotTotal])⟩
  | perUnitCurrency h1 h2 h3 =>
    obtain ⟨h4, h5⟩ := value_ok _ _ _ h2 (word_ok h1 hi).1
    obtain ⟨h6, h7⟩ := currency_ok _ _ _ h3 h4
    exact ⟨h6, fun _ => ⟨⟨h5.1, h7.1⟩, Ok.append (Ok.cons trivial h5.2) (Ok.one h7.2)⟩⟩
  | totalCurrency h1 h2 h3 =>
    obtain ⟨h4, h5⟩ := value_ok _ _ _ h2 (word_ok h1 hi).1
    exact ⟨(currency_ok _ _ _ h3 h4).1, fun h => absurd h (by simp [NotTotal])⟩
  | currency _ h1 h2 =>
    obtain ⟨h6, h7⟩ := currency_ok _ _ _ h2 (word_ok h1 hi).1
    exact ⟨h6, fun _ => ⟨h7.1, Ok.cons trivial (Ok.one h7.2)⟩⟩
  | unspecified _ h1 => exact ⟨(word_ok h1 hi).1, fun _ => ⟨trivial, Ok.one trivial⟩⟩

/-! ### Values -/

def GoodMetaValue (v : MetaValue) : Prop := WfMetaValue v ∧ Ok (metaValueTokens v)

theorem metaValue_ok (cfg : ParseCfg) (o : ParserOptions) : Sound (MetaValueP cfg o) GoodMetaValue := fun _ _ _ h hi => by
  cases h with
  | amount h => exact amount_ok cfg _ _ _ h hi
  | simple h =>
    cases h with
    | string h => exact ⟨(word_ok h hi).1, trivial, Ok.one trivial⟩
    | currency h =>
      obtain ⟨h1, h2⟩ := currency_ok _ _ _ h hi
      exact ⟨h1, h2.1, Ok.one h2.2⟩
    | account h =>
      obtain ⟨h1, h2⟩ := account_ok _ _ _ h hi
      exact ⟨h1, h2.1, Ok.one h2.2⟩
    | tag h =>
      obtain ⟨h1, h2⟩ := tag_ok _ _ _ h hi
      exact ⟨h1, h2.1, Ok.one h2.2⟩
    | link h =>
      obtain ⟨h1, h2⟩ := link_ok _ _ _ h hi
      exact ⟨h1, h2.1, Ok.one h2.2⟩
    | date h =>
      obtain ⟨h1, h2⟩ := date_ok _ _ _ h hi
      exact ⟨h1, trivial, Ok.one h2⟩
    | bool h =>
      rcases h with ⟨rfl, h⟩ | ⟨rfl, h⟩
      · exact ⟨(word_ok h hi).1, trivial, Ok.one trivial⟩
      · exact ⟨(word_ok h hi).1, trivial, Ok.one trivial⟩
    | null h => exact ⟨(word_ok h hi).1, trivial, Ok.one trivial⟩
    | expr h _ => exact value_ok _ _ _ h hi

/-! ### Metadata -/

open Grammar (Metadatum)

def GoodKeyValue (k : Str) (v : MetaValue) : Prop := (ValidKey k ∧ LexOk (.key k)) ∧ GoodMetaValue v

def GoodLine : Metadatum → Prop
  | .tag t | .link t => GoodTag t.item
  | .keyValue kv => GoodKeyValue kv.item.key.item kv.item.value.item

theorem keyValue_ok (cfg : ParseCfg) (o : ParserOptions) : Sound (KeyValueP cfg o) (fun kv => GoodKeyValue kv.key.item kv.value.item) :=
  fun _ _ _ h hi => by
  cases h with
  | value h1 h2 h3 =>
    obtain ⟨h4, h5⟩ := keyP_ok.at _ _ _ h1 hi
    obtain ⟨h6, h7⟩ := (metaValue_ok cfg o).at _ _ _ h3 (word_ok h2 h4).1
    exact ⟨h6, h5, h7⟩
  | null h1 h2 _ =>
    obtain ⟨h4, h5⟩ := keyP_ok.at _ _ _ h1 hi
    exact ⟨(word_ok h2 h4).1, h5, trivial, Ok.one (t := .null) trivial⟩

theorem line_ok (cfg : ParseCfg) (o : ParserOptions) : Sound (LineP cfg o) GoodLine := fun _ _ _ h hi => by
  cases h with
  | keyValue h1 h2 h3 =>
    obtain ⟨h4, h5⟩ := (keyValue_ok cfg o).at _ _ _ h2 (word_ok h1 hi).1
    exact ⟨eol_ok h3 h4, h5⟩
  | tag h1 h2 h3 =>
    obtain ⟨h4, h5⟩ := tag_ok.at _ _ _ h2 (word_ok h1 hi).1
    exact ⟨eol_ok h3 h4, h5⟩
  | link h1 h2 h3 =>
    obtain ⟨h4, h5⟩ := link_ok.at _ _ _ h2 (word_ok h1 hi).1
    exact ⟨eol_ok h3 h4, h5⟩

def GoodHead : TagOrLink → Prop
  | .inl t | .inr t => GoodTag t.item

theorem head_ok (cfg : ParseCfg) : Sound (TagOrLinkP cfg) GoodHead := fun _ _ _ h hi => by
  cases h with
  | tag h => exact tag_ok.at _ _ _ h hi
  | link h => exact link_ok.at _ _ _ h hi

structure GoodMetadata (m : Metadata) : Prop where
  keys : (m.keyValues.map (·.1.item)).Nodup
  tags : (m.tags.map (·.item)).Nodup
  links : (m.links.map (·.item)).Nodup
  tag : ∀ t ∈ m.tags, GoodTag t.item
  link : ∀ t ∈ m.links, GoodTag t.item
  keyValue : ∀ kv ∈ m.keyValues, GoodKeyValue kv.1.item kv.2.item

theorem GoodMetadata.wf {m : Metadata} (h : GoodMetadata m) : WfMetadata m where
  keys := h.keys
  tags := h.tags
  links := h.links
  tag t ht := (h.tag t ht).1
  link t ht := (h.link t ht).1
  keyValue kv hkv := ⟨(h.keyValue kv hkv).1.1, (h.keyValue kv hkv).2.1⟩

theorem GoodMetadata.keyLines {m : Metadata} (h : GoodMetadata m) : ∀ l ∈ Lima.keyLines m, Ok l := by
  intro l hl
  obtain ⟨kv, hkv, rfl⟩ := List.mem_map.mp hl
  exact Ok.cons (h.keyValue kv hkv).1.2 (Ok.cons trivial (h.keyValue kv hkv).2.2)

theorem GoodMetadata.tagLines {m : Metadata} (h : GoodMetadata m) : ∀ l ∈ Lima.tagLines m, Ok l := by
  intro l hl
  rcases List.mem_append.mp hl with hl | hl
  · obtain ⟨t, ht, rfl⟩ := List.mem_map.mp hl
    exact Ok.one (h.tag t ht).2
  · obtain ⟨t, ht, rfl⟩ := List.mem_map.mp hl
    exact Ok.one (t := .link t.item) (h.link t ht).2

theorem ok_block {ls : List (List Token)} (h : ∀ l ∈ ls, Ok l) : Ok (block ls) :=
  Ok.flatMap fun l hl => Ok.cons trivial (Ok.cons trivial (h l hl))

theorem GoodMetadata.inlineTokens {m : Metadata} (h : GoodMetadata m) : Ok (Lima.inlineTokens m) :=
  (Ok.map fun t ht => (h.tag t ht).2).append (Ok.map (f := fun t : Spanned Str => .link t.item) fun t ht => (h.link t ht).2)

theorem GoodMetadata.keyBlock {m : Metadata} (h : GoodMetadata m) : Ok (block (Lima.keyLines m)) := ok_block h.keyLines

theorem GoodMetadata.lineBlock {m : Metadata} (h : GoodMetadata m) : Ok (block (Lima.tagLines m ++ Lima.keyLines m)) :=
  ok_block fun l hl => (List.mem_append.mp hl).elim (h.tagLines l) (h.keyLines l)

theorem firsts_sublist {α κ : Type} [DecidableEq κ] (name : α → κ) : ∀ (xs : List α) (seen : List κ), (firsts name seen xs).Sublist xs
  | [], _ => .slnil
  | x :: xs, seen => by
    unfold firsts
    split
    · exact (firsts_sublist name xs seen).cons _
    · exact (firsts_sublist name xs _).cons_cons _

theorem lines_nodup (l : List Metadatum) (h : (l.map lineName).Nodup) :
    ((lineKeyValues l).map (·.1.item)).Nodup ∧ ((lineTags l).map (·.item)).Nodup ∧ ((lineLinks l).map (·.item)).Nodup := by
  have key : ∀ {β : Type} (g : Metadatum → Option β) (n : β → Str) (kind : DupKind), (∀ x b, g x = some b → lineName x = (kind, n b)) →
      ((l.filterMap g).map n).Nodup := by
    intro β g n kind hg
    induction l with
    | nil => simp
    | cons x xs ih =>
      rw [List.map_cons, List.nodup_cons] at h
      cases hx : g x with
      | none => rw [List.filterMap_cons_none hx]; exact ih h.2
      | some b =>
        rw [List.filterMap_cons_some hx, List.map_cons, List.nodup_cons]
        refine ⟨?_, ih h.2⟩
        intro hb
        obtain ⟨b', hb', e⟩ := List.mem_map.mp hb
        obtain ⟨y, hy, hy'⟩ := List.mem_filterMap.mp hb'
        refine h.1 (List.mem_map.mpr ⟨y, hy, ?_⟩)
        rw [hg y b' hy', hg x b hx, e]
  refine ⟨key _ (fun b : Spanned Str × Spanned MetaValue => b.1.item) .key ?_, key _ (fun b : Spanned Str => b.item) .tag ?_,
    key _ (fun b : Spanned Str => b.item) .link ?_⟩
  · intro x b hb
    cases x <;> simp at hb
    subst hb; rfl
  · intro x b hb
    cases x <;> simp at hb
    subst hb; rfl
  · intro x b hb
    cases x <;> simp at hb
    subst hb; rfl

theorem goodMetadata_lines {lines : List Metadatum} (h : ∀ x ∈ lines, GoodLine x) : GoodMetadata (lineMetadata lines) := by
  have hs : ∀ x ∈ firsts lineName [] lines, GoodLine x := fun x hx => h x ((firsts_sublist lineName lines []).subset hx)
  obtain ⟨n1, n2, n3⟩ := lines_nodup _ (Grammar.firsts_notin lineName lines []).2
  refine ⟨n1, n2, n3, ?_, ?_, ?_⟩
  · intro t ht
    obtain ⟨x, hx, e⟩ := List.mem_filterMap.mp ht
    cases x <;> simp at e
    subst e; exact hs _ hx
  · intro t ht
    obtain ⟨x, hx, e⟩ := List.mem_filterMap.mp ht
    cases x <;> simp at e
    subst e; exact hs _ hx
  · intro t ht
    obtain ⟨x, hx, e⟩ := List.mem_filterMap.mp ht
    cases x <;> simp at e
    subst e; exact hs _ hx

theorem union_nodup {own extra : List (Spanned Str)} (h1 : (own.map (·.item)).Nodup) (h2 : (extra.map (·.item)).Nodup) :
    ((union own extra).map (·.item)).Nodup := by
  unfold union
  rw [List.map_append]
  refine List.nodup_append.mpr ⟨h1, (List.Sublist.map _ List.filter_sublist).nodup h2, ?_⟩
  intro a ha b hb e
  subst e
  obtain ⟨x, hx, rfl⟩ := List.mem_map.mp ha
  obtain ⟨y, hy, e⟩ := List.mem_map.mp hb
  have := (List.mem_filter.mp hy).2
  simp only [decide_eq_true_eq] at this
  exact this x hx e.symm

theorem union_all {own extra : List (Spanned Str)} {P : Str → Prop} (h1 : ∀ t ∈ own, P t.item) (h2 : ∀ t ∈ extra, P t.item) :
    ∀ t ∈ union own extra, P t.item := by
  intro t ht
  rcases List.mem_append.mp ht with ht | ht
  · exact h1 t ht
  · exact h2 t (List.mem_filter.mp ht).1

theorem goodMetadata_of {lines : List Metadatum} {head : List TagOrLink} (h : ∀ x ∈ lines, GoodLine x) (hh : ∀ x ∈ head, GoodHead x) :
    GoodMetadata (metadataOf lines head) := by
  have hm := goodMetadata_lines h
  have hs : ∀ x ∈ firsts TagOrLink.name [] head, GoodHead x := fun x hx => hh x ((firsts_sublist _ head []).subset hx)
  obtain ⟨n1, n2⟩ := Grammar.headTags_nodup _ (Grammar.firsts_notin TagOrLink.name head []).2
  refine ⟨hm.keys, union_nodup hm.tags n1, union_nodup hm.links n2, union_all hm.tag ?_, union_all hm.link ?_, hm.keyValue⟩
  · intro t ht
    obtain ⟨x, hx, e⟩ := List.mem_filterMap.mp ht
    cases x <;> simp at e
    subst e; exact hs _ hx
  · intro t ht
    obtain ⟨x, hx, e⟩ := List.mem_filterMap.mp ht
    cases x <;> simp at e
    subst e; exact hs _ hx

/-! ### Postings -/

structure GoodPosting (p : Posting) : Prop where
  flag : ∀ f, p.flag = some f → LexOk (flagToken f.item)
  account : GoodAccount p.account.item
  amount : ∀ e, p.amount = some e → GoodValue e.item
  currency : ∀ c, p.currency = some c → GoodCurrency c.item
  cost : ∀ c, p.costSpec = some c → GoodCost c.item
  price : ∀ x, p.priceAnnotation = some x → GoodPrice x.item
  metadata : GoodMetadata p.metadata.item

theorem GoodPosting.wf {p : Posting} (h : GoodPosting p) (ht : ∀ x, p.priceAnnotation = some x → NotTotal x.item) : WfPosting p where
  account := h.account.1
  amount e he := (h.amount e he).1
  currency c hc := (h.currency c hc).1
  cost c hc := (h.cost c hc).1
  price x hx := (h.price x hx (ht x hx)).1
  metadata := h.metadata.wf

theorem GoodPosting.ok {p : Posting} (h : GoodPosting p) (ht : ∀ x, p.priceAnnotation = some x → NotTotal x.item) : Ok (postingTokens p) := by
  unfold postingTokens postingLineTokens
  simp only [ok_append, ok_cons]
  refine ⟨⟨?_, h.account.2, ⟨⟨?_, ?_⟩, ?_⟩, ?_⟩, h.metadata.lineBlock⟩
  · exact Ok.map fun f hf => h.flag f (by simpa using hf)
  · exact Ok.flatMap fun f hf => (h.amount f (by simpa using hf)).2
  · exact Ok.map fun f hf => (h.currency f (by simpa using hf)).2
  · exact Ok.flatMap fun f hf => (h.cost f (by simpa using hf)).2
  · exact Ok.flatMap fun f hf => (h.price f (by simpa using hf) (ht f (by simpa using hf))).2

theorem posting_ok (cfg : ParseCfg) (o : ParserOptions) : Sound (PostingP cfg o) (fun p => GoodPosting p.1.item) := fun _ _ _ h hi => by
  cases h with
  | mk h1 h2 h3 h4 _ =>
    obtain ⟨h2, _⟩ := h2
    have hi := (word_ok h1 hi).1
    generalize hp : (Spanned.item _ : Grammar.PostingLine) = pl at h2 ⊢
    cases h2 with
    | mk a1 a2 a3 a4 a5 a6 =>
      obtain ⟨hi, b1⟩ := flagP_ok.at.maybe _ _ _ a1 hi
      obtain ⟨hi, b2⟩ := account_ok.at _ _ _ a2 hi
      obtain ⟨hi, b3⟩ := value_ok.at.maybe _ _ _ a3 hi
      obtain ⟨hi, b4⟩ := currency_ok.at.maybe _ _ _ a4 hi
      obtain ⟨hi, b5⟩ := (costSpec_ok cfg).at.maybe _ _ _ a5 hi
      obtain ⟨hi, b6⟩ := price_ok.at.maybe _ _ _ a6 hi
      obtain ⟨hi, b7⟩ := (line_ok cfg o).many _ _ _ h4 (eol_ok h3 hi)
      exact ⟨hi, b1, b2, b3, b4, b5, b6, goodMetadata_lines b7⟩

/-! ### Directives -/

def GoodVariant : DirectiveVariant → Prop
  | .transaction t =>
    LexOk (flagToken t.flag.item) ∧ (∀ s, t.payee = some s → s.item ≠ []) ∧ (∀ s, t.narration = some s → s.item ≠ []) ∧
      ∀ p ∈ t.postings, GoodPosting p.item
  | .price c a => GoodCurrency c.item ∧ GoodAmount a.item
  | .balance a t => GoodAccount a.item ∧ GoodAmount t.item.amount.item
  | .open a cs _ => GoodAccount a.item ∧ (∀ c ∈ cs, GoodCurrency c.item) ∧ (cs.map (·.item)).Nodup
  | .close a | .document a _ | .note a _ => GoodAccount a.item
  | .commodity c => GoodCurrency c.item
  | .pad a b => GoodAccount a.item ∧ GoodAccount b.item
  | .event _ _ | .query _ _ => True
  | .custom _ vs => (∀ v ∈ vs, GoodMetaValue v.item) ∧ Separate vs

/-- The directive is well-formed and its parts could be read from a text. -/
def GoodDirective (d : Directive) : Prop := LexOk (.date d.date.item) ∧ GoodMetadata d.metadata.item ∧ GoodVariant d.variant

theorem GoodDirective.wf {d : Directive} (h : GoodDirective d) (ht : NoTotals d) : WfDirective d := by
  obtain ⟨_, h1, h2⟩ := h
  refine ⟨h1.wf, ?_⟩
  obtain ⟨date, m, v⟩ := d
  cases v with
  | transaction t => exact ⟨h2.2.1, h2.2.2.1, fun p hp => (h2.2.2.2 p hp).wf (ht.1 t rfl p hp)⟩
  | price c a => exact ⟨h2.1.1, h2.2.1⟩
  | balance a t => exact ⟨h2.1.1, h2.2.1, ht.2 a t rfl⟩
  | «open» a cs b => exact ⟨h2.1.1, fun c hc => (h2.2.1 c hc).1, h2.2.2⟩
  | close a => exact h2.1
  | commodity c => exact h2.1
  | pad a b => exact ⟨h2.1.1, h2.2.1⟩
  | document a s => exact h2.1
  | note a s => exact h2.1
  | event s t => exact h2
  | query s t => exact h2
  | custom s vs => exact ⟨fun v hv => (h2.1 v hv).1, h2.2⟩

theorem GoodDirective.ok {d : Directive} (h : GoodDirective d) (ht : NoTotals d) : Ok (directiveTokens d) := by
  obtain ⟨h0, h1, h2⟩ := h
  obtain ⟨date, m, v⟩ := d
  have tail : ∀ ts, Ok ts → Ok (.date date.item :: ts ++ inlineTokens m.item ++ block (keyLines m.item)) := by
    intro ts h
    exact ((Ok.cons h0 h).append h1.inlineTokens).append h1.keyBlock
  cases v with
  | transaction t =>
    simp only [directiveTokens, stringTokens, ok_append, ok_cons]
    refine ⟨⟨⟨h0, h2.1, ⟨⟨Ok.map fun _ _ => trivial, Ok.map fun _ _ => trivial⟩, ?_⟩, h1.inlineTokens⟩, h1.keyBlock⟩, ?_⟩
    · split
      · exact Ok.one trivial
      · exact Ok.nil
    · exact Ok.flatMap fun p hp => Ok.cons trivial (Ok.cons trivial ((h2.2.2.2 p hp).ok (ht.1 t rfl p hp)))
  | price c a => exact tail (bodyTokens (.price c a)) (Ok.cons trivial (Ok.cons h2.1.2 h2.2.2))
  | balance a t => exact tail (bodyTokens (.balance a t)) (Ok.cons trivial (Ok.cons h2.1.2 h2.2.2))
  | «open» a cs b =>
    refine tail (bodyTokens (.open a cs b)) (Ok.cons trivial (Ok.cons h2.1.2 (Ok.append ?_ (Ok.map fun _ _ => trivial))))
    cases cs with
    | nil => exact Ok.nil
    | cons c cs =>
      exact (Ok.one (h2.2.1 c (by simp)).2).append (Ok.flatMap fun c hc => Ok.cons trivial (Ok.one (h2.2.1 c (by simp [hc])).2))
  | close a => exact tail (bodyTokens (.close a)) (Ok.cons trivial (Ok.one h2.2))
  | commodity c => exact tail (bodyTokens (.commodity c)) (Ok.cons trivial (Ok.one h2.2))
  | pad a b => exact tail (bodyTokens (.pad a b)) (Ok.cons trivial (Ok.cons h2.1.2 (Ok.one h2.2.2)))
  | document a s => exact tail (bodyTokens (.document a s)) (Ok.cons trivial (Ok.cons h2.2 (Ok.one trivial)))
  | note a s => exact tail (bodyTokens (.note a s)) (Ok.cons trivial (Ok.cons h2.2 (Ok.one trivial)))
  | event s t => exact tail (bodyTokens (.event s t)) (Ok.cons trivial (Ok.cons trivial (Ok.one trivial)))
  | query s t => exact tail (bodyTokens (.query s t)) (Ok.cons trivial (Ok.cons trivial (Ok.one trivial)))
  | custom s vs =>
    simp only [directiveTokens, ok_append, ok_cons]
    exact ⟨⟨h0, trivial, trivial, Ok.flatMap fun v hv => (h2.1 v hv).2⟩, h1.lineBlock⟩

/-! ### Values next to each other -/

theorem factor_head {i r : List Ranged} {e : Expr} (h : Factor i r e) : ∀ t ∈ (exprTokens e).head?, NotOp t ∧ ∀ c, t ≠ .currency c := by
  intro t ht
  cases h with
  | number _ =>
    simp only [exprTokens, List.head?_cons, Option.mem_def, Option.some.injEq] at ht
    subst ht
    simp [NotOp]
  | parens _ _ _ =>
    simp only [exprTokens, List.cons_append, List.nil_append, List.head?_cons, Option.mem_def, Option.some.injEq] at ht
    subst ht
    simp [NotOp]

theorem signed_head {i r : List Ranged} {e : Expr} (h : Signed i r e) (hi : ¬ Continues i) :
    ∀ t ∈ (exprTokens e).head?, NotOp t ∧ ∀ c, t ≠ .currency c := by
  cases h with
  | unsigned h => exact factor_head h
  | plus h1 h2 => exact factor_head h2
  | minus h1 h2 => exact absurd ⟨_, _, _, _, .inr (.inl rfl), h1, .unsigned h2⟩ hi

theorem head_append {a b : List Token} (h : a ≠ []) : (a ++ b).head? = a.head? := by
  cases a with
  | nil => exact absurd rfl h
  | cons x a => rfl

theorem product_head : ∀ {i r : List Ranged} {e : Expr}, Product i r e → ¬ Continues i →
    ∀ t ∈ (exprTokens e).head?, NotOp t ∧ ∀ c, t ≠ .currency c
  | _, _, _, .single h, hi => signed_head h hi
  | _, _, _, .times h1 _ _, hi => by
    simp only [exprTokens, List.append_assoc]
    rw [head_append (exprTokens_ne_nil _)]
    exact product_head h1 hi
  | _, _, _, .over h1 _ _, hi => by
    simp only [exprTokens, List.append_assoc]
    rw [head_append (exprTokens_ne_nil _)]
    exact product_head h1 hi

theorem sum_head : ∀ {i r : List Ranged} {e : Expr}, SumExpr i r e → ¬ Continues i →
    ∀ t ∈ (exprTokens e).head?, NotOp t ∧ ∀ c, t ≠ .currency c
  | _, _, _, .single h, hi => product_head h hi
  | _, _, _, .plus h1 _ _, hi => by
    simp only [exprTokens, List.append_assoc]
    rw [head_append (exprTokens_ne_nil _)]
    exact sum_head h1 hi
  | _, _, _, .minus h1 _ _, hi => by
    simp only [exprTokens, List.append_assoc]
    rw [head_append (exprTokens_ne_nil _)]
    exact sum_head h1 hi

theorem metaValue_head {cfg : ParseCfg} {o : ParserOptions} {i r : List Ranged} {v : MetaValue} (h : MetaValueP cfg o i r v)
    (hc : ¬ Continues i) (hx : ∀ k c, ¬ CurrencyP i k c) : ∀ t ∈ (metaValueTokens v).head?, NotOp t ∧ ∀ c, t ≠ .currency c := by
  intro t ht
  cases h with
  | amount h =>
    cases h with
    | mk h1 h2 =>
      simp only [metaValueTokens, amountTokens] at ht
      rw [head_append (exprTokens_ne_nil _)] at ht
      exact sum_head h1.1.1.1 hc t ht
  | simple h =>
    cases h with
    | expr h _ => exact sum_head h.1.1 hc t ht
    | currency h => exact absurd h (hx _ _)
    | bool h =>
      rename_i b
      cases b <;> simp [metaValueTokens, simpleTokens] at ht <;> subst ht <;> simp [NotOp]
    | string h => simp [metaValueTokens, simpleTokens] at ht; subst ht; simp [NotOp]
    | account h => simp [metaValueTokens, simpleTokens] at ht; subst ht; simp [NotOp]
    | tag h => simp [metaValueTokens, simpleTokens] at ht; subst ht; simp [NotOp]
    | link h => simp [metaValueTokens, simpleTokens] at ht; subst ht; simp [NotOp]
    | date h => simp [metaValueTokens, simpleTokens] at ht; subst ht; simp [NotOp]
    | null h => simp [metaValueTokens, simpleTokens] at ht; subst ht; simp [NotOp]

theorem separate_of {cfg : ParseCfg} {o : ParserOptions} {i r : List Ranged} {vs : List (Spanned MetaValue)}
    (h : Many (At cfg (MetaValueP cfg o)) i r vs) : Separate vs := by
  induction h with
  | nil => trivial
  | cons h1 h2 ih =>
    cases h2 with
    | nil => trivial
    | cons h3 h4 =>
      refine ⟨?_, ih⟩
      rintro ⟨e, he⟩
      have h1 := h1.1
      rw [he] at h1
      cases h1 with
      | simple h =>
        cases h with
        | expr h5 h6 => exact metaValue_head h3.1 h5.1.2 h6

/-! ### Directives as they are parsed -/

theorem strings_ok {cfg : ParseCfg} {i r : List Ranged} {x : Option (Spanned Str) × Option (Spanned Str)}
    (h : PayeeNarrationP cfg i r x) (hi : AllOk i) :
    AllOk r ∧ (∀ s, x.1 = some s → s.item ≠ []) ∧ (∀ s, x.2 = some s → s.item ≠ []) := by
  have ne : ∀ {a s : Spanned Str}, nonEmpty a = some s → s.item ≠ [] := by
    intro a s h
    unfold nonEmpty at h
    split at h
    · cases h
    · cases h; assumption
  cases h with
  | neither => exact ⟨hi, by simp, by simp⟩
  | narration h => exact ⟨(string_ok.at _ _ _ h hi).1, by simp, fun s hs => ne hs⟩
  | both h1 h2 => exact ⟨(string_ok.at _ _ _ h2 (string_ok.at _ _ _ h1 hi).1).1, fun s hs => ne hs, fun s hs => ne hs⟩

theorem currencies_ok (cfg : ParseCfg) : Sound (CurrenciesP cfg) (fun cs => ∀ c ∈ cs, GoodCurrency c.item) := fun _ _ _ h hi => by
  cases h with
  | none => exact ⟨hi, by simp⟩
  | some h1 h2 =>
    obtain ⟨hi, b1⟩ := currency_ok.at _ _ _ h1 hi
    have comma : Sound (CommaCurrencyP cfg) (fun c => GoodCurrency c.item) := fun _ _ _ h hi => by
      obtain ⟨j, h1, h2⟩ := h
      exact currency_ok.at _ _ _ h2 (word_ok h1 hi).1
    obtain ⟨hi, b2⟩ := comma.many _ _ _ h2 hi
    refine ⟨hi, fun c hc => ?_⟩
    rcases List.mem_append.mp hc with hc | hc
    · exact b2 c hc
    · rw [List.mem_singleton.mp hc]; exact b1

theorem booking_ok : Sound BookingP (fun _ => True) := fun _ _ _ h hi => by
  obtain ⟨s, h, _⟩ := h
  exact ⟨(word_ok h hi).1, trivial⟩

theorem body_ok {cfg : ParseCfg} {o : ParserOptions} {t : Token} {i r : List Ranged} {v : DirectiveVariant} {es : List PErr}
    (h : BodyP cfg o t i r v es) (hi : AllOk i) : AllOk r ∧ GoodVariant v := by
  cases h with
  | price h1 h2 =>
    obtain ⟨hi, b1⟩ := currency_ok.at _ _ _ h1 hi
    obtain ⟨hi, b2⟩ := (amount_ok cfg).at _ _ _ h2 hi
    exact ⟨hi, b1, b2⟩
  | balance h1 h2 =>
    obtain ⟨hi, b1⟩ := account_ok.at _ _ _ h1 hi
    obtain ⟨hi, b2⟩ := (tolerant_ok cfg).at _ _ _ h2 hi
    exact ⟨hi, b1, b2⟩
  | «open» h1 h2 h3 =>
    obtain ⟨hi, b1⟩ := account_ok.at _ _ _ h1 hi
    obtain ⟨hi, b2⟩ := currencies_ok cfg _ _ _ h2 hi
    obtain ⟨hi, _⟩ := booking_ok.at.maybe _ _ _ h3 hi
    exact ⟨hi, b1, fun c hc => b2 c ((firsts_sublist _ _ _).subset hc), (Grammar.firsts_notin _ _ _).2⟩
  | close h => exact account_ok.at _ _ _ h hi
  | commodity h => exact currency_ok.at _ _ _ h hi
  | pad h1 h2 =>
    obtain ⟨hi, b1⟩ := account_ok.at _ _ _ h1 hi
    obtain ⟨hi, b2⟩ := account_ok.at _ _ _ h2 hi
    exact ⟨hi, b1, b2⟩
  | document h1 h2 =>
    obtain ⟨hi, b1⟩ := account_ok.at _ _ _ h1 hi
    exact ⟨(string_ok.at _ _ _ h2 hi).1, b1⟩
  | note h1 h2 =>
    obtain ⟨hi, b1⟩ := account_ok.at _ _ _ h1 hi
    exact ⟨(string_ok.at _ _ _ h2 hi).1, b1⟩
  | event h1 h2 => exact ⟨(string_ok.at _ _ _ h2 (string_ok.at _ _ _ h1 hi).1).1, trivial⟩
  | query h1 h2 => exact ⟨(string_ok.at _ _ _ h2 (string_ok.at _ _ _ h1 hi).1).1, trivial⟩

theorem directive_ok {cfg : ParseCfg} {o : ParserOptions} {i r : List Ranged} {d : Directive} {es : List PErr}
    (h : DirectiveP cfg o i r d es) (hi : AllOk i) : AllOk r ∧ GoodDirective d := by
  cases h with
  | transaction h1 h2 h3 h4 h5 h6 _ h7 =>
    obtain ⟨hi, b1⟩ := date_ok.at _ _ _ h1 hi
    obtain ⟨hi, b2⟩ := txn_ok.at _ _ _ h2 hi
    obtain ⟨hi, b3, b4⟩ := strings_ok h3 hi
    obtain ⟨hi, b5⟩ := (head_ok cfg).many _ _ _ h4 hi
    obtain ⟨hi, b6⟩ := (line_ok cfg o).many _ _ _ h6 (eol_ok h5 hi)
    obtain ⟨hi, b7⟩ := (posting_ok cfg o).many _ _ _ h7 hi
    refine ⟨hi, b1, goodMetadata_of b6 b5, b2, b3, b4, ?_⟩
    intro p hp
    obtain ⟨q, hq, rfl⟩ := List.mem_map.mp hp
    exact b7 q hq
  | other h1 h2 h3 h4 h5 h6 _ =>
    obtain ⟨hi, b1⟩ := date_ok.at _ _ _ h1 hi
    obtain ⟨hi, b3⟩ := body_ok h3 (word_ok h2 hi).1
    obtain ⟨hi, b5⟩ := (head_ok cfg).many _ _ _ h4 hi
    obtain ⟨hi, b6⟩ := (line_ok cfg o).many _ _ _ h6 (eol_ok h5 hi)
    exact ⟨hi, b1, goodMetadata_of b6 b5, b3⟩
  | custom h1 h2 h3 h4 h5 h6 _ =>
    obtain ⟨hi, b1⟩ := date_ok.at _ _ _ h1 hi
    obtain ⟨hi, _⟩ := string_ok.at _ _ _ h3 (word_ok h2 hi).1
    obtain ⟨hi, b4⟩ := (metaValue_ok cfg o).at.many _ _ _ h4 hi
    obtain ⟨hi, b6⟩ := (line_ok cfg o).many _ _ _ h6 (eol_ok h5 hi)
    exact ⟨hi, b1, goodMetadata_lines b6, b4, separate_of h4⟩

end

end Lima
