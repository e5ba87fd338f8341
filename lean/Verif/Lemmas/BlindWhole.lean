import Verif.Lemmas.BlindParse
import Verif.Lemmas.FileSound
import Mathlib.Data.List.Forall2

/-! A whole parse does not look at locations. -/

set_option linter.unusedSectionVars false

namespace Lima
open Spec

/-! ### Moving twice -/

/-- Moving twice is moving once. -/
class Places.Lawful (α : Type) [Places α] : Prop where
  twice : ∀ (f g : Span → Span) (x : α), move g (move f x) = move (fun s => g (f s)) x

open Places (Lawful)
open Places.Lawful (twice)

instance : Lawful Span := ⟨fun _ _ _ => rfl⟩
instance (priority := high) : Lawful (List Char) := ⟨fun _ _ _ => rfl⟩
instance : Lawful Unit := ⟨fun _ _ _ => rfl⟩
instance : Lawful Bool := ⟨fun _ _ _ => rfl⟩
instance : Lawful Nat := ⟨fun _ _ _ => rfl⟩
instance : Lawful Date := ⟨fun _ _ _ => rfl⟩
instance : Lawful Dec := ⟨fun _ _ _ => rfl⟩
instance : Lawful Flag := ⟨fun _ _ _ => rfl⟩
instance : Lawful Booking := ⟨fun _ _ _ => rfl⟩
instance : Lawful PluginProcessingMode := ⟨fun _ _ _ => rfl⟩
instance : Lawful AccountType := ⟨fun _ _ _ => rfl⟩
instance : Lawful Account := ⟨fun _ _ _ => rfl⟩
instance : Lawful ExprValue := ⟨fun _ _ _ => rfl⟩
instance : Lawful ScopedExprValue := ⟨fun _ _ _ => rfl⟩
instance : Lawful PriceSpec := ⟨fun _ _ _ => rfl⟩
instance : Lawful SimpleValue := ⟨fun _ _ _ => rfl⟩
instance : Lawful CurrencyOrAny := ⟨fun _ _ _ => rfl⟩
instance : Lawful OptVariant := ⟨fun _ _ _ => rfl⟩
instance : Lawful Path := ⟨fun _ _ _ => rfl⟩

section
variable {α β : Type} [Places α] [Places β] [Lawful α] [Lawful β]

instance : Lawful (Spanned α) := ⟨fun f g x => congrArg (fun i => Spanned.mk i (g (f x.span))) (twice f g x.item)⟩
instance : Lawful (Option α) := ⟨fun f g x => by
  cases x with
  | none => rfl
  | some x => exact congrArg some (twice f g x)⟩
instance : Lawful (List α) := ⟨fun f g x => by
  change (x.map (move f)).map (move g) = x.map _
  rw [List.map_map]
  exact List.map_congr_left fun y _ => twice f g y⟩
instance : Lawful (α × β) := ⟨fun f g x => Prod.ext (twice f g x.1) (twice f g x.2)⟩
instance : Lawful (Res α β) := ⟨fun f g x => by
  cases x with
  | ok a => exact congrArg Res.ok (twice f g a)
  | err e => exact congrArg Res.err (twice f g e)
  | panic => rfl⟩
end

instance : Lawful Amount := ⟨fun f g ⟨a, b⟩ => (Amount.mk.injEq ..).mpr ⟨twice f g a, twice f g b⟩⟩
instance : Lawful AmountWithTolerance := ⟨fun f g ⟨a, b⟩ => (AmountWithTolerance.mk.injEq ..).mpr ⟨twice f g a, twice f g b⟩⟩
instance : Lawful CostSpec := ⟨fun f g ⟨a, b, c, d, e, _⟩ => (CostSpec.mk.injEq ..).mpr
  ⟨twice f g a, twice f g b, twice f g c, twice f g d, twice f g e, rfl⟩⟩
instance : Lawful MetaValue := ⟨fun f g x => by
  cases x with
  | simple v => rfl
  | amount a => exact congrArg MetaValue.amount (twice f g a)⟩
instance : Lawful MetaKeyValue := ⟨fun f g ⟨a, b⟩ => (MetaKeyValue.mk.injEq ..).mpr ⟨twice f g a, twice f g b⟩⟩
instance : Lawful Metadata := ⟨fun f g ⟨a, b, c⟩ => (Metadata.mk.injEq ..).mpr ⟨twice f g a, twice f g b, twice f g c⟩⟩
instance : Lawful Posting := ⟨fun f g ⟨a, b, c, d, e, h, i⟩ => (Posting.mk.injEq ..).mpr
  ⟨twice f g a, twice f g b, twice f g c, twice f g d, twice f g e, twice f g h, twice f g i⟩⟩
instance : Lawful Transaction := ⟨fun f g ⟨a, b, c, d⟩ => (Transaction.mk.injEq ..).mpr
  ⟨twice f g a, twice f g b, twice f g c, twice f g d⟩⟩
instance : Lawful DirectiveVariant := ⟨fun f g x => by
  cases x with
  | transaction t => exact congrArg DirectiveVariant.transaction (twice f g t)
  | price c a => exact congrArg₂ DirectiveVariant.price (twice f g c) (twice f g a)
  | balance a t => exact congrArg₂ DirectiveVariant.balance (twice f g a) (twice f g t)
  | «open» a cs b => exact (DirectiveVariant.open.injEq ..).mpr ⟨twice f g a, twice f g cs, twice f g b⟩
  | close a => exact congrArg DirectiveVariant.close (twice f g a)
  | commodity c => exact congrArg DirectiveVariant.commodity (twice f g c)
  | pad a b => exact congrArg₂ DirectiveVariant.pad (twice f g a) (twice f g b)
  | document a p => exact congrArg₂ DirectiveVariant.document (twice f g a) (twice f g p)
  | note a s => exact congrArg₂ DirectiveVariant.note (twice f g a) (twice f g s)
  | event t d => exact congrArg₂ DirectiveVariant.event (twice f g t) (twice f g d)
  | query n c => exact congrArg₂ DirectiveVariant.query (twice f g n) (twice f g c)
  | custom t vs => exact congrArg₂ DirectiveVariant.custom (twice f g t) (twice f g vs)⟩
instance : Lawful Directive := ⟨fun f g ⟨a, b, c⟩ => (Directive.mk.injEq ..).mpr ⟨twice f g a, twice f g b, twice f g c⟩⟩
instance : Lawful Plugin := ⟨fun f g ⟨a, b⟩ => (Plugin.mk.injEq ..).mpr ⟨twice f g a, twice f g b⟩⟩

instance : Lawful OptSource := ⟨fun _ _ _ => rfl⟩
instance {α : Type} [Places α] [Lawful α] : Lawful (Sourced α) := ⟨fun f g ⟨a, b⟩ =>
  (Sourced.mk.injEq ..).mpr ⟨twice f g a, twice f g b⟩⟩
instance : Lawful BOption := ⟨fun f g ⟨s, v⟩ => by cases v <;> rfl⟩
instance : Lawful ParserOptions := ⟨fun f g ⟨a, b⟩ => (ParserOptions.mk.injEq ..).mpr ⟨rfl, twice f g b⟩⟩
instance : Lawful Options := ⟨fun f g x => (Options.mk.injEq ..).mpr
  ⟨twice f g x.title, twice f g x.accountPreviousBalances, twice f g x.accountPreviousEarnings,
    twice f g x.accountPreviousConversions, twice f g x.accountCurrentEarnings, twice f g x.accountCurrentConversions,
    twice f g x.accountUnrealizedGains, twice f g x.accountRounding, twice f g x.conversionCurrency,
    twice f g x.inferredToleranceDefault, twice f g x.inferredToleranceMultiplier, twice f g x.inferToleranceFromCost,
    twice f g x.documents, twice f g x.operatingCurrency, twice f g x.renderCommas, twice f g x.bookingMethod,
    twice f g x.pluginProcessingMode, twice f g x.parserOptions⟩⟩

instance : Lawful Pragma := ⟨fun f g x => by
  cases x with
  | pushtag t => exact congrArg Pragma.pushtag (twice f g t)
  | poptag t => exact congrArg Pragma.poptag (twice f g t)
  | pushmeta t => exact congrArg Pragma.pushmeta (twice f g t)
  | popmeta t => exact congrArg Pragma.popmeta (twice f g t)
  | «include» t => exact congrArg Pragma.include (twice f g t)
  | option t => exact congrArg Pragma.option (twice f g t)
  | plugin t => exact congrArg Pragma.plugin (twice f g t)⟩
instance : Lawful Declaration := ⟨fun f g x => by
  cases x with
  | directive t => exact congrArg Declaration.directive (twice f g t)
  | pragma t => exact congrArg Declaration.pragma (twice f g t)⟩
instance : Lawful Report := ⟨fun f g ⟨_, _, _, c, d⟩ => (Report.mk.injEq ..).mpr ⟨rfl, rfl, rfl, twice f g c, twice f g d⟩⟩
instance : Lawful PErr := ⟨fun f g x => by cases x <;> rfl⟩
instance : Lawful Fault := ⟨fun f g x => by
  cases x with
  | parsing s e => exact congrArg (Fault.parsing s) (twice f g e)
  | pragma t => exact congrArg Fault.pragma (twice f g t)⟩
instance : Lawful Grammar.FileResult := ⟨fun f g ⟨a, b, c, d⟩ => (Grammar.FileResult.mk.injEq ..).mpr
  ⟨twice f g a, twice f g b, twice f g c, twice f g d⟩⟩
instance : Lawful ParseSuccess := ⟨fun f g ⟨a, b, c, d⟩ => (ParseSuccess.mk.injEq ..).mpr
  ⟨twice f g a, twice f g b, twice f g c, twice f g d⟩⟩
instance : Lawful ParseError := ⟨fun f g ⟨a, b⟩ => (ParseError.mk.injEq ..).mpr ⟨twice f g a, twice f g b⟩⟩

theorem same_move {α : Type} [Places α] [Lawful α] (f g : Span → Span) (x : α) : SameButPlaces (move f x) (move g x) := by
  unfold SameButPlaces
  rw [twice, twice]

theorem same_move_left {α : Type} [Places α] [Lawful α] (f : Span → Span) (x : α) : SameButPlaces (move f x) x := by
  unfold SameButPlaces
  rw [twice]

/-! ### Pushed keys -/

section
variable [Unicode] [DecOps] {cfg : ParseCfg}

/-- The key of a `pushmeta` is located at the one token it is. -/
def KeyToken (cfg : ParseCfg) (toks : List Ranged) (d : Spanned Declaration) : Prop :=
  ∀ kv, d.item = .pragma (.pushmeta kv) →
    ∃ t ∈ toks, t.tok = .key kv.key.item ∧ kv.key.span = ⟨cfg.source, t.start, t.stop⟩

theorem declaration_keyToken {o o' : ParserOptions} {i r : List Ranged} {d : Spanned Declaration} {es : List PErr}
    (h : DeclarationP cfg o i r d o' es) : KeyToken cfg i d := by
  rintro kv hd
  have key : ∀ {i j : List Ranged} {k : Spanned Str}, At cfg KeyP i j k →
      ∃ t ∈ i, t.tok = .key k.item ∧ k.span = ⟨cfg.source, t.start, t.stop⟩ := by
    rintro i j k ⟨⟨⟨a, b, e⟩, _⟩, hc⟩
    refine ⟨⟨.key k.item, a, b⟩, by rw [e]; simp, rfl, ?_⟩
    rcases hc with ⟨first, run, last, h1, h2, h3, h4⟩ | ⟨h1, _⟩
    · have : run = [⟨.key k.item, a, b⟩] := by
        rw [e] at h1
        exact (List.append_cancel_right (as := [_]) h1).symm
      subst this
      cases h2
      cases h3
      exact h4
    · rw [e] at h1
      exact absurd (congrArg List.length h1) (by simp)
  cases h with
  | directive h => cases hd
  | pragma h =>
    cases hd
    cases h with
    | pushmeta h1 h2 =>
      obtain ⟨a, b, e⟩ := h1
      cases h2 with
      | value h _ _ =>
        obtain ⟨t, ht, h⟩ := key h
        exact ⟨t, by rw [e]; exact List.mem_cons_of_mem _ ht, h⟩
      | null h _ _ =>
        obtain ⟨t, ht, h⟩ := key h
        exact ⟨t, by rw [e]; exact List.mem_cons_of_mem _ ht, h⟩

theorem KeyToken.mono {i j : List Ranged} {d : Spanned Declaration} (h : KeyToken cfg i d) (hs : i <:+ j) :
    KeyToken cfg j d := fun kv hd => by
  obtain ⟨t, ht, h⟩ := h kv hd
  exact ⟨t, hs.subset ht, h⟩

theorem reps_keyToken {s s' : PSt} {ds : List (Spanned Declaration)}
    (h : P.Reps (P.recover (Grammar.declaration cfg)) s ds s') :
    ∀ d ∈ ds, KeyToken cfg s.toks d := by
  induction h with
  | nil h => intro d hd; cases hd
  | @cons s s1 s2 d ds h _ ih =>
    have hd : KeyToken cfg s.toks d ∧ s1.toks <:+ s.toks := by
      rcases Grammar.recover_ok h with ⟨h1, es, h2, h3⟩ | ⟨o, i, h1, h2, h3, h4, h5⟩
      · exact ⟨declaration_keyToken h3, h1⟩
      · exact ⟨(declaration_keyToken h5).mono h1, h3.trans h1⟩
    intro x hx
    rcases List.mem_cons.mp hx with rfl | hx
    · exact hd.1
    · exact (ih x hx).mono hd.2

theorem parseFile_keyToken {toks : List Ranged} {o : ParserOptions} {ws : List Report} {res : Grammar.FileResult}
    (h : Grammar.parseFile cfg toks o ws = some res) {ds : List (Spanned Declaration)} (hd : res.declarations = some ds) :
    ∀ d ∈ ds, KeyToken cfg toks d := by
  unfold Grammar.parseFile at h
  split at h
  · cases h
  · cases h
    cases hd
  · rename_i ds' s hf
    split at h
    · cases h
      cases hd
      exact reps_keyToken (P.rep_reps hf)
    · cases h
      cases hd

end

/-! ### Whole parses -/

namespace Moved

section
variable [Unicode] [DecOps] (f : Span → Span)

def parsed (a : ParsedFiles) : ParsedFiles := ⟨onValues (move f) a.outputs, move f a.errors, move f a.opts, move f a.warns⟩

/-- The file is the same in both parses, and moved. -/
structure File (env env' : ParseEnv) (t t' : List (List Ranged)) (e e' : Nat × Option Path × Str) : Prop where
  id : e'.1 = e.1
  path : e'.2.1 = e.2.1
  none : t[e.1]? = none → t'[e.1]? = none
  some : ∀ toks, t[e.1]? = some toks → ∃ c : Relaid, c.move = f ∧ c.cfg = env.cfg e.1 e.2.1 ∧ c.cfg' = env'.cfg e.1 e.2.1 ∧
    c.toks = toks ∧ t'[e.1]? = some c.toks'

variable {env env' : ParseEnv} {t t' : List (List Ranged)}

theorem parseOne {e e' : Nat × Option Path × Str} (h : File f env env' t t' e e') (acc : ParsedFiles) :
    Lima.parseOne env' t' (parsed f acc) e' = (Lima.parseOne env t acc e).map (parsed f) := by
  unfold Lima.parseOne
  rw [h.id, h.path]
  cases ht : t[e.1]? with
  | none => rw [h.none ht]; rfl
  | some toks =>
    obtain ⟨c, h1, h2, h3, h4, h5⟩ := h.some toks ht
    rw [h5]
    dsimp only
    rw [← h2, ← h3, ← h4]
    subst h1
    rw [show Grammar.parseFile c.cfg' c.toks' (parsed c.move acc).opts (parsed c.move acc).warns = _ from
      c.parseFile acc.opts acc.warns]
    cases Grammar.parseFile c.cfg c.toks acc.opts acc.warns with
    | none => rfl
    | some res =>
      change some (ParsedFiles.mk _ _ _ _) = some (ParsedFiles.mk _ _ _ _)
      refine congrArg some ((ParsedFiles.mk.injEq ..).mpr ⟨?_, ?_, rfl, rfl⟩)
      · cases hd : res.declarations with
        | none =>
          have : (move c.move res).declarations = none := by
            change res.declarations.map _ = _
            rw [hd]; rfl
          rw [this]
          exact ainsert (move c.move) acc.outputs e.2.1 ([] : List (Spanned Declaration))
        | some ds =>
          have : (move c.move res).declarations = some (move c.move ds) := by
            change res.declarations.map _ = _
            rw [hd]; rfl
          rw [this]
          exact ainsert (move c.move) acc.outputs e.2.1 ds
      · change acc.errors.map (move c.move) ++ (res.errors.map (move c.move)).map _ = List.map (move c.move) (acc.errors ++ _)
        rw [List.map_append, List.map_map, List.map_map]
        rfl

theorem parseAll {es es' : List (Nat × Option Path × Str)} (h : List.Forall₂ (File f env env' t t') es es')
    (acc : ParsedFiles) :
    es'.foldlM (Lima.parseOne env' t') (parsed f acc) = (es.foldlM (Lima.parseOne env t) acc).map (parsed f) := by
  induction h generalizing acc with
  | nil => rfl
  | cons h _ ih =>
    rw [List.foldlM_cons, List.foldlM_cons, parseOne f h]
    cases Lima.parseOne env t acc _ with
    | none => rfl
    | some a => exact ih a

variable {K : Span → Prop} (hK : ∀ a b, K a → K b → f a = f b → a = b) {s s' : Sources}

/-- What is parsed has keys at places which are told apart. -/
theorem parseAll_keyed {es : List (Nat × Option Path × Str)} {acc out : ParsedFiles}
    (hes : ∀ e ∈ es, ∀ toks, t[e.1]? = some toks → ∀ tok ∈ toks, ∀ k, tok.tok = .key k → K ⟨e.1, tok.start, tok.stop⟩)
    (ha : ∀ x ∈ acc.outputs, KeyedDecls K x.2) (h : es.foldlM (Lima.parseOne env t) acc = some out) :
    ∀ x ∈ out.outputs, KeyedDecls K x.2 := by
  induction es generalizing acc with
  | nil => cases h; exact ha
  | cons e es ih =>
    rw [List.foldlM_cons] at h
    cases h1 : Lima.parseOne env t acc e with
    | none => rw [h1] at h; cases h
    | some acc1 =>
      rw [h1] at h
      refine ih (fun e he => hes e (List.mem_cons_of_mem _ he)) ?_ h
      unfold Lima.parseOne at h1
      split at h1
      · cases h1
      · rename_i toks ht
        split at h1
        · cases h1
        · rename_i res hres
          cases h1
          intro x hx
          rcases mem_ainsert hx with hx | hx
          · exact ha x hx
          · rw [hx]
            cases hd : res.declarations with
            | none => intro d hd; cases hd
            | some ds =>
              intro d hdm kv hkv
              obtain ⟨tok, h2, h3, h4⟩ := parseFile_keyToken hres hd d hdm kv hkv
              rw [h4]
              exact hes e (by simp) toks ht tok h2 _ h3

include hK in
theorem parse (hfiles : List.Forall₂ (File f env env' t t') s.contentIter s'.contentIter)
    (hkeys : ∀ e ∈ s.contentIter, ∀ toks, t[e.1]? = some toks → ∀ tok ∈ toks, ∀ k, tok.tok = .key k →
      K ⟨e.1, tok.start, tok.stop⟩)
    (hroot : s'.rootPath = s.rootPath) (hg : s'.globs = s.globs) (he : s'.errorPaths = s.errorPaths)
    (hc : env'.canonicalize = env.canonicalize)
    (hx : ∀ tags metas, env'.context (move f tags) (move f metas) = env.context tags metas) :
    BeancountParser.parse env' ⟨s', t'⟩ = move f (BeancountParser.parse env ⟨s, t⟩) := by
  unfold BeancountParser.parse BeancountParser.parseDeclarations
  have h1 := parseAll f hfiles ⟨[], [], ParserOptions.default, []⟩
  rw [show parsed f ⟨[], [], ParserOptions.default, []⟩ = ⟨[], [], ParserOptions.default, []⟩ from rfl] at h1
  dsimp only
  rw [h1]
  cases hp : s.contentIter.foldlM (Lima.parseOne env t) ⟨[], [], ParserOptions.default, []⟩ with
  | none => rfl
  | some out =>
    have hout := parseAll_keyed (K := K) hkeys (by intro x hx; cases hx) hp
    dsimp only [Option.map_some]
    have h2 := processPragmas f hK (env := env.pragmaEnv s) (env' := env'.pragmaEnv s') he hg hc hx s.rootPath out.outputs
      (Options.new out.opts) hout
    rw [hroot, show Options.new (parsed f out).opts = move f (Options.new out.opts) from rfl,
      show (parsed f out).outputs = onValues (move f) out.outputs from rfl, h2]
    cases Lima.processPragmas (env.pragmaEnv s) s.rootPath out.outputs (Options.new out.opts) with
    | err e => rfl
    | panic => rfl
    | ok r =>
      obtain ⟨ds, d⟩ := r
      have h3 : (parsed f out).errors ++ (data f d).finalErrors.map Fault.pragma =
          move f (out.errors ++ d.finalErrors.map Fault.pragma) := by
        rw [finalErrors f d]
        change out.errors.map (move f) ++ (d.finalErrors.map (move f)).map _ = List.map (move f) (out.errors ++ _)
        rw [List.map_append, List.map_map, List.map_map]
        rfl
      change (if ((parsed f out).errors ++ (data f d).finalErrors.map Fault.pragma).isEmpty
        then (Res.ok (ParseSuccess.mk (Lima.sortDirectives (move f ds)) (move f d.options) (move f d.plugins) (move f out.warns)) :
          Res ParseError ParseSuccess)
        else .err (ParseError.mk ((parsed f out).errors ++ (data f d).finalErrors.map Fault.pragma) (move f out.warns))) =
        move f (if (out.errors ++ d.finalErrors.map Fault.pragma).isEmpty then _ else _)
      rw [h3, sortDirectives f hK ds]
      generalize out.errors ++ d.finalErrors.map Fault.pragma = errors
      rw [show (move f errors).isEmpty = errors.isEmpty from by cases errors <;> rfl]
      split <;> rfl

end

end Moved

/-! ### The plainest layout -/

namespace Layout

/-- The tokens, each one long and one after the other. -/
def plain (toks : List Ranged) : List Ranged := toks.mapIdx (fun i t => ⟨t.tok, i, i + 1⟩)

theorem plain_length (toks : List Ranged) : (plain toks).length = toks.length := List.length_mapIdx

theorem plain_get (toks : List Ranged) (i : Nat) : (plain toks)[i]? = toks[i]?.map (fun t => ⟨t.tok, i, i + 1⟩) :=
  List.getElem?_mapIdx

theorem plain_same (toks : List Ranged) : SameTokens (plain toks) toks := by
  refine List.ext_getElem? fun i => ?_
  rw [List.getElem?_map, List.getElem?_map, plain_get, Option.map_map]
  rfl

theorem plain_congr {a b : List Ranged} (h : SameTokens a b) : plain a = plain b := by
  refine List.ext_getElem? fun i => ?_
  rw [plain_get, plain_get]
  have : a[i]?.map (·.tok) = b[i]?.map (·.tok) := by
    rw [← List.getElem?_map, ← List.getElem?_map, show a.map (·.tok) = b.map (·.tok) from h]
  have key : ∀ {x y : Option Ranged}, x.map (·.tok) = y.map (·.tok) →
      x.map (fun t => (⟨t.tok, i, i + 1⟩ : Ranged)) = y.map (fun t => ⟨t.tok, i, i + 1⟩) := by
    rintro (_ | x) (_ | y) h
    · rfl
    · cases h
    · cases h
    · simp only [Option.map_some, Option.some.injEq] at h ⊢
      rw [h]
  exact key this

/-- What lies between tokens is at the distance from the end, in tokens. -/
def between (source : Nat) (rest : List Ranged) : Span := ⟨source, rest.length + 1, 0⟩

/-- From the plainest layout to the actual one. -/
def place (emptySpan : Nat → List Ranged → Span) (t : List (List Ranged)) (s : Span) : Span :=
  match t[s.source]? with
  | none => s
  | some toks =>
    if s.stop = 0 then emptySpan s.source (toks.drop (toks.length - (s.start - 1)))
    else match toks[s.start]?, toks[s.stop - 1]? with
      | some a, some b => ⟨s.source, a.start, b.stop⟩
      | _, _ => s

theorem spanOf_empty (cfg : ParseCfg) (toks : List Ranged) : cfg.spanOf toks toks = cfg.emptySpan toks := by
  unfold ParseCfg.spanOf
  rw [Nat.sub_self, List.take_zero]

theorem spanOf_run (cfg : ParseCfg) (toks : List Ranged) {i j : Nat} (hij : i < j) (hj : j ≤ toks.length) :
    ∃ a b, toks[i]? = some a ∧ toks[j - 1]? = some b ∧
      cfg.spanOf (toks.drop i) (toks.drop j) = ⟨cfg.source, a.start, b.stop⟩ := by
  have hn : (toks.drop i).length - (toks.drop j).length = j - i := by
    rw [List.length_drop, List.length_drop]; omega
  have hl : ((toks.drop i).take (j - i)).length = j - i := by
    rw [List.length_take, List.length_drop]; omega
  unfold ParseCfg.spanOf
  rw [hn]
  split
  · rename_i h
    rw [h] at hl
    exact absurd hl (by simp only [List.length_nil]; omega)
  · rename_i a l h
    refine ⟨a, (a :: l).getLast (by simp), ?_, ?_, rfl⟩
    · have := congrArg (·[0]?) h
      simp only [List.getElem?_take, List.getElem?_drop] at this
      rw [if_pos (by omega)] at this
      simpa using this
    · have h1 : (a :: l).getLast? = some ((a :: l).getLast (by simp)) := List.getLast?_eq_some_getLast (by simp)
      rw [← h1, ← h, List.getLast?_eq_getElem?, hl, List.getElem?_take, if_pos (by omega), List.getElem?_drop]
      congr 1
      omega

/-- The plainest layout of a file. -/
def relaid (env : ParseEnv) (t : List (List Ranged)) (source : Nat) (path : Option Path) (toks : List Ranged)
    (h : t[source]? = some toks) : Relaid where
  move := place env.emptySpan t
  cfg := ⟨source, path, between source, env.decimal⟩
  cfg' := ⟨source, path, env.emptySpan source, env.decimal⟩
  toks := plain toks
  toks' := toks
  same := plain_same toks
  path := rfl
  decimal := rfl
  span := by
    intro i j hij hj
    rw [plain_length] at hj
    rcases Nat.eq_or_lt_of_le hij with rfl | hij
    · rw [spanOf_empty, spanOf_empty]
      unfold place between
      dsimp only
      rw [h]
      dsimp only
      rw [if_pos rfl, List.length_drop, plain_length]
      congr 2
      omega
    · obtain ⟨a, b, h1, h2, h3⟩ := spanOf_run ⟨source, path, between source, env.decimal⟩ (plain toks) hij
        (by rw [plain_length]; exact hj)
      obtain ⟨a', b', k1, k2, k3⟩ := spanOf_run ⟨source, path, env.emptySpan source, env.decimal⟩ toks hij hj
      rw [h3, k3]
      rw [plain_get, k1] at h1
      rw [plain_get, k2] at h2
      cases h1
      cases h2
      unfold place
      dsimp only
      rw [h]
      dsimp only
      rw [if_neg (by omega), k1, show j - 1 + 1 - 1 = j - 1 by omega, k2]

/-- The parser of the plainest layout. -/
def plainEnv (env : ParseEnv) (context : TagStacks → MetaStacks → Str) : ParseEnv :=
  ⟨fun _ => [], between, env.decimal, env.canonicalize, context⟩

/-- The places of keys in the plainest layout. -/
def KeyAt (t : List (List Ranged)) (s : Span) : Prop :=
  ∃ toks a k, t[s.source]? = some toks ∧ toks[s.start]? = some a ∧ a.tok = .key k ∧ s.stop = s.start + 1

theorem place_inj {emptySpan : Nat → List Ranged → Span} {t : List (List Ranged)} (ht : ∀ toks ∈ t, KeysApart toks)
    (a b : Span) (ha : KeyAt t a) (hb : KeyAt t b) (h : place emptySpan t a = place emptySpan t b) : a = b := by
  obtain ⟨toks, x, k, h1, h2, h3, h4⟩ := ha
  obtain ⟨toks', y, l, k1, k2, k3, k4⟩ := hb
  have e1 : place emptySpan t a = ⟨a.source, x.start, x.stop⟩ := by
    unfold place
    rw [h1]
    dsimp only
    rw [if_neg (by omega), h4, show a.start + 1 - 1 = a.start by omega, h2]
  have e2 : place emptySpan t b = ⟨b.source, y.start, y.stop⟩ := by
    unfold place
    rw [k1]
    dsimp only
    rw [if_neg (by omega), k4, show b.start + 1 - 1 = b.start by omega, k2]
  rw [e1, e2, Span.mk.injEq] at h
  obtain ⟨hs, hst, hsp⟩ := h
  rw [← hs, h1] at k1
  cases k1
  have := ht toks (List.mem_of_getElem? h1) _ _ x y k l h2 k2 h3 k3 hst hsp
  obtain ⟨sa, ia, ja⟩ := a
  obtain ⟨sb, ib, jb⟩ := b
  simp only at hs this h4 k4
  subst hs this
  rw [h4, k4]

variable [Unicode] [DecOps]

/-- Every parse is that of the plainest layout, moved. -/
theorem parse_plain (env : ParseEnv) (s s' : Sources) (t : List (List Ranged)) (ht : ∀ toks ∈ t, KeysApart toks)
    (context : TagStacks → MetaStacks → Str)
    (hx : ∀ tags metas, env.context (move (place env.emptySpan t) tags) (move (place env.emptySpan t) metas) = context tags metas)
    (hfiles : List.Forall₂ (fun e e' : Nat × Option Path × Str => e'.1 = e.1 ∧ e'.2.1 = e.2.1) s'.contentIter s.contentIter)
    (hroot : s'.rootPath = s.rootPath) (hg : s'.globs = s.globs) (he : s'.errorPaths = s.errorPaths) :
    BeancountParser.parse env ⟨s, t⟩ = move (place env.emptySpan t)
      (BeancountParser.parse (plainEnv env context) ⟨s', t.map plain⟩) := by
  refine Moved.parse (K := KeyAt t) _ (place_inj ht) 
    (hfiles.imp fun e e' h => ⟨h.1, h.2, fun hn => ?_, fun toks htoks => ?_⟩) ?_ hroot.symm hg.symm he.symm rfl hx
  · intro e _ toks htoks tok hm k hk
    rw [List.getElem?_map] at htoks
    cases h1 : t[e.1]? with
    | none => rw [h1] at htoks; cases htoks
    | some toks' =>
      rw [h1] at htoks
      cases htoks
      obtain ⟨i, hi⟩ := List.mem_iff_getElem?.mp hm
      rw [plain_get] at hi
      cases h2 : toks'[i]? with
      | none => rw [h2] at hi; cases hi
      | some a =>
        rw [h2] at hi
        cases hi
        exact ⟨toks', a, k, h1, h2, hk, rfl⟩
  · rw [List.getElem?_map] at hn
    exact Option.map_eq_none_iff.mp hn
  · rw [List.getElem?_map] at htoks
    cases h1 : t[e.1]? with
    | none => rw [h1] at htoks; cases htoks
    | some toks' =>
      rw [h1] at htoks
      cases htoks
      exact ⟨relaid env t e.1 e.2.1 toks' h1, rfl, rfl, rfl, rfl, rfl⟩

end Layout

end Lima
