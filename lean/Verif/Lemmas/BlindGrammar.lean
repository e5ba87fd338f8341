import Verif.Lemmas.Blind

/-! Parsers do not look at locations: the grammar. -/

set_option linter.unusedSectionVars false

namespace Lima
open Spec Grammar

/-- Sequences, choices and locations. -/
macro "blind" : tactic => `(tactic| repeat' with_reducible first
  | assumption
  | exact Relaid.Blind.just
  | exact Relaid.Blind.eoi
  | exact Relaid.Blind.failure
  | exact Relaid.Blind.panicking
  | (apply Relaid.Blind.pure; with_unfolding_all rfl)
  | (apply Relaid.Blind.emit; with_unfolding_all rfl)
  | apply Relaid.Blind.spanned
  | apply Relaid.Blind.orNot
  | apply Relaid.Blind.rep
  | apply Relaid.Blind.choice_cons
  | apply Relaid.Blind.choice_one
  | apply Relaid.Blind.alt
  | apply Relaid.Blind.bind
  | (intro x; beta_reduce))

namespace Relaid
variable (c : Relaid)

/-! ### Terminals -/

theorem eol : c.Blind Grammar.eol Grammar.eol := by
  unfold Grammar.eol
  blind

theorem date : c.Blind Grammar.date Grammar.date := .select fun _ _ _ => rfl
theorem decimalP : c.Blind Grammar.decimal Grammar.decimal := .select fun _ _ _ => rfl
theorem bool : c.Blind Grammar.bool Grammar.bool := .select fun _ _ _ => rfl
theorem flag : c.Blind Grammar.flag Grammar.flag := .select fun _ _ _ => rfl
theorem number : c.Blind Grammar.number Grammar.number := .select fun _ _ _ => rfl

theorem currency : c.Blind Grammar.currency Grammar.currency := by
  refine .bind (.select fun _ _ _ => rfl) fun s => ?_
  change c.Blind (match Currency.tryFrom s with | .ok c => pure c | .err _ => P.failure | .panic => P.panicking)
    (match Currency.tryFrom s with | .ok c => pure c | .err _ => P.failure | .panic => P.panicking)
  split <;> blind

theorem txn : c.Blind Grammar.txn Grammar.txn := by
  have := c.flag
  unfold Grammar.txn
  blind

theorem maxlines {o o' : ParserOptions} (h : o' = Spec.move c.move o) : o'.maxlines = o.maxlines := by
  subst h
  rcases o with ⟨_, _ | _⟩ <;> rfl

theorem longStringWarning {o o' : ParserOptions} (h : o' = Spec.move c.move o) (n : Nat) (span : Span) :
    Grammar.longStringWarning o' n (c.move span) = Spec.move c.move (Grammar.longStringWarning o n span) := by
  have hm := c.maxlines h
  subst h
  unfold Grammar.longStringWarning
  rw [hm]
  rcases o with ⟨_, _ | _⟩ <;> rfl

theorem string : c.Blind (Grammar.string c.cfg) (Grammar.string c.cfg') := by
  intro i s s' hs
  have h := (Blind.spanned (c := c) (Blind.select (c := c)
    (f := fun t => match t with | .stringLiteral s => some s | _ => none) fun _ _ _ => rfl)) i s s' hs
  unfold Grammar.string
  generalize P.spanned c.cfg _ s = r at h ⊢
  generalize P.spanned c.cfg' _ s' = r' at h ⊢
  cases h with
  | @ok a _ j u u' hij ha hst =>
    subst ha
    dsimp only
    rw [c.maxlines hst.opts]
    change c.Out i _ (if lineCount a.item > u.opts.maxlines then _ else _)
    split
    · refine .ok hij rfl ⟨hst.le, hst.toks, hst.toks', hst.errs, hst.opts, ?_⟩
      change u'.warns ++ [Grammar.longStringWarning u'.opts (lineCount a.item) (c.move a.span)] = _
      rw [hst.warns, c.longStringWarning hst.opts]
      exact (List.map_append (f := Spec.move c.move) (l₁ := u.warns)
        (l₂ := [Grammar.longStringWarning u.opts (lineCount a.item) a.span])).symm
    · exact .ok hij rfl hst
  | fail hst => exact .fail hst
  | panic => exact .panic

theorem booking : c.Blind (Grammar.booking c.cfg) (Grammar.booking c.cfg') := by
  refine .bind c.string fun s => ?_
  change c.Blind (match Booking.tryFrom s with | some b => pure b | none => P.failure)
    (match Booking.tryFrom s with | some b => pure b | none => P.failure)
  split <;> blind

section
variable [Unicode]

theorem checked {ε : Type} {sel : Token → Option Str} {f : Str → Except ε Str} :
    c.Blind (Grammar.checked sel f) (Grammar.checked sel f) := by
  refine .bind (.select fun _ _ _ => rfl) fun s => ?_
  change c.Blind (match f s with | .ok a => pure a | .error _ => P.failure)
    (match f s with | .ok a => pure a | .error _ => P.failure)
  split <;> blind

theorem tag : c.Blind Grammar.tag Grammar.tag := c.checked
theorem link : c.Blind Grammar.link Grammar.link := c.checked
theorem key : c.Blind Grammar.key Grammar.key := c.checked

theorem options : c.Blind Grammar.options Grammar.options := fun _ _ _ hs => .ok (Nat.le_refl _) hs.opts hs

theorem account : c.Blind Grammar.account Grammar.account := by
  refine .bind (.select fun _ _ _ => rfl) fun s => .bind c.options fun o => ?_
  change c.Blind (match Account.new s o.accountTypeNames with | .ok a => pure a | .error _ => P.failure)
    (match Account.new s o.accountTypeNames with | .ok a => pure a | .error _ => P.failure)
  split <;> blind

end

/-! ### Expressions -/

theorem factor {e : P Expr} (he : c.Blind e e) : c.Blind (Grammar.factor e) (Grammar.factor e) := by
  have hn := c.number
  unfold Grammar.factor
  refine .bind (by blind) fun sign => .bind (by blind) fun x => ?_
  rcases sign with _ | _ | _ <;> exact .pure rfl

theorem foldl_ops (l : List ((Expr → Expr → Expr) × Expr)) : Spec.move c.move l = l := by
  change l.map _ = l
  exact List.map_id l

theorem chain {p : P Expr} {op : P (Expr → Expr → Expr)} (hp : c.Blind p p) (ho : c.Blind op op) :
    c.Blind (Grammar.chain p op) (Grammar.chain p op) := by
  unfold Grammar.chain
  refine .bind hp fun first => .bind (by blind) fun rest => .pure ?_
  rw [c.foldl_ops]
  rfl

theorem mulOp : c.Blind Grammar.mulOp Grammar.mulOp := by
  unfold Grammar.mulOp
  blind

theorem addOp : c.Blind Grammar.addOp Grammar.addOp := by
  unfold Grammar.addOp
  blind

theorem exprFuel (n : Nat) : c.Blind (Grammar.exprFuel n) (Grammar.exprFuel n) := by
  induction n with
  | zero => exact .panicking
  | succ n ih => exact c.chain (c.chain (c.factor ih) c.mulOp) c.addOp

theorem expr : c.Blind Grammar.expr Grammar.expr := by
  intro i s s' hs
  unfold Grammar.expr
  rw [hs.len]
  exact c.exprFuel _ i s s' hs

section
variable [DecOps]

theorem exprValue : c.Blind Grammar.exprValue Grammar.exprValue := by
  refine .bind c.expr fun e => ?_
  change c.Blind (match ExprValue.ofExpr e with | some v => pure v | none => P.panicking)
    (match ExprValue.ofExpr e with | some v => pure v | none => P.panicking)
  split <;> blind

/-! ### Amounts -/

theorem amount : c.Blind (Grammar.amount c.cfg) (Grammar.amount c.cfg') := by
  have h1 := c.exprValue
  have h2 := c.currency
  unfold Grammar.amount
  blind

theorem amountWithTolerance : c.Blind (Grammar.amountWithTolerance c.cfg) (Grammar.amountWithTolerance c.cfg') := by
  have h1 := c.exprValue
  have h2 := c.currency
  have h3 := c.amount
  have h4 := c.decimalP
  unfold Grammar.amountWithTolerance Grammar.tolerantAmount
  blind

theorem compoundExpr : c.Blind Grammar.compoundExpr Grammar.compoundExpr := by
  have h1 := c.exprValue
  unfold Grammar.compoundExpr
  blind

theorem compoundAmount : c.Blind Grammar.compoundAmount Grammar.compoundAmount := by
  have h1 := c.compoundExpr
  have h2 := c.currency
  unfold Grammar.compoundAmount
  blind

theorem priceAnnotation : c.Blind Grammar.priceAnnotation Grammar.priceAnnotation := by
  have h1 := c.exprValue
  have h2 := c.currency
  unfold Grammar.priceAnnotation
  refine .bind (by blind) fun isTotal => .bind (by blind) fun a => .bind (by blind) fun cur => ?_
  rcases a with _ | a <;> rcases cur with _ | cur <;> exact .pure rfl

/-! ### Cost specifications -/

/-- Moved, but for the errors. -/
def moveBuilder (b : CostSpecBuilder) : CostSpecBuilder := ⟨Spec.move c.move b.spec, b.errors⟩

theorem isNone_map {α β : Type} {f : α → β} {o : Option α} : (o.map f).isNone = o.isNone := by cases o <;> rfl

theorem perUnit (b : CostSpecBuilder) (v : Spanned ExprValue) :
    (c.moveBuilder b).perUnit (Spec.move c.move v) = c.moveBuilder (b.perUnit v) := by
  unfold CostSpecBuilder.perUnit
  change (if (b.spec.perUnit.map _).isNone then _ else _) = _
  rw [isNone_map]
  split <;> rfl

theorem total (b : CostSpecBuilder) (v : Spanned ExprValue) :
    (c.moveBuilder b).total (Spec.move c.move v) = c.moveBuilder (b.total v) := by
  unfold CostSpecBuilder.total
  change (if (b.spec.total.map _).isNone then _ else _) = _
  rw [isNone_map]
  split <;> rfl

theorem compoundExprB (b : CostSpecBuilder) (v : CompoundExprValue) (span : Span) :
    (c.moveBuilder b).compoundExpr v (c.move span) = c.moveBuilder (b.compoundExpr v span) := by
  cases v with
  | perUnit e => exact c.perUnit b ⟨e, span⟩
  | total e => exact c.total b ⟨e, span⟩
  | perUnitAndTotal p t =>
    change ((c.moveBuilder b).perUnit (Spec.move c.move ⟨p, span⟩)).total (Spec.move c.move ⟨t, span⟩) = _
    rw [c.perUnit, c.total]
    rfl

theorem currencyB (b : CostSpecBuilder) (v : Str) (span : Span) :
    (c.moveBuilder b).currency v (c.move span) = c.moveBuilder (b.currency v span) := by
  unfold CostSpecBuilder.currency
  change (if (b.spec.currency.map _).isNone then _ else _) = _
  rw [isNone_map]
  split <;> rfl

theorem dateB (b : CostSpecBuilder) (v : Date) (span : Span) :
    (c.moveBuilder b).date v (c.move span) = c.moveBuilder (b.date v span) := by
  unfold CostSpecBuilder.date
  change (if (b.spec.date.map _).isNone then _ else _) = _
  rw [isNone_map]
  split <;> rfl

theorem labelB (b : CostSpecBuilder) (v : Str) (span : Span) :
    (c.moveBuilder b).label v (c.move span) = c.moveBuilder (b.label v span) := by
  unfold CostSpecBuilder.label
  change (if (b.spec.label.map _).isNone then _ else _) = _
  rw [isNone_map]
  split <;> rfl

theorem mergeB (b : CostSpecBuilder) : (c.moveBuilder b).merge = c.moveBuilder b.merge := by
  unfold CostSpecBuilder.merge
  change (if !b.spec.merge then _ else _) = _
  split <;> rfl

theorem addB (b : CostSpecBuilder) (x : Spanned CostComp) :
    (c.moveBuilder b).add (Spec.move c.move x) = c.moveBuilder (b.add x) := by
  rcases x with ⟨(_ | _ | _) | _ | _ | _, span⟩
  · exact c.currencyB _ _ _
  · exact c.compoundExprB _ _ _
  · change ((c.moveBuilder b).compoundExpr _ (c.move span)).currency _ (c.move span) = _
    rw [c.compoundExprB, c.currencyB]
    rfl
  · exact c.dateB _ _ _
  · exact c.labelB _ _ _
  · exact c.mergeB _

theorem costSpecOf (l : List (Spanned CostComp)) :
    Lima.costSpecOf (Spec.move c.move l) = (Lima.costSpecOf l).map (Spec.move c.move) := by
  have key : ∀ (l : List (Spanned CostComp)) b, (l.map (Spec.move c.move)).foldl CostSpecBuilder.add (c.moveBuilder b) =
      c.moveBuilder (l.foldl CostSpecBuilder.add b) := by
    intro l
    induction l with
    | nil => intro b; rfl
    | cons x l ih =>
      intro b
      rw [List.map_cons, List.foldl_cons, List.foldl_cons, c.addB, ih]
  unfold Lima.costSpecOf
  have := key l CostSpecBuilder.default
  change (List.foldl CostSpecBuilder.add (c.moveBuilder CostSpecBuilder.default) (l.map (Spec.move c.move))).build = _
  rw [this]
  unfold CostSpecBuilder.build
  generalize l.foldl CostSpecBuilder.add CostSpecBuilder.default = b
  change (if b.errors.isEmpty then _ else _) = _
  split <;> rfl

theorem costComp : c.Blind (Grammar.costComp c.cfg) (Grammar.costComp c.cfg') := by
  have h1 := c.compoundAmount
  have h2 := c.date
  have h3 := c.string
  unfold Grammar.costComp
  blind

theorem costSpec : c.Blind (Grammar.costSpec c.cfg) (Grammar.costSpec c.cfg') := by
  have h1 := c.costComp
  unfold Grammar.costSpec
  refine .bind .just fun _ => .bind (by blind) fun comps => .bind .just fun _ => ?_
  have key : ∀ l : List (Spanned CostComp), c.Blind
      (match Lima.costSpecOf l with | .ok c => pure c | .error _ => P.failure)
      (match Lima.costSpecOf (Spec.move c.move l) with | .ok c => pure c | .error _ => P.failure) := by
    intro l
    rw [c.costSpecOf]
    cases Lima.costSpecOf l with
    | ok _ => exact .pure rfl
    | error _ => exact .failure
  rcases comps with _ | comps
  · exact key []
  · exact key comps

end

/-! ### Tags, links, metadata -/

theorem has_move (s : List (Spanned Str)) (a : Str) : SSet.has (Spec.move c.move s) a = SSet.has s a := by
  change (s.map (Spec.move c.move)).any _ = _
  rw [SSet.has, List.any_map]
  rfl

theorem insert_move (s : List (Spanned Str)) (x : Spanned Str) :
    SSet.insert (Spec.move c.move s) (Spec.move c.move x) = Spec.move c.move (SSet.insert s x) := by
  unfold SSet.insert
  change (if SSet.has (Spec.move c.move s) x.item then _ else _) = _
  rw [c.has_move]
  split
  · rfl
  · exact (List.map_append (f := Spec.move c.move) (l₁ := s) (l₂ := [x])).symm

theorem get_move (s : List (Spanned Str)) (a : Str) : SSet.get (Spec.move c.move s) a = Spec.move c.move (SSet.get s a) := by
  unfold SSet.get
  change (s.map (Spec.move c.move)).find? _ = _
  rw [List.find?_map]
  rfl

theorem collectOne (kind : DupKind) (acc : List (Spanned Str) × List PErr) (x : Spanned Str) :
    Grammar.collectOne kind (Spec.move c.move acc) (Spec.move c.move x) = Spec.move c.move (Grammar.collectOne kind acc x) := by
  unfold Grammar.collectOne
  change (if SSet.has (Spec.move c.move acc.1) x.item then _ else (SSet.insert (Spec.move c.move acc.1) (Spec.move c.move x), _)) = _
  rw [c.has_move, c.insert_move]
  split
  · exact congrArg (Prod.mk _) (List.map_append (f := Spec.move c.move) (l₁ := acc.2)
      (l₂ := [PErr.duplicate kind x.item x.span])).symm
  · rfl

/-- Folds of functions which do not look at locations. -/
theorem foldl_move {α β : Type} [Places α] [Places β] {f : β → α → β}
    (hf : ∀ b a, f (Spec.move c.move b) (Spec.move c.move a) = Spec.move c.move (f b a)) (l : List α) (b : β) :
    (Spec.move c.move l).foldl f (Spec.move c.move b) = Spec.move c.move (l.foldl f b) := by
  change (l.map (Spec.move c.move)).foldl f _ = _
  induction l generalizing b with
  | nil => rfl
  | cons x l ih => rw [List.map_cons, List.foldl_cons, List.foldl_cons, hf, ih]

theorem collectTagsLinks (l : List (Sum (Spanned Str) (Spanned Str))) :
    Grammar.collectTagsLinks (Spec.move c.move l) = Spec.move c.move (Grammar.collectTagsLinks l) := by
  refine c.foldl_move (fun b a => ?_) l (([], []), [])
  rcases a with a | a
  · change ((_, _), _) = _
    change (((Grammar.collectOne .tag (Spec.move c.move (b.1.1, b.2)) (Spec.move c.move a)).1, _),
      (Grammar.collectOne .tag (Spec.move c.move (b.1.1, b.2)) (Spec.move c.move a)).2) = _
    rw [c.collectOne]
    rfl
  · change ((_, _), _) = _
    change ((_, (Grammar.collectOne .link (Spec.move c.move (b.1.2, b.2)) (Spec.move c.move a)).1),
      (Grammar.collectOne .link (Spec.move c.move (b.1.2, b.2)) (Spec.move c.move a)).2) = _
    rw [c.collectOne]
    rfl

theorem mergeInto (kind : DupKind) (own extra : List (Spanned Str)) :
    Grammar.mergeInto kind (Spec.move c.move own) (Spec.move c.move extra) = Spec.move c.move (Grammar.mergeInto kind own extra) := by
  refine c.foldl_move (fun b a => ?_) extra (own, [])
  change (match SSet.get (Spec.move c.move b.1) a.item with
    | none => (SSet.insert (Spec.move c.move b.1) (Spec.move c.move a), Spec.move c.move b.2)
    | some existing => (Spec.move c.move b.1, Spec.move c.move b.2 ++ [PErr.duplicate kind a.item existing.span])) = _
  rw [c.get_move, c.insert_move]
  cases SSet.get b.1 a.item with
  | none => rfl
  | some e =>
    exact congrArg (Prod.mk _) (List.map_append (f := Spec.move c.move) (l₁ := b.2)
      (l₂ := [PErr.duplicate kind a.item e.span])).symm

theorem mergeHeader (m : Spanned Metadata) (tl : List (Spanned Str) × List (Spanned Str)) :
    Grammar.mergeHeader (Spec.move c.move m) (Spec.move c.move tl) = Spec.move c.move (Grammar.mergeHeader m tl) := by
  unfold Grammar.mergeHeader
  change ((⟨⟨_, (Grammar.mergeInto .tag (Spec.move c.move m.item.tags) (Spec.move c.move tl.1)).1,
      (Grammar.mergeInto .link (Spec.move c.move m.item.links) (Spec.move c.move tl.2)).1⟩, _⟩ : Spanned Metadata),
    (Grammar.mergeInto .tag (Spec.move c.move m.item.tags) (Spec.move c.move tl.1)).2 ++
    (Grammar.mergeInto .link (Spec.move c.move m.item.links) (Spec.move c.move tl.2)).2) = _
  rw [c.mergeInto, c.mergeInto]
  exact congrArg (Prod.mk _) (List.map_append (f := Spec.move c.move)).symm

section
variable [Unicode]

theorem tagsLinks : c.Blind (Grammar.tagsLinks c.cfg) (Grammar.tagsLinks c.cfg') := by
  have h1 := c.tag
  have h2 := c.link
  unfold Grammar.tagsLinks
  refine .bind (by blind) fun l => ?_
  dsimp only
  rw [c.collectTagsLinks]
  blind

variable [DecOps]

theorem simpleValue : c.Blind (Grammar.simpleValue c.cfg) (Grammar.simpleValue c.cfg') := by
  have h1 := c.tag
  have h2 := c.link
  have h3 := c.string
  have h4 := c.currency
  have h5 := c.account
  have h6 := c.date
  have h7 := c.bool
  have h8 := c.exprValue
  unfold Grammar.simpleValue
  blind

theorem metaValue : c.Blind (Grammar.metaValue c.cfg) (Grammar.metaValue c.cfg') := by
  have h1 := c.amount
  have h2 := c.simpleValue
  unfold Grammar.metaValue
  blind

theorem metaKeyValue : c.Blind (Grammar.metaKeyValue c.cfg) (Grammar.metaKeyValue c.cfg') := by
  have h1 := c.key
  have h2 := c.metaValue
  unfold Grammar.metaKeyValue
  refine .bind (by blind) fun k => .bind (by blind) fun _ => .bind (by blind) fun v => ?_
  rcases v with ⟨_ | v, span⟩ <;> exact .pure rfl

end

instance : Places Grammar.Metadatum := ⟨fun f x =>
  match x with
  | .keyValue kv => .keyValue (Spec.move f kv)
  | .tag t => .tag (Spec.move f t)
  | .link l => .link (Spec.move f l)⟩

instance : Places Grammar.PostingLine := ⟨fun f x =>
  ⟨Spec.move f x.flag, Spec.move f x.account, Spec.move f x.amount, Spec.move f x.currency, Spec.move f x.costSpec, Spec.move f x.priceAnnotation⟩⟩

theorem hasKey_move {ν : Type} [Places ν] (m : List (Spanned Str × ν)) (k : Str) :
    SMap.has (Spec.move c.move m) k = SMap.has m k := by
  change (m.map (Spec.move c.move)).any _ = _
  rw [SMap.has, List.any_map]
  rfl

theorem insertKey_move {ν : Type} [Places ν] (m : List (Spanned Str × ν)) (k : Spanned Str) (v : ν) :
    SMap.insert (Spec.move c.move m) (Spec.move c.move k) (Spec.move c.move v) = Spec.move c.move (SMap.insert m k v) := by
  unfold SMap.insert
  change (if SMap.has (Spec.move c.move m) k.item then (m.map (Spec.move c.move)).map _ else _) = _
  rw [c.hasKey_move]
  split
  · change _ = (m.map _).map _
    rw [List.map_map, List.map_map]
    refine List.map_congr_left fun e _ => ?_
    change (if e.1.item = k.item then _ else _) = Spec.move c.move (if e.1.item = k.item then _ else _)
    split <;> rfl
  · exact (List.map_append (f := Spec.move c.move) (l₁ := m) (l₂ := [(k, v)])).symm

theorem collectMetadatum (acc : Metadata × List PErr) (x : Grammar.Metadatum) :
    Grammar.collectMetadatum (Spec.move c.move acc) (Spec.move c.move x) = Spec.move c.move (Grammar.collectMetadatum acc x) := by
  rcases x with kv | t | t
  · change (if SMap.has (Spec.move c.move acc.1.keyValues) kv.item.key.item then
      (_, Spec.move c.move acc.2 ++ [PErr.duplicate .key kv.item.key.item (c.move kv.item.key.span)]) else
      ((⟨SMap.insert (Spec.move c.move acc.1.keyValues) (Spec.move c.move kv.item.key) (Spec.move c.move kv.item.value),
         _, _⟩ : Metadata), _)) = Spec.move c.move (if SMap.has acc.1.keyValues kv.item.key.item then _ else _)
    rw [c.hasKey_move, c.insertKey_move]
    split
    · exact congrArg (Prod.mk _) (List.map_append (f := Spec.move c.move) (l₁ := acc.2)
        (l₂ := [PErr.duplicate .key kv.item.key.item kv.item.key.span])).symm
    · rfl
  · change ((⟨_, (Grammar.collectOne .tag (Spec.move c.move (acc.1.tags, acc.2)) (Spec.move c.move t)).1,
        _⟩ : Metadata), (Grammar.collectOne .tag (Spec.move c.move (acc.1.tags, acc.2)) (Spec.move c.move t)).2) = _
    rw [c.collectOne]
    rfl
  · change ((⟨_, _, (Grammar.collectOne .link (Spec.move c.move (acc.1.links, acc.2)) (Spec.move c.move t)).1⟩ : Metadata),
        (Grammar.collectOne .link (Spec.move c.move (acc.1.links, acc.2)) (Spec.move c.move t)).2) = _
    rw [c.collectOne]
    rfl

section
variable [Unicode] [DecOps]

theorem metadatumLine : c.Blind (Grammar.metadatumLine c.cfg) (Grammar.metadatumLine c.cfg') := by
  have h1 := c.metaKeyValue
  have h2 := c.tag
  have h3 := c.link
  have h4 := c.eol
  unfold Grammar.metadatumLine
  blind

theorem metadata : c.Blind (Grammar.metadata c.cfg) (Grammar.metadata c.cfg') := by
  have h1 := c.metadatumLine
  unfold Grammar.metadata
  refine .bind (by blind) fun l => ?_
  have := c.foldl_move c.collectMetadatum l (⟨[], [], []⟩, [])
  change c.Blind _ (P.emit (List.foldl Grammar.collectMetadatum (Spec.move c.move (⟨[], [], []⟩, [])) (Spec.move c.move l)).2 >>= fun _ =>
    pure (List.foldl Grammar.collectMetadatum (Spec.move c.move (⟨[], [], []⟩, [])) (Spec.move c.move l)).1)
  rw [this]
  blind

/-! ### Directives -/

theorem posting : c.Blind (Grammar.posting c.cfg) (Grammar.posting c.cfg') := by
  have h1 := c.flag
  have h2 := c.account
  have h3 := c.exprValue
  have h4 := c.currency
  have h5 := c.costSpec
  have h6 := c.priceAnnotation
  have h7 := c.eol
  have h8 := c.metadata
  unfold Grammar.posting Grammar.postingLine
  blind

theorem replaceEmpty (s : Option (Spanned Str)) : Grammar.replaceSomeEmptyWithNone (Spec.move c.move s) =
    Spec.move c.move (Grammar.replaceSomeEmptyWithNone s) := by
  rcases s with _ | s
  · rfl
  · change (if s.item.isEmpty then none else _) = Spec.move c.move (if s.item.isEmpty then none else _)
    split <;> rfl

theorem payeeNarration (s1 s2 : Option (Spanned Str)) : Grammar.payeeNarration (Spec.move c.move s1) (Spec.move c.move s2) =
    Spec.move c.move (Grammar.payeeNarration s1 s2) := by
  rcases s1 with _ | s1 <;> rcases s2 with _ | s2
  · exact congrArg₂ Prod.mk (c.replaceEmpty none) (c.replaceEmpty none)
  · exact congrArg₂ Prod.mk (c.replaceEmpty none) (c.replaceEmpty (some s2))
  · exact congrArg₂ Prod.mk (c.replaceEmpty none) (c.replaceEmpty (some s1))
  · exact congrArg₂ Prod.mk (c.replaceEmpty (some s1)) (c.replaceEmpty (some s2))

theorem transactionHeaderLine : c.Blind (Grammar.transactionHeaderLine c.cfg) (Grammar.transactionHeaderLine c.cfg') := by
  have h1 := c.date
  have h2 := c.txn
  have h3 := c.string
  have h4 := c.tagsLinks
  have h5 := c.eol
  unfold Grammar.transactionHeaderLine
  refine .bind (by blind) fun d => .bind (by blind) fun f => .bind (by blind) fun s1 => .bind (by blind) fun s2 =>
    .bind (by blind) fun tl => .bind (by blind) fun _ => .pure ?_
  rw [c.payeeNarration]
  rfl

theorem transaction : c.Blind (Grammar.transaction c.cfg) (Grammar.transaction c.cfg') := by
  have h1 := c.metadata
  have h2 := c.posting
  unfold Grammar.transaction
  refine .bind c.transactionHeaderLine fun h => .bind (by blind) fun m => .bind (by blind) fun ps => ?_
  dsimp only
  change c.Blind _ (P.emit (Grammar.mergeHeader (Spec.move c.move m) (Spec.move c.move h.2.2.2)).2 >>= fun _ =>
    pure (⟨_, (Grammar.mergeHeader (Spec.move c.move m) (Spec.move c.move h.2.2.2)).1, _⟩ : Directive))
  rw [c.mergeHeader]
  blind

theorem simpleDirective {keyword : Token} {body body' : P DirectiveVariant} (hb : c.Blind body body') :
    c.Blind (Grammar.simpleDirective c.cfg keyword body) (Grammar.simpleDirective c.cfg' keyword body') := by
  have h1 := c.date
  have h2 := c.tagsLinks
  have h3 := c.eol
  have h4 := c.metadata
  unfold Grammar.simpleDirective
  refine .bind (by blind) fun d => .bind (by blind) fun _ => .bind hb fun v => .bind (by blind) fun tl =>
    .bind (by blind) fun _ => .bind (by blind) fun m => ?_
  dsimp only
  rw [c.mergeHeader]
  blind

theorem currencyList : c.Blind (Grammar.currencyList c.cfg) (Grammar.currencyList c.cfg') := by
  have h1 := c.currency
  unfold Grammar.currencyList
  refine .bind (.orNot (.bind (by blind) fun first => .bind (by blind) fun others => ?_)) fun l => ?_
  · have : Grammar.collectCurrencies (Spec.move c.move first) (Spec.move c.move others) =
        Spec.move c.move (Grammar.collectCurrencies first others) := by
      unfold Grammar.collectCurrencies
      have := c.foldl_move (c.collectOne .currency) (others ++ [first]) ([], [])
      rw [← this]
      congr 1
      exact (List.map_append (f := Spec.move c.move) (l₁ := others) (l₂ := [first])).symm
    dsimp only
    rw [this]
    blind
  · rcases l with _ | l <;> exact .pure rfl

theorem directive : c.Blind (Grammar.directive c.cfg) (Grammar.directive c.cfg') := by
  have h1 := c.transaction
  have h2 := c.currency
  have h3 := c.amount
  have h4 := c.account
  have h5 := c.amountWithTolerance
  have h6 := c.currencyList
  have h7 := c.booking
  have h8 := c.string
  have h9 := c.metaValue
  have h10 := c.date
  have h11 := c.eol
  have h12 := c.metadata
  unfold Grammar.directive
  refine .choice_cons h1 (.choice_cons (c.simpleDirective ?_) (.choice_cons (c.simpleDirective ?_)
    (.choice_cons (c.simpleDirective ?_) (.choice_cons (c.simpleDirective ?_) (.choice_cons (c.simpleDirective ?_)
    (.choice_cons (c.simpleDirective ?_) (.choice_cons (c.simpleDirective ?_) (.choice_cons (c.simpleDirective ?_)
    (.choice_cons (c.simpleDirective ?_) (.choice_cons (c.simpleDirective ?_) (.choice_one ?_)))))))))))
  any_goals unfold Grammar.custom
  all_goals blind

/-! ### Pragmas -/

theorem assimilate (o : ParserOptions) (b : BOption) (hb : b.variant ≠ .ignored) :
    (Spec.move c.move o).assimilate (Spec.move c.move b) =
      (Spec.move c.move (o.assimilate b).1, Spec.move c.move (o.assimilate b).2) := by
  rcases b with ⟨src, v⟩
  cases v with
  | accountTypeName t name =>
    change ((o.accountTypeNames.update t name).1.map (fun _ => (⟨⟨c.move src.name, c.move src.value⟩, .assimilated⟩ : BOption)), _) =
      (Spec.move c.move ((o.accountTypeNames.update t name).1.map (fun _ => (⟨src, .assimilated⟩ : BOption))), _)
    cases (o.accountTypeNames.update t name).1 <;> rfl
  | ignored => exact absurd rfl hb
  | _ => rfl

theorem optVariant_ne_ignored {decimal : Str → Except LexerError Dec} {name value : Str} {path : Option Path} {v : OptVariant}
    (h : OptVariant.parse decimal name value path = .ok v) : v ≠ .ignored := by
  have key : ∀ {α : Type} {r : Res OptParseError α} {f : α → OptVariant}, (∀ a, f a ≠ .ignored) →
      r.map f ≠ .ok OptVariant.ignored := by
    intro α r f hf hr
    cases r with
    | ok a => exact hf a (by simpa [Res.map] using hr)
    | err _ => cases hr
    | panic => cases hr
  have ite : ∀ {q : Prop} [Decidable q] {x y : Res OptParseError OptVariant}, x ≠ .ok OptVariant.ignored →
      y ≠ .ok OptVariant.ignored → (if q then x else y) ≠ .ok OptVariant.ignored := by
    intro q _ x y hx hy
    split
    · exact hx
    · exact hy
  rintro rfl
  refine absurd h ?_
  unfold OptVariant.parse
  repeat' refine ite ?_ ?_
  any_goals exact key fun _ hh => by cases hh
  any_goals
    first
    | exact fun hh => by cases hh
    | (split <;> exact fun hh => by cases hh)

omit c in
/-- Of the path of the file, only the directory matters. -/
theorem optVariant_dir {decimal : Str → Except LexerError Dec} {name value : Str} {p p' : Option Path}
    (h : p'.bind pathDir = p.bind pathDir) : OptVariant.parse decimal name value p' = OptVariant.parse decimal name value p := by
  have key : ∀ p : Option Path, p.bind pathDir = (p.bind Path.parent).bind fun d => if d.isEmpty then none else some d := by
    rintro (_ | p)
    · rfl
    · simp only [Option.bind_some, pathDir]
      cases p.parent <;> rfl
  have join : ∀ d v : Path, d.isEmpty = true → d.join v = v := by
    intro d v hd
    unfold Path.join
    rw [hd]
    simp
  rw [key, key] at h
  unfold OptVariant.parse
  generalize p'.bind Path.parent = x' at h ⊢
  generalize p.bind Path.parent = x at h ⊢
  cases x' with
  | none =>
    cases x with
    | none => rfl
    | some d =>
      cases hd : d.isEmpty with
      | true => simp only [join d _ hd]
      | false => simp [hd] at h
  | some d' =>
    cases x with
    | none =>
      cases hd : d'.isEmpty with
      | true => simp only [join d' _ hd]
      | false => simp [hd] at h
    | some d =>
      cases hd : d.isEmpty with
      | true =>
        cases hd' : d'.isEmpty with
        | true => simp only [join d _ hd, join d' _ hd']
        | false => simp [hd, hd'] at h
      | false =>
        cases hd' : d'.isEmpty with
        | true => simp [hd, hd'] at h
        | false =>
          simp only [Option.bind_some, hd, hd', Bool.false_eq_true, if_false, Option.some.injEq] at h
          rw [h]

theorem assimilateOption (name value : Spanned Str) :
    c.Blind (Grammar.assimilateOption c.cfg name value)
      (Grammar.assimilateOption c.cfg' (Spec.move c.move name) (Spec.move c.move value)) := by
  intro i s s' hs
  unfold Grammar.assimilateOption BOption.parse
  rw [c.decimal, optVariant_dir c.path, show (Spec.move c.move name).item = name.item from rfl,
    show (Spec.move c.move value).item = value.item from rfl]
  have errs : ∀ {u u' : PSt} (e : PErr), u'.errs = Spec.move c.move u.errs →
      u'.errs ++ [Spec.move c.move e] = Spec.move c.move (u.errs ++ [e]) := by
    intro u u' e h
    rw [h]
    exact (List.map_append (f := Spec.move c.move) (l₁ := u.errs) (l₂ := [e])).symm
  cases hv : OptVariant.parse c.cfg.decimal name.item value.item c.cfg.path with
  | panic => exact .panic
  | err e =>
    cases e with
    | unknownOption =>
      exact .ok (Nat.le_refl _) rfl ⟨hs.le, hs.toks, hs.toks', errs (.option .unknownOption name.span) hs.errs, hs.opts,
        hs.warns⟩
    | badValue e =>
      exact .ok (Nat.le_refl _) rfl ⟨hs.le, hs.toks, hs.toks', errs (.option (.badValue e) value.span) hs.errs, hs.opts,
        hs.warns⟩
  | ok v =>
    have hn := optVariant_ne_ignored hv
    dsimp only [Res.map]
    have hm : (⟨⟨(Spec.move c.move name).span, (Spec.move c.move value).span⟩, v⟩ : BOption) =
        Spec.move c.move ⟨⟨name.span, value.span⟩, v⟩ := by
      cases v <;> first | rfl | exact absurd rfl hn
    rw [hm, hs.opts, c.assimilate s.opts ⟨⟨name.span, value.span⟩, v⟩ hn]
    rcases s.opts.assimilate ⟨⟨name.span, value.span⟩, v⟩ with ⟨_ | _ | _, opts⟩
    · exact .ok (Nat.le_refl _) rfl ⟨hs.le, hs.toks, hs.toks', hs.errs, rfl, hs.warns⟩
    · exact .ok (Nat.le_refl _) rfl ⟨hs.le, hs.toks, hs.toks', errs (.accountTypeName _ value.span) hs.errs, rfl, hs.warns⟩
    · exact .panic

theorem option : c.Blind (Grammar.option c.cfg) (Grammar.option c.cfg') := by
  have h1 := c.string
  unfold Grammar.option
  exact .bind .just fun _ => .bind (by blind) fun name => .bind (by blind) fun value => c.assimilateOption name value

theorem pragma : c.Blind (Grammar.pragma c.cfg) (Grammar.pragma c.cfg') := by
  have h1 := c.string
  have h2 := c.tag
  have h3 := c.key
  have h4 := c.metaKeyValue
  have h5 := c.option
  have h6 := c.eol
  unfold Grammar.pragma
  blind

/-! ### Files -/

theorem file : c.Blind (Grammar.file c.cfg) (Grammar.file c.cfg') := by
  have h1 := c.directive
  have h2 := c.pragma
  unfold Grammar.file Grammar.declaration
  exact .rep (.recover (by blind))

theorem parseFile (opts : ParserOptions) (warns : List Report) :
    Grammar.parseFile c.cfg' c.toks' (Spec.move c.move opts) (Spec.move c.move warns) =
      Spec.move c.move (Grammar.parseFile c.cfg c.toks opts warns) := by
  have h := c.file 0 ⟨c.toks, [], opts, warns⟩ ⟨c.toks', [], Spec.move c.move opts, Spec.move c.move warns⟩
    ⟨Nat.zero_le _, rfl, rfl, rfl, rfl, rfl⟩
  have errs : ∀ {u u' : PSt} (e : PErr), u'.errs = Spec.move c.move u.errs →
      u'.errs ++ [Spec.move c.move e] = Spec.move c.move (u.errs ++ [e]) := by
    intro u u' e h
    rw [h]
    exact (List.map_append (f := Spec.move c.move) (l₁ := u.errs) (l₂ := [e])).symm
  unfold Grammar.parseFile
  generalize Grammar.file c.cfg _ = r at h ⊢
  generalize Grammar.file c.cfg' _ = r' at h ⊢
  cases h with
  | @ok a _ j u u' hij ha hst =>
    subst ha
    dsimp only
    rw [hst.toks, hst.toks']
    rcases c.next j with ⟨h1, h2⟩ | ⟨t, t', h1, h2, _, _⟩
    · rw [h1, h2]
      dsimp only
      rw [hst.errs, hst.opts, hst.warns]
      rfl
    · rw [h1, h2]
      dsimp only
      rw [show u'.errs ++ [PErr.syntax] = _ from errs .syntax hst.errs, hst.opts, hst.warns]
      rfl
  | @fail j u u' hst =>
    dsimp only
    rw [show u'.errs ++ [PErr.syntax] = _ from errs .syntax hst.errs, hst.opts, hst.warns]
    rfl
  | panic => rfl

end

end Relaid

end Lima
