import Verif.Lemmas.BlindGrammar
import Verif.Lemmas.Sort

/-! Pragma processing and sorting do not look at locations, except to tell pushed keys apart. -/

set_option linter.unusedSectionVars false

namespace Lima
open Spec

namespace Moved

/-! ### Maps -/

section
variable {κ ν ν' : Type} [DecidableEq κ]

/-- Change the values. -/
def onValues (g : ν → ν') (m : List (κ × ν)) : List (κ × ν') := m.map (fun e => (e.1, g e.2))

theorem aget (g : ν → ν') (m : List (κ × ν)) (k : κ) : AMap.get (onValues g m) k = (AMap.get m k).map g := by
  unfold AMap.get onValues
  rw [List.find?_map, Option.map_map, Option.map_map]
  rfl

theorem ahas (g : ν → ν') (m : List (κ × ν)) (k : κ) : AMap.has (onValues g m) k = AMap.has m k := by
  unfold AMap.has onValues
  rw [List.any_map]
  rfl

theorem ainsert (g : ν → ν') (m : List (κ × ν)) (k : κ) (v : ν) :
    AMap.insert (onValues g m) k (g v) = onValues g (AMap.insert m k v) := by
  unfold AMap.insert
  rw [ahas]
  split
  · unfold onValues
    rw [List.map_map, List.map_map]
    refine List.map_congr_left fun e _ => ?_
    simp only [Function.comp]
    split <;> rfl
  · unfold onValues
    rw [List.map_append]
    rfl

theorem aerase (g : ν → ν') (m : List (κ × ν)) (k : κ) : AMap.erase (onValues g m) k = onValues g (AMap.erase m k) := by
  unfold AMap.erase onValues
  rw [List.filter_map]
  rfl

end

section
variable {ν : Type} [Places ν] (f : Span → Span)

theorem sget (m : List (Spanned Str × ν)) (k : Str) : SMap.get (move f m) k = (SMap.get m k).map (move f) := by
  unfold SMap.get
  change ((m.map (move f)).find? _).map _ = _
  rw [List.find?_map, Option.map_map, Option.map_map]
  rfl

theorem shas (m : List (Spanned Str × ν)) (k : Str) : SMap.has (move f m) k = SMap.has m k := by
  change (m.map (move f)).any _ = _
  rw [SMap.has, List.any_map]
  rfl

theorem sinsert (m : List (Spanned Str × ν)) (k : Spanned Str) (v : ν) :
    SMap.insert (move f m) (move f k) (move f v) = move f (SMap.insert m k v) := by
  unfold SMap.insert
  change (if SMap.has (move f m) k.item then (m.map (move f)).map _ else _) = _
  rw [shas]
  split
  · change _ = (m.map _).map _
    rw [List.map_map, List.map_map]
    refine List.map_congr_left fun e _ => ?_
    change (if e.1.item = k.item then _ else _) = move f (if e.1.item = k.item then _ else _)
    split <;> rfl
  · exact (List.map_append (f := move f) (l₁ := m) (l₂ := [(k, v)])).symm

theorem serase (m : List (Spanned Str × ν)) (k : Str) : SMap.erase (move f m) k = move f (SMap.erase m k) := by
  unfold SMap.erase
  change (m.map (move f)).filter _ = _
  rw [List.filter_map]
  rfl

theorem sethas (s : List (Spanned Str)) (a : Str) : SSet.has (move f s) a = SSet.has s a := by
  change (s.map (move f)).any _ = _
  rw [SSet.has, List.any_map]
  rfl

theorem setinsert (s : List (Spanned Str)) (x : Spanned Str) :
    SSet.insert (move f s) (move f x) = move f (SSet.insert s x) := by
  unfold SSet.insert
  change (if SSet.has (move f s) x.item then _ else _) = _
  rw [sethas]
  split
  · rfl
  · exact (List.map_append (f := move f) (l₁ := s) (l₂ := [x])).symm

theorem append {α : Type} [Places α] (l m : List α) (hh : Places (List α) := inferInstance)
    (e : ∀ l : List α, hh.move f l = l.map (move f) := by intros; rfl) :
    hh.move f l ++ hh.move f m = hh.move f (l ++ m) := by
  rw [e, e, e, List.map_append]

end

theorem smap_mem_insert {κ ν : Type} [DecidableEq κ] {m : List (Spanned κ × ν)} {k : Spanned κ} {v : ν}
    {e : Spanned κ × ν} (h : e ∈ SMap.insert m k v) : e ∈ m ∨ e.2 = v := by
  unfold SMap.insert at h
  split at h
  · obtain ⟨x, hx, rfl⟩ := List.mem_map.mp h
    split
    · exact .inr rfl
    · exact .inl hx
  · rcases List.mem_append.mp h with h | h
    · exact .inl h
    · rw [List.mem_singleton.mp h]
      exact .inr rfl

theorem smap_get_mem {κ ν : Type} [DecidableEq κ] {m : List (Spanned κ × ν)} {k : κ} {v : ν} (h : SMap.get m k = some v) :
    ∃ e ∈ m, e.2 = v := by
  unfold SMap.get at h
  obtain ⟨e, he, rfl⟩ := Option.map_eq_some_iff.mp h
  exact ⟨e, List.mem_of_find?_eq_some he, rfl⟩

theorem amap_get_mem {κ ν : Type} [DecidableEq κ] {m : List (κ × ν)} {k : κ} {v : ν} (h : AMap.get m k = some v) :
    ∃ e ∈ m, e.2 = v := by
  unfold AMap.get at h
  obtain ⟨e, he, rfl⟩ := Option.map_eq_some_iff.mp h
  exact ⟨e, List.mem_of_find?_eq_some he, rfl⟩

/-! ### Data -/

variable (f : Span → Span)

def ctx (c : IncludeContext) : IncludeContext := ⟨move f c.tags, move f c.metas, f c.span⟩

def data (d : PragmaData) : PragmaData :=
  ⟨onValues (ctx f) d.includeBy, move f d.tags, move f d.metas, move f d.options, move f d.plugins, move f d.errors⟩

theorem report (d : PragmaData) (e : Report) : (data f d).report (move f e) = data f (d.report e) := by
  unfold PragmaData.report data
  dsimp only
  congr 1
  exact (List.map_append (f := move f) (l₁ := d.errors) (l₂ := [e])).symm

theorem pushtag (d : PragmaData) (t : Spanned Str) : (data f d).pushtag (move f t) = data f (d.pushtag t) := by
  unfold PragmaData.pushtag
  change (match SMap.get (move f d.tags) t.item with | some o => _ | none => _) = _
  rw [sget]
  cases SMap.get d.tags t.item with
  | none =>
    change ({ data f d with tags := SMap.insert (move f d.tags) (move f t) (move f []) } : PragmaData) = _
    rw [sinsert]
    rfl
  | some o =>
    change ({ data f d with tags := SMap.insert (move f d.tags) (move f t) (o.map (move f) ++ [t].map (move f)) } : PragmaData) = _
    rw [← List.map_append]
    change ({ data f d with tags := SMap.insert (move f d.tags) (move f t) (move f (o ++ [t])) } : PragmaData) = _
    rw [sinsert]
    rfl

theorem poptag (d : PragmaData) (t : Spanned Str) : (data f d).poptag (move f t) = data f (d.poptag t) := by
  unfold PragmaData.poptag
  change (match SMap.get (move f d.tags) t.item with | some o => _ | none => _) = _
  rw [sget]
  cases SMap.get d.tags t.item with
  | none => exact report f d (Report.new (str "invalid poptag") (str "missing corresponding pushtag") t.span)
  | some o =>
    change (if (o.map (move f)).isEmpty then ({ data f d with tags := SMap.erase (move f d.tags) t.item } : PragmaData) else
      { data f d with tags := SMap.insert (move f d.tags) (move f t) (o.map (move f)).dropLast }) =
      data f (if o.isEmpty then _ else _)
    rw [List.isEmpty_map, serase, ← List.map_dropLast]
    change (if o.isEmpty then _ else
      ({ data f d with tags := SMap.insert (move f d.tags) (move f t) (move f o.dropLast) } : PragmaData)) = _
    rw [sinsert]
    split <;> rfl

theorem pushmeta (d : PragmaData) (kv : MetaKeyValue) : (data f d).pushmeta (move f kv) = data f (d.pushmeta kv) := by
  unfold PragmaData.pushmeta
  change (match SMap.get (move f d.metas) kv.key.item with | some o => _ | none => _) = _
  rw [sget]
  cases SMap.get d.metas kv.key.item with
  | none =>
    change ({ data f d with metas := SMap.insert (move f d.metas) (move f kv.key) (move f [(kv.key.span, kv.value)]) } : PragmaData) = _
    rw [sinsert]
    rfl
  | some o =>
    have h := sinsert f d.metas kv.key (o ++ [(kv.key.span, kv.value)])
    rw [show move f (o ++ [(kv.key.span, kv.value)]) = move f o ++ move f [(kv.key.span, kv.value)] from
      List.map_append (f := move f) (l₁ := o) (l₂ := [(kv.key.span, kv.value)])] at h
    exact congrArg (fun m => ({ data f d with metas := m } : PragmaData)) h

theorem popmeta (d : PragmaData) (k : Spanned Str) : (data f d).popmeta (move f k) = data f (d.popmeta k) := by
  unfold PragmaData.popmeta
  change (match SMap.get (move f d.metas) k.item with | some o => _ | none => _) = _
  rw [sget]
  cases SMap.get d.metas k.item with
  | none => exact report f d (Report.new (str "invalid popmeta") (str "missing corresponding pushmeta") k.span)
  | some o =>
    change (if (o.map (move f)).dropLast.isEmpty then ({ data f d with metas := SMap.erase (move f d.metas) k.item } : PragmaData) else
      { data f d with metas := SMap.insert (move f d.metas) (move f k) (o.map (move f)).dropLast }) =
      data f (if o.dropLast.isEmpty then _ else _)
    rw [← List.map_dropLast, List.isEmpty_map, serase]
    change (if o.dropLast.isEmpty then _ else
      ({ data f d with metas := SMap.insert (move f d.metas) (move f k) (move f o.dropLast) } : PragmaData)) = _
    rw [sinsert]
    split <;> rfl

/-! ### Options -/

def optError : OptError → OptError
  | .duplicateOption s => .duplicateOption (f s)
  | .duplicateValue s => .duplicateValue (f s)

theorem updateOptional {α : Type} [Places α] (hα : ∀ a : α, move f a = a) (field : Option (Sourced α)) (v : α)
    (src : OptSource) : Lima.updateOptional (move f field) v (move f src) =
      (move f (Lima.updateOptional field v src).1, (Lima.updateOptional field v src).2.map (optError f)) := by
  cases field with
  | none =>
    change (some (⟨⟨v, f src.value⟩, move f src⟩ : Sourced α), none) = (some (⟨⟨move f v, f src.value⟩, move f src⟩ : Sourced α), none)
    rw [hα]
  | some s => rfl

theorem updateHashmap {κ ν : Type} [DecidableEq κ] (field : List (κ × (ν × OptSource))) (k : κ) (v : ν)
    (src : OptSource) : Lima.updateHashmap (onValues (fun e => (e.1, move f e.2)) field) k v (move f src) =
      (onValues (fun e => (e.1, move f e.2)) (Lima.updateHashmap field k v src).1,
        (Lima.updateHashmap field k v src).2.map (optError f)) := by
  unfold Lima.updateHashmap
  rw [aget]
  cases AMap.get field k with
  | none =>
    dsimp only [Option.map_none]
    rw [← ainsert]
  | some e => rfl

theorem updateUnitHashmap {κ : Type} [DecidableEq κ] (field : List (κ × OptSource)) (k : κ)
    (src : OptSource) : Lima.updateUnitHashmap (onValues (move f) field) k (move f src) =
      (onValues (move f) (Lima.updateUnitHashmap field k src).1,
        (Lima.updateUnitHashmap field k src).2.map (optError f)) := by
  unfold Lima.updateUnitHashmap
  rw [aget]
  cases AMap.get field k with
  | none =>
    dsimp only [Option.map_none]
    rw [← ainsert]
  | some e => rfl

theorem update (o : Options) (src : OptSource) (v : OptVariant) :
    (move f o).update (move f src) v = (move f (o.update src v).1, (o.update src v).2.map (optError f)) := by
  cases v with
  | title v =>
    have h := updateOptional f (fun _ => rfl) o.title v src
    exact congrArg (fun x : Option (Sourced Str) × Option OptError => (({ move f o with title := x.1 } : Options), x.2)) h
  | accountTypeName _ _ => rfl
  | accountPreviousBalances v =>
    have h := updateOptional f (fun _ => rfl) o.accountPreviousBalances v src
    exact congrArg (fun x : Option (Sourced Str) × Option OptError => (({ move f o with accountPreviousBalances := x.1 } : Options), x.2)) h
  | accountPreviousEarnings v =>
    have h := updateOptional f (fun _ => rfl) o.accountPreviousEarnings v src
    exact congrArg (fun x : Option (Sourced Str) × Option OptError => (({ move f o with accountPreviousEarnings := x.1 } : Options), x.2)) h
  | accountPreviousConversions v =>
    have h := updateOptional f (fun _ => rfl) o.accountPreviousConversions v src
    exact congrArg (fun x : Option (Sourced Str) × Option OptError => (({ move f o with accountPreviousConversions := x.1 } : Options), x.2)) h
  | accountCurrentEarnings v =>
    have h := updateOptional f (fun _ => rfl) o.accountCurrentEarnings v src
    exact congrArg (fun x : Option (Sourced Str) × Option OptError => (({ move f o with accountCurrentEarnings := x.1 } : Options), x.2)) h
  | accountCurrentConversions v =>
    have h := updateOptional f (fun _ => rfl) o.accountCurrentConversions v src
    exact congrArg (fun x : Option (Sourced Str) × Option OptError => (({ move f o with accountCurrentConversions := x.1 } : Options), x.2)) h
  | accountUnrealizedGains v =>
    have h := updateOptional f (fun _ => rfl) o.accountUnrealizedGains v src
    exact congrArg (fun x : Option (Sourced Str) × Option OptError => (({ move f o with accountUnrealizedGains := x.1 } : Options), x.2)) h
  | accountRounding v =>
    have h := updateOptional f (fun _ => rfl) o.accountRounding v src
    exact congrArg (fun x : Option (Sourced Str) × Option OptError => (({ move f o with accountRounding := x.1 } : Options), x.2)) h
  | conversionCurrency v =>
    have h := updateOptional f (fun _ => rfl) o.conversionCurrency v src
    exact congrArg (fun x : Option (Sourced Str) × Option OptError => (({ move f o with conversionCurrency := x.1 } : Options), x.2)) h
  | inferredToleranceDefault c d =>
    have h := updateHashmap f o.inferredToleranceDefault c d src
    exact congrArg (fun x : List (CurrencyOrAny × (Dec × OptSource)) × Option OptError => (({ move f o with inferredToleranceDefault := x.1 } : Options), x.2)) h
  | inferredToleranceMultiplier v =>
    have h := updateOptional f (fun _ => rfl) o.inferredToleranceMultiplier v src
    exact congrArg (fun x : Option (Sourced Dec) × Option OptError => (({ move f o with inferredToleranceMultiplier := x.1 } : Options), x.2)) h
  | inferToleranceFromCost v =>
    have h := updateOptional f (fun _ => rfl) o.inferToleranceFromCost v src
    exact congrArg (fun x : Option (Sourced Bool) × Option OptError => (({ move f o with inferToleranceFromCost := x.1 } : Options), x.2)) h
  | documents v =>
    have h := updateUnitHashmap f o.documents v src
    exact congrArg (fun x : List (Path × OptSource) × Option OptError => (({ move f o with documents := x.1 } : Options), x.2)) h
  | operatingCurrency v =>
    have h := updateUnitHashmap f o.operatingCurrency v src
    exact congrArg (fun x : List (Str × OptSource) × Option OptError => (({ move f o with operatingCurrency := x.1 } : Options), x.2)) h
  | renderCommas v =>
    have h := updateOptional f (fun _ => rfl) o.renderCommas v src
    exact congrArg (fun x : Option (Sourced Bool) × Option OptError => (({ move f o with renderCommas := x.1 } : Options), x.2)) h
  | longStringMaxlines _ => rfl
  | bookingMethod v =>
    have h := updateOptional f (fun _ => rfl) o.bookingMethod v src
    exact congrArg (fun x : Option (Sourced Booking) × Option OptError => (({ move f o with bookingMethod := x.1 } : Options), x.2)) h
  | pluginProcessingMode v =>
    have h := updateOptional f (fun _ => rfl) o.pluginProcessingMode v src
    exact congrArg (fun x : Option (Sourced PluginProcessingMode) × Option OptError => (({ move f o with pluginProcessingMode := x.1 } : Options), x.2)) h
  | assimilated => rfl
  | ignored => rfl

theorem assimilate (o : Options) (b : BOption) :
    (move f o).assimilate (move f b) = (move f (o.assimilate b).1, (o.assimilate b).2.map (move f)) := by
  obtain ⟨src, v⟩ := b
  have key : v ≠ .ignored → (move f o).assimilate ⟨move f src, v⟩ =
      (move f (o.assimilate ⟨src, v⟩).1, (o.assimilate ⟨src, v⟩).2.map (move f)) := by
    intro _
    unfold Options.assimilate
    dsimp only
    rw [update]
    refine Prod.ext rfl ?_
    dsimp only
    cases (o.update src v).2 with
    | none => rfl
    | some e => cases e <;> rfl
  cases v
  case ignored => rfl
  all_goals exact key (fun h => by cases h)

theorem option (d : PragmaData) (b : BOption) : (data f d).option (move f b) = data f (d.option b) := by
  have key : ∀ (d : PragmaData) (r : Options × Option Report),
      (match r.2.map (move f) with
        | some e => PragmaData.report { data f d with options := move f r.1 } e
        | none => { data f d with options := move f r.1 }) =
      data f (match r.2 with
        | some e => PragmaData.report { d with options := r.1 } e
        | none => { d with options := r.1 }) := by
    rintro d ⟨o, _ | e⟩
    · rfl
    · exact report f { d with options := o } e
  have h := key d (d.options.assimilate b)
  unfold PragmaData.option
  rw [show (data f d).options.assimilate (move f b) = _ from assimilate f d.options b]
  exact h

/-! ### Directives -/

def tagStep (own : List (Spanned Str)) (e : Spanned Str × List (Spanned Str)) : List (Spanned Str) :=
  if SSet.has own e.1.item then own
  else SSet.insert own (match e.2.getLast? with
    | some t => t
    | none => e.1)

theorem tagStep_move (own : List (Spanned Str)) (e : Spanned Str × List (Spanned Str)) :
    tagStep (move f own) (move f e) = move f (tagStep own e) := by
  unfold tagStep
  rw [show (move f e).1.item = e.1.item from rfl, sethas,
    show (move f e).2.getLast? = _ from List.getLast?_map (f := move f) (l := e.2)]
  split
  · rfl
  · cases e.2.getLast? with
    | none => exact setinsert f own e.1
    | some t => exact setinsert f own t

theorem augmentTags (own : List (Spanned Str)) (tags : TagStacks) :
    Lima.augmentTags (move f own) (move f tags) = move f (Lima.augmentTags own tags) := by
  change (tags.map (move f)).foldl tagStep _ = move f (tags.foldl tagStep own)
  induction tags generalizing own with
  | nil => rfl
  | cons e tags ih => rw [List.map_cons, List.foldl_cons, List.foldl_cons, tagStep_move, ih]

def keyStep (own : List (Spanned Str × Spanned MetaValue)) (e : Spanned Str × List (Span × Spanned MetaValue)) :
    Option (List (Spanned Str × Spanned MetaValue)) :=
  if SMap.has own e.1.item then some own
  else match e.2.getLast? with
    | some (keySpan, value) => some (SMap.insert own ⟨e.1.item, keySpan⟩ value)
    | none => none

theorem keyStep_move (own : List (Spanned Str × Spanned MetaValue)) (e : Spanned Str × List (Span × Spanned MetaValue)) :
    keyStep (move f own) (move f e) = (keyStep own e).map (move f) := by
  unfold keyStep
  rw [show (move f e).1.item = e.1.item from rfl, shas,
    show (move f e).2.getLast? = _ from List.getLast?_map (f := move f) (l := e.2)]
  split
  · rfl
  · cases e.2.getLast? with
    | none => rfl
    | some t => exact congrArg some (sinsert f own ⟨e.1.item, t.1⟩ t.2)

theorem augmentKeyValues (own : List (Spanned Str × Spanned MetaValue)) (metas : MetaStacks) :
    Lima.augmentKeyValues (move f own) (move f metas) = (Lima.augmentKeyValues own metas).map (move f) := by
  change (metas.map (move f)).foldlM keyStep _ = (metas.foldlM keyStep own).map (move f)
  induction metas generalizing own with
  | nil => rfl
  | cons e metas ih =>
    rw [List.map_cons, List.foldlM_cons, List.foldlM_cons, keyStep_move]
    cases keyStep own e with
    | none => rfl
    | some own => exact ih own

theorem augment (d : PragmaData) (dir : Directive) :
    (data f d).augment (move f dir) = (d.augment dir).map (move f) := by
  unfold PragmaData.augment
  change (match Lima.augmentKeyValues (move f dir.metadata.item.keyValues) (move f d.metas) with
    | none => none
    | some kvs => some ({ move f dir with metadata :=
        ⟨⟨kvs, Lima.augmentTags (move f dir.metadata.item.tags) (move f d.tags), move f dir.metadata.item.links⟩,
          f dir.metadata.span⟩ } : Directive)) = _
  rw [augmentKeyValues, augmentTags]
  cases Lima.augmentKeyValues dir.metadata.item.keyValues d.metas with
  | none => rfl
  | some kvs => rfl

/-! ### Contexts -/

theorem valueEq (a b : MetaValue) : (move f a).eq (move f b) = a.eq b := by
  cases a <;> cases b <;> rfl

theorem listEq_map {α : Type} {eq : α → α → Bool} {g : α → α} : ∀ {l m : List α},
    (∀ a ∈ l, ∀ b ∈ m, eq (g a) (g b) = eq a b) → listEq eq (l.map g) (m.map g) = listEq eq l m
  | [], [], _ => rfl
  | [], _ :: _, _ => rfl
  | _ :: _, [], _ => rfl
  | a :: l, b :: m, h => by
    change (eq (g a) (g b) && listEq eq (l.map g) (m.map g)) = (eq a b && listEq eq l m)
    rw [h a (by simp) b (by simp), listEq_map fun x hx y hy => h x (by simp [hx]) y (by simp [hy])]

theorem sbeq {ν : Type} [Places ν] {eq : ν → ν → Bool} {m n : List (Spanned Str × ν)}
    (h : ∀ a ∈ m, ∀ b ∈ n, eq (move f a.2) (move f b.2) = eq a.2 b.2) :
    SMap.beq eq (move f m) (move f n) = SMap.beq eq m n := by
  unfold SMap.beq
  change (decide ((m.map (move f)).length = (n.map (move f)).length) && (m.map (move f)).all _) = _
  rw [List.length_map, List.length_map, List.all_map]
  congr 1
  rw [Bool.eq_iff_iff, List.all_eq_true, List.all_eq_true]
  refine forall₂_congr fun e he => ?_
  change (match SMap.get (move f n) e.1.item with | some v => eq (move f e.2) v | none => false) = true ↔ _
  rw [sget]
  cases hg : SMap.get n e.1.item with
  | none => rfl
  | some v =>
    obtain ⟨x, hx, rfl⟩ := smap_get_mem hg
    change eq (move f e.2) (move f x.2) = true ↔ _
    rw [h e he x hx]

/-- The pushed keys are at places which are told apart. -/
def Keyed (K : Span → Prop) (metas : MetaStacks) : Prop := ∀ e ∈ metas, ∀ v ∈ e.2, K v.1

variable {K : Span → Prop} (hK : ∀ a b, K a → K b → f a = f b → a = b)
include hK

theorem sameContext (c : IncludeContext) (d : PragmaData) (hc : Keyed K c.metas) (hd : Keyed K d.metas) :
    Lima.sameContext (ctx f c) (data f d) = Lima.sameContext c d := by
  unfold Lima.sameContext
  change (SMap.beq _ (move f c.tags) (move f d.tags) && SMap.beq _ (move f c.metas) (move f d.metas)) = _
  rw [sbeq, sbeq]
  · intro a ha b hb
    refine listEq_map fun x hx y hy => ?_
    change (decide (f x.1 = f y.1) && (move f x.2.item).eq (move f y.2.item)) = _
    rw [valueEq]
    congr 1
    rw [decide_eq_decide]
    exact ⟨hK _ _ (hc a ha x hx) (hd b hb y hy), fun h => by rw [h]⟩
  · intro a _ b _
    exact listEq_map fun x _ y _ => rfl

/-! ### Includes -/

structure KeyedData (K : Span → Prop) (d : PragmaData) : Prop where
  metas : Keyed K d.metas
  includeBy : ∀ e ∈ d.includeBy, Keyed K e.2.metas

variable {env env' : PragmaEnv} (he : env'.errorPaths = env.errorPaths) (hg : env'.globs = env.globs)
  (hc : env'.canonicalize = env.canonicalize)
  (hx : ∀ tags metas, env'.context (move f tags) (move f metas) = env.context tags metas)

include he hc hx in
theorem notOpened (span : Span) (d : PragmaData) (hd : KeyedData K d) (p : Path) :
    (data f d).notOpened env' (f span) p = data f (d.notOpened env span p) := by
  unfold PragmaData.notOpened
  rw [he, hc]
  cases AMap.get env.errorPaths (some p) with
  | some e => exact report f d (Report.new (str "can't read file") e span)
  | none =>
    dsimp only
    rw [show env'.context (data f d).tags (data f d).metas = env.context d.tags d.metas from hx _ _]
    generalize hr : Report.new (str "duplicate include") (str "context " ++ env.context d.tags d.metas) span = r
    have hr' : Report.new (str "duplicate include") (str "context " ++ env.context d.tags d.metas) (f span) = move f r := by
      rw [← hr]
      rfl
    rw [hr']
    cases env.canonicalize p with
    | none => exact report f d r
    | some c =>
      dsimp only
      rw [show AMap.get (data f d).includeBy c = _ from aget _ _ _]
      cases hgc : AMap.get d.includeBy c with
      | none => exact report f d r
      | some ct =>
        obtain ⟨e, hm, rfl⟩ := amap_get_mem hgc
        dsimp only [Option.map_some]
        rw [sameContext f hK e.2 d (hd.includeBy e hm) hd.metas,
          show env'.context (ctx f e.2).tags (ctx f e.2).metas = env.context e.2.tags e.2.metas from hx _ _]
        split
        · rfl
        · rw [← report]
          congr 1
          rw [← hr]
          rfl

omit hK in
include hc in
theorem opened (span : Span) (d : PragmaData) (p : Path) :
    (data f d).opened env' (f span) p = data f (d.opened env span p) := by
  unfold PragmaData.opened
  rw [hc]
  cases env.canonicalize p with
  | none => rfl
  | some c =>
    change ({ data f d with includeBy := AMap.insert (onValues (ctx f) d.includeBy) c (ctx f ⟨d.tags, d.metas, span⟩) } : PragmaData) = _
    rw [ainsert]
    rfl

/-! ### The state -/

abbrev Outputs := List (Option Path × List (Spanned Declaration))

def state (st : PragmaState) : PragmaState :=
  ⟨st.currentPath, move f st.current, onValues (move f) st.stacked, onValues (move f) st.remaining, data f st.data⟩

/-- The keys pushed by declarations are at places which are told apart. -/
def KeyedDecls (K : Span → Prop) (ds : List (Spanned Declaration)) : Prop :=
  ∀ d ∈ ds, ∀ kv, d.item = .pragma (.pushmeta kv) → K kv.key.span

structure KeyedState (K : Span → Prop) (st : PragmaState) : Prop where
  current : KeyedDecls K st.current
  stacked : ∀ e ∈ st.stacked, KeyedDecls K e.2
  remaining : ∀ e ∈ st.remaining, KeyedDecls K e.2
  data : KeyedData K st.data

include he hc hx in
theorem includeOne (span : Span) (st : PragmaState) (hs : KeyedState K st) (p : Path) :
    (state f st).includeOne env' (f span) p = state f (st.includeOne env span p) := by
  unfold PragmaState.includeOne
  rw [show AMap.get (state f st).remaining (some p) = _ from aget _ _ _]
  cases AMap.get st.remaining (some p) with
  | some ds =>
    dsimp only [Option.map_some]
    rw [show (state f st).data = data f st.data from rfl, opened f hc,
      show (state f st).remaining = onValues (move f) st.remaining from rfl, aerase]
    rfl
  | none =>
    dsimp only [Option.map_none]
    rw [show (state f st).data = data f st.data from rfl, notOpened f hK he hc hx span _ hs.data]
    rfl

omit hK in
theorem KeyedData.report {d : PragmaData} (h : KeyedData K d) (e : Report) : KeyedData K (d.report e) :=
  ⟨h.metas, h.includeBy⟩

omit hK in
theorem KeyedData.notOpened {d : PragmaData} (h : KeyedData K d) {span : Span} {p : Path} :
    KeyedData K (d.notOpened env span p) := by
  unfold PragmaData.notOpened
  split
  · exact h.report _
  · dsimp only
    split
    · split
      · split
        · exact h
        · exact h.report _
      · exact h.report _
    · exact h.report _

omit hK in
theorem mem_ainsert {κ ν : Type} [DecidableEq κ] {m : List (κ × ν)} {k : κ} {v : ν} {e : κ × ν}
    (h : e ∈ AMap.insert m k v) : e ∈ m ∨ e.2 = v := by
  unfold AMap.insert at h
  split at h
  · obtain ⟨x, hx, rfl⟩ := List.mem_map.mp h
    split
    · exact .inr rfl
    · exact .inl hx
  · rcases List.mem_append.mp h with h | h
    · exact .inl h
    · rw [List.mem_singleton.mp h]
      exact .inr rfl

omit hK in
theorem KeyedData.opened {d : PragmaData} (h : KeyedData K d) {span : Span} {p : Path} :
    KeyedData K (d.opened env span p) := by
  unfold PragmaData.opened
  split
  · refine ⟨h.metas, fun e hm => ?_⟩
    rcases mem_ainsert hm with hm | hm
    · exact h.includeBy e hm
    · rw [hm]
      exact h.metas
  · exact h

omit hK in
theorem KeyedState.includeOne {st : PragmaState} (h : KeyedState K st) (span : Span) (p : Path) :
    KeyedState K (st.includeOne env span p) := by
  unfold PragmaState.includeOne
  split
  · rename_i ds hgt
    obtain ⟨e, hm, rfl⟩ := amap_get_mem hgt
    refine ⟨h.remaining e hm, fun e' hm' => ?_, fun e' hm' => h.remaining e' (List.mem_of_mem_filter hm'), h.data.opened⟩
    rcases List.mem_cons.mp hm' with rfl | hm'
    · exact h.current
    · exact h.stacked e' hm'
  · exact ⟨h.current, h.stacked, h.remaining, h.data.notOpened⟩

omit hK in
theorem KeyedState.foldl (span : Span) : ∀ (ps : List Path) {st : PragmaState}, KeyedState K st →
    KeyedState K (ps.foldl (PragmaState.includeOne env span) st)
  | [], _, h => h
  | p :: ps, _, h => KeyedState.foldl span ps (h.includeOne span p)

include he hc hx in
theorem foldl_includeOne (span : Span) : ∀ (ps : List Path) (st : PragmaState), KeyedState K st →
    ps.foldl (PragmaState.includeOne env' (f span)) (state f st) = state f (ps.foldl (PragmaState.includeOne env span) st)
  | [], _, _ => rfl
  | p :: ps, st, h => by
    rw [List.foldl_cons, List.foldl_cons, includeOne f hK he hc hx span st h p,
      foldl_includeOne span ps _ (h.includeOne span p)]

include he hg hc hx in
theorem includeGlob (st : PragmaState) (hs : KeyedState K st) (rel : Spanned Str) :
    (state f st).includeGlob env' (move f rel) = (st.includeGlob env rel).map (state f) := by
  unfold PragmaState.includeGlob
  rw [hg, show (state f st).currentPath = st.currentPath from rfl, show (move f rel).item = rel.item from rfl]
  cases AMap.get env.globs (resolveIncludedPath st.currentPath (Path.ofStr rel.item)) with
  | none => rfl
  | some g =>
    cases g with
    | error e =>
      dsimp only [Option.map_some]
      refine congrArg some ?_
      exact congrArg (fun d => ({ state f st with data := d } : PragmaState))
        (report f st.data (Report.new (str "can't expand glob") e rel.span))
    | expanded ps =>
      dsimp only [Option.map_some]
      refine congrArg some ?_
      cases ps with
      | nil =>
        exact congrArg (fun d => ({ state f st with data := d } : PragmaState)) (report f st.data
          (Report.new (str "include failed") (str "no such file") rel.span))
      | cons p ps => exact foldl_includeOne f hK he hc hx rel.span (p :: ps) st hs

omit hK in
theorem KeyedState.includeGlob {st st' : PragmaState} (h : KeyedState K st) {rel : Spanned Str}
    (hi : st.includeGlob env rel = some st') : KeyedState K st' := by
  unfold PragmaState.includeGlob at hi
  split at hi
  · cases hi
  · rename_i ps _
    cases hi
    refine KeyedState.foldl _ _ ?_
    split
    · exact ⟨h.current, h.stacked, h.remaining, h.data.report _⟩
    · exact h
  · cases hi
    exact ⟨h.current, h.stacked, h.remaining, h.data.report _⟩

/-! ### Steps -/

omit hK in
theorem KeyedData.pushmeta {d : PragmaData} (h : KeyedData K d) {kv : MetaKeyValue} (hk : K kv.key.span) :
    KeyedData K (d.pushmeta kv) := by
  unfold PragmaData.pushmeta
  split
  · rename_i o hgt
    obtain ⟨x, hxm, rfl⟩ := smap_get_mem hgt
    refine ⟨fun e hm v hv => ?_, h.includeBy⟩
    rcases smap_mem_insert hm with hm | hm
    · exact h.metas e hm v hv
    · rw [hm] at hv
      rcases List.mem_append.mp hv with hv | hv
      · exact h.metas x hxm v hv
      · rw [List.mem_singleton.mp hv]
        exact hk
  · refine ⟨fun e hm v hv => ?_, h.includeBy⟩
    rcases smap_mem_insert hm with hm | hm
    · exact h.metas e hm v hv
    · rw [hm] at hv
      rw [List.mem_singleton.mp hv]
      exact hk

omit hK in
theorem KeyedData.popmeta {d : PragmaData} (h : KeyedData K d) {k : Spanned Str} : KeyedData K (d.popmeta k) := by
  unfold PragmaData.popmeta
  split
  · rename_i o hgt
    obtain ⟨x, hxm, rfl⟩ := smap_get_mem hgt
    split
    · exact ⟨fun e hm => h.metas e (List.mem_of_mem_filter hm), h.includeBy⟩
    · refine ⟨fun e hm v hv => ?_, h.includeBy⟩
      rcases smap_mem_insert hm with hm | hm
      · exact h.metas e hm v hv
      · rw [hm] at hv
        exact h.metas x hxm v (List.dropLast_subset _ hv)
  · exact h.report _

omit hK in
theorem KeyedData.of {d d' : PragmaData} (h : KeyedData K d) (h1 : d'.metas = d.metas) (h2 : d'.includeBy = d.includeBy) :
    KeyedData K d' := ⟨h1 ▸ h.metas, h2 ▸ h.includeBy⟩

/-- What a step leads to. -/
def KeyedTurn (K : Span → Prop) : Turn → Prop
  | .yield _ st => KeyedState K st
  | .continue st => KeyedState K st
  | _ => True

def turn : Turn → Turn
  | .yield d st => .yield (move f d) (state f st)
  | .continue st => .continue (state f st)
  | .done => .done
  | .panic => .panic

omit hK in
theorem KeyedState.step {st : PragmaState} (h : KeyedState K st) : KeyedTurn K (st.step env) := by
  obtain ⟨path, current, stacked, remaining, d⟩ := st
  unfold PragmaState.step
  cases current with
  | nil =>
    cases stacked with
    | nil => trivial
    | cons e stacked =>
      exact ⟨h.stacked e (by simp), fun x hx => h.stacked x (by simp [hx]), h.remaining, h.data⟩
  | cons decl rest =>
    have hr : KeyedDecls K rest := fun x hx => h.current x (by simp [hx])
    have hrest : KeyedState K ⟨path, rest, stacked, remaining, d⟩ := ⟨hr, h.stacked, h.remaining, h.data⟩
    obtain ⟨item, span⟩ := decl
    rcases item with dir | (t | t | kv | k | g | o | p)
    · dsimp only
      split
      · exact hrest
      · trivial
    · refine ⟨hr, h.stacked, h.remaining, h.data.of ?_ ?_⟩
      · unfold PragmaData.pushtag; split <;> rfl
      · unfold PragmaData.pushtag; split <;> rfl
    · refine ⟨hr, h.stacked, h.remaining, h.data.of ?_ ?_⟩
      · unfold PragmaData.poptag; split; split <;> rfl; rfl
      · unfold PragmaData.poptag; split; split <;> rfl; rfl
    · exact ⟨hr, h.stacked, h.remaining, h.data.pushmeta (h.current ⟨.pragma (.pushmeta kv), span⟩ (by simp) kv rfl)⟩
    · exact ⟨hr, h.stacked, h.remaining, h.data.popmeta⟩
    · dsimp only
      split
      · rename_i st' hi
        exact hrest.includeGlob hi
      · trivial
    · refine ⟨hr, h.stacked, h.remaining, h.data.of ?_ ?_⟩
      · unfold PragmaData.option; dsimp only; split <;> rfl
      · unfold PragmaData.option; dsimp only; split <;> rfl
    · exact ⟨hr, h.stacked, h.remaining, h.data.of rfl rfl⟩

include he hg hc hx in
theorem step (st : PragmaState) (hs : KeyedState K st) : (state f st).step env' = turn f (st.step env) := by
  obtain ⟨path, current, stacked, remaining, d⟩ := st
  unfold PragmaState.step
  cases current with
  | nil =>
    cases stacked with
    | nil => rfl
    | cons e stacked => rfl
  | cons decl rest =>
    have hrest : KeyedState K ⟨path, rest, stacked, remaining, d⟩ :=
      ⟨fun x hx => hs.current x (by simp [hx]), hs.stacked, hs.remaining, hs.data⟩
    obtain ⟨item, span⟩ := decl
    rcases item with dir | (t | t | kv | k | g | o | p)
    · change (match (data f d).augment (move f dir) with
        | some dir => Turn.yield ⟨dir, f span⟩ (state f ⟨path, rest, stacked, remaining, d⟩) | none => .panic) = _
      rw [augment]
      dsimp only
      cases d.augment dir <;> rfl
    · change Turn.continue { state f ⟨path, rest, stacked, remaining, d⟩ with data := (data f d).pushtag (move f t) } = _
      rw [pushtag]
      rfl
    · change Turn.continue { state f ⟨path, rest, stacked, remaining, d⟩ with data := (data f d).poptag (move f t) } = _
      rw [poptag]
      rfl
    · change Turn.continue { state f ⟨path, rest, stacked, remaining, d⟩ with data := (data f d).pushmeta (move f kv) } = _
      rw [pushmeta]
      rfl
    · change Turn.continue { state f ⟨path, rest, stacked, remaining, d⟩ with data := (data f d).popmeta (move f k) } = _
      rw [popmeta]
      rfl
    · change (match (state f ⟨path, rest, stacked, remaining, d⟩).includeGlob env' (move f g) with
        | some st => Turn.continue st | none => .panic) = _
      rw [includeGlob f hK he hg hc hx _ hrest]
      dsimp only
      cases PragmaState.includeGlob env ⟨path, rest, stacked, remaining, d⟩ g <;> rfl
    · change Turn.continue { state f ⟨path, rest, stacked, remaining, d⟩ with data := (data f d).option (move f o) } = _
      rw [option]
      rfl
    · change Turn.continue { state f ⟨path, rest, stacked, remaining, d⟩ with
        data := { data f d with plugins := d.plugins.map (move f) ++ [p].map (move f) } } = _
      rw [← List.map_append]
      rfl

include he hg hc hx in
theorem collectFuel (n : Nat) (st : PragmaState) (hs : KeyedState K st) :
    (state f st).collectFuel env' n = (st.collectFuel env n).map (fun r => (move f r.1, state f r.2)) := by
  induction n generalizing st with
  | zero => rfl
  | succ n ih =>
    unfold PragmaState.collectFuel
    rw [step f hK he hg hc hx st hs]
    have h := hs.step (env := env)
    cases hst : st.step env with
    | yield d st' =>
      rw [hst] at h
      change Res.map _ ((state f st').collectFuel env' n) = _
      rw [ih st' h]
      dsimp only
      cases st'.collectFuel env n <;> rfl
    | «continue» st' =>
      rw [hst] at h
      exact ih st' h
    | done => rfl
    | panic => rfl

omit hK in
theorem size (st : PragmaState) : (state f st).size = st.size := by
  have key : ∀ m : Outputs, ((onValues (move f) m).map (fun f => f.2.length + 1)) = m.map (fun f => f.2.length + 1) := by
    intro m
    unfold onValues
    rw [List.map_map]
    refine List.map_congr_left fun e _ => ?_
    change (e.2.map _).length + 1 = _
    rw [List.length_map]
  unfold PragmaState.size
  change (st.current.map _).length + _ + _ = _
  rw [List.length_map, show (state f st).stacked = onValues (move f) st.stacked from rfl,
    show (state f st).remaining = onValues (move f) st.remaining from rfl, key, key]

include he hg hc hx in
theorem processPragmas (root : Option Path) (outs : Outputs) (o : Options) (ho : ∀ e ∈ outs, KeyedDecls K e.2) :
    Lima.processPragmas env' root (onValues (move f) outs) (move f o) =
      (Lima.processPragmas env root outs o).map (fun r => (move f r.1, data f r.2)) := by
  unfold Lima.processPragmas PragmaState.new
  rw [aget]
  cases hgt : AMap.get outs root with
  | none => rfl
  | some cur =>
    obtain ⟨e, hm, rfl⟩ := amap_get_mem hgt
    have hst : KeyedState K ⟨root, e.2, [], AMap.erase outs root, ⟨[], [], [], o, [], []⟩⟩ :=
      ⟨ho e hm, fun x hx => (by cases hx), fun x hx => ho x (List.mem_of_mem_filter hx),
        ⟨fun x hx => (by cases hx), fun x hx => by cases hx⟩⟩
    dsimp only [Option.map_some]
    rw [aerase]
    change Res.map _ ((state f ⟨root, e.2, [], AMap.erase outs root, ⟨[], [], [], o, [], []⟩⟩).collect env') = _
    unfold PragmaState.collect
    rw [size, collectFuel f hK he hg hc hx _ _ hst]
    cases PragmaState.collectFuel env _ _ <;> rfl

omit hK in
theorem finalErrors (d : PragmaData) : (data f d).finalErrors = move f d.finalErrors := by
  unfold PragmaData.finalErrors
  change d.errors.map (move f) ++ (d.metas.map (move f)).map _ ++ (d.tags.map (move f)).flatMap _ =
    List.map (move f) (d.errors ++ _ ++ _)
  rw [List.map_append, List.map_append, List.map_map, List.map_map, List.flatMap_map, List.map_flatMap]
  congr 1
  congr 1
  funext e
  change ((e.1 :: e.2).map (move f)).map _ = ((e.1 :: e.2).map _).map _
  rw [List.map_map, List.map_map]
  rfl

/-! ### Sorting -/

section
omit hK
variable {κ ν : Type} {lt : κ → κ → Bool} {key : ν → κ} {g : ν → ν}

theorem bucketPush (m : List (κ × List ν)) (k : κ) (v : ν) :
    Lima.bucketPush lt (onValues (List.map g) m) k (g v) = onValues (List.map g) (Lima.bucketPush lt m k v) := by
  induction m with
  | nil => rfl
  | cons e m ih =>
    change (if lt k e.1 then _ else if lt e.1 k then (e.1, e.2.map g) :: Lima.bucketPush lt (onValues (List.map g) m) k (g v)
      else (e.1, e.2.map g ++ [v].map g) :: onValues (List.map g) m) = onValues _ (if lt k e.1 then _ else if lt e.1 k then _ else _)
    rw [ih, ← List.map_append]
    split
    · rfl
    · split <;> rfl

theorem sortBy (hkey : ∀ v, key (g v) = key v) (l : List ν) :
    Lima.sortBy lt key (l.map g) = (Lima.sortBy lt key l).map g := by
  have hb : ∀ (l : List ν) m, (l.map g).foldl (fun m v => Lima.bucketPush lt m (key v) v) (onValues (List.map g) m) =
      onValues (List.map g) (l.foldl (fun m v => Lima.bucketPush lt m (key v) v) m) := by
    intro l
    induction l with
    | nil => intro m; rfl
    | cons x l ih =>
      intro m
      rw [List.map_cons, List.foldl_cons, List.foldl_cons, hkey, bucketPush, ih]
  have hne : ∀ (m : List (κ × List ν)) k v, (∀ b ∈ m, b.2 ≠ []) → ∀ b ∈ Lima.bucketPush lt m k v, b.2 ≠ [] := by
    intro m k v
    induction m with
    | nil =>
      intro _ b hb
      rw [List.mem_singleton.mp hb]
      simp
    | cons e m ih =>
      intro hm b hb
      unfold Lima.bucketPush at hb
      split at hb
      · rcases List.mem_cons.mp hb with rfl | hb
        · simp
        · exact hm b hb
      · split at hb
        · rcases List.mem_cons.mp hb with rfl | hb
          · exact hm _ (by simp)
          · exact ih (fun b hb => hm b (by simp [hb])) b hb
        · rcases List.mem_cons.mp hb with rfl | hb
          · simp
          · exact hm b (by simp [hb])
  have hne' : ∀ (l : List ν) m, (∀ b ∈ m, b.2 ≠ []) →
      ∀ b ∈ l.foldl (fun m v => Lima.bucketPush lt m (key v) v) m, b.2 ≠ [] := by
    intro l
    induction l with
    | nil => intro m h; exact h
    | cons x l ih => intro m h; exact ih _ (hne m _ _ h)
  unfold Lima.sortBy SortState.new
  have h0 : ∀ b ∈ ([] : List (κ × List ν)), b.2 ≠ [] := fun b hb => by cases hb
  rw [SortState.collect_eq_flat _ (.inl rfl) _ (hne' _ _ h0), SortState.collect_eq_flat _ (.inl rfl) _ (hne' _ _ h0)]
  have := hb l []
  rw [show onValues (List.map g) ([] : List (κ × List ν)) = [] from rfl] at this
  rw [this]
  unfold flatBuckets onValues
  rw [List.flatMap_map, List.map_flatMap]

end

theorem sortDirectives (ds : List (Spanned Directive)) :
    Lima.sortDirectives (move f ds) = move f (Lima.sortDirectives ds) := by
  refine sortBy (fun d => ?_) ds
  obtain ⟨⟨date, m, v⟩, span⟩ := d
  cases v <;> rfl

end Moved

end Lima
