import Mathlib.Data.List.Perm.Subperm
import Verif.Lemmas.PragmaData

/-!
# Comparing include contexts, and the data of the pragma processor after a history
-/

namespace Lima
open Lima.Spec

section
variable {κ ν : Type} [DecidableEq κ]

theorem SMap.mem_items {m : List (Spanned κ × ν)} {k : κ} :
    k ∈ m.map (·.1.item) ↔ ∃ e ∈ m, e.1.item = k := by simp

/-- Equal maps answer every look-up equally. -/
theorem SMap.beq_iff (eq : ν → ν → Bool) {m n : List (Spanned κ × ν)} (hm : SMap.Nodup m) (hn : SMap.Nodup n) :
    SMap.beq eq m n = true ↔
      ∀ k, match SMap.get m k, SMap.get n k with
        | some a, some b => eq a b = true
        | none, none => True
        | _, _ => False := by
  unfold SMap.beq
  rw [Bool.and_eq_true, decide_eq_true_eq, List.all_eq_true]
  constructor
  · rintro ⟨hlen, hall⟩ k
    have hsub : (m.map (·.1.item)) ⊆ (n.map (·.1.item)) := by
      intro x hx
      obtain ⟨e, he, rfl⟩ := SMap.mem_items.mp hx
      have := hall e he
      cases hg : SMap.get n e.1.item with
      | none => rw [hg] at this; cases this
      | some v =>
        obtain ⟨e', he', hk, _⟩ := (SMap.get_eq_some_iff hn _ _).mp hg
        exact SMap.mem_items.mpr ⟨e', he', hk⟩
    have hperm : List.Perm (m.map (·.1.item)) (n.map (·.1.item)) :=
      (List.subperm_of_subset hm hsub).perm_of_length_le (by simp [hlen])
    cases hg : SMap.get m k with
    | some a =>
      obtain ⟨e, he, hk, hv⟩ := (SMap.get_eq_some_iff hm _ _).mp hg
      have := hall e he
      rw [hk] at this
      cases hg' : SMap.get n k with
      | none => rw [hg'] at this; cases this
      | some b => rw [hg'] at this; rw [← hv]; exact this
    | none =>
      cases hg' : SMap.get n k with
      | none => trivial
      | some b =>
        obtain ⟨e, he, hk, hv⟩ := (SMap.get_eq_some_iff hn _ _).mp hg'
        have : k ∈ m.map (·.1.item) := hperm.mem_iff.mpr (SMap.mem_items.mpr ⟨e, he, hk⟩)
        obtain ⟨e', he', hk'⟩ := SMap.mem_items.mp this
        exact (SMap.get_none_iff.mp hg e' he' hk').elim
  · intro h
    constructor
    · have hperm : List.Perm (m.map (·.1.item)) (n.map (·.1.item)) := by
        rw [List.perm_ext_iff_of_nodup hm hn]
        intro k
        rw [SMap.mem_items, SMap.mem_items]
        have := h k
        constructor
        · rintro ⟨e, he, hk⟩
          cases hg : SMap.get m k with
          | none => exact absurd hk (SMap.get_none_iff.mp hg e he)
          | some a =>
            rw [hg] at this
            cases hg' : SMap.get n k with
            | none => rw [hg'] at this; exact this.elim
            | some b =>
              obtain ⟨e, he, hk, _⟩ := (SMap.get_eq_some_iff hn _ _).mp hg'
              exact ⟨e, he, hk⟩
        · rintro ⟨e, he, hk⟩
          cases hg : SMap.get n k with
          | none => exact absurd hk (SMap.get_none_iff.mp hg e he)
          | some a =>
            rw [hg] at this
            cases hg' : SMap.get m k with
            | none => rw [hg'] at this; exact this.elim
            | some b =>
              obtain ⟨e, he, hk, _⟩ := (SMap.get_eq_some_iff hm _ _).mp hg'
              exact ⟨e, he, hk⟩
      simpa using hperm.length_eq
    · intro e he
      have := h e.1.item
      have hg : SMap.get m e.1.item = some e.2 := (SMap.get_eq_some_iff hm _ _).mpr ⟨e, he, rfl, rfl⟩
      rw [hg] at this
      cases hg' : SMap.get n e.1.item with
      | none => rw [hg'] at this; exact this.elim
      | some b => rw [hg'] at this; exact this

end

theorem listEq_iff {α : Type} (eq : α → α → Bool) (l l' : List α) :
    listEq eq l l' = true ↔ l.length = l'.length ∧ ∀ x ∈ l.zip l', eq x.1 x.2 = true := by
  induction l generalizing l' with
  | nil => cases l' <;> simp [listEq]
  | cons a l ih =>
    cases l' with
    | nil => simp [listEq]
    | cons b l' =>
      simp only [listEq, Bool.and_eq_true, ih, List.length_cons, Nat.add_right_cancel_iff, List.zip_cons_cons,
        List.mem_cons, forall_eq_or_imp]
      constructor
      · rintro ⟨h, h', h''⟩; exact ⟨h', h, h''⟩
      · rintro ⟨h, h', h''⟩; exact ⟨h', h, h''⟩

theorem listEq_items (l l' : List (Spanned Str)) :
    listEq Spanned.eq l l' = true ↔ l.map (·.item) = l'.map (·.item) := by
  induction l generalizing l' with
  | nil => cases l' <;> simp [listEq]
  | cons a l ih =>
    cases l' with
    | nil => simp [listEq]
    | cons b l' => simp [listEq, ih, Spanned.eq]

theorem decEq_iff (a b : Dec) : a.eq b = true ↔ a.val = b.val := by
  unfold Dec.eq Dec.val
  rw [decide_eq_true_iff, div_eq_div_iff (by positivity) (by positivity)]
  exact_mod_cast Iff.rfl

theorem exprEq_iff (a : Expr) : ∀ b, a.eq b = true ↔ SameExpr a b := by
  induction a with
  | value a =>
    intro b
    cases b with
    | value b => rw [Expr.eq, decEq_iff]; exact ⟨.value, fun h => by cases h; assumption⟩
    | _ => exact ⟨fun h => (by cases h), fun h => (by cases h)⟩
  | add a a' ih ih' =>
    intro b
    cases b with
    | add b b' =>
      rw [Expr.eq, Bool.and_eq_true, ih, ih']
      exact ⟨fun h => .add h.1 h.2, fun h => by cases h; constructor <;> assumption⟩
    | _ => exact ⟨fun h => (by cases h), fun h => (by cases h)⟩
  | sub a a' ih ih' =>
    intro b
    cases b with
    | sub b b' =>
      rw [Expr.eq, Bool.and_eq_true, ih, ih']
      exact ⟨fun h => .sub h.1 h.2, fun h => by cases h; constructor <;> assumption⟩
    | _ => exact ⟨fun h => (by cases h), fun h => (by cases h)⟩
  | mul a a' ih ih' =>
    intro b
    cases b with
    | mul b b' =>
      rw [Expr.eq, Bool.and_eq_true, ih, ih']
      exact ⟨fun h => .mul h.1 h.2, fun h => by cases h; constructor <;> assumption⟩
    | _ => exact ⟨fun h => (by cases h), fun h => (by cases h)⟩
  | div a a' ih ih' =>
    intro b
    cases b with
    | div b b' =>
      rw [Expr.eq, Bool.and_eq_true, ih, ih']
      exact ⟨fun h => .div h.1 h.2, fun h => by cases h; constructor <;> assumption⟩
    | _ => exact ⟨fun h => (by cases h), fun h => (by cases h)⟩
  | neg a ih =>
    intro b
    cases b with
    | neg b => rw [Expr.eq, ih]; exact ⟨.neg, fun h => by cases h; assumption⟩
    | _ => exact ⟨fun h => (by cases h), fun h => (by cases h)⟩
  | paren a ih =>
    intro b
    cases b with
    | paren b => rw [Expr.eq, ih]; exact ⟨.paren, fun h => by cases h; assumption⟩
    | _ => exact ⟨fun h => (by cases h), fun h => (by cases h)⟩

theorem exprValueEq_iff (a b : ExprValue) : a.eq b = true ↔ SameExprValue a b := by
  rw [ExprValue.eq, Bool.and_eq_true, decEq_iff, exprEq_iff, SameExprValue]

theorem sameExpr_refl (a : Expr) : SameExpr a a := by
  induction a with
  | value => exact .value rfl
  | add _ _ h h' => exact .add h h'
  | sub _ _ h h' => exact .sub h h'
  | mul _ _ h h' => exact .mul h h'
  | div _ _ h h' => exact .div h h'
  | neg _ h => exact .neg h
  | paren _ h => exact .paren h

/-- Metadata values compare as they are written. -/
theorem metaValueEq_iff (a b : MetaValue) : a.eq b = true ↔ SameMetaValue a b := by
  cases a with
  | simple a =>
    cases b with
    | amount b => exact ⟨fun h => (by cases h), fun h => (by cases h)⟩
    | simple b =>
      rw [MetaValue.eq]
      by_cases h : ∃ x y, a = .expr x ∧ b = .expr y
      · obtain ⟨x, y, rfl, rfl⟩ := h
        rw [SimpleValue.eq, exprValueEq_iff]
        refine ⟨.expr, fun h => ?_⟩
        cases h with
        | same => exact ⟨rfl, sameExpr_refl _⟩
        | expr h => exact h
      · have : a.eq b = decide (a = b) := by
          unfold SimpleValue.eq
          split
          · exact absurd ⟨_, _, rfl, rfl⟩ h
          · rfl
        rw [this, decide_eq_true_iff]
        constructor
        · rintro rfl; exact .same
        · intro h'
          cases h' with
          | same => rfl
          | expr => exact absurd ⟨_, _, rfl, rfl⟩ h
  | amount a =>
    cases b with
    | simple b => exact ⟨fun h => (by cases h), fun h => (by cases h)⟩
    | amount b =>
      rw [MetaValue.eq, Bool.and_eq_true, exprValueEq_iff, decide_eq_true_iff]
      refine ⟨fun h => .amount h.1 h.2, fun h => ?_⟩
      cases h with
      | amount h1 h2 => exact ⟨h1, h2⟩

/-- Contexts compare as the open pushes they stand for. -/
theorem sameContext_iff {pre es : List Event} {ctx : IncludeContext} {d : PragmaData}
    (ht : TagsInv (openTags · pre) ctx.tags) (hm : MetasInv (openMetas · pre) ctx.metas)
    (ht' : TagsInv (openTags · es) d.tags) (hm' : MetasInv (openMetas · es) d.metas) :
    sameContext ctx d = true ↔ SameContext pre es := by
  unfold sameContext SameContext
  rw [Bool.and_eq_true, SMap.beq_iff _ ht.nodup ht'.nodup, SMap.beq_iff _ hm.nodup hm'.nodup]
  refine and_congr (forall_congr' fun t => ?_) (forall_congr' fun k => ?_)
  · rcases ht.get t with ⟨hg, hs⟩ | ⟨f, o, _, hi, hg, hs⟩ <;>
      rcases ht'.get t with ⟨hg', hs'⟩ | ⟨f', o', _, hi', hg', hs'⟩ <;> simp only [hg, hg']
    · simp [hs, hs']
    · have : openTags t es ≠ [] := by intro e; rw [e] at hs'; simp at hs'
      simp only [hs, List.map_nil, false_iff]
      intro e
      exact this (List.map_eq_nil_iff.mp e.symm)
    · have : openTags t pre ≠ [] := by intro e; rw [e] at hs; simp at hs
      simp only [hs', List.map_nil, false_iff]
      intro e
      exact this (List.map_eq_nil_iff.mp e)
    · have e1 : openTags t pre = (f :: o).reverse := by rw [hs]; simp
      have e2 : openTags t es = (f' :: o').reverse := by rw [hs']; simp
      rw [listEq_items, e1, e2, List.map_reverse, List.map_reverse]
      constructor
      · intro h
        rw [List.map_cons, List.map_cons, h, hi, hi']
      · intro h
        have := List.reverse_injective h
        simp only [List.map_cons, List.cons.injEq] at this
        exact this.2
  · rcases hm.get k with ⟨hg, hs⟩ | ⟨f, o, _, hi, hg, hs, v, hv⟩ <;>
      rcases hm'.get k with ⟨hg', hs'⟩ | ⟨f', o', _, hi', hg', hs', v', hv'⟩ <;> simp only [hg, hg']
    · simp [hs, hs']
    · have : o'.length ≠ 0 := by cases o' with
        | nil => cases hv'
        | cons => simp
      have hl : (openMetas k es).length = o'.length := by rw [hs']; simp
      rw [hs, hl, List.length_nil, false_iff]
      rintro ⟨e, _⟩
      exact this e.symm
    · have : o.length ≠ 0 := by cases o with
        | nil => cases hv
        | cons => simp
      have hl : (openMetas k pre).length = o.length := by rw [hs]; simp
      rw [hs', hl, List.length_nil, false_iff]
      rintro ⟨e, _⟩
      exact this e
    · have e1 : openMetas k pre = o.reverse := by rw [hs]; simp
      have e2 : openMetas k es = o'.reverse := by rw [hs']; simp
      rw [listEq_iff, e1, e2, List.length_reverse, List.length_reverse]
      refine and_congr_right fun hl => ?_
      rw [List.zip_eq_zipWith, List.zip_eq_zipWith, ← List.reverse_zipWith hl]
      simp [Bool.and_eq_true, metaValueEq_iff]

/-! ### The data after a history -/

/-- The recorded contexts are those of the last opening of each canonical path. -/
def IncInv (canonicalize : Path → Option Path) (opened : List (Path × List Event))
    (m : List (Path × IncludeContext)) : Prop :=
  ∀ c, match AMap.get m c with
    | none => ∀ o ∈ opened, canonicalize o.1 ≠ some c
    | some ctx => ∃ before o after, opened = before ++ o :: after ∧ canonicalize o.1 = some c ∧
        (∀ x ∈ after, canonicalize x.1 ≠ some c) ∧
        TagsInv (openTags · o.2) ctx.tags ∧ MetasInv (openMetas · o.2) ctx.metas

def msgs (l : List Report) : List (Str × Span) := l.map (fun r => (r.message, r.span))

structure DataInv (env : PragmaEnv) (p : ParserOptions) (es : List Event) (d : PragmaData) : Prop where
  tags : TagsInv (openTags · es) d.tags
  metas : MetasInv (openMetas · es) d.metas
  includeBy : IncInv env.canonicalize (openings [] es) d.includeBy
  options : d.options = optionsAfter p (optionHistory es)
  plugins : d.plugins = es.filterMap (fun e => match e.decl.item with
    | .pragma (.plugin p) => some p
    | _ => none)
  errors : msgs d.errors = allReports env p [] es

theorem openings_append (pre es : List Event) (e : Event) :
    openings pre (es ++ [e]) = openings pre es ++ e.opened.map (·, pre ++ es) := by
  induction es generalizing pre with
  | nil => simp [openings]
  | cons a es ih => simp [openings, ih]

theorem allReports_append (env : PragmaEnv) (p : ParserOptions) (pre es : List Event) (e : Event) :
    allReports env p pre (es ++ [e]) = allReports env p pre es ++ reports env p (pre ++ es) e := by
  induction es generalizing pre with
  | nil => simp [allReports]
  | cons a es ih => simp [allReports, ih]

theorem openTags_append (t : Str) (es : List Event) (e : Event) :
    openTags t (es ++ [e]) = match e.decl.item with
      | .pragma (.pushtag x) => if x.item = t then x :: openTags t es else openTags t es
      | .pragma (.poptag x) => if x.item = t then (openTags t es).tail else openTags t es
      | _ => openTags t es := by
  unfold openTags
  rw [List.foldl_append]
  rfl

theorem openMetas_append (k : Str) (es : List Event) (e : Event) :
    openMetas k (es ++ [e]) = match e.decl.item with
      | .pragma (.pushmeta kv) => if kv.key.item = k then (kv.key.span, kv.value) :: openMetas k es else openMetas k es
      | .pragma (.popmeta x) => if x.item = k then (openMetas k es).tail else openMetas k es
      | _ => openMetas k es := by
  unfold openMetas
  rw [List.foldl_append]
  rfl

theorem IncInv.harmless {env : PragmaEnv} {opened : List (Path × List Event)} {d : PragmaData}
    {pre : List Event} (h : IncInv env.canonicalize opened d.includeBy)
    (ht : TagsInv (openTags · pre) d.tags) (hm : MetasInv (openMetas · pre) d.metas) (p : Path) :
    Harmless env.canonicalize opened pre p ↔
      ∃ c ctx, env.canonicalize p = some c ∧ AMap.get d.includeBy c = some ctx ∧ sameContext ctx d = true := by
  constructor
  · rintro ⟨c, hc, before, o, after, ho, hoc, hafter, hsame⟩
    have := h c
    cases hg : AMap.get d.includeBy c with
    | none =>
      rw [hg] at this
      exact absurd hoc (this o (by rw [ho]; simp))
    | some ctx =>
      rw [hg] at this
      obtain ⟨before', o', after', ho', hoc', hafter', hT, hM⟩ := this
      have hoo : o = o' := by
        rw [ho] at ho'
        rcases List.append_eq_append_iff.mp ho' with ⟨l, h1, h2⟩ | ⟨l, h1, h2⟩
        · cases l with
          | nil => simp at h2; exact h2.1
          | cons x l =>
            simp only [List.cons_append, List.cons.injEq] at h2
            exact absurd hoc' (hafter o' (by rw [h2.2]; simp))
        · cases l with
          | nil => simp at h2; exact h2.1.symm
          | cons x l =>
            simp only [List.cons_append, List.cons.injEq] at h2
            exact absurd hoc (hafter' o (by rw [h2.2]; simp))
      subst hoo
      exact ⟨c, ctx, hc, hg, (sameContext_iff hT hM ht hm).mpr hsame⟩
  · rintro ⟨c, ctx, hc, hg, hsame⟩
    have := h c
    rw [hg] at this
    obtain ⟨before, o, after, ho, hoc, hafter, hT, hM⟩ := this
    exact ⟨c, hc, before, o, after, ho, hoc, hafter, (sameContext_iff hT hM ht hm).mp hsame⟩

theorem notOpened_spec {env : PragmaEnv} {opened : List (Path × List Event)} {d : PragmaData}
    {pre : List Event} (h : IncInv env.canonicalize opened d.includeBy)
    (ht : TagsInv (openTags · pre) d.tags) (hm : MetasInv (openMetas · pre) d.metas) (span : Span) (p : Path) :
    ∃ new, d.notOpened env span p = { d with errors := d.errors ++ new } ∧
      msgs new = notOpenedReport env opened pre span p := by
  have hh := h.harmless ht hm p
  unfold PragmaData.notOpened notOpenedReport
  cases he : AMap.get env.errorPaths (some p) with
  | some e => exact ⟨_, rfl, by simp [msgs, Report.new, str]⟩
  | none =>
    simp only [reduceCtorEq, exists_false, if_false]
    cases hc : env.canonicalize p with
    | none =>
      refine ⟨_, rfl, ?_⟩
      rw [if_neg (fun x => by obtain ⟨_, _, h1, _⟩ := hh.mp x; rw [hc] at h1; cases h1)]
      simp [msgs, Report.new, str]
    | some c =>
      simp only
      cases hg : AMap.get d.includeBy c with
      | none =>
        refine ⟨_, rfl, ?_⟩
        rw [if_neg (fun x => by
          obtain ⟨_, _, h1, h2, _⟩ := hh.mp x; rw [hc] at h1; cases h1; rw [hg] at h2; cases h2)]
        simp [msgs, Report.new, str]
      | some ctx =>
        simp only
        cases hs : sameContext ctx d with
        | true =>
          refine ⟨[], by simp, ?_⟩
          rw [if_pos (hh.mpr ⟨c, ctx, hc, hg, hs⟩)]
          rfl
        | false =>
          refine ⟨_, rfl, ?_⟩
          rw [if_neg (fun x => by
            obtain ⟨_, _, h1, h2, h3⟩ := hh.mp x
            rw [hc] at h1; cases h1; rw [hg] at h2; cases h2; rw [hs] at h3; cases h3)]
          simp [msgs, Report.new, Report.relatedToNamedSpan, str]

theorem opened_spec {env : PragmaEnv} {opened : List (Path × List Event)} {d : PragmaData}
    {pre : List Event} (h : IncInv env.canonicalize opened d.includeBy)
    (ht : TagsInv (openTags · pre) d.tags) (hm : MetasInv (openMetas · pre) d.metas) (span : Span) (p : Path) :
    IncInv env.canonicalize (opened ++ [(p, pre)]) (d.opened env span p).includeBy := by
  intro c
  unfold PragmaData.opened
  have hkeep : env.canonicalize p ≠ some c →
      match AMap.get d.includeBy c with
      | none => ∀ o ∈ opened ++ [(p, pre)], env.canonicalize o.1 ≠ some c
      | some ctx => ∃ before o after, opened ++ [(p, pre)] = before ++ o :: after ∧ env.canonicalize o.1 = some c ∧
        (∀ x ∈ after, env.canonicalize x.1 ≠ some c) ∧
        TagsInv (openTags · o.2) ctx.tags ∧ MetasInv (openMetas · o.2) ctx.metas := by
    intro hne
    have := h c
    cases hg : AMap.get d.includeBy c with
    | none =>
      rw [hg] at this
      intro o ho
      rcases List.mem_append.mp ho with ho | ho
      · exact this o ho
      · simp at ho; subst ho; exact hne
    | some ctx =>
      rw [hg] at this
      obtain ⟨before, o, after, ho, hoc, hafter, hT, hM⟩ := this
      refine ⟨before, o, after ++ [(p, pre)], by rw [ho]; simp, hoc, ?_, hT, hM⟩
      intro x hx
      rcases List.mem_append.mp hx with hx | hx
      · exact hafter x hx
      · simp at hx; subst hx; exact hne
  cases hc : env.canonicalize p with
  | none => exact hkeep (by rw [hc]; simp)
  | some c' =>
    simp only
    by_cases hcc : c' = c
    · subst hcc
      rw [AMap.get_insert, if_pos rfl]
      exact ⟨opened, (p, pre), [], rfl, hc, by simp, ht, hm⟩
    · rw [AMap.get_insert, if_neg hcc]
      exact hkeep (by rw [hc]; simpa using hcc)

theorem applyPaths_spec {env : PragmaEnv} {pre : List Event} (files : FileMap) (span : Span) (paths : List Path) :
    ∀ (d : PragmaData) (opened : List (Path × List Event)) (v : List (Option Path)),
      IncInv env.canonicalize opened d.includeBy → TagsInv (openTags · pre) d.tags →
      MetasInv (openMetas · pre) d.metas →
      ∃ inc new, applyPaths env span d (fresh files v paths) paths =
          { d with includeBy := inc, errors := d.errors ++ new } ∧
        IncInv env.canonicalize (opened ++ (fresh files v paths).map (·, pre)) inc ∧
        msgs new = pathReports env pre span opened (fresh files v paths) paths := by
  induction paths with
  | nil =>
    intro d opened v hi ht hm
    exact ⟨d.includeBy, [], by simp [applyPaths], by simpa [fresh] using hi, rfl⟩
  | cons p ps ih =>
    intro d opened v hi ht hm
    unfold applyPaths pathReports
    by_cases hp : (files (some p)).isSome ∧ some p ∉ v
    · have hf : fresh files v (p :: ps) = p :: fresh files (some p :: v) ps := by
        rw [fresh, if_pos hp]
      rw [hf, if_pos (by simp), if_pos (by simp), List.erase_cons_head]
      obtain ⟨inc, new, h1, h2, h3⟩ := ih (d.opened env span p) (opened ++ [(p, pre)]) (some p :: v)
        (opened_spec hi ht hm span p)
        (by unfold PragmaData.opened; split <;> exact ht) (by unfold PragmaData.opened; split <;> exact hm)
      refine ⟨inc, new, ?_, by simpa using h2, h3⟩
      rw [h1]
      unfold PragmaData.opened
      split <;> rfl
    · have hf : fresh files v (p :: ps) = fresh files v ps := by
        rw [fresh, if_neg hp]
      have hnm : p ∉ fresh files v ps := fun h => hp (fresh_mem h).2
      rw [hf, if_neg hnm, if_neg hnm]
      obtain ⟨new, hn, hmsg⟩ := notOpened_spec hi ht hm span p
      rw [hn]
      obtain ⟨inc, new', h1, h2, h3⟩ := ih { d with errors := d.errors ++ new } opened v hi ht hm
      exact ⟨inc, new ++ new', by rw [h1]; simp, h2, by rw [← h3, ← hmsg]; simp [msgs]⟩

/-- What an event opens is what the include it is stands for. -/
def EventOK (files : FileMap) (expand : Option Path → List Char → List Path) (e : Event) : Prop :=
  (∃ g v, e.decl.item = .pragma (.include g) ∧ e.opened = fresh files v (expand e.path g.item)) ∨
  ((∀ g, e.decl.item ≠ .pragma (.include g)) ∧ e.opened = [])

theorem _root_.Lima.Spec.Splice.eventOK {files : FileMap} {expand : Option Path → List Char → List Path}
    {v v' : List (Option Path)} {task : Task} {es : List Event} (h : Splice files expand v task es v') :
    ∀ e ∈ es, EventOK files expand e := by
  induction h with
  | nil => simp
  | plain v v' p d ds es h rest ih =>
    intro e he
    rcases List.mem_cons.mp he with rfl | he
    · exact .inr ⟨h, rfl⟩
    · exact ih e he
  | «include» v v1 v2 p d g ds es es' h included rest ih ih' =>
    intro e he
    rcases List.mem_cons.mp he with rfl | he
    · exact .inl ⟨g, v, h, rfl⟩
    · rcases List.mem_append.mp he with he | he
      · exact ih e he
      · exact ih' e he
  | none => simp
  | file v v1 v2 q qs ds es es' h body rest ih ih' =>
    intro e he
    rcases List.mem_append.mp he with he | he
    · exact ih e he
    · exact ih' e he

theorem DataInv.initial (env : PragmaEnv) (p : ParserOptions) :
    DataInv env p [] { includeBy := [], tags := [], metas := [], options := Options.new p, plugins := [], errors := [] } := by
  refine ⟨⟨by simp [SMap.Nodup], by simp, fun t h => absurd rfl h⟩,
    ⟨by simp [SMap.Nodup], by simp, fun t h => absurd rfl h⟩, ?_, rfl, rfl, rfl⟩
  intro c
  simp [AMap.get_nil, openings]

theorem DataInv.step {files : FileMap} {env : PragmaEnv} {p : ParserOptions} {es : List Event} {d : PragmaData}
    (h : DataInv env p es d) {e : Event} (he : EventOK files (expansion (AMap.get env.globs)) e) :
    DataInv env p (es ++ [e]) (applyEvent env d e) := by
  have hopen : openings [] (es ++ [e]) = openings [] es ++ e.opened.map (·, es) := openings_append [] es e
  have hrep : allReports env p [] (es ++ [e]) = allReports env p [] es ++ reports env p es e :=
    allReports_append env p [] es e
  have hopt : optionHistory (es ++ [e]) = optionHistory es ++ optionHistory [e] := by
    simp [optionHistory]
  rcases he with ⟨g, v, hi, ho⟩ | ⟨hni, ho⟩
  · have hT : ∀ t, openTags t (es ++ [e]) = openTags t es := by intro t; rw [openTags_append, hi]
    have hM : ∀ t, openMetas t (es ++ [e]) = openMetas t es := by intro t; rw [openMetas_append, hi]
    have hO : optionHistory (es ++ [e]) = optionHistory es := by rw [hopt]; simp [optionHistory, hi]
    have hP := h.plugins
    unfold applyEvent
    rw [hi]
    simp only
    unfold expansion at ho
    cases hg : AMap.get env.globs (resolveIncludedPath e.path (Path.ofStr g.item)) with
    | none =>
      rw [hg] at ho
      simp only [fresh] at ho
      refine ⟨by simpa [hT] using h.tags, by simpa [hM] using h.metas, by simpa [hopen, ho] using h.includeBy,
        by rw [hO]; exact h.options, by simp [hP, hi], ?_⟩
      rw [hrep, h.errors]
      simp [reports, hi, hg]
    | some ig =>
      cases ig with
      | error msg =>
        rw [hg] at ho
        simp only [fresh] at ho
        refine ⟨by simpa [hT, PragmaData.report] using h.tags, by simpa [hM, PragmaData.report] using h.metas,
          by simpa [hopen, ho, PragmaData.report] using h.includeBy,
          by rw [hO]; exact h.options, by simp [PragmaData.report, hP, hi], ?_⟩
        rw [hrep, ← h.errors]
        simp [reports, hi, hg, PragmaData.report, msgs, Report.new, str]
      | expanded paths =>
        rw [hg] at ho
        simp only at ho ⊢
        cases paths with
        | nil =>
          simp only [fresh] at ho
          refine ⟨by simpa [hT, PragmaData.report, applyPaths] using h.tags,
            by simpa [hM, PragmaData.report, applyPaths] using h.metas,
            by simpa [hopen, ho, PragmaData.report, applyPaths] using h.includeBy,
            by rw [hO]; exact h.options, by simp [PragmaData.report, hP, hi, applyPaths], ?_⟩
          rw [hrep, ← h.errors]
          simp [reports, hi, hg, PragmaData.report, msgs, Report.new, str, applyPaths]
        | cons q qs =>
          simp only [List.isEmpty_cons, Bool.false_eq_true, if_false]
          obtain ⟨inc, new, h1, h2, h3⟩ := applyPaths_spec files g.span (q :: qs) d (openings [] es) v
            h.includeBy h.tags h.metas
          rw [ho, h1]
          refine ⟨by simpa [hT] using h.tags, by simpa [hM] using h.metas, by rw [hopen, ho]; exact h2,
            by rw [hO]; exact h.options, by simp [hP, hi], ?_⟩
          rw [hrep, ← h.errors]
          simp only [reports, hi, hg]
          rw [ho, ← h3]
          simp [msgs]
  · have hI : IncInv env.canonicalize (openings [] (es ++ [e])) d.includeBy := by
      rw [hopen, ho]; simpa using h.includeBy
    have hP := h.plugins
    have hT := h.tags
    have hM := h.metas
    have hE := h.errors
    unfold applyEvent
    cases hd : e.decl.item with
    | directive dir =>
      refine ⟨?_, ?_, hI, ?_, by simp [hP, hd], ?_⟩
      · simpa [openTags_append, hd] using hT
      · simpa [openMetas_append, hd] using hM
      · rw [hopt, h.options]; simp [optionHistory, hd]
      · rw [hrep, hE]; simp [reports, hd]
    | pragma pr =>
      cases pr with
      | pushtag x =>
        have hrest : (d.pushtag x).metas = d.metas ∧ (d.pushtag x).includeBy = d.includeBy ∧
            (d.pushtag x).options = d.options ∧ (d.pushtag x).plugins = d.plugins ∧
            (d.pushtag x).errors = d.errors := by
          unfold PragmaData.pushtag; split <;> exact ⟨rfl, rfl, rfl, rfl, rfl⟩
        obtain ⟨e1, e2, e3, e4, e5⟩ := hrest
        refine ⟨?_, ?_, by simp only; rw [e2]; exact hI, ?_, ?_, ?_⟩
        · have hf : (openTags · (es ++ [e])) = pushStack (openTags · es) x := by
            funext t; simp only [openTags_append, hd]; rfl
          rw [hf]
          exact hT.push x
        · simp only; rw [e1]; simpa [openMetas_append, hd] using hM
        · simp only; rw [e3, hopt, h.options]; simp [optionHistory, hd]
        · simp only; rw [e4]; simp [hP, hd]
        · simp only; rw [e5, hrep, hE]; simp [reports, hd]
      | poptag x =>
        have hrest : (d.poptag x).metas = d.metas ∧ (d.poptag x).includeBy = d.includeBy ∧
            (d.poptag x).options = d.options ∧ (d.poptag x).plugins = d.plugins := by
          unfold PragmaData.poptag; split
          · split <;> exact ⟨rfl, rfl, rfl, rfl⟩
          · exact ⟨rfl, rfl, rfl, rfl⟩
        obtain ⟨e1, e2, e3, e4⟩ := hrest
        obtain ⟨h1, h2⟩ := hT.pop x
        refine ⟨?_, ?_, by simp only; rw [e2]; exact hI, ?_, ?_, ?_⟩
        · have hf : (openTags · (es ++ [e])) = popStack (openTags · es) x.item := by
            funext t; simp only [openTags_append, hd]; rfl
          rw [hf]
          exact h1
        · simp only; rw [e1]; simpa [openMetas_append, hd] using hM
        · simp only; rw [e3, hopt, h.options]; simp [optionHistory, hd]
        · simp only; rw [e4]; simp [hP, hd]
        · have hr : reports env p es e =
              if openTags x.item es = [] then [(str "invalid poptag", x.span)] else [] := by
            unfold reports; rw [hd]
          simp only
          rw [msgs, h2, hrep, ← hE, hr]
          rfl
      | pushmeta x =>
        have hrest : (d.pushmeta x).tags = d.tags ∧ (d.pushmeta x).includeBy = d.includeBy ∧
            (d.pushmeta x).options = d.options ∧ (d.pushmeta x).plugins = d.plugins ∧
            (d.pushmeta x).errors = d.errors := by
          unfold PragmaData.pushmeta; split <;> exact ⟨rfl, rfl, rfl, rfl, rfl⟩
        obtain ⟨e1, e2, e3, e4, e5⟩ := hrest
        refine ⟨?_, ?_, by simp only; rw [e2]; exact hI, ?_, ?_, ?_⟩
        · simp only; rw [e1]; simpa [openTags_append, hd] using hT
        · have hf : (openMetas · (es ++ [e])) = mpushStack (openMetas · es) x := by
            funext t; simp only [openMetas_append, hd]; rfl
          rw [hf]
          exact hM.push x
        · simp only; rw [e3, hopt, h.options]; simp [optionHistory, hd]
        · simp only; rw [e4]; simp [hP, hd]
        · simp only; rw [e5, hrep, hE]; simp [reports, hd]
      | popmeta x =>
        have hrest : (d.popmeta x).tags = d.tags ∧ (d.popmeta x).includeBy = d.includeBy ∧
            (d.popmeta x).options = d.options ∧ (d.popmeta x).plugins = d.plugins := by
          unfold PragmaData.popmeta; split
          · split <;> exact ⟨rfl, rfl, rfl, rfl⟩
          · exact ⟨rfl, rfl, rfl, rfl⟩
        obtain ⟨e1, e2, e3, e4⟩ := hrest
        obtain ⟨h1, h2⟩ := hM.pop x
        refine ⟨?_, ?_, by simp only; rw [e2]; exact hI, ?_, ?_, ?_⟩
        · simp only; rw [e1]; simpa [openTags_append, hd] using hT
        · have hf : (openMetas · (es ++ [e])) = mpopStack (openMetas · es) x.item := by
            funext t; simp only [openMetas_append, hd]; rfl
          rw [hf]
          exact h1
        · simp only; rw [e3, hopt, h.options]; simp [optionHistory, hd]
        · simp only; rw [e4]; simp [hP, hd]
        · have hr : reports env p es e =
              if openMetas x.item es = [] then [(str "invalid popmeta", x.span)] else [] := by
            unfold reports; rw [hd]
          simp only
          rw [msgs, h2, hrep, ← hE, hr]
          rfl
      | «include» x => exact absurd hd (hni x)
      | option o =>
        have hoh : optionHistory (es ++ [e]) = optionHistory es ++ [o] := by
          rw [hopt]; simp [optionHistory, hd]
        have hrest : (d.option o).tags = d.tags ∧ (d.option o).metas = d.metas ∧
            (d.option o).includeBy = d.includeBy ∧ (d.option o).plugins = d.plugins ∧
            (d.option o).options = (d.options.assimilate o).1 ∧
            msgs (d.option o).errors = msgs d.errors ++
              ((d.options.assimilate o).2.map (fun r => (r.message, r.span))).toList := by
          unfold PragmaData.option
          simp only
          cases hr : (d.options.assimilate o).2 <;> simp [PragmaData.report, msgs]
        obtain ⟨e1, e2, e3, e4, e5, e6⟩ := hrest
        refine ⟨?_, ?_, by simp only; rw [e3]; exact hI, ?_, ?_, ?_⟩
        · simp only; rw [e1]; simpa [openTags_append, hd] using hT
        · simp only; rw [e2]; simpa [openMetas_append, hd] using hM
        · simp only; rw [e5, hoh, Props.optionsAfter_append, h.options]
        · simp only; rw [e4]; simp [hP, hd]
        · simp only; rw [e6, hrep, hE, h.options]; simp [reports, hd]
      | plugin pl =>
        refine ⟨?_, ?_, hI, ?_, by simp [hP, hd], ?_⟩
        · simpa [openTags_append, hd] using hT
        · simpa [openMetas_append, hd] using hM
        · rw [hopt]; simp [optionHistory, hd, h.options]
        · rw [hrep, ← hE]; simp [reports, hd]

/-- The data after a history. -/
theorem DataInv.after {files : FileMap} {env : PragmaEnv} {p : ParserOptions} {es : List Event}
    (he : ∀ e ∈ es, EventOK files (expansion (AMap.get env.globs)) e) :
    DataInv env p es (es.foldl (applyEvent env)
      { includeBy := [], tags := [], metas := [], options := Options.new p, plugins := [], errors := [] }) := by
  induction es using Props.snocInduction with
  | nil => exact DataInv.initial env p
  | append_singleton es e ih =>
    rw [List.foldl_append]
    exact (ih (fun x hx => he x (by simp [hx]))).step (he e (by simp))

end Lima
