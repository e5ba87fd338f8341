import Verif.Lemmas.PragmaContext

/-!
# Stacks of pushes, and properties of spliced events
-/

namespace Lima
open Lima.Spec

/-! ### Stacks -/

/-- An operation on a stack. -/
inductive StackOp (α : Type) where
  | push (a : α)
  | pop
  | keep

def runStack {α : Type} (f : Event → StackOp α) (s : List α) (es : List Event) : List α :=
  es.foldl (fun s e => match f e with
    | .push a => a :: s
    | .pop => s.tail
    | .keep => s) s

section
variable {α : Type} (f : Event → StackOp α) (isPush isPop : Event → Bool)

/-- `isPush` and `isPop` tell the operations apart. -/
def Tells : Prop := ∀ e, match f e with
  | .push _ => isPush e = true ∧ isPop e = false
  | .pop => isPush e = false ∧ isPop e = true
  | .keep => isPush e = false ∧ isPop e = false

variable {f isPush isPop}

theorem runStack_append (s : List α) (es es' : List Event) :
    runStack f s (es ++ es') = runStack f (runStack f s es) es' := by
  simp [runStack]

theorem runStack_cons (s : List α) (e : Event) (es : List Event) :
    runStack f s (e :: es) = runStack f (match f e with
      | .push a => a :: s
      | .pop => s.tail
      | .keep => s) es := rfl

theorem countP_snoc (p : Event → Bool) (es : List Event) (e : Event) :
    (es ++ [e]).countP p = es.countP p + if p e then 1 else 0 := by
  simp [List.countP_append, List.countP_cons]

theorem runStack_length (h : Tells f isPush isPop) (s : List α) (es : List Event) :
    s.length + es.countP isPush ≤ (runStack f s es).length + es.countP isPop := by
  induction es using Props.snocInduction with
  | nil => simp [runStack]
  | append_singleton es e ih =>
    rw [runStack_append, countP_snoc, countP_snoc]
    have he := h e
    simp only [runStack, List.foldl_cons, List.foldl_nil] at ih ⊢
    cases hf : f e with
    | push a => rw [hf] at he; simp only [he.1, he.2, if_true, List.length_cons]; simp; omega
    | pop => rw [hf] at he; simp only [he.1, he.2, if_true, List.length_tail]; simp; omega
    | keep => rw [hf] at he; simp only [he.1, he.2]; simp; omega

theorem runStack_nested (h : Tells f isPush isPop) (s : List α) (es : List Event)
    (hn : ∀ q r, es = q ++ r → q.countP isPop ≤ q.countP isPush) :
    ∃ new, runStack f s es = new ++ s ∧ new.length + es.countP isPop = es.countP isPush := by
  induction es using Props.snocInduction with
  | nil => exact ⟨[], rfl, rfl⟩
  | append_singleton es e ih =>
    obtain ⟨new, h1, h2⟩ := ih (fun q r hq => hn q (r ++ [e]) (by rw [hq]; simp))
    have hlast := hn (es ++ [e]) [] (by simp)
    rw [countP_snoc, countP_snoc] at hlast
    have he := h e
    rw [runStack_append, h1, countP_snoc, countP_snoc]
    simp only [runStack, List.foldl_cons, List.foldl_nil]
    cases hf : f e with
    | push a =>
      rw [hf] at he
      exact ⟨a :: new, by simp, by simp [he.1, he.2]; omega⟩
    | pop =>
      rw [hf] at he
      simp only [he.1, he.2] at hlast ⊢
      cases new with
      | nil => simp at h2 hlast; omega
      | cons a new =>
        refine ⟨new, by simp, ?_⟩
        simp at h2 ⊢; omega
    | keep =>
      rw [hf] at he
      exact ⟨new, by simp, by simp [he.1, he.2]; omega⟩

theorem runStack_getElem (h : Tells f isPush isPop) (es : List Event) (n : Nat) (a : α)
    (hn : (runStack f [] es)[n]? = some a) :
    ∃ pre e post, es = pre ++ e :: post ∧ f e = .push a ∧
      (∀ q r, post = q ++ r → q.countP isPop ≤ q.countP isPush) ∧
      post.countP isPush = post.countP isPop + n := by
  induction es using Props.snocInduction generalizing n with
  | nil => simp [runStack] at hn
  | append_singleton es e ih =>
    rw [runStack_append] at hn
    simp only [runStack_cons, runStack, List.foldl_cons, List.foldl_nil] at hn
    have he := h e
    have extend : ∀ m, (runStack f [] es)[m]? = some a →
        (m + (if isPush e then 1 else 0) = n + (if isPop e then 1 else 0)) →
        ∃ pre x post, es ++ [e] = pre ++ x :: post ∧ f x = .push a ∧
          (∀ q r, post = q ++ r → q.countP isPop ≤ q.countP isPush) ∧
          post.countP isPush = post.countP isPop + n := by
      intro m hm hmn
      obtain ⟨pre, x, post, h1, h2, h3, h4⟩ := ih m hm
      refine ⟨pre, x, post ++ [e], by rw [h1]; simp, h2, ?_, ?_⟩
      · intro q r hq
        rcases List.eq_nil_or_concat r with rfl | ⟨r', y, rfl⟩
        · rw [List.append_nil] at hq
          subst hq
          rw [countP_snoc, countP_snoc]
          omega
        · have : post = q ++ r' := by
            have := congrArg List.dropLast hq
            simpa [List.dropLast_append_of_ne_nil] using this
          exact h3 q r' this
      · rw [countP_snoc, countP_snoc]; omega
    cases hf : f e with
    | push b =>
      rw [hf] at hn he
      cases n with
      | zero =>
        simp at hn
        subst hn
        refine ⟨es, e, [], rfl, hf, ?_, by simp⟩
        intro q r hq
        have : q = [] := by simp at hq; exact hq.1
        subst this; simp
      | succ n =>
        simp at hn
        exact extend n hn (by simp [he.1, he.2])
    | pop =>
      rw [hf] at hn he
      simp only [List.getElem?_tail] at hn
      exact extend (n + 1) hn (by simp [he.1, he.2])
    | keep =>
      rw [hf] at hn he
      exact extend n hn (by simp [he.1, he.2])

/-- The top of the stack is the last push closed by nothing. -/
theorem runStack_head (h : Tells f isPush isPop) (es : List Event) (a : α) :
    (runStack f [] es).head? = some a ↔
      ∃ pre e post, es = pre ++ e :: post ∧ f e = .push a ∧ Balanced isPush isPop post := by
  constructor
  · intro hh
    rw [List.head?_eq_getElem?] at hh
    obtain ⟨pre, e, post, h1, h2, h3, h4⟩ := runStack_getElem h es 0 a hh
    exact ⟨pre, e, post, h1, h2, h4, h3⟩
  · rintro ⟨pre, e, post, rfl, he, hb, hn⟩
    rw [runStack_append, runStack_cons, he]
    obtain ⟨new, h1, h2⟩ := runStack_nested h (a :: runStack f [] pre) post hn
    have : new = [] := List.eq_nil_of_length_eq_zero (by omega)
    simp only [h1, this, List.nil_append, List.head?_cons]

/-- The stack is empty exactly if no suffix has more pushes than pops. -/
theorem runStack_ne_nil (h : Tells f isPush isPop) (es : List Event) :
    runStack f [] es ≠ [] ↔ ∃ pre post, es = pre ++ post ∧ post.countP isPop < post.countP isPush := by
  constructor
  · intro hne
    obtain ⟨a, ha⟩ : ∃ a, (runStack f [] es).head? = some a := by
      cases hs : runStack f [] es with
      | nil => exact absurd hs hne
      | cons a s => exact ⟨a, rfl⟩
    obtain ⟨pre, e, post, h1, h2, h3, _⟩ := (runStack_head h es a).mp ha
    have he := h e
    rw [h2] at he
    exact ⟨pre, e :: post, h1, by simp [List.countP_cons, he.1, he.2, h3]⟩
  · rintro ⟨pre, post, rfl, hlt⟩ hnil
    rw [runStack_append] at hnil
    have := runStack_length h (runStack f [] pre) post
    rw [hnil] at this
    simp at this
    omega

end

def tagOp (t : Str) (e : Event) : StackOp (Spanned Str) :=
  match e.decl.item with
  | .pragma (.pushtag x) => if x.item = t then .push x else .keep
  | .pragma (.poptag x) => if x.item = t then .pop else .keep
  | _ => .keep

def metaOp (k : Str) (e : Event) : StackOp (Span × Spanned MetaValue) :=
  match e.decl.item with
  | .pragma (.pushmeta kv) => if kv.key.item = k then .push (kv.key.span, kv.value) else .keep
  | .pragma (.popmeta x) => if x.item = k then .pop else .keep
  | _ => .keep

theorem openTags_eq (t : Str) (es : List Event) : openTags t es = runStack (tagOp t) [] es := by
  induction es using Props.snocInduction with
  | nil => rfl
  | append_singleton es e ih =>
    rw [openTags_append, runStack_append, ← ih, runStack_cons]
    unfold tagOp
    split <;> simp only [runStack, List.foldl_nil]
    all_goals first | rfl | (split <;> rfl) | (split <;> simp_all)

theorem openMetas_eq (k : Str) (es : List Event) : openMetas k es = runStack (metaOp k) [] es := by
  induction es using Props.snocInduction with
  | nil => rfl
  | append_singleton es e ih =>
    rw [openMetas_append, runStack_append, ← ih, runStack_cons]
    unfold metaOp
    split <;> simp only [runStack, List.foldl_nil]
    all_goals first | rfl | (split <;> rfl) | (split <;> simp_all)

theorem tagOp_tells (t : Str) : Tells (tagOp t) (pushesTag t) (popsTag t) := by
  intro e
  unfold tagOp pushesTag popsTag
  cases e.decl.item with
  | directive d => simp
  | pragma p =>
    cases p with
    | pushtag x => by_cases h : x.item = t <;> simp [h]
    | poptag x => by_cases h : x.item = t <;> simp [h]
    | _ => simp

theorem metaOp_tells (k : Str) : Tells (metaOp k) (pushesMeta k) (popsMeta k) := by
  intro e
  unfold metaOp pushesMeta popsMeta
  cases e.decl.item with
  | directive d => simp
  | pragma p =>
    cases p with
    | pushmeta x => by_cases h : x.key.item = k <;> simp [h]
    | popmeta x => by_cases h : x.item = k <;> simp [h]
    | _ => simp

theorem openTags_item (t : Str) (es : List Event) : ∀ x ∈ openTags t es, x.item = t := by
  induction es using Props.snocInduction with
  | nil => intro x hx; cases hx
  | append_singleton es e ih =>
    intro x hx
    rw [openTags_append] at hx
    split at hx
    · split at hx
      · rcases List.mem_cons.mp hx with rfl | hx
        · assumption
        · exact ih x hx
      · exact ih x hx
    · split at hx
      · exact ih x (List.mem_of_mem_tail hx)
      · exact ih x hx
    · exact ih x hx

/-! ### Directives -/

def topTag (e : Spanned Str × List (Spanned Str)) : Spanned Str :=
  match e.2.getLast? with
  | some t => t
  | none => e.1

theorem mem_augmentTags (m : TagStacks) (hm : SMap.Nodup m) (htop : ∀ e ∈ m, (topTag e).item = e.1.item)
    (own : List (Spanned Str)) (t : Spanned Str) :
    t ∈ augmentTags own m ↔
      t ∈ own ∨ ((∀ u ∈ own, u.item ≠ t.item) ∧ ∃ e ∈ m, e.1.item = t.item ∧ topTag e = t) := by
  induction m generalizing own with
  | nil => simp [augmentTags]
  | cons e m ih =>
    have hm' : SMap.Nodup m := (List.nodup_cons.mp hm).2
    have hne : ∀ x ∈ m, x.1.item ≠ e.1.item := by
      intro x hx hk
      exact (List.nodup_cons.mp hm).1 (List.mem_map.mpr ⟨x, hx, hk⟩)
    have ih' := ih hm' (fun x hx => htop x (by simp [hx]))
    have hstep : augmentTags own (e :: m) = augmentTags
        (if SSet.has own e.1.item then own else SSet.insert own (topTag e)) m := rfl
    rw [hstep]
    by_cases hh : SSet.has own e.1.item = true
    · rw [if_pos hh, ih']
      obtain ⟨u, hu, hui⟩ := (SSet.has_iff _ _).mp hh
      constructor
      · rintro (h | ⟨h1, x, hx, h2, h3⟩)
        · exact .inl h
        · exact .inr ⟨h1, x, by simp [hx], h2, h3⟩
      · rintro (h | ⟨h1, x, hx, h2, h3⟩)
        · exact .inl h
        · rcases List.mem_cons.mp hx with rfl | hx
          · exact absurd (hui.trans h2) (h1 u hu)
          · exact .inr ⟨h1, x, hx, h2, h3⟩
    · rw [if_neg hh, ih']
      have htope := htop e (by simp)
      have hins : SSet.insert own (topTag e) = own ++ [topTag e] := by
        unfold SSet.insert
        rw [htope, if_neg hh]
      have hown : ∀ u ∈ own, u.item ≠ e.1.item := fun u hu hk => hh ((SSet.has_iff _ _).mpr ⟨u, hu, hk⟩)
      rw [hins]
      constructor
      · rintro (h | ⟨h1, x, hx, h2, h3⟩)
        · rcases List.mem_append.mp h with h | h
          · exact .inl h
          · simp at h
            subst h
            refine .inr ⟨?_, e, by simp, htope.symm, rfl⟩
            intro u hu
            rw [htope]
            exact hown u hu
        · exact .inr ⟨fun u hu => h1 u (by simp [hu]), x, by simp [hx], h2, h3⟩
      · rintro (h | ⟨h1, x, hx, h2, h3⟩)
        · exact .inl (by simp [h])
        · rcases List.mem_cons.mp hx with rfl | hx
          · exact .inl (by simp [h3])
          · refine .inr ⟨?_, x, hx, h2, h3⟩
            intro u hu
            rcases List.mem_append.mp hu with hu | hu
            · exact h1 u hu
            · simp at hu
              subst hu
              rw [htope, ← h2]
              exact (hne x hx).symm

theorem nodup_augmentTags (m : TagStacks) (own : List (Spanned Str)) (h : SSet.Nodup own) :
    SSet.Nodup (augmentTags own m) := by
  unfold augmentTags
  induction m generalizing own with
  | nil => exact h
  | cons e m ih =>
    rw [List.foldl_cons]
    apply ih
    split
    · exact h
    · exact SSet.nodup_insert h _

theorem TagsInv.top {stackOf : Str → List (Spanned Str)} {m : TagStacks} (h : TagsInv stackOf m)
    (hs : StacksOf stackOf) : ∀ e ∈ m, (stackOf e.1.item).head? = some (topTag e) ∧ (topTag e).item = e.1.item := by
  intro e he
  have := h.entry e he
  have hr : stackOf e.1.item = (e.1 :: e.2).reverse := by rw [this]; simp
  have h1 : (stackOf e.1.item).head? = some (topTag e) := by
    rw [hr, List.head?_reverse]
    unfold topTag
    rw [List.getLast?_cons]
    cases e.2.getLast? <;> rfl
  exact ⟨h1, hs _ _ (List.mem_of_mem_head? h1)⟩

theorem TagsInv.augment {stackOf : Str → List (Spanned Str)} {m : TagStacks} (h : TagsInv stackOf m)
    (hs : StacksOf stackOf) (own : List (Spanned Str)) (t : Spanned Str) :
    t ∈ augmentTags own m ↔
      t ∈ own ∨ ((∀ u ∈ own, u.item ≠ t.item) ∧ (stackOf t.item).head? = some t) := by
  rw [mem_augmentTags m h.nodup (fun e he => (h.top hs e he).2)]
  refine or_congr_right (and_congr_right fun _ => ?_)
  constructor
  · rintro ⟨e, he, hk, ht⟩
    rw [← hk, ← ht]
    exact (h.top hs e he).1
  · intro hh
    obtain ⟨e, he, hk⟩ := h.complete t.item (by intro e; rw [e] at hh; cases hh)
    refine ⟨e, he, hk, ?_⟩
    have := (h.top hs e he).1
    rw [hk, hh] at this
    exact (Option.some.inj this).symm

theorem mem_augmentKeyValues (m : MetaStacks) (hm : SMap.Nodup m)
    (own kvs : List (Spanned Str × Spanned MetaValue)) (h : augmentKeyValues own m = some kvs)
    (kv : Spanned Str × Spanned MetaValue) :
    kv ∈ kvs ↔ kv ∈ own ∨ ((∀ u ∈ own, u.1.item ≠ kv.1.item) ∧
      ∃ e ∈ m, e.1.item = kv.1.item ∧ e.2.getLast? = some (kv.1.span, kv.2)) := by
  induction m generalizing own with
  | nil => cases h; simp
  | cons e m ih =>
    have hm' : SMap.Nodup m := (List.nodup_cons.mp hm).2
    have hne : ∀ x ∈ m, x.1.item ≠ e.1.item := by
      intro x hx hk
      exact (List.nodup_cons.mp hm).1 (List.mem_map.mpr ⟨x, hx, hk⟩)
    unfold augmentKeyValues at h
    rw [List.foldlM_cons] at h
    by_cases hh : SMap.has own e.1.item = true
    · rw [if_pos hh] at h
      rw [ih hm' own h]
      obtain ⟨u, hu, hui⟩ := (SMap.has_iff _ _).mp hh
      constructor
      · rintro (h | ⟨h1, x, hx, h2, h3⟩)
        · exact .inl h
        · exact .inr ⟨h1, x, by simp [hx], h2, h3⟩
      · rintro (h | ⟨h1, x, hx, h2, h3⟩)
        · exact .inl h
        · rcases List.mem_cons.mp hx with rfl | hx
          · exact absurd (hui.trans h2) (h1 u hu)
          · exact .inr ⟨h1, x, hx, h2, h3⟩
    · rw [if_neg hh] at h
      cases hl : e.2.getLast? with
      | none => rw [hl] at h; cases h
      | some y =>
        obtain ⟨keySpan, value⟩ := y
        rw [hl] at h
        rw [ih hm' _ h]
        have hins : SMap.insert own (⟨e.1.item, keySpan⟩ : Spanned Str) value =
            own ++ [(⟨e.1.item, keySpan⟩, value)] := by
          unfold SMap.insert
          rw [if_neg hh]
        have hown : ∀ u ∈ own, u.1.item ≠ e.1.item := fun u hu hk => hh ((SMap.has_iff _ _).mpr ⟨u, hu, hk⟩)
        rw [hins]
        constructor
        · rintro (h | ⟨h1, x, hx, h2, h3⟩)
          · rcases List.mem_append.mp h with h | h
            · exact .inl h
            · simp at h
              subst h
              exact .inr ⟨hown, e, by simp, rfl, hl⟩
          · exact .inr ⟨fun u hu => h1 u (by simp [hu]), x, by simp [hx], h2, h3⟩
        · rintro (h | ⟨h1, x, hx, h2, h3⟩)
          · exact .inl (by simp [h])
          · rcases List.mem_cons.mp hx with rfl | hx
            · rw [hl] at h3
              cases h3
              left
              simp [h2]
            · refine .inr ⟨?_, x, hx, h2, h3⟩
              intro u hu
              rcases List.mem_append.mp hu with hu | hu
              · exact h1 u hu
              · simp at hu
                subst hu
                simp only
                rw [← h2]
                exact (hne x hx).symm

theorem MetasInv.augment {stackOf : MStacks} {m : MetaStacks} (h : MetasInv stackOf m)
    (own kvs : List (Spanned Str × Spanned MetaValue)) (ha : augmentKeyValues own m = some kvs)
    (kv : Spanned Str × Spanned MetaValue) :
    kv ∈ kvs ↔ kv ∈ own ∨ ((∀ u ∈ own, u.1.item ≠ kv.1.item) ∧
      (stackOf kv.1.item).head? = some (kv.1.span, kv.2)) := by
  rw [mem_augmentKeyValues m h.nodup own kvs ha]
  refine or_congr_right (and_congr_right fun _ => ?_)
  have hlast : ∀ e ∈ m, e.2.getLast? = (stackOf e.1.item).head? := by
    intro e he
    rw [(h.entry e he).1, List.getLast?_reverse]
  constructor
  · rintro ⟨e, he, hk, ht⟩
    rw [← ht, hlast e he, hk]
  · intro hh
    obtain ⟨e, he, hk⟩ := h.complete kv.1.item (by intro e; rw [e] at hh; cases hh)
    exact ⟨e, he, hk, by rw [hlast e he, hk, hh]⟩

theorem nodup_augmentKeyValues (m : MetaStacks) (own kvs : List (Spanned Str × Spanned MetaValue))
    (h : SMap.Nodup own) (ha : augmentKeyValues own m = some kvs) : SMap.Nodup kvs := by
  induction m generalizing own with
  | nil => cases ha; exact h
  | cons e m ih =>
    unfold augmentKeyValues at ha
    rw [List.foldlM_cons] at ha
    split at ha
    · exact ih own h ha
    · cases hl : e.2.getLast? with
      | none => rw [hl] at ha; cases ha
      | some y => rw [hl] at ha; exact ih _ (SMap.nodup_insert h _ _) ha

/-! ### Outputs -/

theorem outputs_length {env : PragmaEnv} {d : PragmaData} {es : List Event} {xs : List (Spanned Directive)}
    (h : outputs env d es = some xs) : xs.length = (directives es).length := by
  induction es generalizing d xs with
  | nil => cases h; rfl
  | cons e es ih =>
    unfold outputs at h
    unfold directives
    cases hd : e.decl.item with
    | directive dir =>
      have hdo : directiveOf e = some ⟨dir, e.decl.span⟩ := by unfold directiveOf; rw [hd]
      rw [hd] at h
      simp only at h
      split at h
      · rename_i x xs' hx hxs
        cases h
        rw [List.filterMap_cons, hdo]
        simp only [List.length_cons]
        rw [ih hxs]
        rfl
      · cases h
    | pragma p =>
      have hdo : directiveOf e = none := by unfold directiveOf; rw [hd]
      rw [hd] at h
      rw [List.filterMap_cons, hdo]
      exact ih h

theorem outputs_at {env : PragmaEnv} {d : PragmaData} {pre post : List Event} {e : Event}
    {xs : List (Spanned Directive)} {y : Spanned Directive}
    (h : outputs env d (pre ++ e :: post) = some xs) (he : directiveOf e = some y) :
    ∃ x, (pre.foldl (applyEvent env) d).augment y.item = some x ∧
      xs[(directives pre).length]? = some ⟨x, y.span⟩ := by
  induction pre generalizing d xs with
  | nil =>
    unfold directiveOf at he
    split at he
    · rename_i dir hd
      cases he
      simp only [List.nil_append, outputs, hd] at h
      split at h
      · rename_i x xs' hx _
        cases h
        exact ⟨x, hx, rfl⟩
      · cases h
    · cases he
  | cons a pre ih =>
    rw [List.cons_append] at h
    unfold outputs at h
    unfold directives
    cases hd : a.decl.item with
    | directive dir =>
      have hdo : directiveOf a = some ⟨dir, a.decl.span⟩ := by unfold directiveOf; rw [hd]
      rw [hd] at h
      simp only at h
      split at h
      · rename_i x xs' hx hxs
        cases h
        rw [List.filterMap_cons, hdo]
        exact ih hxs
      · cases h
    | pragma p =>
      have hdo : directiveOf a = none := by unfold directiveOf; rw [hd]
      rw [hd] at h
      rw [List.filterMap_cons, hdo]
      exact ih h

/-! ### Splicing -/

section
variable {files : FileMap} {expand : Option Path → List Char → List Path}

theorem _root_.Lima.Spec.Splice.det {v v1 v2 : List (Option Path)} {task : Task} {es1 es2 : List Event}
    (h : Splice files expand v task es1 v1) (h' : Splice files expand v task es2 v2) : es1 = es2 ∧ v1 = v2 := by
  induction h generalizing es2 v2 with
  | nil => cases h'; exact ⟨rfl, rfl⟩
  | plain v v' p d ds es h rest ih =>
    cases h' with
    | plain _ _ _ _ _ es' _ rest' =>
      obtain ⟨rfl, rfl⟩ := ih rest'
      exact ⟨rfl, rfl⟩
    | «include» _ _ _ _ _ g _ _ _ hg => exact absurd hg (h g)
  | «include» v v1 v2 p d g ds es es' h included rest ih ih' =>
    cases h' with
    | plain _ _ _ _ _ _ hn _ => exact absurd h (hn g)
    | «include» _ _ _ _ _ g' _ _ _ hg included' rest' =>
      have : g = g' := by rw [h] at hg; cases hg; rfl
      subst this
      obtain ⟨rfl, rfl⟩ := ih included'
      obtain ⟨rfl, rfl⟩ := ih' rest'
      exact ⟨rfl, rfl⟩
  | none => cases h'; exact ⟨rfl, rfl⟩
  | file v v1 v2 q qs ds es es' h body rest ih ih' =>
    cases h' with
    | file _ _ _ _ _ ds' _ _ hf body' rest' =>
      have : ds = ds' := by rw [h] at hf; cases hf; rfl
      subst this
      obtain ⟨rfl, rfl⟩ := ih body'
      obtain ⟨rfl, rfl⟩ := ih' rest'
      exact ⟨rfl, rfl⟩

theorem _root_.Lima.Spec.Splice.mono {v v' : List (Option Path)} {task : Task} {es : List Event}
    (h : Splice files expand v task es v') : ∀ q ∈ v, q ∈ v' := by
  induction h with
  | nil => exact fun _ h => h
  | plain v v' p d ds es h rest ih => exact ih
  | «include» v v1 v2 p d g ds es es' h included rest ih ih' =>
    exact fun q hq => ih' q (ih q (by simp [hq]))
  | none => exact fun _ h => h
  | file v v1 v2 q qs ds es es' h body rest ih ih' => exact fun q hq => ih' q (ih q hq)

/-- The declarations of file `q` met as part of the task itself. -/
def ownDecls (files : FileMap) (q : Option Path) : Task → List (Spanned Declaration)
  | .body p ds => if p = q then ds else []
  | .files qs => if q ∈ qs.map some then (match files q with | some ds => ds | none => []) else []

def TaskVisited (v : List (Option Path)) : Task → Prop
  | .body p _ => p ∈ v
  | .files qs => qs.Nodup ∧ ∀ q ∈ qs, some q ∈ v

open Classical in
/-- The events of a file are its declarations, once, if it is visited during the task. -/
theorem _root_.Lima.Spec.Splice.once {v v' : List (Option Path)} {task : Task} {es : List Event}
    (h : Splice files expand v task es v') (hv : TaskVisited v task) (q : Option Path) :
    (es.filter (fun e => decide (e.path = q))).map (·.decl) = ownDecls files q task ++
      (if q ∈ v' ∧ q ∉ v then (match files q with | some ds => ds | none => []) else []) := by
  induction h with
  | nil v p => 
    have : ¬ (q ∈ v ∧ q ∉ v) := fun h => h.2 h.1
    simp [ownDecls, this]
  | plain v v' p d ds es h rest ih =>
    have := ih hv
    simp only [ownDecls, List.filter_cons] at this ⊢
    by_cases hp : p = q
    · simp only [hp, decide_true, if_true, List.map_cons, this, List.cons_append]
    · simp only [hp, decide_false, if_false, Bool.false_eq_true] at this ⊢
      exact this
  | «include» v v1 v2 p d g ds es es' h included rest ih ih' =>
    have hvis : TaskVisited ((fresh files v (expand p g.item)).map some ++ v)
        (.files (fresh files v (expand p g.item)).reverse) := by
      refine ⟨(List.reverse_perm _).nodup_iff.mpr (fresh_nodup _ _ _), ?_⟩
      intro q hq
      rw [List.mem_reverse] at hq
      exact List.mem_append.mpr (.inl (List.mem_map.mpr ⟨q, hq, rfl⟩))
    have hpv : p ∈ v := hv
    have hpv1 : p ∈ v1 := included.mono _ (List.mem_append.mpr (.inr hpv))
    have h1 := ih hvis
    have h2 := ih' hpv1
    have hm1 := included.mono
    have hm2 := rest.mono
    simp only [ownDecls, List.filter_cons, List.filter_append, List.map_append, List.mem_map,
      List.mem_reverse, List.mem_append] at h1 h2 ⊢
    have hfresh : ∀ x, x ∈ fresh files v (expand p g.item) → some x ∉ v := fun x hx => (fresh_mem hx).2.2
    by_cases hp : p = q
    · subst hp
      have n1 : ¬ ∃ a, a ∈ fresh files v (expand p g.item) ∧ some a = p := by
        rintro ⟨a, ha, rfl⟩; exact hfresh a ha hpv
      have e1 : (es.filter (fun e => decide (e.path = p))).map (·.decl) = [] := by
        rw [h1]; simp [n1, hpv]
      have e2 : (es'.filter (fun e => decide (e.path = p))).map (·.decl) = ds := by
        rw [h2]; simp [hpv1]
      simp [e1, e2, hpv]
    · simp only [hp, decide_false, if_false, List.nil_append] at h2 ⊢
      by_cases hqv : q ∈ v
      · have n1 : ¬ ∃ a, a ∈ fresh files v (expand p g.item) ∧ some a = q := by
          rintro ⟨a, ha, rfl⟩; exact hfresh a ha hqv
        have hq1 : q ∈ v1 := hm1 q (List.mem_append.mpr (.inr hqv))
        have e1 : (es.filter (fun e => decide (e.path = q))).map (·.decl) = [] := by
          rw [h1]; simp [n1, hqv]
        have e2 : (es'.filter (fun e => decide (e.path = q))).map (·.decl) = [] := by
          rw [h2]; simp [hq1]
        simp [e1, e2, hqv]
      · by_cases hqf : ∃ a, a ∈ fresh files v (expand p g.item) ∧ some a = q
        · have hq0 : q ∈ (fresh files v (expand p g.item)).map some ++ v := by
            obtain ⟨a, ha, rfl⟩ := hqf
            exact List.mem_append.mpr (.inl (List.mem_map.mpr ⟨a, ha, rfl⟩))
          have hq1 : q ∈ v1 := hm1 q hq0
          have hq2 : q ∈ v2 := hm2 q hq1
          rw [if_pos hqf, if_neg (fun h => h.2 (.inl hqf)), List.append_nil] at h1
          rw [if_neg (fun h => h.2 hq1)] at h2
          simp only [Bool.false_eq_true, if_false, List.map_append, h1, h2, List.append_nil]
          rw [if_pos ⟨hq2, hqv⟩]
        · rw [if_neg hqf, List.nil_append] at h1
          by_cases hq1 : q ∈ v1
          · have hq2 : q ∈ v2 := hm2 q hq1
            rw [if_pos ⟨hq1, by rintro (h | h); exacts [hqf h, hqv h]⟩] at h1
            rw [if_neg (fun h => h.2 hq1)] at h2
            simp only [Bool.false_eq_true, if_false, List.map_append, h1, h2, List.append_nil]
            rw [if_pos ⟨hq2, hqv⟩]
          · rw [if_neg (fun h => hq1 h.1)] at h1
            simp only [Bool.false_eq_true, if_false, List.map_append, h1, h2, List.nil_append]
            congr 1
            simp [hq1, hqv]
  | none v =>
    have : ¬ (q ∈ v ∧ q ∉ v) := fun h => h.2 h.1
    simp [ownDecls, this]
  | file v v1 v2 f qs ds es es' h body rest ih ih' =>
    have hnd := List.nodup_cons.mp hv.1
    have hf : some f ∈ v := hv.2 f (by simp)
    have hm1 := body.mono
    have hm2 := rest.mono
    have h1 := ih hf
    have h2 := ih' ⟨hnd.2, fun x hx => hm1 _ (hv.2 x (by simp [hx]))⟩
    simp only [ownDecls, List.filter_append, List.map_append, List.map_cons, List.mem_cons] at h1 h2 ⊢
    rw [h1, h2]
    by_cases hq : some f = q
    · subst hq
      have n1 : some f ∉ qs.map some := by
        intro hh
        obtain ⟨a, ha, hfa⟩ := List.mem_map.mp hh
        cases hfa
        exact hnd.1 ha
      have hq1 := hm1 _ hf
      simp [n1, hf, hq1, h]
    · have hq' : ¬ q = some f := fun h => hq h.symm
      simp only [hq, hq', if_false, false_or, List.nil_append]
      by_cases hqs : q ∈ qs.map some
      · have hqv : q ∈ v := by
          obtain ⟨a, ha, rfl⟩ := List.mem_map.mp hqs
          exact hv.2 a (by simp [ha])
        have hq1 := hm1 _ hqv
        simp [hqs, hqv, hq1]
      · by_cases hqv : q ∈ v
        · simp [hqv, hqs, hm1 _ hqv]
        · by_cases hq1 : q ∈ v1
          · simp [hqv, hqs, hq1, hm2 _ hq1]
          · simp [hqv, hqs, hq1]

/-- Whatever is included and has been read is visited. -/
theorem _root_.Lima.Spec.Splice.closed {v v' : List (Option Path)} {task : Task} {es : List Event}
    (h : Splice files expand v task es v') :
    ∀ e ∈ es, ∀ g, e.decl.item = .pragma (.include g) → ∀ q ∈ expand e.path g.item,
      (files (some q)).isSome → some q ∈ v' := by
  have hfresh : ∀ (v : List (Option Path)) ps q, q ∈ ps → (files (some q)).isSome →
      some q ∈ (fresh files v ps).map some ++ v := by
    intro v ps
    induction ps generalizing v with
    | nil => intro q hq; cases hq
    | cons p ps ih =>
      intro q hq hf
      unfold fresh
      split
      · rcases List.mem_cons.mp hq with rfl | hq
        · simp
        · have := ih (some p :: v) q hq hf
          simp only [List.mem_append, List.mem_cons, List.map_cons] at this ⊢
          rcases this with h | h | h
          · exact .inl (.inr h)
          · exact .inl (.inl h)
          · exact .inr h
      · rename_i hc
        rcases List.mem_cons.mp hq with rfl | hq
        · have : some q ∈ v := Classical.byContradiction fun h => hc ⟨hf, h⟩
          exact List.mem_append.mpr (.inr this)
        · exact ih v q hq hf
  induction h with
  | nil => simp
  | plain v v' p d ds es h rest ih =>
    intro e he g hg q hq hf
    rcases List.mem_cons.mp he with rfl | he
    · exact absurd hg (h g)
    · exact ih e he g hg q hq hf
  | «include» v v1 v2 p d g ds es es' h included rest ih ih' =>
    intro e he g' hg q hq hf
    rcases List.mem_cons.mp he with rfl | he
    · simp only at hg hq
      rw [h] at hg
      cases hg
      exact rest.mono _ (included.mono _ (hfresh v _ q hq hf))
    · rcases List.mem_append.mp he with he | he
      · exact rest.mono _ (ih e he g' hg q hq hf)
      · exact ih' e he g' hg q hq hf
  | none => simp
  | file v v1 v2 f qs ds es es' h body rest ih ih' =>
    intro e he g' hg q hq hf
    rcases List.mem_append.mp he with he | he
    · exact rest.mono _ (ih e he g' hg q hq hf)
    · exact ih' e he g' hg q hq hf

/-- Whatever is visited is reached. -/
theorem _root_.Lima.Spec.Splice.reached {root : Option Path} {v v' : List (Option Path)} {task : Task} {es : List Event}
    (h : Splice files expand v task es v') (hv : ∀ q ∈ v, Reached files expand root q)
    (htask : match task with
      | .body p ds => p ∈ v ∧ ∃ all, files p = some all ∧ ∀ d ∈ ds, d ∈ all
      | .files qs => ∀ q ∈ qs, some q ∈ v) : ∀ q ∈ v', Reached files expand root q := by
  induction h with
  | nil => exact hv
  | plain v v' p d ds es h rest ih =>
    obtain ⟨h1, all, h2, h3⟩ := htask
    exact ih hv ⟨h1, all, h2, fun x hx => h3 x (by simp [hx])⟩
  | «include» v v1 v2 p d g ds es es' h included rest ih ih' =>
    obtain ⟨h1, all, h2, h3⟩ := htask
    have hv1 : ∀ q ∈ v1, Reached files expand root q := by
      refine ih ?_ ?_
      · intro q hq
        rcases List.mem_append.mp hq with hq | hq
        · obtain ⟨a, ha, rfl⟩ := List.mem_map.mp hq
          have := fresh_mem ha
          exact .step p all d g a (hv p h1) h2 (h3 d (by simp)) h this.1 this.2.1
        · exact hv q hq
      · intro q hq
        rw [List.mem_reverse] at hq
        exact List.mem_append.mpr (.inl (List.mem_map.mpr ⟨q, hq, rfl⟩))
    exact ih' hv1 ⟨included.mono _ (List.mem_append.mpr (.inr h1)), all, h2, fun x hx => h3 x (by simp [hx])⟩
  | none => exact hv
  | file v v1 v2 f qs ds es es' h body rest ih ih' =>
    have hf := htask f (by simp)
    have hv1 := ih hv ⟨hf, ds, h, fun _ hx => hx⟩
    exact ih' hv1 (fun q hq => body.mono _ (htask q (by simp [hq])))

end

end Lima
