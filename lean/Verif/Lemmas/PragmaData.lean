import Verif.Lemmas.Pragma
import Verif.Props.Options

/-!
# The hash maps of the pragma processor represent open pushes
-/

namespace Lima
open Lima.Spec

section
variable {κ ν : Type} [DecidableEq κ]

theorem SMap.mem_insert_some {m : List (Spanned κ × ν)} {k : Spanned κ} {v w : ν} {e : Spanned κ × ν}
    (hg : SMap.get m k.item = some w) :
    e ∈ SMap.insert m k v ↔
      (e ∈ m ∧ e.1.item ≠ k.item) ∨ (∃ old ∈ m, old.1.item = k.item ∧ e = (old.1, v)) := by
  have hh : SMap.has m k.item = true := by rw [SMap.has_eq_isSome, hg]; rfl
  unfold SMap.insert
  rw [if_pos hh, List.mem_map]
  constructor
  · rintro ⟨x, hx, rfl⟩
    by_cases h : x.1.item = k.item
    · rw [if_pos h]; exact .inr ⟨x, hx, h, rfl⟩
    · rw [if_neg h]; exact .inl ⟨hx, h⟩
  · rintro (⟨hx, h⟩ | ⟨x, hx, h, rfl⟩)
    · exact ⟨e, hx, by rw [if_neg h]⟩
    · exact ⟨x, hx, by rw [if_pos h]⟩

theorem SMap.mem_insert_none {m : List (Spanned κ × ν)} {k : Spanned κ} {v : ν} {e : Spanned κ × ν}
    (hg : SMap.get m k.item = none) : e ∈ SMap.insert m k v ↔ e ∈ m ∨ e = (k, v) := by
  have hh : ¬ SMap.has m k.item = true := by rw [SMap.has_eq_isSome, hg]; simp
  unfold SMap.insert
  rw [if_neg hh]
  simp

theorem SMap.mem_erase {m : List (Spanned κ × ν)} {k : κ} {e : Spanned κ × ν} :
    e ∈ SMap.erase m k ↔ e ∈ m ∧ e.1.item ≠ k := by
  simp [SMap.erase]

theorem SMap.get_none_iff {m : List (Spanned κ × ν)} {k : κ} :
    SMap.get m k = none ↔ ∀ e ∈ m, e.1.item ≠ k := by
  rw [← SMap.has_false_iff, SMap.has_eq_isSome]
  simp

theorem SMap.mem_unique {m : List (Spanned κ × ν)} (h : SMap.Nodup m) {e e' : Spanned κ × ν}
    (he : e ∈ m) (he' : e' ∈ m) (hk : e.1.item = e'.1.item) : e = e' := by
  obtain ⟨i, hi, rfl⟩ := List.mem_iff_getElem.mp he
  obtain ⟨j, hj, rfl⟩ := List.mem_iff_getElem.mp he'
  have hl : i < (m.map (·.1.item)).length := by simpa using hi
  have : i = j := by
    refine (List.getElem?_inj hl h).mp ?_
    rw [List.getElem?_map, List.getElem?_map, List.getElem?_eq_getElem hi, List.getElem?_eq_getElem hj]
    simp [hk]
  subst this
  rfl

end

/-! ### Tags -/

/-- The map holds, per tag, the stack of open pushes. -/
structure TagsInv (stackOf : Str → List (Spanned Str)) (m : TagStacks) : Prop where
  nodup : SMap.Nodup m
  entry : ∀ e ∈ m, e.1 :: e.2 = (stackOf e.1.item).reverse
  complete : ∀ t, stackOf t ≠ [] → ∃ e ∈ m, e.1.item = t

/-- Pushes of a tag carry that tag. -/
def StacksOf (stackOf : Str → List (Spanned Str)) : Prop := ∀ t, ∀ x ∈ stackOf t, x.item = t

theorem TagsInv.get {stackOf : Str → List (Spanned Str)} {m : TagStacks} (h : TagsInv stackOf m) (t : Str) :
    (SMap.get m t = none ∧ stackOf t = []) ∨
    (∃ first others, (first, others) ∈ m ∧ first.item = t ∧ SMap.get m t = some others ∧
      first :: others = (stackOf t).reverse) := by
  cases hg : SMap.get m t with
  | none =>
    left
    refine ⟨rfl, ?_⟩
    cases hs : stackOf t with
    | nil => rfl
    | cons x xs =>
      obtain ⟨e, he, hk⟩ := h.complete t (by simp [hs])
      exact absurd hk (SMap.get_none_iff.mp hg e he)
  | some others =>
    right
    obtain ⟨e, he, hk, hv⟩ := (SMap.get_eq_some_iff h.nodup t others).mp hg
    have := h.entry e he
    rw [hk, hv] at this
    subst hv
    exact ⟨e.1, e.2, he, hk, rfl, this⟩

def pushStack (stackOf : Str → List (Spanned Str)) (x : Spanned Str) : Str → List (Spanned Str) :=
  fun t => if x.item = t then x :: stackOf t else stackOf t

def popStack (stackOf : Str → List (Spanned Str)) (t : Str) : Str → List (Spanned Str) :=
  fun t' => if t = t' then (stackOf t').tail else stackOf t'

theorem TagsInv.push {stackOf : Str → List (Spanned Str)} {d : PragmaData} (h : TagsInv stackOf d.tags)
    (x : Spanned Str) : TagsInv (pushStack stackOf x) (d.pushtag x).tags := by
  unfold PragmaData.pushtag
  rcases h.get x.item with ⟨hg, hs⟩ | ⟨first, others, hm, hi, hg, hs⟩
  · rw [hg]
    refine ⟨SMap.nodup_insert h.nodup _ _, ?_, ?_⟩
    · intro e he
      rcases (SMap.mem_insert_none hg).mp he with he | rfl
      · have : x.item ≠ e.1.item := fun hh => SMap.get_none_iff.mp hg e he hh.symm
        rw [h.entry e he]; simp [pushStack, this]
      · simp [pushStack, hs]
    · intro t ht
      by_cases hx : x.item = t
      · exact ⟨(x, []), (SMap.mem_insert_none hg).mpr (.inr rfl), hx⟩
      · simp only [pushStack, hx, if_false] at ht
        obtain ⟨e, he, hk⟩ := h.complete t ht
        exact ⟨e, (SMap.mem_insert_none hg).mpr (.inl he), hk⟩
  · rw [hg]
    refine ⟨SMap.nodup_insert h.nodup _ _, ?_, ?_⟩
    · intro e he
      rcases (SMap.mem_insert_some hg).mp he with ⟨he, hne⟩ | ⟨old, ho, hk, rfl⟩
      · have : x.item ≠ e.1.item := fun hh => hne hh.symm
        rw [h.entry e he]; simp [pushStack, this]
      · have : old = (first, others) := SMap.mem_unique h.nodup ho hm (by rw [hk, hi])
        subst this
        simp only [pushStack, hi, if_true, List.reverse_cons, ← hs, List.cons_append]
    · intro t ht
      by_cases hx : x.item = t
      · exact ⟨(first, others ++ [x]), (SMap.mem_insert_some hg).mpr (.inr ⟨_, hm, hi, rfl⟩), hi.trans hx⟩
      · simp only [pushStack, hx, if_false] at ht
        obtain ⟨e, he, hk⟩ := h.complete t ht
        exact ⟨e, (SMap.mem_insert_some hg).mpr (.inl ⟨he, fun hh => hx (hh.symm.trans hk)⟩), hk⟩

theorem tail_reverse {α : Type} (l : List α) : l.tail.reverse = l.reverse.dropLast := by
  cases l <;> simp

theorem TagsInv.pop {stackOf : Str → List (Spanned Str)} {d : PragmaData} (h : TagsInv stackOf d.tags)
    (x : Spanned Str) :
    TagsInv (popStack stackOf x.item) (d.poptag x).tags ∧
    (d.poptag x).errors.map (fun r => (r.message, r.span)) = d.errors.map (fun r => (r.message, r.span)) ++
      (if stackOf x.item = [] then [(str "invalid poptag", x.span)] else []) := by
  unfold PragmaData.poptag
  rcases h.get x.item with ⟨hg, hs⟩ | ⟨first, others, hm, hi, hg, hs⟩
  · rw [hg]
    refine ⟨?_, by simp [hs, PragmaData.report, Report.new]⟩
    have : popStack stackOf x.item = stackOf := by
      funext t
      unfold popStack
      split
      · rename_i e; subst e; simp [hs]
      · rfl
    rw [this]
    exact h
  · have hne : stackOf x.item ≠ [] := by intro e; rw [e] at hs; simp at hs
    rw [hg]
    by_cases ho : others = []
    · subst ho
      simp only [List.isEmpty_nil, if_true, hne, if_false, List.append_nil, and_true]
      have hone : stackOf x.item = [first] := by
        have := congrArg List.reverse hs
        simpa using this.symm
      refine ⟨SMap.nodup_erase h.nodup _, ?_, ?_⟩
      · intro e he
        obtain ⟨he, hk⟩ := SMap.mem_erase.mp he
        rw [h.entry e he]
        have : x.item ≠ e.1.item := fun hh => hk hh.symm
        simp [popStack, this]
      · intro t ht
        unfold popStack at ht
        split at ht
        · rename_i e; subst e; simp [hone] at ht
        · rename_i hx
          obtain ⟨e, he, hk⟩ := h.complete t ht
          exact ⟨e, SMap.mem_erase.mpr ⟨he, fun hh => hx (hh.symm.trans hk)⟩, hk⟩
    · have hemp : others.isEmpty = false := by simpa using ho
      simp only [hemp, Bool.false_eq_true, if_false, hne, List.append_nil, and_true]
      have hlen : ∃ y ys, others = y :: ys := by
        cases others with
        | nil => exact absurd rfl ho
        | cons y ys => exact ⟨y, ys, rfl⟩
      refine ⟨SMap.nodup_insert h.nodup _ _, ?_, ?_⟩
      · intro e he
        rcases (SMap.mem_insert_some hg).mp he with ⟨he, hk⟩ | ⟨old, hold, hk, rfl⟩
        · rw [h.entry e he]
          have : x.item ≠ e.1.item := fun hh => hk hh.symm
          simp [popStack, this]
        · have : old = (first, others) := SMap.mem_unique h.nodup hold hm (by rw [hk, hi])
          subst this
          simp only [popStack, hi, if_true, tail_reverse, ← hs]
          obtain ⟨y, ys, rfl⟩ := hlen
          simp
      · intro t ht
        unfold popStack at ht
        split at ht
        · rename_i e
          exact ⟨(first, others.dropLast), (SMap.mem_insert_some hg).mpr (.inr ⟨_, hm, hi, rfl⟩), hi.trans e⟩
        · rename_i hx
          obtain ⟨e, he, hk⟩ := h.complete t ht
          exact ⟨e, (SMap.mem_insert_some hg).mpr (.inl ⟨he, fun hh => hx (hh.symm.trans hk)⟩), hk⟩

/-! ### Metadata -/

abbrev MStacks := Str → List (Span × Spanned MetaValue)

/-- The map holds, per key, the stack of open pushes. -/
structure MetasInv (stackOf : MStacks) (m : MetaStacks) : Prop where
  nodup : SMap.Nodup m
  entry : ∀ e ∈ m, e.2 = (stackOf e.1.item).reverse ∧ ∃ v, e.2.head? = some (e.1.span, v)
  complete : ∀ k, stackOf k ≠ [] → ∃ e ∈ m, e.1.item = k

theorem MetasInv.get {stackOf : MStacks} {m : MetaStacks} (h : MetasInv stackOf m) (k : Str) :
    (SMap.get m k = none ∧ stackOf k = []) ∨
    (∃ key values, (key, values) ∈ m ∧ key.item = k ∧ SMap.get m k = some values ∧
      values = (stackOf k).reverse ∧ ∃ v, values.head? = some (key.span, v)) := by
  cases hg : SMap.get m k with
  | none =>
    left
    refine ⟨rfl, ?_⟩
    cases hs : stackOf k with
    | nil => rfl
    | cons x xs =>
      obtain ⟨e, he, hk⟩ := h.complete k (by simp [hs])
      exact absurd hk (SMap.get_none_iff.mp hg e he)
  | some values =>
    right
    obtain ⟨e, he, hk, hv⟩ := (SMap.get_eq_some_iff h.nodup k values).mp hg
    have := h.entry e he
    rw [hk] at this
    subst hv
    exact ⟨e.1, e.2, he, hk, rfl, this⟩

def mpushStack (stackOf : MStacks) (kv : MetaKeyValue) : MStacks :=
  fun k => if kv.key.item = k then (kv.key.span, kv.value) :: stackOf k else stackOf k

def mpopStack (stackOf : MStacks) (k : Str) : MStacks :=
  fun k' => if k = k' then (stackOf k').tail else stackOf k'

theorem MetasInv.push {stackOf : MStacks} {d : PragmaData} (h : MetasInv stackOf d.metas)
    (kv : MetaKeyValue) : MetasInv (mpushStack stackOf kv) (d.pushmeta kv).metas := by
  unfold PragmaData.pushmeta
  rcases h.get kv.key.item with ⟨hg, hs⟩ | ⟨key, values, hm, hi, hg, hs, v, hv⟩
  · rw [hg]
    refine ⟨SMap.nodup_insert h.nodup _ _, ?_, ?_⟩
    · intro e he
      rcases (SMap.mem_insert_none hg).mp he with he | rfl
      · have : kv.key.item ≠ e.1.item := fun hh => SMap.get_none_iff.mp hg e he hh.symm
        simp only [mpushStack, this, if_false]
        exact h.entry e he
      · simp [mpushStack, hs]
    · intro t ht
      by_cases hx : kv.key.item = t
      · exact ⟨_, (SMap.mem_insert_none hg).mpr (.inr rfl), hx⟩
      · simp only [mpushStack, hx, if_false] at ht
        obtain ⟨e, he, hk⟩ := h.complete t ht
        exact ⟨e, (SMap.mem_insert_none hg).mpr (.inl he), hk⟩
  · rw [hg]
    refine ⟨SMap.nodup_insert h.nodup _ _, ?_, ?_⟩
    · intro e he
      rcases (SMap.mem_insert_some hg).mp he with ⟨he, hne⟩ | ⟨old, ho, hk, rfl⟩
      · have : kv.key.item ≠ e.1.item := fun hh => hne hh.symm
        simp only [mpushStack, this, if_false]
        exact h.entry e he
      · have : old = (key, values) := SMap.mem_unique h.nodup ho hm (by rw [hk, hi])
        subst this
        simp only [mpushStack, hi, if_true, List.reverse_cons, ← hs, true_and]
        refine ⟨v, ?_⟩
        cases values with
        | nil => cases hv
        | cons a as => simpa using hv
    · intro t ht
      by_cases hx : kv.key.item = t
      · exact ⟨_, (SMap.mem_insert_some hg).mpr (.inr ⟨_, hm, hi, rfl⟩), hi.trans hx⟩
      · simp only [mpushStack, hx, if_false] at ht
        obtain ⟨e, he, hk⟩ := h.complete t ht
        exact ⟨e, (SMap.mem_insert_some hg).mpr (.inl ⟨he, fun hh => hx (hh.symm.trans hk)⟩), hk⟩

theorem MetasInv.pop {stackOf : MStacks} {d : PragmaData} (h : MetasInv stackOf d.metas) (x : Spanned Str) :
    MetasInv (mpopStack stackOf x.item) (d.popmeta x).metas ∧
    (d.popmeta x).errors.map (fun r => (r.message, r.span)) = d.errors.map (fun r => (r.message, r.span)) ++
      (if stackOf x.item = [] then [(str "invalid popmeta", x.span)] else []) := by
  unfold PragmaData.popmeta
  rcases h.get x.item with ⟨hg, hs⟩ | ⟨key, values, hm, hi, hg, hs, v, hv⟩
  · rw [hg]
    refine ⟨?_, by simp [hs, PragmaData.report, Report.new]⟩
    have : mpopStack stackOf x.item = stackOf := by
      funext t
      unfold mpopStack
      split
      · rename_i e; subst e; simp [hs]
      · rfl
    rw [this]
    exact h
  · have hne : stackOf x.item ≠ [] := by intro e; rw [e] at hs; subst hs; cases hv
    rw [hg]
    by_cases ho : values.dropLast = []
    · simp only [ho, List.isEmpty_nil, if_true, hne, if_false, List.append_nil, and_true]
      refine ⟨SMap.nodup_erase h.nodup _, ?_, ?_⟩
      · intro e he
        obtain ⟨he, hk⟩ := SMap.mem_erase.mp he
        have : x.item ≠ e.1.item := fun hh => hk hh.symm
        simp only [mpopStack, this, if_false]
        exact h.entry e he
      · intro t ht
        unfold mpopStack at ht
        split at ht
        · rename_i e
          subst e
          rw [hs, ← tail_reverse] at ho
          simp at ho
          exact absurd ho ht
        · rename_i hx
          obtain ⟨e, he, hk⟩ := h.complete t ht
          exact ⟨e, SMap.mem_erase.mpr ⟨he, fun hh => hx (hh.symm.trans hk)⟩, hk⟩
    · have hemp : values.dropLast.isEmpty = false := by simpa using ho
      simp only [hemp, Bool.false_eq_true, if_false, hne, List.append_nil, and_true]
      refine ⟨SMap.nodup_insert h.nodup _ _, ?_, ?_⟩
      · intro e he
        rcases (SMap.mem_insert_some hg).mp he with ⟨he, hk⟩ | ⟨old, hold, hk, rfl⟩
        · have : x.item ≠ e.1.item := fun hh => hk hh.symm
          simp only [mpopStack, this, if_false]
          exact h.entry e he
        · have : old = (key, values) := SMap.mem_unique h.nodup hold hm (by rw [hk, hi])
          subst this
          simp only [mpopStack, hi, if_true, tail_reverse, ← hs, true_and]
          refine ⟨v, ?_⟩
          match values, ho, hv with
          | [], ho, _ => exact absurd rfl ho
          | [a], ho, _ => exact absurd rfl ho
          | a :: b :: cs, _, hv => simpa using hv
      · intro t ht
        unfold mpopStack at ht
        split at ht
        · rename_i e
          exact ⟨_, (SMap.mem_insert_some hg).mpr (.inr ⟨_, hm, hi, rfl⟩), hi.trans e⟩
        · rename_i hx
          obtain ⟨e, he, hk⟩ := h.complete t ht
          exact ⟨e, (SMap.mem_insert_some hg).mpr (.inl ⟨he, fun hh => hx (hh.symm.trans hk)⟩), hk⟩

end Lima
