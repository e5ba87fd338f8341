import Verif.Spec.CostSpec
import Verif.Props.ExprGrammar

/-! C21: the components of a cost specification. -/

namespace Lima.Props

open Spec

/-- The builder given one fact. -/
def addFact (b : CostSpecBuilder) : CostFact → CostSpecBuilder
  | .perUnit v => b.perUnit v
  | .total v => b.total v
  | .currency v => b.currency v.item v.span
  | .date v => b.date v.item v.span
  | .label v => b.label v.item v.span
  | .merge => b.merge

theorem add_eq (b : CostSpecBuilder) (c : Spanned CostComp) : b.add c = (costFacts c).foldl addFact b := by
  obtain ⟨item, span⟩ := c
  cases item with
  | amount a => cases a with
    | bareCurrency c => rfl
    | bareAmount a => cases a <;> rfl
    | currencyAmount a c => cases a <;> rfl
  | date d => rfl
  | label s => rfl
  | merge => rfl

theorem foldl_add (l : List (Spanned CostComp)) (b : CostSpecBuilder) :
    l.foldl CostSpecBuilder.add b = (l.flatMap costFacts).foldl addFact b := by
  induction l generalizing b with
  | nil => rfl
  | cons c l ih => rw [List.foldl_cons, ih, List.flatMap_cons, List.foldl_append, add_eq]

/-- The facts told so far, the first about each aspect being recorded. -/
def FirstSaid (c : CostSpec) (facts : List CostFact) : Prop :=
  c.perUnit = facts.findSome? (fun | .perUnit v => some v | _ => none) ∧
  c.total = facts.findSome? (fun | .total v => some v | _ => none) ∧
  c.currency = facts.findSome? (fun | .currency v => some v | _ => none) ∧
  c.date = facts.findSome? (fun | .date v => some v | _ => none) ∧
  c.label = facts.findSome? (fun | .label v => some v | _ => none) ∧
  c.merge = facts.any (fun | .merge => true | _ => false)

theorem timesSaid_append (k : CostSpecError) (l : List CostFact) (f : CostFact) :
    timesSaid k (l ++ [f]) = timesSaid k l + if f.kind = k then 1 else 0 := by
  unfold timesSaid
  rw [List.filter_append, List.length_append]
  by_cases h : f.kind = k <;> simp [h]

theorem none_iff_not_said {α : Type} {g : CostFact → Option α} {k : CostSpecError}
    (hg : ∀ f, (g f).isSome = true ↔ f.kind = k) (l : List CostFact) :
    (l.findSome? g).isNone = true ↔ timesSaid k l = 0 := by
  unfold timesSaid
  rw [Option.isNone_iff_eq_none, List.findSome?_eq_none_iff, List.length_eq_zero_iff, List.filter_eq_nil_iff]
  constructor
  · intro h f hf hk
    have := (hg f).mpr (by simpa using hk)
    rw [h f hf] at this
    cases this
  · intro h f hf
    cases hgf : g f with
    | none => rfl
    | some v => exact absurd ((hg f).mp (by rw [hgf]; rfl)) (by simpa using h f hf)

theorem not_any_iff_not_said (l : List CostFact) :
    l.any (fun | .merge => true | _ => false) = false ↔ timesSaid .merge l = 0 := by
  unfold timesSaid
  rw [List.any_eq_false, List.length_eq_zero_iff, List.filter_eq_nil_iff]
  constructor
  · intro h f hf hk
    cases f <;> simp [CostFact.kind] at hk
    exact absurd rfl (h _ hf)
  · intro h f hf
    cases f <;> simp
    exact h _ hf (by simp [CostFact.kind])

theorem some_of_not_none {α : Type} {o : Option α} (h : ¬ o.isNone = true) : ∃ v, o = some v := by
  cases o with
  | none => exact absurd rfl h
  | some v => exact ⟨v, rfl⟩

theorem built_from (l : List CostFact) :
    FirstSaid (l.foldl addFact .default).spec l ∧
      ∀ k, (l.foldl addFact .default).errors.count k = timesSaid k l - 1 := by
  induction l using List.reverseRecOn with
  | nil => exact ⟨⟨rfl, rfl, rfl, rfl, rfl, rfl⟩, fun k => rfl⟩
  | append_singleton l f ih =>
    rw [List.foldl_append]
    obtain ⟨⟨h1, h2, h3, h4, h5, h6⟩, he⟩ := ih
    generalize l.foldl addFact .default = b at *
    have n1 := none_iff_not_said (k := .perUnit) (g := fun | .perUnit v => some v | _ => none)
      (by intro f; cases f <;> simp [CostFact.kind]) l
    have n2 := none_iff_not_said (k := .total) (g := fun | .total v => some v | _ => none)
      (by intro f; cases f <;> simp [CostFact.kind]) l
    have n3 := none_iff_not_said (k := .currency) (g := fun | .currency v => some v | _ => none)
      (by intro f; cases f <;> simp [CostFact.kind]) l
    have n4 := none_iff_not_said (k := .date) (g := fun | .date v => some v | _ => none)
      (by intro f; cases f <;> simp [CostFact.kind]) l
    have n5 := none_iff_not_said (k := .label) (g := fun | .label v => some v | _ => none)
      (by intro f; cases f <;> simp [CostFact.kind]) l
    have n6 := not_any_iff_not_said l
    rw [← h1] at n1; rw [← h2] at n2; rw [← h3] at n3; rw [← h4] at n4; rw [← h5] at n5; rw [← h6] at n6
    unfold FirstSaid
    simp only [List.foldl_cons, List.foldl_nil, List.findSome?_append, List.any_append, timesSaid_append,
      ← h1, ← h2, ← h3, ← h4, ← h5, ← h6]
    cases f with
    | perUnit v =>
      simp only [addFact, CostSpecBuilder.perUnit]
      split
      · rename_i hn
        refine ⟨by simp [Option.isNone_iff_eq_none.mp hn], fun k => ?_⟩
        rw [he k]
        by_cases hk : k = .perUnit
        · subst hk; simp [CostFact.kind, n1.mp hn]
        · simp [CostFact.kind, Ne.symm hk]
      · rename_i hn
        obtain ⟨w, hw⟩ := some_of_not_none hn
        refine ⟨by simp [hw], fun k => ?_⟩
        have hz : timesSaid .perUnit l ≠ 0 := fun h => hn (n1.mpr h)
        by_cases hk : k = .perUnit
        · subst hk; simp [CostFact.kind, he]; omega
        · simp [CostFact.kind, Ne.symm hk, he]
    | total v =>
      simp only [addFact, CostSpecBuilder.total]
      split
      · rename_i hn
        refine ⟨by simp [Option.isNone_iff_eq_none.mp hn], fun k => ?_⟩
        rw [he k]
        by_cases hk : k = .total
        · subst hk; simp [CostFact.kind, n2.mp hn]
        · simp [CostFact.kind, Ne.symm hk]
      · rename_i hn
        obtain ⟨w, hw⟩ := some_of_not_none hn
        refine ⟨by simp [hw], fun k => ?_⟩
        have hz : timesSaid .total l ≠ 0 := fun h => hn (n2.mpr h)
        by_cases hk : k = .total
        · subst hk; simp [CostFact.kind, he]; omega
        · simp [CostFact.kind, Ne.symm hk, he]
    | currency v =>
      simp only [addFact, CostSpecBuilder.currency]
      split
      · rename_i hn
        refine ⟨by simp [Option.isNone_iff_eq_none.mp hn], fun k => ?_⟩
        rw [he k]
        by_cases hk : k = .currency
        · subst hk; simp [CostFact.kind, n3.mp hn]
        · simp [CostFact.kind, Ne.symm hk]
      · rename_i hn
        obtain ⟨w, hw⟩ := some_of_not_none hn
        refine ⟨by simp [hw], fun k => ?_⟩
        have hz : timesSaid .currency l ≠ 0 := fun h => hn (n3.mpr h)
        by_cases hk : k = .currency
        · subst hk; simp [CostFact.kind, he]; omega
        · simp [CostFact.kind, Ne.symm hk, he]
    | date v =>
      simp only [addFact, CostSpecBuilder.date]
      split
      · rename_i hn
        refine ⟨by simp [Option.isNone_iff_eq_none.mp hn], fun k => ?_⟩
        rw [he k]
        by_cases hk : k = .date
        · subst hk; simp [CostFact.kind, n4.mp hn]
        · simp [CostFact.kind, Ne.symm hk]
      · rename_i hn
        obtain ⟨w, hw⟩ := some_of_not_none hn
        refine ⟨by simp [hw], fun k => ?_⟩
        have hz : timesSaid .date l ≠ 0 := fun h => hn (n4.mpr h)
        by_cases hk : k = .date
        · subst hk; simp [CostFact.kind, he]; omega
        · simp [CostFact.kind, Ne.symm hk, he]
    | label v =>
      simp only [addFact, CostSpecBuilder.label]
      split
      · rename_i hn
        refine ⟨by simp [Option.isNone_iff_eq_none.mp hn], fun k => ?_⟩
        rw [he k]
        by_cases hk : k = .label
        · subst hk; simp [CostFact.kind, n5.mp hn]
        · simp [CostFact.kind, Ne.symm hk]
      · rename_i hn
        obtain ⟨w, hw⟩ := some_of_not_none hn
        refine ⟨by simp [hw], fun k => ?_⟩
        have hz : timesSaid .label l ≠ 0 := fun h => hn (n5.mpr h)
        by_cases hk : k = .label
        · subst hk; simp [CostFact.kind, he]; omega
        · simp [CostFact.kind, Ne.symm hk, he]
    | merge =>
      simp only [addFact, CostSpecBuilder.merge]
      split
      · rename_i hn
        simp only [Bool.not_eq_true'] at hn
        refine ⟨by simp, fun k => ?_⟩
        rw [he k]
        by_cases hk : k = .merge
        · subst hk; simp [CostFact.kind, n6.mp hn]
        · simp [CostFact.kind, Ne.symm hk]
      · rename_i hn
        simp only [Bool.not_eq_true', Bool.not_eq_false] at hn
        refine ⟨by simp [hn], fun k => ?_⟩
        have hz : timesSaid .merge l ≠ 0 := fun h => by rw [n6.mpr h] at hn; cases hn
        by_cases hk : k = .merge
        · subst hk; simp [CostFact.kind, he]; omega
        · simp [CostFact.kind, Ne.symm hk, he]

theorem findSome_mem {α : Type} {l : List CostFact} {g : CostFact → Option α} {mk : α → CostFact} {k : CostSpecError}
    (hg : ∀ f v, g f = some v ↔ f = mk v) (hk : ∀ f, f.kind = k ↔ ∃ v, f = mk v) (h : timesSaid k l ≤ 1) (v : α) :
    l.findSome? g = some v ↔ mk v ∈ l := by
  induction l with
  | nil => simp
  | cons f l ih =>
    rw [List.findSome?_cons, List.mem_cons]
    by_cases hf : f.kind = k
    · obtain ⟨w, rfl⟩ := (hk f).mp hf
      rw [(hg _ w).mpr rfl]
      have h0 : timesSaid k l = 0 := by
        unfold timesSaid at h ⊢
        simp only [List.filter_cons, hf, decide_true, ↓reduceIte, List.length_cons] at h
        omega
      have hnot : ∀ u, mk u ∉ l := by
        intro u hu
        unfold timesSaid at h0
        rw [List.length_eq_zero_iff, List.filter_eq_nil_iff] at h0
        exact h0 _ hu (by simp [(hk _).mpr ⟨u, rfl⟩])
      constructor
      · intro h; cases h; exact .inl rfl
      · rintro (h | h)
        · have := (hg (mk w) v).mpr h.symm
          rw [(hg _ w).mpr rfl] at this
          simpa using this
        · exact absurd h (hnot v)
    · have hn : g f = none := by
        cases hgf : g f with
        | none => rfl
        | some w => exact absurd ((hk f).mpr ⟨w, (hg f w).mp hgf⟩) hf
      rw [hn]
      simp only
      rw [ih (by unfold timesSaid at h ⊢; simpa [List.filter_cons, hf] using h)]
      constructor
      · exact .inr
      · rintro (h | h)
        · exact absurd ((hk f).mpr ⟨v, h.symm⟩) hf
        · exact h

/-- C21: a list of components is accepted exactly if nothing is said twice. -/
theorem C21_at_most_once (comps : List (Spanned CostComp)) :
    (∃ c, costSpecOf comps = .ok c) ↔ ∀ kind, timesSaid kind (comps.flatMap costFacts) ≤ 1 := by
  unfold costSpecOf CostSpecBuilder.build
  rw [foldl_add]
  have h := (built_from (comps.flatMap costFacts)).2
  constructor
  · rintro ⟨c, hc⟩ k
    split at hc
    · rename_i he
      have := h k
      rw [List.isEmpty_iff.mp he] at this
      simp only [List.count_nil] at this
      omega
    · cases hc
  · intro hk
    split
    · exact ⟨_, rfl⟩
    · rename_i he
      exfalso
      cases hes : ((comps.flatMap costFacts).foldl addFact .default).errors with
      | nil => rw [hes] at he; exact he rfl
      | cons e es =>
        have := h e
        rw [hes, List.count_cons_self] at this
        have := hk e
        omega

/-- C21: the fields are the given components. -/
theorem C21_fields (comps : List (Spanned CostComp)) (c : CostSpec) (h : costSpecOf comps = .ok c) :
    Says c (comps.flatMap costFacts) := by
  have honce := (C21_at_most_once comps).mp ⟨c, h⟩
  unfold costSpecOf CostSpecBuilder.build at h
  rw [foldl_add] at h
  have hb := (built_from (comps.flatMap costFacts)).1
  split at h
  · cases h
    obtain ⟨h1, h2, h3, h4, h5, h6⟩ := hb
    refine ⟨?_, ?_, ?_, ?_, ?_, ?_⟩
    · intro v; rw [h1]
      exact findSome_mem (k := .perUnit) (by intro f v; cases f <;> simp) (by intro f; cases f <;> simp [CostFact.kind])
        (honce _) v
    · intro v; rw [h2]
      exact findSome_mem (k := .total) (by intro f v; cases f <;> simp) (by intro f; cases f <;> simp [CostFact.kind])
        (honce _) v
    · intro v; rw [h3]
      exact findSome_mem (k := .currency) (by intro f v; cases f <;> simp) (by intro f; cases f <;> simp [CostFact.kind])
        (honce _) v
    · intro v; rw [h4]
      exact findSome_mem (k := .date) (by intro f v; cases f <;> simp) (by intro f; cases f <;> simp [CostFact.kind])
        (honce _) v
    · intro v; rw [h5]
      exact findSome_mem (k := .label) (by intro f v; cases f <;> simp) (by intro f; cases f <;> simp [CostFact.kind])
        (honce _) v
    · rw [h6, List.any_eq_true]
      constructor
      · rintro ⟨f, hf, h⟩
        cases f <;> simp at h
        exact hf
      · intro h
        exact ⟨_, h, rfl⟩
  · cases h

/-- C21: the order of the components does not matter. -/
theorem C21_any_order (comps comps' : List (Spanned CostComp)) (hp : comps.Perm comps') (c : CostSpec)
    (h : costSpecOf comps = .ok c) : costSpecOf comps' = .ok c := by
  have hp' := hp.flatMap_right costFacts
  have honce : ∀ kind, timesSaid kind (comps'.flatMap costFacts) ≤ 1 := by
    intro k
    have := (C21_at_most_once comps).mp ⟨c, h⟩ k
    unfold timesSaid at this ⊢
    rw [← (hp'.filter _).length_eq]
    exact this
  obtain ⟨c', h'⟩ := (C21_at_most_once comps').mpr honce
  obtain ⟨a1, a2, a3, a4, a5, a6⟩ := C21_fields comps c h
  obtain ⟨b1, b2, b3, b4, b5, b6⟩ := C21_fields comps' c' h'
  have : c = c' := by
    cases c; cases c'
    simp only [CostSpec.mk.injEq]
    refine ⟨Option.ext fun v => ?_, Option.ext fun v => ?_, Option.ext fun v => ?_, Option.ext fun v => ?_,
      Option.ext fun v => ?_, ?_⟩
    · exact (a1 v).trans (hp'.mem_iff.trans (b1 v).symm)
    · exact (a2 v).trans (hp'.mem_iff.trans (b2 v).symm)
    · exact (a3 v).trans (hp'.mem_iff.trans (b3 v).symm)
    · exact (a4 v).trans (hp'.mem_iff.trans (b4 v).symm)
    · exact (a5 v).trans (hp'.mem_iff.trans (b5 v).symm)
    · exact Bool.eq_iff_iff.mpr (a6.trans (hp'.mem_iff.trans b6.symm))
  rw [this, h']

/-- C21: one error for every repetition. -/
theorem C21_errors (comps : List (Spanned CostComp)) (es : List CostSpecError) (h : costSpecOf comps = .error es)
    (kind : CostSpecError) : es.count kind = timesSaid kind (comps.flatMap costFacts) - 1 := by
  unfold costSpecOf CostSpecBuilder.build at h
  rw [foldl_add] at h
  split at h
  · cases h
  · cases h
    exact (built_from _).2 kind

/-- `{10 # 2 USD, 2024-01-01, *}` -/
example : ∃ c, costSpecOf [⟨.amount (.currencyAmount (.perUnitAndTotal ⟨⟨10, 0⟩, .value ⟨10, 0⟩⟩ ⟨⟨2, 0⟩, .value ⟨2, 0⟩⟩)
      (str "USD")), ⟨0, 1, 11⟩⟩, ⟨.date ⟨2024, 1, 1⟩, ⟨0, 13, 23⟩⟩, ⟨.merge, ⟨0, 25, 26⟩⟩] = .ok c :=
  ⟨_, rfl⟩

/-- `{10, USD, # 2, 20}` -/
example : costSpecOf [⟨.amount (.bareAmount (.perUnit ⟨⟨10, 0⟩, .value ⟨10, 0⟩⟩)), ⟨0, 1, 3⟩⟩,
      ⟨.amount (.bareCurrency (str "USD")), ⟨0, 5, 8⟩⟩,
      ⟨.amount (.bareAmount (.total ⟨⟨2, 0⟩, .value ⟨2, 0⟩⟩)), ⟨0, 10, 13⟩⟩,
      ⟨.amount (.bareAmount (.perUnit ⟨⟨20, 0⟩, .value ⟨20, 0⟩⟩)), ⟨0, 15, 17⟩⟩] = .error [.perUnit] :=
  rfl

end Lima.Props
