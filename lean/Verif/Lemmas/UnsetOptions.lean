import Verif.Spec.Unset
import Verif.Props.Options
import Verif.Lemmas.Maps
import Verif.Lemmas.Success

/-! Options but for some settings. -/

set_option linter.unusedSectionVars false

namespace Lima.Unset
open Lima Spec Props

theorem leaving_no {α : Type} {p : Prop} (h : ¬ p) (x : Option α) : leaving p x = x := if_neg h
theorem leaving_yes {α : Type} {p : Prop} (h : p) (x : Option α) : leaving p x = none := if_pos h
theorem leaving_none {α : Type} (p : Prop) : leaving p (none : Option α) = none := by unfold leaving; split <;> rfl

theorem leaving_unless {α : Type} {p q : Prop} (h : q → p) (x : Option α) : leaving p (leaving q x) = leaving p x := by
  by_cases hp : p
  · rw [leaving_yes hp, leaving_yes hp]
  · rw [leaving_no hp, leaving_no hp, leaving_no fun hq => hp (h hq)]

theorem others_cons_no {κ ν : Type} {P : κ → Prop} {e : κ × ν} (h : ¬ P e.1) (m : List (κ × ν)) : others P (e :: m) = e :: others P m := by
  unfold others
  rw [List.filter_cons_of_pos]
  simpa using h

theorem others_cons_yes {κ ν : Type} {P : κ → Prop} {e : κ × ν} (h : P e.1) (m : List (κ × ν)) : others P (e :: m) = others P m := by
  unfold others
  rw [List.filter_cons_of_neg]
  simpa using h

theorem others_append {κ ν : Type} (P : κ → Prop) (a b : List (κ × ν)) : others P (a ++ b) = others P a ++ others P b := by
  unfold others
  exact List.filter_append ..

theorem others_others {κ ν : Type} {P P' : κ → Prop} (h : ∀ k, P' k → P k) (m : List (κ × ν)) : others P (others P' m) = others P m := by
  induction m with
  | nil => rfl
  | cons e m ih =>
    by_cases hp : P e.1
    · by_cases hp' : P' e.1
      · rw [others_cons_yes hp', others_cons_yes hp, ih]
      · rw [others_cons_no hp', others_cons_yes hp, others_cons_yes hp, ih]
    · rw [others_cons_no fun hq => hp (h _ hq), others_cons_no hp, others_cons_no hp, ih]

theorem get_others {κ ν : Type} [DecidableEq κ] {P : κ → Prop} {m : List (κ × ν)} {k : κ} (h : ¬ P k) : AMap.get (others P m) k = AMap.get m k := by
  induction m with
  | nil => rfl
  | cons e m ih =>
    by_cases he : P e.1
    · rw [others_cons_yes he, AMap.get_cons, ih, if_neg]
      rintro rfl
      exact h he
    · rw [others_cons_no he, AMap.get_cons, AMap.get_cons, ih]

theorem others_nothing {κ ν : Type} (m : List (κ × ν)) : others (fun _ => False) m = m := by
  induction m with
  | nil => rfl
  | cons e m ih => rw [others_cons_no (by simp), ih]

theorem others_more {κ ν : Type} {P P' : κ → Prop} {k : κ} (h : ∀ x, P' x ↔ P x ∨ x = k) : ∀ {m : List (κ × ν)}, (∀ e ∈ m, e.1 ≠ k) →
    others P' m = others P m
  | [], _ => rfl
  | e :: m, hk => by
    have ih := others_more h (m := m) fun x hx => hk x (List.mem_cons_of_mem _ hx)
    have he := hk e (by simp)
    by_cases hp : P e.1
    · rw [others_cons_yes hp, others_cons_yes ((h _).mpr (.inl hp)), ih]
    · rw [others_cons_no hp, others_cons_no (fun hq => ((h _).mp hq).elim hp he), ih]

theorem butFor_none (o : Options) : butFor (fun _ => False) o = o := by
  cases o
  unfold butFor
  simp only [leaving_no not_false, others_nothing]

theorem butFor_butFor {S Q : Setting → Prop} (h : ∀ k, S k → Q k) (o : Options) : butFor Q (butFor S o) = butFor Q o := by
  unfold butFor
  simp only [leaving_unless (h _), others_others (P := fun c => Q (.tolerance c)) (P' := fun c => S (.tolerance c)) (fun _ => h _),
    others_others (P := fun c => Q (.document c)) (P' := fun c => S (.document c)) (fun _ => h _),
    others_others (P := fun c => Q (.operatingCurrency c)) (P' := fun c => S (.operatingCurrency c)) (fun _ => h _)]

theorem insert_none {κ ν : Type} [DecidableEq κ] {m : List (κ × ν)} {k : κ} {v : ν} (h : AMap.get m k = none) :
    AMap.insert m k v = m ++ [(k, v)] := by
  unfold AMap.insert
  rw [AMap.has_eq_isSome, h]
  rfl

/-- A setting which is made twice is an error. -/
theorem twice {o : Options} {b : BOption} {k : Setting} (h : settingOf b.variant = some k) (hk : keptSource o k ≠ none) : (o.assimilate b).2 ≠ none := by
  rw [report_assimilate, h]
  obtain ⟨x, hx⟩ := Option.ne_none_iff_exists'.mp hk
  simp [hx]

theorem once {o : Options} {b : BOption} {k : Setting} (h : settingOf b.variant = some k) (hk : keptSource o k = none) : (o.assimilate b).2 = none := by
  rw [report_assimilate, h]
  simp [hk]

theorem other {o : Options} {b : BOption} (h : settingOf b.variant = none) : o.assimilate b = (o, none) := by
  obtain ⟨src, v⟩ := b
  cases v <;> first | rfl | cases h

/-- A setting which is not one of those. -/
theorem butFor_set {S : Setting → Prop} {o : Options} {b : BOption} {k : Setting} (h : settingOf b.variant = some k) (hk : keptSource o k = none)
    (hS : ¬ S k) : ((butFor S o).assimilate b).1 = butFor S (o.assimilate b).1 := by
  obtain ⟨src, v⟩ := b
  cases v <;> simp only [settingOf, Option.some.injEq, reduceCtorEq] at h <;> subst h <;>
    simp only [keptSource, Option.map_eq_none_iff] at hk
  case inferredToleranceDefault c d =>
    have hf : AMap.get (butFor S o).inferredToleranceDefault c = none := (get_others (P := fun c => S (.tolerance c)) hS).trans hk
    simp only [Options.assimilate, Options.update, updateHashmap, hf, hk, insert_none hf, insert_none hk]
    unfold butFor
    simp only [others_append, others_cons_no (P := fun c => S (.tolerance c)) (e := (c, d, src)) hS]
    rfl
  case documents p =>
    have hf : AMap.get (butFor S o).documents p = none := (get_others (P := fun c => S (.document c)) hS).trans hk
    simp only [Options.assimilate, Options.update, updateUnitHashmap, hf, hk, insert_none hf, insert_none hk]
    unfold butFor
    simp only [others_append, others_cons_no (P := fun c => S (.document c)) (e := (p, src)) hS]
    rfl
  case operatingCurrency p =>
    have hf : AMap.get (butFor S o).operatingCurrency p = none := (get_others (P := fun c => S (.operatingCurrency c)) hS).trans hk
    simp only [Options.assimilate, Options.update, updateUnitHashmap, hf, hk, insert_none hf, insert_none hk]
    unfold butFor
    simp only [others_append, others_cons_no (P := fun c => S (.operatingCurrency c)) (e := (p, src)) hS]
    rfl
  all_goals
    simp only [Options.assimilate, Options.update, updateOptional, butFor, leaving_no hS, hk]

/-- Whether settings are made, but for some. -/
theorem kept_butFor {S : Setting → Prop} {o : Options} {k : Setting} (hS : ¬ S k) : keptSource (butFor S o) k = keptSource o k := by
  cases k <;> simp only [keptSource, butFor, leaving_no hS]
  · rw [get_others (P := fun x => S (.tolerance x)) hS]
  · rw [get_others (P := fun x => S (.document x)) hS]
  · rw [get_others (P := fun x => S (.operatingCurrency x)) hS]

theorem kept_or (o : Options) (b : BOption) (k : Setting) (h : keptSource o k ≠ none) : keptSource (o.assimilate b).1 k ≠ none := by
  rw [keptSource_assimilate]
  obtain ⟨x, hx⟩ := Option.ne_none_iff_exists'.mp h
  simp [hx]

theorem kept_now (o : Options) (b : BOption) (k : Setting) (h : settingOf b.variant = some k) : keptSource (o.assimilate b).1 k ≠ none := by
  rw [keptSource_assimilate, if_pos h]
  cases keptSource o k <;> simp

theorem not_key {κ ν : Type} [DecidableEq κ] {m : List (κ × ν)} {k : κ} (h : AMap.get m k = none) : ∀ e ∈ m, e.1 ≠ k := by
  intro e he hk
  have : AMap.has m k = true := (AMap.has_iff m k).mpr ⟨_, he, hk⟩
  rw [AMap.has_eq_isSome, h] at this
  cases this

/-- A setting which is left out. -/
theorem butFor_drop {S : Setting → Prop} {o : Options} {b : BOption} {k : Setting} (h : settingOf b.variant = some k) (hk : keptSource o k = none) :
    butFor (fun x => S x ∨ x = k) (o.assimilate b).1 = butFor S o := by
  obtain ⟨src, v⟩ := b
  cases v <;> simp only [settingOf, Option.some.injEq, reduceCtorEq] at h <;> subst h <;>
    simp only [keptSource, Option.map_eq_none_iff] at hk
  case inferredToleranceDefault c d =>
    simp only [Options.assimilate, Options.update, updateHashmap, hk, insert_none hk]
    unfold butFor
    simp only [reduceCtorEq, or_false, Options.mk.injEq, true_and, and_true, others_append]
    rw [others_cons_yes (.inr rfl), others_more (P := fun x => S (.tolerance x)) (k := c) (fun x => by simp) (not_key hk)]
    exact List.append_nil _
  case documents p =>
    simp only [Options.assimilate, Options.update, updateUnitHashmap, hk, insert_none hk]
    unfold butFor
    simp only [reduceCtorEq, or_false, Options.mk.injEq, true_and, and_true, others_append]
    rw [others_cons_yes (.inr rfl), others_more (P := fun x => S (.document x)) (k := p) (fun x => by simp) (not_key hk)]
    exact List.append_nil _
  case operatingCurrency p =>
    simp only [Options.assimilate, Options.update, updateUnitHashmap, hk, insert_none hk]
    unfold butFor
    simp only [reduceCtorEq, or_false, Options.mk.injEq, true_and, and_true, others_append]
    rw [others_cons_yes (.inr rfl), others_more (P := fun x => S (.operatingCurrency x)) (k := p) (fun x => by simp) (not_key hk)]
    exact List.append_nil _
  all_goals
    simp only [Options.assimilate, Options.update, updateOptional, butFor, hk, reduceCtorEq, or_false, or_true, leaving_none, leaving_yes trivial]

/-- Locations are moved all the same. -/
theorem move_leaving {α : Type} [Places α] (f : Span → Span) (p : Prop) (x : Option α) : move f (leaving p x) = leaving p (move f x) := by
  by_cases hp : p
  · rw [leaving_yes hp, leaving_yes hp]; rfl
  · rw [leaving_no hp, leaving_no hp]

theorem move_others {κ ν : Type} [Places κ] [Places ν] (hκ : ∀ (f : Span → Span) (k : κ), move f k = k) (f : Span → Span) (P : κ → Prop) (m : List (κ × ν)) :
    move f (others P m) = others P (move f m) := by
  induction m with
  | nil => rfl
  | cons e m ih =>
    have h1 : (move f e).1 = e.1 := hκ f e.1
    by_cases hp : P e.1
    · rw [others_cons_yes hp, ih]
      exact (others_cons_yes (P := P) (e := move f e) (by rw [h1]; exact hp) _).symm
    · rw [others_cons_no hp]
      refine Eq.trans ?_ (others_cons_no (P := P) (e := move f e) (by rw [h1]; exact hp) _).symm
      exact congrArg (move f e :: ·) ih

theorem butFor_move (f : Span → Span) (S : Setting → Prop) (o : Options) : move f (butFor S o) = butFor S (move f o) := by
  change Options.mk .. = Options.mk ..
  simp only [Options.mk.injEq]
  refine ⟨?_, ?_, ?_, ?_, ?_, ?_, ?_, ?_, ?_, ?_, ?_, ?_, ?_, ?_, ?_, ?_, ?_, ?_⟩ <;>
    first
    | exact move_leaving f _ _
    | rfl
    | exact move_others (κ := CurrencyOrAny) (ν := Dec × OptSource) (fun _ _ => rfl) f (fun c => S (.tolerance c)) o.inferredToleranceDefault
    | exact move_others (κ := Path) (ν := OptSource) (fun _ _ => rfl) f (fun c => S (.document c)) o.documents
    | exact move_others (κ := Str) (ν := OptSource) (fun _ _ => rfl) f (fun c => S (.operatingCurrency c)) o.operatingCurrency

theorem butFor_same {S : Setting → Prop} {o o' : Options} (h : SameButPlaces o o') : SameButPlaces (butFor S o) (butFor S o') := by
  unfold SameButPlaces at *
  rw [butFor_move, butFor_move, h]

end Lima.Unset
