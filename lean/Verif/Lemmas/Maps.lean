import Verif.Model.Basic

/-! Lemmas about the hash containers of the model. -/

namespace Lima

section SMap
variable {κ ν : Type} [DecidableEq κ]

theorem SMap.has_iff (m : List (Spanned κ × ν)) (k : κ) :
    SMap.has m k = true ↔ ∃ e ∈ m, e.1.item = k := by
  simp [SMap.has]

theorem SMap.has_false_iff (m : List (Spanned κ × ν)) (k : κ) :
    SMap.has m k = false ↔ ∀ e ∈ m, e.1.item ≠ k := by
  simp [SMap.has]

theorem SMap.has_eq_isSome (m : List (Spanned κ × ν)) (k : κ) :
    SMap.has m k = (SMap.get m k).isSome := by
  unfold SMap.has SMap.get
  induction m with
  | nil => rfl
  | cons e m ih =>
    simp only [List.any_cons, List.find?_cons]
    by_cases h : e.1.item = k <;> simp [h]
    simpa using ih

theorem SMap.get_nil (k : κ) : SMap.get ([] : List (Spanned κ × ν)) k = none := rfl

theorem SMap.get_cons (e : Spanned κ × ν) (m : List (Spanned κ × ν)) (k : κ) :
    SMap.get (e :: m) k = if e.1.item = k then some e.2 else SMap.get m k := by
  unfold SMap.get
  by_cases h : e.1.item = k <;> simp [h]

theorem SMap.get_append (m n : List (Spanned κ × ν)) (k : κ) :
    SMap.get (m ++ n) k = (SMap.get m k).or (SMap.get n k) := by
  induction m with
  | nil => simp [SMap.get_nil]
  | cons e m ih =>
    simp only [List.cons_append, SMap.get_cons, ih]
    split <;> simp

theorem SMap.get_insert (m : List (Spanned κ × ν)) (k : Spanned κ) (v : ν) (k' : κ) :
    SMap.get (SMap.insert m k v) k' = if k.item = k' then some v else SMap.get m k' := by
  unfold SMap.insert
  split
  · rename_i h
    rw [SMap.has_iff] at h
    obtain ⟨e, he, hk⟩ := h
    induction m with
    | nil => simp at he
    | cons x m ih =>
      simp only [List.map_cons, SMap.get_cons]
      by_cases hx : x.1.item = k.item
      · by_cases hk' : k.item = k'
        · simp [hx, hk']
        · simp only [hx, if_true, hk', if_false]
          clear ih
          have : ∀ m : List (Spanned κ × ν), SMap.get (m.map
              (fun e => if e.1.item = k.item then (e.1, v) else e)) k' = SMap.get m k' := by
            intro m
            induction m with
            | nil => rfl
            | cons y m ih =>
              simp only [List.map_cons, SMap.get_cons, ih]
              by_cases hy : y.1.item = k.item
              · simp [hy, hk']
              · simp [hy]
          exact this m
      · have he' : e ∈ m := by
          rcases List.mem_cons.mp he with h | h
          · subst h; exact absurd hk hx
          · exact h
        simp only [hx, if_false]
        by_cases hxk : x.1.item = k'
        · have : k.item ≠ k' := fun h => hx (hxk.trans h.symm)
          simp [hxk, this]
        · simp only [hxk, if_false]
          exact ih he'
  · rename_i h
    rw [SMap.get_append]
    have h' : SMap.has m k.item = false := by simpa using h
    by_cases hk : k.item = k'
    · subst hk
      have : SMap.get m k.item = none := by
        rw [SMap.has_eq_isSome] at h'
        simpa using h'
      simp [this, SMap.get_cons]
    · simp [SMap.get_cons, hk, SMap.get_nil]

theorem SMap.get_erase (m : List (Spanned κ × ν)) (k k' : κ) :
    SMap.get (SMap.erase m k) k' = if k = k' then none else SMap.get m k' := by
  unfold SMap.erase
  induction m with
  | nil => simp [SMap.get_nil]
  | cons x m ih =>
    by_cases hx : x.1.item = k
    · simp only [hx, ne_eq, not_true_eq_false, decide_false, Bool.false_eq_true,
        not_false_eq_true, List.filter_cons_of_neg, ih, SMap.get_cons]
      by_cases hk : k = k' <;> simp [hk]
    · simp only [hx, ne_eq, not_false_eq_true, decide_true, List.filter_cons_of_pos,
        SMap.get_cons, ih]
      by_cases hk : k = k'
      · subst hk; simp [hx]
      · simp [hk]

/-- Each key occurs once, as in any hash map. -/
def SMap.Nodup (m : List (Spanned κ × ν)) : Prop := (m.map (·.1.item)).Nodup

theorem SMap.nodup_insert {m : List (Spanned κ × ν)} (h : SMap.Nodup m) (k : Spanned κ) (v : ν) :
    SMap.Nodup (SMap.insert m k v) := by
  unfold SMap.Nodup SMap.insert at *
  split
  · have : (m.map (fun e => if e.1.item = k.item then (e.1, v) else e)).map (·.1.item)
        = m.map (·.1.item) := by
      rw [List.map_map]
      apply List.map_congr_left
      intro e _
      simp only [Function.comp]
      split <;> rfl
    rw [this]; exact h
  · rename_i hk
    have hk' : SMap.has m k.item = false := by simpa using hk
    rw [SMap.has_false_iff] at hk'
    rw [List.map_append, List.nodup_append]
    refine ⟨h, by simp, ?_⟩
    intro a ha b hb
    simp only [List.map_cons, List.map_nil, List.mem_singleton] at hb
    obtain ⟨e, he, rfl⟩ := List.mem_map.mp ha
    subst hb
    exact hk' e he

theorem SMap.nodup_erase {m : List (Spanned κ × ν)} (h : SMap.Nodup m) (k : κ) :
    SMap.Nodup (SMap.erase m k) := by
  unfold SMap.Nodup SMap.erase at *
  exact h.sublist (List.Sublist.map _ List.filter_sublist)

theorem SMap.get_eq_some_iff {m : List (Spanned κ × ν)} (h : SMap.Nodup m) (k : κ) (v : ν) :
    SMap.get m k = some v ↔ ∃ e ∈ m, e.1.item = k ∧ e.2 = v := by
  induction m with
  | nil => simp [SMap.get_nil]
  | cons x m ih =>
    have hn : SMap.Nodup m := by
      unfold SMap.Nodup at *
      simp only [List.map_cons, List.nodup_cons] at h
      exact h.2
    have hx : ∀ e ∈ m, e.1.item ≠ x.1.item := by
      unfold SMap.Nodup at h
      simp only [List.map_cons, List.nodup_cons] at h
      intro e he heq
      exact h.1 (heq ▸ List.mem_map.mpr ⟨e, he, rfl⟩)
    rw [SMap.get_cons]
    by_cases hk : x.1.item = k
    · simp only [hk, if_true, Option.some.injEq, List.mem_cons]
      constructor
      · intro hv; exact ⟨x, Or.inl rfl, hk, hv⟩
      · rintro ⟨e, he, hek, hev⟩
        rcases he with rfl | he
        · exact hev
        · exact absurd (hek.trans hk.symm) (hx e he)
    · simp only [hk, if_false, ih hn, List.mem_cons]
      constructor
      · rintro ⟨e, he, h1⟩; exact ⟨e, Or.inr he, h1⟩
      · rintro ⟨e, he, h1, h2⟩
        rcases he with rfl | he
        · exact absurd h1 hk
        · exact ⟨e, he, h1, h2⟩

end SMap

section AMap
variable {κ ν : Type} [DecidableEq κ]

theorem AMap.get_nil (k : κ) : AMap.get ([] : List (κ × ν)) k = none := rfl

theorem AMap.get_cons (e : κ × ν) (m : List (κ × ν)) (k : κ) :
    AMap.get (e :: m) k = if e.1 = k then some e.2 else AMap.get m k := by
  unfold AMap.get
  by_cases h : e.1 = k <;> simp [h]

theorem AMap.has_iff (m : List (κ × ν)) (k : κ) : AMap.has m k = true ↔ ∃ e ∈ m, e.1 = k := by
  simp [AMap.has]

theorem AMap.has_eq_isSome (m : List (κ × ν)) (k : κ) :
    AMap.has m k = (AMap.get m k).isSome := by
  unfold AMap.has AMap.get
  induction m with
  | nil => rfl
  | cons e m ih =>
    simp only [List.any_cons, List.find?_cons]
    by_cases h : e.1 = k <;> simp [h]
    simpa using ih

theorem AMap.get_append (m n : List (κ × ν)) (k : κ) :
    AMap.get (m ++ n) k = (AMap.get m k).or (AMap.get n k) := by
  induction m with
  | nil => simp [AMap.get_nil]
  | cons e m ih =>
    simp only [List.cons_append, AMap.get_cons, ih]
    split <;> simp

theorem AMap.has_cons (e : κ × ν) (m : List (κ × ν)) (k : κ) :
    AMap.has (e :: m) k = (decide (e.1 = k) || AMap.has m k) := by
  simp [AMap.has]

theorem AMap.get_map_replace (m : List (κ × ν)) (k : κ) (v : ν) (k' : κ) :
    AMap.get (m.map (fun e => if e.1 = k then (k, v) else e)) k'
      = if k = k' then (if AMap.has m k then some v else none) else AMap.get m k' := by
  induction m with
  | nil => simp [AMap.get_nil, AMap.has]
  | cons x m ih =>
    simp only [List.map_cons, AMap.get_cons, ih, AMap.has_cons]
    by_cases hx : x.1 = k
    · by_cases hk : k = k' <;> simp [hx, hk]
    · by_cases hk : k = k'
      · subst hk
        rw [decide_eq_false hx]
        simp [hx]
      · simp [hx, hk]

theorem AMap.get_insert (m : List (κ × ν)) (k : κ) (v : ν) (k' : κ) :
    AMap.get (AMap.insert m k v) k' = if k = k' then some v else AMap.get m k' := by
  unfold AMap.insert
  split
  · rename_i h
    rw [AMap.get_map_replace]
    simp [h]
  · rename_i h
    rw [AMap.get_append]
    by_cases hk : k = k'
    · subst hk
      rw [AMap.has_eq_isSome] at h
      have : AMap.get m k = none := by simpa using h
      simp [this, AMap.get_cons]
    · simp [AMap.get_cons, hk, AMap.get_nil]

theorem AMap.get_erase (m : List (κ × ν)) (k k' : κ) :
    AMap.get (AMap.erase m k) k' = if k = k' then none else AMap.get m k' := by
  unfold AMap.erase
  induction m with
  | nil => simp [AMap.get_nil]
  | cons x m ih =>
    by_cases hx : x.1 = k
    · simp only [hx, ne_eq, not_true_eq_false, decide_false, Bool.false_eq_true,
        not_false_eq_true, List.filter_cons_of_neg, ih, AMap.get_cons]
      by_cases hk : k = k' <;> simp [hk]
    · simp only [hx, ne_eq, not_false_eq_true, decide_true, List.filter_cons_of_pos,
        AMap.get_cons, ih]
      by_cases hk : k = k'
      · subst hk; simp [hx]
      · simp [hk]

theorem AMap.mem_of_get {m : List (κ × ν)} {k : κ} {v : ν} (h : AMap.get m k = some v) : (k, v) ∈ m := by
  induction m with
  | nil => simp [AMap.get_nil] at h
  | cons x m ih =>
    rw [AMap.get_cons] at h
    split at h
    · rename_i hx
      obtain ⟨a, b⟩ := x
      simp only [Option.some.injEq] at h hx
      subst hx h
      simp
    · exact List.mem_cons_of_mem _ (ih h)

theorem AMap.has_insert (m : List (κ × ν)) (k : κ) (v : ν) (k' : κ) :
    AMap.has (AMap.insert m k v) k' = (decide (k = k') || AMap.has m k') := by
  rw [AMap.has_eq_isSome, AMap.get_insert, AMap.has_eq_isSome]
  by_cases h : k = k' <;> simp [h]

end AMap

section SSet
variable {α : Type} [DecidableEq α]

theorem SSet.has_iff (s : List (Spanned α)) (a : α) : SSet.has s a = true ↔ ∃ x ∈ s, x.item = a := by
  simp [SSet.has]

theorem SSet.has_iff_mem (s : List (Spanned α)) (a : α) : SSet.has s a = true ↔ a ∈ s.map (·.item) := by
  simp [SSet.has]

theorem SSet.has_insert (s : List (Spanned α)) (x : Spanned α) (a : α) :
    SSet.has (SSet.insert s x) a = (SSet.has s a || decide (x.item = a)) := by
  unfold SSet.insert
  split
  · rename_i h
    by_cases hx : x.item = a
    · subst hx; simp [h]
    · simp [hx]
  · simp [SSet.has]

/-- Each item occurs once, as in any hash set. -/
def SSet.Nodup (s : List (Spanned α)) : Prop := (s.map (·.item)).Nodup

theorem SSet.nodup_insert {s : List (Spanned α)} (h : SSet.Nodup s) (x : Spanned α) :
    SSet.Nodup (SSet.insert s x) := by
  unfold SSet.Nodup SSet.insert at *
  split
  · exact h
  · rename_i hx
    rw [SSet.has_iff_mem] at hx
    rw [List.map_append, List.nodup_append]
    refine ⟨h, by simp, ?_⟩
    intro a ha b hb heq
    simp only [List.map_cons, List.map_nil, List.mem_singleton] at hb
    subst heq hb
    exact hx ha

end SSet

end Lima
