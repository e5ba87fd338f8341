import Verif.Model.Spans

/-!
# The binary search of the standard library answers as `slice::partition_point` should
-/

namespace Lima

theorem binaryLoop_gt (l : List Nat) (p : Nat → Bool) (base size : Nat) (h : holdsAt l p base = true) :
    base < binaryLoop l p base size := by
  fun_induction binaryLoop l p base size with
  | case1 base size hs => simp only [h, if_true]; omega
  | case2 base size hs half hb ih => have := ih hb; omega
  | case3 base size hs half hb ih => exact ih h

theorem binaryLoop_bounds (l : List Nat) (p : Nat → Bool) (base size : Nat) (h : 1 ≤ size) :
    base ≤ binaryLoop l p base size ∧ binaryLoop l p base size ≤ base + size ∧
      (binaryLoop l p base size ≠ base → holdsAt l p (binaryLoop l p base size - 1) = true) := by
  fun_induction binaryLoop l p base size with
  | case1 base size hs =>
    by_cases hb : holdsAt l p base = true
    · simp only [hb, if_true, Nat.add_sub_cancel]; exact ⟨by omega, by omega, fun _ => trivial⟩
    · simp only [hb]; simp
  | case2 base size hs half hb ih =>
    have := ih (by omega)
    have hgt := binaryLoop_gt l p (base + half) (size - half) hb
    exact ⟨by omega, by omega, fun _ => this.2.2 (by omega)⟩
  | case3 base size hs half hb ih =>
    have := ih (by omega)
    exact ⟨this.1, by omega, this.2.2⟩

theorem binaryLoop_mono (l : List Nat) (p q : Nat → Bool) (hpq : ∀ x, p x = true → q x = true) (base size : Nat)
    (h : 1 ≤ size) : binaryLoop l p base size ≤ binaryLoop l q base size := by
  have hat : ∀ i, holdsAt l p i = true → holdsAt l q i = true := by
    intro i hi
    unfold holdsAt at hi ⊢
    cases hx : l[i]? with
    | none => rw [hx] at hi; cases hi
    | some x => rw [hx] at hi; exact hpq x hi
  induction hn : size using Nat.strongRecOn generalizing base size with
  | ind n ih =>
    subst hn
    rw [binaryLoop, binaryLoop.eq_def l q]
    split
    · by_cases hp : holdsAt l p base = true
      · simp [hp, hat base hp]
      · simp [hp]
    · have hstep := fun b => ih (size - size / 2) (by omega) b (size - size / 2) (by omega) rfl
      by_cases hp : holdsAt l p (base + size / 2) = true
      · simp only [hp, hat _ hp, if_true]
        exact hstep _
      · by_cases hq : holdsAt l q (base + size / 2) = true
        · have h1 := binaryLoop_bounds l p base (size - size / 2) (by omega)
          have h2 := binaryLoop_bounds l q (base + size / 2) (size - size / 2) (by omega)
          have h3 : binaryLoop l p base (size - size / 2) ≤ base + size / 2 := by
            rcases Nat.lt_or_ge (base + size / 2) (binaryLoop l p base (size - size / 2)) with hlt | hge
            · have e : binaryLoop l p base (size - size / 2) - 1 = base + size / 2 := by omega
              have := h1.2.2 (by omega)
              rw [e] at this
              exact absurd this hp
            · exact hge
          simp only [hp, hq, if_true]
          simp
          omega
        · simp only [hp, hq]
          exact hstep _

theorem binaryLoop_partitioned (a b : List Nat) (p : Nat → Bool) (ha : ∀ x ∈ a, p x = true)
    (hb : ∀ x ∈ b, p x = false) (base size : Nat) (h : 1 ≤ size) (hlo : base = 0 ∨ base < a.length)
    (hhi : a.length ≤ base + size) : binaryLoop (a ++ b) p base size = a.length := by
  have hlt : ∀ i, holdsAt (a ++ b) p i = decide (i < a.length) := by
    intro i
    unfold holdsAt
    by_cases hi : i < a.length
    · rw [List.getElem?_append_left hi, List.getElem?_eq_getElem hi]
      simp [hi, ha _ (List.getElem_mem hi)]
    · rw [List.getElem?_append_right (by omega)]
      cases hx : b[i - a.length]? with
      | none => simp [hi]
      | some x => simp [hi, hb x (List.mem_of_getElem? hx)]
  fun_induction binaryLoop (a ++ b) p base size with
  | case1 base size hs =>
    rw [hlt]
    by_cases hm : base < a.length
    · simp [hm]; omega
    · simp [hm]; omega
  | case2 base size hs half hm ih =>
    rw [hlt] at hm
    have hm := of_decide_eq_true hm
    exact ih (by omega) (by omega) (by omega)
  | case3 base size hs half hm ih =>
    rw [hlt] at hm
    have hm : ¬ base + half < a.length := by simpa using hm
    exact ih (by omega) hlo (by omega)

/-- `slice::partition_point` as the standard library implements it. -/
@[reducible] def PartitionPoint.binary : MonotonePoint where
  point l p := if l = [] then 0 else binaryLoop l p 0 l.length
  point_partitioned a b p ha hb := by
    split
    · rename_i h
      have := List.append_eq_nil_iff.mp h
      simp [this.1]
    · rename_i h
      have := List.length_pos_iff.mpr h
      exact binaryLoop_partitioned a b p ha hb 0 _ (by omega) (.inl rfl) (by simp)
  point_le l p := by
    split
    · omega
    · rename_i h
      have := List.length_pos_iff.mpr h
      have := (binaryLoop_bounds l p 0 l.length (by omega)).2.1
      omega
  point_mono l p q h := by
    split
    · omega
    · rename_i h'
      have := List.length_pos_iff.mpr h'
      exact binaryLoop_mono l p q h 0 _ (by omega)

end Lima
