import Verif.Spec.Check
import Mathlib.Data.List.Basic
import Mathlib.Data.List.TakeWhile
import Mathlib.Data.List.Perm.Basic

/-!
A partition in place, by swapping: a way to do what is asked of `itertools::partition`, which is called in
`/repo/examples/check-postings-balance.rs:49` and whose source is not part of `/repo`.  From the front on, each element for which the predicate fails is swapped with the last element behind it for
which it holds, and of which it is not known yet; the index of the first element for which it fails is the result.
-/

namespace Lima.SwapPartition

variable {α : Type} (p : α → Bool)

/-- The elements after the partition, and the index. -/
def run (l : List α) : List α × Nat :=
  match l with
  | [] => ([], 0)
  | x :: xs =>
    if p x then
      let r := run xs
      (x :: r.1, r.2 + 1)
    else
      match h : xs.reverse.dropWhile (fun y => !p y) with
      | [] => (x :: xs, 0)
      | y :: a =>
        let r := run a.reverse
        (y :: (r.1 ++ (x :: (xs.reverse.takeWhile (fun y => !p y)).reverse)), r.2 + 1)
termination_by l.length
decreasing_by
  · simp
  · have := congrArg List.length (List.takeWhile_append_dropWhile (p := fun y => !p y) (l := xs.reverse))
    rw [h] at this
    simp at this ⊢
    omega

theorem behind {xs a : List α} {y : α} (h : xs.reverse.dropWhile (fun y => !p y) = y :: a) :
    xs = a.reverse ++ (y :: (xs.reverse.takeWhile (fun y => !p y)).reverse) ∧ p y = true := by
  constructor
  · have := congrArg List.reverse (List.takeWhile_append_dropWhile (p := fun y => !p y) (l := xs.reverse))
    rw [h, List.reverse_append, List.reverse_reverse, List.reverse_cons, List.append_assoc] at this
    exact this.symm
  · have := List.head?_dropWhile_not (fun y => !p y) xs.reverse
    rw [h] at this
    simpa using this

theorem run_spec (l : List α) : (run p l).1.Perm l ∧ (run p l).2 ≤ l.length ∧ (∀ x ∈ (run p l).1.take (run p l).2, p x = true) ∧
    ∀ x ∈ (run p l).1.drop (run p l).2, p x = false := by
  induction l using run.induct (p := p) with
  | case1 => rw [run]; simp
  | case2 x xs hx ih =>
    rw [run, if_pos hx]
    dsimp only
    refine ⟨ih.1.cons x, by simpa using ih.2.1, ?_, ih.2.2.2⟩
    intro z hz
    rw [List.take_succ_cons, List.mem_cons] at hz
    rcases hz with rfl | hz
    · exact hx
    · exact ih.2.2.1 z hz
  | case3 x xs hx h =>
    rw [run, if_neg hx]
    split
    · refine ⟨.refl _, Nat.zero_le _, by simp, ?_⟩
      intro z hz
      rw [List.drop_zero, List.mem_cons] at hz
      rcases hz with rfl | hz
      · simpa using hx
      · rw [List.dropWhile_eq_nil_iff] at h
        simpa using h z (by simpa using hz)
    · rename_i h'
      rw [h] at h'
      cases h'
  | case4 x xs hx y a h ih =>
    obtain ⟨e, hy⟩ := behind p h
    have hb : ∀ z ∈ (xs.reverse.takeWhile (fun y => !p y)).reverse, p z = false := by
      intro z hz
      have := List.mem_takeWhile_imp (List.mem_reverse.mp hz)
      simpa using this
    rw [run, if_neg hx]
    split
    · rename_i h'
      rw [h] at h'
      cases h'
    · rename_i y' a' h'
      rw [h] at h'
      cases h'
      dsimp only
      generalize (xs.reverse.takeWhile (fun y => !p y)).reverse = b at *
      obtain ⟨i1, i2, i3, i4⟩ := ih
      have i5 := i1.length_eq
      rw [List.length_reverse] at i5 i2
      refine ⟨?_, ?_, ?_, ?_⟩
      · rw [e]
        calc (y :: ((run p a.reverse).1 ++ x :: b)).Perm (y :: (a.reverse ++ x :: b)) := (i1.append_right _).cons _
          _ |>.Perm (y :: x :: (a.reverse ++ b)) := List.perm_middle.cons _
          _ |>.Perm (x :: y :: (a.reverse ++ b)) := .swap ..
          _ |>.Perm (x :: (a.reverse ++ y :: b)) := List.perm_middle.symm.cons _
      · rw [e]; simp; omega
      · intro z hz
        rw [List.take_succ_cons, List.mem_cons, List.take_append_of_le_length (by omega)] at hz
        rcases hz with rfl | hz
        · exact hy
        · exact i3 z hz
      · intro z hz
        rw [List.drop_succ_cons, List.drop_append_of_le_length (by omega), List.mem_append, List.mem_cons] at hz
        rcases hz with hz | rfl | hz
        · exact i4 z hz
        · simpa using hx
        · exact hb z hz

theorem run_all {l : List α} (h : ∀ x ∈ l, p x = true) : (run p l).1 = l := by
  induction l with
  | nil => rw [run]
  | cons x xs ih =>
    rw [run, if_pos (h x (by simp))]
    dsimp only
    rw [ih fun z hz => h z (List.mem_cons_of_mem _ hz)]

/-- The index is the number of elements for which the predicate holds. -/
theorem run_index (l : List α) : (run p l).2 = (l.filter p).length := by
  obtain ⟨h1, h2, h3, h4⟩ := run_spec p l
  have h5 := (h1.filter p).length_eq
  rw [← h5, ← List.take_append_drop (run p l).2 (run p l).1, List.filter_append, List.filter_eq_self.mpr h3,
    List.filter_eq_nil_iff.mpr (fun x hx => by rw [h4 x hx]; simp), List.append_nil, List.length_take,
    h1.length_eq, Nat.min_eq_left h2]

open Spec in
/-- It does what is asked of the partition. -/
theorem partitions : Partitions fun ps => (run (fun q : Spanned Posting => q.item.amount.isSome) ps).1 where
  perm ps := (run_spec _ ps).1
  first ps := by
    obtain ⟨_, _, h3, h4⟩ := run_spec (fun q : Spanned Posting => q.item.amount.isSome) ps
    refine ⟨_, _, (List.take_append_drop (run (fun q : Spanned Posting => q.item.amount.isSome) ps).2 _).symm, fun q hq => ?_, fun q hq => ?_⟩
    · have := h3 q hq
      simpa [Option.isSome_iff_ne_none] using this
    · have := h4 q hq
      simpa using this
  all ps h := run_all _ fun q hq => by simpa [Option.isSome_iff_ne_none] using h q hq

end Lima.SwapPartition
