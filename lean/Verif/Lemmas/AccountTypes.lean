import Verif.Lemmas.Names
import Verif.Spec.AccountTypes

/-! Refinement of the two account type tables to one naming function. -/

namespace Lima
open Spec

theorem AccountType.idx_inj {a b : AccountType} (h : a.idx = b.idx) : a = b := by
  cases a <;> cases b <;> simp_all [AccountType.idx]

theorem AccountType.idx_lt (a : AccountType) : a.idx < 5 := by
  cases a <;> simp [AccountType.idx]

/-- The two tables agree with one injective naming. -/
structure Refines (n : AccountTypeNames) (f : Naming) : Prop where
  len : n.nameByType.length = 5
  name : ∀ t, n.name t = some (f t)
  get : ∀ s t, n.get s = some t ↔ f t = s
  inj : ∀ t t', f t = f t' → t = t'

theorem refines_default : Refines AccountTypeNames.default Naming.initial where
  len := rfl
  name t := by cases t <;> rfl
  get s t := by
    constructor
    · intro h
      have := AMap.mem_of_get h
      simp only [AccountTypeNames.default, List.mem_cons, Prod.mk.injEq, List.not_mem_nil, or_false] at this
      rcases this with ⟨rfl, rfl⟩ | ⟨rfl, rfl⟩ | ⟨rfl, rfl⟩ | ⟨rfl, rfl⟩ | ⟨rfl, rfl⟩ <;> rfl
    · rintro rfl
      cases t <;> decide
  inj t t' := by cases t <;> cases t' <;> decide

theorem refines_update {n : AccountTypeNames} {f : Naming} (h : Refines n f) (t : AccountType)
    (s : Str) :
    Refines (n.update t s).2 (f.rename (t, s)) ∧
      (((n.update t s).1 = .ok () ∧ ¬ f.Clash t s) ∨
       (∃ t', (n.update t s).1 = .err t' ∧ t' ≠ t ∧ f t' = s ∧ (n.update t s).2 = n)) := by
  have hget : AMap.get n.typeByName s = n.get s := rfl
  cases hg : n.get s with
  | some t' =>
    have hf := (h.get s t').mp hg
    by_cases ht : t' = t
    · subst ht
      have hnc : ¬ f.Clash t' s := by
        rintro ⟨x, hx, hx'⟩
        exact hx (h.inj _ _ (hx'.trans hf.symm))
      have hre : f.rename (t', s) = f := by
        unfold Naming.rename
        rw [if_neg hnc]
        funext x
        by_cases hx : x = t'
        · subst hx; simp [hf]
        · simp [hx]
      have hu : n.update t' s = (.ok (), n) := by
        simp [AccountTypeNames.update, hget, hg]
      rw [hu, hre]
      exact ⟨h, Or.inl ⟨rfl, hnc⟩⟩
    · have hc : f.Clash t s := ⟨t', ht, hf⟩
      have hre : f.rename (t, s) = f := by
        unfold Naming.rename
        rw [if_pos hc]
      have hu : n.update t s = (.err t', n) := by
        simp [AccountTypeNames.update, hget, hg, ht]
      rw [hu, hre]
      exact ⟨h, Or.inr ⟨t', rfl, ht, hf, rfl⟩⟩
  | none =>
    have hfresh : ∀ x, f x ≠ s := by
      intro x hx
      have := (h.get s x).mpr hx
      rw [hg] at this
      cases this
    have hnc : ¬ f.Clash t s := by
      rintro ⟨x, _, hx⟩
      exact hfresh x hx
    have hname : n.nameByType[t.idx]? = some (f t) := h.name t
    have hu : n.update t s = (.ok (), { nameByType := n.nameByType.set t.idx s
                                        typeByName := AMap.erase (AMap.insert n.typeByName s t) (f t) }) := by
      simp [AccountTypeNames.update, hget, hg, hname]
    have hre : f.rename (t, s) = fun t' => if t' = t then s else f t' := by
      unfold Naming.rename
      rw [if_neg hnc]
    rw [hu, hre]
    refine ⟨⟨?_, ?_, ?_, ?_⟩, Or.inl ⟨rfl, hnc⟩⟩
    · simp [h.len]
    · intro x
      have hx := h.name x
      simp only [AccountTypeNames.name] at hx ⊢
      by_cases hxt : x = t
      · subst hxt
        have : x.idx < n.nameByType.length := by rw [h.len]; exact x.idx_lt
        simp [this]
      · have : ¬ t.idx = x.idx := fun e => hxt (AccountType.idx_inj e).symm
        simp [this, hxt, hx]
    · intro s' x
      simp only [AccountTypeNames.get, AMap.get_erase, AMap.get_insert]
      have hx := h.get s' x
      have ht := hfresh t
      simp only [AccountTypeNames.get] at hx
      by_cases h1 : f t = s'
      · have h2 : ¬ s = s' := fun e => hfresh t (h1.trans e.symm)
        simp only [h1, if_true]
        by_cases hxt : x = t
        · simp [hxt, h2]
        · simp only [hxt, if_false, reduceCtorEq, false_iff]
          intro h3
          exact hxt (h.inj _ _ (h3.trans h1.symm))
      · simp only [h1, if_false]
        by_cases h2 : s = s'
        · subst h2
          simp only [if_true, Option.some.injEq]
          by_cases hxt : x = t
          · simp [hxt]
          · simp only [hxt, if_false]
            exact ⟨fun e => absurd e.symm hxt, fun e => absurd e (hfresh x)⟩
        · simp only [h2, if_false, hx]
          by_cases hxt : x = t
          · subst hxt
            simp [h1, h2]
          · simp [hxt]
    · intro x y hxy
      by_cases hx : x = t <;> by_cases hy : y = t <;> simp [hx, hy] at hxy
      · rw [hx, hy]
      · exact absurd hxy.symm (hfresh y)
      · exact absurd hxy (hfresh x)
      · exact h.inj _ _ hxy

theorem refines_after (us : List (AccountType × Str)) :
    Refines (us.foldl (fun n u => (n.update u.1 u.2).2) AccountTypeNames.default) (Naming.after us) := by
  unfold Naming.after
  have : ∀ n f, Refines n f → Refines (us.foldl (fun n u => (n.update u.1 u.2).2) n) (us.foldl Naming.rename f) := by
    induction us with
    | nil => intro n f h; exact h
    | cons u us ih =>
      intro n f h
      exact ih _ _ (refines_update h u.1 u.2).1
  exact this _ _ refines_default

end Lima
