import Verif.Model.Path
import Verif.Lemmas.Callbacks

/-! # Lemmas about paths -/

namespace Lima

/-- The separator test used to split path texts. -/
abbrev isSlash : Char → Bool := fun c => decide (c = '/')

theorem isSlash_false {w : Str} (h : '/' ∉ w) : ∀ c ∈ w, isSlash c = false := by
  intro c hc
  simp only [isSlash, decide_eq_false_iff_not]
  intro e; exact h (e ▸ hc)

theorem splitBy_no_sep (s : Str) : ∀ w ∈ splitBy isSlash s, '/' ∉ w := by
  induction s with
  | nil => simp [splitBy]
  | cons c s ih =>
    rw [splitBy]
    split
    · intro w hw
      rcases List.mem_cons.mp hw with rfl | hw
      · simp
      · exact ih w hw
    · rename_i hc
      simp only [isSlash, decide_eq_true_eq] at hc
      split
      · intro w hw
        simp only [List.mem_singleton] at hw
        subst hw
        simp only [List.mem_singleton]
        exact fun e => hc e.symm
      · rename_i w ws he
        rw [he] at ih
        intro v hv
        rcases List.mem_cons.mp hv with rfl | hv
        · have := ih w (by simp)
          simp only [List.mem_cons, not_or]
          exact ⟨fun e => hc e.symm, this⟩
        · exact ih v (by simp [hv])

/-- Splitting a concatenation at a separator. -/
theorem splitBy_concat (p : Char → Bool) (a : Str) (c : Char) (hc : p c = true) (b : Str) :
    splitBy p (a ++ c :: b) = splitBy p a ++ splitBy p b := by
  induction a with
  | nil => simp [splitBy, hc]
  | cons x a ih =>
    rw [List.cons_append, splitBy, splitBy, ih]
    split
    · rfl
    · cases h : splitBy p a with
      | nil => exact absurd h (splitBy_ne_nil p a)
      | cons w ws => rfl

theorem splitBy_renderNames (ns : List Str) (h : ∀ n ∈ ns, '/' ∉ n) (hne : ns ≠ []) :
    splitBy isSlash (renderNames ns) = ns := by
  induction ns with
  | nil => exact absurd rfl hne
  | cons n ns ih =>
    cases ns with
    | nil =>
      rw [renderNames]
      exact splitBy_word _ _ (isSlash_false (h n (by simp)))
    | cons m ms =>
      rw [renderNames, splitBy_sep _ _ (isSlash_false (h n (by simp))) _ (by decide),
        ih (fun x hx => h x (by simp [hx])) (by simp)]
      simp

theorem mem_of_dropLast {α : Type} {a : α} {l : List α} (h : a ∈ l.dropLast) : a ∈ l :=
  (List.dropLast_sublist l).subset h

theorem isName_iff (c : Str) : isName c = true ↔ c ≠ [] ∧ c ≠ ['.'] := by
  simp [isName]

theorem filter_isName_eq {ns : List Str} (h : ∀ n ∈ ns, n ≠ [] ∧ n ≠ ['.']) : ns.filter isName = ns := by
  rw [List.filter_eq_self]
  intro n hn
  rw [isName_iff]; exact h n hn

/-- Reading back the text of a path gives the path. -/
theorem Path.ofStr_render (p : Path) (h : p.WF) : Path.ofStr p.render = p := by
  obtain ⟨root, names⟩ := p
  obtain ⟨h1, h2⟩ := h
  simp only at h1 h2
  unfold Path.render
  cases root with
  | true =>
    simp only [if_true] at h2
    simp only [if_true, List.cons_append, List.nil_append]
    unfold Path.ofStr
    have e : splitBy isSlash ('/' :: renderNames names) = [] :: splitBy isSlash (renderNames names) := by
      simp [splitBy]
    change splitBy (fun c => decide (c = '/')) _ = _ at e
    simp only [e]
    cases names with
    | nil => decide
    | cons n ns =>
      have := splitBy_renderNames (n :: ns) (fun x hx => (h1 x hx).2) (by simp)
      change splitBy (fun c => decide (c = '/')) _ = _ at this
      rw [this, filter_isName_eq (fun x hx => ⟨(h1 x hx).1, h2 x hx⟩)]
      simp
  | false =>
    simp only [Bool.false_eq_true, if_false] at h2
    simp only [Bool.false_eq_true, if_false, List.nil_append]
    unfold Path.ofStr
    cases names with
    | nil => decide
    | cons n ns =>
      have := splitBy_renderNames (n :: ns) (fun x hx => (h1 x hx).2) (by simp)
      change splitBy (fun c => decide (c = '/')) _ = _ at this
      rw [this]
      have hn := (h1 n (by simp)).1
      simp only [hn, if_false, false_and, decide_false]
      rw [filter_isName_eq]
      · rfl
      · intro x hx
        exact ⟨(h1 x (by simp [hx])).1, h2 x (by simpa using hx)⟩

theorem Path.ofStr_wf (s : Str) : (Path.ofStr s).WF := by
  unfold Path.ofStr
  split
  · simp [Path.WF]
  · rename_i first rest he
    have hs := splitBy_no_sep s
    change ∀ w ∈ splitBy (fun c => decide (c = '/')) s, _ at hs
    rw [he] at hs
    have hrest : ∀ n ∈ rest.filter isName, (n ≠ [] ∧ '/' ∉ n) ∧ n ≠ ['.'] := by
      intro n hn
      rw [List.mem_filter, isName_iff] at hn
      exact ⟨⟨hn.2.1, hs n (by simp [hn.1])⟩, hn.2.2⟩
    constructor
    · intro n hn
      simp only [List.mem_append] at hn
      rcases hn with hn | hn
      · split at hn
        · cases hn
        · simp only [List.mem_singleton] at hn
          subst hn
          exact ⟨by assumption, hs n (by simp)⟩
      · exact (hrest n hn).1
    · intro n hn
      by_cases hf : first = []
      · simp only [hf, if_true, List.nil_append] at hn
        split at hn
        · exact (hrest n hn).2
        · exact (hrest n (List.mem_of_mem_drop hn)).2
      · simp only [hf, if_false, false_and, decide_false, List.cons_append, List.nil_append,
          Bool.false_eq_true, List.drop_succ_cons, List.drop_zero] at hn
        exact (hrest n hn).2

theorem Path.join_wf (p q : Path) (hp : p.WF) (hq : q.WF) : (p.join q).WF := by
  unfold Path.join
  split
  · exact hq
  · split
    · exact hq
    · rename_i hr he
      have hf : ∀ n ∈ q.names.filter isName, (n ≠ [] ∧ '/' ∉ n) ∧ n ≠ ['.'] := by
        intro n hn
        rw [List.mem_filter, isName_iff] at hn
        exact ⟨hq.1 n hn.1, hn.2.2⟩
      constructor
      · intro n hn
        rcases List.mem_append.mp hn with h | h
        · exact hp.1 n h
        · exact (hf n h).1
      · intro n hn
        have h2 := hp.2
        by_cases hroot : p.root = true
        · simp only [hroot, if_true] at hn h2
          rcases List.mem_append.mp hn with h | h
          · exact h2 n h
          · exact (hf n h).2
        · simp only [hroot] at hn h2
          cases hnm : p.names with
          | nil => simp [Path.isEmpty, hroot, hnm] at he
          | cons a as =>
            rw [hnm] at hn h2
            simp only [Bool.false_eq_true, if_false, List.cons_append, List.drop_succ_cons, List.drop_zero] at hn h2
            rcases List.mem_append.mp hn with h | h
            · exact h2 n h
            · exact (hf n h).2

theorem resolveIncludedPath_wf (o : Option Path) (q : Path) (ho : ∀ p, o = some p → p.WF) (hq : q.WF) :
    (resolveIncludedPath o q).WF := by
  unfold resolveIncludedPath
  split
  · rename_i d hd
    refine Path.join_wf _ _ ?_ hq
    cases o with
    | none => cases hd
    | some p =>
      have hp := ho p rfl
      simp only [Option.bind_some, pathDir, Path.parent] at hd
      split at hd
      · rename_i e he
        split at he
        · cases he
        · cases he
          split at hd
          · cases hd
          · cases hd
            constructor
            · intro n hn
              exact hp.1 n (mem_of_dropLast hn)
            · intro n hn
              apply hp.2 n
              simp only at hn
              split at hn
              · rename_i hr; simp only [hr, if_true]; exact mem_of_dropLast hn
              · rename_i hr; simp only [hr]
                simp only [Bool.false_eq_true, if_false]
                have : (p.names.dropLast).drop 1 = (p.names.drop 1).dropLast := by
                  cases p.names with
                  | nil => rfl
                  | cons a as => cases as <;> simp
                rw [this] at hn
                exact mem_of_dropLast hn
      · cases hd
  · exact hq

/-- The components of a text with a slash, from those of the parts. -/
theorem Path.ofStr_concat (a b : Str) :
    Path.ofStr (a ++ '/' :: b) =
      ⟨decide (a = []) || (Path.ofStr a).root, (Path.ofStr a).names ++ pathNames b⟩ := by
  unfold Path.ofStr pathNames
  have h := splitBy_concat isSlash a '/' (by decide) b
  change splitBy (fun c => decide (c = '/')) _ = _ at h
  rw [h]
  cases hs : splitBy isSlash a with
  | nil => exact absurd hs (splitBy_ne_nil _ _)
  | cons w ws =>
    change splitBy (fun c => decide (c = '/')) _ = _ at hs
    change splitBy (fun c => decide (c = '/')) _ = splitBy (fun c => decide (c = '/')) _ ++ _ at h
    simp only [hs]
    have hb : splitBy (fun c => decide (c = '/')) b ≠ [] := splitBy_ne_nil _ _
    have ha : a = [] ↔ w = [] ∧ ws = [] := by
      constructor
      · intro e; subst e; simp [splitBy] at hs; exact ⟨hs.1, hs.2⟩
      · rintro ⟨rfl, rfl⟩
        cases a with
        | nil => rfl
        | cons c a =>
          rw [splitBy] at hs
          split at hs
          · injection hs with _ h2; exact absurd h2 (splitBy_ne_nil _ _)
          · split at hs <;> simp at hs
    simp only [List.cons_append, List.filter_append, List.append_assoc, Path.mk.injEq, and_true]
    simp only [ha]
    by_cases h1 : w = [] <;> by_cases h2 : ws = [] <;> simp [h1, h2, hb]

end Lima
