import Verif.Spec.Regex
import Mathlib.Logic.Basic
import Mathlib.Tactic.Push
import Mathlib.Tactic.ByContra

/-! The matching engine finds the longest match. -/

namespace Lima
open Spec

namespace Re

theorem matches_void {s : Str} : ¬ Matches .void s := by intro h; cases h

theorem matches_eps {s : Str} : Matches .eps s ↔ s = [] :=
  ⟨fun h => by cases h; rfl, fun h => h ▸ .eps⟩

theorem matches_cls {p : Char → Bool} {s : Str} : Matches (.cls p) s ↔ ∃ c, s = [c] ∧ p c = true :=
  ⟨fun h => by cases h; exact ⟨_, rfl, by assumption⟩, fun ⟨_, h1, h2⟩ => h1 ▸ .cls h2⟩

theorem matches_seq {a b : Re} {s : Str} :
    Matches (.seq a b) s ↔ ∃ u v, s = u ++ v ∧ Matches a u ∧ Matches b v :=
  ⟨fun h => by cases h with | seq h1 h2 => exact ⟨_, _, rfl, h1, h2⟩, fun ⟨_, _, h, h1, h2⟩ => h ▸ .seq h1 h2⟩

theorem matches_alt {a b : Re} {s : Str} : Matches (.alt a b) s ↔ Matches a s ∨ Matches b s :=
  ⟨fun h => by cases h with | left h => exact .inl h | right h => exact .inr h,
   fun h => h.elim .left .right⟩

theorem matches_chr {c : Char} {s : Str} : Matches (chr c) s ↔ s = [c] := by
  unfold chr
  rw [matches_cls]
  simp

theorem matches_opt {a : Re} {s : Str} : Matches (opt a) s ↔ Matches a s ∨ s = [] := by
  unfold opt
  rw [matches_alt, matches_eps]

theorem matches_lit {w s : Str} : Matches (lit w) s ↔ s = w := by
  induction w generalizing s with
  | nil => exact matches_eps
  | cons c cs ih =>
    cases cs with
    | nil => exact matches_chr
    | cons d ds =>
      rw [lit, matches_seq]
      constructor
      · rintro ⟨u, v, rfl, h1, h2⟩
        rw [matches_chr.mp h1, ih.mp h2]
        rfl
      · rintro rfl
        exact ⟨[c], d :: ds, rfl, matches_chr.mpr rfl, ih.mpr rfl⟩
      · simp

theorem matches_star_cls {p : Char → Bool} {s : Str} : Matches (.star (.cls p)) s ↔ ∀ c ∈ s, p c = true := by
  constructor
  · intro h
    generalize hr : Re.star (.cls p) = r at h
    induction h with
    | none => simp
    | more h1 h2 _ ih2 =>
      cases hr
      obtain ⟨c, rfl, hc⟩ := matches_cls.mp h1
      simp only [List.singleton_append, List.mem_cons, forall_eq_or_imp]
      exact ⟨hc, ih2 rfl⟩
    | _ => cases hr
  · intro h
    induction s with
    | nil => exact .none
    | cons c cs ih =>
      exact Matches.more (u := [c]) (.cls (h c (by simp))) (ih (fun d hd => h d (by simp [hd])))

theorem matches_plus_cls {p : Char → Bool} {s : Str} :
    Matches (plus (.cls p)) s ↔ s ≠ [] ∧ ∀ c ∈ s, p c = true := by
  unfold plus
  rw [matches_seq]
  constructor
  · rintro ⟨u, v, rfl, h1, h2⟩
    obtain ⟨c, rfl, hc⟩ := matches_cls.mp h1
    refine ⟨by simp, ?_⟩
    simp only [List.singleton_append, List.mem_cons, forall_eq_or_imp]
    exact ⟨hc, matches_star_cls.mp h2⟩
  · rintro ⟨h0, h⟩
    cases s with
    | nil => exact absurd rfl h0
    | cons c cs =>
      exact ⟨[c], cs, rfl, .cls (h c (by simp)), matches_star_cls.mpr (fun d hd => h d (by simp [hd]))⟩

theorem matches_times_cls {p : Char → Bool} {n : Nat} {s : Str} :
    Matches (times (.cls p) n) s ↔ s.length = n ∧ ∀ c ∈ s, p c = true := by
  induction n generalizing s with
  | zero =>
    rw [times, matches_eps]
    constructor
    · rintro rfl; simp
    · rintro ⟨h, _⟩; exact List.length_eq_zero_iff.mp h
  | succ n ih =>
    rw [times, matches_seq]
    constructor
    · rintro ⟨u, v, rfl, h1, h2⟩
      obtain ⟨c, rfl, hc⟩ := matches_cls.mp h1
      obtain ⟨h3, h4⟩ := ih.mp h2
      refine ⟨by simp [h3], ?_⟩
      simp only [List.singleton_append, List.mem_cons, forall_eq_or_imp]
      exact ⟨hc, h4⟩
    · rintro ⟨h0, h⟩
      cases s with
      | nil => simp at h0
      | cons c cs =>
        exact ⟨[c], cs, rfl, .cls (h c (by simp)), ih.mpr ⟨by simpa using h0, fun d hd => h d (by simp [hd])⟩⟩

/-! ### Derivatives -/

theorem nullable_iff {r : Re} : r.nullable = true ↔ Matches r [] := by
  induction r with
  | void => simp [nullable, matches_void]
  | eps => simp [nullable, matches_eps]
  | cls p => simp [nullable, matches_cls]
  | seq a b iha ihb =>
    simp only [nullable, Bool.and_eq_true, iha, ihb, matches_seq]
    constructor
    · rintro ⟨h1, h2⟩; exact ⟨[], [], rfl, h1, h2⟩
    · rintro ⟨u, v, h, h1, h2⟩
      obtain ⟨rfl, rfl⟩ := List.append_eq_nil_iff.mp h.symm
      exact ⟨h1, h2⟩
  | alt a b iha ihb => simp only [nullable, Bool.or_eq_true, iha, ihb, matches_alt]
  | star a => simp only [nullable, true_iff]; exact .none

theorem matches_mkSeq {a b : Re} {s : Str} : Matches (mkSeq a b) s ↔ Matches (.seq a b) s := by
  unfold mkSeq
  split
  · rw [matches_seq]
    constructor
    · exact fun h => absurd h matches_void
    · rintro ⟨_, _, _, h, _⟩; exact absurd h matches_void
  · rw [matches_seq]
    constructor
    · intro h; exact ⟨[], s, rfl, .eps, h⟩
    · rintro ⟨u, v, rfl, h1, h2⟩
      rw [matches_eps.mp h1]; exact h2
  · rfl

theorem matches_mkAlt {a b : Re} {s : Str} : Matches (mkAlt a b) s ↔ Matches (.alt a b) s := by
  unfold mkAlt
  split
  · simp [matches_alt, matches_void]
  · simp [matches_alt, matches_void]
  · rfl

theorem matches_star_cons {a : Re} {c : Char} {s : Str} :
    Matches (.star a) (c :: s) ↔ ∃ u v, s = u ++ v ∧ Matches a (c :: u) ∧ Matches (.star a) v := by
  constructor
  · intro h
    generalize hr : Re.star a = r at h
    generalize hw : c :: s = w at h
    induction h with
    | none => cases hw
    | @more a' u v h1 h2 _ ih2 =>
      cases hr
      cases u with
      | nil => exact ih2 rfl hw
      | cons d u =>
        rw [List.cons_append] at hw
        injection hw with e1 e2
        subst e1 e2
        exact ⟨u, v, rfl, h1, h2⟩
    | _ => cases hr
  · rintro ⟨u, v, rfl, h1, h2⟩
    exact Matches.more h1 h2

theorem deriv_iff {r : Re} {c : Char} {s : Str} : Matches (r.deriv c) s ↔ Matches r (c :: s) := by
  induction r generalizing s with
  | void => exact ⟨fun h => absurd h matches_void, fun h => absurd h matches_void⟩
  | eps => exact ⟨fun h => absurd h matches_void, fun h => by cases matches_eps.mp h⟩
  | cls p =>
    rw [deriv, matches_cls]
    split
    · rename_i h
      rw [matches_eps]
      constructor
      · rintro rfl; exact ⟨c, rfl, h⟩
      · rintro ⟨d, e, _⟩; injection e
    · rename_i h
      constructor
      · exact fun h => absurd h matches_void
      · rintro ⟨d, e, hd⟩; injection e with e1 e2; subst e1; exact absurd hd h
  | seq a b iha ihb =>
    have key : Matches (.seq a b) (c :: s) ↔
        Matches (.seq (a.deriv c) b) s ∨ (Matches a [] ∧ Matches b (c :: s)) := by
      simp only [matches_seq]
      constructor
      · rintro ⟨u, v, h, h1, h2⟩
        cases u with
        | nil => exact .inr ⟨h1, by rw [h]; exact h2⟩
        | cons d u =>
          rw [List.cons_append] at h
          injection h with e1 e2
          subst e1
          exact .inl ⟨u, v, e2, iha.mpr h1, h2⟩
      · rintro (⟨u, v, h, h1, h2⟩ | ⟨h1, h2⟩)
        · exact ⟨c :: u, v, by rw [h]; rfl, iha.mp h1, h2⟩
        · exact ⟨[], c :: s, rfl, h1, h2⟩
    rw [key, deriv]
    split
    · rename_i h
      rw [matches_mkAlt, matches_alt, matches_mkSeq, ihb]
      simp [nullable_iff.mp h]
    · rename_i h
      rw [matches_mkSeq]
      have : ¬ Matches a [] := fun h' => h (nullable_iff.mpr h')
      simp [this]
  | alt a b iha ihb => rw [deriv, matches_mkAlt, matches_alt, matches_alt, iha, ihb]
  | star a ih =>
    rw [deriv, matches_mkSeq, matches_seq, matches_star_cons]
    constructor
    · rintro ⟨u, v, h, h1, h2⟩; exact ⟨u, v, h, ih.mp h1, h2⟩
    · rintro ⟨u, v, h, h1, h2⟩; exact ⟨u, v, h, ih.mpr h1, h2⟩

theorem inhabited_mkSeq {a b : Re} (ha : ClassesInhabited a) (hb : ClassesInhabited b) :
    ClassesInhabited (mkSeq a b) := by
  unfold mkSeq
  split
  · trivial
  · exact hb
  · exact ⟨ha, hb⟩

theorem inhabited_mkAlt {a b : Re} (ha : ClassesInhabited a) (hb : ClassesInhabited b) :
    ClassesInhabited (mkAlt a b) := by
  unfold mkAlt
  split
  · exact hb
  · exact ha
  · exact ⟨ha, hb⟩

theorem inhabited_deriv {r : Re} (c : Char) (h : ClassesInhabited r) : ClassesInhabited (r.deriv c) := by
  induction r with
  | void => trivial
  | eps => trivial
  | cls p => unfold deriv; split <;> trivial
  | seq a b iha ihb =>
    unfold deriv
    split
    · exact inhabited_mkAlt (inhabited_mkSeq (iha h.1) h.2) (ihb h.2)
    · exact inhabited_mkSeq (iha h.1) h.2
  | alt a b iha ihb => exact inhabited_mkAlt (iha h.1) (ihb h.2)
  | star a ih => exact inhabited_mkSeq (ih h) h

theorem isVoid_of {r : Re} (h : ClassesInhabited r) : r.isVoid = true ↔ ¬ ∃ s, Matches r s := by
  induction r with
  | void => simp [isVoid, matches_void]
  | eps => simp only [isVoid, Bool.false_eq_true, false_iff, not_not]; exact ⟨[], .eps⟩
  | cls p =>
    simp only [isVoid, Bool.false_eq_true, false_iff, not_not]
    obtain ⟨c, hc⟩ := h
    exact ⟨[c], .cls hc⟩
  | seq a b iha ihb =>
    simp only [isVoid, Bool.or_eq_true, iha h.1, ihb h.2, matches_seq]
    constructor
    · rintro (h | h) ⟨s, u, v, _, h1, h2⟩
      · exact h ⟨u, h1⟩
      · exact h ⟨v, h2⟩
    · intro h
      by_contra hn
      push Not at hn
      obtain ⟨⟨u, h1⟩, ⟨v, h2⟩⟩ := hn
      exact h ⟨u ++ v, u, v, rfl, h1, h2⟩
  | alt a b iha ihb =>
    simp only [isVoid, Bool.and_eq_true, iha h.1, ihb h.2, matches_alt]
    constructor
    · rintro ⟨h1, h2⟩ ⟨s, h | h⟩
      · exact h1 ⟨s, h⟩
      · exact h2 ⟨s, h⟩
    · intro h
      exact ⟨fun ⟨s, h1⟩ => h ⟨s, .inl h1⟩, fun ⟨s, h1⟩ => h ⟨s, .inr h1⟩⟩
  | star a => simp only [isVoid, Bool.false_eq_true, false_iff, not_not]; exact ⟨[], .none⟩

end Re

/-! ### Scanning -/

/-- What is left of the expressions after some text. -/
def derivs (ps : List Re) (u : Str) : List Re := u.foldl (fun ps c => ps.map (Re.deriv c)) ps

theorem derivs_append (ps : List Re) (u : Str) (c : Char) :
    derivs ps (u ++ [c]) = (derivs ps u).map (Re.deriv c) := by
  simp [derivs]

theorem derivs_length (ps : List Re) (u : Str) : (derivs ps u).length = ps.length := by
  unfold derivs
  induction u generalizing ps with
  | nil => rfl
  | cons c u ih => rw [List.foldl_cons, ih, List.length_map]

theorem derivs_get {ps : List Re} {u : Str} {i : Nat} {p : Re} (h : ps[i]? = some p) :
    ∃ q, (derivs ps u)[i]? = some q ∧ ∀ v, Matches q v ↔ Matches p (u ++ v) := by
  induction u generalizing ps p with
  | nil => exact ⟨p, h, fun v => Iff.rfl⟩
  | cons c u ih =>
    have h' : (ps.map (Re.deriv c))[i]? = some (p.deriv c) := by rw [List.getElem?_map, h]; rfl
    obtain ⟨q, h1, h2⟩ := ih h'
    exact ⟨q, h1, fun v => by rw [h2, Re.deriv_iff]; rfl⟩

theorem derivs_inhabited {ps : List Re} {u : Str} (h : ∀ p ∈ ps, ClassesInhabited p) :
    ∀ p ∈ derivs ps u, ClassesInhabited p := by
  unfold derivs
  induction u generalizing ps with
  | nil => exact h
  | cons c u ih =>
    rw [List.foldl_cons]
    refine ih (fun p hp => ?_)
    obtain ⟨q, hq, rfl⟩ := List.mem_map.mp hp
    exact Re.inhabited_deriv c (h q hq)

theorem viable_iff {ps : List Re} {u : Str} (h : ∀ p ∈ ps, ClassesInhabited p) :
    (derivs ps u).all Re.isVoid = false ↔ Viable ps u := by
  have hd := derivs_inhabited (u := u) h
  rw [← Bool.not_eq_true, List.all_eq_true]
  constructor
  · intro hn
    push Not at hn
    obtain ⟨q, hq, hv⟩ := hn
    obtain ⟨i, hi, e⟩ := List.getElem_of_mem hq
    have hi' : i < ps.length := by rw [derivs_length] at hi; exact hi
    obtain ⟨q', h1, h2⟩ := derivs_get (u := u) (List.getElem?_eq_getElem hi')
    rw [List.getElem?_eq_getElem hi, e] at h1
    cases h1
    rw [ne_eq, Re.isVoid_of (hd q hq), not_not] at hv
    obtain ⟨v, hv⟩ := hv
    exact ⟨ps[i], List.getElem_mem hi', v, (h2 v).mp hv⟩
  · rintro ⟨p, hp, v, hv⟩ hall
    obtain ⟨i, hi, rfl⟩ := List.getElem_of_mem hp
    obtain ⟨q, h1, h2⟩ := derivs_get (u := u) (List.getElem?_eq_getElem hi)
    have hq := List.mem_of_getElem? h1
    exact (Re.isVoid_of (hd q hq)).mp (hall q hq) ⟨v, (h2 v).mpr hv⟩

theorem Viable.prefix {ps : List Re} {u v : Str} (h : Viable ps (u ++ v)) : Viable ps u := by
  obtain ⟨p, hp, w, hw⟩ := h
  exact ⟨p, hp, v ++ w, by rw [← List.append_assoc]; exact hw⟩

theorem nullable_index {ps : List Re} {u : Str} :
    match (derivs ps u).findIdx? Re.nullable with
    | some i => (∃ p, ps[i]? = some p ∧ Matches p u) ∧ ∀ j p, j < i → ps[j]? = some p → ¬ Matches p u
    | none => ∀ p ∈ ps, ¬ Matches p u := by
  split
  · rename_i i hi
    obtain ⟨h0, h1, h2⟩ := List.findIdx?_eq_some_iff_getElem.mp hi
    have hi' : i < ps.length := by rw [derivs_length] at h0; exact h0
    constructor
    · refine ⟨ps[i], List.getElem?_eq_getElem hi', ?_⟩
      obtain ⟨q, h3, h4⟩ := derivs_get (u := u) (List.getElem?_eq_getElem hi')
      rw [List.getElem?_eq_getElem h0] at h3
      cases h3
      have := (h4 []).mp (Re.nullable_iff.mp h1)
      rwa [List.append_nil] at this
    · intro j p hj hp hm
      obtain ⟨q, h3, h4⟩ := derivs_get (u := u) hp
      have hj' : j < (derivs ps u).length := Nat.lt_trans hj h0
      rw [List.getElem?_eq_getElem hj'] at h3
      cases h3
      apply h2 j hj
      rw [Re.nullable_iff, h4, List.append_nil]
      exact hm
  · rename_i hn
    rw [List.findIdx?_eq_none_iff] at hn
    intro p hp hm
    obtain ⟨i, hi, rfl⟩ := List.getElem_of_mem hp
    obtain ⟨q, h3, h4⟩ := derivs_get (u := u) (List.getElem?_eq_getElem hi)
    have := hn q (List.mem_of_getElem? h3)
    have h5 : q.nullable = true := by rw [Re.nullable_iff, h4, List.append_nil]; exact hm
    rw [h5] at this
    cases this

/-- The longest match among the first `n` characters. -/
def BestUpTo (ps : List Re) (s : Str) (n : Nat) : Option (Nat × Nat) → Prop
  | some (i, m) => 0 < m ∧ m ≤ n ∧ (∃ p, ps[i]? = some p ∧ Matches p (s.take m)) ∧
      (∀ p ∈ ps, ∀ k, m < k → k ≤ n → ¬ Matches p (s.take k)) ∧
      ∀ j p, j < i → ps[j]? = some p → ¬ Matches p (s.take m)
  | none => ∀ p ∈ ps, ∀ k, 0 < k → k ≤ n → ¬ Matches p (s.take k)

theorem scan_spec {ps : List Re} (hp : ∀ p ∈ ps, ClassesInhabited p) (u s : Str) (best : Option (Nat × Nat))
    (hb : BestUpTo ps (u ++ s) u.length best) :
    let r := scan (derivs ps u) u.length best s
    u.length ≤ r.2 ∧ r.2 ≤ (u ++ s).length ∧ BestUpTo ps (u ++ s) r.2 r.1 ∧
      (u.length < r.2 → Viable ps ((u ++ s).take r.2)) ∧
      (r.2 < (u ++ s).length → ¬ Viable ps ((u ++ s).take (r.2 + 1))) := by
  induction s generalizing u best with
  | nil => simpa [scan] using hb
  | cons c s ih =>
    intro r
    have hr : r = scan (derivs ps u) u.length best (c :: s) := rfl
    rw [scan, ← derivs_append] at hr
    have htake : (u ++ c :: s).take (u.length + 1) = u ++ [c] := by
      rw [List.take_append]; simp [List.take_of_length_le]
    by_cases hv : (derivs ps (u ++ [c])).all Re.isVoid = true
    · rw [if_pos hv] at hr
      rw [hr]
      refine ⟨Nat.le_refl _, by simp, hb, fun h => absurd h (Nat.lt_irrefl _), fun _ => ?_⟩
      rw [htake, ← viable_iff hp, hv]
      simp
    · rw [if_neg hv] at hr
      have hv' : Viable ps (u ++ [c]) := (viable_iff hp).mp (by simpa using hv)
      have happ : u ++ c :: s = (u ++ [c]) ++ s := by simp
      have hlen : (u ++ [c]).length = u.length + 1 := by simp
      have hidx := nullable_index (ps := ps) (u := u ++ [c])
      obtain ⟨best', hr', hb'⟩ : ∃ best', r = scan (derivs ps (u ++ [c])) (u ++ [c]).length best' s ∧
          BestUpTo ps ((u ++ [c]) ++ s) (u ++ [c]).length best' := by
        rw [← happ, hlen]
        cases hi : (derivs ps (u ++ [c])).findIdx? Re.nullable with
        | some i =>
          simp only [hi] at hidx hr
          refine ⟨_, hr, Nat.succ_pos _, Nat.le_refl _, by rw [htake]; exact hidx.1, ?_,
            by rw [htake]; exact hidx.2⟩
          intro p _ k hk1 hk2
          omega
        | none =>
          simp only [hi] at hidx hr
          refine ⟨_, hr, ?_⟩
          cases best with
          | none =>
            intro p hp k hk1 hk2
            rcases Nat.lt_or_ge k (u.length + 1) with h | h
            · exact hb p hp k hk1 (by omega)
            · rw [Nat.le_antisymm hk2 h, htake]; exact hidx p hp
          | some im =>
            obtain ⟨i, m⟩ := im
            obtain ⟨b1, b2, b3, b4, b5⟩ := hb
            refine ⟨b1, by omega, b3, ?_, b5⟩
            intro p hp k hk1 hk2
            rcases Nat.lt_or_ge k (u.length + 1) with h | h
            · exact b4 p hp k hk1 (by omega)
            · rw [Nat.le_antisymm hk2 h, htake]; exact hidx p hp
      obtain ⟨i1, i2, i3, i4, i5⟩ := ih (u ++ [c]) best' hb'
      rw [← hr'] at i1 i2 i3 i4 i5
      rw [hlen] at i1 i4
      rw [← happ] at i2 i3 i4 i5
      refine ⟨by omega, i2, i3, fun _ => ?_, i5⟩
      rcases Nat.lt_or_ge (u.length + 1) r.2 with h | h
      · exact i4 h
      · have : r.2 = u.length + 1 := by omega
        rw [this, htake]
        exact hv'

/-- The result of scanning a text from its start. -/
theorem scan_result {ps : List Re} (hp : ∀ p ∈ ps, ClassesInhabited p) (s : Str) :
    let r := scan ps 0 none s
    r.2 ≤ s.length ∧ (∀ i n, r.1 = some (i, n) ↔ LongestMatch ps s i n) ∧
      (0 < r.2 → Viable ps (s.take r.2)) ∧ (r.2 < s.length → ¬ Viable ps (s.take (r.2 + 1))) := by
  intro r
  have h := scan_spec hp [] s none (by intro p _ k h1 h2; simp at h2; omega)
  simp only [List.nil_append, List.length_nil] at h
  obtain ⟨_, h2, h3, h4, h5⟩ := h
  change r.2 ≤ _ at h2
  change BestUpTo ps s r.2 r.1 at h3
  change 0 < r.2 → Viable ps (s.take r.2) at h4
  change r.2 < s.length → ¬ Viable ps (s.take (r.2 + 1)) at h5
  refine ⟨h2, ?_, h4, h5⟩
  -- no match beyond what was read
  have hbeyond : ∀ p ∈ ps, ∀ k, r.2 < k → k ≤ s.length → ¬ Matches p (s.take k) := by
    intro p hp' k hk1 hk2 hm
    apply h5 (by omega)
    refine ⟨p, hp', (s.take k).drop (r.2 + 1), ?_⟩
    have : s.take (r.2 + 1) = (s.take k).take (r.2 + 1) := by
      rw [List.take_take]; congr 1; omega
    rw [this, List.take_append_drop]
    exact hm
  have hmax : ∀ i n, r.1 = some (i, n) → LongestMatch ps s i n := by
    intro i n hr
    rw [hr] at h3
    obtain ⟨b1, b2, b3, b4, b5⟩ := h3
    refine ⟨b1, by omega, b3, ?_, b5⟩
    intro p hp' m hm1 hm2
    rcases Nat.lt_or_ge r.2 m with h | h
    · exact hbeyond p hp' m h hm2
    · exact b4 p hp' m hm1 h
  intro i n
  refine ⟨hmax i n, ?_⟩
  intro hL
  obtain ⟨p, hp1, hp2⟩ := hL.isMatch
  cases hr : r.1 with
  | none =>
    rw [hr] at h3
    exfalso
    have hpm := List.mem_of_getElem? hp1
    rcases Nat.lt_or_ge r.2 n with h | h
    · exact hbeyond p hpm n h hL.inText hp2
    · exact h3 p hpm n hL.nonEmpty h hp2
  | some jm =>
    obtain ⟨j, m⟩ := jm
    have hM := hmax j m hr
    obtain ⟨q, hq1, hq2⟩ := hM.isMatch
    have e1 : m = n := by
      rcases Nat.lt_trichotomy m n with h | h | h
      · exact absurd hp2 (hM.noLonger p (List.mem_of_getElem? hp1) n h hL.inText)
      · exact h
      · exact absurd hq2 (hL.noLonger q (List.mem_of_getElem? hq1) m h hM.inText)
    subst e1
    have e2 : j = i := by
      rcases Nat.lt_trichotomy j i with h | h | h
      · exact absurd hq2 (hL.first j q h hq1)
      · exact h
      · exact absurd hp2 (hM.first i p h hp1)
    rw [e2]

end Lima
