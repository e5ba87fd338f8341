import Verif.Spec.Check

/-! Lemmas about the programs `check` and `check-postings-balance`. -/

set_option linter.unusedSectionVars false

namespace Lima.Check
open Lima Spec

variable {name : Str} {before : List (Spanned Directive)} {d o c : Spanned Directive}

theorem not_both (h : Opens name d) : ¬ Closes name d := by
  obtain ⟨_, _, _, h1, _⟩ := h
  rintro ⟨_, h2, _⟩
  rw [h1] at h2
  cases h2

theorem unknown_snoc : Unknown name (before ++ [d]) ↔ Unknown name before ∧ ¬ Opens name d := by
  unfold Unknown
  constructor
  · exact fun h => ⟨fun x hx => h x (by simp [hx]), h d (by simp)⟩
  · rintro ⟨h1, h2⟩ x hx
    rcases List.mem_append.mp hx with hx | hx
    · exact h1 x hx
    · rw [List.mem_singleton.mp hx]; exact h2

theorem open_snoc : OpenSince name (before ++ [d]) o ↔ (OpenSince name before o ∧ ¬ Closes name d) ∨ (Unknown name before ∧ Opens name d ∧ o = d) := by
  constructor
  · rintro ⟨p, q, h1, h2, h3, h4⟩
    rcases List.eq_nil_or_concat q with rfl | ⟨q, x, rfl⟩
    · obtain ⟨rfl, h⟩ := List.append_inj' h1 rfl
      cases h
      exact .inr ⟨h2, h3, rfl⟩
    · rw [List.concat_eq_append, ← List.cons_append, ← List.append_assoc] at h1
      obtain ⟨rfl, h⟩ := List.append_inj' h1 rfl
      cases h
      exact .inl ⟨⟨p, q, rfl, h2, h3, fun y hy => h4 y (by simp [hy])⟩, h4 _ (by simp)⟩
  · rintro (⟨⟨p, q, rfl, h2, h3, h4⟩, h5⟩ | ⟨h1, h2, rfl⟩)
    · refine ⟨p, q ++ [d], by simp, h2, h3, fun x hx => ?_⟩
      rcases List.mem_append.mp hx with hx | hx
      · exact h4 x hx
      · rw [List.mem_singleton.mp hx]; exact h5
    · exact ⟨before, [], rfl, h1, h2, by simp⟩

theorem closed_snoc : ClosedSince name (before ++ [d]) o c ↔ ClosedSince name before o c ∨ (OpenSince name before o ∧ Closes name d ∧ c = d) := by
  constructor
  · rintro ⟨p, q, r, h1, h2, h3, h4, h5⟩
    rcases List.eq_nil_or_concat r with rfl | ⟨r, x, rfl⟩
    · rw [← List.cons_append, ← List.append_assoc] at h1
      obtain ⟨rfl, h⟩ := List.append_inj' h1 rfl
      cases h
      exact .inr ⟨⟨p, q, rfl, h2, h3, h4⟩, h5, rfl⟩
    · have : p ++ o :: (q ++ c :: r.concat x) = (p ++ o :: (q ++ c :: r)) ++ [x] := by simp
      rw [this] at h1
      obtain ⟨rfl, h⟩ := List.append_inj' h1 rfl
      exact .inl ⟨p, q, r, rfl, h2, h3, h4, h5⟩
  · rintro (⟨p, q, r, rfl, h⟩ | ⟨⟨p, q, rfl, h2, h3, h4⟩, h5, rfl⟩)
    · exact ⟨p, q, r ++ [d], by simp, h⟩
    · exact ⟨p, q, [], by simp, h2, h3, h4, h5⟩

/-- The table says where each account stands. -/
def Inv (accounts : Accounts) (before : List (Spanned Directive)) : Prop :=
  ∀ name, (accounts.get name = none ↔ Unknown name before) ∧ (∀ o, accounts.get name = some ⟨o, none⟩ ↔ OpenSince name before o) ∧
    ∀ o c, accounts.get name = some ⟨o, some c⟩ ↔ ClosedSince name before o c

theorem inv_nil : Inv [] [] := by
  intro name
  refine ⟨⟨fun _ _ h => (nomatch h), fun _ => rfl⟩, fun o => ⟨fun h => (nomatch h), ?_⟩, fun o c => ⟨fun h => (nomatch h), ?_⟩⟩
  · rintro ⟨p, q, h, _⟩
    simp at h
  · rintro ⟨p, q, r, h, _⟩
    simp at h

theorem get_insert {m : Accounts} {key : Str} {s : AccountStatus} (name : Str) :
    (m.insert key s).get name = if name = key then some s else m.get name := by
  unfold Accounts.insert Accounts.get
  rw [List.lookup_cons]
  by_cases h : name = key
  · simp [h]
  · rw [if_neg h, beq_eq_false_iff_ne.mpr h]

/-- A directive which neither opens nor closes an account leaves it as it is. -/
theorem inv_same {accounts : Accounts} (h : Inv accounts before) (h1 : ∀ name, Opens name d → accounts.get name ≠ none)
    (h2 : ∀ name, Closes name d → ∀ o, accounts.get name ≠ some ⟨o, none⟩) : Inv accounts (before ++ [d]) := by
  intro name
  obtain ⟨k1, k2, k3⟩ := h name
  rw [unknown_snoc]
  simp only [open_snoc, closed_snoc]
  refine ⟨?_, fun o => ?_, fun o c => ?_⟩
  · constructor
    · exact fun h => ⟨k1.mp h, fun ho => h1 name ho h⟩
    · exact fun h => k1.mpr h.1
  · constructor
    · exact fun h => .inl ⟨(k2 o).mp h, fun hc => h2 name hc o h⟩
    · rintro (h | h)
      · exact (k2 o).mpr h.1
      · exact absurd (k1.mpr h.1) (h1 name h.2.1)
  · constructor
    · exact fun h => .inl ((k3 o c).mp h)
    · rintro (h | h)
      · exact (k3 o c).mpr h
      · exact absurd ((k2 o).mpr h.1) (h2 name h.2.1 o)

theorem inv_open {accounts : Accounts} (h : Inv accounts before) (h1 : Opens name d) (h2 : accounts.get name = none) :
    Inv (accounts.insert name ⟨d, none⟩) (before ++ [d]) := by
  intro name'
  obtain ⟨k1, k2, k3⟩ := h name'
  have only : ∀ n, Opens n d → n = name := by
    rintro n ⟨_, _, _, e1, e2⟩
    obtain ⟨_, _, _, e3, e4⟩ := h1
    rw [e1] at e3
    cases e3
    rw [← e2, e4]
  have nc : ∀ n, ¬ Closes n d := by
    rintro n ⟨_, e1, _⟩
    obtain ⟨_, _, _, e3, _⟩ := h1
    rw [e1] at e3
    cases e3
  rw [get_insert, unknown_snoc]
  simp only [open_snoc, closed_snoc]
  by_cases e : name' = name
  · subst e
    simp only [if_true]
    refine ⟨⟨fun h => (nomatch h), fun h => absurd h1 h.2⟩, fun o => ?_, fun o c => ?_⟩
    · constructor
      · intro h
        cases h
        exact .inr ⟨k1.mp h2, h1, rfl⟩
      · rintro (h | h)
        · have := (k2 o).mpr h.1
          rw [h2] at this
          cases this
        · rw [h.2.2]
    · constructor
      · intro h
        cases h
      · rintro (h | h)
        · have := (k3 o c).mpr h
          rw [h2] at this
          cases this
        · exact absurd h.2.1 (nc _)
  · rw [if_neg e]
    have no : ¬ Opens name' d := fun h => e (only _ h)
    exact ⟨by simp [k1, no], fun o => by simp [k2, no, nc], fun o c => by simp [k3, nc]⟩

theorem inv_close {accounts : Accounts} (h : Inv accounts before) (h1 : Closes name d) (h2 : accounts.get name = some ⟨o, none⟩) :
    Inv (accounts.insert name ⟨o, some d⟩) (before ++ [d]) := by
  intro name'
  obtain ⟨k1, k2, k3⟩ := h name'
  have only : ∀ n, Closes n d → n = name := by
    rintro n ⟨_, e1, e2⟩
    obtain ⟨_, e3, e4⟩ := h1
    rw [e1] at e3
    cases e3
    rw [← e2, e4]
  have no : ∀ n, ¬ Opens n d := by
    rintro n ⟨_, _, _, e1, _⟩
    obtain ⟨_, e3, _⟩ := h1
    rw [e1] at e3
    cases e3
  rw [get_insert, unknown_snoc]
  simp only [open_snoc, closed_snoc]
  by_cases e : name' = name
  · subst e
    simp only [if_true]
    refine ⟨⟨fun h => (nomatch h), fun h => ?_⟩, fun o' => ⟨fun h => (nomatch h), ?_⟩, fun o' c => ?_⟩
    · have := k1.mpr h.1
      rw [h2] at this
      cases this
    · rintro (h | h)
      · exact absurd h1 h.2
      · exact absurd h.2.1 (no _)
    · constructor
      · intro h
        cases h
        exact .inr ⟨(k2 o).mp h2, h1, rfl⟩
      · rintro (h | h)
        · have := (k3 o' c).mpr h
          rw [h2] at this
          cases this
        · have := (k2 o').mpr h.1
          rw [h2] at this
          cases this
          rw [h.2.2]
  · rw [if_neg e]
    have nc : ¬ Closes name' d := fun h => e (only _ h)
    exact ⟨by simp [k1, no], fun o => by simp [k2, no, nc], fun o c => by simp [k3, nc]⟩

/-! ### Amounts -/

section
variable [DecOps]

theorem sum_iff {ds : List Dec} {t u : Dec} : sum ds t = some u ↔ Adds t ds u := by
  induction ds generalizing t with
  | nil =>
    constructor
    · intro h
      cases h
      exact .nil
    · intro h
      cases h
      rfl
  | cons d ds ih =>
    unfold sum
    constructor
    · intro h
      cases h1 : DecOps.add t d with
      | none => rw [h1] at h; cases h
      | some t' =>
        rw [h1] at h
        exact .cons h1 (ih.mp h)
    · rintro (_ | ⟨h1, h2⟩)
      rw [h1]
      exact ih.mpr h2

theorem val_zero {t : Dec} : t.val = 0 ↔ t.mant = 0 := by
  unfold Dec.val
  have : (10 : ℚ) ^ t.scale ≠ 0 := by positivity
  rw [div_eq_zero_iff]
  simp [this]

theorem fm_some {p : Spanned Posting} {ps : List (Spanned Posting)} {a : Spanned ExprValue} (h : p.item.amount = some a) :
    (p :: ps).filterMap (·.item.amount) = a :: ps.filterMap (·.item.amount) := by
  rw [List.filterMap_cons, h]

theorem fm_none {p : Spanned Posting} {ps : List (Spanned Posting)} (h : p.item.amount = none) :
    (p :: ps).filterMap (·.item.amount) = ps.filterMap (·.item.amount) := by
  rw [List.filterMap_cons, h]

theorem all_some {ps : List (Spanned Posting)} {amounts : List (Spanned ExprValue)} (h : ps.map (·.item.amount) = amounts.map some) :
    ps.filterMap (·.item.amount) = amounts := by
  induction ps generalizing amounts with
  | nil => cases amounts with
    | nil => rfl
    | cons => cases h
  | cons p ps ih =>
    cases amounts with
    | nil => cases h
    | cons a amounts =>
      injection h with h1 h2
      rw [fm_some h1, ih h2]

theorem filter_length {ps : List (Spanned Posting)} : (ps.filterMap (·.item.amount)).length = ps.length ↔ ∀ p ∈ ps, p.item.amount ≠ none := by
  induction ps with
  | nil => simp
  | cons p ps ih =>
    cases h : p.item.amount with
    | none =>
      rw [fm_none h]
      have := List.length_filterMap_le (fun p : Spanned Posting => p.item.amount) ps
      simp only [List.length_cons, List.mem_cons]
      constructor
      · intro h; omega
      · intro h'; exact absurd h (h' p (.inl rfl))
    | some a =>
      rw [fm_some h]
      simp only [List.length_cons, Nat.add_right_cancel_iff, ih, List.mem_cons, forall_eq_or_imp, h]
      simp

theorem map_some {ps : List (Spanned Posting)} (h : ∀ p ∈ ps, p.item.amount ≠ none) :
    ps.map (·.item.amount) = (ps.filterMap (·.item.amount)).map some := by
  induction ps with
  | nil => rfl
  | cons p ps ih =>
    cases h1 : p.item.amount with
    | none => exact absurd h1 (h p (by simp))
    | some a =>
      rw [fm_some h1, List.map_cons, List.map_cons, h1, ih fun q hq => h q (by simp [hq])]

theorem unbalanced_eq {t : Transaction} (hd : d.item.variant = .transaction t) (total : Dec) (last : Spanned ExprValue)
    (others : List (Spanned ExprValue)) : unbalanced d total last others = sumReport d total last others := by
  unfold unbalanced sumReport
  simp only [directiveElement, Directive.elementType, hd]
  rfl

theorem amounts_all {t : Transaction} (hd : d.item.variant = .transaction t) {ps : List (Spanned Posting)} (hne : ps ≠ [])
    (hall : ∀ p ∈ ps, p.item.amount ≠ none) {es : List Report} :
    (match sum ((ps.filterMap (·.item.amount)).map (·.item.value)) ⟨0, 0⟩ with
    | none => none
    | some total =>
      if total.mant = 0 then some []
      else
        match (ps.filterMap (·.item.amount)).getLast? with
        | none => none
        | some last => some [unbalanced d total last (ps.filterMap (·.item.amount)).dropLast]) = some es ↔ AmountsReported d ps es := by
  have hm := map_some hall
  have hl := filter_length.mpr hall
  generalize hg : ps.filterMap (·.item.amount) = amounts at hm hl
  have hamounts : amounts ≠ [] := by
    rintro rfl
    exact hne (List.length_eq_zero_iff.mp hl.symm)
  constructor
  · intro h
    cases hs : sum (amounts.map (·.item.value)) ⟨0, 0⟩ with
    | none => rw [hs] at h; cases h
    | some total =>
      rw [hs] at h
      dsimp only at h
      by_cases hz : total.mant = 0
      · rw [if_pos hz] at h
        cases h
        exact .zero hm (sum_iff.mp hs) (val_zero.mpr hz)
      · rw [if_neg hz, List.getLast?_eq_some_getLast hamounts] at h
        cases h
        rw [unbalanced_eq hd]
        have e := List.dropLast_append_getLast hamounts
        refine .other (by rw [e]; exact hm) (by rw [e]; exact sum_iff.mp hs) (fun h => hz (val_zero.mp h))
  · rintro (h | ⟨h1, h2⟩ | ⟨h1, h2, h3⟩ | ⟨h1, h2, h3⟩)
    · exact absurd h hne
    · exact absurd h2 (hall _ h1)
    · rw [all_some h1] at hg
      subst hg
      rw [sum_iff.mpr h2]
      dsimp only
      rw [if_pos (val_zero.mp h3)]
    · rw [all_some h1] at hg
      subst hg
      rw [sum_iff.mpr h2]
      dsimp only
      rw [if_neg (fun h => h3 (val_zero.mpr h))]
      simp only [List.getLast?_concat, List.dropLast_concat]
      rw [unbalanced_eq hd]

theorem amounts_iff {t : Transaction} (hd : d.item.variant = .transaction t) {ps : List (Spanned Posting)} {es : List Report} :
    postingsAmounts d ps = some es ↔ AmountsReported d ps es := by
  unfold postingsAmounts
  by_cases hc : 0 < ps.length ∧ (ps.filterMap (·.item.amount)).length = ps.length
  · dsimp only
    rw [if_pos hc]
    exact amounts_all hd (List.ne_nil_of_length_pos hc.1) (filter_length.mp hc.2)
  · dsimp only
    rw [if_neg hc]
    constructor
    · intro h
      cases h
      by_cases hne : ps = []
      · exact .none hne
      · have : ¬ ∀ p ∈ ps, p.item.amount ≠ none := fun h => hc ⟨List.length_pos_of_ne_nil hne, filter_length.mpr h⟩
        push Not at this
        obtain ⟨p, h1, h2⟩ := this
        exact .missing h1 h2
    · have no : ∀ amounts : List (Spanned ExprValue), ps.map (·.item.amount) = amounts.map some → ps = [] := by
        intro amounts h
        by_contra hne
        refine hc ⟨List.length_pos_of_ne_nil hne, ?_⟩
        rw [all_some h]
        simpa using (congrArg List.length h).symm
      rintro (h | ⟨h1, h2⟩ | ⟨h1, h2, h3⟩ | ⟨h1, h2, h3⟩)
      · rfl
      · rfl
      · rfl
      · rw [no _ h1] at h1
        simp at h1

/-! ### Accounts -/

theorem posting_iff {t : Transaction} (hd : d.item.variant = .transaction t) {accounts : Accounts} (h : Inv accounts before)
    {ps : List (Spanned Posting)} {es : List Report} : postingsAccounts d accounts ps = es ↔ AccountsReported before d ps es := by
  unfold postingsAccounts
  induction ps generalizing es with
  | nil =>
    constructor
    · rintro rfl
      exact .nil
    · intro h
      cases h
      rfl
  | cons p ps ih =>
    obtain ⟨k1, k2, k3⟩ := h p.item.account.item.name
    rw [List.flatMap_cons]
    have e1 : accounts.get p.item.account.item.name = none → postingAccount d accounts p = [unknownReport d p] := by
      intro e
      simp only [postingAccount, Display.account, e]
      simp only [directiveElement, Directive.elementType, hd]
      rfl
    have e2 : ∀ o, accounts.get p.item.account.item.name = some ⟨o, none⟩ → postingAccount d accounts p = [] := by
      intro o e
      simp only [postingAccount, Display.account, e]
    have e3 : ∀ o c, accounts.get p.item.account.item.name = some ⟨o, some c⟩ → postingAccount d accounts p = [closedReport d p c] := by
      intro o c e
      obtain ⟨_, _, _, _, _, _, _, ⟨_, hc, _⟩⟩ := (k3 o c).mp e
      simp only [postingAccount, Display.account, e]
      simp only [directiveElement, Directive.elementType, hd, hc]
      rfl
    constructor
    · rintro rfl
      cases hg : accounts.get p.item.account.item.name with
      | none =>
        rw [e1 hg]
        exact .unknown (k1.mp hg) (ih.mp rfl)
      | some s =>
        obtain ⟨o, c⟩ := s
        cases c with
        | none =>
          rw [e2 o hg]
          exact .fine ((k2 o).mp hg) (ih.mp rfl)
        | some c =>
          rw [e3 o c hg]
          exact .closed ((k3 o c).mp hg) (ih.mp rfl)
    · intro h
      cases h with
      | fine h1 h2 => rw [e2 _ ((k2 _).mpr h1), ih.mpr h2]; rfl
      | unknown h1 h2 => rw [e1 (k1.mpr h1), ih.mpr h2]; rfl
      | closed h1 h2 => rw [e3 _ _ ((k3 _ _).mpr h1), ih.mpr h2]; rfl

/-! ### Directives -/

theorem opens_of {account : Spanned Account} {cs : List (Spanned Str)} {b : Option (Spanned Booking)} (h : d.item.variant = .open account cs b) :
    Opens account.item.name d := ⟨_, _, _, h, rfl⟩

theorem closes_of {account : Spanned Account} (h : d.item.variant = .close account) : Closes account.item.name d := ⟨_, h, rfl⟩

theorem step_sound {st st' : State} (h : Inv st.accounts before) (hs : step st d = some st') :
    ∃ es ws, Reported before d es ws ∧ st'.errors = st.errors ++ es ∧ st'.warnings = st.warnings ++ ws ∧ Inv st'.accounts (before ++ [d]) := by
  unfold step at hs
  have rest : (∀ t, d.item.variant ≠ .transaction t) → (∀ name, ¬ Opens name d) → (∀ name, ¬ Closes name d) → st = st' →
      ∃ es ws, Reported before d es ws ∧ st'.errors = st.errors ++ es ∧ st'.warnings = st.warnings ++ ws ∧ Inv st'.accounts (before ++ [d]) := by
    rintro h1 h2 h3 rfl
    exact ⟨[], [], .other h1 h2 h3, by simp, by simp, inv_same h (fun n hn => absurd hn (h2 n)) (fun n hn => absurd hn (h3 n))⟩
  have plain : (∀ account cs b, d.item.variant ≠ .open account cs b) → (∀ account, d.item.variant ≠ .close account) →
      (∀ name, ¬ Opens name d) ∧ ∀ name, ¬ Closes name d := by
    intro h1 h2
    exact ⟨fun _ ⟨_, _, _, h, _⟩ => h1 _ _ _ h, fun _ ⟨_, h, _⟩ => h2 _ h⟩
  cases hv : d.item.variant with
  | transaction t =>
    simp only [hv] at hs
    have hp := plain (by simp [hv]) (by simp [hv])
    cases ha : postingsAmounts d t.postings with
    | none => simp [ha] at hs
    | some es =>
      simp only [ha, Option.some.injEq] at hs
      subst hs
      exact ⟨_, [], .transaction hv ((amounts_iff hv).mp ha) ((posting_iff hv h).mp rfl), by simp, by simp,
        inv_same h (fun n hn => absurd hn (hp.1 n)) (fun n hn => absurd hn (hp.2 n))⟩
  | «open» account cs b =>
    simp only [hv, Option.some.injEq] at hs
    subst hs
    obtain ⟨k1, k2, k3⟩ := h account.item.name
    have ho := opens_of hv
    have one : ∀ n, Opens n d → n = account.item.name := by
      rintro n ⟨_, _, _, e1, e2⟩
      rw [hv] at e1
      cases e1
      exact e2.symm
    have nc : ∀ n, ¬ Closes n d := by
      rintro n ⟨_, e, _⟩
      rw [hv] at e
      cases e
    cases hg : st.accounts.get account.item.name with
    | none =>
      simp only [onOpen, Display.account, hg]
      exact ⟨[], [], .first ho (k1.mp hg), by simp, by simp, inv_open h ho hg⟩
    | some s =>
      have hi : Inv st.accounts (before ++ [d]) := inv_same h (fun n hn => by rw [one n hn, hg]; simp) (fun n hn => absurd hn (nc n))
      obtain ⟨o, c⟩ := s
      simp only [onOpen, Display.account, hg]
      cases c with
      | none =>
        obtain ⟨_, _, _, _, ⟨_, _, _, hov, _⟩, _⟩ := (k2 o).mp hg
        refine ⟨[], [againReport d o], .again ho ((k2 o).mp hg), by simp, ?_, hi⟩
        simp only [directiveElement, Directive.elementType, hv, hov]
        rfl
      | some c =>
        obtain ⟨_, _, _, _, _, _, _, ⟨_, hcv, _⟩⟩ := (k3 o c).mp hg
        refine ⟨[reopenReport d c], [], .reopened ho ((k3 o c).mp hg), ?_, by simp, hi⟩
        simp only [directiveElement, Directive.elementType, hv, hcv]
        rfl
  | close account =>
    simp only [hv, Option.some.injEq] at hs
    subst hs
    obtain ⟨k1, k2, k3⟩ := h account.item.name
    have ho := closes_of hv
    have one : ∀ n, Closes n d → n = account.item.name := by
      rintro n ⟨_, e1, e2⟩
      rw [hv] at e1
      cases e1
      exact e2.symm
    have no : ∀ n, ¬ Opens n d := by
      rintro n ⟨_, _, _, e, _⟩
      rw [hv] at e
      cases e
    cases hg : st.accounts.get account.item.name with
    | none =>
      simp only [onClose, Display.account, hg]
      refine ⟨[unopenedReport d account], [], .unopened hv (k1.mp hg), ?_, by simp,
        inv_same h (fun n hn => absurd hn (no n)) (fun n hn => by rw [one n hn, hg]; simp)⟩
      simp only [directiveElement, Directive.elementType, hv]
      rfl
    | some s =>
      obtain ⟨o, c⟩ := s
      simp only [onClose, Display.account, hg]
      cases c with
      | none =>
      simp only [onClose, Display.account, hg]
      exact ⟨[], [], .closes ho ((k2 o).mp hg), by simp, by simp, inv_close h ho hg⟩
      | some c =>
        obtain ⟨_, _, _, _, _, _, _, ⟨_, hcv, _⟩⟩ := (k3 o c).mp hg
        refine ⟨[recloseReport d c], [], .reclosed ho ((k3 o c).mp hg), ?_, by simp,
          inv_same h (fun n hn => absurd hn (no n)) (fun n hn => by rw [one n hn, hg]; simp)⟩
        simp only [directiveElement, Directive.elementType, hv, hcv]
        rfl
  | _ =>
    simp only [hv, Option.some.injEq] at hs
    have hp := plain (by simp [hv]) (by simp [hv])
    exact rest (by simp [hv]) hp.1 hp.2 hs

theorem amounts_unique {t : Transaction} (hd : d.item.variant = .transaction t) {ps : List (Spanned Posting)} {es es' : List Report}
    (h : AmountsReported d ps es) (h' : AmountsReported d ps es') : es' = es :=
  Option.some.inj (((amounts_iff hd).mpr h').symm.trans ((amounts_iff hd).mpr h))

/-- Where an account stands. -/
theorem reported_unique {accounts : Accounts} (h : Inv accounts before) {es ws es' ws' : List Report} (h1 : Reported before d es ws)
    (h2 : Reported before d es' ws') : es' = es ∧ ws' = ws := by
  have opens_eq : ∀ {n n'}, Opens n d → Opens n' d → n' = n := by
    rintro n n' ⟨_, _, _, a1, a2⟩ ⟨_, _, _, b1, b2⟩
    rw [a1] at b1
    cases b1
    rw [← a2, b2]
  have closes_eq : ∀ {n n'}, Closes n d → Closes n' d → n' = n := by
    rintro n n' ⟨_, a1, a2⟩ ⟨_, b1, b2⟩
    rw [a1] at b1
    cases b1
    rw [← a2, b2]
  have ot : ∀ {n t}, Opens n d → d.item.variant ≠ .transaction t := by
    rintro n t ⟨_, _, _, a, _⟩ b
    rw [a] at b
    cases b
  have ct : ∀ {n t}, Closes n d → d.item.variant ≠ .transaction t := by
    rintro n t ⟨_, a, _⟩ b
    rw [a] at b
    cases b
  have uo : ∀ {n o}, Unknown n before → ¬ OpenSince n before o := by
    intro n o a b
    have a := (h n).1.mpr a
    rw [((h n).2.1 o).mpr b] at a
    cases a
  have uc : ∀ {n o c}, Unknown n before → ¬ ClosedSince n before o c := by
    intro n o c a b
    have a := (h n).1.mpr a
    rw [((h n).2.2 o c).mpr b] at a
    cases a
  have oc : ∀ {n o o' c}, OpenSince n before o → ¬ ClosedSince n before o' c := by
    intro n o o' c a b
    have a := ((h n).2.1 o).mpr a
    rw [((h n).2.2 o' c).mpr b] at a
    cases a
  have oo : ∀ {n o o'}, OpenSince n before o → OpenSince n before o' → o' = o := by
    intro n o o' a b
    have a := ((h n).2.1 o).mpr a
    rw [((h n).2.1 o').mpr b] at a
    cases a
    rfl
  have cc : ∀ {n o c o' c'}, ClosedSince n before o c → ClosedSince n before o' c' → c' = c := by
    intro n o c o' c' a b
    have a := ((h n).2.2 o c).mpr a
    rw [((h n).2.2 o' c').mpr b] at a
    cases a
    rfl
  cases h1 with
  | transaction a1 a2 a3 =>
    cases h2 with
    | transaction b1 b2 b3 =>
      rw [a1] at b1
      cases b1
      have e := (posting_iff a1 h).mpr a3
      rw [(posting_iff a1 h).mpr b3] at e
      rw [amounts_unique a1 a2 b2, e]
      exact ⟨rfl, rfl⟩
    | first b _ => exact absurd a1 (ot b)
    | again b _ => exact absurd a1 (ot b)
    | reopened b _ => exact absurd a1 (ot b)
    | unopened b _ => exact absurd a1 (ct (closes_of b))
    | closes b _ => exact absurd a1 (ct b)
    | reclosed b _ => exact absurd a1 (ct b)
    | other b _ _ => exact absurd a1 (b _)
  | first a1 a2 =>
    cases h2 with
    | transaction b _ _ => exact absurd b (ot a1)
    | first b _ => exact ⟨rfl, rfl⟩
    | again b1 b2 => rw [opens_eq a1 b1] at b2; exact absurd b2 (uo a2)
    | reopened b1 b2 => rw [opens_eq a1 b1] at b2; exact absurd b2 (uc a2)
    | unopened b _ => obtain ⟨_, _, _, a1, _⟩ := a1; rw [a1] at b; cases b
    | closes b _ => exact ⟨rfl, rfl⟩
    | reclosed b _ => obtain ⟨_, _, _, a1, _⟩ := a1; obtain ⟨_, b, _⟩ := b; rw [a1] at b; cases b
    | other _ _ _ => exact ⟨rfl, rfl⟩
  | again a1 a2 =>
    cases h2 with
    | transaction b _ _ => exact absurd b (ot a1)
    | first b1 b2 => rw [opens_eq a1 b1] at b2; exact absurd a2 (uo b2)
    | again b1 b2 => rw [opens_eq a1 b1] at b2; rw [oo a2 b2]; exact ⟨rfl, rfl⟩
    | reopened b1 b2 => rw [opens_eq a1 b1] at b2; exact absurd b2 (oc a2)
    | unopened b _ => obtain ⟨_, _, _, a1, _⟩ := a1; rw [a1] at b; cases b
    | closes b _ => obtain ⟨_, _, _, a1, _⟩ := a1; obtain ⟨_, b, _⟩ := b; rw [a1] at b; cases b
    | reclosed b _ => obtain ⟨_, _, _, a1, _⟩ := a1; obtain ⟨_, b, _⟩ := b; rw [a1] at b; cases b
    | other _ b _ => exact absurd a1 (b _)
  | reopened a1 a2 =>
    cases h2 with
    | transaction b _ _ => exact absurd b (ot a1)
    | first b1 b2 => rw [opens_eq a1 b1] at b2; exact absurd a2 (uc b2)
    | again b1 b2 => rw [opens_eq a1 b1] at b2; exact absurd a2 (oc b2)
    | reopened b1 b2 => rw [opens_eq a1 b1] at b2; rw [cc a2 b2]; exact ⟨rfl, rfl⟩
    | unopened b _ => obtain ⟨_, _, _, a1, _⟩ := a1; rw [a1] at b; cases b
    | closes b _ => obtain ⟨_, _, _, a1, _⟩ := a1; obtain ⟨_, b, _⟩ := b; rw [a1] at b; cases b
    | reclosed b _ => obtain ⟨_, _, _, a1, _⟩ := a1; obtain ⟨_, b, _⟩ := b; rw [a1] at b; cases b
    | other _ b _ => exact absurd a1 (b _)
  | unopened a1 a2 =>
    cases h2 with
    | transaction b _ _ => exact absurd b (ct (closes_of a1))
    | first b _ => obtain ⟨_, _, _, b, _⟩ := b; rw [a1] at b; cases b
    | again b _ => obtain ⟨_, _, _, b, _⟩ := b; rw [a1] at b; cases b
    | reopened b _ => obtain ⟨_, _, _, b, _⟩ := b; rw [a1] at b; cases b
    | unopened b _ => rw [a1] at b; cases b; exact ⟨rfl, rfl⟩
    | closes b1 b2 => rw [closes_eq (closes_of a1) b1] at b2; exact absurd b2 (uo a2)
    | reclosed b1 b2 => rw [closes_eq (closes_of a1) b1] at b2; exact absurd b2 (uc a2)
    | other _ _ b => exact absurd (closes_of a1) (b _)
  | closes a1 a2 =>
    cases h2 with
    | transaction b _ _ => exact absurd b (ct a1)
    | first _ _ => exact ⟨rfl, rfl⟩
    | again b _ => obtain ⟨_, _, _, b, _⟩ := b; obtain ⟨_, a1, _⟩ := a1; rw [a1] at b; cases b
    | reopened b _ => obtain ⟨_, _, _, b, _⟩ := b; obtain ⟨_, a1, _⟩ := a1; rw [a1] at b; cases b
    | unopened b1 b2 => rw [closes_eq a1 (closes_of b1)] at b2; exact absurd a2 (uo b2)
    | closes _ _ => exact ⟨rfl, rfl⟩
    | reclosed b1 b2 => rw [closes_eq a1 b1] at b2; exact absurd b2 (oc a2)
    | other _ _ _ => exact ⟨rfl, rfl⟩
  | reclosed a1 a2 =>
    cases h2 with
    | transaction b _ _ => exact absurd b (ct a1)
    | first b _ => obtain ⟨_, _, _, b, _⟩ := b; obtain ⟨_, a1, _⟩ := a1; rw [a1] at b; cases b
    | again b _ => obtain ⟨_, _, _, b, _⟩ := b; obtain ⟨_, a1, _⟩ := a1; rw [a1] at b; cases b
    | reopened b _ => obtain ⟨_, _, _, b, _⟩ := b; obtain ⟨_, a1, _⟩ := a1; rw [a1] at b; cases b
    | unopened b1 b2 => rw [closes_eq a1 (closes_of b1)] at b2; exact absurd a2 (uc b2)
    | closes b1 b2 => rw [closes_eq a1 b1] at b2; exact absurd a2 (oc b2)
    | reclosed b1 b2 => rw [closes_eq a1 b1] at b2; rw [cc a2 b2]; exact ⟨rfl, rfl⟩
    | other _ _ b => exact absurd a1 (b _)
  | other a1 a2 a3 =>
    cases h2 with
    | transaction b _ _ => exact absurd b (a1 _)
    | first _ _ => exact ⟨rfl, rfl⟩
    | again b _ => exact absurd b (a2 _)
    | reopened b _ => exact absurd b (a2 _)
    | unopened b _ => exact absurd (closes_of b) (a3 _)
    | closes _ _ => exact ⟨rfl, rfl⟩
    | reclosed b _ => exact absurd b (a3 _)
    | other _ _ _ => exact ⟨rfl, rfl⟩

/-- The program goes on unless a transaction cannot be added up. -/
theorem step_goes {st : State} {es ws : List Report} (h1 : Reported before d es ws) : ∃ st', step st d = some st' := by
  unfold step
  cases hv : d.item.variant with
  | transaction t =>
    cases h1 with
    | transaction a1 a2 a3 =>
      rw [hv] at a1
      cases a1
      simp only [(amounts_iff hv).mpr a2]
      exact ⟨_, rfl⟩
    | first b _ => obtain ⟨_, _, _, b, _⟩ := b; rw [hv] at b; cases b
    | again b _ => obtain ⟨_, _, _, b, _⟩ := b; rw [hv] at b; cases b
    | reopened b _ => obtain ⟨_, _, _, b, _⟩ := b; rw [hv] at b; cases b
    | unopened b _ => rw [hv] at b; cases b
    | closes b _ => obtain ⟨_, b, _⟩ := b; rw [hv] at b; cases b
    | reclosed b _ => obtain ⟨_, b, _⟩ := b; rw [hv] at b; cases b
    | other b _ _ => exact absurd hv (b _)
  | _ => exact ⟨_, rfl⟩

theorem steps_iff {ds : List (Spanned Directive)} {st : State} (h : Inv st.accounts before) {es ws : List Report} :
    (∃ st', steps ds st = some st' ∧ st'.errors = st.errors ++ es ∧ st'.warnings = st.warnings ++ ws) ↔ AllReported before ds es ws := by
  induction ds generalizing st before es ws with
  | nil =>
    constructor
    · rintro ⟨st', h1, h2, h3⟩
      cases h1
      have e1 : es = [] := by simpa using h2
      have e2 : ws = [] := by simpa using h3
      subst e1 e2
      exact .nil
    · intro h
      cases h
      exact ⟨st, rfl, by simp, by simp⟩
  | cons d ds ih =>
    unfold steps
    constructor
    · rintro ⟨st', h1, h2, h3⟩
      cases hs : step st d with
      | none => simp [hs] at h1
      | some st1 =>
        simp only [hs] at h1
        obtain ⟨es1, ws1, k1, k2, k3, k4⟩ := step_sound h hs
        have grow : ∀ {ds : List (Spanned Directive)} {st st' : State} {before}, Inv st.accounts before → steps ds st = some st' →
            ∃ es ws, st'.errors = st.errors ++ es ∧ st'.warnings = st.warnings ++ ws := by
          intro ds
          induction ds with
          | nil =>
            intro st st' _ _ e
            cases e
            exact ⟨[], [], by simp, by simp⟩
          | cons d ds ih =>
            intro st st' b hi e
            unfold steps at e
            cases hs : step st d with
            | none => simp [hs] at e
            | some st1 =>
              simp only [hs] at e
              obtain ⟨es1, ws1, _, k2, k3, k4⟩ := step_sound hi hs
              obtain ⟨es2, ws2, k5, k6⟩ := ih k4 e
              exact ⟨es1 ++ es2, ws1 ++ ws2, by rw [k5, k2, List.append_assoc], by rw [k6, k3, List.append_assoc]⟩
        obtain ⟨es2, ws2, k5, k6⟩ := grow k4 h1
        have e1 : es = es1 ++ es2 := by
          rw [k5, k2, List.append_assoc] at h2
          exact (List.append_cancel_left h2).symm
        have e2 : ws = ws1 ++ ws2 := by
          rw [k6, k3, List.append_assoc] at h3
          exact (List.append_cancel_left h3).symm
        subst e1 e2
        exact .cons k1 ((ih k4).mp ⟨st', h1, k5, k6⟩)
    · rintro (_ | ⟨k1, k2⟩)
      obtain ⟨st1, hs⟩ := step_goes (st := st) k1
      obtain ⟨es1, ws1, k3, k4, k5, k6⟩ := step_sound h hs
      obtain ⟨rfl, rfl⟩ := reported_unique h k1 k3
      obtain ⟨st', k7, k8, k9⟩ := (ih k6).mpr k2
      simp only [hs]
      exact ⟨st', k7, by rw [k8, k4, List.append_assoc], by rw [k9, k5, List.append_assoc]⟩

end

end Lima.Check
