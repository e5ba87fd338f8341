import Verif.Spec.Layout

/-! Parsers do not look at locations: combinators. -/

set_option linter.unusedSectionVars false

namespace Lima
open Spec

/-- Two ways to lay out the same tokens of a file: `move` turns locations in the first into those in the second. -/
structure Relaid where
  move : Span → Span
  cfg : ParseCfg
  cfg' : ParseCfg
  toks : List Ranged
  toks' : List Ranged
  same : SameTokens toks toks'
  path : cfg'.path.bind pathDir = cfg.path.bind pathDir
  decimal : cfg'.decimal = cfg.decimal
  span : ∀ i j, i ≤ j → j ≤ toks.length →
    move (cfg.spanOf (toks.drop i) (toks.drop j)) = cfg'.spanOf (toks'.drop i) (toks'.drop j)

theorem Relaid.length (c : Relaid) : c.toks'.length = c.toks.length := by
  have := congrArg List.length c.same
  simpa using this.symm

/-- The state of the parser after as many tokens. -/
structure Relaid.St (c : Relaid) (i : Nat) (s s' : PSt) : Prop where
  le : i ≤ c.toks.length
  toks : s.toks = c.toks.drop i
  toks' : s'.toks = c.toks'.drop i
  errs : s'.errs = Spec.move c.move s.errs
  opts : s'.opts = Spec.move c.move s.opts
  warns : s'.warns = Spec.move c.move s.warns

/-- The same outcome, but for locations. -/
inductive Relaid.Out (c : Relaid) {α : Type} [Places α] (i : Nat) : PRes α → PRes α → Prop
  | ok {a a' : α} {j : Nat} {s s' : PSt} (h : i ≤ j) (ha : a' = Spec.move c.move a) (hs : c.St j s s') : c.Out i (.ok a s) (.ok a' s')
  | fail {j : Nat} {s s' : PSt} (hs : c.St j s s') : c.Out i (.fail s) (.fail s')
  | panic : c.Out i .panic .panic

/-- The parsers do the same, but for locations. -/
def Relaid.Blind (c : Relaid) {α : Type} [Places α] (p p' : P α) : Prop :=
  ∀ i s s', c.St i s s' → c.Out i (p s) (p' s')

variable {c : Relaid} {α β : Type} [Places α] [Places β]

theorem Relaid.St.rewind {i j : Nat} {s s' t t' : PSt} (h : c.St i s s') (ht : c.St j t t') :
    c.St i (s.rewind t) (s'.rewind t') := ⟨h.le, h.toks, h.toks', h.errs, ht.opts, ht.warns⟩

theorem Relaid.St.len {i : Nat} {s s' : PSt} (h : c.St i s s') : s'.toks.length = s.toks.length := by
  rw [h.toks, h.toks', List.length_drop, List.length_drop, c.length]

/-- The next token. -/
theorem Relaid.next (c : Relaid) (i : Nat) :
    (c.toks.drop i = [] ∧ c.toks'.drop i = []) ∨
    ∃ t t', c.toks.drop i = t :: c.toks.drop (i + 1) ∧ c.toks'.drop i = t' :: c.toks'.drop (i + 1) ∧ t'.tok = t.tok ∧
      i + 1 ≤ c.toks.length := by
  rcases Nat.lt_or_ge i c.toks.length with h | h
  · right
    have h' : i < c.toks'.length := by rw [c.length]; exact h
    refine ⟨c.toks[i], c.toks'[i], List.drop_eq_getElem_cons h, List.drop_eq_getElem_cons h', ?_, h⟩
    have hs : (c.toks.map (·.tok))[i]? = (c.toks'.map (·.tok))[i]? := by rw [show c.toks.map (·.tok) = _ from c.same]
    rw [List.getElem?_map, List.getElem?_map, List.getElem?_eq_getElem h, List.getElem?_eq_getElem h'] at hs
    exact (Option.some.inj hs).symm
  · left
    exact ⟨List.drop_eq_nil_of_le h, List.drop_eq_nil_of_le (by rw [c.length]; exact h)⟩

namespace Relaid.Blind

theorem pure {a a' : α} (h : a' = Spec.move c.move a) : c.Blind (Pure.pure a : P α) (Pure.pure a') :=
  fun _ _ _ hs => .ok (Nat.le_refl _) h hs

theorem bind {p p' : P α} {f f' : α → P β} (hp : c.Blind p p') (hf : ∀ a, c.Blind (f a) (f' (Spec.move c.move a))) :
    c.Blind (p >>= f) (p' >>= f') := by
  intro i s s' hs
  have h := hp i s s' hs
  change c.Out i (P.bind' p f s) (P.bind' p' f' s')
  unfold P.bind'
  generalize p s = r at h ⊢
  generalize p' s' = r' at h ⊢
  cases h with
  | @ok a _ _ _ _ hij ha hst =>
    subst ha
    dsimp only
    have h2 := hf a _ _ _ hst
    generalize f _ _ = q at h2 ⊢
    generalize f' _ _ = q' at h2 ⊢
    cases h2 with
    | ok hjk hb hst2 => exact .ok (Nat.le_trans hij hjk) hb hst2
    | fail hst2 => exact .fail hst2
    | panic => exact .panic
  | fail hst => exact .fail hst
  | panic => exact .panic

theorem failure : c.Blind (P.failure : P α) P.failure := fun _ _ _ hs => .fail hs

theorem panicking : c.Blind (P.panicking : P α) P.panicking := fun _ _ _ _ => .panic

theorem select {f : Token → Option α} (hf : ∀ t a, f t = some a → Spec.move c.move a = a) :
    c.Blind (P.select f) (P.select f) := by
  intro i s s' hs
  unfold P.select
  rw [hs.toks, hs.toks']
  rcases c.next i with ⟨h1, h2⟩ | ⟨t, t', h1, h2, h3, h4⟩
  · rw [h1, h2]
    exact .fail hs
  · rw [h1, h2]
    dsimp only
    rw [h3]
    split
    · rename_i a ha
      exact .ok (Nat.le_succ i) (hf _ _ ha).symm ⟨h4, rfl, rfl, hs.errs, hs.opts, hs.warns⟩
    · exact .fail hs

theorem just {t : Token} : c.Blind (P.just t) (P.just t) := select fun _ _ _ => rfl

theorem eoi : c.Blind P.eoi P.eoi := by
  intro i s s' hs
  unfold P.eoi
  rw [hs.toks, hs.toks']
  rcases c.next i with ⟨h1, h2⟩ | ⟨t, t', h1, h2, h3, h4⟩
  · rw [h1, h2]
    exact .ok (Nat.le_refl _) rfl hs
  · rw [h1, h2]
    exact .fail hs

theorem alt {p p' q q' : P α} (hp : c.Blind p p') (hq : c.Blind q q') : c.Blind (P.alt p q) (P.alt p' q') := by
  intro i s s' hs
  have h := hp i s s' hs
  unfold P.alt
  generalize p s = r at h ⊢
  generalize p' s' = r' at h ⊢
  cases h with
  | ok hij ha hst => exact .ok hij ha hst
  | fail hst => exact hq _ _ _ (hs.rewind hst)
  | panic => exact .panic

theorem choice_one {p p' : P α} (hp : c.Blind p p') : c.Blind (P.choice [p]) (P.choice [p']) := hp

theorem choice_cons {p p' q q' : P α} {ps ps' : List (P α)} (hp : c.Blind p p')
    (hq : c.Blind (P.choice (q :: ps)) (P.choice (q' :: ps'))) :
    c.Blind (P.choice (p :: q :: ps)) (P.choice (p' :: q' :: ps')) := alt hp hq

theorem orNot {p p' : P α} (hp : c.Blind p p') : c.Blind (P.orNot p) (P.orNot p') := by
  intro i s s' hs
  have h := hp i s s' hs
  unfold P.orNot
  generalize p s = r at h ⊢
  generalize p' s' = r' at h ⊢
  cases h with
  | ok hij ha hst => subst ha; exact .ok hij rfl hst
  | fail hst => exact .ok (Nat.le_refl _) rfl (hs.rewind hst)
  | panic => exact .panic

theorem repFuel {p p' : P α} (hp : c.Blind p p') (n : Nat) : c.Blind (P.repFuel p n) (P.repFuel p' n) := by
  induction n with
  | zero => exact fun _ _ _ _ => .panic
  | succ n ih =>
    intro i s s' hs
    have h := hp i s s' hs
    unfold P.repFuel
    generalize p s = r at h ⊢
    generalize p' s' = r' at h ⊢
    cases h with
    | ok hij ha hst =>
      subst ha
      have h2 := ih _ _ _ hst
      dsimp only
      generalize P.repFuel p n _ = q at h2 ⊢
      generalize P.repFuel p' n _ = q' at h2 ⊢
      cases h2 with
      | ok hjk hb hst2 => subst hb; exact .ok (Nat.le_trans hij hjk) rfl hst2
      | fail hst2 => exact .fail hst2
      | panic => exact .panic
    | fail hst => exact .ok (Nat.le_refl _) rfl (hs.rewind hst)
    | panic => exact .panic

theorem rep {p p' : P α} (hp : c.Blind p p') : c.Blind (P.rep p) (P.rep p') := by
  intro i s s' hs
  unfold P.rep
  rw [hs.len]
  exact repFuel hp _ i s s' hs

theorem emit {es es' : List PErr} (h : es' = Spec.move c.move es) : c.Blind (P.emit es) (P.emit es') := by
  intro i s s' hs
  refine .ok (Nat.le_refl _) rfl ⟨hs.le, hs.toks, hs.toks', ?_, hs.opts, hs.warns⟩
  change s'.errs ++ es' = Spec.move c.move (s.errs ++ es)
  rw [hs.errs, h]
  exact List.map_append.symm

theorem spanned {p p' : P α} (hp : c.Blind p p') : c.Blind (P.spanned c.cfg p) (P.spanned c.cfg' p') := by
  intro i s s' hs
  have h := hp i s s' hs
  unfold P.spanned
  generalize p s = r at h ⊢
  generalize p' s' = r' at h ⊢
  cases h with
  | @ok _ _ j t t' hij ha hst =>
    subst ha
    refine .ok hij ?_ hst
    change _ = (⟨_, _⟩ : Spanned α)
    rw [hs.toks, hs.toks', hst.toks, hst.toks', c.span _ _ hij hst.le]
  | fail hst => exact .fail hst
  | panic => exact .panic

theorem skipThenRetry {p p' : P α} (hp : c.Blind p p') : ∀ n i k s s', c.toks.length - i = n → i ≤ c.toks.length → k ≤ i →
    c.St k s s' → c.Out k (P.skipThenRetry p (c.toks.drop i) s) (P.skipThenRetry p' (c.toks'.drop i) s') := by
  intro n
  induction n with
  | zero =>
    intro i k s s' hn hi hk hs
    rw [List.drop_eq_nil_of_le (by omega), List.drop_eq_nil_of_le (by rw [c.length]; omega)]
    exact .fail hs
  | succ n ih =>
    intro i k s s' hn hi hk hs
    rcases c.next i with ⟨h1, h2⟩ | ⟨t, t', h1, h2, h3, h4⟩
    · rw [h1, h2]
      exact .fail hs
    · rw [h1, h2]
      unfold P.skipThenRetry
      have hst0 : c.St (i + 1) { s with toks := c.toks.drop (i + 1) } { s' with toks := c.toks'.drop (i + 1) } :=
        ⟨h4, rfl, rfl, hs.errs, hs.opts, hs.warns⟩
      have h := hp _ _ _ hst0
      generalize p _ = r at h ⊢
      generalize p' _ = r' at h ⊢
      cases h with
      | @ok _ _ j u u' hij ha hst =>
        subst ha
        dsimp only
        have he : (u'.errs.length = s'.errs.length) ↔ (u.errs.length = s.errs.length) := by
          rw [hst.errs, hs.errs]
          change (List.map _ _).length = (List.map _ _).length ↔ _
          rw [List.length_map, List.length_map]
        by_cases hl : u.errs.length = s.errs.length
        · rw [if_pos hl, if_pos (he.mpr hl)]
          refine .ok (by omega) rfl ⟨hst.le, hst.toks, hst.toks', ?_, hst.opts, hst.warns⟩
          change u'.errs ++ [PErr.syntax] = Spec.move c.move (u.errs ++ [PErr.syntax])
          rw [hst.errs]
          exact (List.map_append (f := Spec.move c.move) (l₁ := u.errs) (l₂ := [PErr.syntax])).symm
        · rw [if_neg hl, if_neg (fun hh => hl (he.mp hh))]
          exact ih (i + 1) k _ _ (by omega) h4 (by omega) (hs.rewind hst)
      | fail hst => exact ih (i + 1) k _ _ (by omega) h4 (by omega) (hs.rewind hst)
      | panic => exact .panic

theorem recover {p p' : P α} (hp : c.Blind p p') : c.Blind (P.recover p) (P.recover p') := by
  intro i s s' hs
  have h := hp i s s' hs
  unfold P.recover
  generalize p s = r at h ⊢
  generalize p' s' = r' at h ⊢
  cases h with
  | ok hij ha hst => exact .ok hij ha hst
  | fail hst =>
    dsimp only
    rw [hs.toks, hs.toks']
    exact skipThenRetry hp _ i i _ _ rfl hs.le (Nat.le_refl _) (hs.rewind hst)
  | panic => exact .panic

end Relaid.Blind

end Lima
