import Verif.Model.Grammar
import Verif.Spec.Grammar

/-! Lemmas about the parser combinators. -/

namespace Lima

namespace P

variable {α β : Type}

/-! ### Inversion -/

theorem bind_eq (p : P α) (f : α → P β) (s : PSt) : (p >>= f) s =
    match p s with
    | .ok a s' => f a s'
    | .fail s' => .fail s'
    | .panic => .panic := rfl

theorem pure_eq (a : α) (s : PSt) : (pure a : P α) s = .ok a s := rfl

theorem bind_ok {p : P α} {f : α → P β} {s s' : PSt} {b : β} :
    (p >>= f) s = .ok b s' ↔ ∃ a s1, p s = .ok a s1 ∧ f a s1 = .ok b s' := by
  rw [bind_eq]
  constructor
  · intro h
    split at h
    · exact ⟨_, _, ‹_›, h⟩
    · cases h
    · cases h
  · rintro ⟨a, s1, h1, h2⟩
    rw [h1]
    exact h2

theorem bind_of_ok {p : P α} {f : α → P β} {s s1 : PSt} {a : α} (h : p s = .ok a s1) :
    (p >>= f) s = f a s1 := by rw [bind_eq, h]

theorem bind_fail {p : P α} {f : α → P β} {s s' : PSt} :
    (p >>= f) s = .fail s' ↔ p s = .fail s' ∨ ∃ a s1, p s = .ok a s1 ∧ f a s1 = .fail s' := by
  rw [bind_eq]
  constructor
  · intro h
    split at h
    · exact .inr ⟨_, _, ‹_›, h⟩
    · cases h; exact .inl ‹_›
    · cases h
  · rintro (h | ⟨a, s1, h1, h2⟩)
    · rw [h]
    · rw [h1]; exact h2

theorem bind_panic {p : P α} {f : α → P β} {s : PSt} :
    (p >>= f) s = .panic ↔ p s = .panic ∨ ∃ a s1, p s = .ok a s1 ∧ f a s1 = .panic := by
  rw [bind_eq]
  constructor
  · intro h
    split at h
    · exact .inr ⟨_, _, ‹_›, h⟩
    · cases h
    · exact .inl ‹_›
  · rintro (h | ⟨a, s1, h1, h2⟩)
    · rw [h]
    · rw [h1]; exact h2

theorem select_ok {f : Token → Option α} {s s' : PSt} {a : α} :
    select f s = .ok a s' ↔ ∃ t ts, s.toks = t :: ts ∧ f t.tok = some a ∧ s' = { s with toks := ts } := by
  unfold select
  constructor
  · intro h
    split at h
    · cases h
    · split at h
      · cases h; exact ⟨_, _, ‹_›, ‹_›, rfl⟩
      · cases h
  · rintro ⟨t, ts, h1, h2, rfl⟩
    rw [h1]
    simp only [h2]

theorem select_fail {f : Token → Option α} {s s' : PSt} :
    select f s = .fail s' ↔ s' = s ∧ (∀ t ts, s.toks = t :: ts → f t.tok = none) := by
  unfold select
  constructor
  · intro h
    split at h
    · cases h; exact ⟨rfl, fun t ts ht => by simp_all⟩
    · split at h
      · cases h
      · cases h
        refine ⟨rfl, fun t ts ht => ?_⟩
        simp_all
  · rintro ⟨rfl, h⟩
    split
    · rfl
    · rw [h _ _ ‹_›]

theorem select_panic {f : Token → Option α} {s : PSt} : select f s ≠ .panic := by
  unfold select
  intro h
  split at h
  · cases h
  · split at h <;> cases h

theorem just_ok {t : Token} {s s' : PSt} {u : Unit} :
    just t s = .ok u s' ↔ ∃ a b ts, s.toks = ⟨t, a, b⟩ :: ts ∧ s' = { s with toks := ts } := by
  unfold just
  rw [select_ok]
  constructor
  · rintro ⟨⟨t', a, b⟩, ts, h1, h2, h3⟩
    split at h2
    · rename_i h
      simp only at h
      subst h
      exact ⟨a, b, ts, h1, h3⟩
    · cases h2
  · rintro ⟨a, b, ts, h1, h2⟩
    exact ⟨_, ts, h1, by simp, h2⟩

theorem just_fail {t : Token} {s s' : PSt} :
    just t s = .fail s' ↔ s' = s ∧ (∀ x ts, s.toks = x :: ts → x.tok ≠ t) := by
  unfold just
  rw [select_fail]
  simp

theorem just_panic {t : Token} {s : PSt} : just t s ≠ .panic := select_panic

theorem eoi_ok {s s' : PSt} {u : Unit} : eoi s = .ok u s' ↔ s.toks = [] ∧ s' = s := by
  unfold eoi
  constructor
  · intro h
    split at h
    · cases h; exact ⟨‹_›, rfl⟩
    · cases h
  · rintro ⟨h, rfl⟩
    rw [h]

theorem eoi_fail {s s' : PSt} : eoi s = .fail s' ↔ s.toks ≠ [] ∧ s' = s := by
  unfold eoi
  constructor
  · intro h
    split at h
    · cases h
    · cases h
      rename_i h1
      exact ⟨by rw [h1]; simp, rfl⟩
  · rintro ⟨h, rfl⟩
    split
    · exact absurd ‹_› h
    · rfl

theorem alt_ok {p q : P α} {s s' : PSt} {a : α} :
    alt p q s = .ok a s' ↔ p s = .ok a s' ∨ ∃ s1, p s = .fail s1 ∧ q (s.rewind s1) = .ok a s' := by
  unfold alt
  constructor
  · intro h
    split at h
    · cases h; exact .inl ‹_›
    · exact .inr ⟨_, ‹_›, h⟩
    · cases h
  · rintro (h | ⟨s1, h1, h2⟩)
    · rw [h]
    · rw [h1]; exact h2

theorem alt_fail {p q : P α} {s s' : PSt} :
    alt p q s = .fail s' ↔ ∃ s1, p s = .fail s1 ∧ q (s.rewind s1) = .fail s' := by
  unfold alt
  constructor
  · intro h
    split at h
    · cases h
    · exact ⟨_, ‹_›, h⟩
    · cases h
  · rintro ⟨s1, h1, h2⟩
    rw [h1]; exact h2

theorem alt_panic {p q : P α} {s : PSt} :
    alt p q s = .panic ↔ p s = .panic ∨ ∃ s1, p s = .fail s1 ∧ q (s.rewind s1) = .panic := by
  unfold alt
  constructor
  · intro h
    split at h
    · cases h
    · exact .inr ⟨_, ‹_›, h⟩
    · exact .inl ‹_›
  · rintro (h | ⟨s1, h1, h2⟩)
    · rw [h]
    · rw [h1]; exact h2

theorem orNot_ok {p : P α} {s s' : PSt} {o : Option α} :
    orNot p s = .ok o s' ↔ (∃ a, o = some a ∧ p s = .ok a s') ∨
      (o = none ∧ ∃ s1, p s = .fail s1 ∧ s' = s.rewind s1) := by
  unfold orNot
  constructor
  · intro h
    split at h
    · cases h; exact .inl ⟨_, rfl, ‹_›⟩
    · cases h; exact .inr ⟨rfl, _, ‹_›, rfl⟩
    · cases h
  · rintro (⟨a, rfl, h⟩ | ⟨rfl, s1, h, rfl⟩)
    · rw [h]
    · rw [h]

theorem orNot_fail {p : P α} {s s' : PSt} : orNot p s ≠ .fail s' := by
  unfold orNot
  intro h
  split at h <;> cases h

theorem orNot_panic {p : P α} {s : PSt} : orNot p s = .panic ↔ p s = .panic := by
  unfold orNot
  constructor
  · intro h
    split at h
    · cases h
    · cases h
    · assumption
  · intro h; rw [h]

theorem spanned_ok {cfg : ParseCfg} {p : P α} {s s' : PSt} {x : Spanned α} :
    spanned cfg p s = .ok x s' ↔ p s = .ok x.item s' ∧ x.span = cfg.spanOf s.toks s'.toks := by
  unfold spanned
  constructor
  · intro h
    split at h
    · cases h; exact ⟨‹_›, rfl⟩
    · cases h
    · cases h
  · rintro ⟨h, hx⟩
    rw [h]
    cases x
    simp only at hx
    rw [hx]

theorem spanned_of_ok {cfg : ParseCfg} {p : P α} {s s' : PSt} {a : α} (h : p s = .ok a s') :
    spanned cfg p s = .ok ⟨a, cfg.spanOf s.toks s'.toks⟩ s' := by
  unfold spanned; rw [h]

theorem spanned_fail {cfg : ParseCfg} {p : P α} {s s' : PSt} :
    spanned cfg p s = .fail s' ↔ p s = .fail s' := by
  unfold spanned
  constructor
  · intro h
    split at h
    · cases h
    · cases h; assumption
    · cases h
  · intro h; rw [h]

theorem spanned_panic {cfg : ParseCfg} {p : P α} {s : PSt} :
    spanned cfg p s = .panic ↔ p s = .panic := by
  unfold spanned
  constructor
  · intro h
    split at h
    · cases h
    · cases h
    · assumption
  · intro h; rw [h]

theorem emit_eq (es : List PErr) (s : PSt) : emit es s = .ok () { s with errs := s.errs ++ es } := rfl

theorem rewind_self (s : PSt) : s.rewind s = s := rfl

@[simp] theorem rewind_toks (s s' : PSt) : (s.rewind s').toks = s.toks := rfl
@[simp] theorem rewind_errs (s s' : PSt) : (s.rewind s').errs = s.errs := rfl
@[simp] theorem rewind_opts (s s' : PSt) : (s.rewind s').opts = s'.opts := rfl
@[simp] theorem rewind_warns (s s' : PSt) : (s.rewind s').warns = s'.warns := rfl

/-! ### Repetition -/

/-- The parser leaves a suffix of the tokens. -/
def Shrinks (p : P α) : Prop := ∀ s a s', p s = .ok a s' → s'.toks <:+ s.toks

/-- The parser leaves a suffix of the tokens, having consumed at least one. -/
def Consumes (p : P α) : Prop :=
  ∀ s a s', p s = .ok a s' → s'.toks <:+ s.toks ∧ s'.toks.length < s.toks.length

theorem Consumes.shrinks {p : P α} (h : Consumes p) : Shrinks p := fun s a s' hp => (h s a s' hp).1

theorem Consumes.lt {p : P α} (h : Consumes p) {s a s'} (hp : p s = .ok a s') :
    s'.toks.length < s.toks.length := (h s a s' hp).2

theorem repFuel_fuel {p : P α} (hp : Consumes p) : ∀ (n m : Nat) (s : PSt), s.toks.length < n →
    s.toks.length < m → repFuel p n s = repFuel p m s := by
  intro n
  induction n with
  | zero => intro m s h; omega
  | succ n ih =>
    intro m s hn hm
    cases m with
    | zero => omega
    | succ m =>
      simp only [repFuel]
      cases h : p s with
      | ok a s' =>
        have := hp.lt h
        simp only
        rw [ih m s' (by omega) (by omega)]
      | fail s' => rfl
      | panic => rfl

theorem rep_eq {p : P α} (hp : Consumes p) (s : PSt) : rep p s =
    match p s with
    | .ok a s' =>
      match rep p s' with
      | .ok as s'' => .ok (a :: as) s''
      | .fail s'' => .fail s''
      | .panic => .panic
    | .fail s' => .ok [] (s.rewind s')
    | .panic => .panic := by
  have e : rep p s = repFuel p (s.toks.length + 1) s := rfl
  rw [e]
  simp only [repFuel]
  cases h : p s with
  | ok a s' =>
    have := hp.lt h
    simp only
    rw [repFuel_fuel hp _ (s'.toks.length + 1) s' (by omega) (by omega)]
    rfl
  | fail s' => rfl
  | panic => rfl

theorem rep_nil {p : P α} {s s' : PSt} (h : p s = .fail s') : rep p s = .ok [] (s.rewind s') := by
  unfold rep
  simp only [repFuel, h]

theorem rep_cons {p : P α} (hp : Consumes p) {s s1 s2 : PSt} {a : α} {as : List α} (h : p s = .ok a s1)
    (hr : rep p s1 = .ok as s2) : rep p s = .ok (a :: as) s2 := by
  rw [rep_eq hp, h]
  simp only [hr]

/-- What a successful repetition did: turns that succeeded, and one that failed. -/
inductive Reps (p : P α) : PSt → List α → PSt → Prop
  | nil {s s' : PSt} : p s = .fail s' → Reps p s [] (s.rewind s')
  | cons {s s1 s2 : PSt} {a : α} {as : List α} : p s = .ok a s1 → Reps p s1 as s2 → Reps p s (a :: as) s2

theorem repFuel_reps {p : P α} (n : Nat) : ∀ {s s' : PSt} {as : List α}, repFuel p n s = .ok as s' → Reps p s as s' := by
  induction n with
  | zero => intro s s' as h; cases h
  | succ n ih =>
    intro s s' as h
    simp only [repFuel] at h
    cases h1 : p s with
    | ok a s1 =>
      rw [h1] at h
      simp only at h
      cases h2 : repFuel p n s1 with
      | ok as' s2 =>
        rw [h2] at h
        cases h
        exact .cons h1 (ih h2)
      | fail s2 => rw [h2] at h; cases h
      | panic => rw [h2] at h; cases h
    | fail s1 => rw [h1] at h; cases h; exact .nil h1
    | panic => rw [h1] at h; cases h

theorem rep_reps {p : P α} {s s' : PSt} {as : List α} (h : rep p s = .ok as s') : Reps p s as s' :=
  repFuel_reps _ h

theorem repFuel_fail {p : P α} (n : Nat) : ∀ {s s' : PSt}, repFuel p n s ≠ .fail s' := by
  induction n with
  | zero => intro s s' h; cases h
  | succ n ih =>
    intro s s' h
    simp only [repFuel] at h
    cases h1 : p s with
    | ok a s1 =>
      rw [h1] at h
      simp only at h
      cases h2 : repFuel p n s1 with
      | ok as' s2 => rw [h2] at h; cases h
      | fail s2 => exact ih h2
      | panic => rw [h2] at h; cases h
    | fail s1 => rw [h1] at h; cases h
    | panic => rw [h1] at h; cases h

theorem rep_fail {p : P α} {s s' : PSt} : rep p s ≠ .fail s' := repFuel_fail _

/-! ### Consumption -/

theorem Shrinks.bind {p : P α} {f : α → P β} (hp : Shrinks p) (hf : ∀ a, Shrinks (f a)) :
    Shrinks (p >>= f) := by
  intro s b s' h
  obtain ⟨a, s1, h1, h2⟩ := bind_ok.mp h
  exact (hf a s1 b s' h2).trans (hp s a s1 h1)

theorem Consumes.bind {p : P α} {f : α → P β} (hp : Consumes p) (hf : ∀ a, Shrinks (f a)) :
    Consumes (p >>= f) := by
  intro s b s' h
  obtain ⟨a, s1, h1, h2⟩ := bind_ok.mp h
  exact ⟨(hf a s1 b s' h2).trans (hp s a s1 h1).1,
    Nat.lt_of_le_of_lt (hf a s1 b s' h2).length_le (hp s a s1 h1).2⟩

theorem Consumes.bind_right {p : P α} {f : α → P β} (hp : Shrinks p) (hf : ∀ a, Consumes (f a)) :
    Consumes (p >>= f) := by
  intro s b s' h
  obtain ⟨a, s1, h1, h2⟩ := bind_ok.mp h
  exact ⟨(hf a s1 b s' h2).1.trans (hp s a s1 h1),
    Nat.lt_of_lt_of_le (hf a s1 b s' h2).2 (hp s a s1 h1).length_le⟩

theorem Shrinks.pure (a : α) : Shrinks (Pure.pure a : P α) := by
  intro s b s' h
  rw [pure_eq] at h
  cases h
  exact List.suffix_refl _

theorem Consumes.failure : Consumes (failure : P α) := by
  intro s a s' h; cases h

theorem Consumes.panicking : Consumes (panicking : P α) := by
  intro s a s' h; cases h

theorem Consumes.select (f : Token → Option α) : Consumes (select f) := by
  intro s a s' h
  obtain ⟨t, ts, h1, _, rfl⟩ := select_ok.mp h
  rw [h1]
  exact ⟨List.suffix_cons _ _, by simp⟩

theorem Consumes.just (t : Token) : Consumes (just t) := Consumes.select _

theorem Shrinks.eoi : Shrinks eoi := by
  intro s a s' h
  obtain ⟨_, rfl⟩ := eoi_ok.mp h
  exact List.suffix_refl _

theorem Consumes.alt {p q : P α} (hp : Consumes p) (hq : Consumes q) : Consumes (alt p q) := by
  intro s a s' h
  rcases alt_ok.mp h with h | ⟨s1, h1, h2⟩
  · exact hp s a s' h
  · exact hq (s.rewind s1) a s' h2

theorem Shrinks.alt {p q : P α} (hp : Shrinks p) (hq : Shrinks q) : Shrinks (alt p q) := by
  intro s a s' h
  rcases alt_ok.mp h with h | ⟨s1, h1, h2⟩
  · exact hp s a s' h
  · exact hq (s.rewind s1) a s' h2

theorem Consumes.choice {ps : List (P α)} (h : ∀ p ∈ ps, Consumes p) : Consumes (choice ps) := by
  induction ps with
  | nil => exact Consumes.failure
  | cons p ps ih =>
    cases ps with
    | nil => exact h p (by simp)
    | cons q qs => exact Consumes.alt (h p (by simp)) (ih fun p hp => h p (by simp [hp]))

theorem Shrinks.choice {ps : List (P α)} (h : ∀ p ∈ ps, Shrinks p) : Shrinks (choice ps) := by
  induction ps with
  | nil => exact Consumes.failure.shrinks
  | cons p ps ih =>
    cases ps with
    | nil => exact h p (by simp)
    | cons q qs => exact Shrinks.alt (h p (by simp)) (ih fun p hp => h p (by simp [hp]))

theorem Shrinks.orNot {p : P α} (hp : Shrinks p) : Shrinks (orNot p) := by
  intro s o s' h
  rcases orNot_ok.mp h with ⟨a, rfl, h'⟩ | ⟨rfl, s1, h1, rfl⟩
  · exact hp s a s' h'
  · exact List.suffix_refl _

theorem Shrinks.rep {p : P α} (hp : Shrinks p) : Shrinks (rep p) := by
  intro s as s' h
  have := rep_reps h
  clear h
  induction this with
  | nil => exact List.suffix_refl _
  | cons h1 _ ih => exact ih.trans (hp _ _ _ h1)

theorem Shrinks.spanned {cfg : ParseCfg} {p : P α} (hp : Shrinks p) : Shrinks (spanned cfg p) := by
  intro s x s' h
  exact hp s _ s' (spanned_ok.mp h).1

theorem Consumes.spanned {cfg : ParseCfg} {p : P α} (hp : Consumes p) : Consumes (spanned cfg p) := by
  intro s x s' h
  exact hp s _ s' (spanned_ok.mp h).1

theorem Shrinks.emit (es : List PErr) : Shrinks (emit es) := by
  intro s a s' h
  rw [emit_eq] at h
  cases h
  exact List.suffix_refl _

/-! ### Panics -/

/-- The parser does not panic on tokens satisfying the predicate. -/
def Safe (T : List Ranged → Prop) (p : P α) : Prop := ∀ s : PSt, T s.toks → p s ≠ .panic

/-- The predicate also holds of what remains. -/
def Closed (T : List Ranged → Prop) : Prop := ∀ i r, r <:+ i → T i → T r

variable {T : List Ranged → Prop}

theorem Safe.bind {p : P α} {f : α → P β} (hT : Closed T) (hs : Shrinks p) (hp : Safe T p)
    (hf : ∀ a, Safe T (f a)) : Safe T (p >>= f) := by
  intro s h hb
  rcases bind_panic.mp hb with h1 | ⟨a, s1, h1, h2⟩
  · exact hp s h h1
  · exact hf a s1 (hT _ _ (hs s a s1 h1) h) h2

theorem Safe.pure (a : α) : Safe T (Pure.pure a : P α) := by
  intro s _ h; cases h

theorem Safe.failure : Safe T (failure : P α) := by
  intro s _ h; cases h

theorem Safe.select (f : Token → Option α) : Safe T (select f) := fun _ _ => select_panic

theorem Safe.just (t : Token) : Safe T (just t) := fun _ _ => select_panic

theorem Safe.eoi : Safe T eoi := by
  intro s _ h
  unfold P.eoi at h
  split at h <;> cases h

theorem Safe.emit (es : List PErr) : Safe T (emit es) := by
  intro s _ h; cases h

theorem Safe.alt {p q : P α} (hp : Safe T p) (hq : Safe T q) : Safe T (alt p q) := by
  intro s h hb
  rcases alt_panic.mp hb with h1 | ⟨s1, _, h2⟩
  · exact hp s h h1
  · exact hq (s.rewind s1) h h2

theorem Safe.choice {ps : List (P α)} (h : ∀ p ∈ ps, Safe T p) : Safe T (choice ps) := by
  induction ps with
  | nil => exact Safe.failure
  | cons p ps ih =>
    cases ps with
    | nil => exact h p (by simp)
    | cons q qs => exact Safe.alt (h p (by simp)) (ih fun p hp => h p (by simp [hp]))

theorem Safe.orNot {p : P α} (hp : Safe T p) : Safe T (orNot p) := by
  intro s h hb
  exact hp s h (orNot_panic.mp hb)

theorem Safe.spanned {cfg : ParseCfg} {p : P α} (hp : Safe T p) : Safe T (spanned cfg p) := by
  intro s h hb
  exact hp s h (spanned_panic.mp hb)

theorem repFuel_safe {p : P α} (hT : Closed T) (hc : Consumes p) (hp : Safe T p) (n : Nat) :
    ∀ s : PSt, s.toks.length < n → T s.toks → repFuel p n s ≠ .panic := by
  induction n with
  | zero => intro s h; omega
  | succ n ih =>
    intro s hn ht h
    simp only [repFuel] at h
    cases h1 : p s with
    | ok a s1 =>
      rw [h1] at h
      simp only at h
      have hl := hc s a s1 h1
      have := ih s1 (by omega) (hT _ _ hl.1 ht)
      cases h2 : repFuel p n s1 with
      | ok as' s2 => rw [h2] at h; cases h
      | fail s2 => rw [h2] at h; cases h
      | panic => exact this h2
    | fail s1 => rw [h1] at h; cases h
    | panic => exact hp s ht h1

theorem Safe.rep {p : P α} (hT : Closed T) (hc : Consumes p) (hp : Safe T p) : Safe T (rep p) :=
  fun s h => repFuel_safe hT hc hp _ s (Nat.lt_succ_self _) h

/-! ### Parsers that only consume tokens -/

open Spec in
/-- A parser that changes nothing but the tokens, with what it means to succeed. -/
structure Pur (p : P α) (R : ParserOptions → Phrase α) : Prop where
  ok : ∀ s a s', p s = .ok a s' → ∃ r, s' = { s with toks := r } ∧ r <:+ s.toks ∧ R s.opts s.toks r a
  fail : ∀ s s', p s = .fail s' → ∃ r, s' = { s with toks := r }

variable {R : ParserOptions → Spec.Phrase α}

theorem Pur.mono {p : P α} {R R' : ParserOptions → Spec.Phrase α} (h : Pur p R)
    (hR : ∀ o i r a, R o i r a → R' o i r a) : Pur p R' :=
  ⟨fun s a s' hp => let ⟨r, h1, h3, h2⟩ := h.ok s a s' hp; ⟨r, h1, h3, hR _ _ _ _ h2⟩, h.fail⟩

theorem Pur.rewind {p : P α} (h : Pur p R) {s s' : PSt} (hp : p s = .fail s') : s.rewind s' = s := by
  obtain ⟨r, rfl⟩ := h.fail s s' hp
  rfl

theorem Pur.bind {p : P α} {f : α → P β} {S : α → ParserOptions → Spec.Phrase β} (hp : Pur p R)
    (hf : ∀ a, Pur (f a) (S a)) : Pur (p >>= f) (fun o i r b => ∃ a j, R o i j a ∧ S a o j r b) := by
  constructor
  · intro s b s' h
    obtain ⟨a, s1, h1, h2⟩ := bind_ok.mp h
    obtain ⟨j, rfl, sj, hj⟩ := hp.ok s a s1 h1
    obtain ⟨r, rfl, sr, hr⟩ := (hf a).ok _ b s' h2
    exact ⟨r, rfl, sr.trans sj, a, j, hj, hr⟩
  · intro s s' h
    rcases bind_fail.mp h with h | ⟨a, s1, h1, h2⟩
    · exact hp.fail s s' h
    · obtain ⟨j, rfl, hj⟩ := hp.ok s a s1 h1
      obtain ⟨r, rfl⟩ := (hf a).fail _ s' h2
      exact ⟨r, rfl⟩

theorem Pur.pure (a : α) : Pur (Pure.pure a : P α) (fun _ i r b => r = i ∧ b = a) := by
  constructor
  · intro s b s' h
    rw [pure_eq] at h
    cases h
    exact ⟨_, rfl, List.suffix_refl _, rfl, rfl⟩
  · intro s s' h; cases h

theorem Pur.failure : Pur (failure : P α) (fun _ _ _ _ => False) := by
  constructor
  · intro s b s' h; cases h
  · intro s s' h; cases h; exact ⟨_, rfl⟩

theorem Pur.panicking : Pur (panicking : P α) (fun _ _ _ _ => False) := by
  constructor
  · intro s b s' h; cases h
  · intro s s' h; cases h

theorem Pur.select (f : Token → Option α) :
    Pur (select f) (fun _ i r a => ∃ t, Spec.Word t i r ∧ f t = some a) := by
  constructor
  · intro s b s' h
    obtain ⟨⟨t, x, y⟩, ts, h1, h2, rfl⟩ := select_ok.mp h
    exact ⟨ts, rfl, by rw [h1]; exact List.suffix_cons _ _, t, ⟨x, y, h1⟩, h2⟩
  · intro s s' h
    obtain ⟨rfl, _⟩ := select_fail.mp h
    exact ⟨_, rfl⟩

theorem Pur.just (t : Token) : Pur (just t) (fun _ i r _ => Spec.Word t i r) :=
  (Pur.select _).mono fun _ _ _ _ ⟨t', h, h'⟩ => by
    split at h'
    · rename_i h; subst h; assumption
    · cases h'

theorem Pur.alt {p q : P α} {S : ParserOptions → Spec.Phrase α} (hp : Pur p R) (hq : Pur q S) :
    Pur (alt p q) (fun o i r a => R o i r a ∨ S o i r a) := by
  constructor
  · intro s a s' h
    rcases alt_ok.mp h with h | ⟨s1, h1, h2⟩
    · obtain ⟨r, h, hs, h'⟩ := hp.ok s a s' h
      exact ⟨r, h, hs, .inl h'⟩
    · rw [hp.rewind h1] at h2
      obtain ⟨r, h, hs, h'⟩ := hq.ok s a s' h2
      exact ⟨r, h, hs, .inr h'⟩
  · intro s s' h
    obtain ⟨s1, h1, h2⟩ := alt_fail.mp h
    rw [hp.rewind h1] at h2
    exact hq.fail s s' h2

theorem Pur.choice {ps : List (P α)} (h : ∀ p ∈ ps, Pur p R) : Pur (choice ps) R := by
  induction ps with
  | nil => exact Pur.failure.mono fun _ _ _ _ h => h.elim
  | cons p ps ih =>
    cases ps with
    | nil => exact h p (by simp)
    | cons q qs =>
      exact (Pur.alt (h p (by simp)) (ih fun p hp => h p (by simp [hp]))).mono fun _ _ _ _ h => h.elim id id

theorem Pur.orNot {p : P α} (hp : Pur p R) : Pur (orNot p) (fun o => Spec.Maybe (R o)) := by
  constructor
  · intro s a s' h
    rcases orNot_ok.mp h with ⟨a, rfl, h'⟩ | ⟨rfl, s1, h1, rfl⟩
    · obtain ⟨r, h, hs, h'⟩ := hp.ok s a s' h'
      exact ⟨r, h, hs, h'⟩
    · exact ⟨s.toks, hp.rewind h1, List.suffix_refl _, rfl⟩
  · intro s s' h
    exact absurd h orNot_fail

theorem Pur.rep {p : P α} (hp : Pur p R) : Pur (rep p) (fun o => Spec.Many (R o)) := by
  constructor
  · intro s as s' h
    have := rep_reps h
    clear h
    induction this with
    | nil h1 => exact ⟨_, hp.rewind h1, List.suffix_refl _, .nil⟩
    | cons h1 _ ih =>
      obtain ⟨j, rfl, sj, hj⟩ := hp.ok _ _ _ h1
      obtain ⟨r, rfl, sr, hr⟩ := ih
      exact ⟨r, rfl, sr.trans sj, .cons hj hr⟩
  · intro s s' h
    exact absurd h rep_fail

theorem covers_spanOf (cfg : ParseCfg) {i r : List Ranged} (h : r <:+ i) :
    Spec.Covers cfg i r (cfg.spanOf i r) := by
  obtain ⟨run, rfl⟩ := h
  unfold ParseCfg.spanOf
  have ht : (run ++ r).take ((run ++ r).length - r.length) = run := by
    simp
  cases run with
  | nil =>
    right
    simp
  | cons f l =>
    left
    refine ⟨f, f :: l, (f :: l).getLast (by simp), rfl, rfl, List.getLast?_eq_some_getLast _, ?_⟩
    split
    · rename_i h
      rw [ht] at h
      cases h
    · rename_i f' l' h
      rw [ht] at h
      cases h
      rfl

theorem spanOf_of_covers {cfg : ParseCfg} {i r : List Ranged} {span : Span} (h : Spec.Covers cfg i r span) :
    span = cfg.spanOf i r := by
  unfold ParseCfg.spanOf
  rcases h with ⟨first, run, last, rfl, hf, hl, rfl⟩ | ⟨rfl, rfl⟩
  · have ht : (run ++ r).take ((run ++ r).length - r.length) = run := by
      simp
    split
    · rename_i h
      rw [ht] at h
      subst h
      cases hf
    · rename_i f' l' h
      rw [ht] at h
      subst h
      cases hf
      rw [List.getLast?_eq_some_getLast (by simp)] at hl
      cases hl
      rfl
  · simp

theorem Pur.spanned {cfg : ParseCfg} {p : P α} (hp : Pur p R) :
    Pur (spanned cfg p) (fun o => Spec.At cfg (R o)) := by
  constructor
  · intro s x s' h
    obtain ⟨h1, h2⟩ := spanned_ok.mp h
    obtain ⟨r, rfl, hs, h'⟩ := hp.ok s _ s' h1
    exact ⟨r, rfl, hs, h', by rw [h2]; exact covers_spanOf cfg hs⟩
  · intro s s' h
    exact hp.fail s s' (spanned_fail.mp h)

/-! ### Parsers that do not change the options -/

/-- What it means for a parser to succeed: options, tokens before and after, result and errors. -/
abbrev Rel (α : Type) := ParserOptions → List Ranged → List Ranged → α → List PErr → Prop

/-- A parser that does not change the options, with what it means to succeed. -/
structure Snd (p : P α) (R : Rel α) : Prop where
  ok : ∀ s a s', p s = .ok a s' → s'.toks <:+ s.toks ∧ s'.opts = s.opts ∧
    ∃ es, s'.errs = s.errs ++ es ∧ R s.opts s.toks s'.toks a es
  fail : ∀ s s', p s = .fail s' → s'.opts = s.opts

theorem Snd.mono {p : P α} {R R' : Rel α} (h : Snd p R) (hR : ∀ o i r a es, R o i r a es → R' o i r a es) :
    Snd p R' :=
  ⟨fun s a s' hp => let ⟨h1, h2, es, h3, h4⟩ := h.ok s a s' hp; ⟨h1, h2, es, h3, hR _ _ _ _ _ h4⟩, h.fail⟩

/-- Without errors. -/
def NoErr (R : ParserOptions → Spec.Phrase α) : Rel α := fun o i r a es => es = [] ∧ R o i r a

theorem Pur.snd {p : P α} (h : Pur p R) : Snd p (NoErr R) := by
  constructor
  · intro s a s' hp
    obtain ⟨r, rfl, h1, h2⟩ := h.ok s a s' hp
    exact ⟨h1, rfl, [], by simp, rfl, h2⟩
  · intro s s' hp
    obtain ⟨r, rfl⟩ := h.fail s s' hp
    rfl

theorem Snd.bind {p : P α} {f : α → P β} {R : Rel α} {S : α → Rel β} (hp : Snd p R) (hf : ∀ a, Snd (f a) (S a)) :
    Snd (p >>= f) (fun o i r b es => ∃ a j es1 es2, es = es1 ++ es2 ∧ R o i j a es1 ∧ S a o j r b es2) := by
  constructor
  · intro s b s' h
    obtain ⟨a, s1, h1, h2⟩ := bind_ok.mp h
    obtain ⟨t1, o1, es1, e1, r1⟩ := hp.ok s a s1 h1
    obtain ⟨t2, o2, es2, e2, r2⟩ := (hf a).ok _ b s' h2
    refine ⟨t2.trans t1, o2.trans o1, es1 ++ es2, by rw [e2, e1, List.append_assoc], a, _, es1, es2, rfl, r1, ?_⟩
    rw [← o1]
    exact r2
  · intro s s' h
    rcases bind_fail.mp h with h | ⟨a, s1, h1, h2⟩
    · exact hp.fail s s' h
    · exact ((hf a).fail _ s' h2).trans (hp.ok s a s1 h1).2.1

theorem Snd.emit (es : List PErr) : Snd (emit es) (fun _ i r _ es' => r = i ∧ es' = es) := by
  constructor
  · intro s b s' h
    rw [emit_eq] at h
    cases h
    exact ⟨List.suffix_refl _, rfl, es, rfl, rfl, rfl⟩
  · intro s s' h; cases h

theorem Snd.alt {p q : P α} {R S : Rel α} (hp : Snd p R) (hq : Snd q S) :
    Snd (alt p q) (fun o i r a es => R o i r a es ∨ S o i r a es) := by
  constructor
  · intro s a s' h
    rcases alt_ok.mp h with h | ⟨s1, h1, h2⟩
    · obtain ⟨t1, o1, es1, e1, r1⟩ := hp.ok s a s' h
      exact ⟨t1, o1, es1, e1, .inl r1⟩
    · have ho := hp.fail s s1 h1
      obtain ⟨t1, o1, es1, e1, r1⟩ := hq.ok _ a s' h2
      simp only [rewind_opts, ho] at o1 r1
      exact ⟨t1, o1, es1, e1, .inr r1⟩
  · intro s s' h
    obtain ⟨s1, h1, h2⟩ := alt_fail.mp h
    exact (hq.fail _ s' h2).trans (hp.fail s s1 h1)

theorem Snd.choice {ps : List (P α)} {R : Rel α} (h : ∀ p ∈ ps, Snd p R) : Snd (choice ps) R := by
  induction ps with
  | nil => exact Pur.failure.snd.mono fun _ _ _ _ _ h => h.2.elim
  | cons p ps ih =>
    cases ps with
    | nil => exact h p (by simp)
    | cons q qs =>
      exact (Snd.alt (h p (by simp)) (ih fun p hp => h p (by simp [hp]))).mono fun _ _ _ _ _ h => h.elim id id

theorem Snd.orNot {p : P α} {R : Rel α} (hp : Snd p R) :
    Snd (orNot p) (fun o i r x es => match x with | some a => R o i r a es | none => r = i ∧ es = []) := by
  constructor
  · intro s a s' h
    rcases orNot_ok.mp h with ⟨a, rfl, h'⟩ | ⟨rfl, s1, h1, rfl⟩
    · exact hp.ok s a s' h'
    · exact ⟨List.suffix_refl _, hp.fail s s1 h1, [], by simp, rfl, rfl⟩
  · intro s s' h
    exact absurd h orNot_fail

/-- A phrase any number of times, with all errors. -/
inductive ManyRel (R : Rel α) (o : ParserOptions) : List Ranged → List Ranged → List α → List PErr → Prop
  | nil {i : List Ranged} : ManyRel R o i i [] []
  | cons {i j r : List Ranged} {a : α} {as : List α} {es es' : List PErr} :
      R o i j a es → ManyRel R o j r as es' → ManyRel R o i r (a :: as) (es ++ es')

theorem Snd.rep {p : P α} {R : Rel α} (hp : Snd p R) : Snd (rep p) (ManyRel R) := by
  constructor
  · intro s as s' h
    have := rep_reps h
    clear h
    induction this with
    | nil h1 => exact ⟨List.suffix_refl _, (rewind_opts _ _).trans (hp.fail _ _ h1), [], by simp, .nil⟩
    | cons h1 _ ih =>
      obtain ⟨t1, o1, es1, e1, r1⟩ := hp.ok _ _ _ h1
      obtain ⟨t2, o2, es2, e2, r2⟩ := ih
      refine ⟨t2.trans t1, o2.trans o1, es1 ++ es2, by rw [e2, e1, List.append_assoc], .cons r1 ?_⟩
      rw [← o1]
      exact r2
  · intro s s' h
    exact absurd h rep_fail

theorem manyRel_noErr {R : ParserOptions → Spec.Phrase α} {o : ParserOptions} {i r : List Ranged} {as : List α}
    {es : List PErr} (h : ManyRel (NoErr R) o i r as es) : es = [] ∧ Spec.Many (R o) i r as := by
  induction h with
  | nil => exact ⟨rfl, .nil⟩
  | cons h1 _ ih =>
    obtain ⟨rfl, h1⟩ := h1
    obtain ⟨rfl, ih⟩ := ih
    exact ⟨rfl, .cons h1 ih⟩

theorem Snd.rep_noErr {p : P α} {R : ParserOptions → Spec.Phrase α} (hp : Snd p (NoErr R)) :
    Snd (P.rep p) (NoErr fun o => Spec.Many (R o)) :=
  hp.rep.mono fun _ _ _ _ _ h => manyRel_noErr h

theorem Snd.orNot_noErr {p : P α} {R : ParserOptions → Spec.Phrase α} (hp : Snd p (NoErr R)) :
    Snd (P.orNot p) (NoErr fun o => Spec.Maybe (R o)) :=
  hp.orNot.mono fun _ _ _ x _ h => by
    cases x with
    | some a => exact h
    | none => exact ⟨h.2, h.1⟩

theorem Snd.spanned {cfg : ParseCfg} {p : P α} {R : Rel α} (hp : Snd p R) :
    Snd (spanned cfg p) (fun o i r x es => R o i r x.item es ∧ Spec.Covers cfg i r x.span) := by
  constructor
  · intro s x s' h
    obtain ⟨h1, h2⟩ := spanned_ok.mp h
    obtain ⟨t1, o1, es1, e1, r1⟩ := hp.ok _ _ _ h1
    exact ⟨t1, o1, es1, e1, r1, by rw [h2]; exact covers_spanOf cfg t1⟩
  · intro s s' h
    exact hp.fail s s' (spanned_fail.mp h)

theorem Snd.spanned_noErr {cfg : ParseCfg} {p : P α} {R : ParserOptions → Spec.Phrase α} (hp : Snd p (NoErr R)) :
    Snd (P.spanned cfg p) (NoErr fun o => Spec.At cfg (R o)) :=
  hp.spanned.mono fun _ _ _ _ _ h => ⟨h.1.1, h.1.2, h.2⟩

end P

end Lima
