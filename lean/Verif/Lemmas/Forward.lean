import Verif.Lemmas.GrammarConsumes

/-! Running parsers forwards: what a parser does on given tokens. -/

namespace Lima.Grammar

open Spec P

variable {α β : Type} {cfg : ParseCfg} {o : ParserOptions}

/-! ### Tokens between two positions -/

/-- The tokens of `i` before `r`. -/
def between (i r : List Ranged) : List Ranged := i.take (i.length - r.length)

theorem between_append (run r : List Ranged) : between (run ++ r) r = run := by
  simp [between]

theorem between_self (i : List Ranged) : between i i = [] := by simp [between]

theorem between_trans {i j r : List Ranged} (h1 : j <:+ i) (h2 : r <:+ j) :
    between i r = between i j ++ between j r := by
  obtain ⟨a, rfl⟩ := h1
  obtain ⟨b, rfl⟩ := h2
  rw [← List.append_assoc, between_append, List.append_assoc, between_append, between_append]

theorem between_word {t : Token} {i r : List Ranged} (h : Word t i r) :
    ∃ x y, between i r = [⟨t, x, y⟩] ∧ i = ⟨t, x, y⟩ :: r := by
  obtain ⟨x, y, rfl⟩ := h
  exact ⟨x, y, between_append [_] r, rfl⟩

theorem word_suffix {t : Token} {i r : List Ranged} (h : Word t i r) : r <:+ i := by
  obtain ⟨x, y, rfl⟩ := h
  exact List.suffix_cons _ _

theorem word_lt {t : Token} {i r : List Ranged} (h : Word t i r) : r.length < i.length := by
  obtain ⟨x, y, rfl⟩ := h
  simp

/-- The warnings for the strings between two positions. -/
def warnsAt (cfg : ParseCfg) (o : ParserOptions) (i r : List Ranged) : List Report :=
  longStrings cfg o (between i r)

theorem warnsAt_self (i : List Ranged) : warnsAt cfg o i i = [] := by
  simp [warnsAt, between_self, longStrings]

theorem warnsAt_trans {i j r : List Ranged} (h1 : j <:+ i) (h2 : r <:+ j) :
    warnsAt cfg o i r = warnsAt cfg o i j ++ warnsAt cfg o j r := by
  simp only [warnsAt, between_trans h1 h2, longStrings, List.filterMap_append]

/-- There is no string between two positions. -/
def Plain (i r : List Ranged) : Prop := ∃ run, i = run ++ r ∧ ∀ t ∈ run, ∀ s, t.tok ≠ .stringLiteral s

theorem Plain.refl (i : List Ranged) : Plain i i := ⟨[], rfl, by simp⟩

theorem Plain.suffix {i r : List Ranged} (h : Plain i r) : r <:+ i := by
  obtain ⟨run, rfl, _⟩ := h
  exact List.suffix_append _ _

theorem Plain.trans {i j r : List Ranged} (h1 : Plain i j) (h2 : Plain j r) : Plain i r := by
  obtain ⟨a, rfl, ha⟩ := h1
  obtain ⟨b, rfl, hb⟩ := h2
  refine ⟨a ++ b, by simp, fun t ht => ?_⟩
  rcases List.mem_append.mp ht with ht | ht
  · exact ha t ht
  · exact hb t ht

theorem Plain.word {t : Token} {i r : List Ranged} (h : Word t i r) (ht : ∀ s, t ≠ .stringLiteral s) : Plain i r := by
  obtain ⟨x, y, rfl⟩ := h
  exact ⟨[⟨t, x, y⟩], rfl, by simpa using ht⟩

theorem Plain.warns {i r : List Ranged} (h : Plain i r) : warnsAt cfg o i r = [] := by
  obtain ⟨run, rfl, h⟩ := h
  rw [warnsAt, between_append, longStrings, List.filterMap_eq_nil_iff]
  rintro ⟨t, x, y⟩ ht
  have := h _ ht
  cases t <;> simp at this ⊢

/-! ### Success -/

/-- On tokens `i` the parser succeeds with `a` and errors `es`, leaving `r`. -/
def Fwd (cfg : ParseCfg) (o : ParserOptions) (p : P α) (i r : List Ranged) (a : α) (es : List PErr) : Prop :=
  r <:+ i ∧ ∀ errs warns, p ⟨i, errs, o, warns⟩ = .ok a ⟨r, errs ++ es, o, warns ++ warnsAt cfg o i r⟩

/-- On tokens `i` the parser fails without a trace. -/
def Fails (o : ParserOptions) (p : P α) (i : List Ranged) : Prop :=
  ∀ errs warns, ∃ s', p ⟨i, errs, o, warns⟩ = .fail s' ∧ s'.opts = o ∧ s'.warns = warns

theorem Fwd.pure (a : α) (i : List Ranged) : Fwd cfg o (Pure.pure a : P α) i i a [] :=
  ⟨List.suffix_refl _, fun errs warns => by rw [pure_eq, warnsAt_self]; simp⟩

theorem Fwd.bind {p : P α} {f : α → P β} {i j r : List Ranged} {a : α} {b : β} {es1 es2 : List PErr}
    (h1 : Fwd cfg o p i j a es1) (h2 : Fwd cfg o (f a) j r b es2) : Fwd cfg o (p >>= f) i r b (es1 ++ es2) :=
  ⟨h2.1.trans h1.1, fun errs warns => by
    rw [bind_of_ok (h1.2 errs warns), h2.2, warnsAt_trans h1.1 h2.1, List.append_assoc, List.append_assoc]⟩

/-- The first parser emits no errors. -/
theorem Fwd.then {p : P α} {f : α → P β} {i j r : List Ranged} {a : α} {b : β} {es : List PErr}
    (h1 : Fwd cfg o p i j a []) (h2 : Fwd cfg o (f a) j r b es) : Fwd cfg o (p >>= f) i r b es :=
  Fwd.bind h1 h2

theorem Fwd.map {p : P α} (f : α → β) {i r : List Ranged} {a : α} {es : List PErr} (h1 : Fwd cfg o p i r a es) :
    Fwd cfg o (do let a ← p; Pure.pure (f a)) i r (f a) es := by
  have := Fwd.bind (f := fun a => (Pure.pure (f a) : P β)) h1 (Fwd.pure (f a) r)
  rwa [List.append_nil] at this

theorem Fwd.emit (es : List PErr) (i : List Ranged) : Fwd cfg o (P.emit es) i i () es :=
  ⟨List.suffix_refl _, fun errs warns => by rw [emit_eq, warnsAt_self]; simp⟩

/-- A parser that only consumes tokens. -/
theorem Fwd.plain {p : P α} {i r : List Ranged} {a : α} (h : Plain i r)
    (hp : ∀ s : PSt, s.opts = o → p { s with toks := i } = .ok a { s with toks := r }) : Fwd cfg o p i r a [] :=
  ⟨h.suffix, fun errs warns => by
    have := hp ⟨i, errs, o, warns⟩ rfl
    rw [this, h.warns]
    simp⟩

theorem Fwd.select {f : Token → Option α} {t : Token} {i r : List Ranged} {a : α} (h : Word t i r)
    (ht : ∀ s, t ≠ .stringLiteral s) (hf : f t = some a) : Fwd cfg o (P.select f) i r a [] := by
  refine Fwd.plain (Plain.word h ht) fun s _ => ?_
  obtain ⟨x, y, rfl⟩ := h
  exact select_cons s hf

theorem Fwd.just {t : Token} {i r : List Ranged} (h : Word t i r) (ht : ∀ s, t ≠ .stringLiteral s) :
    Fwd cfg o (P.just t) i r () [] :=
  Fwd.select h ht (by simp)

theorem Fwd.spanned {p : P α} {i r : List Ranged} {a : α} {es : List PErr} {span : Span} (h : Fwd cfg o p i r a es)
    (hs : Covers cfg i r span) : Fwd cfg o (P.spanned cfg p) i r ⟨a, span⟩ es :=
  ⟨h.1, fun errs warns => by
    rw [spanned_of_ok (h.2 errs warns), spanOf_of_covers hs]⟩

theorem Fwd.alt_left {p q : P α} {i r : List Ranged} {a : α} {es : List PErr} (h : Fwd cfg o p i r a es) :
    Fwd cfg o (P.alt p q) i r a es :=
  ⟨h.1, fun errs warns => alt_ok.mpr (.inl (h.2 errs warns))⟩

theorem Fails.rewind {p : P α} {i : List Ranged} (h : Fails o p i) (errs : List PErr) (warns : List Report) :
    ∃ s', p ⟨i, errs, o, warns⟩ = .fail s' ∧ (⟨i, errs, o, warns⟩ : PSt).rewind s' = ⟨i, errs, o, warns⟩ := by
  obtain ⟨s', h1, h2, h3⟩ := h errs warns
  exact ⟨s', h1, by simp [PSt.rewind, h2, h3]⟩

theorem Fwd.alt_right {p q : P α} {i r : List Ranged} {a : α} {es : List PErr} (hf : Fails o p i)
    (h : Fwd cfg o q i r a es) : Fwd cfg o (P.alt p q) i r a es :=
  ⟨h.1, fun errs warns => by
    obtain ⟨s', h1, h2⟩ := hf.rewind errs warns
    exact alt_ok.mpr (.inr ⟨s', h1, by rw [h2]; exact h.2 errs warns⟩)⟩

theorem Fwd.orNot_some {p : P α} {i r : List Ranged} {a : α} {es : List PErr} (h : Fwd cfg o p i r a es) :
    Fwd cfg o (P.orNot p) i r (some a) es :=
  ⟨h.1, fun errs warns => orNot_ok.mpr (.inl ⟨a, rfl, h.2 errs warns⟩)⟩

theorem Fwd.orNot_none {p : P α} {i : List Ranged} (hf : Fails o p i) : Fwd cfg o (P.orNot p) i i none [] :=
  ⟨List.suffix_refl _, fun errs warns => by
    obtain ⟨s', h1, h2⟩ := hf.rewind errs warns
    refine orNot_ok.mpr (.inr ⟨rfl, s', h1, ?_⟩)
    rw [h2, warnsAt_self]
    simp⟩

/-- An optional phrase. -/
theorem Fwd.orNot {p : P α} {R : Phrase α} {i r : List Ranged} {x : Option α} (h : Maybe R i r x)
    (hf : x = none → Fails o p i) (hp : ∀ a, x = some a → R i r a → Fwd cfg o p i r a []) :
    Fwd cfg o (P.orNot p) i r x [] := by
  cases x with
  | none =>
    cases h
    exact Fwd.orNot_none (hf rfl)
  | some a => exact Fwd.orNot_some (hp a rfl h)

theorem Fwd.rep_nil {p : P α} {i : List Ranged} (hf : Fails o p i) : Fwd cfg o (P.rep p) i i [] [] :=
  ⟨List.suffix_refl _, fun errs warns => by
    obtain ⟨s', h1, h2⟩ := hf.rewind errs warns
    rw [P.rep_nil h1, h2, warnsAt_self]
    simp⟩

theorem Fwd.rep_cons {p : P α} (hc : Consumes p) {i j r : List Ranged} {a : α} {as : List α} {es1 es2 : List PErr}
    (h1 : Fwd cfg o p i j a es1) (h2 : Fwd cfg o (P.rep p) j r as es2) :
    Fwd cfg o (P.rep p) i r (a :: as) (es1 ++ es2) :=
  ⟨h2.1.trans h1.1, fun errs warns => by
    rw [P.rep_cons hc (h1.2 errs warns) (h2.2 _ _), warnsAt_trans h1.1 h2.1, List.append_assoc, List.append_assoc]⟩

/-! ### Failure -/

theorem Fails.bind_left {p : P α} {f : α → P β} {i : List Ranged} (h : Fails o p i) : Fails o (p >>= f) i :=
  fun errs warns => by
    obtain ⟨s', h1, h2⟩ := h errs warns
    exact ⟨s', bind_fail.mpr (.inl h1), h2⟩

theorem Fails.bind_right {p : P α} {f : α → P β} {i j : List Ranged} {a : α} (h1 : Fwd cfg o p i j a [])
    (hp : Plain i j) (h2 : Fails o (f a) j) : Fails o (p >>= f) i :=
  fun errs warns => by
    have h := h1.2 errs warns
    rw [hp.warns] at h
    simp only [List.append_nil] at h
    obtain ⟨s', h3, h4⟩ := h2 errs warns
    exact ⟨s', bind_fail.mpr (.inr ⟨a, _, h, h3⟩), h4⟩

theorem Fails.spanned {p : P α} {i : List Ranged} (h : Fails o p i) : Fails o (P.spanned cfg p) i :=
  fun errs warns => by
    obtain ⟨s', h1, h2⟩ := h errs warns
    exact ⟨s', spanned_fail.mpr h1, h2⟩

theorem Fails.alt {p q : P α} {i : List Ranged} (h1 : Fails o p i) (h2 : Fails o q i) : Fails o (P.alt p q) i :=
  fun errs warns => by
    obtain ⟨s1, h3, h4⟩ := h1.rewind errs warns
    obtain ⟨s2, h5, h6⟩ := h2 errs warns
    exact ⟨s2, alt_fail.mpr ⟨s1, h3, by rw [h4]; exact h5⟩, h6⟩

theorem Fails.choice {ps : List (P α)} {i : List Ranged} (h : ∀ p ∈ ps, Fails o p i) : Fails o (P.choice ps) i := by
  induction ps with
  | nil => exact fun errs warns => ⟨_, rfl, rfl, rfl⟩
  | cons p ps ih =>
    cases ps with
    | nil => exact h p (by simp)
    | cons q qs => exact Fails.alt (h p (by simp)) (ih fun p hp => h p (by simp [hp]))

/-- The first alternatives fail, and the next succeeds. -/
theorem Fwd.choice {ps qs : List (P α)} {p : P α} {i r : List Ranged} {a : α} {es : List PErr}
    (hf : ∀ p ∈ ps, Fails o p i) (h : Fwd cfg o p i r a es) : Fwd cfg o (P.choice (ps ++ p :: qs)) i r a es := by
  induction ps with
  | nil =>
    cases qs with
    | nil => exact h
    | cons q qs => exact Fwd.alt_left h
  | cons q ps ih =>
    have : P.choice (q :: ps ++ p :: qs) = P.alt q (P.choice (ps ++ p :: qs)) := by
      cases ps <;> rfl
    rw [this]
    exact Fwd.alt_right (hf q (by simp)) (ih fun p hp => hf p (by simp [hp]))

/-! ### The first token -/

/-- If there is a token, the first one is as said. -/
def Head (i : List Ranged) (C : Token → Prop) : Prop := ∀ x, i.head? = some x → C x.tok

/-- There is a first token, as said. -/
def Starts (i : List Ranged) (C : Token → Prop) : Prop := ∃ x r, i = x :: r ∧ C x.tok

theorem Starts.head {i : List Ranged} {C : Token → Prop} (h : Starts i C) : Head i C := by
  obtain ⟨x, r, rfl, h⟩ := h
  intro y hy
  cases hy
  exact h

theorem Head.mono {i : List Ranged} {C D : Token → Prop} (h : Head i C) (hCD : ∀ t, C t → D t) : Head i D :=
  fun x hx => hCD _ (h x hx)

theorem Starts.mono {i : List Ranged} {C D : Token → Prop} (h : Starts i C) (hCD : ∀ t, C t → D t) : Starts i D := by
  obtain ⟨x, r, h1, h2⟩ := h
  exact ⟨x, r, h1, hCD _ h2⟩

theorem starts_word {t : Token} {i r : List Ranged} (h : Word t i r) {C : Token → Prop} (hC : C t) : Starts i C := by
  obtain ⟨x, y, rfl⟩ := h
  exact ⟨_, _, rfl, hC⟩

theorem head_lineEnd {i r : List Ranged} (h : EndOfLine i r) : Head i (· = .eol) := by
  rcases h with h | ⟨rfl, _⟩
  · exact (starts_word (C := (· = .eol)) h rfl).head
  · intro x hx; cases hx

theorem head_maybe {R : Phrase α} {i r : List Ranged} {x : Option α} {C D : Token → Prop} (h : Maybe R i r x)
    (hR : ∀ a, R i r a → Starts i C) (hr : Head r D) : Head i (fun t => C t ∨ D t) := by
  cases x with
  | none =>
    cases h
    exact hr.mono fun _ => .inr
  | some a => exact ((hR a h).mono fun _ => .inl).head

theorem head_many {R : Phrase α} {i r : List Ranged} {xs : List α} {C D : Token → Prop} (h : Many R i r xs)
    (hR : ∀ i r a, R i r a → Starts i C) (hr : Head r D) : Head i (fun t => C t ∨ D t) := by
  cases h with
  | nil => exact hr.mono fun _ => .inr
  | cons h _ => exact ((hR _ _ _ h).mono fun _ => .inl).head

theorem Fails.select {f : Token → Option α} {i : List Ranged} (h : Head i (fun t => f t = none)) :
    Fails o (P.select f) i := fun errs warns => by
  refine ⟨⟨i, errs, o, warns⟩, ?_, rfl, rfl⟩
  cases i with
  | nil => rfl
  | cons x r =>
    have := h x rfl
    simp only [P.select, this]

theorem Fails.just {t : Token} {i : List Ranged} (h : Head i (fun t' => t' ≠ t)) : Fails o (P.just t) i :=
  Fails.select (h.mono fun _ h => if_neg h)

end Lima.Grammar
