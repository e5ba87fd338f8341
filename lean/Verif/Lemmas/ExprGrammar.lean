import Verif.Lemmas.Parser

/-! The parser of expressions and their grammar. -/

namespace Lima.Grammar

open Spec P

/-! ### The bound is never reached -/

/-- The effect of a sign. -/
def withSign (sign : Option Bool) (y : Expr) : Expr :=
  match sign with
  | some true => .neg y
  | _ => y

theorem consumes_mulOp : Consumes mulOp := by
  refine Consumes.choice fun p hp => ?_
  simp only [List.mem_cons, List.not_mem_nil, or_false] at hp
  rcases hp with rfl | rfl <;> exact (Consumes.just _).bind fun _ => Shrinks.pure _

theorem consumes_addOp : Consumes addOp := by
  refine Consumes.choice fun p hp => ?_
  simp only [List.mem_cons, List.not_mem_nil, or_false] at hp
  rcases hp with rfl | rfl <;> exact (Consumes.just _).bind fun _ => Shrinks.pure _

theorem shrinks_sign : Shrinks (P.orNot (P.choice [(do P.just .minus; pure true), (do P.just .plus; pure false)])) := by
  refine Shrinks.orNot (Consumes.shrinks (Consumes.choice fun p hp => ?_))
  simp only [List.mem_cons, List.not_mem_nil, or_false] at hp
  rcases hp with rfl | rfl <;> exact (Consumes.just _).bind fun _ => Shrinks.pure _

theorem consumes_factor {e : P Expr} (he : Shrinks e) : Consumes (factor e) := by
  unfold factor
  refine Consumes.bind_right shrinks_sign fun sign => Consumes.bind ?_ fun x => ?_
  · exact Consumes.alt (Consumes.select _) ((Consumes.just _).bind fun _ => he.bind fun _ =>
      (Consumes.just _).shrinks.bind fun _ => Shrinks.pure _)
  · split <;> exact Shrinks.pure _

theorem consumes_tail {p : P Expr} {op : P (Expr → Expr → Expr)} (hp : Shrinks p) (ho : Consumes op) :
    Consumes (do let op ← op; let r ← p; pure (op, r)) :=
  ho.bind fun _ => hp.bind fun _ => Shrinks.pure _

theorem consumes_chain {p : P Expr} {op : P (Expr → Expr → Expr)} (hp : Consumes p) (ho : Consumes op) :
    Consumes (chain p op) := by
  unfold chain
  exact hp.bind fun _ => ((consumes_tail hp.shrinks ho).shrinks.rep).bind fun _ => Shrinks.pure _

theorem consumes_exprFuel (n : Nat) : Consumes (exprFuel n) := by
  induction n with
  | zero => exact Consumes.panicking
  | succ n ih =>
    exact consumes_chain (consumes_chain (consumes_factor ih.shrinks) consumes_mulOp) consumes_addOp

theorem consumes_expr : Consumes expr := fun s a s' h => consumes_exprFuel _ s a s' h

/-- Two parsers agree on inputs shorter than the bound. -/
def Agree {α : Type} (k : Nat) (p q : P α) : Prop := ∀ s : PSt, s.toks.length < k → p s = q s

theorem Agree.bind {α β : Type} {k : Nat} {p q : P α} {f g : α → P β} (h : Agree k p q) (hs : Shrinks p)
    (hf : ∀ a, Agree k (f a) (g a)) : Agree k (p >>= f) (q >>= g) := by
  intro s hk
  rw [bind_eq, bind_eq, ← h s hk]
  cases hp : p s with
  | ok a s' => exact hf a s' (Nat.lt_of_le_of_lt (hs s a s' hp).length_le hk)
  | fail s' => rfl
  | panic => rfl

theorem Agree.refl {α : Type} (k : Nat) (p : P α) : Agree k p p := fun _ _ => rfl

theorem Agree.rep {α : Type} {k : Nat} {p q : P α} (h : Agree k p q) (hs : Consumes p) :
    Agree k (P.rep p) (P.rep q) := by
  have key : ∀ n (s : PSt), s.toks.length < k → P.repFuel p n s = P.repFuel q n s := by
    intro n
    induction n with
    | zero => intro s _; rfl
    | succ n ih =>
      intro s hk
      simp only [repFuel]
      rw [← h s hk]
      cases hp : p s with
      | ok a s' =>
        simp only
        rw [ih s' (Nat.lt_trans (hs.lt hp) hk)]
      | fail s' => rfl
      | panic => rfl
  exact fun s hk => key _ s hk

theorem agree_factor {k : Nat} {p q : P Expr} (h : Agree k p q) : Agree (k + 1) (factor p) (factor q) := by
  unfold factor
  refine Agree.bind (Agree.refl _ _) shrinks_sign fun sign => ?_
  intro s hk
  rw [bind_eq, bind_eq]
  have : P.alt number (do P.just .lparen; let e ← p; P.just .rparen; pure (.paren e)) s =
      P.alt number (do P.just .lparen; let e ← q; P.just .rparen; pure (.paren e)) s := by
    unfold P.alt
    cases hn : number s with
    | ok a s' => rfl
    | fail s' =>
      obtain ⟨rfl, _⟩ := select_fail.mp hn
      simp only [rewind_self]
      rw [bind_eq, bind_eq]
      cases hl : P.just Token.lparen s' with
      | ok u s1 =>
        have hlt := (Consumes.just _).lt hl
        simp only
        rw [bind_eq, bind_eq, h s1 (by omega)]
      | fail s1 => rfl
      | panic => rfl
    | panic => rfl
  rw [this]

theorem agree_chain {k : Nat} {p q : P Expr} {op : P (Expr → Expr → Expr)} (h : Agree k p q)
    (hp : Consumes p) (ho : Consumes op) : Agree k (chain p op) (chain q op) := by
  unfold chain
  refine h.bind hp.shrinks fun a => Agree.bind (Agree.rep ?_ (consumes_tail hp.shrinks ho)) ?_ fun _ => Agree.refl _ _
  · exact Agree.bind (Agree.refl _ _) ho.shrinks fun _ => h.bind hp.shrinks fun _ => Agree.refl _ _
  · exact (consumes_tail hp.shrinks ho).shrinks.rep

theorem agree_exprFuel (k : Nat) : ∀ n m, k ≤ n → k ≤ m → Agree k (exprFuel n) (exprFuel m) := by
  induction k with
  | zero => intro n m _ _ s h; omega
  | succ k ih =>
    intro n m hn hm
    cases n with
    | zero => omega
    | succ n =>
      cases m with
      | zero => omega
      | succ m =>
        have h := agree_factor (ih n m (by omega) (by omega))
        have hc := consumes_factor (consumes_exprFuel n).shrinks
        exact agree_chain (agree_chain h hc consumes_mulOp) (consumes_chain hc consumes_mulOp) consumes_addOp

/-- `expr` is a solution of its recursive equation. -/
theorem expr_eq (s : PSt) : expr s = chain (chain (factor expr) mulOp) addOp s := by
  have h : Agree s.toks.length (exprFuel s.toks.length) expr := by
    intro t ht
    exact agree_exprFuel (t.toks.length + 1) _ _ (by omega) (by omega) t (by omega)
  have h1 := agree_factor h
  have hc := consumes_factor (consumes_exprFuel s.toks.length).shrinks
  exact agree_chain (agree_chain h1 hc consumes_mulOp) (consumes_chain hc consumes_mulOp) consumes_addOp s
    (by omega)

theorem closed_lt (k : Nat) : Closed (fun l => l.length < k) :=
  fun _ _ h h' => Nat.lt_of_le_of_lt h.length_le h'

theorem safe_sign {T} : Safe T (P.orNot (P.choice [(do P.just .minus; pure true), (do P.just .plus; pure false)])) := by
  refine Safe.orNot (Safe.choice fun p hp => ?_)
  simp only [List.mem_cons, List.not_mem_nil, or_false] at hp
  rcases hp with rfl | rfl <;>
  · intro s _ h
    rcases bind_panic.mp h with h | ⟨_, _, _, h⟩
    · exact just_panic h
    · cases h

theorem safe_op {T} {t u : Token} {f g : Expr → Expr → Expr} :
    Safe T (P.choice [(do P.just t; pure f), (do P.just u; pure g)]) := by
  refine Safe.choice fun p hp => ?_
  simp only [List.mem_cons, List.not_mem_nil, or_false] at hp
  rcases hp with rfl | rfl <;>
  · intro s _ h
    rcases bind_panic.mp h with h | ⟨_, _, _, h⟩
    · exact just_panic h
    · cases h

theorem safe_factor {k : Nat} {e : P Expr} (h : Safe (fun l => l.length < k) e) :
    Safe (fun l => l.length < k + 1) (factor e) := by
  unfold factor
  refine Safe.bind (closed_lt _) shrinks_sign safe_sign fun sign => ?_
  intro s hk hb
  rcases bind_panic.mp hb with hb | ⟨x, s1, _, hb⟩
  · rcases alt_panic.mp hb with hb | ⟨s1, hn, hb⟩
    · exact select_panic hb
    · rcases bind_panic.mp hb with hb | ⟨u, s2, h2, hb⟩
      · exact just_panic hb
      · have hlt := (Consumes.just _).lt h2
        simp only [rewind_toks] at hlt
        rcases bind_panic.mp hb with hb | ⟨x, s3, h3, hb⟩
        · exact h s2 (by simp only; omega) hb
        · rcases bind_panic.mp hb with hb | ⟨_, _, _, hb⟩
          · exact just_panic hb
          · cases hb
  · split at hb <;> cases hb

theorem safe_chain {k : Nat} {p : P Expr} {op : P (Expr → Expr → Expr)} (hp : Consumes p) (ho : Consumes op)
    (h : Safe (fun l => l.length < k) p) (hop : Safe (fun l => l.length < k) op) :
    Safe (fun l => l.length < k) (chain p op) := by
  unfold chain
  refine h.bind (closed_lt _) hp.shrinks fun a => Safe.bind (closed_lt _) ?_ (Safe.rep (closed_lt _) ?_ ?_) fun _ => Safe.pure _
  · exact (consumes_tail hp.shrinks ho).shrinks.rep
  · exact consumes_tail hp.shrinks ho
  · exact hop.bind (closed_lt _) ho.shrinks fun _ => h.bind (closed_lt _) hp.shrinks fun _ => Safe.pure _

theorem safe_exprFuel (n : Nat) : Safe (fun l => l.length < n) (exprFuel n) := by
  induction n with
  | zero => intro s h; omega
  | succ n ih =>
    have hc := consumes_factor (consumes_exprFuel n).shrinks
    exact safe_chain (consumes_chain hc consumes_mulOp) consumes_addOp
      (safe_chain hc consumes_mulOp (safe_factor ih) safe_op) safe_op

/-- The parser of expressions does not panic. -/
theorem expr_no_panic (s : PSt) : expr s ≠ .panic := safe_exprFuel _ s (Nat.lt_succ_self _)

/-! ### Soundness -/

theorem pur_factor {e : P Expr} {R : Phrase Expr} (h : Pur e fun _ => R) :
    Pur (factor e) fun _ i r x => ∃ sign j y,
      ((sign = some true ∧ Word .minus i j) ∨ (sign = some false ∧ Word .plus i j) ∨ (sign = none ∧ j = i)) ∧
      ((∃ d, Word (.number d) j r ∧ y = .value d) ∨
        ∃ k l z, Word .lparen j k ∧ R k l z ∧ Word .rparen l r ∧ y = .paren z) ∧
      x = withSign sign y := by
  unfold factor
  have h1 : Pur (P.choice [(do P.just .minus; pure true), (do P.just .plus; pure false)])
      fun _ i r b => (b = true ∧ Word .minus i r) ∨ (b = false ∧ Word .plus i r) := by
    refine Pur.choice fun p hp => ?_
    simp only [List.mem_cons, List.not_mem_nil, or_false] at hp
    rcases hp with rfl | rfl
    · refine ((Pur.just _).bind fun _ => Pur.pure _).mono ?_
      rintro _ i r a ⟨_, j, hw, rfl, rfl⟩
      exact .inl ⟨rfl, hw⟩
    · refine ((Pur.just _).bind fun _ => Pur.pure _).mono ?_
      rintro _ i r a ⟨_, j, hw, rfl, rfl⟩
      exact .inr ⟨rfl, hw⟩
  have h2 : Pur (P.alt number (do P.just .lparen; let e ← e; P.just .rparen; pure (.paren e)))
      fun _ j r y => (∃ d, Word (.number d) j r ∧ y = .value d) ∨
        ∃ k l z, Word .lparen j k ∧ R k l z ∧ Word .rparen l r ∧ y = .paren z := by
    refine (Pur.alt (Pur.select _) ((Pur.just _).bind fun _ => h.bind fun _ => (Pur.just _).bind fun _ =>
      Pur.pure _)).mono ?_
    rintro _ i r a (⟨t, hw, ht⟩ | ⟨_, j, h1, z, k, h2, _, l, h3, rfl, rfl⟩)
    · split at ht
      · cases ht; exact .inl ⟨_, hw, rfl⟩
      · cases ht
    · exact .inr ⟨_, _, _, h1, h2, h3, rfl⟩
  refine (h1.orNot.bind fun sign => h2.bind (S := fun y _ i r x => r = i ∧
    x = withSign sign y) fun y => ?_).mono ?_
  · unfold withSign
    match sign with
    | some true => exact Pur.pure _
    | some false => exact Pur.pure _
    | none => exact Pur.pure _
  · rintro _ i r x ⟨sign, j, hs, y, k, hy, rfl, hx⟩
    refine ⟨sign, j, y, ?_, hy, hx⟩
    match sign, hs with
    | some _, .inl ⟨rfl, hb⟩ => exact .inl ⟨rfl, hb⟩
    | some _, .inr ⟨rfl, hb⟩ => exact .inr (.inl ⟨rfl, hb⟩)
    | none, hs => exact .inr (.inr ⟨rfl, hs⟩)

theorem pur_op (t u : Token) (f g : Expr → Expr → Expr) :
    Pur (P.choice [(do P.just t; pure f), (do P.just u; pure g)])
      fun _ i r h => (h = f ∧ Word t i r) ∨ (h = g ∧ Word u i r) := by
  refine Pur.choice fun p hp => ?_
  simp only [List.mem_cons, List.not_mem_nil, or_false] at hp
  rcases hp with rfl | rfl
  · refine ((Pur.just _).bind fun _ => Pur.pure _).mono ?_
    rintro _ i r a ⟨_, j, hw, rfl, rfl⟩
    exact .inl ⟨rfl, hw⟩
  · refine ((Pur.just _).bind fun _ => Pur.pure _).mono ?_
    rintro _ i r a ⟨_, j, hw, rfl, rfl⟩
    exact .inr ⟨rfl, hw⟩

theorem pur_chain {p : P Expr} {t u : Token} {f g : Expr → Expr → Expr} {R S : Phrase Expr}
    (h : Pur p fun _ => R) (single : ∀ i r e, R i r e → S i r e)
    (first : ∀ i j k r a b, S i j a → Word t j k → R k r b → S i r (f a b))
    (second : ∀ i j k r a b, S i j a → Word u j k → R k r b → S i r (g a b)) :
    Pur (chain p (P.choice [(do P.just t; pure f), (do P.just u; pure g)])) fun _ => S := by
  unfold chain
  refine (h.bind fun a => (Pur.rep ((pur_op t u f g).bind fun op => h.bind fun _ => Pur.pure _)).bind
    fun _ => Pur.pure _).mono ?_
  rintro o i r x ⟨a, j, ha, l, k, hl, rfl, rfl⟩
  replace ha := single _ _ _ ha
  induction hl generalizing a with
  | nil => exact ha
  | cons hb _ ih =>
    obtain ⟨op, j, hop, b, k, hb, rfl, rfl⟩ := hb
    simp only [List.foldl_cons]
    apply ih
    rcases hop with ⟨rfl, hop⟩ | ⟨rfl, hop⟩
    · exact first _ _ _ _ _ _ ha hop hb
    · exact second _ _ _ _ _ _ ha hop hb

theorem signed_of {i r : List Ranged} {x : Expr} (h : ∃ sign j y,
      ((sign = some true ∧ Word .minus i j) ∨ (sign = some false ∧ Word .plus i j) ∨ (sign = none ∧ j = i)) ∧
      ((∃ d, Word (.number d) j r ∧ y = .value d) ∨
        ∃ k l z, Word .lparen j k ∧ SumExpr k l z ∧ Word .rparen l r ∧ y = .paren z) ∧
      x = withSign sign y) : Signed i r x := by
  obtain ⟨sign, j, y, hs, hy, rfl⟩ := h
  have hf : Factor j r y := by
    rcases hy with ⟨d, hd, rfl⟩ | ⟨k, l, z, h1, h2, h3, rfl⟩
    · exact .number hd
    · exact .parens h1 h2 h3
  rcases hs with ⟨rfl, hs⟩ | ⟨rfl, hs⟩ | ⟨rfl, rfl⟩
  · exact .minus hs hf
  · exact .plus hs hf
  · exact .unsigned hf

theorem pur_factor_fuel (n : Nat) (ih : Pur (exprFuel n) fun _ => SumExpr) :
    Pur (factor (exprFuel n)) fun _ => Signed :=
  (pur_factor ih).mono fun _ _ _ _ h => signed_of h

theorem pur_exprFuel (n : Nat) : Pur (exprFuel n) fun _ => SumExpr := by
  induction n with
  | zero => exact Pur.panicking.mono fun _ _ _ _ h => h.elim
  | succ n ih =>
    exact pur_chain (pur_chain (pur_factor_fuel n ih) (fun _ _ _ => .single) (fun _ _ _ _ _ _ => .times)
      (fun _ _ _ _ _ _ => .over)) (fun _ _ _ => .single) (fun _ _ _ _ _ _ => .plus) (fun _ _ _ _ _ _ => .minus)

theorem pur_expr_sum : Pur expr fun _ => SumExpr :=
  ⟨fun s a s' h => (pur_exprFuel _).ok s a s' h, fun s s' h => (pur_exprFuel _).fail s s' h⟩

theorem pur_factor_expr : Pur (factor expr) fun _ => Signed :=
  (pur_factor pur_expr_sum).mono fun _ _ _ _ h => signed_of h

theorem pur_product : Pur (chain (factor expr) mulOp) fun _ => Product :=
  pur_chain pur_factor_expr (fun _ _ _ => .single) (fun _ _ _ _ _ _ => .times) (fun _ _ _ _ _ _ => .over)

/-! ### Completeness -/

theorem select_cons {α : Type} {f : Token → Option α} {t : Ranged} {ts : List Ranged} {a : α} (s : PSt)
    (h : f t.tok = some a) : P.select f { s with toks := t :: ts } = .ok a { s with toks := ts } := by
  simp only [P.select, h]

theorem just_word {t : Token} {i r : List Ranged} (s : PSt) (h : Word t i r) :
    P.just t { s with toks := i } = .ok () { s with toks := r } := by
  obtain ⟨x, y, rfl⟩ := h
  exact select_cons s (by simp)

theorem just_not {t : Token} {i : List Ranged} (s : PSt) (h : ∀ r, ¬ Word t i r) :
    P.just t { s with toks := i } = .fail { s with toks := i } := by
  refine just_fail.mpr ⟨rfl, ?_⟩
  rintro ⟨t', x, y⟩ ts h1 rfl
  exact h ts ⟨x, y, h1⟩

theorem word_ne {t u : Token} {i r : List Ranged} (h : Word t i r) (hne : t ≠ u) : ∀ r', ¬ Word u i r' := by
  rintro r' ⟨x, y, h'⟩
  obtain ⟨x', y', rfl⟩ := h
  cases h'
  exact hne rfl

theorem op_first {t u : Token} {f g : Expr → Expr → Expr} {i r : List Ranged} (s : PSt) (h : Word t i r) :
    P.choice [(do P.just t; pure f), (do P.just u; pure g)] { s with toks := i } = .ok f { s with toks := r } := by
  refine alt_ok.mpr (.inl ?_)
  rw [bind_eq, just_word s h]
  rfl

theorem op_second {t u : Token} {f g : Expr → Expr → Expr} {i r : List Ranged} (s : PSt) (h : Word u i r)
    (hne : u ≠ t) :
    P.choice [(do P.just t; pure f), (do P.just u; pure g)] { s with toks := i } = .ok g { s with toks := r } := by
  refine alt_ok.mpr (.inr ⟨_, bind_fail.mpr (.inl (just_not s (word_ne h hne))), ?_⟩)
  change (do P.just u; pure g) _ = _
  rw [rewind_self, bind_eq, just_word s h]
  rfl

theorem factor_of {s : PSt} {i j r : List Ranged} {sign : Option Bool} {y : Expr}
    (h1 : P.orNot (P.choice [(do P.just .minus; pure true), (do P.just .plus; pure false)]) { s with toks := i } =
      .ok sign { s with toks := j })
    (h2 : P.alt number (do P.just .lparen; let e ← expr; P.just .rparen; pure (.paren e)) { s with toks := j } =
      .ok y { s with toks := r }) :
    factor expr { s with toks := i } =   .ok (withSign sign y) { s with toks := r } := by
  unfold factor
  rw [bind_of_ok h1, bind_of_ok h2]
  match sign with
  | some true => rfl
  | some false => rfl
  | none => rfl

/-- The operand and operators that a chain repeats. -/
abbrev tail (p : P Expr) (op : P (Expr → Expr → Expr)) : P ((Expr → Expr → Expr) × Expr) := do
  let op ← op; let r ← p; pure (op, r)

theorem tail_of {p : P Expr} {op : P (Expr → Expr → Expr)} {s s1 s2 : PSt} {f : Expr → Expr → Expr} {e : Expr}
    (h1 : op s = .ok f s1) (h2 : p s1 = .ok e s2) : tail p op s = .ok (f, e) s2 := by
  rw [tail, bind_of_ok h1, bind_of_ok h2]
  rfl

theorem chain_of {p : P Expr} {op : P (Expr → Expr → Expr)} {s s1 s2 : PSt} {e : Expr}
    {l : List ((Expr → Expr → Expr) × Expr)} (h1 : p s = .ok e s1) (h2 : P.rep (tail p op) s1 = .ok l s2) :
    chain p op s = .ok (l.foldl (fun l r => r.1 l r.2) e) s2 := by
  rw [chain, bind_of_ok h1, bind_of_ok h2]
  rfl

/-- The first token of a factor. -/
theorem factor_head {i r : List Ranged} {e : Expr} (h : Factor i r e) :
    ∃ t j, Word t i j ∧ ((∃ d, t = .number d) ∨ t = .lparen) := by
  cases h with
  | number h => exact ⟨_, _, h, .inl ⟨_, rfl⟩⟩
  | parens h _ _ => exact ⟨_, _, h, .inr rfl⟩

theorem sign_none {s : PSt} {i j : List Ranged} {t : Token} (h : Word t i j) (h1 : t ≠ .minus) (h2 : t ≠ .plus) :
    P.orNot (P.choice [(do P.just .minus; pure true), (do P.just .plus; pure false)]) { s with toks := i } =
      .ok none { s with toks := i } := by
  refine orNot_ok.mpr (.inr ⟨rfl, { s with toks := i }, alt_fail.mpr ⟨{ s with toks := i }, ?_, ?_⟩, rfl⟩)
  · exact bind_fail.mpr (.inl (just_not s (word_ne h h1)))
  · exact bind_fail.mpr (.inl (just_not s (word_ne h h2)))

/-- Multiplication or division goes on. -/
def MulContinues (r : List Ranged) : Prop :=
  ∃ t j k e, (t = .asterisk ∨ t = .slash) ∧ Word t r j ∧ Signed j k e

theorem MulContinues.continues {r : List Ranged} (h : MulContinues r) : Continues r := by
  obtain ⟨t, j, k, e, ht, h⟩ := h
  exact ⟨t, j, k, e, by rcases ht with rfl | rfl <;> simp, h⟩

theorem safe_factor_expr (s : PSt) : factor expr s ≠ .panic :=
  safe_factor (k := s.toks.length + 1) (fun s _ => expr_no_panic s) s (by simp only; omega)

theorem safe_product (s : PSt) : chain (factor expr) mulOp s ≠ .panic :=
  safe_chain (k := s.toks.length + 1) (consumes_factor consumes_expr.shrinks) consumes_mulOp
    (fun s _ => safe_factor_expr s) safe_op s (by simp only; omega)

theorem rep_nil_of {α : Type} {R : ParserOptions → Phrase α} {p : P α} {s : PSt} (hp : Pur p R) (hs : p s ≠ .panic)
    (h : ∀ r a, ¬ R s.opts s.toks r a) : P.rep p s = .ok [] s := by
  cases hps : p s with
  | ok a s' =>
    obtain ⟨r, _, _, hr⟩ := hp.ok s a s' hps
    exact absurd hr (h r a)
  | fail s' =>
    rw [rep_nil hps, hp.rewind hps]
  | panic => exact absurd hps hs

theorem mul_rep_nil {s : PSt} {r : List Ranged} (h : ¬ MulContinues r) :
    P.rep (tail (factor expr) mulOp) { s with toks := r } = .ok [] { s with toks := r } := by
  refine rep_nil_of ((pur_op _ _ _ _).bind fun _ => pur_factor_expr.bind fun _ => Pur.pure _) ?_ ?_
  · intro h
    rcases bind_panic.mp h with h | ⟨_, _, _, h⟩
    · exact safe_op (T := fun _ => True) _ trivial h
    · rcases bind_panic.mp h with h | ⟨_, _, _, h⟩
      · exact safe_factor_expr _ h
      · cases h
  · rintro r' a ⟨op, j, hop, b, k, hb, rfl, rfl⟩
    rcases hop with ⟨rfl, hop⟩ | ⟨rfl, hop⟩
    · exact h ⟨_, _, _, _, .inl rfl, hop, hb⟩
    · exact h ⟨_, _, _, _, .inr rfl, hop, hb⟩

theorem product_signed {i r : List Ranged} {e : Expr} : Product i r e → ∃ k e, Signed i k e
  | .single h => ⟨_, _, h⟩
  | .times h _ _ => product_signed h
  | .over h _ _ => product_signed h

theorem sum_product {i r : List Ranged} {e : Expr} : SumExpr i r e → ∃ k e, Product i k e
  | .single h => ⟨_, _, h⟩
  | .plus h _ _ => sum_product h
  | .minus h _ _ => sum_product h

theorem add_rep_nil {s : PSt} {r : List Ranged} (h : ¬ Continues r) :
    P.rep (tail (chain (factor expr) mulOp) addOp) { s with toks := r } = .ok [] { s with toks := r } := by
  refine rep_nil_of ((pur_op _ _ _ _).bind fun _ => pur_product.bind fun _ => Pur.pure _) ?_ ?_
  · intro h
    rcases bind_panic.mp h with h | ⟨_, _, _, h⟩
    · exact safe_op (T := fun _ => True) _ trivial h
    · rcases bind_panic.mp h with h | ⟨_, _, _, h⟩
      · exact safe_product _ h
      · cases h
  · rintro r' a ⟨op, j, hop, b, k, hb, rfl, rfl⟩
    obtain ⟨k', e', hs⟩ := product_signed hb
    rcases hop with ⟨rfl, hop⟩ | ⟨rfl, hop⟩
    · exact h ⟨_, _, _, _, .inl rfl, hop, hs⟩
    · exact h ⟨_, _, _, _, .inr (.inl rfl), hop, hs⟩

theorem not_mulContinues {t : Token} {i j : List Ranged} (h : Word t i j) (h1 : t ≠ .asterisk) (h2 : t ≠ .slash) :
    ¬ MulContinues i := by
  rintro ⟨u, k, l, e, hu, hw, _⟩
  rcases hu with rfl | rfl
  · exact word_ne h h1 _ hw
  · exact word_ne h h2 _ hw

mutual

theorem factor_complete {i r : List Ranged} {e : Expr} (s : PSt) : Factor i r e →
    P.alt number (do P.just .lparen; let e ← expr; P.just .rparen; pure (.paren e)) { s with toks := i } =
      .ok e { s with toks := r }
  | .number h => by
    obtain ⟨x, y, rfl⟩ := h
    exact alt_ok.mpr (.inl (select_cons s rfl))
  | .parens (k := k) h1 h2 h3 => by
    obtain ⟨x, y, rfl⟩ := h1
    refine alt_ok.mpr (.inr ⟨_, select_fail.mpr ⟨rfl, ?_⟩, ?_⟩)
    · rintro t ts h
      cases h
      rfl
    · rw [rewind_self, bind_of_ok (just_word s ⟨x, y, rfl⟩)]
      have hc : ¬ Continues k := by
        rintro ⟨t, j, k', e, ht, hw, _⟩
        exact word_ne h3 (by rcases ht with rfl | rfl | rfl | rfl <;> simp) _ hw
      have h2' := sum_complete s h2 (fun h => hc h.continues) _ _ (add_rep_nil hc)
      rw [← expr_eq] at h2'
      rw [bind_of_ok h2', bind_of_ok (just_word s h3)]
      rfl

theorem signed_complete {i r : List Ranged} {e : Expr} (s : PSt) : Signed i r e →
    factor expr { s with toks := i } = .ok e { s with toks := r }
  | .unsigned h => by
    obtain ⟨t, j, hw, ht⟩ := factor_head h
    refine factor_of (sign := none) (sign_none hw ?_ ?_) (factor_complete s h) <;>
      rcases ht with ⟨d, rfl⟩ | rfl <;> simp
  | .plus h1 h2 => by
    refine factor_of (sign := some false) (orNot_ok.mpr (.inl ⟨_, rfl, alt_ok.mpr (.inr ⟨{ s with toks := i }, ?_, ?_⟩)⟩))
      (factor_complete s h2)
    · exact bind_fail.mpr (.inl (just_not s (word_ne h1 (by simp))))
    · rw [rewind_self]
      change (do P.just .plus; pure false) _ = _
      rw [bind_of_ok (just_word s h1)]
      rfl
  | .minus h1 h2 => by
    refine factor_of (sign := some true) (orNot_ok.mpr (.inl ⟨_, rfl, alt_ok.mpr (.inl ?_)⟩))
      (factor_complete s h2)
    rw [bind_of_ok (just_word s h1)]
    rfl

theorem product_complete {i r : List Ranged} {e : Expr} (s : PSt) : Product i r e → ∀ l s',
    P.rep (tail (factor expr) mulOp) { s with toks := r } = .ok l s' →
    chain (factor expr) mulOp { s with toks := i } = .ok (l.foldl (fun l r => r.1 l r.2) e) s'
  | .single h => fun _ _ hl => chain_of (signed_complete s h) hl
  | .times h1 h2 h3 => fun l s' hl =>
    product_complete s h1 ((.mul, _) :: l) s'
      (rep_cons (consumes_tail (consumes_factor consumes_expr.shrinks).shrinks consumes_mulOp)
        (tail_of (op_first s h2) (signed_complete s h3)) hl)
  | .over h1 h2 h3 => fun l s' hl =>
    product_complete s h1 ((.div, _) :: l) s'
      (rep_cons (consumes_tail (consumes_factor consumes_expr.shrinks).shrinks consumes_mulOp)
        (tail_of (op_second s h2 (by simp)) (signed_complete s h3)) hl)

theorem sum_complete {i r : List Ranged} {e : Expr} (s : PSt) : SumExpr i r e → ¬ MulContinues r → ∀ l s',
    P.rep (tail (chain (factor expr) mulOp) addOp) { s with toks := r } = .ok l s' →
    chain (chain (factor expr) mulOp) addOp { s with toks := i } = .ok (l.foldl (fun l r => r.1 l r.2) e) s'
  | .single h => fun hm _ _ hl => chain_of (product_complete s h _ _ (mul_rep_nil hm)) hl
  | .plus h1 h2 h3 => fun hm l s' hl =>
    sum_complete s h1 (not_mulContinues h2 (by simp) (by simp)) ((.add, _) :: l) s'
      (rep_cons (consumes_tail (consumes_chain (consumes_factor consumes_expr.shrinks) consumes_mulOp).shrinks consumes_addOp)
        (tail_of (op_first s h2) (product_complete s h3 _ _ (mul_rep_nil hm))) hl)
  | .minus h1 h2 h3 => fun hm l s' hl =>
    sum_complete s h1 (not_mulContinues h2 (by simp) (by simp)) ((.sub, _) :: l) s'
      (rep_cons (consumes_tail (consumes_chain (consumes_factor consumes_expr.shrinks) consumes_mulOp).shrinks consumes_addOp)
        (tail_of (op_second s h2 (by simp)) (product_complete s h3 _ _ (mul_rep_nil hm))) hl)

end

theorem expr_complete (s : PSt) {i r : List Ranged} {e : Expr} (h : Expression i r e) :
    expr { s with toks := i } = .ok e { s with toks := r } := by
  rw [expr_eq]
  exact sum_complete s h.1 (fun hm => h.2 hm.continues) [] _ (add_rep_nil h.2)

/-! ### The longest expression is taken -/

theorem reps_end {α : Type} {p : P α} {R : ParserOptions → Phrase α} (hp : Pur p R) {s s' : PSt} {l : List α}
    (h : Reps p s l s') : ∃ s1, p s' = .fail s1 := by
  induction h with
  | nil h => rw [hp.rewind h]; exact ⟨_, h⟩
  | cons _ _ ih => exact ih

theorem reps_last {p : P Expr} {op : P (Expr → Expr → Expr)} {s s' : PSt}
    {l : List ((Expr → Expr → Expr) × Expr)} {R : ParserOptions → Phrase ((Expr → Expr → Expr) × Expr)}
    (hp : Pur (tail p op) R) (h : Reps (tail p op) s l s')
    (hs : ∃ s0 a, p s0 = .ok a s) : ∃ s0 a, p s0 = .ok a s' := by
  induction h with
  | nil h => rw [hp.rewind h]; exact hs
  | cons h _ ih =>
    obtain ⟨f, s1, _, h⟩ := bind_ok.mp h
    obtain ⟨a, s2, h2, h⟩ := bind_ok.mp h
    rw [pure_eq] at h
    cases h
    exact ih ⟨_, _, h2⟩

theorem pur_tail_product : Pur (tail (chain (factor expr) mulOp) addOp) fun _ _ _ _ => True :=
  ((pur_op _ _ _ _).bind fun _ => pur_product.bind fun _ => Pur.pure _).mono fun _ _ _ _ _ => trivial

theorem pur_tail_factor : Pur (tail (factor expr) mulOp) fun _ _ _ _ => True :=
  ((pur_op _ _ _ _).bind fun _ => pur_factor_expr.bind fun _ => Pur.pure _).mono fun _ _ _ _ _ => trivial

theorem product_not_fail {s s' : PSt} {i r : List Ranged} {e : Expr} (h : Signed i r e) :
    chain (factor expr) mulOp { s with toks := i } ≠ .fail s' := by
  intro hc
  rw [chain, bind_of_ok (signed_complete s h)] at hc
  rcases bind_fail.mp hc with hc | ⟨_, _, _, hc⟩
  · exact rep_fail hc
  · cases hc

theorem expr_not_continues {s s' : PSt} {e : Expr} (h : expr s = .ok e s') : ¬ Continues s'.toks := by
  rw [expr_eq] at h
  obtain ⟨a, s1, h1, h⟩ := bind_ok.mp h
  obtain ⟨l, s2, h2, h⟩ := bind_ok.mp h
  rw [pure_eq] at h
  cases h
  have hr := rep_reps h2
  obtain ⟨s3, hadd⟩ := reps_end pur_tail_product hr
  obtain ⟨s0, b, hprod⟩ := reps_last pur_tail_product hr ⟨_, _, h1⟩
  obtain ⟨c, s4, h4, hprod⟩ := bind_ok.mp hprod
  obtain ⟨l', s5, h5, hprod⟩ := bind_ok.mp hprod
  rw [pure_eq] at hprod
  cases hprod
  obtain ⟨s6, hmul⟩ := reps_end pur_tail_factor (rep_reps h5)
  rintro ⟨t, j, k, x, ht, hw, hx⟩
  rcases ht with rfl | rfl | rfl | rfl
  · have : addOp s' = .ok .add { s' with toks := j } := op_first s' hw
    rw [tail, bind_of_ok this] at hadd
    rcases bind_fail.mp hadd with h | ⟨_, _, _, h⟩
    · exact product_not_fail hx h
    · cases h
  · have : addOp s' = .ok .sub { s' with toks := j } := op_second s' hw (by simp)
    rw [tail, bind_of_ok this] at hadd
    rcases bind_fail.mp hadd with h | ⟨_, _, _, h⟩
    · exact product_not_fail hx h
    · cases h
  · have : mulOp s' = .ok .mul { s' with toks := j } := op_first s' hw
    rw [tail, bind_of_ok this, bind_of_ok (signed_complete s' hx)] at hmul
    cases hmul
  · have : mulOp s' = .ok .div { s' with toks := j } := op_second s' hw (by simp)
    rw [tail, bind_of_ok this, bind_of_ok (signed_complete s' hx)] at hmul
    cases hmul

theorem pur_expr : Pur expr fun _ => Expression := by
  refine ⟨fun s a s' h => ?_, pur_expr_sum.fail⟩
  obtain ⟨r, rfl, hs, hr⟩ := pur_expr_sum.ok s a s' h
  exact ⟨r, rfl, hs, hr, expr_not_continues h⟩

theorem expr_ok_iff {s s' : PSt} {e : Expr} :
    expr s = .ok e s' ↔ ∃ r, Expression s.toks r e ∧ s' = { s with toks := r } := by
  constructor
  · intro h
    obtain ⟨r, h1, _, h2⟩ := pur_expr.ok s e s' h
    exact ⟨r, h2, h1⟩
  · rintro ⟨r, h, rfl⟩
    exact expr_complete s h

/-! ### Printing -/

theorem map_eq_word {run r : List Ranged} {t : Token} {ts : List Token} (h : run.map (·.tok) = t :: ts) :
    ∃ run', Word t (run ++ r) (run' ++ r) ∧ run'.map (·.tok) = ts := by
  cases run with
  | nil => cases h
  | cons x xs =>
    simp only [List.map_cons, List.cons.injEq] at h
    obtain ⟨rfl, h⟩ := h
    exact ⟨xs, ⟨x.start, x.stop, rfl⟩, h⟩

theorem map_eq_binary {run : List Ranged} {as bs : List Token} {t : Token}
    (h : run.map (·.tok) = as ++ [t] ++ bs) :
    ∃ ra x rb, run = ra ++ (x :: rb) ∧ ra.map (·.tok) = as ∧ x.tok = t ∧ rb.map (·.tok) = bs := by
  rw [List.append_assoc, List.map_eq_append_iff] at h
  obtain ⟨ra, l, rfl, h1, h2⟩ := h
  cases l with
  | nil => cases h2
  | cons x rb =>
    simp only [List.map_cons, List.cons_append, List.nil_append, List.cons.injEq] at h2
    exact ⟨ra, x, rb, rfl, h1, h2.1, h2.2⟩

mutual

theorem factor_print {i r : List Ranged} {e : Expr} : Factor i r e → ∀ run r', run.map (·.tok) = exprTokens e →
    Factor (run ++ r') r' e
  | .number _ => fun run r' h => by
    obtain ⟨run', h1, h2⟩ := map_eq_word (r := r') h
    cases run' with
    | nil => exact .number h1
    | cons _ _ => cases h2
  | .parens _ h _ => fun run r' hr => by
    simp only [exprTokens, List.singleton_append, List.cons_append] at hr
    obtain ⟨run', h1, h2⟩ := map_eq_word (r := r') hr
    rw [List.map_eq_append_iff] at h2
    obtain ⟨re, l, rfl, h3, h4⟩ := h2
    cases l with
    | nil => cases h4
    | cons x l =>
      cases l with
      | cons _ _ => simp at h4
      | nil =>
        simp only [List.map_cons, List.map_nil, List.cons.injEq, and_true] at h4
        rw [List.append_assoc] at h1
        exact .parens h1 (sum_print h re _ h3) ⟨x.start, x.stop, by rw [← h4]; rfl⟩

theorem signed_print {i r : List Ranged} {e : Expr} : Signed i r e → ∀ run r', run.map (·.tok) = exprTokens e →
    Signed (run ++ r') r' e
  | .unsigned h => fun run r' hr => .unsigned (factor_print h run r' hr)
  | .plus _ h => fun run r' hr => .unsigned (factor_print h run r' hr)
  | .minus _ h => fun run r' hr => by
    obtain ⟨run', h1, h2⟩ := map_eq_word (r := r') hr
    exact .minus h1 (factor_print h _ _ h2)

theorem product_print {i r : List Ranged} {e : Expr} : Product i r e → ∀ run r', run.map (·.tok) = exprTokens e →
    Product (run ++ r') r' e
  | .single h => fun run r' hr => .single (signed_print h run r' hr)
  | .times h1 _ h2 => fun run r' hr => by
    obtain ⟨ra, x, rb, rfl, ha, hx, hb⟩ := map_eq_binary hr
    rw [List.append_assoc]
    exact .times (product_print h1 _ _ ha) ⟨x.start, x.stop, by rw [← hx]; rfl⟩ (signed_print h2 _ _ hb)
  | .over h1 _ h2 => fun run r' hr => by
    obtain ⟨ra, x, rb, rfl, ha, hx, hb⟩ := map_eq_binary hr
    rw [List.append_assoc]
    exact .over (product_print h1 _ _ ha) ⟨x.start, x.stop, by rw [← hx]; rfl⟩ (signed_print h2 _ _ hb)

theorem sum_print {i r : List Ranged} {e : Expr} : SumExpr i r e → ∀ run r', run.map (·.tok) = exprTokens e →
    SumExpr (run ++ r') r' e
  | .single h => fun run r' hr => .single (product_print h run r' hr)
  | .plus h1 _ h2 => fun run r' hr => by
    obtain ⟨ra, x, rb, rfl, ha, hx, hb⟩ := map_eq_binary hr
    rw [List.append_assoc]
    exact .plus (sum_print h1 _ _ ha) ⟨x.start, x.stop, by rw [← hx]; rfl⟩ (product_print h2 _ _ hb)
  | .minus h1 _ h2 => fun run r' hr => by
    obtain ⟨ra, x, rb, rfl, ha, hx, hb⟩ := map_eq_binary hr
    rw [List.append_assoc]
    exact .minus (sum_print h1 _ _ ha) ⟨x.start, x.stop, by rw [← hx]; rfl⟩ (product_print h2 _ _ hb)

end

end Lima.Grammar
