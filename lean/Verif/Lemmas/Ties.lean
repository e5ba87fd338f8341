import Verif.Lemmas.Lexemes

/-! A text is a lexeme of one kind only, apart from fixed texts which could be currencies or keys. -/

namespace Lima
open Spec

set_option linter.unusedSectionVars false

section
variable [Categories]

/-- Kinds of lexeme which may begin with the same character. -/
def Kind.family : Kind → Nat
  | .date | .time | .number => 0
  | .currency | .account => 1
  | .key => 2
  | .flagLetter => 3
  | .stringLiteral => 4
  | .tag => 5
  | .link => 6
  | .lit _ => 7
  | .skip => 8

/-- What the lexemes of a family begin with. -/
def Begins (n : Nat) (c : Char) : Prop :=
  match n with
  | 0 => Categories.decimalDigit c = true
  | 1 => Categories.upper c = true ∨ Categories.otherLetter c = true ∨ c = '/'
  | 2 => isAsciiLower c = true
  | 3 => c = '\''
  | 4 => c = '"'
  | 5 => c = '#'
  | 6 => c = '^'
  | 7 => c = ';' ∨ c = '\r' ∨ c = '\n'
  | 8 => c = ' ' ∨ c = '\t'
  | _ => False

theorem begins_ascii {n : Nat} {c : Char} (hn : 2 ≤ n) (h : Begins n c) :
    isAscii c = true ∧ isAsciiDigit c = false ∧ isAsciiUpper c = false ∧ c ≠ '/' := by
  match n, hn, h with
  | 2, _, h =>
    simp only [Begins, isAsciiLower, decide_eq_true_eq] at h
    simp only [isAscii, isAsciiDigit, isAsciiUpper, decide_eq_true_eq, decide_eq_false_iff_not]
    refine ⟨by omega, by omega, by omega, ?_⟩
    rintro rfl
    exact absurd h (by decide)
  | 3, _, h | 4, _, h | 5, _, h | 6, _, h => cases h; decide
  | 7, _, h => rcases h with rfl | rfl | rfl <;> decide
  | 8, _, h => rcases h with rfl | rfl <;> decide
  | n + 9, _, h => exact h.elim

/-- The family of an ASCII character. -/
def asciiFamily (c : Char) : Nat :=
  if isAsciiLower c then 2 else if c = '\'' then 3 else if c = '"' then 4 else if c = '#' then 5 else if c = '^' then 6
  else if c = ';' ∨ c = '\r' ∨ c = '\n' then 7 else 8

theorem begins_family {n : Nat} {c : Char} (hn : 2 ≤ n) (h : Begins n c) : asciiFamily c = n := by
  match n, hn, h with
  | 2, _, h => simp only [Begins] at h; unfold asciiFamily; rw [if_pos h]
  | 3, _, h | 4, _, h | 5, _, h | 6, _, h => cases h; decide
  | 7, _, h => rcases h with rfl | rfl | rfl <;> decide
  | 8, _, h => rcases h with rfl | rfl <;> decide
  | n + 9, _, h => exact h.elim

theorem begins_inj {n m : Nat} {c : Char} (h : Begins n c) (h' : Begins m c) : n = m := by
  have key : ∀ {n m : Nat}, n < m → Begins n c → Begins m c → False := by
    intro n m hlt h h'
    rcases Nat.lt_or_ge n 2 with h2 | h2
    · match n, h2, h with
      | 0, _, h =>
        rcases Nat.lt_or_ge m 2 with hm | hm
        · obtain rfl : m = 1 := by omega
          have hn := Categories.digit_not_letter c h
          rcases h' with h' | h' | rfl
          · rw [hn.1] at h'; cases h'
          · rw [hn.2] at h'; cases h'
          · have := Categories.decimalDigit_ascii '/' (by decide)
            simp only [Begins] at h
            rw [this] at h
            exact absurd h (by decide)
        · obtain ⟨h1, h2, _⟩ := begins_ascii hm h'
          simp only [Begins] at h
          rw [Categories.decimalDigit_ascii c h1, h2] at h
          cases h
      | 1, _, h =>
        obtain ⟨h1, h2, h3, h4⟩ := begins_ascii (by omega : 2 ≤ m) h'
        rcases h with h | h | h
        · rw [Categories.upper_ascii c h1, h3] at h; cases h
        · rw [Categories.otherLetter_ascii c h1] at h; cases h
        · exact h4 h
    · have := begins_family h2 h
      have := begins_family (by omega : 2 ≤ m) h'
      omega
  rcases Nat.lt_trichotomy n m with h1 | h1 | h1
  · exact (key h1 h h').elim
  · exact h1
  · exact (key h1 h' h).elim

theorem digits_head {n : Nat} {w : Str} (h : Digits (n + 1) w) : ∃ c r, w = c :: r ∧ Categories.decimalDigit c = true := by
  cases w with
  | nil => exact absurd h.1 (by simp)
  | cons c r => exact ⟨c, r, rfl, h.2 c (by simp)⟩

theorem newline_head {w : Str} (h : Newline w) : ∃ c r, w = c :: r ∧ (c = '\r' ∨ c = '\n') := by
  rcases h with rfl | rfl
  · exact ⟨_, _, rfl, .inr rfl⟩
  · exact ⟨_, _, rfl, .inl rfl⟩

theorem lineEnding_head {w : Str} (h : LineEnding w) : ∃ c r, w = c :: r ∧ (c = ';' ∨ c = '\r' ∨ c = '\n') := by
  obtain ⟨cm, nl, ig, rfl, hc, hn, _⟩ := h
  rcases hc with rfl | ⟨rest, rfl, _⟩
  · obtain ⟨c, r, rfl, h⟩ := newline_head hn
    exact ⟨c, r ++ ig, by simp, .inr h⟩
  · exact ⟨';', _, rfl, .inl rfl⟩

/-- What a lexeme which is not a fixed text begins with. -/
theorem lexeme_begins {k : Kind} {w : Str} (h : Lexeme k w) (hf : ∀ t, ¬ Fixed t w) :
    ∃ c r, w = c :: r ∧ Begins k.family c := by
  have up : ∀ {c}, Upper c → Categories.upper c = true := by
    intro c h
    have h' := upper_iff.mp h
    rw [Categories.upper_ascii c (by simp only [isAsciiUpper, decide_eq_true_eq] at h'; simp only [isAscii, decide_eq_true_eq]; omega)]
    exact h'
  cases h with
  | fixed h => exact absurd h (hf _)
  | flag _ => exact ⟨_, _, rfl, rfl⟩
  | currency ha _ => exact ⟨_, _, rfl, .inl (up ha)⟩
  | slashCurrency _ _ _ => exact ⟨_, _, rfl, .inr (.inr rfl)⟩
  | date hy _ _ _ _ =>
    obtain ⟨c, r, rfl, h⟩ := digits_head hy
    exact ⟨c, _, rfl, h⟩
  | time hh _ =>
    obtain ⟨c, r, rfl, h⟩ := hh.elim digits_head digits_head
    exact ⟨c, _, rfl, h⟩
  | timeSeconds hh _ _ =>
    obtain ⟨c, r, rfl, h⟩ := hh.elim digits_head digits_head
    exact ⟨c, _, rfl, h⟩
  | @account a rest first others ha _ _ _ =>
    exact ⟨a, rest ++ (first :: others).flatMap (':' :: ·), joinColon_flatMap _ _, ha.imp id .inl⟩
  | string _ => exact ⟨_, _, rfl, rfl⟩
  | @number first _ h0 h1 _ =>
    cases first with
    | nil => exact absurd rfl h0
    | cons c r => exact ⟨c, _, rfl, h1.2 c (by simp)⟩
  | @numberFraction first _ _ h0 h1 _ _ _ =>
    cases first with
    | nil => exact absurd rfl h0
    | cons c r => exact ⟨c, _, rfl, h1.2 c (by simp)⟩
  | tag _ _ => exact ⟨_, _, rfl, rfl⟩
  | link _ _ => exact ⟨_, _, rfl, rfl⟩
  | key ha _ _ => exact ⟨_, _, rfl, lower_iff.mp ha⟩
  | lineEndIndent h _ =>
    obtain ⟨c, r, rfl, h'⟩ := lineEnding_head h
    exact ⟨c, _, rfl, h'⟩
  | lineEnd h =>
    obtain ⟨c, r, rfl, h'⟩ := lineEnding_head h
    exact ⟨c, _, rfl, h'⟩
  | comment _ _ => exact ⟨_, _, rfl, .inl rfl⟩
  | blanks h =>
    cases w with
    | nil => exact absurd rfl h.1
    | cons c r => exact ⟨c, r, rfl, h.2 c (by simp)⟩

/-! Kinds which begin with the same characters. -/

theorem number_colon {w : Str} (h : Lexeme .number w) : ':' ∉ w ∧ '-' ∉ w ∧ '/' ∉ w := by
  have hd : ∀ x : Char, isAscii x = true → isAsciiDigit x = false → x ≠ ',' → x ≠ '.' → x ∉ w := by
    intro x h1 h2 h3 h4 hx
    cases h with
    | @number f gs _ hf hg =>
      rcases List.mem_append.mp hx with hx | hx
      · exact digits_ne hf h1 h2 x hx rfl
      · obtain ⟨g, hgm, hx⟩ := List.mem_flatMap.mp hx
        rcases List.mem_cons.mp hx with hx | hx
        · exact h3 hx
        · exact digits_ne (hg g hgm) h1 h2 x hx rfl
    | @numberFraction f r gs _ hf hg _ hr =>
      rcases List.mem_append.mp hx with hx | hx
      · rcases List.mem_append.mp hx with hx | hx
        · exact digits_ne hf h1 h2 x hx rfl
        · obtain ⟨g, hgm, hx⟩ := List.mem_flatMap.mp hx
          rcases List.mem_cons.mp hx with hx | hx
          · exact h3 hx
          · exact digits_ne (hg g hgm) h1 h2 x hx rfl
      · rcases List.mem_cons.mp hx with hx | hx
        · exact h4 hx
        · exact digits_ne hr h1 h2 x hx rfl
  exact ⟨hd ':' (by decide) (by decide) (by decide) (by decide), hd '-' (by decide) (by decide) (by decide) (by decide),
    hd '/' (by decide) (by decide) (by decide) (by decide)⟩

theorem date_marks {w : Str} (h : Lexeme .date w) : ':' ∉ w ∧ ('-' ∈ w ∨ '/' ∈ w) := by
  cases h with
  | @date y m d s1 s2 hy hm hd h1 h2 =>
    have hs : ∀ c, In "-/" c → c = '-' ∨ c = '/' := by intro c h; simpa [In] using h
    have c1 : ':' ∉ y := fun h => digits_ne hy (x := ':') (by decide) (by decide) _ h rfl
    have c2 : ':' ∉ m := fun h => digits_ne hm (x := ':') (by decide) (by decide) _ h rfl
    have c3 : ':' ∉ d := fun h => digits_ne hd (x := ':') (by decide) (by decide) _ h rfl
    constructor
    · simp only [List.mem_append, List.mem_cons, not_or]
      refine ⟨c1, ?_, c2, ?_, c3⟩
      · rintro rfl; rcases hs _ h1 with h | h <;> exact absurd h (by decide)
      · rintro rfl; rcases hs _ h2 with h | h <;> exact absurd h (by decide)
    · rcases hs _ h1 with rfl | rfl
      · exact .inl (by simp)
      · exact .inr (by simp)

theorem time_marks {w : Str} (h : Lexeme .time w) : ':' ∈ w := by
  cases h <;> simp

theorem currency_marks {w : Str} (h : Lexeme .currency w) : ':' ∉ w := by
  have h1 : ¬ (Upper ':' ∨ Digit ':' ∨ In "'._-" ':') := by rw [currencyChar_iff]; decide
  have h2 : ¬ (Digit ':' ∨ In "'._-" ':') := by rw [slashChar_iff]; decide
  cases h with
  | currency ha hr =>
    intro h
    rcases List.mem_cons.mp h with rfl | h
    · exact h1 (.inl ha)
    · exact h1 (hr _ h)
  | slashCurrency hm ha hr =>
    intro h
    rcases List.mem_cons.mp h with h | h
    · exact absurd h (by decide)
    · rcases List.mem_append.mp h with h | h
      · exact h2 (hm _ h)
      · rcases List.mem_cons.mp h with rfl | h
        · exact h1 (.inl ha)
        · exact h1 (hr _ h)

theorem account_marks {w : Str} (h : Lexeme .account w) : ':' ∈ w := by
  cases h
  rw [joinColon_flatMap]
  simp

theorem lineEnding_last {w : Str} (h : LineEnding w) : w.getLast? = some '\n' := by
  have hn : ∀ {nl : Str}, Newline nl → nl.getLast? = some '\n' := by rintro _ (rfl | rfl) <;> rfl
  obtain ⟨cm, nl, ig, rfl, _, h1, h2⟩ := h
  have hi : ig = [] ∨ ig.getLast? = some '\n' := by
    clear h1
    induction h2 with
    | nil => exact .inl rfl
    | @cons u v hu _ ih =>
      obtain ⟨c, rest, nl, rfl, _, _, h⟩ := hu
      rcases ih with rfl | ih
      · right; rw [List.append_nil, List.getLast?_append, hn h]; rfl
      · right; rw [List.getLast?_append, ih]; rfl
  rcases hi with rfl | hi
  · rw [List.append_nil, List.getLast?_append, hn h1]; rfl
  · rw [List.getLast?_append, hi]; rfl

/-- The line end tokens. -/
theorem lineTokens {t t' : Token} {w : Str} (h : Lexeme (.lit t) w) (h' : Lexeme (.lit t') w) (hf : ∀ t, ¬ Fixed t w) : t = t' := by
  have ends : ∀ {w b : Str}, Blanks b → (w ++ b).getLast? ≠ some '\n' := by
    intro w b hb e
    rw [List.getLast?_append] at e
    cases hl : b.getLast? with
    | none => exact absurd (List.getLast?_eq_none_iff.mp hl) hb.1
    | some c =>
      rw [hl] at e
      cases e
      rcases hb.2 _ (List.mem_of_getLast? hl) with h | h <;> exact absurd h (by decide)
  have mem : ∀ {w : Str}, LineEnding w → '\n' ∈ w := fun h => List.mem_of_getLast? (lineEnding_last h)
  have nocomment : ∀ {rest w : Str}, '\n' ∉ rest → LineEnding w → ∀ {b}, w ++ b ≠ ';' :: rest := by
    intro rest w hr hw b e
    have : '\n' ∈ ';' :: rest := by rw [← e]; exact List.mem_append_left _ (mem hw)
    rcases List.mem_cons.mp this with h | h
    · exact absurd h (by decide)
    · exact hr h
  generalize hw : w = w' at h'
  cases h with
  | fixed h => exact absurd h (hf _)
  | lineEndIndent h1 h2 =>
    cases h' with
    | fixed h => subst hw; exact absurd h (hf _)
    | lineEndIndent _ _ => rfl
    | lineEnd h => exact absurd (lineEnding_last h) (by rw [← hw]; exact ends h2)
    | comment _ h => exact absurd hw (nocomment h h1)
  | lineEnd h1 =>
    cases h' with
    | fixed h => subst hw; exact absurd h (hf _)
    | lineEndIndent _ h => exact absurd (lineEnding_last h1) (by rw [hw]; exact ends h)
    | lineEnd h => rfl
    | comment _ h => exact absurd ((List.append_nil _).trans hw) (nocomment h h1)
  | comment _ h1 =>
    cases h' with
    | fixed h => subst hw; exact absurd h (hf _)
    | lineEndIndent h _ => exact absurd hw.symm (nocomment h1 h)
    | lineEnd h => exact absurd ((List.append_nil _).trans hw.symm) (nocomment h1 h)
    | comment _ h => rfl

/-- A text which is not a fixed text is a lexeme of one kind only. -/
theorem lexeme_kind {k k' : Kind} {w : Str} (h : Lexeme k w) (h' : Lexeme k' w) (hf : ∀ t, ¬ Fixed t w) : k = k' := by
  obtain ⟨c, r, e, hb⟩ := lexeme_begins h hf
  obtain ⟨c', r', e', hb'⟩ := lexeme_begins h' hf
  have : c = c' := by rw [e] at e'; cases e'; rfl
  subst this
  have hfam := begins_inj hb hb'
  cases k <;> cases k' <;> first | rfl | (simp [Kind.family] at hfam; done) | skip
  · rw [lineTokens h h' hf]
  · exact absurd (account_marks h') (currency_marks h)
  · exact absurd (time_marks h') (date_marks h).1
  · exact ((date_marks h).2.elim (number_colon h').2.1 (number_colon h').2.2).elim
  · exact absurd (time_marks h) (date_marks h').1
  · exact absurd (time_marks h) (number_colon h').1
  · exact absurd (account_marks h) (currency_marks h')
  · exact ((date_marks h').2.elim (number_colon h).2.1 (number_colon h).2.2).elim
  · exact absurd (time_marks h') (number_colon h).1

/-! Fixed texts. -/

omit [Categories] in
theorem fixed_facts : ∀ p ∈ literals, ∃ c r, p.2 = c :: r ∧ isAscii c = true ∧ isAsciiDigit c = false ∧ c ≠ '\'' ∧ c ≠ '"' ∧
    c ≠ '^' ∧ c ≠ ';' ∧ c ≠ '\r' ∧ c ≠ '\n' ∧ c ≠ ' ' ∧ c ≠ '\t' ∧ (c = '#' → r = []) ∧ (':' ∈ p.2 → c = ':') := by
  have : ∀ p ∈ literals, ∃ c ∈ p.2.head?, p.2 = c :: p.2.tail ∧ isAscii c = true ∧ isAsciiDigit c = false ∧ c ≠ '\'' ∧ c ≠ '"' ∧
    c ≠ '^' ∧ c ≠ ';' ∧ c ≠ '\r' ∧ c ≠ '\n' ∧ c ≠ ' ' ∧ c ≠ '\t' ∧ (c = '#' → p.2.tail = []) ∧ (':' ∈ p.2 → c = ':') := by
    decide +kernel
  intro p hp
  obtain ⟨c, _, h⟩ := this p hp
  exact ⟨c, _, h⟩

omit [Categories] in
theorem fixed_unique {t t' : Token} {w : Str} (h : Fixed t w) (h' : Fixed t' w) : t = t' :=
  congrArg Prod.fst (literals_inj _ (fixed_iff.mp h) _ (fixed_iff.mp h') rfl)

/-- A fixed text can otherwise only be a currency or a key. -/
theorem fixed_ties {t : Token} {k : Kind} {w : Str} (hf : Fixed t w) (h : Lexeme k w) : k = .lit t ∨ k = .currency ∨ k = .key := by
  obtain ⟨c, r, e, h1, h2, h3⟩ := fixed_facts _ (fixed_iff.mp hf)
  simp only at e
  subst e
  have nodigit : ∀ {d : Char} {r' : Str}, c :: r = d :: r' → Categories.decimalDigit d = true → False := by
    intro d r' e hd
    cases e
    rw [Categories.decimalDigit_ascii _ h1, h2] at hd
    cases hd
  generalize hw : c :: r = w at h
  cases h with
  | fixed h => subst hw; rw [fixed_unique hf h]; exact .inl rfl
  | flag _ => cases hw; exact absurd rfl h3.1
  | currency _ _ => exact .inr (.inl rfl)
  | slashCurrency _ _ _ => exact .inr (.inl rfl)
  | date hy _ _ _ _ =>
    obtain ⟨d, r', rfl, h⟩ := digits_head hy
    exact (nodigit hw h).elim
  | time hh _ =>
    obtain ⟨d, r', rfl, h⟩ := hh.elim digits_head digits_head
    exact (nodigit hw h).elim
  | timeSeconds hh _ _ =>
    obtain ⟨d, r', rfl, h⟩ := hh.elim digits_head digits_head
    exact (nodigit hw h).elim
  | @account a rest first others ha hr hfst hos =>
    have hm := account_marks (.account ha hr hfst hos)
    rw [← hw] at hm
    have hc := h3.2.2.2.2.2.2.2.2.2 hm
    have : a = ':' := by
      rw [joinColon_flatMap] at hw
      cases hw
      exact hc
    subst this
    rcases ha with h | h
    · rw [Categories.upper_ascii _ (by decide)] at h; exact absurd h (by decide)
    · rw [Categories.otherLetter_ascii _ (by decide)] at h; exact absurd h (by decide)
  | string _ => cases hw; exact absurd rfl h3.2.1
  | @number first _ h0 h1 _ =>
    cases first with
    | nil => exact absurd rfl h0
    | cons d r' => exact (nodigit hw (h1.2 d (by simp))).elim
  | @numberFraction first _ _ h0 h1 _ _ _ =>
    cases first with
    | nil => exact absurd rfl h0
    | cons d r' => exact (nodigit hw (h1.2 d (by simp))).elim
  | tag h0 _ => cases hw; exact absurd (h3.2.2.2.2.2.2.2.2.1 rfl) h0
  | link _ _ => cases hw; exact absurd rfl h3.2.2.1
  | key _ _ _ => exact .inr (.inr rfl)
  | lineEndIndent h _ =>
    obtain ⟨d, r', rfl, h'⟩ := lineEnding_head h
    cases hw
    rcases h' with rfl | rfl | rfl
    · exact absurd rfl h3.2.2.2.1
    · exact absurd rfl h3.2.2.2.2.1
    · exact absurd rfl h3.2.2.2.2.2.1
  | lineEnd h =>
    obtain ⟨d, r', rfl, h'⟩ := lineEnding_head h
    cases hw
    rcases h' with rfl | rfl | rfl
    · exact absurd rfl h3.2.2.2.1
    · exact absurd rfl h3.2.2.2.2.1
    · exact absurd rfl h3.2.2.2.2.2.1
  | comment _ _ => cases hw; exact absurd rfl h3.2.2.2.1
  | blanks h =>
    subst hw
    rcases h.2 c (by simp) with rfl | rfl
    · exact absurd rfl h3.2.2.2.2.2.2.1
    · exact absurd rfl h3.2.2.2.2.2.2.2.1

/-- There is only one longest lexeme. -/
theorem longestLexeme_unique {s w w' : Str} {k k' : Kind} (h : LongestLexeme s w k) (h' : LongestLexeme s w' k') :
    w = w' ∧ k = k' := by
  have e : w = w' := by
    have h1 := h.longest _ _ h'.atStart h'.lexeme
    have h2 := h'.longest _ _ h.atStart h.lexeme
    exact (List.prefix_of_prefix_length_le h.atStart h'.atStart h2).eq_of_length (by omega)
  subst e
  refine ⟨rfl, ?_⟩
  by_cases hf : ∃ t, Fixed t w
  · obtain ⟨t, ht⟩ := hf
    rw [h.fixedFirst t ht, h'.fixedFirst t ht]
  · exact lexeme_kind h.lexeme h'.lexeme (fun t ht => hf ⟨t, ht⟩)

end

end Lima
