import Verif.Lemmas.Reads

/-! Where tokens end. -/

namespace Lima
open Spec

section
variable [Categories]

/-- The characters at which most tokens end. -/
def StopChar (c : Char) : Prop := c = ' ' ∨ c = '\n' ∨ c = ')' ∨ c = '}' ∨ c = ',' ∨ c = ':'

instance (c : Char) : Decidable (StopChar c) := inferInstanceAs (Decidable (_ ∨ _))

omit [Categories] in
theorem literals_stop : ∀ p ∈ literals, ∀ c ∈ p.2.tail, ¬ StopChar c ∨ p.2 = ['}', '}'] := by decide +kernel

omit [Categories] in
theorem literals_ne_nil : ∀ p ∈ literals, p.2 ≠ [] := by decide +kernel

omit [Categories] in
theorem stopChar_facts {c : Char} (hc : StopChar c) : isAsciiUpper c = false ∧ isAsciiLower c = false ∧ isAsciiDigit c = false ∧
    isCurrencyChar c = false ∧ isTagChar c = false ∧ isKeyChar c = false ∧ isAscii c = true := by
  rcases hc with rfl | rfl | rfl | rfl | rfl | rfl <;> decide +kernel

theorem stopChar_digit {c : Char} (hc : StopChar c) : Categories.decimalDigit c = false := by
  have := stopChar_facts hc
  rw [Categories.decimalDigit_ascii c this.2.2.2.2.2.2]; exact this.2.2.1

theorem stopChar_account {c : Char} (hc : StopChar c) : isAccountChar c = false ∧ Categories.upper c = false ∧
    Categories.otherLetter c = false ∧ Categories.number c = false := by
  obtain ⟨h1, h2, h3, _, _, _, h4⟩ := stopChar_facts hc
  have h5 : Categories.letter c = false := by rw [Categories.letter_ascii c h4, h1, h2]; rfl
  have h6 : Categories.number c = false := by rw [Categories.number_ascii c h4, h3]
  refine ⟨?_, by rw [Categories.upper_ascii c h4, h1], Categories.otherLetter_ascii c h4, h6⟩
  unfold isAccountChar
  rw [h5, h6]
  rcases hc with rfl | rfl | rfl | rfl | rfl | rfl <;> decide

omit [Categories] in
theorem matches_eol_head {b : Re} {w : Str} (h : Matches (.seq (.opt .commentToEol) (.seq .newline b)) w) :
    ∃ c rest, w = c :: rest ∧ (c = ';' ∨ c = '\r' ∨ c = '\n') := by
  rcases (Re.matches_eol h).2 with ⟨r, rfl⟩ | ⟨r, rfl⟩ | ⟨r, rfl, _⟩
  · exact ⟨_, _, rfl, .inl rfl⟩
  · exact ⟨_, _, rfl, .inr (.inl rfl)⟩
  · exact ⟨_, _, rfl, .inr (.inr rfl)⟩

/-- Characters which begin something with other rules about where it ends. -/
def OddHead (c : Char) : Prop := c = '"' ∨ c = ';' ∨ c = '\r' ∨ c = '\n' ∨ c = ' ' ∨ c = '\t'

instance (c : Char) : Decidable (OddHead c) := inferInstanceAs (Decidable (_ ∨ _))

/-- Most tokens end at such a character. -/
theorem not_reads_stop {k : Kind} {h : Char} {t v : Str} {c : Char} (hc : StopChar c) (hh : ¬ OddHead h)
    (hcomma : c = ',' → ¬ Matches Re.number (h :: t ++ c :: v)) (hcolon : c = ':' → isAsciiLower h = true)
    (hcurl : c = '}' → h :: t ≠ ['}']) : ¬ Reads k (h :: t ++ c :: v) := by
  obtain ⟨f1, f2, f3, f4, f5, f6, f7⟩ := stopChar_facts hc
  have f8 := stopChar_digit hc
  obtain ⟨f9, f10, f11, f12⟩ := stopChar_account hc
  have hmem : c ∈ t ++ c :: v := by simp
  intro hr
  generalize hw : h :: t ++ c :: v = w at hr
  rw [List.cons_append] at hw
  cases hr with
  | @lit x w hx =>
    subst hw
    rcases literals_stop _ hx c (by simp) with h' | h'
    · exact h' hc
    · simp only [List.cons.injEq] at h'
      obtain ⟨rfl, h'⟩ := h'
      cases t with
      | nil =>
        simp only [List.nil_append, List.cons.injEq] at h'
        obtain ⟨rfl, _⟩ := h'
        exact hcurl rfl rfl
      | cons a t => simp at h'
  | @flag x hx =>
    simp only [List.cons.injEq] at hw
    obtain ⟨_, hw⟩ := hw
    cases t with
    | nil =>
      simp only [List.nil_append, List.cons.injEq] at hw
      obtain ⟨rfl, _⟩ := hw
      rw [hx] at f1; cases f1
    | cons a t => simp at hw
  | currency hm =>
    subst hw
    rcases Re.matches_currency.mp hm with ⟨a, rest, e, _, hr⟩ | ⟨mid, a, rest, e, hmid, ha, hr⟩
    · simp only [List.cons.injEq] at e
      obtain ⟨_, e⟩ := e
      rw [e] at hmem
      rw [hr c hmem] at f4; cases f4
    · simp only [List.cons.injEq] at e
      obtain ⟨_, e⟩ := e
      rw [e] at hmem
      rcases List.mem_append.mp hmem with h' | h'
      · have := hmid c h'
        simp only [isCurrencyChar, Bool.or_eq_false_iff] at f4
        rw [f3, f4.2] at this; cases this
      · rcases List.mem_cons.mp h' with rfl | h'
        · rw [ha] at f1; cases f1
        · rw [hr c h'] at f4; cases f4
  | date hm =>
    have hall : ∀ x ∈ w, Categories.decimalDigit x = true ∨ x = '-' ∨ x = '/' := by
      obtain ⟨y, s1, m, s2, d, rfl, _, _, _, h1, h2, hd⟩ := Re.matches_date.mp hm
      intro x hx
      simp only [List.mem_append, List.mem_cons] at hx hd
      rcases hx with hx | rfl | hx | rfl | hx
      · exact .inl (hd x (.inl (.inl hx)))
      · exact .inr h1
      · exact .inl (hd x (.inl (.inr hx)))
      · exact .inr h2
      · exact .inl (hd x (.inr hx))
    rcases hall c (by rw [← hw]; simp) with h' | h' | h'
    · rw [f8] at h'; cases h'
    · rw [h'] at hc; exact absurd hc (by decide)
    · rw [h'] at hc; exact absurd hc (by decide)
  | time hm =>
    obtain ⟨a, m, s, e, hl, _, hd, hs⟩ := Re.matches_time.mp hm
    have hdig : Categories.decimalDigit h = true := by
      cases a with
      | nil => simp at hl
      | cons x a =>
        rw [← hw] at e
        simp only [List.cons_append, List.append_assoc, List.cons.injEq] at e
        rw [e.1]
        exact hd x (by simp)
    have hall : ∀ x ∈ w, Categories.decimalDigit x = true ∨ x = ':' := by
      rw [e]
      intro x hx
      simp only [List.mem_append, List.mem_cons] at hx hd
      rcases hx with (hx | rfl | hx) | hx
      · exact .inl (hd x (.inl hx))
      · exact .inr rfl
      · exact .inl (hd x (.inr hx))
      · rcases hs with rfl | ⟨y, rfl, _, hy⟩
        · cases hx
        · rcases List.mem_cons.mp hx with rfl | hx
          · exact .inr rfl
          · exact .inl (hy x hx)
    rcases hall c (by rw [← hw]; simp) with h' | h'
    · rw [f8] at h'; cases h'
    · have := hcolon h'
      have ha : isAscii h = true := by
        simp only [isAsciiLower, isAscii, decide_eq_true_eq] at this ⊢; omega
      rw [Categories.decimalDigit_ascii h ha] at hdig
      simp only [isAsciiLower, isAsciiDigit, decide_eq_true_eq] at this hdig
      omega
  | account hm =>
    obtain ⟨a, rest, e, ha, _, hr⟩ := Re.matches_account_head hm
    rw [← hw] at e
    simp only [List.cons.injEq] at e
    obtain ⟨rfl, e⟩ := e
    rw [e] at hmem
    rcases hr c hmem with h' | h' | h'
    · rw [h'] at f9; cases f9
    · have := hcolon h'
      have h2 : isAscii h = true := by
        simp only [isAsciiLower, isAscii, decide_eq_true_eq] at this ⊢; omega
      rw [Categories.upper_ascii h h2, Categories.otherLetter_ascii h h2, Bool.or_false] at ha
      simp only [isAsciiLower, isAsciiUpper, decide_eq_true_eq] at this ha
      omega
    · rw [f10, f11, f12] at h'; cases h'
  | string hm =>
    obtain ⟨body, e⟩ := Re.matches_string_ends hm
    rw [← hw] at e
    simp only [List.cons_append, List.cons.injEq] at e
    exact hh (.inl e.1)
  | number hm =>
    obtain ⟨a, rest, e, _, hr⟩ := Re.matches_number_head hm
    rw [← hw] at e
    simp only [List.cons.injEq] at e
    obtain ⟨_, e⟩ := e
    rw [e] at hmem
    rcases hr c hmem with h' | h' | h'
    · rw [h'] at f8; cases f8
    · exact hcomma h' (by rw [List.cons_append, hw]; exact hm)
    · rw [h'] at hc; exact absurd hc (by decide)
  | @tag w _ hr =>
    simp only [List.cons.injEq] at hw
    rw [hw.2] at hmem
    rw [hr c hmem] at f5; cases f5
  | @link w _ hr =>
    simp only [List.cons.injEq] at hw
    rw [hw.2] at hmem
    rw [hr c hmem] at f5; cases f5
  | key hm =>
    obtain ⟨a, rest, e, _, _, hr⟩ := Re.matches_key.mp hm
    rw [← hw] at e
    simp only [List.cons.injEq] at e
    rw [e.2] at hmem
    rw [hr c hmem] at f6; cases f6
  | eolThenIndent hm =>
    obtain ⟨a, rest, e, ha⟩ := matches_eol_head hm
    rw [← hw] at e
    simp only [List.cons.injEq] at e
    rcases ha with rfl | rfl | rfl <;> (rw [e.1] at hh; exact hh (by decide))
  | eol hm =>
    obtain ⟨a, rest, e, ha⟩ := matches_eol_head hm
    rw [← hw] at e
    simp only [List.cons.injEq] at e
    rcases ha with rfl | rfl | rfl <;> (rw [e.1] at hh; exact hh (by decide))
  | eolComment hm =>
    unfold reEolComment at hm
    simp only [Re.matches_seq, Re.matches_chr] at hm
    obtain ⟨_, r, e, rfl, _⟩ := hm
    rw [← hw] at e
    simp only [List.cons_append, List.cons.injEq] at e
    exact hh (.inr (.inl e.1))
  | skip _ hr =>
    rcases hr h (by rw [← hw]; simp) with rfl | rfl <;> exact hh (by decide)

/-! ### What follows a token -/

/-- The text is empty or goes on with something at which a token ends. -/
def Sep (s : Str) : Prop :=
  s = [] ∨ ∃ c s', s = c :: s' ∧ (c = ' ' ∨ c = '\n' ∨ c = ')' ∨ c = '}' ∨ c = ',' ∧ ∃ s'', s' = ' ' :: s'')

omit [Categories] in
theorem Sep.nil : Sep [] := .inl rfl
omit [Categories] in
theorem Sep.space {s : Str} : Sep (' ' :: s) := .inr ⟨_, _, rfl, .inl rfl⟩
omit [Categories] in
theorem Sep.newline {s : Str} : Sep ('\n' :: s) := .inr ⟨_, _, rfl, .inr (.inl rfl)⟩
omit [Categories] in
theorem Sep.rparen {s : Str} : Sep (')' :: s) := .inr ⟨_, _, rfl, .inr (.inr (.inl rfl))⟩
omit [Categories] in
theorem Sep.rcurl {s : Str} : Sep ('}' :: s) := .inr ⟨_, _, rfl, .inr (.inr (.inr (.inl rfl)))⟩
omit [Categories] in
theorem Sep.comma {s : Str} : Sep (',' :: ' ' :: s) := .inr ⟨_, _, rfl, .inr (.inr (.inr (.inr ⟨rfl, _, rfl⟩)))⟩

/-- Logos falls back to a number if it is followed by a comma and a space. -/
def NumberThenComma (l : Logos) : Prop :=
  ∀ w s, Matches Re.number w → l.token.fallsBack (w ++ ',' :: ' ' :: s) = true

theorem stops_sep {l : Logos} {h : Char} {t s : Str} (hs : Sep s) (hh : ¬ OddHead h) (hc : h ≠ '}')
    (hn : ∀ v, ¬ Matches Re.number (h :: t ++ ',' :: v)) : Stops l (h :: t) s := by
  rcases hs with rfl | ⟨c, s', rfl, hs⟩
  · exact Stops.nil
  · refine Stops.char (fun k v => not_reads_stop ?_ hh (by rintro rfl; exact hn v) ?_ ?_)
    · unfold StopChar; tauto
    · rintro rfl; simp at hs
    · rintro _ e; injection e with e; exact hc e

theorem not_number_of_head {h : Char} {t : Str} (hd : Categories.decimalDigit h = false) : ¬ Matches Re.number (h :: t) := by
  intro hm
  obtain ⟨a, rest, e, ha, _⟩ := Re.matches_number_head hm
  injection e with e1 _
  rw [← e1, hd] at ha; cases ha

theorem ascii_not_digit {c : Char} (h1 : isAscii c = true) (h2 : isAsciiDigit c = false) : Categories.decimalDigit c = false := by
  rw [Categories.decimalDigit_ascii c h1]; exact h2

/-! ### Tokens and then the rest -/

/-- Fixed texts which end wherever other tokens end. -/
theorem lexes_lit {l : Logos} {x : Token} {h : Char} {t s : Str} {ts : List Token} (hx : (x, h :: t) ∈ literals)
    (hs : Stops l (h :: t) s) (hr : Lexes l s ts) : Lexes l (h :: t ++ s) (x :: ts) := by
  refine lexes_token (by simp) (.lit hx) hs (fun k _ hl => ?_) hr
  rw [hl x hx]; rfl

omit [Categories] in
theorem literals_head : ∀ p ∈ literals, ∀ h ∈ p.2.head?, ¬ OddHead h ∧ isAscii h = true ∧ isAsciiDigit h = false := by
  decide +kernel

theorem lexes_lit_sep {l : Logos} {x : Token} {h : Char} {t s : Str} {ts : List Token} (hx : (x, h :: t) ∈ literals)
    (hc : h ≠ '}') (hs : Sep s) (hr : Lexes l s ts) : Lexes l (h :: t ++ s) (x :: ts) := by
  obtain ⟨h1, h2, h3⟩ := literals_head _ hx h rfl
  refine lexes_lit hx (stops_sep hs h1 hc ?_) hr
  intro v
  rw [List.cons_append]
  exact not_number_of_head (ascii_not_digit h2 h3)

omit [Categories] in
theorem literals_solo : ∀ p ∈ literals, ∀ c ∈ p.2.head?, (c = '(' ∨ c = '-' ∨ c = ',' ∨ c = '{' ∨ c = ':') →
    p.2 = [c] ∨ p.2 = ['{', '{'] := by
  decide +kernel

/-- Characters which are tokens whatever follows. -/
theorem not_reads_solo {k : Kind} {x c : Char} {v : Str} (hx : x = '(' ∨ x = '-' ∨ x = ',' ∨ x = '{' ∨ x = ':')
    (hc : x = '{' → c ≠ '{') : ¬ Reads k (x :: c :: v) := by
  have hd : Categories.decimalDigit x = false ∧ Categories.upper x = false ∧ Categories.otherLetter x = false := by
    have ha : isAscii x = true := by rcases hx with rfl | rfl | rfl | rfl | rfl <;> decide
    rw [Categories.decimalDigit_ascii x ha, Categories.upper_ascii x ha, Categories.otherLetter_ascii x ha]
    rcases hx with rfl | rfl | rfl | rfl | rfl <;> decide
  have hu : isAsciiUpper x = false ∧ isAsciiLower x = false := by
    rcases hx with rfl | rfl | rfl | rfl | rfl <;> decide
  have hodd : x ≠ '"' ∧ x ≠ ';' ∧ x ≠ '\r' ∧ x ≠ '\n' ∧ x ≠ ' ' ∧ x ≠ '\t' ∧ x ≠ '#' ∧ x ≠ '^' ∧ x ≠ '/' ∧ x ≠ '\'' := by
    rcases hx with rfl | rfl | rfl | rfl | rfl <;> decide
  intro hr
  generalize hw : x :: c :: v = w at hr
  cases hr with
  | @lit t w h =>
    subst hw
    rcases literals_solo _ h x rfl hx with h' | h'
    · simp at h'
    · simp only [List.cons.injEq] at h'
      exact hc h'.1 h'.2.1
  | flag h => simp only [List.cons.injEq] at hw; tauto
  | currency hm =>
    rcases Re.matches_currency.mp hm with ⟨a, rest, e, ha, _⟩ | ⟨mid, a, rest, e, _⟩
    · rw [← hw] at e; injection e with e1; rw [← e1, hu.1] at ha; cases ha
    · rw [← hw] at e; injection e with e1; tauto
  | date hm =>
    obtain ⟨y, s1, m, s2, d, e, hy, _, _, _, _, h⟩ := Re.matches_date.mp hm
    cases y with
    | nil => simp at hy
    | cons a y =>
      rw [← hw, List.cons_append] at e
      injection e with e1
      have := h a (by simp)
      rw [← e1, hd.1] at this; cases this
  | time hm =>
    obtain ⟨a, m, s, e, hl, _, h, _⟩ := Re.matches_time.mp hm
    cases a with
    | nil => simp at hl
    | cons a y =>
      rw [← hw, List.cons_append, List.cons_append] at e
      injection e with e1
      have := h a (by simp)
      rw [← e1, hd.1] at this; cases this
  | account hm =>
    obtain ⟨a, rest, e, ha, _⟩ := Re.matches_account_head hm
    rw [← hw] at e; injection e with e1
    rw [← e1, hd.2.1, hd.2.2] at ha; cases ha
  | string hm =>
    obtain ⟨b, e⟩ := Re.matches_string_ends hm
    rw [← hw, List.cons_append] at e; injection e with e1; tauto
  | number hm =>
    obtain ⟨a, rest, e, ha, _⟩ := Re.matches_number_head hm
    rw [← hw] at e; injection e with e1
    rw [← e1, hd.1] at ha; cases ha
  | tag => simp only [List.cons.injEq] at hw; tauto
  | link => simp only [List.cons.injEq] at hw; tauto
  | key hm =>
    obtain ⟨a, rest, e, ha, _⟩ := Re.matches_key.mp hm
    rw [← hw] at e; injection e with e1
    rw [← e1, hu.2] at ha; cases ha
  | eolThenIndent hm =>
    obtain ⟨a, rest, e, ha⟩ := matches_eol_head hm
    rw [← hw] at e; injection e with e1
    rcases ha with rfl | rfl | rfl <;> exact absurd e1 (by tauto)
  | eol hm =>
    obtain ⟨a, rest, e, ha⟩ := matches_eol_head hm
    rw [← hw] at e; injection e with e1
    rcases ha with rfl | rfl | rfl <;> exact absurd e1 (by tauto)
  | eolComment hm =>
    unfold reEolComment at hm
    simp only [Re.matches_seq, Re.matches_chr] at hm
    obtain ⟨_, r, e, rfl, _⟩ := hm
    rw [← hw, List.cons_append] at e; injection e with e1; tauto
  | skip _ h =>
    have := h x (by rw [← hw]; simp)
    tauto

theorem stops_solo {l : Logos} {x : Char} {s : Str} (hx : x = '(' ∨ x = '-' ∨ x = ',' ∨ x = '{' ∨ x = ':')
    (hc : x = '{' → s.head? ≠ some '{') : Stops l [x] s := by
  cases s with
  | nil => exact Stops.nil
  | cons c s => exact Stops.char (fun k v => not_reads_solo hx (fun h e => hc h (by rw [e]; rfl)))

theorem lexes_solo {l : Logos} {t : Token} {x : Char} {s : Str} {ts : List Token} (ht : (t, [x]) ∈ literals)
    (hx : x = '(' ∨ x = '-' ∨ x = ',' ∨ x = '{' ∨ x = ':') (hc : x = '{' → s.head? ≠ some '{') (hr : Lexes l s ts) :
    Lexes l (x :: s) (t :: ts) :=
  lexes_lit (t := []) ht (stops_solo hx hc) hr

end

end Lima
