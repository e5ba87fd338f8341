import Verif.Lemmas.Lexes

/-! Lexing one token and then the rest, for each kind of token. -/

namespace Lima
open Spec

section
variable [Categories]

/-- The first character of what is read as of a kind. -/
def HeadOk : Kind → Str → Char → Prop
  | .lit t, w, h => (t, w) ∈ literals ∨ h = ';' ∨ h = '\r' ∨ h = '\n'
  | .flagLetter, _, h => h = '\''
  | .currency, _, h => isAsciiUpper h = true ∨ h = '/'
  | .date, w, h => Categories.decimalDigit h = true ∧ ('-' ∈ w ∨ '/' ∈ w)
  | .time, w, h => Categories.decimalDigit h = true ∧ ':' ∈ w
  | .account, w, h => (Categories.upper h = true ∨ Categories.otherLetter h = true) ∧ ':' ∈ w
  | .stringLiteral, _, h => h = '"'
  | .number, _, h => Categories.decimalDigit h = true
  | .tag, _, h => h = '#'
  | .link, _, h => h = '^'
  | .key, _, h => isAsciiLower h = true
  | .skip, _, h => h = ' ' ∨ h = '\t'

theorem reads_head {k : Kind} {w : Str} (h : Reads k w) : ∃ c t, w = c :: t ∧ HeadOk k w c := by
  cases h with
  | @lit t w h =>
    cases w with
    | nil => exact absurd rfl (literals_ne_nil _ h)
    | cons c w => exact ⟨c, w, rfl, .inl h⟩
  | flag h => exact ⟨_, _, rfl, rfl⟩
  | currency h =>
    rcases Re.matches_currency.mp h with ⟨a, rest, rfl, ha, _⟩ | ⟨mid, a, rest, rfl, _⟩
    · exact ⟨_, _, rfl, .inl ha⟩
    · exact ⟨_, _, rfl, .inr rfl⟩
  | date h =>
    obtain ⟨y, s1, m, s2, d, rfl, hy, _, _, h1, _, hd⟩ := Re.matches_date.mp h
    cases y with
    | nil => simp at hy
    | cons c y =>
      refine ⟨c, _, rfl, hd c (by simp), ?_⟩
      rcases h1 with rfl | rfl <;> simp
  | time h =>
    obtain ⟨a, m, s, rfl, hl, _, hd, _⟩ := Re.matches_time.mp h
    cases a with
    | nil => simp at hl
    | cons c y => exact ⟨c, _, rfl, hd c (by simp), by simp⟩
  | account h =>
    obtain ⟨a, rest, rfl, ha, hc, _⟩ := Re.matches_account_head h
    exact ⟨a, rest, rfl, by simpa using ha, by simp [hc]⟩
  | string h =>
    obtain ⟨b, rfl⟩ := Re.matches_string_ends h
    exact ⟨_, _, rfl, rfl⟩
  | number h =>
    obtain ⟨a, rest, rfl, ha, _⟩ := Re.matches_number_head h
    exact ⟨a, rest, rfl, ha⟩
  | tag => exact ⟨_, _, rfl, rfl⟩
  | link => exact ⟨_, _, rfl, rfl⟩
  | key h =>
    obtain ⟨a, rest, rfl, ha, _⟩ := Re.matches_key.mp h
    exact ⟨a, rest, rfl, ha⟩
  | eolThenIndent h =>
    obtain ⟨a, rest, rfl, ha⟩ := matches_eol_head h
    exact ⟨a, rest, rfl, .inr ha⟩
  | eol h =>
    obtain ⟨a, rest, rfl, ha⟩ := matches_eol_head h
    exact ⟨a, rest, rfl, .inr ha⟩
  | eolComment h =>
    unfold reEolComment at h
    simp only [Re.matches_seq, Re.matches_chr] at h
    obtain ⟨_, r, rfl, rfl, _⟩ := h
    exact ⟨_, _, rfl, .inr (.inl rfl)⟩
  | @skip w h0 h =>
    cases w with
    | nil => exact absurd rfl h0
    | cons c w => exact ⟨c, w, rfl, h c (by simp)⟩

theorem headOk_of {k : Kind} {h : Char} {t : Str} (hr : Reads k (h :: t)) : HeadOk k (h :: t) h := by
  obtain ⟨c, t', e, hk⟩ := reads_head hr
  injection e with e1 _
  rw [e1]
  rw [e1] at hk
  exact hk

/-- What is known about an ASCII character. -/
theorem ascii_upper {c : Char} (h : isAsciiUpper c = true) : Categories.decimalDigit c = false ∧ isAsciiLower c = false ∧
    isAscii c = true ∧ isAsciiDigit c = false := by
  simp only [isAsciiUpper, decide_eq_true_eq] at h
  have ha : isAscii c = true := by simp only [isAscii, decide_eq_true_eq]; omega
  have hd : isAsciiDigit c = false := by simp only [isAsciiDigit, decide_eq_false_iff_not]; omega
  exact ⟨ascii_not_digit ha hd, by simp only [isAsciiLower, decide_eq_false_iff_not]; omega, ha, hd⟩

theorem ascii_lower {c : Char} (h : isAsciiLower c = true) : Categories.decimalDigit c = false ∧ isAsciiUpper c = false ∧
    Categories.upper c = false ∧ Categories.otherLetter c = false := by
  simp only [isAsciiLower, decide_eq_true_eq] at h
  have ha : isAscii c = true := by simp only [isAscii, decide_eq_true_eq]; omega
  have hd : isAsciiDigit c = false := by simp only [isAsciiDigit, decide_eq_false_iff_not]; omega
  have hu : isAsciiUpper c = false := by simp only [isAsciiUpper, decide_eq_false_iff_not]; omega
  exact ⟨ascii_not_digit ha hd, hu, by rw [Categories.upper_ascii c ha, hu], Categories.otherLetter_ascii c ha⟩

theorem ascii_digit {c : Char} (h : isAsciiDigit c = true) : Categories.decimalDigit c = true ∧ isAsciiLower c = false ∧
    isAsciiUpper c = false := by
  simp only [isAsciiDigit, decide_eq_true_eq] at h
  have ha : isAscii c = true := by simp only [isAscii, decide_eq_true_eq]; omega
  refine ⟨?_, by simp only [isAsciiLower, decide_eq_false_iff_not]; omega, by simp only [isAsciiUpper, decide_eq_false_iff_not]; omega⟩
  rw [Categories.decimalDigit_ascii c ha]
  simp only [isAsciiDigit, decide_eq_true_eq]; omega

/-- A decimal digit is none of the special characters. -/
theorem digit_special {c : Char} (h : Categories.decimalDigit c = true) : ¬ OddHead c ∧ c ≠ '\'' ∧ c ≠ '/' ∧ c ≠ '#' ∧ c ≠ '^' ∧
    c ≠ '}' ∧ isAsciiUpper c = false ∧ isAsciiLower c = false ∧ Categories.upper c = false ∧ Categories.otherLetter c = false ∧
    ∀ p ∈ literals, p.2.head? ≠ some c := by
  have key : ∀ x : Char, isAscii x = true → isAsciiDigit x = false → c ≠ x := by
    rintro x h1 h2 rfl
    rw [ascii_not_digit h1 h2] at h; cases h
  have hl := Categories.digit_not_letter c h
  refine ⟨?_, key _ (by decide) (by decide), key _ (by decide) (by decide), key _ (by decide) (by decide),
    key _ (by decide) (by decide), key _ (by decide) (by decide), ?_, ?_, hl.1, hl.2, ?_⟩
  · unfold OddHead
    simp only [not_or]
    exact ⟨key _ (by decide) (by decide), key _ (by decide) (by decide), key _ (by decide) (by decide),
      key _ (by decide) (by decide), key _ (by decide) (by decide), key _ (by decide) (by decide)⟩
  · cases hu : isAsciiUpper c with
    | false => rfl
    | true => rw [(ascii_upper hu).1] at h; cases h
  · cases hu : isAsciiLower c with
    | false => rfl
    | true => rw [(ascii_lower hu).1] at h; cases h
  · intro p hp e
    obtain ⟨_, h1, h2⟩ := literals_head p hp c e
    exact key c h1 h2 rfl

/-! ### Currencies -/

theorem reads_currency {k : Kind} {w : Str} (hm : Matches Re.currency w) (hl : ∀ t, (t, w) ∉ literals) (hr : Reads k w) :
    k = .currency := by
  have hchars : ':' ∉ w := by
    rcases Re.matches_currency.mp hm with ⟨a, rest, rfl, ha, hrest⟩ | ⟨mid, a, rest, rfl, hmid, ha, hrest⟩
    · intro h
      rcases List.mem_cons.mp h with rfl | h
      · exact absurd ha (by decide)
      · exact absurd (hrest _ h) (by decide)
    · intro h
      simp only [List.mem_cons, List.mem_append] at h
      rcases h with h | h | h | h
      · exact absurd h (by decide)
      · exact absurd (hmid _ h) (by decide)
      · subst h; exact absurd ha (by decide)
      · exact absurd (hrest _ h) (by decide)
  obtain ⟨c, t, rfl, hc⟩ := reads_head (.currency hm)
  have hk := headOk_of hr
  have hd : Categories.decimalDigit c = false ∧ isAsciiLower c = false ∧ c ≠ ';' ∧ c ≠ '\r' ∧ c ≠ '\n' ∧ c ≠ '\'' ∧ c ≠ '"' ∧
      c ≠ '#' ∧ c ≠ '^' ∧ c ≠ ' ' ∧ c ≠ '\t' := by
    rcases hc with hc | rfl
    · refine ⟨(ascii_upper hc).1, (ascii_upper hc).2.1, ?_⟩
      refine ⟨?_, ?_, ?_, ?_, ?_, ?_, ?_, ?_, ?_⟩ <;> (rintro rfl; exact absurd hc (by decide))
    · exact ⟨ascii_not_digit (by decide) (by decide), by decide⟩
  obtain ⟨d1, d2, d3, d4, d5, d6, d7, d8, d9, d10, d11⟩ := hd
  cases k with
  | lit t =>
    rcases hk with h | h | h | h
    · exact absurd h (hl t)
    · exact absurd h d3
    · exact absurd h d4
    · exact absurd h d5
  | currency => rfl
  | flagLetter => exact absurd hk d6
  | date => exact absurd hk.1 (by simp [d1])
  | time => exact absurd hk.1 (by simp [d1])
  | account => exact absurd hk.2 hchars
  | stringLiteral => exact absurd hk d7
  | number => exact absurd hk (by simp [HeadOk, d1])
  | tag => exact absurd hk d8
  | link => exact absurd hk d9
  | key => exact absurd hk (by simp [HeadOk, d2])
  | skip =>
    rcases hk with h | h
    · exact absurd h d10
    · exact absurd h d11

theorem currency_stops {l : Logos} {w s : Str} (hm : Matches Re.currency w) (hs : Sep s ∨ s.head? = some ',') : Stops l w s := by
  obtain ⟨c, t, rfl, hc⟩ := reads_head (.currency hm)
  have hd : Categories.decimalDigit c = false ∧ ¬ OddHead c ∧ c ≠ '}' := by
    rcases hc with hc | rfl
    · refine ⟨(ascii_upper hc).1, ?_, ?_⟩
      · rintro (rfl | rfl | rfl | rfl | rfl | rfl) <;> exact absurd hc (by decide)
      · rintro rfl; exact absurd hc (by decide)
    · exact ⟨ascii_not_digit (by decide) (by decide), by decide⟩
  rcases hs with hs | hs
  · exact stops_sep hs hd.2.1 hd.2.2 (fun v => not_number_of_head hd.1)
  · cases s with
    | nil => cases hs
    | cons x s =>
      injection hs with hs
      subst hs
      exact Stops.char (fun k v => not_reads_stop (by unfold StopChar; tauto) hd.2.1 (fun _ => not_number_of_head hd.1)
        (fun h => absurd h (by decide)) (fun h => absurd h (by decide)))

theorem lexes_currency {l : Logos} {w s : Str} {ts : List Token} (hm : Matches Re.currency w) (hl : ∀ t, (t, w) ∉ literals)
    (hs : Sep s ∨ s.head? = some ',') (hr : Lexes l s ts) : Lexes l (w ++ s) (.currency w :: ts) := by
  refine lexes_token ?_ (.currency hm) (currency_stops hm hs) (fun k hk _ => ?_) hr
  · obtain ⟨c, t, rfl, _⟩ := reads_head (.currency hm); simp
  · rw [reads_currency hm hl hk]; rfl

/-! ### Accounts -/

omit [Categories] in
theorem literals_colon : ∀ p ∈ literals, ':' ∈ p.2 → p.2 = [':'] := by decide +kernel

theorem reads_account {k : Kind} {w : Str} (hm : Matches Re.account w) (hr : Reads k w) : k = .account := by
  obtain ⟨c, t, rfl, hc, hcolon⟩ := reads_head (.account hm)
  have hk := headOk_of hr
  have key : ∀ x : Char, isAscii x = true → isAsciiUpper x = false → c ≠ x := by
    rintro x h1 h2 rfl
    rw [Categories.upper_ascii c h1, Categories.otherLetter_ascii c h1, h2] at hc
    rcases hc with hc | hc <;> cases hc
  have hd : Categories.decimalDigit c ≠ true := by
    intro h
    have := Categories.digit_not_letter c h
    rw [this.1, this.2] at hc
    rcases hc with hc | hc <;> cases hc
  cases k with
  | lit x =>
    rcases hk with h | h | h | h
    · have := literals_colon _ h hcolon
      simp only [List.cons.injEq] at this
      exact absurd this.1 (key _ (by decide) (by decide))
    · exact absurd h (key _ (by decide) (by decide))
    · exact absurd h (key _ (by decide) (by decide))
    · exact absurd h (key _ (by decide) (by decide))
  | currency =>
    cases hr with
    | currency hm' =>
      rcases Re.matches_currency.mp hm' with ⟨a, rest, e, ha, hrest⟩ | ⟨mid, a, rest, e, _⟩
      · rw [e] at hcolon
        rcases List.mem_cons.mp hcolon with rfl | h
        · exact absurd ha (by decide)
        · exact absurd (hrest _ h) (by decide)
      · injection e with e1
        exact absurd e1 (key _ (by decide) (by decide))
  | flagLetter => exact absurd hk (key _ (by decide) (by decide))
  | date => exact absurd hk.1 hd
  | time => exact absurd hk.1 hd
  | account => rfl
  | stringLiteral => exact absurd hk (key _ (by decide) (by decide))
  | number => exact absurd hk hd
  | tag => exact absurd hk (key _ (by decide) (by decide))
  | link => exact absurd hk (key _ (by decide) (by decide))
  | key =>
    have h1 := ascii_lower (c := c) hk
    rw [h1.2.2.1, h1.2.2.2] at hc
    rcases hc with hc | hc <;> cases hc
  | skip =>
    rcases hk with h | h
    · exact absurd h (key _ (by decide) (by decide))
    · exact absurd h (key _ (by decide) (by decide))

theorem lexes_account {l : Logos} {w s : Str} {ts : List Token} (hm : Matches Re.account w) (hs : Sep s) (hr : Lexes l s ts) :
    Lexes l (w ++ s) (.account w :: ts) := by
  obtain ⟨c, t, rfl, hc, hcolon⟩ := reads_head (.account hm)
  have key : ∀ x : Char, isAscii x = true → isAsciiUpper x = false → c ≠ x := by
    rintro x h1 h2 rfl
    rw [Categories.upper_ascii c h1, Categories.otherLetter_ascii c h1, h2] at hc
    rcases hc with hc | hc <;> cases hc
  have hd : Categories.decimalDigit c = false := by
    cases h : Categories.decimalDigit c with
    | false => rfl
    | true =>
      have := Categories.digit_not_letter c h
      rw [this.1, this.2] at hc
      rcases hc with hc | hc <;> cases hc
  refine lexes_token (by simp) (.account hm) (stops_sep hs ?_ (key _ (by decide) (by decide)) (fun v => not_number_of_head hd))
    (fun k hk _ => by rw [reads_account hm hk]; rfl) hr
  unfold OddHead
  simp only [not_or]
  exact ⟨key _ (by decide) (by decide), key _ (by decide) (by decide), key _ (by decide) (by decide),
    key _ (by decide) (by decide), key _ (by decide) (by decide), key _ (by decide) (by decide)⟩

/-! ### Dates -/

theorem reads_digit {k : Kind} {h : Char} {t : Str} (hd : Categories.decimalDigit h = true) (hr : Reads k (h :: t)) :
    k = .date ∨ k = .time ∨ k = .number := by
  obtain ⟨f1, f2, f3, f4, f5, f6, f7, f8, f9, f10, f11⟩ := digit_special hd
  have hk := headOk_of hr
  cases k with
  | lit x =>
    rcases hk with h' | h' | h' | h'
    · exact absurd rfl (f11 _ h')
    · exact absurd (.inr (.inl h')) f1
    · exact absurd (.inr (.inr (.inl h'))) f1
    · exact absurd (.inr (.inr (.inr (.inl h')))) f1
  | currency =>
    rcases hk with h' | h'
    · rw [f7] at h'; cases h'
    · exact absurd h' f3
  | flagLetter => exact absurd hk f2
  | date => exact .inl rfl
  | time => exact .inr (.inl rfl)
  | account =>
    have := hk.1
    rw [f9, f10] at this
    rcases this with h' | h' <;> cases h'
  | stringLiteral => exact absurd (.inl hk) f1
  | number => exact .inr (.inr rfl)
  | tag => exact absurd hk f4
  | link => exact absurd hk f5
  | key => exact absurd hk (by simp [HeadOk, f8])
  | skip =>
    rcases hk with h' | h'
    · exact absurd (.inr (.inr (.inr (.inr (.inl h'))))) f1
    · exact absurd (.inr (.inr (.inr (.inr (.inr h'))))) f1

theorem number_chars {w : Str} (h : Matches Re.number w) : ∀ c ∈ w, Categories.decimalDigit c = true ∨ c = ',' ∨ c = '.' := by
  obtain ⟨a, rest, rfl, ha, hr⟩ := Re.matches_number_head h
  intro c hc
  rcases List.mem_cons.mp hc with rfl | hc
  · exact .inl ha
  · exact hr c hc

theorem special_not_digit {c : Char} (h : c = '-' ∨ c = '/' ∨ c = ':' ∨ c = ' ' ∨ c = '.' ∨ c = ',') :
    Categories.decimalDigit c = false := by
  rcases h with rfl | rfl | rfl | rfl | rfl | rfl <;> exact ascii_not_digit (by decide) (by decide)

theorem date_chars {w : Str} (h : Matches Re.date w) : ∀ c ∈ w, Categories.decimalDigit c = true ∨ c = '-' ∨ c = '/' := by
  obtain ⟨y, s1, m, s2, d, rfl, _, _, _, h1, h2, hd⟩ := Re.matches_date.mp h
  intro x hx
  simp only [List.mem_append, List.mem_cons] at hx hd
  rcases hx with hx | rfl | hx | rfl | hx
  · exact .inl (hd x (.inl (.inl hx)))
  · exact .inr h1
  · exact .inl (hd x (.inl (.inr hx)))
  · exact .inr h2
  · exact .inl (hd x (.inr hx))

theorem reads_date {k : Kind} {w : Str} (hm : Matches Re.date w) (hr : Reads k w) : k = .date := by
  have hc := date_chars hm
  obtain ⟨c, t, rfl, hd, hsep⟩ := reads_head (.date hm)
  rcases reads_digit hd hr with rfl | rfl | rfl
  · rfl
  · have := (headOk_of hr).2
    rcases hc _ this with h | h | h
    · rw [special_not_digit (by decide)] at h; cases h
    · exact absurd h (by decide)
    · exact absurd h (by decide)
  · cases hr with
    | number hm' =>
      have hn := number_chars hm'
      rcases hsep with h' | h'
      all_goals
        rcases hn _ h' with h | h | h
        · rw [special_not_digit (by decide)] at h; cases h
        · exact absurd h (by decide)
        · exact absurd h (by decide)

theorem lexes_date {l : Logos} {w s : Str} {d : Date} {ts : List Token} (hm : Matches Re.date w) (hp : parseDate w = .ok d)
    (hs : Sep s) (hr : Lexes l s ts) : Lexes l (w ++ s) (.date d :: ts) := by
  have hsep : '-' ∈ w ∨ '/' ∈ w := by
    obtain ⟨c, t, rfl, _, h⟩ := reads_head (.date hm); exact h
  obtain ⟨c, t, rfl, hd, _⟩ := reads_head (.date hm)
  obtain ⟨f1, f2, f3, f4, f5, f6, _⟩ := digit_special hd
  refine lexes_token (by simp) (.date hm) (stops_sep hs f1 f6 ?_)
    (fun k hk _ => by rw [reads_date hm hk]; simp [tokenCallback, hp, Res.mapOk]) hr
  intro v hn
  have hn := number_chars hn
  rcases hsep with h' | h'
  all_goals
    rcases hn _ (List.mem_append_left _ h') with h | h | h
    · rw [special_not_digit (by decide)] at h; cases h
    · exact absurd h (by decide)
    · exact absurd h (by decide)

/-! ### Numbers -/

theorem reads_number {k : Kind} {w : Str} (hm : Matches Re.number w) (hr : Reads k w) : k = .number := by
  have hc := number_chars hm
  obtain ⟨c, t, rfl, hd⟩ := reads_head (.number hm)
  have key : ∀ x, (x = '-' ∨ x = '/' ∨ x = ':') → x ∉ c :: t := by
    intro x hx h'
    rcases hc _ h' with h | h | h
    · rw [special_not_digit (by tauto)] at h; cases h
    · subst h; revert hx; decide
    · subst h; revert hx; decide
  rcases reads_digit hd hr with rfl | rfl | rfl
  · rcases (headOk_of hr).2 with h | h
    · exact absurd h (key _ (by tauto))
    · exact absurd h (key _ (by tauto))
  · exact absurd (headOk_of hr).2 (key _ (by tauto))
  · rfl

theorem lexes_number {l : Logos} {w s : Str} {d : Dec} {ts : List Token} (hl : NumberThenComma l) (hm : Matches Re.number w)
    (hp : parseNumber l.otherNumber w = .ok d) (hs : Sep s) (hr : Lexes l s ts) : Lexes l (w ++ s) (.number d :: ts) := by
  have hstop : Stops l w s := by
    have hm' := hm
    obtain ⟨c, t, rfl, hd⟩ := reads_head (.number hm)
    obtain ⟨f1, f2, f3, f4, f5, f6, _⟩ := digit_special hd
    rcases hs with rfl | ⟨x, s', rfl, hs⟩
    · exact Stops.nil
    · by_cases hx : x = ','
      · subst hx
        obtain ⟨s'', rfl⟩ : ∃ s'', s' = ' ' :: s'' := by simpa using hs
        refine ⟨?_, .inl (hl _ _ hm')⟩
        intro k v hv hpre hk
        have hmem : ',' ∈ c :: t ++ v ∧ (v = [','] ∨ ' ' ∈ v) := by
          match v, hv with
          | [a], _ =>
            have := (List.cons_prefix_cons.mp hpre).1
            subst this; simp
          | a :: b :: v, _ =>
            obtain ⟨e1, hpre⟩ := List.cons_prefix_cons.mp hpre
            obtain ⟨e2, _⟩ := List.cons_prefix_cons.mp hpre
            subst e1; subst e2; simp
        rw [List.cons_append] at hk
        rcases reads_digit hd hk with rfl | rfl | rfl
        · cases hk with
          | date h =>
            rcases date_chars h _ hmem.1 with h | h | h
            · rw [special_not_digit (by decide)] at h; cases h
            · exact absurd h (by decide)
            · exact absurd h (by decide)
        · cases hk with
          | time h =>
            obtain ⟨a, m, s, e, _, _, hd', hs'⟩ := Re.matches_time.mp h
            have h := hmem.1
            rw [List.cons_append, e] at h
            simp only [List.mem_append, List.mem_cons] at h hd'
            have hno : ¬ Categories.decimalDigit ',' = true := by rw [special_not_digit (by decide)]; simp
            rcases h with (h | h | h) | h
            · exact hno (hd' _ (.inl h))
            · exact absurd h (by decide)
            · exact hno (hd' _ (.inr h))
            · rcases hs' with rfl | ⟨y, rfl, _, hy⟩
              · cases h
              · rcases List.mem_cons.mp h with h | h
                · exact absurd h (by decide)
                · exact hno (hy _ h)
        · cases hk with
          | number h =>
            rcases hmem.2 with rfl | h'
            · obtain ⟨init, z, e, hz⟩ := Re.matches_number_last h
              have : z = ',' := by
                rw [← List.cons_append] at e
                have := congrArg List.getLast? e
                rw [List.getLast?_concat, List.getLast?_concat] at this
                injection this with this
                exact this.symm
              rw [this, special_not_digit (by decide)] at hz; cases hz
            · rcases number_chars h ' ' (by rw [← List.cons_append]; exact List.mem_append_right _ h') with h | h | h
              · rw [special_not_digit (by decide)] at h; cases h
              · exact absurd h (by decide)
              · exact absurd h (by decide)
      · refine Stops.char (fun k v => not_reads_stop (by unfold StopChar; tauto) f1 (fun h => absurd h hx) ?_ ?_)
        · rintro rfl; simp at hs
        · rintro _ e; injection e with e; exact f6 e
  refine lexes_token ?_ (.number hm) hstop
    (fun k hk _ => by rw [reads_number hm hk]; simp [tokenCallback, hp, Res.ofCallback]) hr
  obtain ⟨c, t, rfl, _⟩ := reads_head (.number hm); simp

/-! ### The closing brace of a cost specification -/

theorem lexes_rcurl {l : Logos} {s : Str} {ts : List Token} (hs : s = [] ∨ s.head? = some ' ' ∨ s.head? = some '\n')
    (hr : Lexes l s ts) : Lexes l ('}' :: s) (.rcurl :: ts) := by
  refine lexes_lit (t := []) (x := .rcurl) (by decide) ?_ hr
  cases s with
  | nil => exact Stops.nil
  | cons c s =>
    have hc : c = ' ' ∨ c = '\n' := by simpa using hs
    refine Stops.char (fun k v => not_reads_stop ?_ (by decide) ?_ ?_ ?_)
    · rcases hc with rfl | rfl <;> decide
    · rintro rfl; exact absurd hc (by decide)
    · rintro rfl; exact absurd hc (by decide)
    · rintro rfl; exact absurd hc (by decide)

/-! ### Tags, links, flags -/

omit [Categories] in
theorem literals_hash : ∀ p ∈ literals, ∀ c ∈ p.2.head?, (c = '#' ∨ c = '^' ∨ c = '\'' ∨ c = '"') → p.2 = ['#'] := by
  decide +kernel

theorem lexes_tag {l : Logos} {w s : Str} {ts : List Token} (h0 : w ≠ []) (hw : ∀ c ∈ w, isTagChar c = true) (hs : Sep s)
    (hr : Lexes l s ts) : Lexes l ('#' :: w ++ s) (.tag w :: ts) := by
  refine lexes_token (by simp) (.tag h0 hw) (stops_sep hs (by decide) (by decide) (fun v =>
    not_number_of_head (ascii_not_digit (by decide) (by decide)))) (fun k hk _ => ?_) hr
  have : k = .tag := by
    have hh := headOk_of hk
    cases k with
    | lit t =>
      rcases hh with h | h | h | h
      · have := literals_hash _ h '#' rfl (by tauto)
        simp only [List.cons.injEq, true_and] at this
        exact absurd this h0
      all_goals exact absurd h (by decide)
    | tag => rfl
    | currency => rcases hh with h | h <;> exact absurd h (by decide)
    | date => exact absurd hh.1 (by rw [ascii_not_digit (by decide) (by decide)]; simp)
    | time => exact absurd hh.1 (by rw [ascii_not_digit (by decide) (by decide)]; simp)
    | number => exact absurd hh (by rw [HeadOk, ascii_not_digit (by decide) (by decide)]; simp)
    | account =>
      have := hh.1
      rw [Categories.upper_ascii '#' (by decide), Categories.otherLetter_ascii '#' (by decide)] at this
      exact absurd this (by decide)
    | skip => rcases hh with h | h <;> exact absurd h (by decide)
    | _ => exact absurd hh (by simp [HeadOk, isAsciiLower])
  subst this
  have : dropBytes 1 ('#' :: w) = some w := (dropBytes_iff _ _ _).mpr ⟨['#'], rfl, by decide⟩
  simp only [tokenCallback, afterFirstByte, this]

theorem lexes_link {l : Logos} {w s : Str} {ts : List Token} (h0 : w ≠ []) (hw : ∀ c ∈ w, isTagChar c = true) (hs : Sep s)
    (hr : Lexes l s ts) : Lexes l ('^' :: w ++ s) (.link w :: ts) := by
  refine lexes_token (by simp) (.link h0 hw) (stops_sep hs (by decide) (by decide) (fun v =>
    not_number_of_head (ascii_not_digit (by decide) (by decide)))) (fun k hk _ => ?_) hr
  have : k = .link := by
    have hh := headOk_of hk
    cases k with
    | lit t =>
      rcases hh with h | h | h | h
      · have := literals_hash _ h '^' rfl (by tauto)
        simp only [List.cons.injEq] at this
        exact absurd this.1 (by decide)
      all_goals exact absurd h (by decide)
    | link => rfl
    | currency => rcases hh with h | h <;> exact absurd h (by decide)
    | date => exact absurd hh.1 (by rw [ascii_not_digit (by decide) (by decide)]; simp)
    | time => exact absurd hh.1 (by rw [ascii_not_digit (by decide) (by decide)]; simp)
    | number => exact absurd hh (by rw [HeadOk, ascii_not_digit (by decide) (by decide)]; simp)
    | account =>
      have := hh.1
      rw [Categories.upper_ascii '^' (by decide), Categories.otherLetter_ascii '^' (by decide)] at this
      exact absurd this (by decide)
    | skip => rcases hh with h | h <;> exact absurd h (by decide)
    | _ => exact absurd hh (by simp [HeadOk, isAsciiLower])
  subst this
  have : dropBytes 1 ('^' :: w) = some w := (dropBytes_iff _ _ _).mpr ⟨['^'], rfl, by decide⟩
  simp only [tokenCallback, afterFirstByte, this]

theorem lexes_flagLetter {l : Logos} {c : Char} {s : Str} {ts : List Token} (hc : isAsciiUpper c = true) (hs : Sep s)
    (hr : Lexes l s ts) : Lexes l (['\'', c] ++ s) (.dedicatedFlag (.letter c) :: ts) := by
  refine lexes_token (by simp) (.flag hc) (stops_sep hs (by decide) (by decide) (fun v =>
    not_number_of_head (ascii_not_digit (by decide) (by decide)))) (fun k hk _ => ?_) hr
  have : k = .flagLetter := by
    have hh := headOk_of hk
    cases k with
    | lit t =>
      rcases hh with h | h | h | h
      · have := literals_hash _ h '\'' rfl (by tauto)
        simp only [List.cons.injEq] at this
        exact absurd this.1 (by decide)
      all_goals exact absurd h (by decide)
    | flagLetter => rfl
    | currency => rcases hh with h | h <;> exact absurd h (by decide)
    | date => exact absurd hh.1 (by rw [ascii_not_digit (by decide) (by decide)]; simp)
    | time => exact absurd hh.1 (by rw [ascii_not_digit (by decide) (by decide)]; simp)
    | number => exact absurd hh (by rw [HeadOk, ascii_not_digit (by decide) (by decide)]; simp)
    | account =>
      have := hh.1
      rw [Categories.upper_ascii '\'' (by decide), Categories.otherLetter_ascii '\'' (by decide)] at this
      exact absurd this (by decide)
    | skip => rcases hh with h | h <;> exact absurd h (by decide)
    | _ => exact absurd hh (by simp [HeadOk, isAsciiLower])
  subst this
  simp [tokenCallback, flagCallback, FlagLetter.tryFrom, if_pos hc]

/-! ### Strings -/

theorem reads_quote {k : Kind} {t : Str} (hr : Reads k ('"' :: t)) : k = .stringLiteral := by
  have hh := headOk_of hr
  cases k with
  | lit t =>
    rcases hh with h | h | h | h
    · have := literals_hash _ h '"' rfl (by tauto)
      simp only [List.cons.injEq] at this
      exact absurd this.1 (by decide)
    all_goals exact absurd h (by decide)
  | stringLiteral => rfl
  | currency => rcases hh with h | h <;> exact absurd h (by decide)
  | date => exact absurd hh.1 (by rw [ascii_not_digit (by decide) (by decide)]; simp)
  | time => exact absurd hh.1 (by rw [ascii_not_digit (by decide) (by decide)]; simp)
  | number => exact absurd hh (by rw [HeadOk, ascii_not_digit (by decide) (by decide)]; simp)
  | account =>
    have := hh.1
    rw [Categories.upper_ascii '"' (by decide), Categories.otherLetter_ascii '"' (by decide)] at this
    exact absurd this (by decide)
  | skip => rcases hh with h | h <;> exact absurd h (by decide)
  | _ => exact absurd hh (by simp [HeadOk, isAsciiLower])

theorem lexes_string {l : Logos} {w s : Str} {ts : List Token} (hw : ∀ c ∈ w, c ≠ '"' ∧ c ≠ '\\') (hr : Lexes l s ts) :
    Lexes l ('"' :: w ++ ['"'] ++ s) (.stringLiteral w :: ts) := by
  have hstop : Stops l ('"' :: w ++ ['"']) s := by
    cases s with
    | nil => exact Stops.nil
    | cons c s =>
      refine Stops.char (fun k v hk => ?_)
      have e : '"' :: w ++ ['"'] ++ c :: v = '"' :: w ++ '"' :: (c :: v) := by simp
      rw [e] at hk
      have := reads_quote hk
      subst this
      cases hk with
      | string hm => exact absurd (Re.string_stops hw hm) (by simp)
  refine lexes_token (by simp) (.string (Re.matches_plain_string hw)) hstop (fun k hk _ => ?_) hr
  rw [reads_quote hk]
  have : unescapeStringLiteral l.otherEscape w = .ok w := by
    unfold unescapeStringLiteral
    rw [if_neg]
    intro h
    exact (hw '\\' (by simpa using h)).2 rfl
  simp only [tokenCallback, stringCallback, slice_quoted, this, Res.mapOk]

/-! ### Keys -/

theorem lexes_key {l : Logos} {w s : Str} {ts : List Token} (hm : Matches Re.key w) (hr : Lexes l s ts) :
    ∃ t, (t = .key w ∨ potentialKey t = some w) ∧ Lexes l (w ++ ':' :: s) (t :: .colon :: ts) := by
  have hr' : Lexes l (':' :: s) (.colon :: ts) := lexes_solo (by decide) (by tauto) (fun h => absurd h (by decide)) hr
  obtain ⟨a, rest, rfl, ha, h0, hrest⟩ := Re.matches_key.mp hm
  have hstop : Stops l (a :: rest) (':' :: s) := by
    refine Stops.char (fun k v => not_reads_stop (by unfold StopChar; tauto) ?_ (fun h => absurd h (by decide)) (fun _ => ha)
      (fun h => absurd h (by decide)))
    rintro (rfl | rfl | rfl | rfl | rfl | rfl) <;> exact absurd ha (by decide)
  have hpot : ∀ p ∈ literals, ∀ c ∈ p.2.head?, isAsciiLower c = true → potentialKey p.1 = some p.2 := by decide +kernel
  by_cases hl : ∃ t, (t, a :: rest) ∈ literals
  · obtain ⟨t, ht⟩ := hl
    exact ⟨t, .inr (hpot _ ht a rfl ha), lexes_lit ht hstop hr'⟩
  · refine ⟨_, .inl rfl, lexes_token (by simp) (.key hm) hstop (fun k hk _ => ?_) hr'⟩
    have : k = .key := by
      have hh := headOk_of hk
      obtain ⟨d1, d2, d3, d4⟩ := ascii_lower ha
      have key : ∀ x : Char, isAsciiLower x = false → a ≠ x := by
        rintro x h2 rfl
        rw [ha] at h2; cases h2
      cases k with
      | lit t =>
        rcases hh with h | h | h | h
        · exact absurd ⟨t, h⟩ hl
        all_goals exact absurd h (key _ (by decide))
      | currency =>
        rcases hh with h | h
        · rw [d2] at h; cases h
        · exact absurd h (key _ (by decide))
      | flagLetter => exact absurd hh (key _ (by decide))
      | date => rw [HeadOk, d1] at hh; exact absurd hh.1 (by simp)
      | time => rw [HeadOk, d1] at hh; exact absurd hh.1 (by simp)
      | number => rw [HeadOk, d1] at hh; cases hh
      | account => rw [HeadOk, d3, d4] at hh; exact absurd hh.1 (by simp)
      | stringLiteral => exact absurd hh (key _ (by decide))
      | tag => exact absurd hh (key _ (by decide))
      | link => exact absurd hh (key _ (by decide))
      | key => rfl
      | skip =>
        rcases hh with h | h
        · exact absurd h (key _ (by decide))
        · exact absurd h (key _ (by decide))
    rw [this]; rfl

/-! ### White space and line ends -/

omit [Categories] in
theorem literals_blank : ∀ p ∈ literals, ∀ c ∈ p.2.head?, c ≠ ' ' ∧ c ≠ '\n' := by decide +kernel

theorem reads_blank {k : Kind} {t : Str} (hr : Reads k (' ' :: t)) : k = .skip := by
  have hh := headOk_of hr
  cases k with
  | lit t =>
    rcases hh with h | h | h | h
    · exact absurd rfl (literals_blank _ h ' ' rfl).1
    all_goals exact absurd h (by decide)
  | skip => rfl
  | currency => rcases hh with h | h <;> exact absurd h (by decide)
  | date => exact absurd hh.1 (by rw [ascii_not_digit (by decide) (by decide)]; simp)
  | time => exact absurd hh.1 (by rw [ascii_not_digit (by decide) (by decide)]; simp)
  | number => exact absurd hh (by rw [HeadOk, ascii_not_digit (by decide) (by decide)]; simp)
  | account =>
    have := hh.1
    rw [Categories.upper_ascii ' ' (by decide), Categories.otherLetter_ascii ' ' (by decide)] at this
    exact absurd this (by decide)
  | _ => exact absurd hh (by simp [HeadOk, isAsciiLower])

/-- The text does not start with white space. -/
def NoBlank (s : Str) : Prop := ∀ c ∈ s.head?, c ≠ ' ' ∧ c ≠ '\t'

theorem lexes_space {l : Logos} {s : Str} {ts : List Token} (hs : NoBlank s) (hr : Lexes l s ts) : Lexes l (' ' :: s) ts := by
  have hstop : Stops l [' '] s := by
    cases s with
    | nil => exact Stops.nil
    | cons c s =>
      refine Stops.char (fun k v hk => ?_)
      have := reads_blank hk
      subst this
      cases hk with
      | skip _ h => rcases h c (by simp) with h | h <;> simp [h, NoBlank] at hs
  exact lexes_skip (w := [' ']) (by simp) (.skip (by simp) (by simp)) hstop
    (fun k hk => by rw [reads_blank hk]; rfl) hr

theorem reads_newline {k : Kind} {t : Str} (hr : Reads k ('\n' :: t)) : k = .lit .eolThenIndent ∧
    Matches (.seq (.star .ignoredWholeLine) (.plus (.cls (oneOf [' ', '\t'])))) t ∨
    k = .lit .eol ∧ Matches (.star .ignoredWholeLine) t := by
  generalize hw : '\n' :: t = w at hr
  have hk := hr
  rw [← hw] at hk
  have hh := headOk_of hk
  cases hr with
  | lit h => exact absurd rfl (literals_blank _ (by rw [← hw] at h; exact h) '\n' rfl).2
  | eolThenIndent h =>
    left
    rcases (Re.matches_eol h).2 with ⟨r, e⟩ | ⟨r, e⟩ | ⟨r, e, hm⟩
    · rw [← hw] at e; injection e with e1; exact absurd e1 (by decide)
    · rw [← hw] at e; injection e with e1; exact absurd e1 (by decide)
    · rw [← hw] at e; injection e with _ e; rw [e]; exact ⟨rfl, hm⟩
  | eol h =>
    right
    rcases (Re.matches_eol h).2 with ⟨r, e⟩ | ⟨r, e⟩ | ⟨r, e, hm⟩
    · rw [← hw] at e; injection e with e1; exact absurd e1 (by decide)
    · rw [← hw] at e; injection e with e1; exact absurd e1 (by decide)
    · rw [← hw] at e; injection e with _ e; rw [e]; exact ⟨rfl, hm⟩
  | eolComment h =>
    unfold reEolComment at h
    simp only [Re.matches_seq, Re.matches_chr] at h
    obtain ⟨_, r, e, rfl, _⟩ := h
    rw [← hw] at e; injection e with e1; exact absurd e1 (by decide)
  | skip _ _ => rcases hh with h | h <;> exact absurd h (by decide)
  | currency => rcases hh with h | h <;> exact absurd h (by decide)
  | date => exact absurd hh.1 (by rw [ascii_not_digit (by decide) (by decide)]; simp)
  | time => exact absurd hh.1 (by rw [ascii_not_digit (by decide) (by decide)]; simp)
  | number => exact absurd hh (by rw [HeadOk, ascii_not_digit (by decide) (by decide)]; simp)
  | account =>
    have := hh.1
    rw [Categories.upper_ascii '\n' (by decide), Categories.otherLetter_ascii '\n' (by decide)] at this
    exact absurd this (by decide)
  | _ => exact absurd hh (by simp [HeadOk, isAsciiLower])

omit [Categories] in
theorem star_ignored_head {w : Str} (h : Matches (.star .ignoredWholeLine) w) :
    w = [] ∨ ∃ c r, w = c :: r ∧ oneOf ['*', '!', '&', '#', '?', '%', ':'] c = true := by
  cases w with
  | nil => exact .inl rfl
  | cons c w =>
    obtain ⟨u, v, rfl, hu, _⟩ := Re.matches_star_cons.mp h
    unfold Re.ignoredWholeLine at hu
    simp only [Re.matches_seq, Re.matches_cls] at hu
    obtain ⟨_, r, e, ⟨d, rfl, hd⟩, _⟩ := hu
    injection e with e1 _
    exact .inr ⟨c, _, rfl, by rw [e1]; exact hd⟩

/-- A line end and indentation. -/
theorem lexes_indent {l : Logos} {s : Str} {ts : List Token} (hs : NoBlank s) (hr : Lexes l s ts) :
    Lexes l ('\n' :: ' ' :: ' ' :: s) (.eolThenIndent :: ts) := by
  have hindent : ∀ {v : Str}, Matches (.seq (.star .ignoredWholeLine) (.plus (.cls (oneOf [' ', '\t'])))) (' ' :: v) →
      ∀ c ∈ v, c = ' ' ∨ c = '\t' := by
    intro v h
    simp only [Re.matches_seq, Re.matches_plus_cls] at h
    obtain ⟨u, w, e, hu, _, hw⟩ := h
    rcases star_ignored_head hu with rfl | ⟨c, r, rfl, hc⟩
    · rw [List.nil_append] at e
      subst e
      intro c hc
      simpa [oneOf] using hw c (by simp [hc])
    · injection e with e1
      subst e1
      exact absurd hc (by decide)
  have hnot : ∀ {v : Str}, ¬ Matches (.star .ignoredWholeLine) (' ' :: v) := by
    intro v h
    rcases star_ignored_head h with h | ⟨c, r, e, hc⟩
    · cases h
    · injection e with e1; subst e1; exact absurd hc (by decide)
  have hm : Reads (.lit .eolThenIndent) ['\n', ' ', ' '] := by
    refine .eolThenIndent ?_
    unfold reEolThenIndent Re.newline
    simp only [Re.matches_seq, Re.matches_opt, Re.matches_chr, Re.matches_plus_cls]
    exact ⟨[], _, rfl, .inr rfl, ['\n'], [' ', ' '], rfl, ⟨[], _, rfl, .inr rfl, rfl⟩, [], [' ', ' '], rfl, .none, by simp, by decide⟩
  have hstop : Stops l ['\n', ' ', ' '] s := by
    cases s with
    | nil => exact Stops.nil
    | cons c s =>
      refine Stops.char (fun k v hk => ?_)
      rcases reads_newline (t := ' ' :: ' ' :: c :: v) hk with ⟨_, h⟩ | ⟨_, h⟩
      · rcases hindent h c (by simp) with h | h <;> simp [h, NoBlank] at hs
      · exact hnot h
  refine lexes_token (w := ['\n', ' ', ' ']) (by simp) hm hstop (fun k hk _ => ?_) hr
  rcases reads_newline (t := [' ', ' ']) hk with ⟨rfl, _⟩ | ⟨_, h⟩
  · rfl
  · exact absurd h hnot

/-- A line end before a line which starts at the margin. -/
theorem lexes_eol {l : Logos} {s : Str} {ts : List Token}
    (hs : ∀ c ∈ s.head?, c ≠ ' ' ∧ c ≠ '\t' ∧ oneOf ['*', '!', '&', '#', '?', '%', ':'] c = false)
    (hr : Lexes l s ts) : Lexes l ('\n' :: s) (.eol :: ts) := by
  have hm : Reads (.lit .eol) ['\n'] := by
    refine .eol ?_
    unfold reEol Re.newline
    simp only [Re.matches_seq, Re.matches_opt, Re.matches_chr]
    exact ⟨[], _, rfl, .inr rfl, ['\n'], [], rfl, ⟨[], _, rfl, .inr rfl, rfl⟩, .none⟩
  have hindent : ∀ {v : Str}, Matches (.seq (.star .ignoredWholeLine) (.plus (.cls (oneOf [' ', '\t'])))) v →
      ∃ c r, v = c :: r ∧ (c = ' ' ∨ c = '\t' ∨ oneOf ['*', '!', '&', '#', '?', '%', ':'] c = true) := by
    intro v h
    simp only [Re.matches_seq, Re.matches_plus_cls] at h
    obtain ⟨u, w, rfl, hu, h0, hw⟩ := h
    rcases star_ignored_head hu with rfl | ⟨c, r, rfl, hc⟩
    · cases w with
      | nil => exact absurd rfl h0
      | cons c w =>
        have := hw c (by simp)
        simp only [oneOf, List.contains_cons, List.contains_nil, Bool.or_false, Bool.or_eq_true, beq_iff_eq] at this
        exact ⟨c, w, rfl, by tauto⟩
    · exact ⟨c, _, rfl, .inr (.inr hc)⟩
  have hstop : Stops l ['\n'] s := by
    cases s with
    | nil => exact Stops.nil
    | cons c s =>
      have hs := hs c rfl
      refine Stops.char (fun k v hk => ?_)
      rcases reads_newline (t := c :: v) hk with ⟨_, h⟩ | ⟨_, h⟩
      · obtain ⟨d, r, e, h⟩ := hindent h
        injection e with e1
        subst e1
        rw [hs.2.2] at h
        rcases h with h | h | h
        · exact hs.1 h
        · exact hs.2.1 h
        · cases h
      · rcases star_ignored_head h with h | ⟨d, r, e, h⟩
        · cases h
        · injection e with e1
          subst e1
          rw [hs.2.2] at h; cases h
  refine lexes_token (w := ['\n']) (by simp) hm hstop (fun k hk _ => ?_) hr
  rcases reads_newline (t := []) hk with ⟨_, h⟩ | ⟨rfl, _⟩
  · obtain ⟨d, r, e, _⟩ := hindent h; cases e
  · rfl

end

end Lima
