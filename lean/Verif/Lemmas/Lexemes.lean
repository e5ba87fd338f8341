import Verif.Spec.Lexemes
import Verif.Lemmas.Reads

/-! The patterns match exactly the lexemes. -/

namespace Lima
open Spec

set_option linter.unusedSectionVars false

theorem upper_iff {c : Char} : Upper c ↔ isAsciiUpper c = true := by
  simp only [isAsciiUpper, decide_eq_true_eq]; exact Iff.rfl

theorem lower_iff {c : Char} : Lower c ↔ isAsciiLower c = true := by
  simp only [isAsciiLower, decide_eq_true_eq]; exact Iff.rfl

theorem digit_iff {c : Char} : Digit c ↔ isAsciiDigit c = true := by
  simp only [isAsciiDigit, decide_eq_true_eq]; exact Iff.rfl

theorem in_iff {s : String} {c : Char} {l : List Char} (h : s.toList = l) : In s c ↔ oneOf l c = true := by
  unfold In oneOf
  rw [h, List.contains_iff_mem]

theorem currencyChar_iff {c : Char} : (Upper c ∨ Digit c ∨ In "'._-" c) ↔ isCurrencyChar c = true := by
  unfold isCurrencyChar
  rw [upper_iff, digit_iff, in_iff (s := "'._-") (l := ['\'', '.', '_', '-']) rfl]
  simp only [Bool.or_eq_true, or_assoc]

theorem slashChar_iff {c : Char} : (Digit c ∨ In "'._-" c) ↔ (isAsciiDigit c || oneOf ['\'', '.', '_', '-'] c) = true := by
  rw [digit_iff, in_iff (s := "'._-") (l := ['\'', '.', '_', '-']) rfl, Bool.or_eq_true]

theorem tagLexemeChar_iff {c : Char} : (Upper c ∨ Lower c ∨ Digit c ∨ In "-_/." c) ↔ isTagChar c = true := by
  unfold isTagChar
  rw [upper_iff, lower_iff, digit_iff, in_iff (s := "-_/.") (l := ['-', '_', '/', '.']) rfl]
  simp only [Bool.or_eq_true, or_assoc]

theorem keyChar_iff {c : Char} : (Upper c ∨ Lower c ∨ Digit c ∨ In "-_" c) ↔ isKeyChar c = true := by
  unfold isKeyChar
  rw [upper_iff, lower_iff, digit_iff, in_iff (s := "-_") (l := ['-', '_']) rfl]
  simp only [Bool.or_eq_true, or_assoc]
  tauto

theorem fixed_iff {t : Token} {w : Str} : Fixed t w ↔ (t, w) ∈ literals := by
  have e : literals = fixedTexts.map (fun p => (p.2, p.1.toList)) := by decide +kernel
  rw [e, List.mem_map]
  constructor
  · rintro ⟨s, h, rfl⟩; exact ⟨_, h, rfl⟩
  · rintro ⟨⟨s, t'⟩, h, e⟩
    cases e
    exact ⟨s, h, rfl⟩

theorem matches_newline {w : Str} : Matches Re.newline w ↔ Newline w := by
  unfold Re.newline Newline
  simp only [Re.matches_seq, Re.matches_opt, Re.matches_chr]
  constructor
  · rintro ⟨_, _, rfl, rfl | rfl, rfl⟩
    · exact .inr rfl
    · exact .inl rfl
  · rintro (rfl | rfl)
    · exact ⟨[], ['\n'], rfl, .inr rfl, rfl⟩
    · exact ⟨['\r'], ['\n'], rfl, .inl rfl, rfl⟩

theorem matches_dots {w : Str} : Matches (.star Re.dot) w ↔ '\n' ∉ w := by
  unfold Re.dot
  rw [Re.matches_star_cls]
  constructor
  · intro h hn
    simpa using h _ hn
  · intro h c hc
    simp only [decide_eq_true_eq]
    rintro rfl
    exact h hc

theorem matches_comment {w : Str} : Matches Re.commentToEol w ↔ Comment w := by
  unfold Re.commentToEol Comment
  simp only [Re.matches_seq, Re.matches_chr, matches_dots]
  constructor
  · rintro ⟨_, rest, rfl, rfl, h⟩; exact ⟨rest, rfl, h⟩
  · rintro ⟨rest, rfl, h⟩; exact ⟨[';'], rest, rfl, rfl, h⟩

theorem matches_ignored {w : Str} : Matches Re.ignoredWholeLine w ↔ IgnoredLine w := by
  unfold Re.ignoredWholeLine IgnoredLine
  simp only [Re.matches_seq, Re.matches_cls, matches_dots, matches_newline]
  constructor
  · rintro ⟨_, _, rfl, ⟨c, rfl, hc⟩, rest, nl, rfl, h, hn⟩
    exact ⟨c, rest, nl, by simp, (in_iff rfl).mpr hc, h, hn⟩
  · rintro ⟨c, rest, nl, rfl, hc, h, hn⟩
    exact ⟨[c], rest ++ nl, by simp, ⟨c, rfl, (in_iff rfl).mp hc⟩, rest, nl, rfl, h, hn⟩

theorem matches_star {r : Re} {p : Str → Prop} (h : ∀ w, Matches r w ↔ p w) {w : Str} : Matches (.star r) w ↔ Texts p w := by
  constructor
  · intro hm
    generalize hr : Re.star r = q at hm
    induction hm with
    | none => exact .nil
    | more h1 _ _ ih =>
      cases hr
      exact .cons ((h _).mp h1) (ih rfl)
    | _ => cases hr
  · intro hm
    induction hm with
    | nil => exact .none
    | cons h1 _ ih => exact .more ((h _).mpr h1) ih

theorem matches_lineEnd {w : Str} : Matches reEol w ↔ LineEnding w := by
  unfold reEol LineEnding
  simp only [Re.matches_seq, Re.matches_opt, matches_comment, matches_newline, matches_star (fun _ => matches_ignored)]
  constructor
  · rintro ⟨c, _, rfl, hc, nl, ig, rfl, hn, hi⟩
    exact ⟨c, nl, ig, by simp, hc.symm, hn, hi⟩
  · rintro ⟨c, nl, ig, rfl, hc, hn, hi⟩
    exact ⟨c, nl ++ ig, by simp, hc.symm, nl, ig, rfl, hn, hi⟩

theorem matches_blanks {w : Str} : Matches (.plus (.cls (oneOf [' ', '\t']))) w ↔ Blanks w := by
  rw [Re.matches_plus_cls]
  simp [Blanks, oneOf]

theorem matches_lineEndIndent {w : Str} : Matches reEolThenIndent w ↔ ∃ e b, w = e ++ b ∧ LineEnding e ∧ Blanks b := by
  unfold reEolThenIndent
  rw [Re.matches_seq]
  constructor
  · rintro ⟨c, _, rfl, hc, h⟩
    obtain ⟨nl, _, rfl, hn, h⟩ := Re.matches_seq.mp h
    obtain ⟨ig, b, rfl, hi, hb⟩ := Re.matches_seq.mp h
    exact ⟨c ++ nl ++ ig, b, by simp, matches_lineEnd.mp (by
      unfold reEol
      rw [List.append_assoc]
      exact .seq hc (.seq hn hi)), matches_blanks.mp hb⟩
  · rintro ⟨e, b, rfl, he, hb⟩
    have he := matches_lineEnd.mpr he
    unfold reEol at he
    obtain ⟨c, _, rfl, hc, h⟩ := Re.matches_seq.mp he
    obtain ⟨nl, ig, rfl, hn, hi⟩ := Re.matches_seq.mp h
    exact ⟨c, nl ++ ig ++ b, by simp, hc, by
      rw [List.append_assoc]
      exact .seq hn (.seq hi (matches_blanks.mpr hb))⟩

theorem matches_lastComment {w : Str} : Matches reEolComment w ↔ ∃ rest, w = ';' :: rest ∧ '\r' ∉ rest ∧ '\n' ∉ rest := by
  unfold reEolComment
  simp only [Re.matches_seq, Re.matches_chr, Re.matches_star_cls]
  constructor
  · rintro ⟨_, rest, rfl, rfl, h⟩
    exact ⟨rest, rfl, fun hn => by simpa using h _ hn, fun hn => by simpa using h _ hn⟩
  · rintro ⟨rest, rfl, h1, h2⟩
    refine ⟨[';'], rest, rfl, rfl, fun c hc => ?_⟩
    simp only [Bool.and_eq_true, decide_eq_true_eq]
    exact ⟨fun e => h1 (e ▸ hc), fun e => h2 (e ▸ hc)⟩

theorem matches_quoted {w : Str} : Matches (.star (.alt (.cls (fun c => decide (c ≠ '\\') && decide (c ≠ '"')))
    (.seq (.chr '\\') .dot))) w ↔ Quoted w := by
  constructor
  · intro hm
    generalize hr : Re.star _ = q at hm
    induction hm with
    | none => exact .nil
    | more h1 _ _ ih =>
      cases hr
      rcases Re.matches_alt.mp h1 with h | h
      · obtain ⟨c, rfl, hc⟩ := Re.matches_cls.mp h
        simp only [Bool.and_eq_true, decide_eq_true_eq] at hc
        exact .plain hc.2 hc.1 (ih rfl)
      · obtain ⟨_, _, rfl, h2, h3⟩ := Re.matches_seq.mp h
        rw [Re.matches_chr.mp h2]
        obtain ⟨c, rfl, hc⟩ := Re.matches_cls.mp h3
        exact .escaped (by simpa using hc) (ih rfl)
    | _ => cases hr
  · intro hm
    induction hm with
    | nil => exact .none
    | @plain c s h1 h2 _ ih =>
      exact Matches.more (u := [c]) (.left (.cls (by simp [h1, h2]))) ih
    | @escaped c s h _ ih =>
      exact Matches.more (u := ['\\', c]) (.right (.seq (u := ['\\']) (Re.matches_chr.mpr rfl) (.cls (by simpa using h)))) ih

theorem matches_string {w : Str} : Matches Re.stringLiteral w ↔ ∃ body, w = '"' :: body ++ ['"'] ∧ Quoted body := by
  unfold Re.stringLiteral
  rw [Re.matches_seq]
  constructor
  · rintro ⟨_, _, rfl, h1, h⟩
    obtain ⟨b, _, rfl, hb, h2⟩ := Re.matches_seq.mp h
    rw [Re.matches_chr.mp h1, Re.matches_chr.mp h2]
    exact ⟨b, rfl, matches_quoted.mp hb⟩
  · rintro ⟨b, rfl, hb⟩
    exact ⟨['"'], b ++ ['"'], rfl, Re.matches_chr.mpr rfl, .seq (matches_quoted.mpr hb) (Re.matches_chr.mpr rfl)⟩

section
variable [Categories]

theorem digits_iff {n : Nat} {w : Str} : Matches (.times Re.digit n) w ↔ Digits n w := Re.matches_times_cls

theorem digitsPlus_iff {w : Str} : Matches (.plus Re.digit) w ↔ w ≠ [] ∧ Digits w.length w := by
  unfold Re.digit
  rw [Re.matches_plus_cls]
  simp [Digits]

theorem texts_groups {w : Str} : Texts (fun u => ∃ g, u = ',' :: g ∧ Digits 3 g) w ↔
    ∃ groups : List Str, w = groups.flatMap (',' :: ·) ∧ ∀ g ∈ groups, Digits 3 g := by
  constructor
  · intro h
    induction h with
    | nil => exact ⟨[], rfl, by simp⟩
    | cons h1 _ ih =>
      obtain ⟨g, rfl, hg⟩ := h1
      obtain ⟨gs, rfl, hgs⟩ := ih
      exact ⟨g :: gs, by simp, by simpa using ⟨hg, hgs⟩⟩
  · rintro ⟨gs, rfl, h⟩
    induction gs with
    | nil => exact .nil
    | cons g gs ih =>
      rw [List.flatMap_cons]
      exact .cons ⟨g, rfl, h g (by simp)⟩ (ih (fun x hx => h x (by simp [hx])))

theorem matches_number {w : Str} : Matches Re.number w ↔ Lexeme .number w := by
  unfold Re.number
  have hg : ∀ u, Matches (.seq (.chr ',') (.times Re.digit 3)) u ↔ ∃ g, u = ',' :: g ∧ Digits 3 g := by
    intro u
    simp only [Re.matches_seq, Re.matches_chr, digits_iff]
    constructor
    · rintro ⟨_, g, rfl, rfl, h⟩; exact ⟨g, rfl, h⟩
    · rintro ⟨g, rfl, h⟩; exact ⟨[','], g, rfl, rfl, h⟩
  simp only [Re.matches_seq, Re.matches_opt, digitsPlus_iff, matches_star hg, texts_groups, Re.matches_chr]
  constructor
  · rintro ⟨f, _, rfl, ⟨h0, h1⟩, _, fr, rfl, ⟨gs, rfl, hgs⟩, ⟨_, x, rfl, rfl, h2, h3⟩ | rfl⟩
    · have := Lexeme.numberFraction h0 h1 hgs h2 h3
      simpa using this
    · have := Lexeme.number h0 h1 hgs
      simpa using this
  · intro h
    cases h with
    | @number f gs h0 h1 hgs => exact ⟨f, _, rfl, ⟨h0, h1⟩, _, [], by simp, ⟨gs, rfl, hgs⟩, .inr rfl⟩
    | @numberFraction f x gs h0 h1 hgs h2 h3 =>
      exact ⟨f, gs.flatMap (',' :: ·) ++ '.' :: x, by simp, ⟨h0, h1⟩, _, '.' :: x, rfl, ⟨gs, rfl, hgs⟩, .inl ⟨['.'], x, rfl, rfl, h2, h3⟩⟩

theorem accountChars_iff {w : Str} : Matches (.star (.cls isAccountChar)) w ↔ ∀ c ∈ w, AccountChar c := by
  rw [Re.matches_star_cls]
  unfold isAccountChar AccountChar
  simp only [Bool.or_eq_true, decide_eq_true_eq, or_assoc]

theorem matches_component {w : Str} : Matches Re.accountName w ↔ Component w := by
  unfold Re.accountName Component
  simp only [Re.matches_seq, Re.matches_cls, accountChars_iff, Bool.or_eq_true, or_assoc]
  constructor
  · rintro ⟨_, r, rfl, ⟨a, rfl, ha⟩, hr⟩; exact ⟨a, r, rfl, ha, hr⟩
  · rintro ⟨a, r, rfl, ha, hr⟩; exact ⟨[a], r, rfl, ⟨a, rfl, ha⟩, hr⟩

theorem texts_components {w : Str} : Texts (fun u => ∃ g, u = ':' :: g ∧ Component g) w ↔
    ∃ cs : List Str, w = cs.flatMap (':' :: ·) ∧ ∀ g ∈ cs, Component g := by
  constructor
  · intro h
    induction h with
    | nil => exact ⟨[], rfl, by simp⟩
    | cons h1 _ ih =>
      obtain ⟨g, rfl, hg⟩ := h1
      obtain ⟨gs, rfl, hgs⟩ := ih
      exact ⟨g :: gs, by simp, by simpa using ⟨hg, hgs⟩⟩
  · rintro ⟨gs, rfl, h⟩
    induction gs with
    | nil => exact .nil
    | cons g gs ih =>
      rw [List.flatMap_cons]
      exact .cons ⟨g, rfl, h g (by simp)⟩ (ih (fun x hx => h x (by simp [hx])))

theorem joinColon_flatMap (w : Str) (ws : List Str) : joinColon (w :: ws) = w ++ ws.flatMap (':' :: ·) := by
  induction ws generalizing w with
  | nil => simp [joinColon]
  | cons v ws ih => rw [joinColon, ih, List.flatMap_cons, List.cons_append]; simp

theorem matches_account {w : Str} : Matches Re.account w ↔ Lexeme .account w := by
  have hg : ∀ u, Matches (.seq (.chr ':') Re.accountName) u ↔ ∃ g, u = ':' :: g ∧ Component g := by
    intro u
    simp only [Re.matches_seq, Re.matches_chr, matches_component]
    constructor
    · rintro ⟨_, g, rfl, rfl, h⟩; exact ⟨g, rfl, h⟩
    · rintro ⟨g, rfl, h⟩; exact ⟨[':'], g, rfl, rfl, h⟩
  unfold Re.account Re.plus Re.accountType
  rw [Re.matches_seq]
  constructor
  · rintro ⟨_, _, rfl, h1, h2⟩
    obtain ⟨_, r, rfl, ha, hr⟩ := Re.matches_seq.mp h1
    obtain ⟨a, rfl, ha'⟩ := Re.matches_cls.mp ha
    obtain ⟨_, _, rfl, hf, ho⟩ := Re.matches_seq.mp h2
    obtain ⟨f, rfl, hf'⟩ := (hg _).mp hf
    obtain ⟨os, rfl, hos⟩ := texts_components.mp ((matches_star hg).mp ho)
    have := Lexeme.account (a := a) (rest := r) (by simpa using ha') (accountChars_iff.mp hr) hf' hos
    rw [joinColon_flatMap] at this
    simpa using this
  · intro h
    cases h with
    | @account a r f os ha hr hf hos =>
      refine ⟨a :: r, (f :: os).flatMap (':' :: ·), joinColon_flatMap _ _, ?_, ?_⟩
      · exact .seq (u := [a]) (.cls (by simpa using ha)) (accountChars_iff.mpr hr)
      · rw [List.flatMap_cons]
        exact .seq ((hg _).mpr ⟨f, rfl, hf⟩) ((matches_star hg).mpr (texts_components.mpr ⟨os, rfl, hos⟩))

theorem matches_dateLexeme {w : Str} : Matches Re.date w ↔ Lexeme .date w := by
  rw [Re.matches_date]
  have hs : ∀ c, In "-/" c ↔ c = '-' ∨ c = '/' := by intro c; simp [In]
  constructor
  · rintro ⟨y, s1, m, s2, d, rfl, hy, hm, hd, h1, h2, h⟩
    exact .date ⟨hy, fun c hc => h c (by simp [hc])⟩ ⟨hm, fun c hc => h c (by simp [hc])⟩
      ⟨hd, fun c hc => h c (by simp [hc])⟩ ((hs _).mpr h1) ((hs _).mpr h2)
  · intro h
    cases h with
    | @date y m d s1 s2 hy hm hd h1 h2 =>
      refine ⟨y, s1, m, s2, d, rfl, hy.1, hm.1, hd.1, (hs _).mp h1, (hs _).mp h2, ?_⟩
      intro c hc
      simp only [List.mem_append] at hc
      rcases hc with (hc | hc) | hc
      · exact hy.2 c hc
      · exact hm.2 c hc
      · exact hd.2 c hc

theorem matches_timeLexeme {w : Str} : Matches Re.time w ↔ Lexeme .time w := by
  rw [Re.matches_time]
  constructor
  · rintro ⟨h, m, s, rfl, hh, hm, hd, hs⟩
    have h1 : Digits 1 h ∨ Digits 2 h := by
      rcases hh with hh | hh
      · exact .inl ⟨hh, fun c hc => hd c (by simp [hc])⟩
      · exact .inr ⟨hh, fun c hc => hd c (by simp [hc])⟩
    have h2 : Digits 2 m := ⟨hm, fun c hc => hd c (by simp [hc])⟩
    rcases hs with rfl | ⟨x, rfl, hx, hx'⟩
    · have := Lexeme.time h1 h2
      simpa using this
    · have := Lexeme.timeSeconds h1 h2 ⟨hx, hx'⟩
      simpa using this
  · intro h
    cases h with
    | @time h m hh hm =>
      refine ⟨h, m, [], by simp, hh.imp And.left And.left, hm.1, ?_, .inl rfl⟩
      intro c hc
      rcases List.mem_append.mp hc with hc | hc
      · exact hh.elim (fun h => h.2 c hc) (fun h => h.2 c hc)
      · exact hm.2 c hc
    | @timeSeconds h m s hh hm hs =>
      refine ⟨h, m, ':' :: s, by simp, hh.imp And.left And.left, hm.1, ?_, .inr ⟨s, rfl, hs⟩⟩
      intro c hc
      rcases List.mem_append.mp hc with hc | hc
      · exact hh.elim (fun h => h.2 c hc) (fun h => h.2 c hc)
      · exact hm.2 c hc

theorem matches_currencyLexeme {w : Str} : Matches Re.currency w ↔ Lexeme .currency w := by
  rw [Re.matches_currency]
  constructor
  · rintro (⟨a, rest, rfl, ha, hr⟩ | ⟨mid, a, rest, rfl, hm, ha, hr⟩)
    · exact .currency (upper_iff.mpr ha) (fun c hc => currencyChar_iff.mpr (hr c hc))
    · exact .slashCurrency (fun c hc => slashChar_iff.mpr (hm c hc)) (upper_iff.mpr ha)
        (fun c hc => currencyChar_iff.mpr (hr c hc))
  · intro h
    cases h with
    | currency ha hr => exact .inl ⟨_, _, rfl, upper_iff.mp ha, fun c hc => currencyChar_iff.mp (hr c hc)⟩
    | slashCurrency hm ha hr =>
      exact .inr ⟨_, _, _, rfl, fun c hc => slashChar_iff.mp (hm c hc), upper_iff.mp ha,
        fun c hc => currencyChar_iff.mp (hr c hc)⟩

/-- The lexemes are the texts the patterns match. -/
theorem lexeme_iff {k : Kind} {w : Str} : Lexeme k w ↔ Reads k w := by
  constructor
  · intro h
    cases h with
    | fixed h => exact .lit (fixed_iff.mp h)
    | flag h => exact .flag (upper_iff.mp h)
    | currency ha hr => exact .currency (matches_currencyLexeme.mpr (.currency ha hr))
    | slashCurrency hm ha hr => exact .currency (matches_currencyLexeme.mpr (.slashCurrency hm ha hr))
    | date h1 h2 h3 h4 h5 => exact .date (matches_dateLexeme.mpr (.date h1 h2 h3 h4 h5))
    | time h1 h2 => exact .time (matches_timeLexeme.mpr (.time h1 h2))
    | timeSeconds h1 h2 h3 => exact .time (matches_timeLexeme.mpr (.timeSeconds h1 h2 h3))
    | account h1 h2 h3 h4 => exact .account (matches_account.mpr (.account h1 h2 h3 h4))
    | string h => exact .string (matches_string.mpr ⟨_, rfl, h⟩)
    | number h1 h2 h3 => exact .number (matches_number.mpr (.number h1 h2 h3))
    | numberFraction h1 h2 h3 h4 h5 => exact .number (matches_number.mpr (.numberFraction h1 h2 h3 h4 h5))
    | tag h0 h => exact .tag h0 (fun c hc => tagLexemeChar_iff.mp (h c hc))
    | link h0 h => exact .link h0 (fun c hc => tagLexemeChar_iff.mp (h c hc))
    | key ha h0 h => exact .key (Re.matches_key.mpr ⟨_, _, rfl, lower_iff.mp ha, h0, fun c hc => keyChar_iff.mp (h c hc)⟩)
    | lineEndIndent h1 h2 => exact .eolThenIndent (matches_lineEndIndent.mpr ⟨_, _, rfl, h1, h2⟩)
    | lineEnd h => exact .eol (matches_lineEnd.mpr h)
    | comment h1 h2 => exact .eolComment (matches_lastComment.mpr ⟨_, rfl, h1, h2⟩)
    | blanks h => exact .skip h.1 h.2
  · intro h
    cases h with
    | lit h => exact .fixed (fixed_iff.mpr h)
    | flag h => exact .flag (upper_iff.mpr h)
    | currency h => exact matches_currencyLexeme.mp h
    | date h => exact matches_dateLexeme.mp h
    | time h => exact matches_timeLexeme.mp h
    | account h => exact matches_account.mp h
    | string h => obtain ⟨_, rfl, h'⟩ := matches_string.mp h; exact .string h'
    | number h => exact matches_number.mp h
    | tag h0 h => exact .tag h0 (fun c hc => tagLexemeChar_iff.mpr (h c hc))
    | link h0 h => exact .link h0 (fun c hc => tagLexemeChar_iff.mpr (h c hc))
    | key h =>
      obtain ⟨_, _, rfl, ha, h0, h⟩ := Re.matches_key.mp h
      exact .key (lower_iff.mpr ha) h0 (fun c hc => keyChar_iff.mpr (h c hc))
    | eolThenIndent h => obtain ⟨_, _, rfl, h1, h2⟩ := matches_lineEndIndent.mp h; exact .lineEndIndent h1 h2
    | eol h => exact .lineEnd (matches_lineEnd.mp h)
    | eolComment h => obtain ⟨_, rfl, h1, h2⟩ := matches_lastComment.mp h; exact .comment h1 h2
    | skip h0 h => exact .blanks ⟨h0, h⟩

/-! ### What the callbacks make of the lexemes -/

omit [Categories] in
theorem parseUnsigned_some {max n : Nat} {w : Str} (h : parseUnsigned max w = some n) :
    ∃ ds : Decimals, w = asDecimals ds ∧ n = number ds := by
  unfold parseUnsigned at h
  split at h
  · rename_i hw
    obtain ⟨ds, rfl, _⟩ := asDigits w (List.all_eq_true.mp hw.2.1)
    rw [decimalValue_eq] at h
    cases h
    exact ⟨ds, rfl, rfl⟩
  · cases h

theorem digits_ne {n : Nat} {w : Str} (h : Digits n w) {x : Char} (ha : isAscii x = true) (hx : isAsciiDigit x = false) :
    ∀ c ∈ w, c ≠ x := by
  rintro c hc rfl
  have := h.2 c hc
  rw [Categories.decimalDigit_ascii c ha, hx] at this
  cases this

theorem date_denotes {l : Logos} {w : Str} {r : Except LexerError Token} (h : Lexeme .date w)
    (hr : (parseDate w).mapOk Token.date = Res.ofCallback id r) : Denotes l .date w r := by
  cases h with
  | @date y m d s1 s2 hy hm hd h1 h2 =>
    let sep : Char → Bool := fun c => decide (c = '-') || decide (c = '/')
    have hin : ∀ c, In "-/" c → sep c = true := by
      intro c hc
      simp only [In] at hc
      have : c = '-' ∨ c = '/' := by simpa using hc
      rcases this with rfl | rfl <;> decide
    have hns : ∀ {n w}, Digits n w → ∀ c ∈ w, sep c = false := by
      intro n w h c hc
      have e1 := digits_ne h (x := '-') (by decide) (by decide) c hc
      have e2 := digits_ne h (x := '/') (by decide) (by decide) c hc
      simp [sep, e1, e2]
    have hsplit : splitBy sep (y ++ s1 :: (m ++ s2 :: d)) = [y, m, d] := by
      rw [splitBy_sep sep _ (hns hy) _ (hin _ h1), splitBy_sep sep _ (hns hm) _ (hin _ h2), splitBy_word sep _ (hns hd)]
    unfold parseDate at hr
    simp only [sep] at hsplit
    simp only [hsplit] at hr
    have hpanic : ∀ {r : Except LexerError Token}, (Res.panic : Res LexerError Token) ≠ Res.ofCallback id r := by
      intro r; cases r <;> simp [Res.ofCallback]
    cases ey : parseUnsigned (2 ^ 31 - 1) y with
    | none => simp only [ey, Res.mapOk] at hr; exact absurd hr hpanic
    | some ny =>
    cases em : parseUnsigned 255 m with
    | none => simp only [ey, em, Res.mapOk] at hr; exact absurd hr hpanic
    | some nm =>
    have hy4 := hy.1
    obtain ⟨ys, rfl, rfl⟩ := parseUnsigned_some ey
    obtain ⟨ms, rfl, rfl⟩ := parseUnsigned_some em
    simp only [ey, em] at hr
    by_cases hmon : 1 ≤ number ms ∧ number ms ≤ 12
    · cases ed : parseUnsigned 255 d with
      | none => simp only [hmon, ed, Res.mapOk, and_self, not_true, if_false] at hr; exact absurd hr hpanic
      | some nd =>
      obtain ⟨ds, rfl, rfl⟩ := parseUnsigned_some ed
      simp only [hmon, ed, and_self, not_true, if_false] at hr
      have hyear : number ys ≤ 9999 := by
        have := number_lt ys
        simp only [asDecimals, List.length_map] at hy4
        rw [hy4] at this
        omega
      have hv := Props.validDate_iff (number ys) (number ms) (number ds)
      by_cases hex : DateExists (number ys) (number ms) (number ds)
      · have := (hv.mpr hex).2
        simp only [dateFromCalendar, hyear, this, and_self, if_true, Res.mapOk] at hr
        cases r with
        | ok t => cases hr; exact .date h1 h2 hex
        | error e => cases hr
      · have : ¬ (1 ≤ number ds ∧ number ds ≤ daysInMonth (number ys) (number ms)) := fun h => hex (hv.mp ⟨hmon, h⟩)
        simp only [dateFromCalendar, hyear, this, and_false, if_false, Res.mapOk] at hr
        cases r with
        | ok t => cases hr
        | error e => exact .noDate h1 h2 hex
    · simp only [hmon, not_false_eq_true, if_true, Res.mapOk] at hr
      cases r with
      | ok t => cases hr
      | error e => exact .noMonth h1 h2 hmon

theorem time_denotes {l : Logos} {w : Str} {r : Except LexerError Token} (h : Lexeme .time w)
    (hr : (parseTime w).mapOk Token.time = Res.ofCallback id r) : Denotes l .time w r := by
  let sep : Char → Bool := fun c => decide (c = ':')
  have hns : ∀ {n w}, Digits n w → ∀ c ∈ w, sep c = false := by
    intro n w h c hc
    have e1 := digits_ne h (x := ':') (by decide) (by decide) c hc
    simp [sep, e1]
  have hpanic : ∀ {r : Except LexerError Token}, (Res.panic : Res LexerError Token) ≠ Res.ofCallback id r := by
    intro r; cases r <;> simp [Res.ofCallback]
  have hhour : ∀ {h}, Digits 1 h ∨ Digits 2 h → ∀ c ∈ h, sep c = false := fun h => h.elim hns hns
  cases h with
  | @time h m hh hm =>
    have hsplit : splitBy sep (h ++ ':' :: m) = [h, m] := by
      rw [splitBy_sep sep _ (hhour hh) _ (by decide), splitBy_word sep _ (hns hm)]
    unfold parseTime at hr
    simp only [sep] at hsplit
    simp only [hsplit] at hr
    cases eh : parseUnsigned 255 h with
    | none => simp only [eh, Res.mapOk] at hr; exact absurd hr hpanic
    | some nh =>
    cases em : parseUnsigned 255 m with
    | none => simp only [eh, em, Res.mapOk] at hr; exact absurd hr hpanic
    | some nm =>
    obtain ⟨hs, rfl, rfl⟩ := parseUnsigned_some eh
    obtain ⟨ms, rfl, rfl⟩ := parseUnsigned_some em
    simp only [eh, em, timeFromHms] at hr
    by_cases hex : TimeExists (number hs) (number ms) 0
    · have := hex
      unfold TimeExists at this
      rw [if_pos this] at hr
      cases r with
      | ok t => cases hr; exact .time hex
      | error e => cases hr
    · have := hex
      unfold TimeExists at this
      rw [if_neg this] at hr
      cases r with
      | ok t => cases hr
      | error e => exact .noTime hex
  | @timeSeconds h m s hh hm hsec =>
    have hsplit : splitBy sep (h ++ ':' :: (m ++ ':' :: s)) = [h, m, s] := by
      rw [splitBy_sep sep _ (hhour hh) _ (by decide), splitBy_sep sep _ (hns hm) _ (by decide), splitBy_word sep _ (hns hsec)]
    unfold parseTime at hr
    simp only [sep] at hsplit
    simp only [hsplit] at hr
    cases eh : parseUnsigned 255 h with
    | none => simp only [eh, Res.mapOk] at hr; exact absurd hr hpanic
    | some nh =>
    cases em : parseUnsigned 255 m with
    | none => simp only [eh, em, Res.mapOk] at hr; exact absurd hr hpanic
    | some nm =>
    cases es : parseUnsigned 255 s with
    | none => simp only [eh, em, es, Res.mapOk] at hr; exact absurd hr hpanic
    | some ns =>
    obtain ⟨hs, rfl, rfl⟩ := parseUnsigned_some eh
    obtain ⟨ms, rfl, rfl⟩ := parseUnsigned_some em
    obtain ⟨ss, rfl, rfl⟩ := parseUnsigned_some es
    simp only [eh, em, es, timeFromHms] at hr
    by_cases hex : TimeExists (number hs) (number ms) (number ss)
    · have := hex
      unfold TimeExists at this
      rw [if_pos this] at hr
      cases r with
      | ok t => cases hr; exact .timeSeconds hex
      | error e => cases hr
    · have := hex
      unfold TimeExists at this
      rw [if_neg this] at hr
      cases r with
      | ok t => cases hr
      | error e => exact .noTimeSeconds hex

omit [Categories] in
theorem written_dot (ds : Decimals) : ∀ c ∈ asDecimals ds, decide (c = '.') = false := by
  intro c hc
  obtain ⟨n, _, rfl⟩ := List.mem_map.mp hc
  simpa using digit_ne n '.' (by decide)

omit [Categories] in
theorem written_digits (ds : Decimals) : (asDecimals ds).all isAsciiDigit = true := by
  rw [List.all_eq_true]
  intro c hc
  obtain ⟨n, _, rfl⟩ := List.mem_map.mp hc
  exact digit_isAsciiDigit n

omit [Categories] in
theorem decimalLiteral_int {ds : Decimals} (h : ds ≠ []) : decimalLiteral (asDecimals ds) = some ⟨number ds, 0⟩ := by
  unfold decimalLiteral
  rw [splitBy_word _ _ (written_dot ds)]
  simp only
  rw [if_pos ⟨by simpa [asDecimals] using h, written_digits ds⟩]
  simp only [asDecimals, decimalValue_eq]

omit [Categories] in
theorem decimalLiteral_fraction {ds fs : Decimals} (h : ds ≠ []) (hf : fs ≠ []) :
    decimalLiteral (asDecimals ds ++ '.' :: asDecimals fs) = some ⟨number (ds ++ fs), fs.length⟩ := by
  unfold decimalLiteral
  rw [splitBy_sep _ _ (written_dot ds) _ (by decide), splitBy_word _ _ (written_dot fs)]
  simp only
  rw [if_pos ⟨by simpa [asDecimals] using h, written_digits ds, by simpa [asDecimals] using hf, written_digits fs⟩]
  have : asDecimals ds ++ asDecimals fs = (ds ++ fs).map digit := by simp [asDecimals]
  rw [this, decimalValue_eq]
  simp [asDecimals]

omit [Categories] in
theorem decimalLiteral_some {w : Str} {d : Dec} (h : decimalLiteral w = some d) :
    (∃ ds, ds ≠ [] ∧ w = asDecimals ds ∧ d = ⟨number ds, 0⟩) ∨
      ∃ ds fs, ds ≠ [] ∧ fs ≠ [] ∧ w = asDecimals ds ++ '.' :: asDecimals fs ∧ d = ⟨number (ds ++ fs), fs.length⟩ := by
  have hcases : (∀ c ∈ w, decide (c = '.') = false) ∨ ∃ i r, w = i ++ '.' :: r ∧ ∀ c ∈ i, decide (c = '.') = false := by
    by_cases hd : '.' ∈ w
    · obtain ⟨i, r, hw, hi⟩ := List.eq_append_cons_of_mem hd
      exact .inr ⟨i, r, hw, fun c hc => by
        rw [decide_eq_false_iff_not]; rintro rfl; exact hi hc⟩
    · exact .inl (fun c hc => by
        rw [decide_eq_false_iff_not]; rintro rfl; exact hd hc)
  rcases hcases with h0 | ⟨i, r, rfl, hi⟩
  · have h' := h
    unfold decimalLiteral at h'
    rw [splitBy_word _ _ h0] at h'
    simp only at h'
    split at h'
    · rename_i hw
      obtain ⟨ds, rfl, _⟩ := asDigits w (List.all_eq_true.mp hw.2)
      have hne : ds ≠ [] := by rintro rfl; exact hw.1 rfl
      have := decimalLiteral_int hne
      change decimalLiteral (asDecimals ds) = _ at h
      rw [h] at this
      cases this
      exact .inl ⟨ds, hne, rfl, rfl⟩
    · cases h'
  · have h' := h
    unfold decimalLiteral at h'
    rw [splitBy_sep _ _ hi _ (by decide)] at h'
    by_cases hr : ∀ c ∈ r, decide (c = '.') = false
    · rw [splitBy_word _ _ hr] at h'
      simp only at h'
      split at h'
      · rename_i hw
        obtain ⟨ds, rfl, _⟩ := asDigits i (List.all_eq_true.mp hw.2.1)
        obtain ⟨fs, rfl, _⟩ := asDigits r (List.all_eq_true.mp hw.2.2.2)
        have h1 : ds ≠ [] := by rintro rfl; exact hw.1 rfl
        have h2 : fs ≠ [] := by rintro rfl; exact hw.2.2.1 rfl
        have := decimalLiteral_fraction h1 h2
        change decimalLiteral (asDecimals ds ++ '.' :: asDecimals fs) = _ at h
        rw [h] at this
        cases this
        exact .inr ⟨ds, fs, h1, h2, rfl, rfl⟩
      · cases h'
    · have hd : '.' ∈ r := by
        by_contra hn
        exact hr (fun c hc => by
        rw [decide_eq_false_iff_not]; rintro rfl; exact hn hc)
      obtain ⟨a, b, rfl, ha⟩ := List.eq_append_cons_of_mem hd
      rw [splitBy_sep _ _ (fun c hc => by
        rw [decide_eq_false_iff_not]; rintro rfl; exact ha hc) _ (by decide)] at h'
      cases hs : splitBy (fun c => decide (c = '.')) b with
      | nil => exact absurd hs (splitBy_ne_nil _ _)
      | cons x xs => rw [hs] at h'; simp at h'

omit [Categories] in
theorem decFromStr_denotes (l : Logos) (w : Str) : DenotesNumber l w (decFromStr l.otherNumber w) := by
  have hno : (∀ d, decimalLiteral w = some d → ¬ d.Fits) → decFromStr l.otherNumber w = l.otherNumber w ∧
      DenotesNumber l w (l.otherNumber w) := by
    intro h
    constructor
    · unfold decFromStr
      split
      · rename_i d hd; rw [if_neg (h d hd)]
      · rfl
    · refine .other ?_ ?_
      · rintro ⟨ds, h1, h2, rfl⟩
        exact h _ (decimalLiteral_int h1) ⟨by simpa using h2, by simp⟩
      · rintro ⟨ds, fs, h1, h2, h3, h4, rfl⟩
        exact h _ (decimalLiteral_fraction h1 h2) ⟨by simpa using h3, h4⟩
  by_cases hex : ∃ d, decimalLiteral w = some d ∧ d.Fits
  · obtain ⟨d, hd, hf⟩ := hex
    have e : decFromStr l.otherNumber w = .ok d := by unfold decFromStr; simp [hd, hf]
    rw [e]
    rcases decimalLiteral_some hd with ⟨ds, h1, rfl, rfl⟩ | ⟨ds, fs, h1, h2, rfl, rfl⟩
    · exact .int h1 (by simpa using hf.1)
    · exact .fraction h1 h2 (by simpa using hf.1) hf.2
  · obtain ⟨h1, h2⟩ := hno (fun d hd hf => hex ⟨d, hd, hf⟩)
    rw [h1]
    exact h2

omit [Categories] in
theorem parseNumber_denotes (l : Logos) (w : Str) :
    DenotesNumber l (w.filter (· ≠ ',')) (parseNumber l.otherNumber w) := by
  have e : parseNumber l.otherNumber w = decFromStr l.otherNumber (w.filter (· ≠ ',')) := by
    unfold parseNumber
    split
    · rfl
    · rename_i hc
      have : w.filter (· ≠ ',') = w := List.filter_eq_self.mpr (fun c hcm => by
        rw [decide_eq_true_eq]
        rintro rfl
        exact hc (List.contains_iff_mem.mpr hcm))
      rw [this]
  rw [e]
  exact decFromStr_denotes l _

omit [Categories] in
theorem unescape_iff {l : Logos} {s t : Str} : unescape l.otherEscape s = some t ↔ Unescaped l s t := by
  constructor
  · intro h
    induction s using unescape.induct l.otherEscape generalizing t with
    | case1 => rw [unescape] at h; cases h; exact .nil
    | case2 c cs hc ih =>
      rw [unescape.eq_def] at h
      simp only [hc, ne_eq, not_false_eq_true, if_true, Option.map_eq_some_iff] at h
      obtain ⟨t, h, rfl⟩ := h
      exact .plain hc (ih h)
    | case3 c hc =>
      rw [unescape.eq_def] at h
      simp only [hc, if_false] at h
      cases h
    | case4 c hc e rest x hx ih =>
      have hc' : c = '\\' := by simpa using hc
      subst hc'
      rw [unescape.eq_def] at h
      simp only [hx, ne_eq, not_true, if_false, Option.map_eq_some_iff] at h
      obtain ⟨t, h, rfl⟩ := h
      exact .named ((Props.simpleEscape_iff _ _).mp hx) (ih h)
    | case5 c hc e rest hx x n ho ih =>
      have hc' : c = '\\' := by simpa using hc
      subst hc'
      rw [unescape.eq_def] at h
      simp only [hx, ho, ne_eq, not_true, if_false, Option.map_eq_some_iff] at h
      obtain ⟨t, h, rfl⟩ := h
      exact .other (fun y hy => by rw [(Props.simpleEscape_iff _ _).mpr hy] at hx; cases hx) ho (ih h)
    | case6 c hc e rest hx ho =>
      have hc' : c = '\\' := by simpa using hc
      subst hc'
      rw [unescape.eq_def] at h
      simp only [hx, ho, ne_eq, not_true, if_false] at h
      cases h
  · intro h
    induction h with
    | nil => rw [unescape]
    | plain hc _ ih => rw [unescape.eq_def]; simp [hc, ih]
    | named he _ ih =>
      rw [unescape.eq_def]
      simp [(Props.simpleEscape_iff _ _).mpr he, ih]
    | @other e x n s t he ho _ ih =>
      have : simpleEscape e = none := by
        cases hs : simpleEscape e with
        | none => rfl
        | some y => exact absurd ((Props.simpleEscape_iff _ _).mp hs) (he y)
      rw [unescape.eq_def]
      simp [this, ho, ih]

omit [Categories] in
theorem stringCallback_eq (l : Logos) (body : Str) : stringCallback l.otherEscape ('"' :: body ++ ['"']) =
    match unescape l.otherEscape body with
    | some t => .ok t
    | none => .err ⟨str "bad escape"⟩ := by
  unfold stringCallback
  rw [slice_quoted]
  simp only [unescapeStringLiteral]
  by_cases hc : body.contains '\\' = true
  · rw [if_pos hc]
    cases unescape l.otherEscape body <;> rfl
  · rw [if_neg hc]
    have hn : '\\' ∉ body := fun hm => hc (List.contains_iff_mem.mpr hm)
    rw [Props.unescape_of _ _ _ (Props.unescapes_noBackslash body hn)]

/-- What the callback makes of a lexeme is what the lexeme denotes. -/
theorem callback_denotes {l : Logos} {k : Kind} {w : Str} {r : Except LexerError Token} (h : Lexeme k w)
    (hr : tokenCallback l k w = some (Res.ofCallback id r)) : Denotes l k w r := by
  have plain : ∀ {t : Token}, (some (Res.ok t) : Option (Res LexerError Token)) = some (Res.ofCallback id r) → r = .ok t := by
    intro t h
    cases r with
    | ok t' => cases h; rfl
    | error e => cases h
  cases k with
  | lit t => rw [plain hr]; exact .lit
  | currency => rw [plain hr]; exact .currency
  | account => rw [plain hr]; exact .account
  | key => rw [plain hr]; exact .key
  | skip => cases hr
  | flagLetter =>
    cases h with
    | @flag c hc =>
      simp only [tokenCallback, flagCallback, List.getElem?_cons_succ, List.getElem?_cons_zero, FlagLetter.tryFrom,
        if_pos (upper_iff.mp hc)] at hr
      rw [plain hr]; exact .flag
  | date => exact date_denotes h (Option.some.inj hr)
  | time => exact time_denotes h (Option.some.inj hr)
  | tag =>
    cases h with
    | @tag w h0 h =>
      have : dropBytes 1 ('#' :: w) = some w := (dropBytes_iff _ _ _).mpr ⟨['#'], rfl, by decide⟩
      simp only [tokenCallback, afterFirstByte, this] at hr
      rw [plain hr]; exact .tag
  | link =>
    cases h with
    | @link w h0 h =>
      have : dropBytes 1 ('^' :: w) = some w := (dropBytes_iff _ _ _).mpr ⟨['^'], rfl, by decide⟩
      simp only [tokenCallback, afterFirstByte, this] at hr
      rw [plain hr]; exact .link
  | stringLiteral =>
    cases h with
    | @string body hb =>
      simp only [tokenCallback] at hr
      rw [stringCallback_eq] at hr
      cases hu : unescape l.otherEscape body with
      | some s =>
        rw [hu] at hr
        rw [plain hr]
        exact .string (unescape_iff.mp hu)
      | none =>
        rw [hu] at hr
        cases r with
        | ok t => cases hr
        | error e => exact .noString (fun ⟨s, hs⟩ => by rw [unescape_iff.mpr hs] at hu; cases hu)
  | number =>
    simp only [tokenCallback] at hr
    have hr := Option.some.inj hr
    have hd := parseNumber_denotes l w
    cases e : parseNumber l.otherNumber w with
    | ok d =>
      rw [e] at hr hd
      cases r with
      | ok t => cases hr; exact .number hd
      | error x => cases hr
    | error x =>
      rw [e] at hr hd
      cases r with
      | ok t => cases hr
      | error y => cases hr; exact .noNumber hd

/-! ### Cutting the text -/

/-- The longest match of the patterns is the longest lexeme. -/
theorem longest_lexeme {w s : Str} {i : Nat} {p : Kind × Re}
    (h : LongestMatch (tokenPatterns.map (·.2)) (w ++ s) i w.length) (hp : tokenPatterns[i]? = some p) :
    LongestLexeme (w ++ s) w p.1 := by
  have htake : (w ++ s).take w.length = w := by simp
  obtain ⟨q, hq, hm⟩ := h.isMatch
  rw [List.getElem?_map, hp, Option.map_some, Option.some.injEq] at hq
  subst hq
  rw [htake] at hm
  have hreads : Reads p.1 w := (reads_iff _ _).mpr ⟨p, List.mem_of_getElem? hp, rfl, hm⟩
  refine ⟨List.prefix_append _ _, List.length_pos_iff.mp h.nonEmpty, lexeme_iff.mpr hreads, ?_, ?_⟩
  · intro t ht
    obtain ⟨j, q, hj, hmj, hmin, hlit⟩ := first_match hreads
    have hij : i = j := by
      rcases Nat.lt_trichotomy i j with hlt | e | hlt
      · exact absurd hm (hmin i p hlt hp)
      · exact e
      · have := h.first j q.2 hlt (by rw [List.getElem?_map, hj]; rfl)
        rw [htake] at this
        exact absurd hmj this
    subst hij
    rw [hp, Option.some.injEq] at hj
    rw [hj]
    exact hlit t (fixed_iff.mp ht)
  · intro v k' hv hl
    by_contra hlt
    obtain ⟨q, hq, _, hmq⟩ := (reads_iff _ _).mp (lexeme_iff.mp hl)
    refine h.noLonger q.2 (List.mem_map.mpr ⟨q, hq, rfl⟩) v.length (by omega) hv.length_le ?_
    obtain ⟨r, hr⟩ := hv
    rw [← hr, List.take_left]
    exact hmq

/-- The longest lexeme is the longest match of some pattern. -/
theorem longest_match_of_lexeme {w s : Str} {k : Kind} (h : LongestLexeme (w ++ s) w k) :
    ∃ i p, LongestMatch (tokenPatterns.map (·.2)) (w ++ s) i w.length ∧ tokenPatterns[i]? = some p := by
  have htake : (w ++ s).take w.length = w := by simp
  obtain ⟨i, p, hi, hm, hmin, _⟩ := first_match (lexeme_iff.mp h.lexeme)
  refine ⟨i, p, ⟨List.length_pos_iff.mpr h.nonEmpty, by simp, ⟨p.2, by rw [List.getElem?_map, hi]; rfl, by rw [htake]; exact hm⟩, ?_, ?_⟩, hi⟩
  · intro q hq m h1 h2 hm'
    obtain ⟨q, hq', rfl⟩ := List.mem_map.mp hq
    have := h.longest _ q.1 (List.take_prefix m _) (lexeme_iff.mpr ((reads_iff _ _).mpr ⟨q, hq', rfl, hm'⟩))
    rw [List.length_take] at this
    omega
  · intro j q hj hq
    rw [List.getElem?_map, Option.map_eq_some_iff] at hq
    obtain ⟨q, hq, rfl⟩ := hq
    rw [htake]
    exact hmin j q hj hq

theorem cuts_of_tokenizes {l : Logos} {pos : Nat} {s : Str} {items : List (RawItem Token)}
    (h : Tokenizes tokenPatterns (tokenCallback l) pos s items) : Cuts l pos s items := by
  have split : ∀ {s : Str} {n i : Nat}, LongestMatch (tokenPatterns.map (·.2)) s i n →
      LongestMatch (tokenPatterns.map (·.2)) (s.take n ++ s.drop n) i (s.take n).length := by
    intro s n i h
    rw [List.take_append_drop, List.length_take, Nat.min_eq_left h.inText]
    exact h
  induction h with
  | done => exact .done
  | @skip pos n i s items p hL hp hc _ ih =>
    have hll := longest_lexeme (split hL) hp
    rw [← List.take_append_drop n s]
    have : p.1 = .skip := by
      cases hk : p.1 <;> rw [hk] at hc <;> simp [tokenCallback] at hc ⊢
    rw [this] at hll
    exact .blank hll ih
  | @token pos n i s items p t hL hp hc _ ih =>
    have hll := longest_lexeme (split hL) hp
    rw [← List.take_append_drop n s, List.take_append_drop]
    have := Cuts.piece (l := l) (pos := pos) hll (callback_denotes (r := .ok t) hll.lexeme hc) ih
    rw [List.take_append_drop] at this
    exact this
  | @invalid pos n i s items p e hL hp hc _ ih =>
    have hll := longest_lexeme (split hL) hp
    have := Cuts.piece (l := l) (pos := pos) hll (callback_denotes (r := .error e) hll.lexeme hc) ih
    rw [List.take_append_drop] at this
    exact this
  | @unrecognized pos n s items e hv h0 hn _ ih =>
    have := Cuts.unrecognized (l := l) (pos := pos) (w := s.take n) (s := s.drop n) (e := e) (items := items) ?_ ?_ ih
    · rw [List.take_append_drop] at this
      exact this
    · intro e
      rcases List.take_eq_nil_iff.mp e with e | e
      · omega
      · rw [e] at hn; simp at hn; omega
    · intro v k hL
      rw [List.take_append_drop] at hL ⊢
      obtain ⟨rest, hs⟩ := hL.atStart
      subst hs
      obtain ⟨i, p, hm, hi⟩ := longest_match_of_lexeme hL
      obtain ⟨h1, q, hq, more, hmq⟩ := hv i _ hm
      cases rest with
      | nil => simp at h1
      | cons c rest =>
        obtain ⟨q, hq', rfl⟩ := List.mem_map.mp hq
        rw [List.take_length_add_append] at hmq
        exact ⟨c, rest, more, q.1, rfl, lexeme_iff.mpr ((reads_iff _ _).mpr ⟨q, hq', rfl, by simpa using hmq⟩)⟩

end

end Lima
