import Verif.Model.Display
import Verif.Lemmas.LexLines
import Verif.Props.Callbacks

/-! Printed dates and numbers. -/

namespace Lima
open Spec

theorem zeroPad_digits (k n : Nat) : ∀ c ∈ Display.zeroPad k (Nat.toDigits 10 n), isAsciiDigit c = true := by
  intro c hc
  unfold Display.zeroPad at hc
  rcases List.mem_append.mp hc with h | h
  · rw [List.eq_of_mem_replicate h]; decide
  · have := Nat.isDigit_of_mem_toDigits (by omega) (by omega) h
    simp only [Char.isDigit, Bool.and_eq_true, decide_eq_true_eq] at this
    have h1 : '0'.toNat ≤ c.toNat := this.1
    have h2 : c.toNat ≤ '9'.toNat := this.2
    have e1 : '0'.toNat = 48 := rfl
    have e2 : '9'.toNat = 57 := rfl
    simp only [isAsciiDigit, decide_eq_true_eq]
    omega

theorem zeroPad_length (k n : Nat) (hk : 0 < k) (h : n < 10 ^ k) : (Display.zeroPad k (Nat.toDigits 10 n)).length = k := by
  have := (Nat.length_toDigits_le_iff (b := 10) (n := n) (by omega) hk).mpr h
  unfold Display.zeroPad
  rw [List.length_append, List.length_replicate]
  omega

theorem zeroPad_length_le (k n : Nat) : k ≤ (Display.zeroPad k (Nat.toDigits 10 n)).length := by
  unfold Display.zeroPad
  rw [List.length_append, List.length_replicate]
  omega

theorem zeroPad_value (k n : Nat) : decimalValue (Display.zeroPad k (Nat.toDigits 10 n)) = n := by
  have h : ∀ s : Str, decimalValue s = Nat.ofDigitChars 10 s 0 := by
    intro s
    rw [Nat.ofDigitChars_eq_foldl]
    rfl
  rw [h]
  unfold Display.zeroPad
  rw [Nat.ofDigitChars_append, Nat.ofDigitChars_replicate_zero, Nat.mul_zero, Nat.ofDigitChars_toDigits (by omega) (by omega)]

theorem zeroPad_number (k n : Nat) : ∃ ds : List (Fin 10), Display.zeroPad k (Nat.toDigits 10 n) = ds.map digit ∧ number ds = n ∧
    ds.length = (Display.zeroPad k (Nat.toDigits 10 n)).length := by
  obtain ⟨ds, h1, h2⟩ := asDigits _ (zeroPad_digits k n)
  refine ⟨ds, h1, ?_, h2⟩
  rw [← decimalValue_eq, ← h1, zeroPad_value]

/-- A date which can be written in a file. -/
def WfDate (d : Date) : Prop := d.year ≤ 9999 ∧ DateExists d.year d.month d.day

theorem display_date {d : Date} (h : WfDate d) : parseDate (Display.date d) = .ok d := by
  obtain ⟨hy, he⟩ := h
  obtain ⟨y, m, dd⟩ := d
  have hm : m < 100 ∧ dd < 100 := by
    have := (Props.validDate_iff y m dd).mpr he
    refine ⟨by omega, ?_⟩
    have h2 := this.2.2
    unfold daysInMonth at h2
    repeat' split at h2
    all_goals omega
  obtain ⟨ys, ey, ny, ly⟩ := zeroPad_number 4 y
  obtain ⟨ms, em, nm, lm⟩ := zeroPad_number 2 m
  obtain ⟨ds, ed, nd, ld⟩ := zeroPad_number 2 dd
  rw [zeroPad_length 4 y (by omega) (by simp only at hy; omega)] at ly
  rw [zeroPad_length 2 m (by omega) (by omega)] at lm
  rw [zeroPad_length 2 dd (by omega) (by omega)] at ld
  unfold Display.date
  simp only
  rw [ey, em, ed]
  match ys, ms, ds, ly, lm, ld with
  | [y1, y2, y3, y4], [m1, m2], [d1, d2], _, _, _ =>
    have := Props.C28_date_partial y1 y2 y3 y4 m1 m2 d1 d2 '-' '-' (.inl rfl) (.inl rfl)
    have ey : number [y1, y2, y3, y4] = 1000 * y1.val + 100 * y2.val + 10 * y3.val + y4.val := by simp [number]; omega
    have em : number [m1, m2] = 10 * m1.val + m2.val := by simp [number]; omega
    have ed : number [d1, d2] = 10 * d1.val + d2.val := by simp [number]; omega
    rw [← ey, ← em, ← ed, ny, nm, nd] at this
    exact this.1 he

section
variable [Categories]

theorem asciiDigit_digit {c : Char} (h : isAsciiDigit c = true) : Categories.decimalDigit c = true := by
  have ha : isAscii c = true := by simp only [isAsciiDigit, isAscii, decide_eq_true_eq] at h ⊢; omega
  rw [Categories.decimalDigit_ascii c ha, h]

theorem matches_display_date {d : Date} (h : WfDate d) : Matches Re.date (Display.date d) := by
  have hm : d.month < 100 ∧ d.day < 100 := by
    have := (Props.validDate_iff d.year d.month d.day).mpr h.2
    refine ⟨by omega, ?_⟩
    have h2 := this.2.2
    unfold daysInMonth at h2
    repeat' split at h2
    all_goals omega
  refine Re.matches_date.mpr ⟨Display.zeroPad 4 (Nat.toDigits 10 d.year), '-', Display.zeroPad 2 (Nat.toDigits 10 d.month), '-',
    Display.zeroPad 2 (Nat.toDigits 10 d.day), ?_, zeroPad_length 4 _ (by omega) (by have := h.1; omega),
    zeroPad_length 2 _ (by omega) (by omega), zeroPad_length 2 _ (by omega) (by omega), .inl rfl, .inl rfl, ?_⟩
  · unfold Display.date
    simp only [List.append_assoc]
    rfl
  · intro c hc
    simp only [List.mem_append] at hc
    rcases hc with (hc | hc) | hc <;> exact asciiDigit_digit (zeroPad_digits _ _ c hc)

/-- A number which can be written in a file. -/
def WfNumber (d : Dec) : Prop := 0 ≤ d.mant ∧ d.Fits

omit [Categories] in
theorem display_decimal_form {d : Dec} (h : 0 ≤ d.mant) : ∃ is fs : List (Fin 10), is ≠ [] ∧ fs.length = d.scale ∧
    number (is ++ fs) = d.mant.natAbs ∧ Display.decimal d = is.map digit ++ if fs = [] then [] else '.' :: fs.map digit := by
  obtain ⟨ds, e, hn, hl⟩ := zeroPad_number (d.scale + 1) d.mant.natAbs
  have hle := zeroPad_length_le (d.scale + 1) d.mant.natAbs
  rw [← hl] at hle
  refine ⟨ds.take (ds.length - d.scale), ds.drop (ds.length - d.scale), ?_, ?_, ?_, ?_⟩
  · intro e
    rcases List.take_eq_nil_iff.mp e with e | e
    · omega
    · rw [e] at hle; simp at hle
  · rw [List.length_drop]; omega
  · rw [List.take_append_drop, hn]
  · unfold Display.decimal
    simp only
    rw [if_neg (by omega), e, List.length_map, List.map_take, List.map_drop]
    by_cases hs : d.scale = 0
    · rw [if_pos hs, if_pos (by rw [hs]; simp)]
      simp
    · rw [if_neg hs, if_neg]
      · simp only [List.nil_append]; rfl
      · rw [List.drop_eq_nil_iff]; omega

omit [Categories] in
theorem display_decimal {d : Dec} (other : Str → Except LexerError Dec) (h : WfNumber d) :
    parseNumber other (Display.decimal d) = .ok d := by
  obtain ⟨is, fs, h1, h2, h3, e⟩ := display_decimal_form h.1
  rw [e]
  have := Props.C29_number other (is.map digit) is h1 (by
    rw [List.filter_eq_self]
    intro c hc
    obtain ⟨n, _, rfl⟩ := List.mem_map.mp hc
    simpa using digit_ne n ',' (by decide)) fs ⟨by rw [h3]; exact h.2.1, by rw [h2]; exact h.2.2⟩
  rw [this, h3, h2]
  congr 1
  have : (d.mant.natAbs : Int) = d.mant := Int.natAbs_of_nonneg h.1
  rw [this]

theorem matches_display_decimal {d : Dec} (h : 0 ≤ d.mant) : Matches Re.number (Display.decimal d) := by
  obtain ⟨is, fs, h1, h2, h3, e⟩ := display_decimal_form h
  rw [e]
  have hd : ∀ ds : List (Fin 10), ∀ c ∈ ds.map digit, Categories.decimalDigit c = true := by
    intro ds c hc
    obtain ⟨n, _, rfl⟩ := List.mem_map.mp hc
    exact asciiDigit_digit (digit_isAsciiDigit n)
  unfold Re.number Re.digit
  simp only [Re.matches_seq, Re.matches_plus_cls, Re.matches_opt, Re.matches_chr]
  refine ⟨_, _, rfl, ⟨by simpa using h1, hd is⟩, [], if fs = [] then [] else '.' :: fs.map digit, (List.nil_append _).symm, .none, ?_⟩
  by_cases hf : fs = []
  · rw [if_pos hf]
    exact .inr rfl
  · rw [if_neg hf]
    exact .inl ⟨['.'], _, rfl, rfl, by simpa using hf, hd fs⟩

/-! ### Lexing printed items -/

theorem Lexed.date {l : Logos} {d : Date} {s : Str} {ts : List Token} (h : WfDate d) (hs : Sep s) (hr : Lexed l s ts) :
    Lexed l (Display.date d ++ s) (.date d :: ts) :=
  Lexed.tok (fun _ => lexes_date (matches_display_date h) (display_date h) hs) rfl (by simp) hr

theorem Lexed.number {l : Logos} {d : Dec} {s : Str} {ts : List Token} (hl : NumberThenComma l) (h : WfNumber d) (hs : Sep s)
    (hr : Lexed l s ts) : Lexed l (Display.decimal d ++ s) (.number d :: ts) :=
  Lexed.tok (fun _ => lexes_number hl (matches_display_decimal h.1) (display_decimal _ h) hs) rfl (by simp) hr

theorem Lexed.currency {l : Logos} {c : Str} {s : Str} {ts : List Token} (h : Matches Re.currency c ∧ ∀ t, (t, c) ∉ literals)
    (hs : Sep s ∨ s.head? = some ',') (hr : Lexed l s ts) : Lexed l (c ++ s) (.currency c :: ts) :=
  Lexed.tok (fun _ => lexes_currency h.1 h.2 hs) rfl (by simp) hr

theorem Lexed.account {l : Logos} {a : Str} {s : Str} {ts : List Token} (h : Matches Re.account a)
    (hs : Sep s) (hr : Lexed l s ts) : Lexed l (a ++ s) (.account a :: ts) :=
  Lexed.tok (fun _ => lexes_account h hs) rfl (by simp) hr

theorem Lexed.tag {l : Logos} {t : Str} {s : Str} {ts : List Token} (h : t ≠ [] ∧ ∀ c ∈ t, isTagChar c = true)
    (hs : Sep s) (hr : Lexed l s ts) : Lexed l (Display.tag t ++ s) (.tag t :: ts) :=
  Lexed.tok (fun _ => lexes_tag h.1 h.2 hs) rfl (by simp) hr

theorem Lexed.link {l : Logos} {t : Str} {s : Str} {ts : List Token} (h : t ≠ [] ∧ ∀ c ∈ t, isTagChar c = true)
    (hs : Sep s) (hr : Lexed l s ts) : Lexed l (Display.link t ++ s) (.link t :: ts) :=
  Lexed.tok (fun _ => lexes_link h.1 h.2 hs) rfl (by simp) hr

/-- A string which is printed as it is written. -/
def Plain (s : Str) : Prop := ∀ c ∈ s, c ≠ '"' ∧ c ≠ '\\'

theorem Lexed.string {l : Logos} {x : Str} {s : Str} {ts : List Token} (h : Plain x) (hr : Lexed l s ts) :
    Lexed l (Display.doubleQuoted x ++ s) (.stringLiteral x :: ts) :=
  Lexed.tok (fun _ => lexes_string h) rfl (by simp) hr

theorem Lexed.lit {l : Logos} {t : Token} {w : Str} {s : Str} {ts : List Token} (hx : (t, w) ∈ literals)
    (hc : w ≠ str "}" ∧ w ≠ str "}}" ∧ w ≠ str ":") (hs : Sep s) (hr : Lexed l s ts) : Lexed l (w ++ s) (t :: ts) := by
  have hall : ∀ p ∈ literals, (p.2 ≠ str "}" ∧ p.2 ≠ str "}}" ∧ p.2 ≠ str ":") → p.2.head? ≠ some '}' ∧ p.2 ≠ [] ∧
      p.1.isEol = false ∧ p.1 ≠ .colon := by decide +kernel
  obtain ⟨h1, h2, h3, h4⟩ := hall _ hx hc
  cases w with
  | nil => exact absurd rfl h2
  | cons c w => exact Lexed.tok (fun _ => lexes_lit_sep hx (by simpa using h1) hs) h3 h4 hr

theorem Lexed.solo {l : Logos} {t : Token} {x : Char} {s : Str} {ts : List Token} (ht : (t, [x]) ∈ literals)
    (hx : x = '(' ∨ x = '-' ∨ x = ',' ∨ x = '{') (hc : x = '{' → s.head? ≠ some '{') (hr : Lexed l s ts) :
    Lexed l (x :: s) (t :: ts) := by
  have hall : ∀ p ∈ literals, ∀ c ∈ p.2.head?, (c = '(' ∨ c = '-' ∨ c = ',' ∨ c = '{') → p.1.isEol = false ∧ p.1 ≠ .colon := by
    decide +kernel
  obtain ⟨h3, h4⟩ := hall _ ht x rfl hx
  exact Lexed.tok (w := [x]) (fun _ => lexes_solo ht (by tauto) hc) h3 h4 hr

theorem Lexed.rcurl {l : Logos} {s : Str} {ts : List Token} (hs : s = [] ∨ s.head? = some ' ' ∨ s.head? = some '\n')
    (hr : Lexed l s ts) : Lexed l ('}' :: s) (.rcurl :: ts) :=
  Lexed.tok (w := ['}']) (fun _ => lexes_rcurl hs) rfl (by simp) hr

/-- The token a flag is printed as. -/
def flagToken : Flag → Token
  | .asterisk => .asterisk
  | .hash => .hash
  | f => .dedicatedFlag f

theorem Lexed.flag {l : Logos} {f : Flag} {s : Str} {ts : List Token} (h : ∀ c, f = .letter c → isAsciiUpper c = true)
    (hs : Sep s) (hr : Lexed l s ts) : Lexed l (Display.flag f ++ s) (flagToken f :: ts) := by
  cases f with
  | letter c => exact Lexed.tok (fun _ => lexes_flagLetter (h c rfl) hs) rfl (by simp [flagToken]) hr
  | asterisk => exact Lexed.lit (t := .asterisk) (by decide) (by decide) hs hr
  | exclamation => exact Lexed.lit (t := .dedicatedFlag .exclamation) (by decide) (by decide) hs hr
  | ampersand => exact Lexed.lit (t := .dedicatedFlag .ampersand) (by decide) (by decide) hs hr
  | hash => exact Lexed.lit (t := .hash) (by decide) (by decide) hs hr
  | question => exact Lexed.lit (t := .dedicatedFlag .question) (by decide) (by decide) hs hr
  | percent => exact Lexed.lit (t := .dedicatedFlag .percent) (by decide) (by decide) hs hr

end

end Lima
