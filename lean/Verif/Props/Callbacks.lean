import Verif.Model.Callbacks
import Verif.Spec.Callbacks
import Verif.Lemmas.Text
import Verif.Lemmas.Callbacks
import Mathlib.Tactic.ByContra

/-!
# C28-C30: dates, times, numbers and strings
-/

set_option linter.unusedSimpArgs false

namespace Lima.Props
open Lima Lima.Spec

/-! ## C28 -/

theorem validDate_iff (y m d : Nat) :
    ((1 ≤ m ∧ m ≤ 12) ∧ 1 ≤ d ∧ d ≤ daysInMonth y m) ↔ DateExists y m d := by
  unfold DateExists daysInMonth Leap
  simp only [Nat.dvd_iff_mod_eq_zero, List.mem_cons, List.not_mem_nil, or_false]
  repeat' split
  all_goals omega

/-- The text of a date with the given digits and separators. -/
def dateText (y1 y2 y3 y4 m1 m2 d1 d2 : Fin 10) (s1 s2 : Char) : Str :=
  [digit y1, digit y2, digit y3, digit y4, s1, digit m1, digit m2, s2, digit d1, digit d2]

/-- C28, the part that holds: for every date text of ASCII digits, the date is accepted exactly when that day
exists, with the year, month and day written, and otherwise is a lexical error; no panic.  Missing: the regex
also matches non-ASCII digits, where the code panics, see `C28_date_panics`. -/
theorem C28_date_partial (y1 y2 y3 y4 m1 m2 d1 d2 : Fin 10) (s1 s2 : Char)
    (h1 : s1 = '-' ∨ s1 = '/') (h2 : s2 = '-' ∨ s2 = '/') :
    let y := 1000 * y1.val + 100 * y2.val + 10 * y3.val + y4.val
    let m := 10 * m1.val + m2.val
    let d := 10 * d1.val + d2.val
    (DateExists y m d → parseDate (dateText y1 y2 y3 y4 m1 m2 d1 d2 s1 s2) = .ok ⟨y, m, d⟩) ∧
    (¬ DateExists y m d → ∃ e, parseDate (dateText y1 y2 y3 y4 m1 m2 d1 d2 s1 s2) = .err e) := by
  intro y m d
  let sep : Char → Bool := fun c => decide (c = '-') || decide (c = '/')
  have hs1 : sep s1 = true := by rcases h1 with rfl | rfl <;> decide
  have hs2 : sep s2 = true := by rcases h2 with rfl | rfl <;> decide
  have hd : ∀ ds : List (Fin 10), ∀ c ∈ ds.map digit, sep c = false := by
    intro ds c hc
    obtain ⟨n, _, rfl⟩ := List.mem_map.mp hc
    have e1 := digit_ne n '-' (by decide)
    have e2 := digit_ne n '/' (by decide)
    have e3 := digit_ne n ':' (by decide)
    have e4 := digit_ne n '.' (by decide)
    have e5 := digit_ne n ',' (by decide)
    first | (simp [e1, e2, e3, e4, e5]; done) | simp [sep, e1, e2, e3, e4, e5]
  have hsplit : splitBy sep (dateText y1 y2 y3 y4 m1 m2 d1 d2 s1 s2) =
      [[y1, y2, y3, y4].map digit, [m1, m2].map digit, [d1, d2].map digit] := by
    have e : dateText y1 y2 y3 y4 m1 m2 d1 d2 s1 s2 =
        [y1, y2, y3, y4].map digit ++ s1 :: ([m1, m2].map digit ++ s2 :: [d1, d2].map digit) := rfl
    rw [e, splitBy_sep sep _ (hd _) _ hs1, splitBy_sep sep _ (hd _) _ hs2, splitBy_word sep _ (hd _)]
  have py := parseUnsigned_digits (2 ^ 31 - 1) [y1, y2, y3, y4] (by simp) (by simp)
  have pm := parseUnsigned_digits 255 [m1, m2] (by simp) (by simp)
  have pd := parseUnsigned_digits 255 [d1, d2] (by simp) (by simp)
  have ey : number [y1, y2, y3, y4] = y := by simp [number]; omega
  have em : number [m1, m2] = m := by simp [number]; omega
  have ed : number [d1, d2] = d := by simp [number]; omega
  rw [ey] at py
  rw [em] at pm
  rw [ed] at pd
  have hy : y ≤ 9999 := by omega
  rw [← validDate_iff y m d]
  unfold parseDate
  simp only [sep] at hsplit
  simp only [hsplit, py, pm, pd]
  constructor
  · rintro ⟨hm, hd⟩
    simp [hm, dateFromCalendar, hy, hd]
  · intro hn
    by_cases hm : 1 ≤ m ∧ m ≤ 12
    · have : ¬ (1 ≤ d ∧ d ≤ daysInMonth y m) := fun h => hn ⟨hm, h⟩
      simp [hm, dateFromCalendar, hy, this]
    · simp [hm]

/-- The last of February of a leap year, and a day that does not exist. -/
example : parseDate (str "2024-02/29") = .ok ⟨2024, 2, 29⟩ := by decide
example : DateExists 2024 2 29 := by unfold DateExists Leap; decide
example : ¬ DateExists 1900 2 29 := by unfold DateExists Leap; decide

/-- C28, what is false: a date text whose year has a digit that is not ASCII panics.  The regex `\d` matches
any Unicode decimal digit, so such texts do reach the callback. -/
theorem C28_date_panics (y1 y2 y3 y4 : Char) (rest : Str) (s1 : Char) (h1 : s1 = '-' ∨ s1 = '/')
    (hsep : ∀ c ∈ [y1, y2, y3, y4], c ≠ '-' ∧ c ≠ '/')
    (hbad : ∃ c ∈ [y1, y2, y3, y4], isAsciiDigit c = false) :
    parseDate (y1 :: y2 :: y3 :: y4 :: s1 :: rest) = .panic := by
  let sep : Char → Bool := fun c => decide (c = '-') || decide (c = '/')
  have hs1 : sep s1 = true := by rcases h1 with rfl | rfl <;> decide
  have hsplit := splitBy_sep sep [y1, y2, y3, y4]
    (fun c hc => by have := hsep c hc; simp [sep, this.1, this.2]) s1 hs1 rest
  simp only [sep, List.cons_append, List.nil_append] at hsplit
  unfold parseDate
  simp only [hsplit]
  have : parseUnsigned (2 ^ 31 - 1) [y1, y2, y3, y4] = none := by
    unfold parseUnsigned
    rw [if_neg]
    rintro ⟨_, h, _⟩
    obtain ⟨c, hc, hb⟩ := hbad
    have := List.all_eq_true.mp h c hc
    rw [hb] at this; cases this
  rw [this]

theorem decimal_iff {c : Char} : ('0' ≤ c ∧ c ≤ '9') ↔ isAsciiDigit c = true := by
  rw [isAsciiDigit, decide_eq_true_eq]
  exact Iff.rfl

theorem foreign_iff {w : Str} : Foreign w ↔ w.all isAsciiDigit = false := by
  unfold Foreign
  rw [List.all_eq_false]
  constructor
  · rintro ⟨c, hc, h⟩
    exact ⟨c, hc, fun he => h (decimal_iff.mpr he)⟩
  · rintro ⟨c, hc, h⟩
    exact ⟨c, hc, fun he => h (decimal_iff.mp he)⟩

theorem parseUnsigned_foreign (max : Nat) {w : Str} (h : Foreign w) : parseUnsigned max w = none := by
  unfold parseUnsigned
  rw [if_neg]
  rintro ⟨_, h', _⟩
  rw [foreign_iff.mp h] at h'
  cases h'

theorem decimals_of_not_foreign {w : Str} (h : ¬ Foreign w) : ∃ ds : List (Fin 10), w = ds.map digit := by
  induction w with
  | nil => exact ⟨[], rfl⟩
  | cons c w ih =>
    have hc : isAsciiDigit c = true := by
      have : '0' ≤ c ∧ c ≤ '9' := by
        by_contra hc
        exact h ⟨c, List.mem_cons_self, hc⟩
      exact decimal_iff.mp this
    obtain ⟨n, hn⟩ := isAsciiDigit_exists c hc
    obtain ⟨ds, hds⟩ := ih (fun ⟨x, hx, hx'⟩ => h ⟨x, List.mem_cons_of_mem _ hx, hx'⟩)
    exact ⟨n :: ds, by rw [List.map_cons, hn, hds]⟩

theorem monthTexts_iff (a b : Fin 10) : (∃ t ∈ monthTexts, [digit a, digit b] = t.toList) ↔
    1 ≤ 10 * a.val + b.val ∧ 10 * a.val + b.val ≤ 12 := by
  revert a b
  unfold monthTexts
  decide +kernel

/-- C28, exactly when a date text panics: whatever ten characters of the shape of a date there are, if the year or the
month is not written in the digits `0` to `9`, or the day is not and the month is one of the twelve.  (If the month is
not, that is an error before the day is looked at.) -/
theorem C28_date_panics_iff (y m d : Str) (s1 s2 : Char) (hy : y.length = 4) (hm : m.length = 2) (hd : d.length = 2)
    (h1 : s1 = '-' ∨ s1 = '/') (h2 : s2 = '-' ∨ s2 = '/') (hsep : ∀ c ∈ y ++ m ++ d, c ≠ '-' ∧ c ≠ '/') :
    parseDate (y ++ s1 :: (m ++ s2 :: d)) = .panic ↔
      Foreign y ∨ Foreign m ∨ (∃ t ∈ monthTexts, m = t.toList) ∧ Foreign d := by
  let sep : Char → Bool := fun c => decide (c = '-') || decide (c = '/')
  have hs1 : sep s1 = true := by rcases h1 with rfl | rfl <;> decide
  have hs2 : sep s2 = true := by rcases h2 with rfl | rfl <;> decide
  have hno : ∀ w : Str, (∀ c ∈ w, c ∈ y ++ m ++ d) → ∀ c ∈ w, sep c = false := by
    intro w hw c hc
    have := hsep c (hw c hc)
    simp [sep, this.1, this.2]
  have hsplit : splitBy sep (y ++ s1 :: (m ++ s2 :: d)) = [y, m, d] := by
    rw [splitBy_sep sep _ (hno y (by simp +contextual)) _ hs1, splitBy_sep sep _ (hno m (by simp +contextual)) _ hs2,
      splitBy_word sep _ (hno d (by simp +contextual))]
  simp only [sep] at hsplit
  unfold parseDate
  simp only [hsplit]
  by_cases fy : Foreign y
  · rw [parseUnsigned_foreign _ fy]; simp [fy]
  obtain ⟨ys, rfl⟩ := decimals_of_not_foreign fy
  rw [List.length_map] at hy
  have py := parseUnsigned_digits (2 ^ 31 - 1) ys (by intro e; rw [e] at hy; cases hy) (by rw [hy]; decide)
  have ly := number_lt ys
  rw [hy] at ly
  rw [py]
  simp only [fy, false_or]
  by_cases fm : Foreign m
  · rw [parseUnsigned_foreign _ fm]; simp [fm]
  obtain ⟨ms, rfl⟩ := decimals_of_not_foreign fm
  rw [List.length_map] at hm
  rw [parseUnsigned_digits 255 ms (by intro e; rw [e] at hm; cases hm) (by rw [hm]; decide)]
  simp only [fm, false_or]
  match ms, hm with
  | [a, b], _ =>
    have hn : number [a, b] = 10 * a.val + b.val := by simp [number]; omega
    have hmt := monthTexts_iff a b
    simp only [List.map_cons, List.map_nil, hmt, hn]
    by_cases hr : 1 ≤ 10 * a.val + b.val ∧ 10 * a.val + b.val ≤ 12
    · rw [if_neg (by simpa using hr)]
      by_cases fd : Foreign d
      · rw [parseUnsigned_foreign _ fd]; simp [fd, hr]
      · obtain ⟨ds, rfl⟩ := decimals_of_not_foreign fd
        rw [List.length_map] at hd
        rw [parseUnsigned_digits 255 ds (by intro e; rw [e] at hd; cases hd) (by rw [hd]; decide)]
        simp only [fd, and_false, iff_false]
        split <;> (intro h; cases h)
    · rw [if_pos (by simpa using hr)]
      simp [hr]

/-- C28, exactly when a time text panics: if it has a digit other than `0` to `9`. -/
theorem C28_time_panics_iff (h m s : Str) (hh : h.length = 1 ∨ h.length = 2) (hm : m.length = 2)
    (hs : s = [] ∨ ∃ x, s = ':' :: x ∧ x.length = 2) (hsep : ∀ c ∈ h ++ m ++ s.tail, c ≠ ':') :
    parseTime (h ++ ':' :: (m ++ s)) = .panic ↔ Foreign h ∨ Foreign m ∨ Foreign s.tail := by
  let sep : Char → Bool := fun c => decide (c = ':')
  have hno : ∀ w : Str, (∀ c ∈ w, c ∈ h ++ m ++ s.tail) → ∀ c ∈ w, sep c = false := by
    intro w hw c hc
    have := hsep c (hw c hc)
    simp [sep, this]
  have hlen : ∀ w : List (Fin 10), w.length = 1 ∨ w.length = 2 → w ≠ [] ∧ 10 ^ w.length ≤ 255 + 1 := by
    intro w hw
    refine ⟨by rintro rfl; simp at hw, ?_⟩
    rcases hw with e | e <;> rw [e] <;> decide
  have read : ∀ w : Str, (w.length = 1 ∨ w.length = 2) → ¬ Foreign w → ∃ n, parseUnsigned 255 w = some n := by
    intro w hw hf
    obtain ⟨ds, rfl⟩ := decimals_of_not_foreign hf
    rw [List.length_map] at hw
    exact ⟨_, parseUnsigned_digits 255 ds (hlen ds hw).1 (hlen ds hw).2⟩
  have head : splitBy sep (h ++ ':' :: (m ++ s)) = h :: splitBy sep (m ++ s) :=
    splitBy_sep sep _ (hno h (by simp +contextual)) _ (by decide) _
  unfold parseTime
  rcases hs with rfl | ⟨x, rfl, hx⟩
  · have hsplit : splitBy sep (h ++ ':' :: (m ++ [])) = [h, m] := by
      rw [head, List.append_nil, splitBy_word sep _ (hno m (by simp +contextual))]
    simp only [sep] at hsplit
    simp only [hsplit]
    have hnil : ¬ Foreign [] := by rintro ⟨_, h, _⟩; cases h
    simp only [List.tail_nil, hnil, or_false]
    by_cases fh : Foreign h
    · rw [parseUnsigned_foreign _ fh]; simp [fh]
    obtain ⟨n, hn⟩ := read h hh fh
    by_cases fm : Foreign m
    · rw [parseUnsigned_foreign _ fm, hn]; simp [fm]
    obtain ⟨n', hn'⟩ := read m (.inr hm) fm
    simp only [hn, hn', fh, fm, or_self, iff_false]
    split <;> (intro h; cases h)
  · have hsplit : splitBy sep (h ++ ':' :: (m ++ ':' :: x)) = [h, m, x] := by
      rw [head, splitBy_sep sep _ (hno m (by simp +contextual)) _ (by decide),
        splitBy_word sep _ (hno x (by simp +contextual))]
    simp only [sep] at hsplit
    simp only [hsplit, List.tail_cons]
    by_cases fh : Foreign h
    · rw [parseUnsigned_foreign _ fh]; simp [fh]
    obtain ⟨n, hn⟩ := read h hh fh
    by_cases fm : Foreign m
    · rw [parseUnsigned_foreign _ fm, hn]; simp [fm]
    obtain ⟨n', hn'⟩ := read m (.inr hm) fm
    by_cases fx : Foreign x
    · rw [parseUnsigned_foreign _ fx, hn, hn']; simp [fx]
    obtain ⟨n'', hn''⟩ := read x (.inr hx) fx
    simp only [hn, hn', hn'', fh, fm, fx, or_self, iff_false]
    split <;> (intro h; cases h)

/-- A day in other digits is not looked at where there is no such month. -/
example : parseDate (str "2024-13-٠١") = .err ⟨str "month out of range"⟩ ∧ parseDate (str "2024-12-٠١") = .panic ∧
    parseTime (str "9:٠١") = .panic := by decide +kernel

/-- C28 as stated is false of the code: a date in Arabic-Indic digits. -/
theorem C28_never_panics_false : parseDate (str "٢٠٢٤-01-01") = .panic := by decide

/-- C28 for times: one or two digit hours, optional seconds. -/
theorem C28_time_partial (hs : List (Fin 10)) (hh : hs ≠ [] ∧ hs.length ≤ 2) (m1 m2 : Fin 10)
    (sec : Option (Fin 10 × Fin 10)) :
    let h := number hs
    let m := 10 * m1.val + m2.val
    let s := match sec with | none => 0 | some (s1, s2) => 10 * s1.val + s2.val
    let text := hs.map digit ++ ':' :: digit m1 :: digit m2 ::
      (match sec with | none => [] | some (s1, s2) => [':', digit s1, digit s2])
    (TimeExists h m s → parseTime text = .ok ⟨h, m, s⟩) ∧
    (¬ TimeExists h m s → ∃ e, parseTime text = .err e) := by
  intro h m s text
  let sep : Char → Bool := fun c => decide (c = ':')
  have hd : ∀ ds : List (Fin 10), ∀ c ∈ ds.map digit, sep c = false := by
    intro ds c hc
    obtain ⟨n, _, rfl⟩ := List.mem_map.mp hc
    have e1 := digit_ne n '-' (by decide)
    have e2 := digit_ne n '/' (by decide)
    have e3 := digit_ne n ':' (by decide)
    have e4 := digit_ne n '.' (by decide)
    have e5 := digit_ne n ',' (by decide)
    first | (simp [e1, e2, e3, e4, e5]; done) | simp [sep, e1, e2, e3, e4, e5]
  have hlen : 10 ^ hs.length ≤ 255 + 1 := by
    have : hs.length = 0 ∨ hs.length = 1 ∨ hs.length = 2 := by omega
    rcases this with e | e | e <;> rw [e] <;> decide
  have ph := parseUnsigned_digits 255 hs hh.1 hlen
  have pm := parseUnsigned_digits 255 [m1, m2] (by simp) (by simp)
  have em : number [m1, m2] = m := by simp [number]; omega
  rw [em] at pm
  unfold TimeExists parseTime
  cases sec with
  | none =>
    have hsplit : splitBy sep text = [hs.map digit, [m1, m2].map digit] := by
      have e : text = hs.map digit ++ ':' :: [m1, m2].map digit := rfl
      rw [e, splitBy_sep sep _ (hd _) _ (by decide), splitBy_word sep _ (hd _)]
    simp only [sep] at hsplit
    simp only [hsplit, ph, pm]
    constructor
    · intro hx
      simp only [timeFromHms]
      rw [if_pos hx]
    · intro hx
      simp only [timeFromHms]
      rw [if_neg hx]
      exact ⟨_, rfl⟩
  | some p =>
    obtain ⟨s1, s2⟩ := p
    have hsplit : splitBy sep text = [hs.map digit, [m1, m2].map digit, [s1, s2].map digit] := by
      have e : text = hs.map digit ++ ':' :: ([m1, m2].map digit ++ ':' :: [s1, s2].map digit) := rfl
      rw [e, splitBy_sep sep _ (hd _) _ (by decide), splitBy_sep sep _ (hd _) _ (by decide),
        splitBy_word sep _ (hd _)]
    have ps := parseUnsigned_digits 255 [s1, s2] (by simp) (by simp)
    have es : number [s1, s2] = s := by simp [number, s]; omega
    rw [es] at ps
    simp only [sep] at hsplit
    simp only [hsplit, ph, pm, ps]
    constructor
    · intro hx
      simp only [timeFromHms]
      rw [if_pos hx]
    · intro hx
      simp only [timeFromHms]
      rw [if_neg hx]
      exact ⟨_, rfl⟩

example : parseTime (str "9:05:59") = .ok ⟨9, 5, 59⟩ := by decide
example : parseTime (str "24:00") = .err ⟨str "time out of range"⟩ := by decide

/-! ## C29 -/

/-- C29: a number text is integer digits, with thousands separators anywhere among them, and optionally a dot
and decimals; it yields the number all its digits write, with as many decimals as written, provided that
fits the decimal type. -/
theorem C29_number (other : Str → Except LexerError Dec) (intText : Str) (is : List (Fin 10))
    (hi : is ≠ []) (hint : intText.filter (fun c => decide (c ≠ ',')) = is.map digit)
    (fs : List (Fin 10)) (hfit : number (is ++ fs) < 2 ^ 96 ∧ fs.length ≤ 28) :
    parseNumber other (intText ++ if fs = [] then [] else '.' :: fs.map digit) =
      .ok ⟨number (is ++ fs), fs.length⟩ := by
  have hcomma : ∀ ds : List (Fin 10), (ds.map digit).filter (fun c => decide (c ≠ ',')) = ds.map digit := by
    intro ds
    rw [List.filter_eq_self]
    intro c hc
    obtain ⟨n, _, rfl⟩ := List.mem_map.mp hc
    have e1 := digit_ne n '-' (by decide)
    have e2 := digit_ne n '/' (by decide)
    have e3 := digit_ne n ':' (by decide)
    have e4 := digit_ne n '.' (by decide)
    have e5 := digit_ne n ',' (by decide)
    first | (simp [e1, e2, e3, e4, e5]; done) | simp [sep, e1, e2, e3, e4, e5]
  have hfilter : (intText ++ if fs = [] then [] else '.' :: fs.map digit).filter (fun c => decide (c ≠ ',')) =
      is.map digit ++ if fs = [] then [] else '.' :: fs.map digit := by
    rw [List.filter_append, hint]
    split
    · rfl
    · rw [List.filter_cons_of_pos (by decide), hcomma]
  have hnum : parseNumber other (intText ++ if fs = [] then [] else '.' :: fs.map digit) =
      decFromStr other (is.map digit ++ if fs = [] then [] else '.' :: fs.map digit) := by
    generalize (intText ++ if fs = [] then [] else '.' :: fs.map digit) = txt at hfilter
    rw [← hfilter]
    unfold parseNumber
    by_cases hc : txt.contains ',' = true
    · rw [if_pos hc]
    · rw [if_neg hc, List.filter_eq_self.mpr]
      intro c hcm
      rw [decide_eq_true_eq]
      intro e
      subst e
      exact hc (by rw [List.contains_iff_mem]; exact hcm)
  rw [hnum]
  let sep : Char → Bool := fun c => decide (c = '.')
  have hd : ∀ ds : List (Fin 10), ∀ c ∈ ds.map digit, sep c = false := by
    intro ds c hc
    obtain ⟨n, _, rfl⟩ := List.mem_map.mp hc
    have e1 := digit_ne n '-' (by decide)
    have e2 := digit_ne n '/' (by decide)
    have e3 := digit_ne n ':' (by decide)
    have e4 := digit_ne n '.' (by decide)
    have e5 := digit_ne n ',' (by decide)
    first | (simp [e1, e2, e3, e4, e5]; done) | simp [sep, e1, e2, e3, e4, e5]
  have hall : ∀ ds : List (Fin 10), (ds.map digit).all isAsciiDigit = true := by
    intro ds
    rw [List.all_eq_true]
    intro c hc
    obtain ⟨n, _, rfl⟩ := List.mem_map.mp hc
    exact digit_isAsciiDigit n
  have hlit : decimalLiteral (is.map digit ++ if fs = [] then [] else '.' :: fs.map digit) =
      some ⟨number (is ++ fs), fs.length⟩ := by
    unfold decimalLiteral
    by_cases hf : fs = []
    · subst hf
      have hs := splitBy_word sep _ (hd is)
      simp only [sep] at hs
      simp only [if_true, List.append_nil, hs]
      rw [if_pos ⟨by simpa using hi, hall is⟩, decimalValue_eq]
      rfl
    · have hs : splitBy sep (is.map digit ++ '.' :: fs.map digit) = [is.map digit, fs.map digit] := by
        rw [splitBy_sep sep _ (hd _) _ (by decide), splitBy_word sep _ (hd _)]
      simp only [sep] at hs
      simp only [hf, if_false, hs]
      rw [if_pos ⟨by simpa using hi, hall is, by simpa using hf, hall fs⟩, ← List.map_append, decimalValue_eq]
      simp
  unfold decFromStr
  rw [hlit]
  simp only
  rw [if_pos]
  exact hfit

example : parseNumber (fun _ => .error ⟨[]⟩) (str "1,234.50") = .ok ⟨123450, 2⟩ := by rfl
example : (str "1,234").filter (fun c => decide (c ≠ ',')) = [1, 2, 3, 4].map digit ∧
    number ([1, 2, 3, 4] ++ [5, 0]) = 123450 := by decide

/-! ## C30 -/

theorem simpleEscape_iff (e x : Char) : simpleEscape e = some x ↔ (e, x) ∈ namedEscapes := by
  unfold simpleEscape namedEscapes
  simp only [List.mem_cons, Prod.mk.injEq, List.not_mem_nil, or_false]
  constructor
  · intro h
    repeat' split at h
    all_goals first | (cases h; done) | (cases h; simp_all; done) | skip
  · intro h
    rcases h with ⟨rfl, rfl⟩ | ⟨rfl, rfl⟩ | ⟨rfl, rfl⟩ | ⟨rfl, rfl⟩ | ⟨rfl, rfl⟩ | ⟨rfl, rfl⟩ | ⟨rfl, rfl⟩ | ⟨rfl, rfl⟩ <;> decide

theorem unescape_of (other : Str → Option (Char × Nat)) (s t : Str) (h : Unescapes s t) :
    unescape other s = some t := by
  induction h with
  | nil => rw [unescape]
  | plain c s t hc _ ih => rw [unescape.eq_def]; simp [hc, ih]
  | named e x s t he _ ih =>
    rw [unescape.eq_def]
    simp [(simpleEscape_iff e x).mpr he, ih]

theorem unescapes_noBackslash (s : Str) (h : '\\' ∉ s) : Unescapes s s := by
  induction s with
  | nil => exact .nil
  | cons c s ih =>
    exact .plain c s s (fun e => h (by simp [e])) (ih (fun e => h (by simp [e])))

theorem string_callback_slice (s : Str) :
    slice ('"' :: (s ++ ['"'])) 1 (byteLen ('"' :: (s ++ ['"'])) - 1) = some s := by
  rw [slice_iff]
  refine ⟨['"'], ['"'], by simp, by decide, ?_⟩
  have h1 : byteLen ['"'] = 1 := by decide
  have h2 : '"'.utf8Size = 1 := by decide
  have h3 : byteLen ('"' :: (s ++ ['"'])) = 1 + (byteLen s + 1) := by
    rw [byteLen_cons, byteLen_append, h1, h2]
  omega

/-- C30: a quoted text yields the text with named escapes replaced and nothing else changed. -/
theorem C30_unescape (other : Str → Option (Char × Nat)) (s t : Str) (h : Unescapes s t) :
    stringCallback other ('"' :: (s ++ ['"'])) = .ok t := by
  unfold stringCallback
  rw [string_callback_slice]
  simp only [unescapeStringLiteral]
  split
  · rename_i t' ht'
    split at ht'
    · rw [unescape_of other s t h] at ht'
      cases ht'; rfl
    · rename_i hc
      cases ht'
      have hn : '\\' ∉ s := by
        intro hm
        exact hc (by rw [List.contains_iff_mem]; exact hm)
      have h1 := unescape_of other s s (unescapes_noBackslash s hn)
      rw [unescape_of other s t h] at h1
      cases h1; rfl
  · rename_i e he
    split at he
    · rw [unescape_of other s t h] at he
      cases he
    · cases he

/-- C30: escaping any text and lexing it gives the text back. -/
theorem C30_escape_roundtrip (other : Str → Option (Char × Nat)) (t : Str) :
    stringCallback other ('"' :: (escape t ++ ['"'])) = .ok t := by
  apply C30_unescape
  induction t with
  | nil => exact .nil
  | cons c t ih =>
    unfold escape at ih ⊢
    rw [List.flatMap_cons]
    split
    · rename_i h
      refine .named c c _ _ ?_ ih
      rcases h with rfl | rfl <;> decide
    · rename_i h
      exact .plain c _ _ (fun e => h (Or.inr e)) ih

/-- C30: a text without backslashes is unchanged. -/
theorem C30_plain_unchanged (other : Str → Option (Char × Nat)) (s : Str) (h : '\\' ∉ s) :
    stringCallback other ('"' :: (s ++ ['"'])) = .ok s :=
  C30_unescape other s s (unescapes_noBackslash s h)

example : Unescapes (str "a\\n\\\"é") (str "a\n\"é") :=
  .plain _ _ _ (by decide) (.named 'n' '\n' _ _ (by decide) (.named '"' '"' _ _ (by decide)
    (.plain _ _ _ (by decide) .nil)))

end Lima.Props
