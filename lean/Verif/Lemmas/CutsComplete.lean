import Verif.Lemmas.Ties

/-! If the engine always falls back, a text made of lexemes is lexed as them. -/

namespace Lima
open Spec

set_option linter.unusedSectionVars false

section
variable [Categories]

omit [Categories] in
theorem parseNumber_of {l : Logos} {w : Str} {r : Except LexerError Dec} (h : DenotesNumber l (w.filter (· ≠ ',')) r) :
    parseNumber l.otherNumber w = r := by
  have e : parseNumber l.otherNumber w = decFromStr l.otherNumber (w.filter (· ≠ ',')) := by
    unfold parseNumber
    split
    · rfl
    · rename_i hc
      have : w.filter (· ≠ ',') = w := List.filter_eq_self.mpr (fun c hcm => by
        rw [decide_eq_true_eq]
        rintro rfl
        exact hc (List.contains_iff_mem.mpr hcm))
      rw [this]
  rw [e]
  generalize w.filter (· ≠ ',') = v at h
  unfold decFromStr
  cases h with
  | int h1 h2 =>
    rw [decimalLiteral_int h1]
    simp only
    rw [if_pos ⟨by simpa using h2, by simp⟩]
  | fraction h1 h2 h3 h4 =>
    rw [decimalLiteral_fraction h1 h2]
    simp only
    rw [if_pos ⟨by simpa using h3, h4⟩]
  | other h1 h2 =>
    split
    · rename_i d hd
      rw [if_neg]
      intro hf
      rcases decimalLiteral_some hd with ⟨ds, h3, rfl, rfl⟩ | ⟨ds, fs, h3, h4, rfl, rfl⟩
      · exact h1 ⟨ds, h3, by simpa using hf.1, rfl⟩
      · exact h2 ⟨ds, fs, h3, h4, by simpa using hf.1, hf.2, rfl⟩
    · rfl

omit [Categories] in
theorem written_sep {ds : Decimals} {x : Char} (hx : isAsciiDigit x = false) : ∀ c ∈ asDecimals ds, c ≠ x := by
  intro c hc
  obtain ⟨n, _, rfl⟩ := List.mem_map.mp hc
  exact digit_ne n x hx

omit [Categories] in
theorem parseUnsigned_written {max n : Nat} {ds : Decimals} (hl : (asDecimals ds).length = n) (h : n ≠ 0) (hn : 10 ^ n ≤ max + 1) :
    parseUnsigned max (asDecimals ds) = some (number ds) := by
  have hl' : ds.length = n := by simpa [asDecimals] using hl
  refine parseUnsigned_digits max ds ?_ (by rw [hl']; exact hn)
  rintro rfl
  simp at hl'
  omega

theorem date_callback {y m d : Decimals} {s1 s2 : Char} (h1 : In "-/" s1) (h2 : In "-/" s2)
    (h : Lexeme .date (asDecimals y ++ s1 :: (asDecimals m ++ s2 :: asDecimals d))) (hex : DateExists (number y) (number m) (number d)) :
    parseDate (asDecimals y ++ s1 :: (asDecimals m ++ s2 :: asDecimals d)) = .ok ⟨number y, number m, number d⟩ := by
  let sep : Char → Bool := fun c => decide (c = '-') || decide (c = '/')
  have hin : ∀ c, In "-/" c → sep c = true := by
    intro c hc
    simp only [In] at hc
    have : c = '-' ∨ c = '/' := by simpa using hc
    rcases this with rfl | rfl <;> decide
  have hns : ∀ {n w}, Digits n w → ∀ c ∈ w, sep c = false := by
    intro n w h c hc
    have e1 := digits_ne h (x := '-') (by decide) (by decide) c hc
    have e2 := digits_ne h (x := '/') (by decide) (by decide) c hc
    simp [sep, e1, e2]
  have hws : ∀ ds : Decimals, ∀ c ∈ asDecimals ds, sep c = false := by
    intro ds c hc
    have e1 := written_sep (ds := ds) (x := '-') (by decide) c hc
    have e2 := written_sep (ds := ds) (x := '/') (by decide) c hc
    simp [sep, e1, e2]
  have hsplit : splitBy sep (asDecimals y ++ s1 :: (asDecimals m ++ s2 :: asDecimals d)) = [asDecimals y, asDecimals m, asDecimals d] := by
    rw [splitBy_sep sep _ (hws y) _ (hin _ h1), splitBy_sep sep _ (hws m) _ (hin _ h2), splitBy_word sep _ (hws d)]
  obtain ⟨l1, l2, l3⟩ : (asDecimals y).length = 4 ∧ (asDecimals m).length = 2 ∧ (asDecimals d).length = 2 := by
    generalize hw : asDecimals y ++ s1 :: (asDecimals m ++ s2 :: asDecimals d) = w at h hsplit
    cases h with
    | date hy hm hd h1' h2' =>
      rw [splitBy_sep sep _ (hns hy) _ (hin _ h1'), splitBy_sep sep _ (hns hm) _ (hin _ h2'), splitBy_word sep _ (hns hd)] at hsplit
      cases hsplit
      exact ⟨hy.1, hm.1, hd.1⟩
  have py := parseUnsigned_written (max := 2 ^ 31 - 1) l1 (by decide) (by decide)
  have pm := parseUnsigned_written (max := 255) l2 (by decide) (by decide)
  have pd := parseUnsigned_written (max := 255) l3 (by decide) (by decide)
  have hyear : number y ≤ 9999 := by
    have := number_lt y
    simp only [asDecimals, List.length_map] at l1
    rw [l1] at this
    omega
  obtain ⟨hm, hd⟩ := (Props.validDate_iff _ _ _).mpr hex
  unfold parseDate
  simp only [sep] at hsplit
  simp [hsplit, py, pm, pd, hm, dateFromCalendar, hyear, hd]

theorem hour_digits {h : Str} (hh : Digits 1 h ∨ Digits 2 h) : h.length = 1 ∨ h.length = 2 := hh.imp And.left And.left

theorem time_callback {h m : Decimals} (hl : Lexeme .time (asDecimals h ++ ':' :: asDecimals m)) (hex : TimeExists (number h) (number m) 0) :
    parseTime (asDecimals h ++ ':' :: asDecimals m) = .ok ⟨number h, number m, 0⟩ := by
  let sep : Char → Bool := fun c => decide (c = ':')
  have hns : ∀ {n w}, Digits n w → ∀ c ∈ w, sep c = false := by
    intro n w h c hc
    have e1 := digits_ne h (x := ':') (by decide) (by decide) c hc
    simp [sep, e1]
  have hhour : ∀ {h}, Digits 1 h ∨ Digits 2 h → ∀ c ∈ h, sep c = false := fun h => h.elim hns hns
  have hws : ∀ ds : Decimals, ∀ c ∈ asDecimals ds, sep c = false := by
    intro ds c hc
    have e1 := written_sep (ds := ds) (x := ':') (by decide) c hc
    simp [sep, e1]
  have hsplit : splitBy sep (asDecimals h ++ ':' :: asDecimals m) = [asDecimals h, asDecimals m] := by
    rw [splitBy_sep sep _ (hws h) _ (by decide), splitBy_word sep _ (hws m)]
  obtain ⟨l1, l2⟩ : ((asDecimals h).length = 1 ∨ (asDecimals h).length = 2) ∧ (asDecimals m).length = 2 := by
    generalize hw : asDecimals h ++ ':' :: asDecimals m = w at hl hsplit
    cases hl with
    | time hh hm =>
      rw [splitBy_sep sep _ (hhour hh) _ (by decide), splitBy_word sep _ (hns hm)] at hsplit
      cases hsplit
      exact ⟨hour_digits hh, hm.1⟩
    | timeSeconds hh hm hs =>
      rw [splitBy_sep sep _ (hhour hh) _ (by decide), splitBy_sep sep _ (hns hm) _ (by decide), splitBy_word sep _ (hns hs)] at hsplit
      cases hsplit
  have ph : parseUnsigned 255 (asDecimals h) = some (number h) := by
    rcases l1 with l1 | l1 <;> exact parseUnsigned_written l1 (by decide) (by decide)
  have pm := parseUnsigned_written (max := 255) l2 (by decide) (by decide)
  unfold parseTime
  simp only [sep] at hsplit
  simp only [hsplit, ph, pm, timeFromHms]
  unfold TimeExists at hex
  rw [if_pos hex]

theorem timeSeconds_callback {h m s : Decimals} (hl : Lexeme .time (asDecimals h ++ ':' :: (asDecimals m ++ ':' :: asDecimals s)))
    (hex : TimeExists (number h) (number m) (number s)) :
    parseTime (asDecimals h ++ ':' :: (asDecimals m ++ ':' :: asDecimals s)) = .ok ⟨number h, number m, number s⟩ := by
  let sep : Char → Bool := fun c => decide (c = ':')
  have hns : ∀ {n w}, Digits n w → ∀ c ∈ w, sep c = false := by
    intro n w h c hc
    have e1 := digits_ne h (x := ':') (by decide) (by decide) c hc
    simp [sep, e1]
  have hhour : ∀ {h}, Digits 1 h ∨ Digits 2 h → ∀ c ∈ h, sep c = false := fun h => h.elim hns hns
  have hws : ∀ ds : Decimals, ∀ c ∈ asDecimals ds, sep c = false := by
    intro ds c hc
    have e1 := written_sep (ds := ds) (x := ':') (by decide) c hc
    simp [sep, e1]
  have hsplit : splitBy sep (asDecimals h ++ ':' :: (asDecimals m ++ ':' :: asDecimals s)) = [asDecimals h, asDecimals m, asDecimals s] := by
    rw [splitBy_sep sep _ (hws h) _ (by decide), splitBy_sep sep _ (hws m) _ (by decide), splitBy_word sep _ (hws s)]
  obtain ⟨l1, l2, l3⟩ : ((asDecimals h).length = 1 ∨ (asDecimals h).length = 2) ∧ (asDecimals m).length = 2 ∧ (asDecimals s).length = 2 := by
    generalize hw : asDecimals h ++ ':' :: (asDecimals m ++ ':' :: asDecimals s) = w at hl hsplit
    cases hl with
    | time hh hm =>
      rw [splitBy_sep sep _ (hhour hh) _ (by decide), splitBy_word sep _ (hns hm)] at hsplit
      cases hsplit
    | timeSeconds hh hm hs =>
      rw [splitBy_sep sep _ (hhour hh) _ (by decide), splitBy_sep sep _ (hns hm) _ (by decide), splitBy_word sep _ (hns hs)] at hsplit
      cases hsplit
      exact ⟨hour_digits hh, hm.1, hs.1⟩
  have ph : parseUnsigned 255 (asDecimals h) = some (number h) := by
    rcases l1 with l1 | l1 <;> exact parseUnsigned_written l1 (by decide) (by decide)
  have pm := parseUnsigned_written (max := 255) l2 (by decide) (by decide)
  have ps := parseUnsigned_written (max := 255) l3 (by decide) (by decide)
  unfold parseTime
  simp only [sep] at hsplit
  simp only [hsplit, ph, pm, ps, timeFromHms]
  unfold TimeExists at hex
  rw [if_pos hex]

/-- The callback makes of a lexeme the token it denotes. -/
theorem denotes_callback {l : Logos} {k : Kind} {w : Str} {t : Token} (h : Lexeme k w) (hd : Denotes l k w (.ok t)) :
    tokenCallback l k w = some (.ok t) := by
  generalize hr : (Except.ok t : Except LexerError Token) = r at hd
  cases hd with
  | lit => cases hr; rfl
  | currency => cases hr; rfl
  | account => cases hr; rfl
  | key => cases hr; rfl
  | noDate | noMonth | noTime | noTimeSeconds | noString | noNumber => cases hr
  | flag =>
    cases h with
    | flag hc =>
      cases hr
      simp only [tokenCallback, flagCallback, List.getElem?_cons_succ, List.getElem?_cons_zero, FlagLetter.tryFrom,
        if_pos (upper_iff.mp hc)]
  | @tag w =>
    cases hr
    have : dropBytes 1 ('#' :: w) = some w := (dropBytes_iff _ _ _).mpr ⟨['#'], rfl, by decide⟩
    simp only [tokenCallback, afterFirstByte, this]
  | @link w =>
    cases hr
    have : dropBytes 1 ('^' :: w) = some w := (dropBytes_iff _ _ _).mpr ⟨['^'], rfl, by decide⟩
    simp only [tokenCallback, afterFirstByte, this]
  | string hu =>
    cases hr
    simp only [tokenCallback]
    rw [stringCallback_eq, unescape_iff.mpr hu]
    rfl
  | @number w d hn =>
    cases hr
    simp only [tokenCallback]
    rw [parseNumber_of hn]; rfl
  | date h1 h2 hex =>
    cases hr
    simp only [tokenCallback]
    rw [date_callback h1 h2 h hex]; rfl
  | time hex =>
    cases hr
    simp only [tokenCallback]
    rw [time_callback h hex]; rfl
  | timeSeconds hex =>
    cases hr
    simp only [tokenCallback]
    rw [timeSeconds_callback h hex]; rfl

/-- Lexing a text which is made of lexemes. -/
theorem lexItems_of_cuts {l : Logos} (hl : ∀ s, l.token.fallsBack s = true) {pos : Nat} {s : Str} {items : List (RawItem Token)}
    (h : Cuts l pos s items) (hok : ∀ it ∈ items, ∃ t, it.res = .ok t) :
    ∀ fuel, s.length ≤ fuel → lexItems l.token tokenPatterns (tokenCallback l) fuel pos s = some items := by
  have step : ∀ {w s : Str} {k : Kind}, LongestLexeme (w ++ s) w k → ∃ (i : Nat) (p : Kind × Re), tokenPatterns[i]? = some p ∧
      p.1 = k ∧ l.token.next (tokenPatterns.map (·.2)) (w ++ s) = .found i w.length := by
    intro w s k h
    obtain ⟨i, p, hm, hi⟩ := longest_match_of_lexeme h
    exact ⟨i, p, hi, (longestLexeme_unique (longest_lexeme hm hi) h).2, next_of_longest tokenPatterns_inhabited hm (.inl (hl _))⟩
  induction h with
  | done => intro fuel _; cases fuel <;> rfl
  | @blank pos w s items hL _ ih =>
    intro fuel hf
    obtain ⟨i, p, hi, hk, hn⟩ := step hL
    have hlen : 0 < w.length := List.length_pos_iff.mpr hL.nonEmpty
    rw [List.length_append] at hf
    obtain ⟨fuel, rfl⟩ : ∃ f, fuel = f + 1 := ⟨fuel - 1, by omega⟩
    rw [lexItems_step hL.nonEmpty hi hn, hk]
    exact ih hok fuel (by omega)
  | @piece pos w s k r items hL hd _ ih =>
    intro fuel hf
    obtain ⟨i, p, hi, hk, hn⟩ := step hL
    have hlen : 0 < w.length := List.length_pos_iff.mpr hL.nonEmpty
    rw [List.length_append] at hf
    obtain ⟨fuel, rfl⟩ : ∃ f, fuel = f + 1 := ⟨fuel - 1, by omega⟩
    obtain ⟨t, ht⟩ := hok _ List.mem_cons_self
    simp only at ht
    subst ht
    rw [lexItems_step hL.nonEmpty hi hn, hk, denotes_callback hL.lexeme hd]
    simp only
    rw [ih (fun it hit => hok it (List.mem_cons_of_mem _ hit)) fuel (by omega)]
    rfl
  | unrecognized _ _ _ _ =>
    obtain ⟨t, ht⟩ := hok _ List.mem_cons_self
    cases ht

end

end Lima
