import Verif.Lemmas.LexPanics
import Verif.Props.Logos

/-!
# C48: the text is cut into the lexemes of the language
-/

namespace Lima.Props
open Lima Lima.Spec

section
variable [Categories]

/-- C48, without regular expressions: the text is cut into lexemes from left to right; each is the longest lexeme at
its place, white space gives nothing, and every other lexeme the token it denotes, or an error.  Where there is no
lexeme, or the engine gives up on a longer one, there is an error. -/
theorem C48_lexemes (l : Logos) (s : Str) (items : List (RawItem Token)) (h : tokenItems l s = some items) :
    Cuts l 0 s items := cuts_of_tokenizes (tokenItems_tokenizes h)

/-- C48: at each place there is at most one longest lexeme, and it is of one kind. -/
theorem C48_unambiguous (s w w' : Str) (k k' : Kind) (h : LongestLexeme s w k) (h' : LongestLexeme s w' k') :
    w = w' ∧ k = k' := longestLexeme_unique h h'

/-- C48: two kinds of lexeme can only compete for a fixed text, which could be a currency or a key. -/
theorem C48_ties (k k' : Kind) (w : Str) (h : Lexeme k w) (h' : Lexeme k' w) (hne : k ≠ k') :
    ∃ t, Fixed t w ∧ (k = .lit t ∨ k = .currency ∨ k = .key) ∧ (k' = .lit t ∨ k' = .currency ∨ k' = .key) := by
  by_cases hf : ∃ t, Fixed t w
  · obtain ⟨t, ht⟩ := hf
    exact ⟨t, ht, fixed_ties ht h, fixed_ties ht h'⟩
  · exact absurd (lexeme_kind h h' (fun t ht => hf ⟨t, ht⟩)) hne

/-- C48, the other direction: if the engine always falls back to the longest match, a text which is made of lexemes
with tokens is lexed as those, without panic or error. -/
theorem C48_all_lexemes_read (l : Logos) (hl : ∀ s, l.token.fallsBack s = true) (s : Str) (items : List (RawItem Token))
    (h : Cuts l 0 s items) (hok : ∀ it ∈ items, ∃ t, it.res = .ok t) : tokenItems l s = some items :=
  lexItems_of_cuts hl h hok _ (Nat.le_refl _)

/-! ## C50 -/

/-- C50, on which texts lexing panics: those where the lexer comes to a date or time with a digit other than `0` to `9`,
or refuses a text with such a date in it.  Such digits in comments, strings, accounts and numbers do no harm. -/
theorem C50_panics_only (l : Logos) (s : Str) (h : lexText l s = none) : ComesToForeignDate l s := by
  unfold lexText at h
  cases hi : tokenItems l s with
  | none => exact lexItems_panic l _ _ _ hi
  | some items =>
    simp only [hi] at h
    split at h
    · rename_i hr
      exact recoveryPanics_comes hi hr
    · rename_i hr
      exfalso
      obtain ⟨ts, h1, _⟩ := recoveredAll_placed items (recovered_placed hi (by simpa using hr))
        (tokenizes_consecutive (tokenItems_tokenizes hi)).2
      unfold lex lexWithFinalEol attemptRecovery at h
      rw [recovery_collect] at h
      simp [pendingRecovery, h1] at h

/-- C50: so a text panics only if there is such a date or time somewhere in it. -/
theorem C50_panics_only_with_date (l : Logos) (s : Str) (h : lexText l s = none) : HasForeignDate s :=
  foreignDate_has (C50_panics_only l s h)

theorem digits_split {n : Nat} {w : Str} (h : Digits n w) : ∀ c ∈ w, c ≠ '-' ∧ c ≠ '/' ∧ c ≠ ':' :=
  fun c hc => ⟨digits_ne h (by decide) (by decide) c hc, digits_ne h (by decide) (by decide) c hc,
    digits_ne h (by decide) (by decide) c hc⟩

theorem lexText_panic {l : Logos} (hl : ∀ s, l.token.fallsBack s = true) {s w rest : Str} {k : Kind}
    (hs : ComesToByLexemes s (w ++ rest)) (hL : LongestLexeme (w ++ rest) w k) (hp : tokenCallback l k w = some .panic) :
    lexText l s = none := by
  unfold lexText tokenItems
  rw [lexItems_reaches hl hs rfl hL hp _ _ (Nat.le_refl _)]

/-- C50, the other direction: if the engine always falls back to the longest match, a text panics if its lexemes lead to
a date whose year or month is not written in the digits `0` to `9`, or whose day is not while the month is one of the
twelve. -/
theorem C50_foreign_date_panics (l : Logos) (hl : ∀ s, l.token.fallsBack s = true) (s y m d rest : Str) (s1 s2 : Char)
    (hy : Digits 4 y) (hm : Digits 2 m) (hd : Digits 2 d) (h1 : s1 = '-' ∨ s1 = '/') (h2 : s2 = '-' ∨ s2 = '/')
    (hs : ComesToByLexemes s ((y ++ s1 :: (m ++ s2 :: d)) ++ rest))
    (hL : LongestLexeme ((y ++ s1 :: (m ++ s2 :: d)) ++ rest) (y ++ s1 :: (m ++ s2 :: d)) .date)
    (hf : Foreign y ∨ Foreign m ∨ (∃ t ∈ monthTexts, m = t.toList) ∧ Foreign d) : lexText l s = none := by
  refine lexText_panic hl hs hL ?_
  have := (C28_date_panics_iff y m d s1 s2 hy.1 hm.1 hd.1 h1 h2 ?_).mpr hf
  · rw [tokenCallback, this]; rfl
  · intro c hc
    simp only [List.mem_append] at hc
    rcases hc with (hc | hc) | hc
    · exact ⟨(digits_split hy c hc).1, (digits_split hy c hc).2.1⟩
    · exact ⟨(digits_split hm c hc).1, (digits_split hm c hc).2.1⟩
    · exact ⟨(digits_split hd c hc).1, (digits_split hd c hc).2.1⟩

/-- C50: or to a time with such a digit. -/
theorem C50_foreign_time_panics (l : Logos) (hl : ∀ s, l.token.fallsBack s = true) (s w rest : Str)
    (hs : ComesToByLexemes s (w ++ rest)) (hL : LongestLexeme (w ++ rest) w .time)
    (hf : ∃ c ∈ w, ¬ ('0' ≤ c ∧ c ≤ '9') ∧ c ≠ ':') : lexText l s = none := by
  refine lexText_panic hl hs hL ?_
  obtain ⟨c, hc, hf, hne⟩ := hf
  have two : ∀ {h : Str}, Digits 1 h ∨ Digits 2 h → (h.length = 1 ∨ h.length = 2) ∧ ∀ c ∈ h, c ≠ ':' := by
    rintro h (hh | hh)
    · exact ⟨.inl hh.1, fun c hc => (digits_split hh c hc).2.2⟩
    · exact ⟨.inr hh.1, fun c hc => (digits_split hh c hc).2.2⟩
  have hp : parseTime w = .panic := by
    generalize hk : Kind.time = k at hL
    cases hL.lexeme with
    | @time h m hh hm =>
      have := (C28_time_panics_iff h m [] (two hh).1 hm.1 (.inl rfl) ?_).mpr ?_
      · rwa [List.append_nil] at this
      · intro c hc
        simp only [List.tail_nil, List.append_nil, List.mem_append] at hc
        exact hc.elim ((two hh).2 c) (fun hc => (digits_split hm c hc).2.2)
      · simp only [List.mem_append, List.mem_cons] at hc
        rcases hc with hc | hc | hc
        · exact .inl ⟨c, hc, hf⟩
        · exact absurd hc hne
        · exact .inr (.inl ⟨c, hc, hf⟩)
    | @timeSeconds h m x hh hm hx =>
      refine (C28_time_panics_iff h m (':' :: x) (two hh).1 hm.1 (.inr ⟨x, rfl, hx.1⟩) ?_).mpr ?_
      · intro c hc
        simp only [List.tail_cons, List.mem_append] at hc
        rcases hc with (hc | hc) | hc
        · exact (two hh).2 c hc
        · exact (digits_split hm c hc).2.2
        · exact (digits_split hx c hc).2.2
      · simp only [List.mem_append, List.mem_cons] at hc
        rcases hc with hc | hc | hc | hc | hc
        · exact .inl ⟨c, hc, hf⟩
        · exact absurd hc hne
        · exact .inr (.inl ⟨c, hc, hf⟩)
        · exact absurd hc hne
        · exact .inr (.inr ⟨c, hc, hf⟩)
    | _ => cases hk
  rw [tokenCallback, hp]
  rfl

end

/-! ## Examples -/

section
attribute [local instance] Categories.some

/-- The first lexeme of a text, as the engine finds it. -/
theorem longest_of_next {w s : Str} {i : Nat} {p : Kind × Re}
    (hn : logos.token.next (tokenPatterns.map (·.2)) (w ++ s) = .found i w.length) (hp : tokenPatterns[i]? = some p) :
    LongestLexeme (w ++ s) w p.1 := longest_lexeme (next_found tokenPatterns_inhabited hn) hp

def foreignDay : Str := "open 2024-12-٠١".toList

/-- A day in Arabic digits after other lexemes. -/
example : lexText logos foreignDay = none := by
  have dig : ∀ c ∈ "2024".toList ++ "12".toList ++ "٠١".toList, Categories.decimalDigit c = true := by decide +kernel
  refine C50_foreign_date_panics logos (fun _ => rfl) foreignDay "2024".toList "12".toList "٠١".toList [] '-' '-'
    ⟨rfl, fun c hc => dig c (by simp only [List.mem_append]; exact .inl (.inl hc))⟩
    ⟨rfl, fun c hc => dig c (by simp only [List.mem_append]; exact .inl (.inr hc))⟩
    ⟨rfl, fun c hc => dig c (by simp only [List.mem_append]; exact .inr hc)⟩ (.inl rfl) (.inl rfl) ?_ ?_
    (.inr (.inr ⟨⟨"12", by decide, rfl⟩, '٠', by decide, by decide⟩))
  · have h1 := longest_of_next (w := "open".toList) (s := " 2024-12-٠١".toList) (i := 26)
      (p := (.lit .open, .lit (str "open"))) (by decide +kernel) rfl
    have h2 := longest_of_next (w := " ".toList) (s := "2024-12-٠١".toList) (i := 57)
      (p := (.skip, .plus (.cls (oneOf [' ', '\t'])))) (by decide +kernel) rfl
    exact .lexeme h1 (.lexeme h2 .here)
  · exact longest_of_next (i := 46) (p := (.date, .date)) (by decide +kernel) rfl

/-- The same digits in a comment, a string, an account and a number. -/
example : (lexText logos "\"٢٠٢٤-01-01\" Assets:٢٠٢٤ ٢ ; ٢٠٢٤-01-01\n".toList).isSome = true := by decide +kernel

/-- But not in a string with an escape which does not exist: it is looked at again. -/
example : lexText logos "\"\\q ٢٠٢٤-01-01\"".toList = none := by decide +kernel

end

/-! ## Examples for C48 -/

section
attribute [local instance] Categories.asciiOnly

theorem sampleItems : tokenItems logos "TRUE 12".toList = some [⟨.ok .true_, 0, 4⟩, ⟨.ok (.number ⟨12, 0⟩), 5, 7⟩] := by
  rfl

/-- A text which is made of lexemes; here from the lexer. -/
example : Cuts logos 0 "TRUE 12".toList [⟨.ok .true_, 0, 4⟩, ⟨.ok (.number ⟨12, 0⟩), 5, 7⟩] :=
  C48_lexemes _ _ _ sampleItems

example : ∀ s, logos.token.fallsBack s = true := fun _ => rfl

/-- `TRUE` could be a currency. -/
example : Lexeme (.lit .true_) "TRUE".toList ∧ Lexeme .currency "TRUE".toList := by
  refine ⟨.fixed ⟨"TRUE", by decide, rfl⟩, ?_⟩
  have : "TRUE".toList = 'T' :: ['R', 'U', 'E'] := rfl
  rw [this]
  refine .currency (by unfold Upper; decide) ?_
  unfold Upper Digit In
  decide

/-- `TRUE` is the longest lexeme, and the fixed text is preferred. -/
example : LongestLexeme ("TRUE".toList ++ " 12".toList) "TRUE".toList (.lit .true_) := by
  have hn : logos.token.next (tokenPatterns.map (·.2)) ("TRUE".toList ++ " 12".toList) = .found 0 "TRUE".toList.length := by
    decide +kernel
  exact longest_lexeme (next_found tokenPatterns_inhabited hn) (p := (.lit .true_, .lit "TRUE".toList)) rfl

end

end Lima.Props
