import Verif.Lemmas.LexText

/-! What the lexer reads a text as, if it has the whole of it. -/

namespace Lima
open Spec

section
variable [Categories]

/-- The pattern of a line end with indentation. -/
def reEolThenIndent : Re :=
  .seq (.opt .commentToEol) (.seq .newline (.seq (.star .ignoredWholeLine) (.plus (.cls (oneOf [' ', '\t'])))))

/-- The pattern of a line end. -/
def reEol : Re := .seq (.opt .commentToEol) (.seq .newline (.star .ignoredWholeLine))

/-- The pattern of a comment at the end of the file. -/
def reEolComment : Re := .seq (.chr ';') (.star (.cls (fun c => decide (c ≠ '\r') && decide (c ≠ '\n'))))

/-- A pattern of this kind matches the text. -/
inductive Reads : Kind → Str → Prop
  | lit {t : Token} {w : Str} : (t, w) ∈ literals → Reads (.lit t) w
  | flag {c : Char} : isAsciiUpper c = true → Reads .flagLetter ['\'', c]
  | currency {w : Str} : Matches Re.currency w → Reads .currency w
  | date {w : Str} : Matches Re.date w → Reads .date w
  | time {w : Str} : Matches Re.time w → Reads .time w
  | account {w : Str} : Matches Re.account w → Reads .account w
  | string {w : Str} : Matches Re.stringLiteral w → Reads .stringLiteral w
  | number {w : Str} : Matches Re.number w → Reads .number w
  | tag {w : Str} : w ≠ [] → (∀ c ∈ w, isTagChar c = true) → Reads .tag ('#' :: w)
  | link {w : Str} : w ≠ [] → (∀ c ∈ w, isTagChar c = true) → Reads .link ('^' :: w)
  | key {w : Str} : Matches Re.key w → Reads .key w
  | eolThenIndent {w : Str} : Matches reEolThenIndent w → Reads (.lit .eolThenIndent) w
  | eol {w : Str} : Matches reEol w → Reads (.lit .eol) w
  | eolComment {w : Str} : Matches reEolComment w → Reads (.lit .eolComment) w
  | skip {w : Str} : w ≠ [] → (∀ c ∈ w, c = ' ' ∨ c = '\t') → Reads .skip w

theorem patterns_literals : tokenPatterns.take 44 = literals.map (fun p => (Kind.lit p.1, Re.lit p.2)) := rfl

theorem patterns_rest : tokenPatterns.drop 44 =
    [(.flagLetter, .seq (.chr '\'') (.cls isAsciiUpper)), (.currency, .currency), (.date, .date), (.time, .time),
     (.account, .account), (.stringLiteral, .stringLiteral), (.number, .number),
     (.tag, .seq (.chr '#') .tagOrLinkIdentifier), (.link, .seq (.chr '^') .tagOrLinkIdentifier), (.key, .key),
     (.lit .eolThenIndent, reEolThenIndent), (.lit .eol, reEol), (.lit .eolComment, reEolComment),
     (.skip, .plus (.cls (oneOf [' ', '\t'])))] := rfl

/-- A pattern matches exactly what is read as of its kind. -/
theorem reads_iff (k : Kind) (w : Str) : Reads k w ↔ ∃ p ∈ tokenPatterns, p.1 = k ∧ Matches p.2 w := by
  have hsplit : ∀ p, p ∈ tokenPatterns ↔ p ∈ literals.map (fun p => (Kind.lit p.1, Re.lit p.2)) ∨ p ∈ tokenPatterns.drop 44 := by
    intro p
    rw [← patterns_literals, ← List.mem_append, List.take_append_drop]
  constructor
  · intro h
    have rest : ∀ p ∈ tokenPatterns.drop 44, Matches p.2 w → p.1 = k → ∃ p ∈ tokenPatterns, p.1 = k ∧ Matches p.2 w :=
      fun p h1 h2 h3 => ⟨p, (hsplit p).mpr (.inr h1), h3, h2⟩
    cases h with
    | @lit t w h =>
      exact ⟨(.lit t, .lit w), (hsplit _).mpr (.inl (List.mem_map.mpr ⟨_, h, rfl⟩)), rfl, Re.matches_lit.mpr rfl⟩
    | @flag c h => exact rest (.flagLetter, _) (by simp [patterns_rest]) (Re.matches_flag.mpr ⟨c, rfl, h⟩) rfl
    | currency h => exact rest (.currency, Re.currency) (List.mem_of_getElem? (i := 1) rfl) h rfl
    | date h => exact rest (.date, Re.date) (List.mem_of_getElem? (i := 2) rfl) h rfl
    | time h => exact rest (.time, Re.time) (List.mem_of_getElem? (i := 3) rfl) h rfl
    | account h => exact rest (.account, Re.account) (List.mem_of_getElem? (i := 4) rfl) h rfl
    | string h => exact rest (.stringLiteral, Re.stringLiteral) (List.mem_of_getElem? (i := 5) rfl) h rfl
    | number h => exact rest (.number, Re.number) (List.mem_of_getElem? (i := 6) rfl) h rfl
    | tag h0 h =>
      exact rest (.tag, .seq (.chr '#') .tagOrLinkIdentifier) (by simp [patterns_rest]) (Re.matches_tag.mpr ⟨_, rfl, h0, h⟩) rfl
    | link h0 h =>
      exact rest (.link, .seq (.chr '^') .tagOrLinkIdentifier) (by simp [patterns_rest]) (Re.matches_tag.mpr ⟨_, rfl, h0, h⟩) rfl
    | key h => exact rest (.key, Re.key) (List.mem_of_getElem? (i := 9) rfl) h rfl
    | eolThenIndent h => exact rest (.lit .eolThenIndent, reEolThenIndent) (List.mem_of_getElem? (i := 10) rfl) h rfl
    | eol h => exact rest (.lit .eol, reEol) (List.mem_of_getElem? (i := 11) rfl) h rfl
    | eolComment h => exact rest (.lit .eolComment, reEolComment) (List.mem_of_getElem? (i := 12) rfl) h rfl
    | skip h0 h =>
      refine rest (.skip, .plus (.cls (oneOf [' ', '\t']))) (by simp [patterns_rest]) (Re.matches_plus_cls.mpr ⟨h0, ?_⟩) rfl
      intro c hc
      simpa [oneOf] using h c hc
  · rintro ⟨p, hp, rfl, hm⟩
    rcases (hsplit p).mp hp with hp | hp
    · obtain ⟨q, hq, rfl⟩ := List.mem_map.mp hp
      rw [Re.matches_lit.mp hm]
      exact .lit hq
    · rw [patterns_rest] at hp
      simp only [List.mem_cons, List.not_mem_nil, or_false] at hp
      rcases hp with rfl | rfl | rfl | rfl | rfl | rfl | rfl | rfl | rfl | rfl | rfl | rfl | rfl | rfl
      · obtain ⟨c, rfl, h⟩ := Re.matches_flag.mp hm; exact .flag h
      · exact .currency hm
      · exact .date hm
      · exact .time hm
      · exact .account hm
      · exact .string hm
      · exact .number hm
      · obtain ⟨r, rfl, h0, h⟩ := Re.matches_tag.mp hm; exact .tag h0 h
      · obtain ⟨r, rfl, h0, h⟩ := Re.matches_tag.mp hm; exact .link h0 h
      · exact .key hm
      · exact .eolThenIndent hm
      · exact .eol hm
      · exact .eolComment hm
      · obtain ⟨h0, h⟩ := Re.matches_plus_cls.mp hm
        exact .skip h0 (fun c hc => by simpa [oneOf] using h c hc)

omit [Categories] in
theorem literals_inj : ∀ p ∈ literals, ∀ q ∈ literals, p.2 = q.2 → p = q := by decide +kernel

/-- Of the patterns which match, the first in the list is that of a fixed text if there is one. -/
theorem first_match {k : Kind} {w : Str} (h : Reads k w) : ∃ (i : Nat) (p : Kind × Re), tokenPatterns[i]? = some p ∧ Matches p.2 w ∧
    (∀ (j : Nat) (q : Kind × Re), j < i → tokenPatterns[j]? = some q → ¬ Matches q.2 w) ∧ ∀ t, (t, w) ∈ literals → p.1 = .lit t := by
  obtain ⟨p, hp, _, hm⟩ := (reads_iff k w).mp h
  have hex : ∃ i : Nat, ∃ p : Kind × Re, tokenPatterns[i]? = some p ∧ Matches p.2 w := by
    obtain ⟨i, hi⟩ := List.mem_iff_getElem?.mp hp
    exact ⟨i, p, hi, hm⟩
  obtain ⟨i, ⟨p, hi, hm⟩, hmin⟩ : ∃ i : Nat, (∃ p : Kind × Re, tokenPatterns[i]? = some p ∧ Matches p.2 w) ∧
      ∀ j, j < i → ¬ ∃ p : Kind × Re, tokenPatterns[j]? = some p ∧ Matches p.2 w := by
    obtain ⟨i, hi⟩ := hex
    induction i using Nat.strongRecOn with
    | _ i ih =>
      by_cases hj : ∃ j, j < i ∧ ∃ p : Kind × Re, tokenPatterns[j]? = some p ∧ Matches p.2 w
      · obtain ⟨j, hj, h⟩ := hj; exact ih j hj h
      · exact ⟨i, hi, fun j hlt h => hj ⟨j, hlt, h⟩⟩
  refine ⟨i, p, hi, hm, fun j q hj hq hm' => hmin j hj ⟨q, hq, hm'⟩, ?_⟩
  intro t ht
  have hlit : (Kind.lit t, Re.lit w) ∈ tokenPatterns.take 44 := by
    rw [patterns_literals]; exact List.mem_map.mpr ⟨_, ht, rfl⟩
  obtain ⟨n, hn⟩ := List.mem_iff_getElem?.mp hlit
  rw [List.getElem?_take] at hn
  split at hn
  · rename_i hlt
    have hle : i ≤ n := by
      rcases Nat.lt_or_ge n i with h | h
      · exact absurd ⟨_, hn, Re.matches_lit.mpr rfl⟩ (hmin n h)
      · exact h
    have hp : p ∈ tokenPatterns.take 44 := List.mem_iff_getElem?.mpr ⟨i, by rw [List.getElem?_take, if_pos (by omega)]; exact hi⟩
    rw [patterns_literals] at hp
    obtain ⟨q, hq, rfl⟩ := List.mem_map.mp hp
    have e := Re.matches_lit.mp hm
    have := literals_inj q hq _ ht e.symm
    rw [this]
  · cases hn

/-! ### Lexing a text with a given first token -/

/-- The text is lexed without error as the tokens. -/
def Lexes (l : Logos) (s : Str) (ts : List Token) : Prop :=
  ∀ pos fuel, s.length ≤ fuel → ∃ items, lexItems l.token tokenPatterns (tokenCallback l) fuel pos s = some items ∧
    items.map (·.res) = ts.map .ok

theorem lexes_nil (l : Logos) : Lexes l [] [] := by
  intro pos fuel _
  exact ⟨[], by cases fuel <;> rfl, rfl⟩

/-- Nothing longer than `w` is recognized in front of `s`. -/
structure Stops (l : Logos) (w s : Str) : Prop where
  longest : ∀ k v, v ≠ [] → v <+: s → ¬ Reads k (w ++ v)
  decided : l.token.fallsBack (w ++ s) = true ∨ s = [] ∨ ∀ c ∈ s.head?, ∀ k v, ¬ Reads k (w ++ c :: v)

theorem Stops.nil {l : Logos} {w : Str} : Stops l w [] :=
  ⟨fun _ _ h1 h2 => absurd (List.prefix_nil.mp h2) h1, .inr (.inl rfl)⟩

theorem Stops.char {l : Logos} {w s : Str} {c : Char} (h : ∀ k v, ¬ Reads k (w ++ c :: v)) : Stops l w (c :: s) := by
  refine ⟨fun k v h1 h2 => ?_, .inr (.inr (by simpa using h))⟩
  cases v with
  | nil => exact absurd rfl h1
  | cons d v =>
    have : d = c := by simpa using (List.cons_prefix_cons.mp h2).1
    subst this
    exact h k v

theorem stops_longest {l : Logos} {k : Kind} {w s : Str} (hw : w ≠ []) (h : Reads k w) (hs : Stops l w s) :
    ∃ (i : Nat) (p : Kind × Re), tokenPatterns[i]? = some p ∧ Reads p.1 w ∧ (∀ t, (t, w) ∈ literals → p.1 = .lit t) ∧
      l.token.next (tokenPatterns.map (·.2)) (w ++ s) = .found i w.length := by
  obtain ⟨i, p, hi, hm, hmin, hlit⟩ := first_match h
  refine ⟨i, p, hi, (reads_iff _ _).mpr ⟨p, List.mem_of_getElem? hi, rfl, hm⟩, hlit, ?_⟩
  have htake : (w ++ s).take w.length = w := by simp
  have hL : LongestMatch (tokenPatterns.map (·.2)) (w ++ s) i w.length := by
    refine ⟨List.length_pos_iff.mpr hw, by simp, ⟨p.2, by simp [hi], by rw [htake]; exact hm⟩, ?_, ?_⟩
    · intro q hq m h1 h2 hm'
      obtain ⟨q, hq', rfl⟩ := List.mem_map.mp hq
      obtain ⟨d, rfl⟩ : ∃ d, m = w.length + (d + 1) := ⟨m - w.length - 1, by omega⟩
      rw [List.take_length_add_append] at hm'
      refine hs.longest q.1 (s.take (d + 1)) ?_ (List.take_prefix _ _) ((reads_iff _ _).mpr ⟨q, hq', rfl, hm'⟩)
      intro e
      rcases List.take_eq_nil_iff.mp e with e | e
      · omega
      · rw [e] at h2; simp at h2; omega
    · intro j q hj hq
      rw [List.getElem?_map, Option.map_eq_some_iff] at hq
      obtain ⟨q, hq, rfl⟩ := hq
      rw [htake]
      exact hmin j q hj hq
  refine next_of_longest tokenPatterns_inhabited hL ?_
  rcases hs.decided with h | h | h
  · exact .inl h
  · exact .inr (.inl (by rw [h]; simp))
  · cases s with
    | nil => exact .inr (.inl (by simp))
    | cons c s =>
      refine .inr (.inr ?_)
      rintro ⟨q, hq, v, hm'⟩
      obtain ⟨q, hq', rfl⟩ := List.mem_map.mp hq
      rw [List.take_length_add_append] at hm'
      exact h c (by simp) q.1 v ((reads_iff _ _).mpr ⟨q, hq', rfl, by simpa using hm'⟩)

theorem lexItems_step {l : Logos} {i pos fuel : Nat} {p : Kind × Re} {w s : Str} (hw : w ≠ []) (hi : tokenPatterns[i]? = some p)
    (hn : l.token.next (tokenPatterns.map (·.2)) (w ++ s) = .found i w.length) :
    lexItems l.token tokenPatterns (tokenCallback l) (fuel + 1) pos (w ++ s) =
      match tokenCallback l p.1 w with
      | none => lexItems l.token tokenPatterns (tokenCallback l) fuel (pos + byteLen w) s
      | some (.ok t) =>
        (lexItems l.token tokenPatterns (tokenCallback l) fuel (pos + byteLen w) s).map (⟨.ok t, pos, pos + byteLen w⟩ :: ·)
      | some (.err err) =>
        (lexItems l.token tokenPatterns (tokenCallback l) fuel (pos + byteLen w) s).map (⟨.error err, pos, pos + byteLen w⟩ :: ·)
      | some .panic => none := by
  have hne : w ++ s ≠ [] := by simp [hw]
  rw [lexItems]
  · simp only [hn, hi, List.take_left, List.drop_left]
    cases tokenCallback l p.1 w with
    | none => rfl
    | some r => cases r <;> rfl
  · exact hne

/-- A token and then the rest. -/
theorem lexes_token {l : Logos} {k : Kind} {w s : Str} {t : Token} {ts : List Token} (hw : w ≠ []) (h : Reads k w)
    (hs : Stops l w s)
    (ht : ∀ k, Reads k w → (∀ t, (t, w) ∈ literals → k = .lit t) → tokenCallback l k w = some (.ok t))
    (hr : Lexes l s ts) : Lexes l (w ++ s) (t :: ts) := by
  intro pos fuel hf
  obtain ⟨i, p, hi, hk, hlit, hn⟩ := stops_longest hw h hs
  have hlen : 0 < w.length := List.length_pos_iff.mpr hw
  rw [List.length_append] at hf
  obtain ⟨fuel, rfl⟩ : ∃ f, fuel = f + 1 := ⟨fuel - 1, by omega⟩
  obtain ⟨items, h1, h2⟩ := hr (pos + byteLen w) fuel (by omega)
  rw [lexItems_step hw hi hn, ht p.1 hk hlit]
  exact ⟨_, by simp only [h1, Option.map_some]; rfl, by simp [h2]⟩

/-- White space and then the rest. -/
theorem lexes_skip {l : Logos} {k : Kind} {w s : Str} {ts : List Token} (hw : w ≠ []) (h : Reads k w)
    (hs : Stops l w s) (ht : ∀ k, Reads k w → tokenCallback l k w = none) (hr : Lexes l s ts) : Lexes l (w ++ s) ts := by
  intro pos fuel hf
  obtain ⟨i, p, hi, hk, hlit, hn⟩ := stops_longest hw h hs
  have hlen : 0 < w.length := List.length_pos_iff.mpr hw
  rw [List.length_append] at hf
  obtain ⟨fuel, rfl⟩ : ∃ f, fuel = f + 1 := ⟨fuel - 1, by omega⟩
  obtain ⟨items, h1, h2⟩ := hr (pos + byteLen w) fuel (by omega)
  rw [lexItems_step hw hi hn, ht p.1 hk]
  exact ⟨items, h1, h2⟩

end

end Lima
