import Verif.Lemmas.LexTokens

/-! From the tokens Logos gives to those the parser gets, for texts without errors and comments. -/

namespace Lima
open Spec

/-- The tokens which the adaptors of the lexer turn the first tokens into. -/
inductive Norm : List Token → List Token → Prop
  | nil : Norm [] []
  | tok {t : Token} {raw ts : List Token} : t.isEol = false → t ≠ .colon → Norm raw ts → Norm (t :: raw) (t :: ts)
  | key {t : Token} {k : Str} {raw ts : List Token} : (t = .key k ∨ potentialKey t = some k) → Norm raw ts →
      Norm (t :: .colon :: raw) (.key k :: .colon :: ts)
  | indent {raw ts : List Token} : (∃ t ∈ raw.head?, t.isEol = false) → Norm raw ts →
      Norm (.eolThenIndent :: raw) (.eol :: .indent :: ts)
  | eol {raw ts : List Token} : (∀ t ∈ raw.head?, t.isEol = false) → Norm raw ts → Norm (.eol :: raw) (.eol :: ts)
  | eols {raw ts : List Token} : Norm (.eol :: raw) (.eol :: ts) → Norm (.eol :: .eol :: raw) (.eol :: ts)

theorem Norm.head {raw ts : List Token} (h : Norm raw ts) : raw.head? ≠ some .colon := by
  cases h with
  | nil => simp
  | tok _ h _ => simpa using h
  | key h _ => rintro h'; simp only [List.head?_cons, Option.some.injEq] at h'; subst h'; rcases h with h | h <;> cases h
  | indent => simp
  | eol => simp
  | eols => simp

theorem Norm.raw_nil {ts : List Token} (h : Norm [] ts) : ts = [] := by cases h; rfl

theorem Norm.after_eol {raw ts : List Token} (h : Norm (.eol :: raw) ts) : raw.head? ≠ some .colon := by
  cases h with
  | tok h _ _ => cases h
  | key h _ => rcases h with h | h <;> cases h
  | eol _ h => exact h.head
  | eols _ => simp

theorem mapKeys_cons (t : Ranged) (R : List Ranged) (h : R.head?.map (·.tok) ≠ some .colon) : mapKeys (t :: R) = t :: mapKeys R := by
  cases R with
  | nil => rfl
  | cons c R =>
    rw [mapKeys]
    have : c.tok ≠ .colon := by simpa using h
    cases potentialKey t.tok with
    | none => rfl
    | some k => simp [this]

theorem mapKeys_head (R : List Ranged) (t : Ranged) (ht : R.head? = some t) : ∃ t' X, mapKeys R = t' :: X ∧
    (t'.tok = t.tok ∨ ∃ k, potentialKey t.tok = some k ∧ t'.tok = .key k) := by
  cases R with
  | nil => cases ht
  | cons a R =>
    injection ht with ht
    subst ht
    cases R with
    | nil => exact ⟨_, _, rfl, .inl rfl⟩
    | cons c R =>
      rw [mapKeys]
      refine ⟨_, _, rfl, ?_⟩
      cases hk : potentialKey a.tok with
      | none => exact .inl rfl
      | some k =>
        by_cases hc : c.tok = .colon
        · simp [hc]
        · simp [hc]

theorem head_tok {R : List Ranged} {raw : List Token} (h : R.map (·.tok) = raw) : R.head?.map (·.tok) = raw.head? := by
  rw [← h, List.head?_map]

/-- A head which is neither a line end nor a colon stays so. -/
theorem mapKeys_head_ok {R : List Ranged} {raw : List Token} {t : Token} (h : R.map (·.tok) = raw) (ht : raw.head? = some t)
    (h1 : t.isEol = false) (h2 : raw.head? ≠ some .colon) : ∃ t' X, mapKeys R = t' :: X ∧ t'.tok.isEol = false ∧ t'.tok ≠ .colon := by
  have hh := head_tok h
  rw [ht] at hh
  obtain ⟨a, ha, hat⟩ := Option.map_eq_some_iff.mp hh
  obtain ⟨t', X, e, h'⟩ := mapKeys_head R a ha
  refine ⟨t', X, e, ?_⟩
  rcases h' with h' | ⟨k, _, h'⟩
  · rw [h', hat]
    exact ⟨h1, fun e => h2 (by rw [ht, e])⟩
  · rw [h']
    exact ⟨rfl, by simp⟩

theorem norm_spec {raw ts : List Token} (h : Norm raw ts) : ∀ R : List Ranged, R.map (·.tok) = raw →
    (eolRun .normal (mapKeys R)).map (·.tok) = ts := by
  induction h with
  | nil =>
    intro R hR
    rw [List.map_eq_nil_iff.mp hR]
    rfl
  | @tok t raw ts h1 h2 hn ih =>
    intro R hR
    cases R with
    | nil => cases hR
    | cons a R =>
      rw [List.map_cons, List.cons.injEq] at hR
      rw [mapKeys_cons _ _ (by rw [head_tok hR.2]; exact hn.head), eolRun, if_neg (by rw [hR.1, h1]; simp), List.map_cons,
        ih R hR.2, hR.1]
  | @key t k raw ts h1 hn ih =>
    intro R hR
    match R with
    | [] => cases hR
    | [a] => cases hR
    | a :: b :: R =>
      simp only [List.map_cons, List.cons.injEq] at hR
      obtain ⟨ha, hb, hR⟩ := hR
      have hb' := mapKeys_cons b R (by rw [head_tok hR]; exact hn.head)
      rw [mapKeys, hb', eolRun, if_neg, eolRun, if_neg (by rw [hb]; simp [Token.isEol]), List.map_cons, List.map_cons, ih R hR, hb]
      · rcases h1 with h1 | h1
        · rw [ha, h1]; simp [potentialKey, ha, h1]
        · rw [ha, h1]; simp
      · rcases h1 with h1 | h1
        · rw [ha, h1]; simp [potentialKey, ha, h1, Token.isEol]
        · rw [ha, h1]; simp [hb, Token.isEol]
  | @indent raw ts h1 hn ih =>
    intro R hR
    cases R with
    | nil => cases hR
    | cons a R =>
      rw [List.map_cons, List.cons.injEq] at hR
      obtain ⟨ha, hR⟩ := hR
      obtain ⟨t, ht, h1⟩ := h1
      obtain ⟨t', X, e, h2, h3⟩ := mapKeys_head_ok hR ht h1 hn.head
      have ih := ih R hR
      rw [e, eolRun, if_neg (by rw [h2]; simp)] at ih
      rw [mapKeys_cons _ _ (by rw [head_tok hR]; exact hn.head), e, eolRun, if_pos (by rw [ha]; rfl), eolRun,
        if_neg (by rw [h2]; simp), if_neg (by simp [h3])]
      simp only [emitEol, ha, if_true, List.map_cons]
      rw [← ih, List.map_cons]
  | @eol raw ts h1 hn ih =>
    intro R hR
    cases R with
    | nil => cases hR
    | cons a R =>
      rw [List.map_cons, List.cons.injEq] at hR
      obtain ⟨ha, hR⟩ := hR
      have ih := ih R hR
      rw [mapKeys_cons _ _ (by rw [head_tok hR]; exact hn.head), eolRun, if_pos (by rw [ha]; rfl)]
      cases ht : raw.head? with
      | none =>
        have : raw = [] := List.head?_eq_none_iff.mp ht
        subst this
        have e := List.map_eq_nil_iff.mp hR
        subst e
        rw [hn.raw_nil]
        simp [mapKeys, eolRun, emitEol, ha]
      | some t =>
        obtain ⟨t', X, e, h2, h3⟩ := mapKeys_head_ok hR ht (h1 t (by simp [ht])) hn.head
        rw [e, eolRun, if_neg (by rw [h2]; simp)] at ih
        rw [e, eolRun, if_neg (by rw [h2]; simp), if_neg (by simp [h3])]
        simp only [emitEol, ha, reduceCtorEq, if_false, List.map_cons]
        rw [← ih, List.map_cons]
  | @eols raw ts hn ih =>
    intro R hR
    match R with
    | [] => cases hR
    | [a] => simp at hR
    | a :: b :: R =>
      simp only [List.map_cons, List.cons.injEq] at hR
      obtain ⟨ha, hb, hR⟩ := hR
      have hc : R.head?.map (·.tok) ≠ some .colon := by rw [head_tok hR]; exact hn.after_eol
      have ih := ih (⟨.eol, a.start, b.stop⟩ :: R) (by rw [List.map_cons, hR])
      rw [mapKeys_cons _ _ hc, eolRun, if_pos (by rfl)] at ih
      rw [mapKeys_cons _ _ (by simp [hb]), mapKeys_cons _ _ hc, eolRun, if_pos (by rw [ha]; rfl), eolRun, if_pos (by rw [hb]; rfl), hb]
      simpa using ih

section
variable [Categories]

/-- The text is lexed without error, and the adaptors make of it the tokens. -/
def Lexed (l : Logos) (s : Str) (ts : List Token) : Prop := ∃ raw, Lexes l s raw ∧ Norm raw ts

omit [Categories] in
theorem Norm.raw_head {raw ts : List Token} (h : Norm raw ts) : (∀ t ∈ ts.head?, t ≠ .eol) → ∀ t ∈ raw.head?, t.isEol = false := by
  intro hne
  cases h with
  | nil => simp
  | tok h _ _ => simpa using h
  | key h _ =>
    intro t ht
    simp only [List.head?_cons, Option.mem_def, Option.some.injEq] at ht
    subst ht
    rcases h with rfl | h
    · rfl
    · rename_i t k _ _ _
      cases t <;> first | rfl | cases h
  | indent => simp at hne
  | eol => simp at hne
  | eols => simp at hne

theorem Lexed.nil (l : Logos) : Lexed l [] [] := ⟨[], lexes_nil l, .nil⟩

theorem Lexed.tok {l : Logos} {w s : Str} {t : Token} {ts : List Token} (h : ∀ raw, Lexes l s raw → Lexes l (w ++ s) (t :: raw))
    (h1 : t.isEol = false) (h2 : t ≠ .colon) (hs : Lexed l s ts) : Lexed l (w ++ s) (t :: ts) := by
  obtain ⟨raw, hl, hn⟩ := hs
  exact ⟨_, h raw hl, .tok h1 h2 hn⟩

theorem Lexed.space {l : Logos} {s : Str} {ts : List Token} (h : NoBlank s) (hs : Lexed l s ts) : Lexed l (' ' :: s) ts := by
  obtain ⟨raw, hl, hn⟩ := hs
  exact ⟨raw, lexes_space h hl, hn⟩

theorem Lexed.key {l : Logos} {k s : Str} {ts : List Token} (h : Matches Re.key k) (hs : Lexed l s ts) :
    Lexed l (k ++ ':' :: s) (.key k :: .colon :: ts) := by
  obtain ⟨raw, hl, hn⟩ := hs
  obtain ⟨t, ht, hl⟩ := lexes_key h hl
  exact ⟨_, hl, .key ht hn⟩

theorem Lexed.indent {l : Logos} {s : Str} {ts : List Token} (h : NoBlank s) (h1 : ∃ t ∈ ts.head?, t ≠ .eol) (hs : Lexed l s ts) :
    Lexed l ('\n' :: ' ' :: ' ' :: s) (.eol :: .indent :: ts) := by
  obtain ⟨raw, hl, hn⟩ := hs
  obtain ⟨t, ht, h1⟩ := h1
  refine ⟨_, lexes_indent h hl, .indent ?_ hn⟩
  cases raw with
  | nil => rw [hn.raw_nil] at ht; cases ht
  | cons a raw =>
    refine ⟨a, rfl, hn.raw_head (fun t' ht' => ?_) a rfl⟩
    rw [Option.mem_unique ht' ht]; exact h1

theorem Lexed.eol {l : Logos} {s : Str} {ts : List Token}
    (h : ∀ c ∈ s.head?, c ≠ ' ' ∧ c ≠ '\t' ∧ oneOf ['*', '!', '&', '#', '?', '%', ':'] c = false)
    (h1 : ∀ t ∈ ts.head?, t ≠ .eol) (hs : Lexed l s ts) : Lexed l ('\n' :: s) (.eol :: ts) := by
  obtain ⟨raw, hl, hn⟩ := hs
  exact ⟨_, lexes_eol h hl, .eol (hn.raw_head h1) hn⟩

/-- An empty line. -/
theorem Lexed.eols {l : Logos} {s : Str} {ts : List Token}
    (h : ∀ c ∈ s.head?, c ≠ ' ' ∧ c ≠ '\t' ∧ oneOf ['*', '!', '&', '#', '?', '%', ':'] c = false)
    (h1 : ∀ t ∈ ts.head?, t ≠ .eol) (hs : Lexed l s ts) : Lexed l ('\n' :: '\n' :: s) (.eol :: ts) := by
  obtain ⟨raw, hl, hn⟩ := hs
  exact ⟨_, lexes_eol (by simp [oneOf]) (lexes_eol h hl), .eols (.eol (hn.raw_head h1) hn)⟩

omit [Categories] in
theorem recoveredAll_ok (rlex : Str → List (RawItem RecoveryToken)) (s : Str) : ∀ (items : List (RawItem Token)) (raw : List Token),
    items.map (·.res) = raw.map .ok → ∃ R, recoveredAll rlex s items = some R ∧ R.map (·.tok) = raw
  | [], raw, h => by
    cases raw with
    | nil => exact ⟨[], rfl, rfl⟩
    | cons => cases h
  | p :: ps, raw, h => by
    cases raw with
    | nil => cases h
    | cons t raw =>
      simp only [List.map_cons, List.cons.injEq] at h
      obtain ⟨R, h1, h2⟩ := recoveredAll_ok rlex s ps raw h.2
      refine ⟨⟨t, p.start, p.stop⟩ :: R, ?_, by simp [h2]⟩
      simp [recoveredAll, recovered, h.1, h1]

/-- What the parser gets: the tokens, and a line end if there is none at all. -/
theorem lexed_lexText {l : Logos} {s : Str} {ts : List Token} (h : Lexed l s ts) (h1 : ∀ t ∈ ts.head?, t ≠ .eol) :
    ∃ toks, lexText l s = some toks ∧ (toks.map (·.tok) = ts ∨ toks.map (·.tok) = ts ++ [.eol]) ∧
      (.eol ∈ ts ∨ ts = [] → toks.map (·.tok) = ts) := by
  obtain ⟨raw, hl, hn⟩ := h
  obtain ⟨items, hi, hres⟩ := hl 0 s.length (Nat.le_refl _)
  have hi : tokenItems l s = some items := hi
  have hcalm : recoveryPanics l s items = false := by
    apply List.any_eq_false.mpr
    intro it hit
    have : it.res ∈ raw.map Except.ok := by rw [← hres]; exact List.mem_map_of_mem hit
    obtain ⟨t, _, ht⟩ := List.mem_map.mp this
    simp [← ht]
  obtain ⟨R, hR, htok⟩ := recoveredAll_ok (recoveryList l) s items raw hres
  refine ⟨handleEolIndent (keywordThenColonToKey R) (some (byteLen s, byteLen s)), ?_, ?_⟩
  · unfold lexText
    simp only [hi, hcalm]
    unfold lex lexWithFinalEol attemptRecovery
    rw [recovery_collect]
    simp [pendingRecovery, hR]
  · rw [keywordThenColonToKey_eq, handleEolIndent_eq]
    have hbody : (eolBody (mapKeys R)).map (·.tok) = ts := by
      rw [← norm_spec hn R htok]
      unfold eolBody
      congr 2
      have hne := hn.raw_head h1
      cases hR' : R with
      | nil =>
        rw [dropInitial]
        split
        · rfl
        · rename_i h; simp [mapKeys, Token.isEol] at h
      | cons a R' =>
        have ha : raw.head? = some a.tok := by rw [← head_tok htok, hR']; rfl
        have hmk := mapKeys_head_ok htok ha (hne _ (by simp [ha])) hn.head
        rw [hR'] at hmk
        obtain ⟨t', X, e, h2, h3⟩ := hmk
        rw [e]
        rw [dropInitial]
        have : List.dropWhile (fun t : Ranged => t.tok.isEol) (⟨.eol, 0, 0⟩ :: t' :: X) = t' :: X := by
          rw [List.dropWhile_cons_of_pos (by rfl), List.dropWhile_cons_of_neg (by rw [h2]; simp)]
        split
        · rename_i h; rw [this] at h; cases h
        · rename_i h
          rw [this] at h
          cases h
          rw [if_neg h3]
    rw [List.map_append, hbody]
    simp only [finalTok]
    refine ⟨?_, ?_⟩
    · split
      · exact .inr rfl
      · exact .inl (by simp)
    · intro he
      rw [if_neg]
      · simp
      · rw [← hbody] at he
        intro hf
        simp only [Bool.and_eq_true, Bool.not_eq_true', List.any_eq_false, List.isEmpty_eq_false_iff, decide_eq_true_eq] at hf
        rcases he with he | he
        · obtain ⟨t, ht, e⟩ := List.mem_map.mp he
          exact hf.1 t ht e
        · exact hf.2 (List.map_eq_nil_iff.mp he)

end

end Lima
