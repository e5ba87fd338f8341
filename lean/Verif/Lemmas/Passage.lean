import Verif.Spec.Passage
import Verif.Lemmas.WrittenText

/-! The tokens of passages one after the other. -/

set_option linter.unusedSectionVars false

namespace Lima
open Spec

section
variable [Categories]

theorem Apart.written {l : Logos} {s : Str} {ts : List Token} (h : Apart l s ts) : Written l s ts := by
  induction h with
  | done => exact .done
  | blanks h1 h2 _ ih => exact .blanks h1 (.inl h2) ih
  | word h1 h2 _ ih => exact .word h1 (.inl h2) ih

theorem lineEnding_of_word {l : Logos} {w : Str} (h : WordFor l w .eol) : LineEnding w := by
  obtain ⟨k, h1, _, h3⟩ := h
  cases h3
  cases h1 with
  | fixed h => exact absurd (fixed_iff.mp h) (by have : ∀ p ∈ literals, p.1 ≠ .eol := by decide +kernel
                                                 exact fun hm => this _ hm rfl)
  | lineEnd h => exact h

theorem word_not_indent {l : Logos} {w : Str} {t : Token} (h : WordFor l w t) : t ≠ .indent := by
  rintro rfl
  obtain ⟨k, h1, _, h3⟩ := h
  cases h3
  cases h1 with
  | fixed h => exact absurd (fixed_iff.mp h) (by have : ∀ p ∈ literals, p.1 ≠ .indent := by decide +kernel
                                                 exact fun hm => this _ hm rfl)

theorem Apart.noIndent {l : Logos} {s : Str} {ts : List Token} (h : Apart l s ts) : ∀ t ∈ ts, t ≠ .indent := by
  induction h with
  | done => simp
  | blanks _ _ _ ih => exact ih
  | word h1 _ _ ih =>
    intro t ht
    rcases List.mem_cons.mp ht with rfl | ht
    · exact word_not_indent h1
    · exact ih t ht

theorem EndsBefore.app {w s : Str} (h : EndsBefore w s) (hs : s ≠ []) (x : Str) : EndsBefore w (s ++ x) := by
  rintro c rest e k more
  cases s with
  | nil => exact absurd rfl hs
  | cons d s =>
    cases e
    exact h _ _ rfl k more

theorem apart_ne_nil {l : Logos} {ts : List Token} (h : Apart l [] ts) : ts = [] := by
  generalize hs : ([] : Str) = s at h
  cases h with
  | done => rfl
  | blanks h _ _ => exact absurd (List.append_eq_nil_iff.mp hs.symm).1 h.1
  | word h _ _ =>
    obtain ⟨k, h1, _⟩ := h
    exact absurd (List.append_eq_nil_iff.mp hs.symm).1 (lexeme_ne_nil h1)

/-- After whole lines comes what begins a line. -/
theorem Apart.append {l : Logos} {s s' : Str} {a ts' : List Token} (h : Apart l s (a ++ [.eol])) (h' : Apart l s' ts')
    (h1 : NotBlank s') (h2 : NotIgnored s') : Apart l (s ++ s') (a ++ .eol :: ts') := by
  generalize ht : a ++ [Token.eol] = ts at h
  induction h generalizing a with
  | done => exact absurd ht (by simp)
  | @blanks b s ts hb hn h ih =>
    rw [List.append_assoc]
    refine .blanks hb (EndsBefore.app hn (fun e => ?_) s') (ih ht)
    subst e
    rw [apart_ne_nil h] at ht
    exact absurd ht (by simp)
  | @word w s t ts hw hn h ih =>
    rw [List.append_assoc]
    cases a with
    | nil =>
      rw [List.nil_append, List.cons.injEq] at ht
      obtain ⟨rfl, rfl⟩ := ht
      by_cases hs : s = []
      · subst hs
        exact .word hw (endsBefore_line (lineEnding_of_word hw) h1 h2) h'
      · refine .word hw (EndsBefore.app hn hs s') ?_
        have key : ∀ {s : Str} {ts : List Token}, Apart l s ts → ts = [] → s ≠ [] → ∃ b, s = b ∧ Blanks b := by
          intro s ts h
          induction h with
          | done => intro _ h; exact absurd rfl h
          | @blanks b s ts hb hn h ih =>
            intro e _
            by_cases hs : s = []
            · exact ⟨_, rfl, by simpa [hs] using hb⟩
            · obtain ⟨b', rfl, hb'⟩ := ih e hs
              refine ⟨_, rfl, by simp [hb.1], fun c hc => ?_⟩
              rcases List.mem_append.mp hc with hc | hc
              · exact hb.2 c hc
              · exact hb'.2 c hc
          | word _ _ _ _ => intro e; cases e
        obtain ⟨b, rfl, hb⟩ := key h rfl hs
        -- blanks after the end of a line belong to it
        obtain ⟨c, b', rfl⟩ := List.exists_cons_of_ne_nil hs
        exact absurd (Lexeme.lineEndIndent (lineEnding_of_word hw) hb) (hn c b' rfl _ b')
    | cons x a =>
      rw [List.cons_append, List.cons.injEq] at ht
      obtain ⟨rfl, ht⟩ := ht
      refine .word hw (EndsBefore.app hn (fun e => ?_) s') (ih ht)
      subst e
      rw [apart_ne_nil h] at ht
      exact absurd ht (by simp)

end

/-! ### Lines -/

theorem emitLine_eol (rest : List Token) : emitLine .eol rest = .eol :: rest := rfl

theorem lineRun_unindented {b : List Token} (h : Unindented b) : lineRun (.run .eol) b = .eol :: lineRun .start b := by
  obtain ⟨es, rest, rfl, he, hr⟩ := h
  induction es with
  | nil =>
    cases rest with
    | nil => rfl
    | cons t ts =>
      have := hr t (by simp)
      have h1 : t.isEol = false := by
        cases h : t.isEol with
        | false => rfl
        | true => exact absurd ((isEol_iff t).mp h) this.1
      simp [lineRun, h1, this.2, emitLine_eol]
  | cons e es ih =>
    have := he e (by simp)
    subst this
    exact ih (fun t ht => he t (List.mem_cons_of_mem _ ht))

theorem lineRun_append {b : List Token} (h : Unindented b) : ∀ (a : List Token) (m : LMode),
    lineRun m (a ++ .eol :: b) = lineRun m (a ++ [.eol]) ++ lineRun .start b
  | [], m => by
    have h1 : Token.isEol .eol = true := rfl
    cases m with
    | start => simp [lineRun, h1]
    | drop => simp [lineRun, h1]
    | normal => simp [lineRun, h1, lineRun_unindented h, emitLine_eol]
    | skip => simp [lineRun, h1, lineRun_unindented h, emitLine_eol]
    | run f => simp [lineRun, h1, lineRun_unindented h, emitLine_eol]
  | x :: a, m => by
    have ih := lineRun_append h a
    have emit : ∀ (f : Token) (r s : List Token), emitLine f (r ++ s) = emitLine f r ++ s := by
      intro f r s
      unfold emitLine
      split
      · rfl
      · split <;> rfl
    cases m <;> simp only [List.cons_append, lineRun] <;> (repeat' split) <;>
      simp only [ih, List.cons_append, ← emit]

theorem lineRun_ended : ∀ (a : List Token) (m : LMode), lineRun m (a ++ [.eol]) = [] ∨ ∃ z, lineRun m (a ++ [.eol]) = z ++ [.eol]
  | [], m => by
    cases m with
    | start => exact .inl rfl
    | drop => exact .inl rfl
    | normal => exact .inr ⟨[], rfl⟩
    | skip => exact .inr ⟨[], rfl⟩
    | run f => exact .inr ⟨[], rfl⟩
  | x :: a, m => by
    have ih := lineRun_ended a
    have more : ∀ (t : Token) {r : List Token}, (∃ z, r = z ++ [Token.eol]) → ∃ z, t :: r = z ++ [.eol] := by
      rintro t _ ⟨z, rfl⟩
      exact ⟨t :: z, rfl⟩
    have emit : ∀ (f : Token) {r : List Token}, (∃ z, r = z ++ [Token.eol]) → ∃ z, emitLine f r = z ++ [.eol] := by
      intro f r h
      unfold emitLine
      split
      · exact more _ (more _ h)
      · split
        · exact more _ h
        · exact more _ h
    -- in the normal mode something comes out
    have normal : ∀ (a : List Token), ∃ z, lineRun .normal (a ++ [.eol]) = z ++ [.eol] := by
      have key : ∀ (a : List Token), (∃ z, lineRun .normal (a ++ [.eol]) = z ++ [.eol]) ∧
          (∀ f, ∃ z, lineRun (.run f) (a ++ [.eol]) = z ++ [.eol]) ∧ (∃ z, lineRun .skip (a ++ [.eol]) = z ++ [.eol]) := by
        intro a
        induction a with
        | nil => exact ⟨⟨[], rfl⟩, fun _ => ⟨[], rfl⟩, ⟨[], rfl⟩⟩
        | cons x a ih =>
          obtain ⟨h1, h2, h3⟩ := ih
          refine ⟨?_, fun f => ?_, ?_⟩
          · simp only [List.cons_append, lineRun]
            split
            · exact h2 x
            · exact more x h1
          · simp only [List.cons_append, lineRun]
            split
            · exact h2 x
            · split
              · exact h3
              · exact emit f (more x h1)
          · simp only [List.cons_append, lineRun]
            split
            · exact h2 x
            · exact h3
      exact fun a => (key a).1
    cases m with
    | start =>
      simp only [List.cons_append, lineRun]
      split
      · exact ih _
      · split
        · exact ih _
        · exact .inr (more x (normal a))
    | drop =>
      simp only [List.cons_append, lineRun]
      split
      · exact ih _
      · exact ih _
    | normal =>
      simp only [List.cons_append, lineRun]
      split
      · exact ih _
      · exact .inr (more x (normal a))
    | skip =>
      simp only [List.cons_append, lineRun]
      split
      · exact ih _
      · exact ih _
    | run f =>
      simp only [List.cons_append, lineRun]
      split
      · exact ih _
      · split
        · exact ih _
        · exact .inr (emit f (more x (normal a)))

theorem keysOf_ended {ts : List Token} (h : WholeLines ts) : WholeLines (keysOf ts) := by
  rcases h with rfl | ⟨a, rfl⟩
  · exact .inl rfl
  · exact .inr ⟨keysOf a, by rw [keysOf_line a [] rfl]; rfl⟩

theorem keysOf_head (t : Token) (ts : List Token) : ∃ t' ts', keysOf (t :: ts) = t' :: ts' ∧ (t' = t ∨ ∃ k, t' = .key k) := by
  cases ts with
  | nil => exact ⟨t, [], rfl, .inl rfl⟩
  | cons c ts =>
    simp only [keysOf]
    cases potentialKey t with
    | none => exact ⟨t, _, rfl, .inl rfl⟩
    | some k =>
      dsimp only
      split
      · exact ⟨.key k, _, rfl, .inr ⟨k, rfl⟩⟩
      · exact ⟨t, _, rfl, .inl rfl⟩

theorem keysOf_unindented {ts : List Token} (h : Unindented ts) : Unindented (keysOf ts) := by
  obtain ⟨es, rest, rfl, he, hr⟩ := h
  induction es with
  | nil =>
    cases rest with
    | nil => exact ⟨[], [], rfl, by simp, by simp⟩
    | cons t ts =>
      obtain ⟨t', ts', h1, h2⟩ := keysOf_head t ts
      refine ⟨[], t' :: ts', by rw [List.nil_append, h1]; rfl, by simp, fun x hx => ?_⟩
      cases hx
      rcases h2 with rfl | ⟨k, rfl⟩
      · exact hr _ (by simp)
      · simp [LineEnd]
  | cons e es ih =>
    have := he e (by simp)
    subst this
    obtain ⟨es', rest', h1, h2, h3⟩ := ih (fun t ht => he t (List.mem_cons_of_mem _ ht))
    refine ⟨.eol :: es', rest', ?_, fun t ht => ?_, h3⟩
    · have := keysOf_line [] (es ++ rest) (t := .eol) rfl
      rw [List.nil_append] at this
      rw [List.cons_append, this, h1]
      rfl
    · rcases List.mem_cons.mp ht with rfl | ht
      · rfl
      · exact h2 t ht

/-- The lines of whole lines are as the reading modes give them, and end with the end of a line. -/
theorem linesOf_whole {ts : List Token} (h : WholeLines ts) :
    linesOf ts = lineRun .start (keysOf ts) ∧ WholeLines (linesOf ts) := by
  have h1 : WholeLines (lineRun .start (keysOf ts)) := by
    rcases keysOf_ended h with h | ⟨a, h⟩
    · rw [h]; exact .inl rfl
    · rw [h]; exact lineRun_ended a .start
  have h2 : linesOf ts = lineRun .start (keysOf ts) := by
    unfold linesOf
    rcases h1 with h1 | ⟨z, h1⟩
    · rw [h1]; rfl
    · rw [h1]; simp
  exact ⟨h2, h2 ▸ h1⟩

theorem linesOf_append {a ts : List Token} (h : WholeLines ts) (h' : Unindented ts) :
    linesOf (a ++ .eol :: ts) = linesOf (a ++ [.eol]) ++ linesOf ts := by
  have h1 : WholeLines (a ++ .eol :: ts) := by
    rcases h with rfl | ⟨b, rfl⟩
    · exact .inr ⟨a, rfl⟩
    · exact .inr ⟨a ++ .eol :: b, by simp⟩
  rw [(linesOf_whole h1).1, (linesOf_whole h).1, (linesOf_whole (.inr ⟨a, rfl⟩)).1, keysOf_line _ _ rfl, keysOf_line _ _ rfl]
  exact lineRun_append (keysOf_unindented h') _ _

theorem keysOf_noIndent {ts : List Token} (h : ∀ t ∈ ts, t ≠ .indent) : ∀ t ∈ keysOf ts, t ≠ .indent := by
  induction ts with
  | nil => exact h
  | cons x ts ih =>
    cases ts with
    | nil => exact h
    | cons c ts =>
      intro t ht
      simp only [keysOf, List.mem_cons] at ht
      rcases ht with ht | ht
      · subst ht
        cases potentialKey x with
        | none => exact h x (by simp)
        | some k =>
          dsimp only
          split
          · simp
          · exact h x (by simp)
      · exact ih (fun t ht => h t (List.mem_cons_of_mem _ ht)) t (by simpa [keysOf] using ht)

theorem lineRun_start_head : ∀ ts : List Token, (∀ t ∈ ts, t ≠ .indent) →
    (∀ t ∈ (lineRun .start ts).head?, t ≠ .indent) ∧ (∀ t ∈ (lineRun .drop ts).head?, t ≠ .indent)
  | [], _ => ⟨by simp [lineRun], by simp [lineRun]⟩
  | x :: ts, h => by
    have ih := lineRun_start_head ts (fun t ht => h t (List.mem_cons_of_mem _ ht))
    constructor
    · simp only [lineRun]
      split
      · exact ih.1
      · split
        · exact ih.2
        · intro t ht
          cases ht
          exact h x (by simp)
    · simp only [lineRun]
      split
      · exact ih.1
      · exact ih.2

section
variable [Categories]

/-- The tokens of a passage. -/
structure PassageTokens (toks : List Ranged) : Prop where
  ended : toks = [] ∨ ∃ z e, toks = z ++ [e] ∧ e.tok = .eol
  head : ∀ t ∈ toks.head?, t.tok ≠ .indent

theorem passageTokens {ts : List Token} {toks : List Ranged} (hi : ∀ t ∈ ts, t ≠ .indent) (h : WholeLines ts)
    (he : toks.map (·.tok) = linesOf ts) : PassageTokens toks := by
  obtain ⟨h1, h2⟩ := linesOf_whole h
  constructor
  · rcases h2 with h2 | ⟨z, h2⟩
    · rw [h2] at he
      exact .inl (List.map_eq_nil_iff.mp he)
    · rw [h2] at he
      obtain ⟨u, v, rfl, _, hv⟩ := List.map_eq_append_iff.mp he
      obtain ⟨e, v', rfl, h3, h4⟩ := List.map_eq_cons_iff.mp hv
      rw [List.map_eq_nil_iff] at h4
      subst h4
      exact .inr ⟨u, e, rfl, h3⟩
  · intro t ht
    have := (lineRun_start_head (keysOf ts) (keysOf_noIndent hi)).1 t.tok
    rw [← h1, ← he] at this
    refine this ?_
    cases toks with
    | nil => cases ht
    | cons x toks => cases ht; simp

theorem Passage.nil (l : Logos) : Passage l [] :=
  ⟨⟨[], .done, .inl rfl, [], [], rfl, by simp, by simp⟩, (by rintro _ _ h; cases h), (by rintro _ _ h; cases h)⟩

theorem passage_lex {l : Logos} {s : Str} (h : Passage l s) : ∃ toks, lexText l s = some toks ∧ PassageTokens toks := by
  obtain ⟨ts, h1, h2, h3⟩ := h.written
  obtain ⟨toks, h4, h5⟩ := lexText_of_lexes (lexes_written (Apart.written h1))
  exact ⟨toks, h4, passageTokens (Apart.noIndent h1) h2 h5⟩

/-- Passages one after the other are one. -/
theorem Passage.append {l : Logos} {s s' : Str} (h : Passage l s) (h' : Passage l s') : Passage l (s ++ s') := by
  obtain ⟨⟨ts, h1, h2, h3⟩, h4, h5⟩ := h
  have h'0 := h'
  obtain ⟨⟨ts', h1', h2', h3'⟩, h4', h5'⟩ := h'
  rcases h2 with rfl | ⟨a, rfl⟩
  · -- the first is empty
    have key : ∀ {s : Str} {ts : List Token}, Apart l s ts → ts = [] → NotBlank s → s = [] := by
      intro s ts h e hn
      cases h with
      | done => rfl
      | @blanks b s ts hb _ _ =>
        obtain ⟨c, b', rfl⟩ := List.exists_cons_of_ne_nil hb.1
        have := hb.2 c (by simp)
        have h2 := hn c (b' ++ s) rfl
        rcases this with rfl | rfl
        · exact absurd rfl h2.1
        · exact absurd rfl h2.2
      | word _ _ _ => cases e
    rw [key h1 rfl h4]
    exact h'0
  · have hs : s ≠ [] := by
      rintro rfl
      have := apart_ne_nil h1
      simp at this
    refine ⟨⟨a ++ .eol :: ts', Apart.append h1 h1' h4' h5', ?_, ?_⟩, ?_, ?_⟩
    · rcases h2' with rfl | ⟨b, rfl⟩
      · exact .inr ⟨a, rfl⟩
      · exact .inr ⟨a ++ .eol :: b, by simp⟩
    · obtain ⟨es, rest, e, he, hr⟩ := h3
      cases rest with
      | nil =>
        obtain ⟨es', rest', rfl, he', hr'⟩ := h3'
        refine ⟨(a ++ [.eol]) ++ es', rest', by simp, ?_, hr'⟩
        rw [e]
        intro t ht
        rcases List.mem_append.mp ht with ht | ht
        · exact he t (by simpa using ht)
        · exact he' t ht
      | cons t rest =>
        refine ⟨es, t :: rest ++ ts', ?_, he, fun x hx => hr x (by simpa using hx)⟩
        rw [← List.append_assoc, ← e]
        simp
    · rintro c rest e
      obtain ⟨d, s0, rfl⟩ := List.exists_cons_of_ne_nil hs
      cases e
      exact h4 _ _ rfl
    · rintro c rest e
      obtain ⟨d, s0, rfl⟩ := List.exists_cons_of_ne_nil hs
      cases e
      exact h5 _ _ rfl

/-- The tokens of passages one after the other are those of the one and then those of the other. -/
theorem passage_tokens {l : Logos} {s s' : Str} (h : Passage l s) (h' : Passage l s') {a b : List Ranged}
    (ha : lexText l s = some a) (hb : lexText l s' = some b) :
    ∃ c, lexText l (s ++ s') = some c ∧ SameTokens c (a ++ b) := by
  obtain ⟨⟨ts, h1, h2, h3⟩, h4, h5⟩ := h
  obtain ⟨⟨ts', h1', h2', h3'⟩, h4', h5'⟩ := h'
  obtain ⟨toks, e1, e2⟩ := lexText_of_lexes (lexes_written (Apart.written h1))
  obtain ⟨toks', e1', e2'⟩ := lexText_of_lexes (lexes_written (Apart.written h1'))
  rw [e1] at ha
  rw [e1'] at hb
  cases ha
  cases hb
  rcases h2 with rfl | ⟨x, rfl⟩
  · have key : ∀ {s : Str} {ts : List Token}, Apart l s ts → ts = [] → NotBlank s → s = [] := by
      intro s ts h e hn
      cases h with
      | done => rfl
      | @blanks b s ts hb _ _ =>
        obtain ⟨c, b', rfl⟩ := List.exists_cons_of_ne_nil hb.1
        have := hb.2 c (by simp)
        have h2 := hn c (b' ++ s) rfl
        rcases this with rfl | rfl
        · exact absurd rfl h2.1
        · exact absurd rfl h2.2
      | word _ _ _ => cases e
    rw [key h1 rfl h4]
    refine ⟨_, e1', ?_⟩
    have : a = [] := List.map_eq_nil_iff.mp e2
    rw [this]
    rfl
  · obtain ⟨c, e3, e4⟩ := lexText_of_lexes (lexes_written (Apart.written (Apart.append h1 h1' h4' h5')))
    refine ⟨c, e3, ?_⟩
    rw [SameTokens, e4, List.map_append, e2, e2', linesOf_append h2' h3']

end

end Lima
