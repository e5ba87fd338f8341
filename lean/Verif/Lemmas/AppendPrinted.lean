import Verif.Lemmas.AppendParse
import Verif.Lemmas.PrintFile

/-! Printed directives at the end of the root. -/

set_option linter.unusedSectionVars false

namespace Lima.Append
open Lima Spec Grammar Props InPlaceParse Revise

section
variable [Categories]

/-- Whatever is lexed may come after whole lines. -/
theorem lexes_after {l : Logos} {s s' : Str} {a raw : List Token} (h : Apart l s (a ++ [.eol])) (h' : Lexes l s' raw)
    (h1 : NotBlank s') (h2 : NotIgnored s') : Lexes l (s ++ s') (a ++ .eol :: raw) := by
  have skip : ∀ {b s : Str} {ts : List Token}, Blanks b → EndsBefore b s → Lexes l s ts → Lexes l (b ++ s) ts := by
    intro b s ts hb hn ih
    refine lexes_skip hb.1 (.skip hb.1 hb.2) (stops_of_ends (.inl hn)) (fun k hk => ?_) ih
    obtain ⟨d, b, rfl⟩ := List.exists_cons_of_ne_nil hb.1
    have : k = .skip := by
      refine lexeme_kind (lexeme_iff.mpr hk) (.blanks hb) (fun t ht => fixed_odd ?_ ht)
      rcases hb.2 d (by simp) with rfl | rfl <;> decide
    rw [this]
    rfl
  have word : ∀ {w s : Str} {t : Token} {ts : List Token}, WordFor l w t → EndsBefore w s → Lexes l s ts → Lexes l (w ++ s) (t :: ts) := by
    rintro w s t ts ⟨k, h1, h2, h3⟩ he ih
    exact lexes_word h1 h2 h3 (.inl he) ih
  generalize ht : a ++ [Token.eol] = ts at h
  induction h generalizing a with
  | done => exact absurd ht (by simp)
  | @blanks b s ts hb hn h ih =>
    rw [List.append_assoc]
    refine skip hb (EndsBefore.app hn (fun e => ?_) s') (ih ht)
    subst e
    rw [apart_ne_nil h] at ht
    exact absurd ht (by simp)
  | @word w s t ts hw hn h ih =>
    rw [List.append_assoc]
    cases a with
    | nil =>
      rw [List.nil_append, List.cons.injEq] at ht
      obtain ⟨rfl, rfl⟩ := ht
      by_cases hs : s = []
      · subst hs
        exact word hw (endsBefore_line (lineEnding_of_word hw) h1 h2) h'
      · have key : ∀ {s : Str} {ts : List Token}, Apart l s ts → ts = [] → s ≠ [] → ∃ b, s = b ∧ Blanks b := by
          intro s ts h
          induction h with
          | done => intro _ h; exact absurd rfl h
          | @blanks b s ts hb hn h ih =>
            intro e _
            by_cases hs : s = []
            · exact ⟨_, rfl, by simpa [hs] using hb⟩
            · obtain ⟨b', rfl, hb'⟩ := ih e hs
              refine ⟨_, rfl, by simp [hb.1], fun c hc => ?_⟩
              rcases List.mem_append.mp hc with hc | hc
              · exact hb.2 c hc
              · exact hb'.2 c hc
          | word _ _ _ _ => intro e; cases e
        obtain ⟨b, rfl, hb⟩ := key h rfl hs
        -- blanks after the end of a line belong to it
        obtain ⟨c, b', rfl⟩ := List.exists_cons_of_ne_nil hs
        exact absurd (Lexeme.lineEndIndent (lineEnding_of_word hw) hb) (hn c b' rfl _ b')
    | cons x a =>
      rw [List.cons_append, List.cons.injEq] at ht
      obtain ⟨rfl, ht⟩ := ht
      refine word hw (EndsBefore.app hn (fun e => ?_) s') (ih ht)
      subst e
      rw [apart_ne_nil h] at ht
      exact absurd ht (by simp)

omit [Categories] in
theorem norm_whole {raw ts : List Token} (h : Norm raw ts) (hw : WholeLines ts) : WholeLines raw := by
  have key : ∀ {raw ts : List Token}, Norm raw ts → ts.getLast? = some .eol → raw.getLast? = some .eol := by
    intro raw ts h
    induction h with
    | nil => simp
    | @tok t raw ts h1 h2 h ih =>
      intro e
      cases h with
      | nil => simp only [List.getLast?_singleton, Option.some.injEq] at e; subst e; cases h1
      | _ => simpa [List.getLast?_cons_cons] using ih (by simpa [List.getLast?_cons_cons] using e)
    | @key t k raw ts h1 h ih =>
      intro e
      cases h with
      | nil => simp at e
      | _ => simpa [List.getLast?_cons_cons] using ih (by simpa [List.getLast?_cons_cons] using e)
    | @indent raw ts h1 h ih =>
      intro e
      cases h with
      | nil => simp at e
      | _ => simpa [List.getLast?_cons_cons] using ih (by simpa [List.getLast?_cons_cons] using e)
    | @eol raw ts h1 h ih =>
      intro e
      cases h with
      | nil => rfl
      | _ => simpa [List.getLast?_cons_cons] using ih (by simpa [List.getLast?_cons_cons] using e)
    | @eols raw ts h ih =>
      intro e
      rw [List.getLast?_cons_cons]
      exact ih e
  rcases hw with rfl | ⟨z, rfl⟩
  · cases h with
    | nil => exact .inl rfl
  · obtain ⟨z', e⟩ := List.getLast?_eq_some_iff.mp (key h (by simp))
    exact .inr ⟨z', e⟩

/-! ### Printed directives -/

variable [Unicode] [DecOps]

omit [Categories] [Unicode] [DecOps] in
theorem plain_none {ts : List Token} (h : ∀ t ∈ ts, NotPragma t) : NoPragma ts :=
  ⟨fun m => (h _ m).1 rfl, fun m => (h _ m).2.1 rfl, fun m => (h _ m).2.2.1 rfl, fun m => (h _ m).2.2.2.1 rfl,
    fun m => (h _ m).2.2.2.2.1 rfl, fun m => (h _ m).2.2.2.2.2.1 rfl, fun m => (h _ m).2.2.2.2.2.2 rfl⟩

theorem printed_plain (ds : List Directive) : NoPragma (allTokens ds) := by
  refine plain_none fun t ht => ?_
  obtain ⟨d, _, ht⟩ := List.mem_flatMap.mp ht
  rcases List.mem_append.mp ht with ht | ht
  · exact (stringsIn_directive d t ht).1
  · rw [List.mem_singleton.mp ht]
    simp [NotPragma]

theorem printed_whole (ds : List Directive) : WholeLines (allTokens ds) := by
  rcases List.eq_nil_or_concat ds with rfl | ⟨xs, x, rfl⟩
  · exact .inl rfl
  · exact .inr ⟨allTokens xs ++ directiveTokens x, by simp [allTokens]⟩

theorem printed_head (ds : List Directive) : ∀ t ∈ (allTokens ds).head?, ¬ LineEnd t ∧ t ≠ .colon ∧ t ≠ .indent ∧ t ≠ .eol := by
  cases ds with
  | nil => simp [allTokens]
  | cons d ds =>
    obtain ⟨ts, e⟩ := directiveTokens_head d
    simp [allTokens, e, LineEnd]

/-- Printed directives may come after whole lines. -/
theorem after_printed {l : Logos} {tokens : Str → List Ranged} (hlex : LexedBy l tokens) {text more : Str} {ds : List Directive}
    (pt : Passage l text) (h : Lexed l more (allTokens ds)) (h1 : NotBlank more) (h2 : NotIgnored more) :
    After l tokens text more ∧ (tokens more).map (·.tok) = allTokens ds := by
  obtain ⟨ts, b1, _, b2⟩ := lexed_lexText h fun t ht => (printed_head ds t ht).2.2.2
  have b2 := b2 (by
    cases ds with
    | nil => exact .inr rfl
    | cons d ds => exact .inl (by simp [allTokens]))
  have hm : (tokens more).map (·.tok) = allTokens ds := by rw [hlex _ _ b1, b2]
  obtain ⟨raw, r1, r2⟩ := h
  have w := norm_whole r2 (printed_whole ds)
  have hu : Unindented raw := by
    refine ⟨[], raw, rfl, by simp, fun t ht => ⟨fun hl => ?_, fun e => r2.head (by rw [← e]; exact ht)⟩⟩
    have := r2.raw_head (fun t ht => (printed_head ds t ht).2.2.2) t ht
    rw [(isEol_iff t).mpr hl] at this
    cases this
  obtain ⟨x1, x2, x3⟩ := passage_whole hlex pt
  suffices k : ∃ c, lexText l (text ++ more) = some c ∧ c.map (·.tok) = (tokens text).map (·.tok) ++ (tokens more).map (·.tok) by
    obtain ⟨c, k1, k2⟩ := k
    refine ⟨⟨x1, ?_, ?_, ?_, ?_⟩, hm⟩
    · rw [hm]
      exact fun t ht => (printed_head ds t ht).2.2.1
    · rw [hlex _ _ k1, k2]
    · rw [k1]; simp
    · rw [b1]; simp
  obtain ⟨⟨ts', p1, p2, p3⟩, p4, p5⟩ := pt
  obtain ⟨toks', e1, e2⟩ := lexText_of_lexes (lexes_written (Apart.written p1))
  obtain ⟨toks'', e1', e2'⟩ := lexText_of_lexes r1
  rcases p2 with rfl | ⟨a, rfl⟩
  · have key : ∀ {s : Str} {ts : List Token}, Apart l s ts → ts = [] → NotBlank s → s = [] := by
      intro s ts h e hn
      cases h with
      | done => rfl
      | @blanks b s ts hb _ _ =>
        obtain ⟨c, b', rfl⟩ := List.exists_cons_of_ne_nil hb.1
        have := hb.2 c (by simp)
        have h2 := hn c (b' ++ s) rfl
        rcases this with rfl | rfl
        · exact absurd rfl h2.1
        · exact absurd rfl h2.2
      | word _ _ _ => cases e
    have ht := key p1 rfl p4
    subst ht
    refine ⟨ts, b1, ?_⟩
    have : (tokens []).map (·.tok) = [] := by rw [hlex _ _ e1, e2]; rfl
    rw [this, List.nil_append, hm, b2]
  · obtain ⟨c, c1, c2⟩ := lexText_of_lexes (lexes_after p1 r1 h1 h2)
    refine ⟨c, c1, ?_⟩
    rw [c2, linesOf_append w hu, ← e2, ← e2', hlex _ _ e1, hlex _ _ e1']

theorem printed_begin (ds : List Directive) : NotBlank (printAllApart ds) ∧ NotIgnored (printAllApart ds) := by
  cases ds with
  | nil => exact ⟨(by rintro _ _ h; cases h), (by rintro _ _ h; cases h)⟩
  | cons d ds =>
    obtain ⟨c, w, e, hc⟩ := directive_digit d
    have hd := digit_line c hc
    have eq : printAllApart (d :: ds) = c :: (w ++ ['\n', '\n'] ++ printAllApart ds) := by simp [printAllApart, e]
    rw [eq]
    refine ⟨?_, ?_⟩
    · rintro _ _ ⟨⟩
      exact ⟨hd.1, hd.2.1⟩
    · rintro _ _ ⟨⟩ hi
      have := hd.2.2
      simp [oneOf] at this
      simp [In] at hi
      tauto

end

end Lima.Append
