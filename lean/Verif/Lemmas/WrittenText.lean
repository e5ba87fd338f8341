import Verif.Spec.Written
import Verif.Lemmas.CutsComplete
import Verif.Lemmas.LexLines

/-! Texts which differ in layout only have the same tokens. -/

set_option linter.unusedSectionVars false

namespace Lima
open Spec

section
variable [Categories]

/-! ### Where line ends end -/

theorem fixed_odd {t : Token} {c : Char} {r : Str} (hc : OddHead c) : ¬ Fixed t (c :: r) := by
  intro h
  exact (literals_head _ (fixed_iff.mp h) c rfl).1 hc

theorem lineHead_odd {c : Char} (h : c = ';' ∨ c = '\r' ∨ c = '\n') : OddHead c := by
  rcases h with rfl | rfl | rfl <;> decide

/-- What begins like the end of a line is one. -/
theorem lexeme_lineHead {k : Kind} {c : Char} {r : Str} (hc : c = ';' ∨ c = '\r' ∨ c = '\n') (h : Lexeme k (c :: r)) :
    (∃ e b, c :: r = e ++ b ∧ LineEnding e ∧ (b = [] ∨ Blanks b)) ∨ '\n' ∉ r := by
  generalize hw : c :: r = w at h
  have hr := hw ▸ lexeme_iff.mp h
  have hh := headOk_of hr
  cases h with
  | fixed h => exact absurd (hw ▸ h) (fixed_odd (lineHead_odd hc))
  | lineEndIndent h hb => exact .inl ⟨_, _, rfl, h, .inr hb⟩
  | lineEnd h => exact .inl ⟨_, [], by simp, h, .inl rfl⟩
  | comment h1 h2 => cases hw; exact .inr h2
  | string | tag | link | flag => rcases hc with rfl | rfl | rfl <;> exact absurd hh (by simp [HeadOk])
  | currency | slashCurrency => rcases hc with rfl | rfl | rfl <;> rcases hh with h | h <;> exact absurd h (by decide)
  | key => rcases hc with rfl | rfl | rfl <;> exact absurd hh (by simp [HeadOk, isAsciiLower])
  | blanks => rcases hc with rfl | rfl | rfl <;> rcases hh with h | h <;> exact absurd h (by decide)
  | date | time | timeSeconds =>
    rcases hc with rfl | rfl | rfl <;> exact absurd hh.1 (by rw [ascii_not_digit (by decide) (by decide)]; simp)
  | number | numberFraction =>
    rcases hc with rfl | rfl | rfl <;> exact absurd hh (by rw [HeadOk, ascii_not_digit (by decide) (by decide)]; simp)
  | account =>
    have h := hh.1
    rcases hc with rfl | rfl | rfl <;>
      (rw [Categories.upper_ascii _ (by decide), Categories.otherLetter_ascii _ (by decide)] at h; exact absurd h (by decide))

omit [Categories] in
/-- The text up to and with the first newline is determined. -/
theorem newline_split {a b x y : Str} (ha : '\n' ∉ a) (hb : '\n' ∉ b) (h : a ++ '\n' :: x = b ++ '\n' :: y) : a = b ∧ x = y := by
  induction a generalizing b with
  | nil =>
    cases b with
    | nil => simpa using h
    | cons d b =>
      simp only [List.nil_append, List.cons_append, List.cons.injEq] at h
      exact absurd h.1 (fun e => hb (by simp [← e]))
  | cons c a ih =>
    cases b with
    | nil =>
      simp only [List.nil_append, List.cons_append, List.cons.injEq] at h
      exact absurd h.1 (fun e => ha (by simp [e]))
    | cons d b =>
      simp only [List.cons_append, List.cons.injEq] at h
      obtain ⟨h1, h2⟩ := ih (fun h => ha (by simp [h])) (fun h => hb (by simp [h])) h.2
      exact ⟨by rw [h.1, h1], h2⟩

omit [Categories] in
/-- The end of a line up to its newline, and the ignored lines. -/
theorem lineEnding_shape {e : Str} (h : LineEnding e) : ∃ a ign, e = a ++ '\n' :: ign ∧ '\n' ∉ a ∧ Texts IgnoredLine ign := by
  obtain ⟨comment, nl, ign, rfl, hc, hn, hi⟩ := h
  have hno : '\n' ∉ comment := by
    rcases hc with rfl | ⟨rest, rfl, hr⟩
    · simp
    · simp [hr]
  rcases hn with rfl | rfl
  · exact ⟨comment, ign, by simp, hno, hi⟩
  · exact ⟨comment ++ ['\r'], ign, by simp, by simp [hno], hi⟩

omit [Categories] in
theorem ignoredLine_shape {w : Str} (h : IgnoredLine w) : ∃ c a, w = c :: a ++ ['\n'] ∧ In "*!&#?%:" c ∧ '\n' ∉ a := by
  obtain ⟨c, rest, nl, rfl, hc, hr, hn⟩ := h
  rcases hn with rfl | rfl
  · exact ⟨c, rest, by simp, hc, hr⟩
  · exact ⟨c, rest ++ ['\r'], by simp, hc, by simp [hr]⟩

omit [Categories] in
theorem special_ne {c : Char} (h : In "*!&#?%:" c) : c ≠ '\n' ∧ c ≠ ' ' ∧ c ≠ '\t' := by
  have : ∀ d ∈ "*!&#?%:".toList, d ≠ '\n' ∧ d ≠ ' ' ∧ d ≠ '\t' := by decide +kernel
  exact this c h

omit [Categories] in
/-- After ignored lines come more of them, or blanks. -/
theorem ignored_more {ign ign' b x : Str} (h : Texts IgnoredLine ign) (h' : Texts IgnoredLine ign') (hb : b = [] ∨ Blanks b)
    (e : ign ++ x = ign' ++ b) : ∃ ign'', Texts IgnoredLine ign'' ∧ x = ign'' ++ b := by
  induction h generalizing ign' with
  | nil => exact ⟨ign', h', e⟩
  | @cons u v hu _ ih =>
    obtain ⟨c, a, rfl, hc, ha⟩ := ignoredLine_shape hu
    cases h' with
    | nil =>
      rw [List.nil_append] at e
      rcases hb with rfl | hb
      · simp at e
      · have := hb.2 c (by rw [← e]; simp)
        have hs := special_ne hc
        rcases this with h | h
        · exact absurd h hs.2.1
        · exact absurd h hs.2.2
    | @cons u' v' hu' hv' =>
      obtain ⟨c', a', rfl, hc', ha'⟩ := ignoredLine_shape hu'
      have : (c :: a) ++ '\n' :: (v ++ x) = (c' :: a') ++ '\n' :: (v' ++ b) := by simpa using e
      obtain ⟨_, h2⟩ := newline_split (by simp [ha, (special_ne hc).1.symm]) (by simp [ha', (special_ne hc').1.symm]) this
      exact ih hv' h2

omit [Categories] in
/-- What goes on after the end of a line with a longer end of line. -/
theorem lineEnding_more {e e' b x : Str} (h : LineEnding e) (h' : LineEnding e') (hb : b = [] ∨ Blanks b)
    (he : e ++ x = e' ++ b) : ∃ ign, Texts IgnoredLine ign ∧ x = ign ++ b := by
  obtain ⟨a, ign, rfl, ha, hi⟩ := lineEnding_shape h
  obtain ⟨a', ign', rfl, ha', hi'⟩ := lineEnding_shape h'
  have : a ++ '\n' :: (ign ++ x) = a' ++ '\n' :: (ign' ++ b) := by simpa using he
  obtain ⟨_, h2⟩ := newline_split ha ha' this
  exact ignored_more hi hi' hb h2

omit [Categories] in
theorem texts_head {p : Str → Prop} {w : Str} (h : Texts p w) : w = [] ∨ ∃ u v, p u ∧ w = u ++ v := by
  cases h with
  | nil => exact .inl rfl
  | cons hu _ => exact .inr ⟨_, _, hu, rfl⟩

omit [Categories] in
theorem lineEnding_start {e : Str} (h : LineEnding e) : ∃ c r, e = c :: r ∧ (c = ';' ∨ c = '\r' ∨ c = '\n') ∧ ('\n' ∈ r ∨ c = '\n') := by
  obtain ⟨comment, nl, ign, rfl, hc, hn, hi⟩ := h
  rcases hc with rfl | ⟨rest, rfl, hr⟩
  · rcases hn with rfl | rfl
    · exact ⟨_, _, rfl, by simp, by simp⟩
    · exact ⟨_, _, rfl, by simp, by simp⟩
  · rcases hn with rfl | rfl
    · exact ⟨_, _, rfl, by simp, by simp⟩
    · exact ⟨_, _, rfl, by simp, by simp⟩

/-- Whatever goes on after the end of a line, if it is still one lexeme, is ignored lines and blanks. -/
theorem lexeme_afterLine {k : Kind} {e x : Str} (h : LineEnding e) (hk : Lexeme k (e ++ x)) :
    ∃ ign b, x = ign ++ b ∧ Texts IgnoredLine ign ∧ (b = [] ∨ Blanks b) := by
  obtain ⟨c, r, rfl, hc, hn⟩ := lineEnding_start h
  rcases lexeme_lineHead hc hk with ⟨e', b, he, h', hb⟩ | hno
  · obtain ⟨ign, h1, h2⟩ := lineEnding_more h h' hb (by simpa using he)
    exact ⟨ign, b, h2, h1, hb⟩
  · rcases hn with hn | rfl
    · exact absurd (List.mem_append_left _ hn) hno
    · -- a newline is no comment
      generalize hw : '\n' :: r ++ x = w at hk
      have hr := lexeme_iff.mp hk
      rw [← hw, List.cons_append] at hr
      rcases reads_newline hr with ⟨hk', hm⟩ | ⟨hk', hm⟩
      · have : Lexeme (.lit .eolThenIndent) ('\n' :: (r ++ x)) := hk' ▸ lexeme_iff.mpr hr
        generalize hw' : '\n' :: (r ++ x) = w' at this
        have h2 : Matches reEolThenIndent w' := by
          rw [← hw']
          unfold reEolThenIndent
          simp only [Re.matches_seq] at hm ⊢
          exact ⟨[], _, rfl, by simp [Re.matches_opt], ['\n'], _, rfl, matches_newline.mpr (.inl rfl), hm⟩
        obtain ⟨e', b, he, h', hb⟩ := matches_lineEndIndent.mp h2
        obtain ⟨ign, h1, h2⟩ := lineEnding_more (x := x) h h' (.inr hb) (by rw [← he, ← hw']; simp)
        exact ⟨ign, b, h2, h1, .inr hb⟩
      · have h2 : Matches reEol ('\n' :: (r ++ x)) := by
          unfold reEol
          simp only [Re.matches_seq]
          exact ⟨[], _, rfl, by simp [Re.matches_opt], ['\n'], _, rfl, matches_newline.mpr (.inl rfl), hm⟩
        have h' := matches_lineEnd.mp h2
        obtain ⟨ign, h1, h2⟩ := lineEnding_more (b := []) (x := x) h h' (.inl rfl) (by simp)
        exact ⟨ign, [], h2, h1, .inl rfl⟩

theorem endsBefore_line {e s : Str} (h : LineEnding e) (h1 : NotBlank s) (h2 : NotIgnored s) : EndsBefore e s := by
  rintro c rest rfl k more hk
  obtain ⟨ign, b, hx, hi, hb⟩ := lexeme_afterLine h hk
  rcases texts_head hi with rfl | ⟨u, v, hu, rfl⟩
  · rw [List.nil_append] at hx
    subst hx
    rcases hb with hb | hb
    · cases hb
    · rcases hb.2 c (by simp) with rfl | rfl
      · exact (h1 _ _ rfl).1 rfl
      · exact (h1 _ _ rfl).2 rfl
  · obtain ⟨d, a, rfl, hd, _⟩ := ignoredLine_shape hu
    simp only [List.cons_append, List.cons.injEq] at hx
    rw [← hx.1] at hd
    exact h2 _ _ rfl hd

theorem endsBefore_indent {e b s : Str} (h : LineEnding e) (hb : Blanks b) (h1 : NotBlank s) : EndsBefore (e ++ b) s := by
  rintro c rest rfl k more hk
  rw [List.append_assoc] at hk
  obtain ⟨ign, b', hx, hi, hb'⟩ := lexeme_afterLine h hk
  obtain ⟨d, b, rfl⟩ := List.exists_cons_of_ne_nil hb.1
  have hd := hb.2 d (by simp)
  rcases texts_head hi with rfl | ⟨u, v, hu, rfl⟩
  · rw [List.nil_append] at hx
    rcases hb' with rfl | hb'
    · cases hx
    · rcases hb'.2 c (by rw [← hx]; simp) with rfl | rfl
      · exact (h1 _ _ rfl).1 rfl
      · exact (h1 _ _ rfl).2 rfl
  · obtain ⟨x, a, rfl, hx', _⟩ := ignoredLine_shape hu
    simp only [List.cons_append, List.cons.injEq] at hx
    rw [hx.1] at hd
    have := special_ne hx'
    rcases hd with hd | hd
    · exact this.2.1 hd
    · exact this.2.2 hd

theorem endsBefore_blanks {b s : Str} (hb : Blanks b) (h1 : NotBlank s) : EndsBefore b s := by
  rintro c rest rfl k more hk
  obtain ⟨d, b, rfl⟩ := List.exists_cons_of_ne_nil hb.1
  have hd := hb.2 d (by simp)
  have hk' : k = .skip := by
    have hodd : OddHead d := by rcases hd with rfl | rfl <;> decide
    obtain ⟨x, r, e, hx⟩ := lexeme_begins hk (fun t ht => fixed_odd hodd ht)
    simp only [List.cons_append, List.cons.injEq] at e
    rw [← e.1] at hx
    have hf := begins_inj hx (m := 8) hd
    cases k <;> simp [Kind.family] at hf
    rfl
  subst hk'
  cases hk with
  | blanks hb' =>
    rcases hb'.2 c (by simp) with rfl | rfl
    · exact (h1 _ _ rfl).1 rfl
    · exact (h1 _ _ rfl).2 rfl

/-! ### Lexing -/

theorem stops_of_ends {l : Logos} {w s : Str} (h : Ends l w s) : Stops l w s := by
  rcases h with h | ⟨h, h'⟩
  · cases s with
    | nil => exact Stops.nil
    | cons c s => exact Stops.char fun k v hk => h c s rfl k v (lexeme_iff.mpr hk)
  · exact ⟨fun k v h1 h2 hk => h' v k h1 h2 (lexeme_iff.mpr hk), .inl h⟩

theorem callback_of {l : Logos} {k k' : Kind} {w : Str} {t : Token} (h : Lexeme k w) (hf : ∀ t', Fixed t' w → k = .lit t')
    (hd : Denotes l k w (.ok t)) (h' : Reads k' w) (hf' : ∀ t', (t', w) ∈ literals → k' = .lit t') :
    tokenCallback l k' w = some (.ok t) := by
  have e : k' = k := by
    by_cases hx : ∃ t', Fixed t' w
    · obtain ⟨t', ht⟩ := hx
      rw [hf t' ht, hf' t' (fixed_iff.mp ht)]
    · exact lexeme_kind (lexeme_iff.mpr h') h (fun t' ht => hx ⟨t', ht⟩)
  rw [e]
  exact denotes_callback h hd

theorem lexeme_ne_nil {k : Kind} {w : Str} (h : Lexeme k w) : w ≠ [] := by
  obtain ⟨c, t, rfl, _⟩ := reads_head (lexeme_iff.mp h)
  simp

theorem lexes_word {l : Logos} {k : Kind} {w s : Str} {t : Token} {ts : List Token} (h : Lexeme k w)
    (hf : ∀ t', Fixed t' w → k = .lit t') (hd : Denotes l k w (.ok t)) (he : Ends l w s) (hr : Lexes l s ts) :
    Lexes l (w ++ s) (t :: ts) :=
  lexes_token (lexeme_ne_nil h) (lexeme_iff.mp h) (stops_of_ends he) (fun _ h' hf' => callback_of h hf hd h' hf') hr

theorem lexes_written {l : Logos} {s : Str} {ts : List Token} (h : Written l s ts) : Lexes l s ts := by
  induction h with
  | done => exact lexes_nil l
  | @blanks b s ts hb hn _ ih =>
    refine lexes_skip hb.1 (.skip hb.1 hb.2) (stops_of_ends hn) (fun k hk => ?_) ih
    obtain ⟨d, b, rfl⟩ := List.exists_cons_of_ne_nil hb.1
    have : k = .skip := by
      refine lexeme_kind (lexeme_iff.mpr hk) (.blanks hb) (fun t ht => fixed_odd ?_ ht)
      rcases hb.2 d (by simp) with rfl | rfl <;> decide
    rw [this]
    rfl
  | word hw he _ ih =>
    obtain ⟨k, h1, h2, h3⟩ := hw
    exact lexes_word h1 h2 h3 he ih

theorem word_lineEnd {l : Logos} {e : Str} (he : LineEnding e) : WordFor l e .eol := by
  obtain ⟨c, r, rfl, hc, _⟩ := lineEnding_start he
  exact ⟨_, .lineEnd he, fun t ht => absurd ht (fixed_odd (lineHead_odd hc)), .lit⟩

theorem word_lineEndIndent {l : Logos} {e b : Str} (he : LineEnding e) (hb : Blanks b) : WordFor l (e ++ b) .eolThenIndent := by
  refine ⟨_, .lineEndIndent he hb, fun t ht => ?_, .lit⟩
  obtain ⟨c, r, rfl, hc, _⟩ := lineEnding_start he
  exact absurd ht (fixed_odd (lineHead_odd hc))

theorem word_comment {l : Logos} {rest : Str} (h1 : '\r' ∉ rest) (h2 : '\n' ∉ rest) : WordFor l (';' :: rest) .eolComment :=
  ⟨_, .comment h1 h2, fun _ ht => absurd ht (fixed_odd (by decide)), .lit⟩

/-- If the engine falls back, whatever lexes without error is so written. -/
theorem written_of_cuts {l : Logos} (hl : ∀ s, l.token.fallsBack s = true) {pos : Nat} {s : Str} {items : List (RawItem Token)}
    (h : Cuts l pos s items) : ∀ ts, items.map (·.res) = ts.map .ok → Written l s ts := by
  have ends : ∀ {w s : Str} {k : Kind}, LongestLexeme (w ++ s) w k → Ends l w s := fun {w s k} h =>
    .inr ⟨hl _, fun more k' h1 h2 hk => by
      have := h.longest _ _ ((List.prefix_append_right_inj w).mpr h2) hk
      rw [List.length_append] at this
      exact h1 (List.length_eq_zero_iff.mp (by omega))⟩
  induction h with
  | done =>
    rintro (_ | ⟨t, ts⟩) h
    · exact .done
    · cases h
  | blank hL _ ih =>
    intro ts h
    have := hL.lexeme
    cases this with
    | blanks hb => exact .blanks hb (ends hL) (ih ts h)
  | piece hL hd _ ih =>
    rintro (_ | ⟨t, ts⟩) h
    · cases h
    · simp only [List.map_cons, List.cons.injEq] at h
      rw [h.1] at hd
      exact .word ⟨_, hL.lexeme, hL.fixedFirst, hd⟩ (ends hL) (ih ts h.2)
  | unrecognized _ _ _ ih =>
    rintro (_ | ⟨t, ts⟩) h
    · cases h
    · simp at h

end

/-! ### Lines -/

/-- `mapKeys` for the tokens alone. -/
def keysOf : List Token → List Token
  | [] => []
  | [t] => [t]
  | t :: c :: ts =>
    (match potentialKey t with
      | some k => if c = .colon then .key k else t
      | none => t) :: keysOf (c :: ts)

theorem mapKeys_tok : ∀ R : List Ranged, (mapKeys R).map (·.tok) = keysOf (R.map (·.tok))
  | [] => rfl
  | [t] => rfl
  | t :: c :: R => by
    have ih := mapKeys_tok (c :: R)
    simp only [mapKeys, List.map_cons, keysOf] at ih ⊢
    rw [ih]
    congr 1
    cases potentialKey t.tok with
    | none => rfl
    | some k =>
      simp only
      split <;> rfl

/-- Reading modes. -/
inductive LMode where
  | start
  | drop
  | normal
  | run (t : Token)
  | skip

/-- The tokens for a merged line end. -/
def emitLine (f : Token) (rest : List Token) : List Token :=
  if f = .eolThenIndent then .eol :: .indent :: rest else if f = .eolComment then .eol :: rest else f :: rest

/-- `eolRun` and `dropInitial` for the tokens alone. -/
def lineRun : LMode → List Token → List Token
  | .start, [] => []
  | .drop, [] => []
  | .normal, [] => []
  | .skip, [] => []
  | .run f, [] => emitLine f []
  | .start, t :: ts => if t.isEol then lineRun .start ts else if t = .colon then lineRun .drop ts else t :: lineRun .normal ts
  | .drop, t :: ts => if t.isEol then lineRun .start ts else lineRun .drop ts
  | .normal, t :: ts => if t.isEol then lineRun (.run t) ts else t :: lineRun .normal ts
  | .skip, t :: ts => if t.isEol then lineRun (.run t) ts else lineRun .skip ts
  | .run f, t :: ts =>
    if t.isEol then lineRun (.run t) ts
    else if f = .eolThenIndent ∧ t = .colon then lineRun .skip ts
    else emitLine f (t :: lineRun .normal ts)

def EMode.line : EMode → LMode
  | .normal => .normal
  | .run f => .run f.tok
  | .skip => .skip

theorem emitEol_tok (f : Ranged) (rest : List Ranged) : (emitEol f rest).map (·.tok) = emitLine f.tok (rest.map (·.tok)) := by
  unfold emitEol emitLine
  split
  · rfl
  · split <;> rfl

theorem eolRun_tok : ∀ (R : List Ranged) (m : EMode), (eolRun m R).map (·.tok) = lineRun m.line (R.map (·.tok))
  | [], .normal => rfl
  | [], .skip => rfl
  | [], .run f => by simp [eolRun, lineRun, EMode.line, emitEol_tok]
  | t :: R, .normal => by
    simp only [eolRun, lineRun, EMode.line, List.map_cons]
    split
    · exact eolRun_tok R _
    · simp [eolRun_tok R .normal, EMode.line]
  | t :: R, .skip => by
    simp only [eolRun, lineRun, EMode.line, List.map_cons]
    split
    · exact eolRun_tok R _
    · exact eolRun_tok R .skip
  | t :: R, .run f => by
    simp only [eolRun, lineRun, EMode.line, List.map_cons]
    split
    · exact eolRun_tok R _
    · split
      · exact eolRun_tok R .skip
      · simp [emitEol_tok, eolRun_tok R .normal, EMode.line]

theorem lineRun_start (R : List Ranged) :
    lineRun .start ((R.dropWhile (fun t => t.tok.isEol)).map (·.tok)) = lineRun .start (R.map (·.tok)) := by
  induction R with
  | nil => rfl
  | cons t R ih =>
    cases h : t.tok.isEol with
    | true => simp [h, lineRun, ih]
    | false => simp [h]

theorem lineRun_drop (R : List Ranged) :
    lineRun .start ((R.dropWhile (fun t => !t.tok.isEol)).map (·.tok)) = lineRun .drop (R.map (·.tok)) := by
  induction R with
  | nil => rfl
  | cons t R ih =>
    cases h : t.tok.isEol with
    | true => simp [h, lineRun]
    | false => simp [h, lineRun, ih]

theorem dropInitial_tok (R : List Ranged) :
    (eolRun .normal (dropInitial R)).map (·.tok) = lineRun .start (R.map (·.tok)) := by
  fun_induction dropInitial R with
  | case1 R h => rw [← lineRun_start, h]; rfl
  | case2 R t ts h hc ih =>
    rw [ih, lineRun_drop, ← lineRun_start, h]
    simp [lineRun, hc, Token.isEol]
  | case3 R t ts h hc =>
    have hn : t.tok.isEol = false := dropWhile_head (fun x : Ranged => x.tok.isEol) _ _ _ h
    rw [eolRun_tok, ← lineRun_start R, h]
    simp [lineRun, EMode.line, hn, hc]

/-- The tokens of a text, from those of the lexer proper. -/
def linesOf (raw : List Token) : List Token :=
  let body := lineRun .start (keysOf raw)
  body ++ if !body.any (fun t => decide (t = .eol)) && !body.isEmpty then [.eol] else []

theorem handleEolIndent_tok (R : List Ranged) (a b : Nat) :
    (handleEolIndent (keywordThenColonToKey R) (some (a, b))).map (·.tok) = linesOf (R.map (·.tok)) := by
  rw [keywordThenColonToKey_eq, handleEolIndent_eq]
  have h : (eolBody (mapKeys R)).map (·.tok) = lineRun .start (keysOf (R.map (·.tok))) := by
    unfold eolBody
    rw [dropInitial_tok, List.map_cons, mapKeys_tok]
    rfl
  unfold linesOf
  rw [← h, List.map_append]
  congr 1
  unfold finalTok
  simp only [List.any_map, List.isEmpty_map]
  rw [show ((fun t => decide (t = Token.eol)) ∘ fun x : Ranged => x.tok) = fun t : Ranged => decide (t.tok = .eol) from rfl]
  split <;> rfl

theorem keysOf_line (a b : List Token) {t : Token} (h : t.isEol = true) : keysOf (a ++ t :: b) = keysOf a ++ t :: keysOf b := by
  have ht : t ≠ .colon := by rintro rfl; cases h
  have hp : potentialKey t = none := by
    rcases (isEol_iff t).mp h with rfl | rfl | rfl <;> rfl
  have hb : keysOf (t :: b) = t :: keysOf b := by
    cases b with
    | nil => rfl
    | cons c b => simp [keysOf, hp]
  induction a with
  | nil => exact hb
  | cons x a ih =>
    cases a with
    | nil =>
      simp only [List.cons_append, List.nil_append, keysOf, hb, ht, if_false]
      congr 1
      cases potentialKey x <;> rfl
    | cons y a =>
      simp only [List.cons_append, keysOf] at ih ⊢
      rw [ih]

theorem lineRun_merge (b : List Token) {t t' : Token} (h : t.isEol = true) (h' : t'.isEol = true) :
    ∀ (a : List Token) (m : LMode), lineRun m (a ++ t :: t' :: b) = lineRun m (a ++ t' :: b)
  | [], m => by cases m <;> simp [lineRun, h, h']
  | x :: a, m => by
    have ih := lineRun_merge b h h' a
    cases m <;> simp [lineRun, ih]

theorem lineRun_last : ∀ (a : List Token) (m : LMode), lineRun m (a ++ [.eolComment]) = lineRun m (a ++ [.eol])
  | [], m => by cases m <;> rfl
  | x :: a, m => by
    have ih := lineRun_last a
    cases m <;> simp [lineRun, ih]

theorem linesOf_same {raw raw' : List Token} (h : SameLines raw raw') : linesOf raw = linesOf raw' := by
  induction h with
  | refl => rfl
  | symm _ ih => exact ih.symm
  | trans _ _ ih1 ih2 => exact ih1.trans ih2
  | merge a b h h' =>
    have h := (isEol_iff _).mpr h
    have h' := (isEol_iff _).mpr h'
    unfold linesOf
    rw [keysOf_line a _ h, keysOf_line a _ h', show ∀ t', t'.isEol = true → keysOf (t' :: b) = t' :: keysOf b from
      fun _ h => keysOf_line [] b h, lineRun_merge _ h h']
    exact h'
  | first b h =>
    have h := (isEol_iff _).mpr h
    unfold linesOf
    have : ∀ t : Token, t.isEol = true → lineRun .start (keysOf (t :: b)) = lineRun .start (keysOf b) := by
      intro t h
      have := keysOf_line [] b h
      simp only [List.nil_append, keysOf] at this
      rw [this]
      simp [lineRun, h]
    rw [this _ h]
  | last a =>
    unfold linesOf
    rw [keysOf_line a [] rfl, keysOf_line a [] rfl]
    simp only [keysOf, lineRun_last]
    rfl

section
variable [Categories]

/-- What the parser gets for a text which lexes. -/
theorem lexText_of_lexes {l : Logos} {s : Str} {raw : List Token} (h : Lexes l s raw) :
    ∃ toks, lexText l s = some toks ∧ toks.map (·.tok) = linesOf raw := by
  obtain ⟨items, hi, hres⟩ := h 0 s.length (Nat.le_refl _)
  have hi : tokenItems l s = some items := hi
  have hcalm : recoveryPanics l s items = false := by
    apply List.any_eq_false.mpr
    intro it hit
    have : it.res ∈ raw.map Except.ok := by rw [← hres]; exact List.mem_map_of_mem hit
    obtain ⟨t, _, ht⟩ := List.mem_map.mp this
    simp [← ht]
  obtain ⟨R, hR, htok⟩ := recoveredAll_ok (recoveryList l) s items raw hres
  refine ⟨handleEolIndent (keywordThenColonToKey R) (some (byteLen s, byteLen s)), ?_, ?_⟩
  · unfold lexText
    simp only [hi, hcalm]
    unfold lex lexWithFinalEol attemptRecovery
    rw [recovery_collect]
    simp [pendingRecovery, hR]
  · rw [handleEolIndent_tok, htok]

/-! ### Where words end -/

def Break (c : Char) : Prop := c = ' ' ∨ c = '\t' ∨ c = '\r' ∨ c = '\n' ∨ c = ';'

instance (c : Char) : Decidable (Break c) := inferInstanceAs (Decidable (_ ∨ _))

omit [Categories] in
theorem literals_break : ∀ p ∈ literals, ∀ c ∈ p.2, ¬ Break c := by decide +kernel

omit [Categories] in
theorem break_ascii {c : Char} (h : Break c) : isAscii c = true ∧ isAsciiUpper c = false ∧ isAsciiLower c = false ∧
    isAsciiDigit c = false := by
  rcases h with rfl | rfl | rfl | rfl | rfl <;> decide +kernel

omit [Categories] in
theorem upper_break {c : Char} (h : Upper c) : ¬ Break c := fun hb => by
  have := upper_iff.mp h; rw [(break_ascii hb).2.1] at this; cases this

omit [Categories] in
theorem lower_break {c : Char} (h : Lower c) : ¬ Break c := fun hb => by
  have := lower_iff.mp h; rw [(break_ascii hb).2.2.1] at this; cases this

omit [Categories] in
theorem asciiDigit_break {c : Char} (h : Digit c) : ¬ Break c := fun hb => by
  have := digit_iff.mp h; rw [(break_ascii hb).2.2.2] at this; cases this

omit [Categories] in
theorem in_break {s : String} {c : Char} (h : In s c) (hs : ∀ d ∈ s.toList, ¬ Break d) : ¬ Break c := hs c h

theorem digit_break {c : Char} (h : Categories.decimalDigit c = true) : ¬ Break c := fun hb => by
  have := break_ascii hb
  rw [Categories.decimalDigit_ascii c this.1, this.2.2.2] at h; cases h

theorem upperCat_break {c : Char} (h : Categories.upper c = true) : ¬ Break c := fun hb => by
  have := break_ascii hb
  rw [Categories.upper_ascii c this.1, this.2.1] at h; cases h

theorem otherLetter_break {c : Char} (h : Categories.otherLetter c = true) : ¬ Break c := fun hb => by
  rw [Categories.otherLetter_ascii c (break_ascii hb).1] at h; cases h

theorem number_break {c : Char} (h : Categories.number c = true) : ¬ Break c := fun hb => by
  have := break_ascii hb
  rw [Categories.number_ascii c this.1, this.2.2.2] at h; cases h

theorem accountChar_break {c : Char} (h : AccountChar c) : ¬ Break c := fun hb => by
  have := break_ascii hb
  rcases h with h | h | rfl
  · rw [Categories.letter_ascii c this.1, this.2.1, this.2.2.1] at h; cases h
  · exact number_break h hb
  · exact absurd hb (by decide)

theorem component_break {w : Str} (h : Component w) : ∀ c ∈ w, ¬ Break c := by
  obtain ⟨a, rest, rfl, ha, hr⟩ := h
  intro c hc
  rcases List.mem_cons.mp hc with rfl | hc
  · rcases ha with h | h | h
    · exact upperCat_break h
    · exact otherLetter_break h
    · exact number_break h
  · exact accountChar_break (hr c hc)

omit [Categories] in
theorem joinColon_break : ∀ ws : List Str, (∀ w ∈ ws, ∀ c ∈ w, ¬ Break c) → ∀ c ∈ joinColon ws, ¬ Break c
  | [], _, c, hc => by cases hc
  | [w], h, c, hc => h w (by simp) c hc
  | w :: v :: ws, h, c, hc => by
    simp only [joinColon, List.mem_append, List.mem_cons] at hc
    rcases hc with hc | rfl | hc
    · exact h w (by simp) c hc
    · decide
    · exact joinColon_break (v :: ws) (fun w hw => h w (by simp [hw])) c hc

/-- There is no white space in a word which is not a string. -/
theorem lexeme_break {k : Kind} {c : Char} {r : Str} (h : Lexeme k (c :: r)) (hc : ¬ OddHead c) : ∀ d ∈ r, ¬ Break d := by
  have hall : ∀ d ∈ c :: r, ¬ Break d := by
    generalize hw : c :: r = w at h
    have odd : ∀ {x : Char} {y : Str}, c :: r = x :: y → OddHead x → False := fun e hx => by
      simp only [List.cons.injEq] at e
      exact hc (e.1 ▸ hx)
    have dg : ∀ {n : Nat} {w : Str}, Digits n w → ∀ d ∈ w, ¬ Break d := fun h d hd => digit_break (h.2 d hd)
    have cur : ∀ {d : Char}, (Upper d ∨ Digit d ∨ In "'._-" d) → ¬ Break d := fun h => by
      rcases h with h | h | h
      · exact upper_break h
      · exact asciiDigit_break h
      · exact in_break h (by decide +kernel)
    have tag : ∀ {d : Char}, (Upper d ∨ Lower d ∨ Digit d ∨ In "-_/." d) → ¬ Break d := fun h => by
      rcases h with h | h | h | h
      · exact upper_break h
      · exact lower_break h
      · exact asciiDigit_break h
      · exact in_break h (by decide +kernel)
    cases h with
    | fixed h => exact literals_break _ (fixed_iff.mp h)
    | flag h =>
      intro d hd
      simp only [List.mem_cons, List.not_mem_nil, or_false] at hd
      rcases hd with rfl | rfl
      · decide
      · exact upper_break h
    | currency ha hr =>
      intro d hd
      rcases List.mem_cons.mp hd with rfl | hd
      · exact upper_break ha
      · exact cur (hr d hd)
    | slashCurrency h1 h2 h3 =>
      intro d hd
      simp only [List.mem_cons, List.mem_append] at hd
      rcases hd with rfl | hd | rfl | hd
      · decide
      · exact cur (.inr (h1 d hd))
      · exact upper_break h2
      · exact cur (h3 d hd)
    | date h1 h2 h3 h4 h5 =>
      intro d hd
      simp only [List.mem_cons, List.mem_append] at hd
      rcases hd with hd | rfl | hd | rfl | hd
      · exact dg h1 d hd
      · exact in_break h4 (by decide +kernel)
      · exact dg h2 d hd
      · exact in_break h5 (by decide +kernel)
      · exact dg h3 d hd
    | time h1 h2 =>
      intro d hd
      simp only [List.mem_cons, List.mem_append] at hd
      rcases hd with hd | rfl | hd
      · rcases h1 with h1 | h1 <;> exact dg h1 d hd
      · decide
      · exact dg h2 d hd
    | timeSeconds h1 h2 h3 =>
      intro d hd
      simp only [List.mem_cons, List.mem_append] at hd
      rcases hd with hd | rfl | hd | rfl | hd
      · rcases h1 with h1 | h1 <;> exact dg h1 d hd
      · decide
      · exact dg h2 d hd
      · decide
      · exact dg h3 d hd
    | @account a rest first others h1 h2 h3 h4 =>
      refine joinColon_break _ fun w hw => ?_
      simp only [List.mem_cons] at hw
      rcases hw with rfl | rfl | hw
      · intro d hd
        rcases List.mem_cons.mp hd with rfl | hd
        · rcases h1 with h | h
          · exact upperCat_break h
          · exact otherLetter_break h
        · exact accountChar_break (h2 d hd)
      · exact component_break h3
      · exact component_break (h4 w hw)
    | string => exact (odd hw (by decide)).elim
    | @number first groups h1 h2 h3 =>
      intro d hd
      simp only [List.mem_append, List.mem_flatMap, List.mem_cons] at hd
      rcases hd with hd | ⟨g, hg, rfl | hd⟩
      · exact dg h2 d hd
      · decide
      · exact dg (h3 g hg) d hd
    | @numberFraction first fraction groups h1 h2 h3 h4 h5 =>
      intro d hd
      simp only [List.mem_append, List.mem_flatMap, List.mem_cons] at hd
      rcases hd with (hd | ⟨g, hg, rfl | hd⟩) | rfl | hd
      · exact dg h2 d hd
      · decide
      · exact dg (h3 g hg) d hd
      · decide
      · exact dg h5 d hd
    | tag h1 h2 | link h1 h2 =>
      intro d hd
      rcases List.mem_cons.mp hd with rfl | hd
      · decide
      · exact tag (h2 d hd)
    | key h1 h2 h3 =>
      intro d hd
      rcases List.mem_cons.mp hd with rfl | hd
      · exact lower_break h1
      · rcases h3 d hd with h | h | h | h
        · exact upper_break h
        · exact lower_break h
        · exact asciiDigit_break h
        · exact in_break h (by decide +kernel)
    | lineEndIndent h hb =>
      obtain ⟨x, y, rfl, hx, _⟩ := lineEnding_start h
      exact (odd hw (lineHead_odd hx)).elim
    | lineEnd h =>
      obtain ⟨x, y, rfl, hx, _⟩ := lineEnding_start h
      exact (odd hw (lineHead_odd hx)).elim
    | comment => exact (odd hw (by decide)).elim
    | blanks h =>
      subst hw
      rcases h.2 c (by simp) with rfl | rfl <;> exact absurd (by decide) hc
  exact fun d hd => hall d (by simp [hd])

omit [Categories] in
theorem quoted_end {body body' x : Str} (h : Quoted body) (h' : Quoted body') (e : body ++ '"' :: x = body' ++ ['"']) : x = [] := by
  induction h generalizing body' with
  | nil =>
    cases h' with
    | nil => simpa using e
    | plain h1 _ _ => simp only [List.nil_append, List.cons_append, List.cons.injEq] at e; exact absurd e.1.symm h1
    | escaped => simp at e
  | plain h1 h2 _ ih =>
    cases h' with
    | nil => simp only [List.nil_append, List.cons_append, List.cons.injEq] at e; exact absurd e.1 h1
    | plain _ _ hq => simp only [List.cons_append, List.cons.injEq] at e; exact ih hq e.2
    | escaped => simp only [List.cons_append, List.cons.injEq] at e; exact absurd e.1 h2
  | escaped _ _ ih =>
    cases h' with
    | nil => simp at e
    | plain h1 h2 hq => simp only [List.cons_append, List.cons.injEq] at e; exact absurd e.1.symm h2
    | escaped _ hq => simp only [List.cons_append, List.cons.injEq] at e; exact ih hq e.2.2

/-- Words end before white space and comments. -/
theorem ends_word {l : Logos} {w s : Str} {t : Token} (h : WordFor l w t) (hn : ¬ LineEnd t) (hs : BeginsWithSpace s) : EndsBefore w s := by
  obtain ⟨c, rest, rfl, hc⟩ := hs
  rintro c' rest' e k' more hk'
  cases e
  obtain ⟨k, hk, _, hd⟩ := h
  obtain ⟨a, r, rfl, _⟩ := reads_head (lexeme_iff.mp hk)
  by_cases ho : OddHead a
  · by_cases hq : a = '"'
    · subst hq
      have e1 := reads_quote (lexeme_iff.mp hk)
      have e2 := reads_quote (lexeme_iff.mp hk')
      subst e1 e2
      generalize hw : '"' :: r = w at hk
      generalize hw' : '"' :: r ++ c :: more = w' at hk'
      cases hk with
      | @string body hb =>
        cases hk' with
        | @string body' hb' =>
          simp only [List.cons_append, List.cons.injEq, true_and] at hw hw'
          rw [hw, List.append_assoc] at hw'
          cases quoted_end hb hb' hw'
    · have hf : ∀ t', ¬ Fixed t' (a :: r) := fun t' ht => fixed_odd ho ht
      obtain ⟨x, y, e, hx⟩ := lexeme_begins hk hf
      simp only [List.cons.injEq] at e
      rw [← e.1] at hx
      have h7 : Begins 7 a ∨ Begins 8 a := by
        rcases ho with h | h | h | h | h | h
        · exact absurd h hq
        · exact .inl (.inl h)
        · exact .inl (.inr (.inl h))
        · exact .inl (.inr (.inr h))
        · exact .inr (.inl h)
        · exact .inr (.inr h)
      rcases h7 with h7 | h7
      · have hfam := begins_inj hx h7
        cases k <;> simp [Kind.family] at hfam
        cases hd
        generalize a :: r = w at hk hf
        cases hk with
        | fixed h => exact hf _ h
        | lineEndIndent => exact hn (.inr (.inl rfl))
        | lineEnd => exact hn (.inl rfl)
        | comment => exact hn (.inr (.inr rfl))
      · have hfam := begins_inj hx h7
        cases k <;> simp [Kind.family] at hfam
        cases hd
  · exact lexeme_break hk' ho c (by simp) hc

end

end Lima
