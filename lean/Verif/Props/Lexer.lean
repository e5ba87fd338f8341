import Verif.Lemmas.Lexer
import Verif.Lemmas.Text

/-!
# C23-C27: the token stream handed to the parser
-/

namespace Lima.Props
open Lima Lima.Spec

/-! ## C23 -/

theorem potentialKey_iff (t : Token) (k : Str) :
    potentialKey t = some k ↔ ∃ e ∈ keywords, e.1 = t ∧ e.2.toList = k := by
  cases t <;> simp [potentialKey, keywords] <;> exact Iff.rfl

/-- C23: key recognition keeps the number of tokens and their locations; a keyword directly before a colon
becomes the key spelled like it, and every other token is unchanged. -/
theorem C23_keys (ts : List Ranged) :
    (keywordThenColonToKey ts).length = ts.length ∧
    ∀ i t, ts[i]? = some t →
      ∃ u, (keywordThenColonToKey ts)[i]? = some u ∧ u.start = t.start ∧ u.stop = t.stop ∧
        (∀ kw text, (kw, text) ∈ keywords → t.tok = kw → ts[i+1]?.map (·.tok) = some .colon →
          u.tok = .key text.toList) ∧
        ((¬ ∃ text, (t.tok, text) ∈ keywords) ∨ ts[i+1]?.map (·.tok) ≠ some .colon → u.tok = t.tok) := by
  rw [keywordThenColonToKey_eq]
  refine ⟨mapKeys_length ts, fun i t hi => ?_⟩
  rw [mapKeys_getElem?, hi, Option.map_some]
  cases hk : potentialKey t.tok with
  | none =>
    refine ⟨t, rfl, rfl, rfl, ?_, fun _ => rfl⟩
    intro kw text hmem ht _
    have := (potentialKey_iff t.tok text.toList).mpr ⟨(kw, text), hmem, ht.symm, rfl⟩
    rw [hk] at this; cases this
  | some k =>
    cases hc : ts[i+1]? with
    | none => exact ⟨t, rfl, rfl, rfl, by simp, fun _ => rfl⟩
    | some c =>
      simp only [Option.map_some, Option.some.injEq, ne_eq]
      by_cases hcol : c.tok = .colon
      · simp only [hcol, if_true]
        refine ⟨_, rfl, rfl, rfl, ?_, ?_⟩
        · intro kw text hmem ht _
          have := (potentialKey_iff t.tok text.toList).mpr ⟨(kw, text), hmem, ht.symm, rfl⟩
          rw [hk] at this
          cases this; rfl
        · rintro (h | h)
          · obtain ⟨⟨kw, text⟩, hmem, h1, h2⟩ := (potentialKey_iff t.tok k).mp hk
            simp only at h1
            subst h1
            exact absurd ⟨text, hmem⟩ h
          · exact absurd trivial h
      · simp only [hcol, if_false]
        exact ⟨t, rfl, rfl, rfl, fun _ _ _ _ h => absurd h id, fun _ => rfl⟩

/-- `txn: event txn` - only the first is a key. -/
example : (keywordThenColonToKey [⟨.txn, 0, 3⟩, ⟨.colon, 3, 4⟩, ⟨.event, 5, 10⟩, ⟨.txn, 11, 14⟩]).map (·.tok)
    = [.key (str "txn"), .colon, .event, .txn] := by
  rw [keywordThenColonToKey_eq]; decide

/-! ## C24 -/

theorem emitEol_ne_nil (f : Ranged) (r : List Ranged) : emitEol f r ≠ [] := by
  unfold emitEol
  repeat' split
  all_goals simp

theorem eolBody_head (ts : List Ranged) (hi : ∀ t ∈ ts, t.tok ≠ .indent) :
    ∀ t ∈ (eolBody ts).head?, t.tok ≠ .eol ∧ t.tok ≠ .indent ∧ t.tok ≠ .colon := by
  intro t ht
  unfold eolBody at ht
  cases h : dropInitial (⟨.eol, 0, 0⟩ :: ts) with
  | nil => rw [h] at ht; simp [eolRun] at ht
  | cons u us =>
    rw [h] at ht
    have hu := dropInitial_head _ u us h
    simp only [eolRun, hu.1, Bool.false_eq_true, if_false, List.head?_cons, Option.mem_def,
      Option.some.injEq] at ht
    subst ht
    have hmem := dropInitial_subset (⟨.eol, 0, 0⟩ :: ts) u (by rw [h]; simp)
    refine ⟨?_, ?_, hu.2⟩
    · intro e; rw [e] at hu; exact absurd hu.1 (by decide)
    · rcases List.mem_cons.mp hmem with rfl | hmem
      · simp
      · exact hi u hmem

theorem eolBody_adj (ts : List Ranged) (hi : ∀ t ∈ ts, t.tok ≠ .indent) :
    Adj LineRel ((eolBody ts).map (·.tok)) := by
  unfold eolBody
  refine (eolRun_adj _ ?_).1.1
  intro t ht
  rcases List.mem_cons.mp (dropInitial_subset _ t ht) with rfl | h
  · simp
  · exact hi t h

theorem lineStructured_of (ts : List Token) (h1 : ts.head? ≠ some .eol) (h2 : ts.head? ≠ some .indent)
    (h3 : Adj LineRel ts) (h4 : .eolThenIndent ∉ ts ∧ .eolComment ∉ ts) : LineStructured ts := by
  rw [adj_iff] at h3
  refine ⟨h1, h2, ?_, h4, ?_, ?_⟩
  · intro l r e
    exact (h3 l _ _ r e).1 rfl rfl
  · intro l a r e
    exact (h3 l _ _ r e).2.1 rfl
  · intro l b r e
    exact (h3 l _ _ r e).2.2 rfl

/-- C24: for every raw token stream (the raw lexer never produces the indent token itself), the stream handed
to the parser has the line structure the parser relies on, with or without the forced final line end. -/
theorem C24_line_structure (ts : List Ranged) (hi : ∀ t ∈ ts, t.tok ≠ .indent) (fe : Option (Nat × Nat)) :
    LineStructured ((handleEolIndent ts fe).map (·.tok)) := by
  rw [handleEolIndent_eq]
  have hh := eolBody_head ts hi
  have ha := eolBody_adj ts hi
  have hr : ∀ t ∈ eolBody ts, t.tok ≠ .eolThenIndent ∧ t.tok ≠ .eolComment :=
    eolRun_noRaw _ .normal (by simp)
  generalize eolBody ts = body at *
  have base : LineStructured (body.map (·.tok)) := by
    apply lineStructured_of _ _ _ ha
    · constructor
      · intro h; obtain ⟨t, ht, e⟩ := List.mem_map.mp h; exact (hr t ht).1 e
      · intro h; obtain ⟨t, ht, e⟩ := List.mem_map.mp h; exact (hr t ht).2 e
    · cases body with
      | nil => simp
      | cons t l => simpa using (hh t (by simp)).1
    · cases body with
      | nil => simp
      | cons t l => simpa using (hh t (by simp)).2.1
  have hft : ∀ p a, finalTok fe p a = [] ∨ ∃ x y, finalTok fe p a = [⟨.eol, x, y⟩] ∧ p = false ∧ a = true := by
    intro p a
    unfold finalTok
    split
    · split
      · rename_i x y hb
        refine Or.inr ⟨x, y, rfl, ?_⟩
        cases p <;> cases a <;> simp_all
      · exact Or.inl rfl
    · exact Or.inl rfl
  rcases hft (body.any fun t => decide (t.tok = .eol)) (!body.isEmpty) with h | ⟨x, y, h, hp, hany⟩
  · rw [h, List.append_nil]; exact base
  · rw [h, List.map_append]
    have hnoeol : ∀ t ∈ body, t.tok ≠ .eol := by
      intro t ht e
      have := List.any_eq_false.mp hp t ht
      simp [e] at this
    have hne : body ≠ [] := by
      intro e; rw [e] at hany; simp at hany
    apply lineStructured_of
    · cases body with
      | nil => exact absurd rfl hne
      | cons t l => simpa using (hh t (by simp)).1
    · cases body with
      | nil => exact absurd rfl hne
      | cons t l => simpa using (hh t (by simp)).2.1
    · apply adj_append_singleton _ _ _ ha
      intro a hla
      obtain ⟨t, ht, rfl⟩ := List.mem_map.mp (List.mem_of_getLast? hla)
      refine ⟨fun e => absurd e (hnoeol t ht), by simp, fun e => ?_⟩
      exfalso
      -- an indent would follow an end of line
      obtain ⟨l, hl⟩ := List.getLast?_eq_some_iff.mp hla
      rw [e] at hl
      cases hll : l.reverse with
      | nil =>
        have : l = [] := by simpa using hll
        rw [this] at hl
        exact base.noLeadingIndent (by rw [hl]; rfl)
      | cons b l' =>
        have : l = l'.reverse ++ [b] := by rw [← List.reverse_reverse l, hll]; simp
        rw [this] at hl
        have hb := base.indentAfterEol l'.reverse b [] (by rw [hl]; simp)
        have : b ∈ body.map (·.tok) := by rw [hl]; simp
        obtain ⟨u, hu, rfl⟩ := List.mem_map.mp this
        exact hnoeol u hu hb
    · constructor
      · intro h
        rcases List.mem_append.mp h with h | h
        · exact base.noRaw.1 h
        · simp at h
      · intro h
        rcases List.mem_append.mp h with h | h
        · exact base.noRaw.2 h
        · simp at h

/-! ## C25 -/

/-- C25: the significant tokens, with their locations, are handed to the parser unchanged and in order: what
the parser sees apart from line ends and indents is what `significant` keeps of the raw tokens. -/
theorem C25_significant_tokens (ts : List Ranged) (hi : ∀ t ∈ ts, t.tok ≠ .indent)
    (fe : Option (Nat × Nat)) :
    (handleEolIndent ts fe).filter (fun t => decide (t.tok ≠ .eol ∧ t.tok ≠ .indent)) =
      significant .fileStart ts := by
  have h := eolBody_significant ts hi
  rw [handleEolIndent_eq, List.filter_append]
  have : ∀ p a, (finalTok fe p a).filter (fun t => decide (t.tok ≠ .eol ∧ t.tok ≠ .indent)) = [] := by
    intro p a
    unfold finalTok
    split
    · split <;> simp
    · rfl
  rw [this, List.append_nil]
  exact h

/-- C25: with no colon in the file, nothing at all is ignored. -/
theorem C25_nothing_lost_without_colon (ts : List Ranged) (hi : ∀ t ∈ ts, t.tok ≠ .indent)
    (hc : ∀ t ∈ ts, t.tok ≠ .colon) (fe : Option (Nat × Nat)) :
    (handleEolIndent ts fe).filter (fun t => decide (t.tok ≠ .eol ∧ t.tok ≠ .indent)) =
      ts.filter (fun t => decide (¬ LineEnd t.tok)) := by
  rw [C25_significant_tokens ts hi]
  suffices h : ∀ m : LineMode, m = .fileStart ∨ m = .inside ∨ m = .indented →
      significant m ts = ts.filter (fun t => decide (¬ LineEnd t.tok)) from h _ (Or.inl rfl)
  clear hi
  induction ts with
  | nil => intro m _; rfl
  | cons t ts ih =>
    intro m hm
    have ih := ih (fun t ht => hc t (by simp [ht]))
    have hct := hc t (by simp)
    unfold significant
    by_cases hl : LineEnd t.tok
    · rw [if_pos hl, List.filter_cons_of_neg (by simp [hl])]
      apply ih
      rcases hm with rfl | rfl | rfl <;> by_cases h : t.tok = .eolThenIndent <;> simp [LineMode.afterLineEnd, h]
    · have : m.afterToken t.tok = .inside := by
        rcases hm with rfl | rfl | rfl <;> simp [LineMode.afterToken, hct]
      rw [if_neg hl, if_pos this, List.filter_cons_of_pos (by simp [hl]), ih _ (Or.inr (Or.inl rfl))]

/-- An initial empty line, an indented ignored line and a blank indented line. -/
example : (handleEolIndent
    [⟨.eol, 0, 1⟩, ⟨.txn, 1, 4⟩, ⟨.eolThenIndent, 4, 6⟩, ⟨.colon, 6, 7⟩, ⟨.txn, 7, 10⟩, ⟨.eolThenIndent, 10, 12⟩,
     ⟨.eolThenIndent, 12, 14⟩, ⟨.pad, 14, 17⟩] (some (17, 17))) =
    [⟨.txn, 1, 4⟩, ⟨.eol, 10, 14⟩, ⟨.indent, 13, 14⟩, ⟨.pad, 14, 17⟩] := by
  rw [handleEolIndent_eq]
  have : dropInitial [⟨.eol, 0, 0⟩, ⟨.eol, 0, 1⟩, ⟨.txn, 1, 4⟩, ⟨.eolThenIndent, 4, 6⟩, ⟨.colon, 6, 7⟩,
     ⟨.txn, 7, 10⟩, ⟨.eolThenIndent, 10, 12⟩, ⟨.eolThenIndent, 12, 14⟩, ⟨.pad, 14, 17⟩] =
     [⟨.txn, 1, 4⟩, ⟨.eolThenIndent, 4, 6⟩, ⟨.colon, 6, 7⟩,
     ⟨.txn, 7, 10⟩, ⟨.eolThenIndent, 10, 12⟩, ⟨.eolThenIndent, 12, 14⟩, ⟨.pad, 14, 17⟩] := by
    rw [dropInitial]; rfl
  unfold eolBody
  rw [this]
  decide

/-! ## C26 -/

theorem eolRun_of_noEol (ts : List Ranged) (h : ∀ t ∈ ts, ¬ LineEnd t.tok) : eolRun .normal ts = ts := by
  induction ts with
  | nil => rfl
  | cons t ts ih =>
    have ht : ¬ t.tok.isEol = true := fun e => h t (by simp) ((isEol_iff _).mp e)
    rw [eolRun, if_neg ht, ih (fun t ht => h t (by simp [ht]))]

theorem dropInitial_suffix (ts : List Ranged) : dropInitial ts <:+ ts := by
  fun_induction dropInitial ts with
  | case1 => exact List.nil_suffix
  | case2 l t ts h hc ih =>
    have h1 : (t :: ts) <:+ l := h ▸ List.dropWhile_suffix _
    exact (ih.trans (List.dropWhile_suffix _)).trans ((List.suffix_cons t ts).trans h1)
  | case3 l t ts h hc => exact h ▸ List.dropWhile_suffix _

theorem emitEol_last (f : Ranged) (r : List Ranged) (h : ∃ l x, r = l ++ [x] ∧ x.tok = Token.eol) :
    ∃ l x, emitEol f r = l ++ [x] ∧ x.tok = Token.eol := by
  obtain ⟨l, x, rfl, hx⟩ := h
  unfold emitEol
  repeat' split
  · exact ⟨_ :: _ :: l, x, rfl, hx⟩
  · exact ⟨_ :: l, x, rfl, hx⟩
  · exact ⟨_ :: l, x, rfl, hx⟩

theorem eolRun_last (pre : List Ranged) (t : Ranged) (ht : t.tok = .eol ∨ t.tok = .eolComment) (m : EMode)  :
    ∃ l x, eolRun m (pre ++ [t]) = l ++ [x] ∧ x.tok = Token.eol := by
  have he : t.tok.isEol = true := by rcases ht with h | h <;> simp [h, Token.isEol]
  have hemit : ∀ f : Ranged, f.tok = t.tok → ∃ l x, emitEol f [] = l ++ [x] ∧ x.tok = Token.eol := by
    intro f hf
    unfold emitEol
    rcases ht with h | h
    · simp only [hf, h, reduceCtorEq, if_false]; exact ⟨[], f, rfl, hf.trans h⟩
    · simp only [hf, h, reduceCtorEq, if_false, if_true]; exact ⟨[], _, rfl, rfl⟩
  induction pre generalizing m with
  | nil =>
    cases m with
    | normal => rw [List.nil_append, eolRun, if_pos he, eolRun]; exact hemit t rfl
    | skip => rw [List.nil_append, eolRun, if_pos he, eolRun]; exact hemit t rfl
    | run f => rw [List.nil_append, eolRun, if_pos he, eolRun]; exact hemit _ rfl
  | cons u pre ih =>
    have hcons : ∃ l x, u :: eolRun .normal (pre ++ [t]) = l ++ [x] ∧ x.tok = Token.eol := by
      obtain ⟨l, x, h1, h2⟩ := ih .normal
      exact ⟨u :: l, x, by rw [h1]; rfl, h2⟩
    rw [List.cons_append]
    cases m with
    | normal =>
      rw [eolRun]
      split
      · exact ih _
      · exact hcons
    | skip =>
      rw [eolRun]
      split
      · exact ih _
      · exact ih _
    | run f =>
      rw [eolRun]
      split
      · exact ih _
      · split
        · exact ih _
        · exact emitEol_last f _ hcons

/-- C26, the part that holds: with a final line end requested, a stream without any line end gets one at the
requested place, a stream whose last raw token is a plain line end or comment ends in a line end, and a stream
with no significant tokens stays empty.  Missing: a stream with an earlier line end whose last line has none,
see `C26_final_eol_false`. -/
theorem C26_final_eol_partial (ts : List Ranged) (hi : ∀ t ∈ ts, t.tok ≠ .indent) (a b : Nat) :
    let out := handleEolIndent ts (some (a, b))
    ((∀ t ∈ ts, ¬ LineEnd t.tok) → out = [] ∨ ∃ l, out = l ++ [⟨.eol, a, b⟩]) ∧
    (∀ pre t, ts = pre ++ [t] → t.tok = .eol ∨ t.tok = .eolComment →
      out = [] ∨ ∃ l x, out = l ++ [x] ∧ x.tok = .eol) ∧
    (significant .fileStart ts = [] → out = []) := by
  intro out
  have hout : out = _ := handleEolIndent_eq ts (some (a, b))
  refine ⟨?_, ?_, ?_⟩
  · intro hno
    have hbody : ∀ t ∈ eolBody ts, t.tok ≠ .eol := by
      unfold eolBody
      have hd : ∀ t ∈ dropInitial (⟨.eol, 0, 0⟩ :: ts), ¬ LineEnd t.tok := by
        intro t ht
        -- the first token is not a line end, and the placeholder can only be first
        cases h : dropInitial (⟨.eol, 0, 0⟩ :: ts) with
        | nil => rw [h] at ht; simp at ht
        | cons u us =>
          have hu := (dropInitial_head _ u us h).1
          have hsuf := dropInitial_suffix (⟨.eol, 0, 0⟩ :: ts)
          rw [h] at hsuf ht
          rcases List.suffix_cons_iff.mp hsuf with e | hs
          · rw [List.cons.injEq] at e
            rw [e.1] at hu; simp [Token.isEol] at hu
          · exact hno t (hs.subset ht)
      rw [eolRun_of_noEol _ hd]
      intro t ht e
      exact hd t ht (Or.inl e)
    rw [hout]
    have hany : (eolBody ts).any (fun t => decide (t.tok = .eol)) = false := by
      rw [List.any_eq_false]
      intro t ht
      simpa using hbody t ht
    rw [hany]
    cases hb : eolBody ts with
    | nil => left; simp [finalTok]
    | cons x l => right; exact ⟨x :: l, by simp [finalTok]⟩
  · intro pre t hts htok
    have hsuf := dropInitial_suffix (⟨.eol, 0, 0⟩ :: ts)
    cases h : dropInitial (⟨.eol, 0, 0⟩ :: ts) with
    | nil =>
      left
      rw [hout]
      simp [eolBody, h, eolRun, finalTok]
    | cons u us =>
      right
      have hlast : ∃ p, u :: us = p ++ [t] := by
        rw [h, hts] at hsuf
        obtain ⟨q, hq⟩ := hsuf
        have := congrArg List.getLast? hq
        rw [← List.cons_append, List.getLast?_append, List.getLast?_append] at this
        simp only [List.getLast?_singleton, Option.some_or] at this
        cases hl : (u :: us).getLast? with
        | none => simp at hl
        | some z =>
          rw [hl, Option.some_or] at this
          cases this
          exact List.getLast?_eq_some_iff.mp hl
      obtain ⟨p, hp⟩ := hlast
      obtain ⟨l, x, h1, h2⟩ := eolRun_last p t htok .normal
      have hb : eolBody ts = l ++ [x] := by unfold eolBody; rw [h, hp]; exact h1
      refine ⟨l, x, ?_, h2⟩
      rw [hout, hb]
      simp [finalTok, h2]
  · intro hsig
    have hs := eolBody_significant ts hi
    rw [hsig] at hs
    have hh := eolBody_head ts hi
    rw [hout]
    cases hb : eolBody ts with
    | nil => simp [finalTok]
    | cons x l =>
      rw [hb] at hs hh
      have := hh x (by simp)
      have hx : isSig x = true := by simp [isSig, this.1, this.2.1]
      rw [List.filter_cons_of_pos hx] at hs
      cases hs

/-- C26 as documented is false of the code: two lines, the second without a newline, get no final line
end. -/
theorem C26_final_eol_false :
    ¬ ∀ ts : List Ranged, (∀ t ∈ ts, t.tok ≠ .indent) → ∀ a b,
      let out := handleEolIndent ts (some (a, b))
      out = [] ∨ ∃ l x, out = l ++ [x] ∧ x.tok = .eol := by
  intro h
  have h := h [⟨.txn, 0, 3⟩, ⟨.eol, 3, 4⟩, ⟨.pad, 4, 7⟩] (by decide) 7 7
  have e : handleEolIndent [⟨.txn, 0, 3⟩, ⟨.eol, 3, 4⟩, ⟨.pad, 4, 7⟩] (some (7, 7)) =
      [⟨.txn, 0, 3⟩, ⟨.eol, 3, 4⟩, ⟨.pad, 4, 7⟩] := by
    rw [handleEolIndent_eq]
    have : dropInitial [⟨.eol, 0, 0⟩, ⟨.txn, 0, 3⟩, ⟨.eol, 3, 4⟩, ⟨.pad, 4, 7⟩] =
        [⟨.txn, 0, 3⟩, ⟨.eol, 3, 4⟩, ⟨.pad, 4, 7⟩] := by
      rw [dropInitial]; rfl
    unfold eolBody
    rw [this]
    decide
  simp only [e] at h
  rcases h with h | ⟨l, x, h, hx⟩
  · cases h
  · have := congrArg List.getLast? h
    simp at this
    rw [← this] at hx
    cases hx

/-! ## C27 -/

/-- C27: recovery passes good tokens through unchanged and replaces each failed piece by the tokens of the
recovery lexer on that piece, shifted to its place; it panics only if a failed piece is not on character
boundaries. -/
theorem C27_recovery (rlex : Str → List (RawItem RecoveryToken)) (source : Str) (items : List (RawItem Token))
    (hb : ∀ p ∈ items, ∀ e, p.res = .error e → (slice source p.start p.stop).isSome) :
    ∃ pieces : List (List Ranged),
      attemptRecovery rlex source items = some pieces.flatten ∧ pieces.length = items.length ∧
      ∀ (i : Nat) (p : RawItem Token), items[i]? = some p →
        (∀ t, p.res = .ok t → pieces[i]? = some [⟨t, p.start, p.stop⟩]) ∧
        (∀ e, p.res = .error e → ∃ (failed : Str) (piece : List Ranged), slice source p.start p.stop = some failed ∧
          pieces[i]? = some piece ∧ piece.length = (rlex failed).length ∧
          ∀ (j : Nat) (r : RawItem RecoveryToken), (rlex failed)[j]? = some r →
          ∃ t : Ranged, piece[j]? = some t ∧
            t.start = r.start + p.start ∧ t.stop = r.stop + p.start ∧
            (∀ k, r.res = .ok k → t.tok = k.toToken) ∧ (∀ e, r.res = .error e → t.tok = .error e)) := by
  unfold attemptRecovery
  rw [recovery_collect]
  simp only [pendingRecovery, List.nil_append]
  induction items with
  | nil => exact ⟨[], by simp [recoveredAll], rfl, by simp⟩
  | cons p ps ih =>
    obtain ⟨pieces, h1, h2, h3⟩ := ih (fun q hq => hb q (by simp [hq]))
    have h1' : recoveredAll rlex source ps = some pieces.flatten := by
      cases h : recoveredAll rlex source ps <;> simp_all
    cases hp : p.res with
    | ok t =>
      refine ⟨[⟨t, p.start, p.stop⟩] :: pieces, ?_, by simp [h2], ?_⟩
      · simp [recoveredAll, recovered, hp, h1']
      · intro i q hq
        cases i with
        | zero =>
          simp at hq; subst hq
          refine ⟨?_, ?_⟩
          · intro t' ht'; rw [hp] at ht'; cases ht'; rfl
          · intro e he; rw [hp] at he; cases he
        | succ i => exact h3 i q (by simpa using hq)
    | error e =>
      have hsl := hb p (by simp) e hp
      obtain ⟨failed, hf⟩ := Option.isSome_iff_exists.mp hsl
      refine ⟨((rlex failed).map fun i =>
        ⟨match i.res with | .ok t => t.toToken | .error e => .error e, i.start + p.start, i.stop + p.start⟩)
          :: pieces, ?_, by simp [h2], ?_⟩
      · simp [recoveredAll, recovered, hp, h1', hf]
        intro a _
        cases a.res <;> rfl
      · intro i q hq
        cases i with
        | zero =>
          simp at hq; subst hq
          refine ⟨?_, ?_⟩
          · intro t' ht'; rw [hp] at ht'; cases ht'
          · intro e' he'
            refine ⟨failed, _, hf, rfl, by simp, ?_⟩
            intro j r hr
            refine ⟨_, by rw [List.getElem?_map, hr]; rfl, rfl, rfl, ?_, ?_⟩
            · intro k hk; simp [hk]
            · intro e hk; simp [hk]
        | succ i => exact h3 i q (by simpa using hq)

/-- C27: if the recovery lexer's items lie within its input one after the other, then what replaces a failed
piece lies within that piece, one token after the other. -/
theorem C27_recovery_in_place (rlex : Str → List (RawItem RecoveryToken)) (source : Str)
    (hr : ∀ s, (∀ r ∈ rlex s, r.start ≤ r.stop ∧ r.stop ≤ byteLen s) ∧
      (rlex s).Pairwise (fun x y => x.stop ≤ y.start))
    (e : LexerError) (a b : Nat) (out : List Ranged)
    (h : attemptRecovery rlex source [⟨.error e, a, b⟩] = some out) :
    (∀ t ∈ out, a ≤ t.start ∧ t.start ≤ t.stop ∧ t.stop ≤ b) ∧
      out.Pairwise (fun x y => x.stop ≤ y.start) := by
  unfold attemptRecovery at h
  rw [recovery_collect] at h
  simp only [pendingRecovery, List.nil_append, recoveredAll, recovered] at h
  cases hs : slice source a b with
  | none => simp [hs] at h
  | some failed =>
    have hlen := slice_byteLen hs
    obtain ⟨h1, h2⟩ := hr failed
    simp only [hs, Option.map_some, List.append_nil, Option.some.injEq] at h
    subst h
    constructor
    · intro t ht
      obtain ⟨r, hr, rfl⟩ := List.mem_map.mp ht
      have := h1 r hr
      simp only
      omega
    · rw [List.pairwise_map]
      exact h2.imp (fun hxy => by simp only; omega)

/-- A failed piece `/1` after a good token. -/
example : attemptRecovery (fun _ => [⟨.ok .slash, 0, 1⟩, ⟨.ok (.number ⟨1, 0⟩), 1, 2⟩]) (str "txn/1")
    [⟨.ok .txn, 0, 3⟩, ⟨.error ⟨[]⟩, 3, 5⟩] =
    some [⟨.txn, 0, 3⟩, ⟨.slash, 3, 4⟩, ⟨.number ⟨1, 0⟩, 4, 5⟩] := by
  unfold attemptRecovery
  rw [recovery_collect]
  have : slice (str "txn/1") 3 5 = some (str "/1") :=
    (slice_iff _ _ _ _).mpr ⟨str "txn", [], by decide, by decide, by decide⟩
  simp [recoveredAll, recovered, this, pendingRecovery, RecoveryToken.toToken]

end Lima.Props
