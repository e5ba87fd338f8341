import Verif.Lemmas.Understood
import Verif.Lemmas.Written
import Verif.Props.OptionDecoding

/-! The declarations of a file and the tokens they are made of. -/

namespace Lima.Grammar

open Spec

variable {α : Type} {cfg : ParseCfg} {o o' : ParserOptions} {i j r : List Ranged}

section
variable [Unicode] [DecOps]

theorem parseFile_sound {toks : List Ranged} {warns : List Report} {res : FileResult}
    (h : parseFile cfg toks o warns = some res) (he : .syntax ∉ res.errors) :
    ∃ ds ws, res = ⟨some ds, res.errors, res.opts, warns ++ ws⟩ ∧ FileP cfg o toks ds res.opts res.errors ws := by
  have h0 := h
  unfold parseFile at h
  cases hf : file cfg ⟨toks, [], o, warns⟩ with
  | panic => rw [hf] at h; cases h
  | fail s =>
    rw [hf] at h
    cases h
    exact absurd (by simp) he
  | ok ds' s =>
    rw [hf] at h
    simp only at h
    split at h
    · rename_i ht
      cases h
      obtain ⟨es, ws, h1, h2⟩ := reps_sound (P.rep_reps hf) ht he
      have h3 := parseFile_complete warns h2
      rw [h0] at h3
      simp only [Option.some.injEq, FileResult.mk.injEq, true_and] at h3
      refine ⟨ds', ws, by simp [h3.2], ?_⟩
      simp only
      rw [h3.1]
      exact h2
    · cases h
      exact absurd (by simp) he

omit [Unicode] [DecOps] in
theorem Good.le (h : Good i r) : r.length ≤ i.length := by
  obtain ⟨run, rfl, _⟩ := h
  simp

theorem directive_lt {d : Directive} {es : List PErr} (h : DirectiveP cfg o i r d es) : r.length < i.length := by
  cases h with
  | transaction h1 h2 h3 h4 h5 h6 _ h8 =>
    exact Nat.lt_of_le_of_lt ((good_txn h2.1).trans ((good_strings h3).trans ((good_tagsLinks h4).trans
      ((good_eol h5).trans ((good_lines h6).trans (good_postings h8)))))).le (word_lt h1.1)
  | other h1 h2 h3 h4 h5 h6 _ =>
    exact Nat.lt_of_le_of_lt ((good_body h2 h3).trans ((good_tagsLinks h4).trans
      ((good_eol h5).trans (good_lines h6)))).le (word_lt h1.1)
  | custom h1 h2 h3 h4 h5 h6 _ =>
    exact Nat.lt_of_le_of_lt ((Good.word h2 (by simp [Inner, Understood])).trans ((good_string h3.1).trans
      ((good_many (fun _ _ _ h => good_metaValue h.1) h4).trans ((good_eol h5).trans (good_lines h6))))).le
      (word_lt h1.1)

theorem pragma_lt {p : Pragma} {es : List PErr} (h : PragmaP cfg o i r p o' es) : r.length < i.length := by
  cases h with
  | pushtag h =>
    obtain ⟨⟨j, h1, h2⟩, _⟩ := h
    exact Nat.lt_of_le_of_lt (good_tag h2).le (word_lt h1)
  | poptag h =>
    obtain ⟨⟨j, h1, h2⟩, _⟩ := h
    exact Nat.lt_of_le_of_lt (good_tag h2).le (word_lt h1)
  | pushmeta h1 h2 => exact Nat.lt_of_le_of_lt (good_keyValue h2).le (word_lt h1)
  | popmeta h =>
    obtain ⟨⟨j, h1, k, h2, h3⟩, _⟩ := h
    exact Nat.lt_of_le_of_lt ((good_key h2).trans (Good.word h3 (by simp [Inner, Understood]))).le (word_lt h1)
  | «include» h1 h2 => exact Nat.lt_of_le_of_lt (good_string h2.1).le (word_lt h1)
  | option h1 h2 h3 _ =>
    exact Nat.lt_of_le_of_lt ((good_string h2.1).trans (good_string h3.1)).le (word_lt h1)
  | plugin h1 h2 h3 =>
    exact Nat.lt_of_le_of_lt ((good_string h2.1).trans (good_maybe (fun _ _ _ h => good_string h.1) h3)).le (word_lt h1)

theorem declaration_lt {d : Spanned Declaration} {es : List PErr} (h : DeclarationP cfg o i r d o' es) :
    r.length < i.length := by
  cases h with
  | directive h _ => exact directive_lt h
  | pragma h1 h2 _ => exact Nat.lt_of_le_of_lt (good_eol h2).le (pragma_lt h1)

/-- A declaration's location is that of its tokens. -/
theorem declaration_span {run : List Ranged} {d : Spanned Declaration} {es : List PErr}
    (h : DeclarationP cfg o (run ++ r) r d o' es) : SpanOf cfg.source run d.span := by
  have hs : Covers cfg (run ++ r) r d.span := by
    cases h with
    | directive _ h => exact h
    | pragma _ _ h => exact h
  rcases hs with ⟨first, run', last, h1, h2, h3, h4⟩ | ⟨h1, _⟩
  · rw [List.append_cancel_right_eq] at h1
    subst h1
    exact ⟨first, last, h2, h3, h4⟩
  · have := declaration_lt h
    rw [h1] at this
    omega

/-- The tokens of a file are those of its declarations. -/
theorem file_runs {toks : List Ranged} {ds : List (Spanned Declaration)} {es : List PErr} {ws : List Report}
    (h : FileP cfg o toks ds o' es ws) : ∃ runs : List (List Ranged), toks = runs.flatten ∧
      List.Forall₂ (fun run d => SpanOf cfg.source run d.span ∧
        ∃ o1 o2 r es, DeclarationP cfg o1 (run ++ r) r d o2 es) runs ds := by
  induction h with
  | nil => exact ⟨[], rfl, .nil⟩
  | @cons _ _ _ run r d ds es es' ws' h _ ih =>
    obtain ⟨runs, rfl, h2⟩ := ih
    exact ⟨run :: runs, rfl, .cons ⟨declaration_span h, _, _, _, _, h⟩ h2⟩

theorem run_head {run r : List Ranged} {d : Spanned Declaration} {es : List PErr}
    (h : DeclarationP cfg o (run ++ r) r d o' es) : Head run (fun t => t ≠ .indent) := by
  have hne : run ≠ [] := by
    have := declaration_lt h
    rintro rfl
    simp at this
  have hs : Head (run ++ r) (fun t => t ≠ .indent) := by
    refine (starts_declaration h).head.mono ?_
    rintro _ (⟨d, rfl⟩ | rfl | rfl | rfl | rfl | rfl | rfl | rfl) <;> simp
  intro x hx
  apply hs x
  cases run with
  | nil => exact absurd rfl hne
  | cons y ys => exact hx

/-- A declaration of a file, its tokens and its errors. -/
theorem file_mem {toks : List Ranged} {ds : List (Spanned Declaration)} {es : List PErr} {ws : List Report}
    (h : FileP cfg o toks ds o' es ws) {d : Spanned Declaration} (hd : d ∈ ds) :
    ∃ before run after o1 o2 es1, toks = before ++ (run ++ after) ∧ SpanOf cfg.source run d.span ∧ es1 <:+: es ∧
      DeclarationP cfg o1 (run ++ after) after d o2 es1 ∧ Head after (fun t => t ≠ .indent) := by
  induction h with
  | nil => cases hd
  | @cons _ o1 o2 run r d' ds es es' ws' h hr ih =>
    rcases List.mem_cons.mp hd with rfl | hd
    · exact ⟨[], run, r, _, _, es, rfl, declaration_span h, ⟨[], es', by simp⟩, h, head_file hr⟩
    · obtain ⟨before, run', after, o1, o2, es1, rfl, h2, ⟨a, b, h3⟩, h4⟩ := ih hd
      exact ⟨run ++ before, run', after, o1, o2, es1, by simp, h2, ⟨es ++ a, b, by simp [← h3]⟩, h4⟩

/-! ### Strings of transactions -/

omit [Unicode] [DecOps] in
theorem leadingStrings_none (h : Head i (fun t => ∀ s, t ≠ .stringLiteral s)) : leadingStrings cfg i = [] := by
  cases i with
  | nil => rfl
  | cons x xs =>
    obtain ⟨t, a, b⟩ := x
    have := h _ rfl
    cases t <;> first | rfl | exact absurd rfl (this _)

omit [Unicode] [DecOps] in
theorem at_word {t : Token} {i r : List Ranged} {span : Span} (h : Word t i r) (hs : Covers cfg i r span) :
    ∃ x y, i = ⟨t, x, y⟩ :: r ∧ span = ⟨cfg.source, x, y⟩ := by
  obtain ⟨x, y, rfl⟩ := h
  rcases hs with ⟨first, run, last, h1, h2, h3, h4⟩ | ⟨h1, _⟩
  · have hl : run = [⟨t, x, y⟩] := by
      have : [(⟨t, x, y⟩ : Ranged)] ++ r = run ++ r := h1
      exact (List.append_cancel_right_eq _ _ _ ▸ this : _).symm
    subst hl
    cases h2
    cases h3
    exact ⟨x, y, rfl, h4⟩
  · exact absurd h1 (by simp)

omit [Unicode] [DecOps] in
theorem leadingStrings_string {s : Spanned Str} (h : At cfg StringP i r s) :
    leadingStrings cfg i = s :: leadingStrings cfg r := by
  obtain ⟨x, y, rfl, hs⟩ := at_word h.1 h.2
  obtain ⟨s, span⟩ := s
  cases hs
  rfl

omit [Unicode] [DecOps] in
theorem unlessEmpty_nonEmpty (s : Spanned Str) : unlessEmpty s (nonEmpty s) := by
  unfold unlessEmpty nonEmpty
  split <;> rfl

omit [Unicode] [DecOps] in
theorem byPosition {x : Option (Spanned Str) × Option (Spanned Str)} (h : PayeeNarrationP cfg i r x)
    (hr : leadingStrings cfg r = []) : ByPosition (leadingStrings cfg i) x.1 x.2 := by
  cases h with
  | neither => rw [hr]; exact ⟨rfl, rfl⟩
  | narration h => rw [leadingStrings_string h, hr]; exact ⟨rfl, unlessEmpty_nonEmpty _⟩
  | both h1 h2 =>
    rw [leadingStrings_string h1, leadingStrings_string h2, hr]
    exact ⟨unlessEmpty_nonEmpty _, unlessEmpty_nonEmpty _⟩

theorem noString_tagsLinks {head : List TagOrLink} (h : Many (TagOrLinkP cfg) i j head) (he : EndOfLine j r) :
    Head i (fun t => ∀ s, t ≠ .stringLiteral s) := by
  refine (head_many (C := fun t => ∀ s, t ≠ .stringLiteral s) h (fun i r a h => ?_) (head_lineEnd he)).mono ?_
  · cases h with
    | tag h => exact starts_word h.1.1 (by simp)
    | link h => exact starts_word h.1.1 (by simp)
  · rintro t (h | rfl)
    · exact h
    · simp

/-! ### Long strings -/

omit [Unicode] [DecOps] in
theorem longStrings_spans (run : List Ranged) :
    (longStrings cfg o run).map (·.span) = tooLong cfg.source o.maxlines run := by
  unfold longStrings tooLong
  rw [List.map_filterMap]
  refine List.filterMap_congr fun t _ => ?_
  cases t.tok <;> try rfl
  rename_i s
  simp only
  split
  · simp only [Option.map_some, longStringWarning]
    congr 1
    cases o.longStringMaxlines <;> rfl
  · rfl

omit [Unicode] [DecOps] in
theorem word_run {t : Token} {run : List Ranged} (h : Word t (run ++ r) j) (hl : j.length < (run ++ r).length)
    (hj : r <:+ j) : ∃ x y rest, run = ⟨t, x, y⟩ :: rest ∧ rest ++ r = j := by
  obtain ⟨x, y, h⟩ := h
  cases run with
  | nil =>
    simp only [List.nil_append] at h
    rw [h] at hj
    exact absurd hj.length_le (by simp)
  | cons a as =>
    rw [List.cons_append, List.cons.injEq] at h
    exact ⟨x, y, as, by rw [h.1], h.2⟩

theorem limit_declaration {run : List Ranged} {d : Spanned Declaration} {es : List PErr}
    (h : DeclarationP cfg o (run ++ r) r d o' es) :
    (∃ n, SetsLimit run n ∧ o'.maxlines = n) ∨ ((∀ n, ¬ SetsLimit run n) ∧ o'.maxlines = o.maxlines) := by
  have hlt := declaration_lt h
  have notOption : Head (run ++ r) (fun t => t ≠ .option) → ∀ n, ¬ SetsLimit run n := by
    rintro hh n ⟨v, rest, hm, _⟩
    cases run with
    | nil => cases hm
    | cons a as =>
      rw [List.map_cons, List.cons.injEq] at hm
      exact hh a rfl hm.1
  cases h with
  | directive h _ =>
    refine .inr ⟨notOption ((starts_directive h).head.mono ?_), rfl⟩
    rintro _ ⟨d, rfl⟩
    simp
  | pragma h he hs =>
    have hj := (good_eol he)
    cases h with
    | pushtag h =>
      obtain ⟨⟨j, h1, h2⟩, _⟩ := h
      exact .inr ⟨notOption ((head_word h1).mono (by rintro _ rfl; simp)), rfl⟩
    | poptag h =>
      obtain ⟨⟨j, h1, h2⟩, _⟩ := h
      exact .inr ⟨notOption ((head_word h1).mono (by rintro _ rfl; simp)), rfl⟩
    | pushmeta h1 h2 => exact .inr ⟨notOption ((head_word h1).mono (by rintro _ rfl; simp)), rfl⟩
    | popmeta h =>
      obtain ⟨⟨j, h1, k, h2, h3⟩, _⟩ := h
      exact .inr ⟨notOption ((head_word h1).mono (by rintro _ rfl; simp)), rfl⟩
    | «include» h1 h2 => exact .inr ⟨notOption ((head_word h1).mono (by rintro _ rfl; simp)), rfl⟩
    | plugin h1 h2 h3 => exact .inr ⟨notOption ((head_word h1).mono (by rintro _ rfl; simp)), rfl⟩
    | @option _ _ _ name value opt _ _ h1 h2 h3 h4 =>
      obtain ⟨jrun, hjr, _⟩ := hj
      subst hjr
      obtain ⟨x1, y1, h1⟩ := h1
      obtain ⟨⟨x2, y2, h2⟩, _⟩ := h2
      obtain ⟨⟨x3, y3, h3⟩, _⟩ := h3
      subst h3
      subst h2
      have hrun : run = ⟨.option, x1, y1⟩ :: ⟨.stringLiteral name.item, x2, y2⟩ ::
          ⟨.stringLiteral value.item, x3, y3⟩ :: jrun := by
        rw [← List.cons_append, ← List.cons_append, ← List.cons_append, List.append_cancel_right_eq] at h1
        exact h1
      have sets : ∀ n, SetsLimit run n ↔
          OptVariant.parse cfg.decimal name.item value.item cfg.path = .ok (.longStringMaxlines n) := by
        intro n
        rw [Props.C46_decodes, hrun]
        constructor
        · rintro ⟨v, rest, hm, hv⟩
          simp only [List.map_cons, List.cons.injEq, true_and, Token.stringLiteral.injEq] at hm
          rw [hm.1, hm.2.1]
          exact .longStringMaxlines _ _ hv
        · intro hd
          generalize hn : name.item = nm at hd ⊢
          generalize hv : value.item = vl at hd ⊢
          cases hd with
          | longStringMaxlines v n h => exact ⟨_, _, rfl, h⟩
      have parseOk : ∀ opt, BOption.parse cfg.decimal name value cfg.path = .ok opt →
          OptVariant.parse cfg.decimal name.item value.item cfg.path = .ok opt.variant := by
        intro opt h
        obtain ⟨v, hv, rfl⟩ := (Props.map_ok _ _ _).mp h
        exact hv
      cases h4 with
      | unknown h =>
        refine .inr ⟨fun n hn => ?_, rfl⟩
        rw [sets] at hn
        unfold BOption.parse at h
        rw [hn] at h
        cases h
      | badValue h =>
        refine .inr ⟨fun n hn => ?_, rfl⟩
        rw [sets] at hn
        unfold BOption.parse at h
        rw [hn] at h
        cases h
      | @accepted opt opt' o' h ha =>
        have hv := parseOk _ h
        by_cases hm : ∃ n, opt.variant = .longStringMaxlines n
        · obtain ⟨n, hm⟩ := hm
          refine .inl ⟨n, (sets n).mpr (hm ▸ hv), ?_⟩
          unfold ParserOptions.assimilate at ha
          rw [hm] at ha
          cases ha
          rfl
        · refine .inr ⟨fun n hn => ?_, ?_⟩
          · rw [sets, hv] at hn
            exact hm ⟨n, Res.ok.inj hn⟩
          · unfold ParserOptions.assimilate at ha
            split at ha
            · rw [← (Prod.mk.inj ha).2]
              rfl
            · rename_i n hn
              exact absurd ⟨n, hn⟩ hm
            · cases ha
              rfl
      | @refused opt o' t h ha =>
        have hv := parseOk _ h
        refine .inr ⟨fun n hn => ?_, ?_⟩
        · rw [sets, hv] at hn
          unfold ParserOptions.assimilate at ha
          have : opt.variant = .longStringMaxlines n := Res.ok.inj hn
          rw [this] at ha
          cases ha
        · unfold ParserOptions.assimilate at ha
          split at ha
          · rw [← (Prod.mk.inj ha).2]
            rfl
          · cases ha
          · cases ha

theorem file_tooLong {toks : List Ranged} {ds : List (Spanned Declaration)} {es : List PErr} {ws : List Report}
    (h : FileP cfg o toks ds o' es ws) : ∃ runs : List (List Ranged), toks = runs.flatten ∧
      List.Forall₂ (fun run d => SpanOf cfg.source run d.span) runs ds ∧
      TooLong cfg.source o.maxlines runs (ws.map (·.span)) := by
  induction h with
  | nil => exact ⟨[], rfl, .nil, .nil⟩
  | @cons o o1 _ run r d ds es es' ws' h _ ih =>
    obtain ⟨runs, rfl, h2, h3⟩ := ih
    refine ⟨run :: runs, rfl, .cons (declaration_span h) h2, ?_⟩
    rw [List.map_append, longStrings_spans]
    rcases limit_declaration h with ⟨n, hn, e⟩ | ⟨hn, e⟩
    · exact .sets hn (e ▸ h3)
    · exact .keeps hn (e ▸ h3)

/-! ### Order of locations -/

omit [Unicode] [DecOps] in
theorem ordered_spans {source : Nat} {runs : List (List Ranged)} {ds : List (Spanned Declaration)}
    (h : List.Forall₂ (fun run d => SpanOf source run d.span) runs ds) (hh : ∀ run ∈ runs, Head run (fun t => t ≠ .indent))
    (ho : Ordered runs.flatten) :
    (∀ d ∈ ds, d.span.source = source ∧ d.span.start ≤ d.span.stop) ∧
      ds.Pairwise (fun a b => a.span.stop ≤ b.span.start) := by
  have le_last : ∀ run : List Ranged, (∀ t ∈ run, t.start ≤ t.stop) →
      run.Pairwise (fun a b => a.stop ≤ b.start ∨ b.tok = .indent ∧ a.start ≤ b.start ∧ a.stop ≤ b.stop) →
      ∀ first last, run.head? = some first → run.getLast? = some last → first.start ≤ last.stop := by
    intro run h1 h2 first last hf hl
    cases run with
    | nil => cases hf
    | cons x xs =>
      cases hf
      have hm := List.mem_of_getLast? hl
      rcases List.mem_cons.mp hm with rfl | hm
      · exact h1 _ List.mem_cons_self
      · have a := h1 first List.mem_cons_self
        have b := (List.pairwise_cons.mp h2).1 _ hm
        have c := h1 last (List.mem_cons_of_mem _ hm)
        omega
  induction h with
  | nil => simp
  | @cons run d runs ds h hr ih =>
    obtain ⟨ho1, ho2⟩ := ho
    rw [List.flatten_cons] at ho1 ho2
    rw [List.pairwise_append] at ho2
    obtain ⟨ih1, ih2⟩ := ih (fun run' h => hh run' (List.mem_cons_of_mem _ h)) ⟨fun t ht => ho1 t (List.mem_append_right _ ht), ho2.2.1⟩
    obtain ⟨first, last, hf, hl, hs⟩ := h
    have hle := le_last run (fun t ht => ho1 t (List.mem_append_left _ ht)) ho2.1 first last hf hl
    constructor
    · intro x hx
      rcases List.mem_cons.mp hx with rfl | hx
      · rw [hs]
        exact ⟨rfl, hle⟩
      · exact ih1 x hx
    · refine List.pairwise_cons.mpr ⟨fun x hx => ?_, ih2⟩
      have : ∃ run ∈ runs, SpanOf source run x.span := by
        clear ih ih1 ih2 ho1 ho2 hh
        induction hr with
        | nil => cases hx
        | cons h _ ih =>
          rcases List.mem_cons.mp hx with rfl | hx
          · exact ⟨_, List.mem_cons_self, h⟩
          · obtain ⟨r, hr, h⟩ := ih hx
            exact ⟨r, List.mem_cons_of_mem _ hr, h⟩
      obtain ⟨run', hrun', first', last', hf', hl', hs'⟩ := this
      rw [hs, hs']
      have hn := hh run' (List.mem_cons_of_mem _ hrun') first' hf'
      rcases ho2.2.2 _ (List.mem_of_getLast? hl) _
        (List.mem_flatten.mpr ⟨run', hrun', List.mem_of_head? hf'⟩) with h | h
      · exact h
      · exact absurd h.1 hn

end

end Lima.Grammar
