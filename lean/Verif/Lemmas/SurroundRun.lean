import Verif.Lemmas.SurroundText
import Verif.Lemmas.SurroundTag
import Verif.Props.InPlace

/-! A passage between two pragmas: runs. -/

set_option linter.unusedSectionVars false

namespace Lima.Surround
open Lima Spec Grammar Props InPlaceParse Revise

section
variable [Categories] {l : Logos} {tokens : Str → List Ranged}

theorem lexText_sound {s : Str} {toks : List Ranged} (h : lexText l s = some toks) : Sound toks := by
  obtain ⟨raw, h1, h2, rfl⟩ := lexText_spec h
  have hh := handleEolIndent_handled h1 h2
  generalize handleEolIndent raw _ = toks at hh
  constructor
  · intro t ht hd
    rcases hh.mem t ht with h | h | h
    · exact (h1 t h).1
    · rw [h] at hd; cases hd
    · rw [h] at hd; cases hd
  · have order := hh.order
    rw [List.pairwise_iff_getElem] at order ⊢
    intro i j hi hj hij
    have := (hh.bounds toks[j] (List.getElem_mem hj)).2.1
    rcases order i j hi hj hij with h | h
    · omega
    · exact h.2.2

variable {pts qts : List Token} {before push passage pop after : Str}

theorem between_includes (hl : LexedBy l tokens) (h : Between l tokens pts qts before push passage pop after) (h1 : .include ∉ pts) (h2 : .include ∉ qts)
    (t t' : Str) (ht : Surrounded before push passage pop after t t') : getIncludes tokens t' = getIncludes tokens t := by
  rcases ht with rfl | ⟨rfl, rfl⟩
  · rfl
  · obtain ⟨hp, e1, e2, hn⟩ := h
    have pb := hp before (by simp)
    have pp := hp push (by simp)
    have pu := hp passage (by simp)
    have pq := hp pop (by simp)
    have pa := hp after (by simp)
    unfold getIncludes
    rw [passages_tokens hl (Passage.append (Passage.append (Passage.append pb pp) pu) pq) pa, passages_tokens hl (Passage.append (Passage.append pb pp) pu) pq,
      passages_tokens hl (Passage.append pb pp) pu, passages_tokens hl pb pp, passages_tokens hl (Passage.append pb pu) pa, passages_tokens hl pb pu,
      List.append_assoc, List.append_assoc, List.append_assoc, List.append_assoc, includes_append (passage_whole hl pb).1, includes_append (passage_whole hl pp).1,
      includes_append (passage_whole hl pu).1, includes_append (passage_whole hl pq).1, includes_append (passage_whole hl pb).1, includes_append (passage_whole hl pu).1,
      e1, e2, includes_none h1, includes_none h2]
    rfl

theorem between_lexed (hl : LexedBy l tokens) (h : Between l tokens pts qts before push passage pop after)
    {t t' : Str} (ht : Surrounded before push passage pop after t t') : lexText l t ≠ none ↔ lexText l t' ≠ none := by
  rcases ht with rfl | ⟨rfl, rfl⟩
  · rfl
  · have hp := h.passages
    have pb := hp before (by simp)
    have pp := hp push (by simp)
    have pu := hp passage (by simp)
    have pq := hp pop (by simp)
    have pa := hp after (by simp)
    exact ⟨fun _ => lexed_passage hl (Passage.append (Passage.append (Passage.append (Passage.append pb pp) pu) pq) pa),
      fun _ => lexed_passage hl (Passage.append (Passage.append pb pu) pa)⟩

theorem between_texts (hl : LexedBy l tokens) (h : Between l tokens pts qts before push passage pop after)
    {reg : Nat → Option (Nat × Nat)} {id : Nat} (hr : reg id = some (byteLen before, byteLen (before ++ passage))) :
    Texts pts qts reg id (tokens (before ++ passage ++ after)) (toks (tokens (before ++ push ++ passage ++ pop ++ after))) := by
  obtain ⟨hp, e1, e2, hn⟩ := h
  have pb := hp before (by simp)
  have pp := hp push (by simp)
  have pu := hp passage (by simp)
  have pq := hp pop (by simp)
  have pa := hp after (by simp)
  have hF := (passage_whole hl (Passage.append (Passage.append pb pu) pa)).2.2
  obtain ⟨r1, r2⟩ := passage_region (Passage.append pb pu) pa (passage_whole hl (Passage.append pb pu)).2.2 hF
  obtain ⟨r3, r4⟩ := passage_region pb (Passage.append pu pa) (passage_whole hl pb).2.2 (F := tokens (before ++ passage ++ after))
    (by rw [← List.append_assoc]; exact hF)
  have ht : toks (tokens (before ++ passage ++ after)) = toks (tokens before) ++ (toks (tokens passage) ++ toks (tokens after)) := by
    rw [toks, passages_tokens hl (Passage.append pb pu) pa, passages_tokens hl pb pu, List.append_assoc]
  have hlen : (tokens (before ++ passage)).length = (tokens before).length + (tokens passage).length := by
    have := congrArg List.length (passages_tokens hl pb pu)
    simpa using this
  obtain ⟨a, x, hx, ha, hx'⟩ := List.map_eq_append_iff.mp ht
  obtain ⟨u, c, rfl, hu, hc⟩ := List.map_eq_append_iff.mp hx'
  have la : a.length = (tokens before).length := by simpa using congrArg List.length ha
  have lu : u.length = (tokens passage).length := by simpa using congrArg List.length hu
  rw [hx] at r1 r2 r3 r4
  rw [← la, List.take_left] at r3
  rw [← la, List.drop_left] at r4
  have lau : (tokens (before ++ passage)).length = (a ++ u).length := by rw [hlen, List.length_append, la, lu]
  rw [lau, ← List.append_assoc, List.take_left] at r1
  rw [lau, ← List.append_assoc, List.drop_left] at r2
  refine .inr ⟨_, _, hr, a, u, c, hx, ?_, ended_of ?_, ended_of ?_, begun_of ?_, begun_of ?_, ?_, r3, ?_, r2⟩
  · rw [toks, passages_tokens hl (Passage.append (Passage.append (Passage.append pb pp) pu) pq) pa, passages_tokens hl (Passage.append (Passage.append pb pp) pu) pq,
      passages_tokens hl (Passage.append pb pp) pu, passages_tokens hl pb pp, e1, e2]
    simp only [toks, List.append_assoc]
    rw [ha, hu, hc]
  · rw [toks, ha]; exact (passage_whole hl pb).1
  · rw [toks, hu]; exact (passage_whole hl pu).1
  · rw [toks, hu]; exact (passage_whole hl pu).2.1
  · rw [toks, hc]; exact (passage_whole hl pa).2.1
  · rw [toks, hu]; exact hn
  · intro t ht hd
    exact ⟨r4 t (List.mem_append_left _ ht) hd, r1 t (List.mem_append_right _ ht) hd⟩

variable [Unicode] [DecOps] {B : Bracketed.Pair} {quiet : Prop} {env : ParseEnv} {fs fs' : FileSystem} {root : Option Path} {text text' : Str}
  {s s' : Lima.Sources}

/-- Where the passage is. -/
noncomputable def region (s s' : Lima.Sources) (before push passage pop after : Str) (id : Nat) : Option (Nat × Nat) :=
  open Classical in
  if ∃ path, IsSource s id path (before ++ passage ++ after) ∧ IsSource s' id path (before ++ push ++ passage ++ pop ++ after) then
    some (byteLen before, byteLen (before ++ passage))
  else none

theorem within_region (sp : Span) : Within (region s s' before push passage pop after) sp ↔ InPassage s s' before push passage pop after sp := by
  unfold Within InPassage region
  constructor
  · rintro ⟨n, m, h, h1, h2⟩
    split at h
    · rename_i hc
      cases h
      exact ⟨hc, h1, h2⟩
    · cases h
  · rintro ⟨hc, h1, h2⟩
    exact ⟨_, _, if_pos hc, h1, h2⟩

/-- A run on the files, and on the files with a passage between two lines. -/
theorem surround_run (hwf : GlobsWF fs) (hlex : LexedBy l env.tokens) (hx : SameEnv env env)
    (hb : Between l env.tokens pts qts before push passage pop after) (i1 : .include ∉ pts) (i2 : .include ∉ qts)
    (hp : Line env.decimal quiet B.push pts) (hq : Line env.decimal quiet B.pop qts)
    (hfs : FilesLike (Surrounded before push passage pop after) fs fs') (ht : Surrounded before push passage pop after text text')
    (hs : ReadInSomeOrder fs env.tokens root text s) (hs' : ReadInSomeOrder fs' env.tokens root text' s') (hv : SameVisits s s')
    (fine : ∀ e ∈ s.contentIter, ∀ o ds o' ws, FileP (cfgAt env.decimal e.1 e.2.1) o (env.tokens e.2.2) ds o' [] ws →
      ∀ d ∈ ds, ∀ z, d.item = .pragma z → B.fine z) :
    (∃ r r', parseTexts l env s = .ok r ∧ parseTexts l env s' = .ok r' ∧ Like B quiet (InPassage s s' before push passage pop after) r r') ∨
    ((∀ r, parseTexts l env s ≠ .ok r) ∧ ∀ r, parseTexts l env s' ≠ .ok r) := by
  have hwf' : GlobsWF fs' := fun p gs hg => hwf p gs (by rw [← hfs.glob]; exact hg)
  have like := Revise.read_alike (between_includes hlex hb i1 i2) hwf' hfs ht hs hs' hv
  obtain ⟨h1, h2⟩ := Revise.content_like like
  have c1 : Complete env.tokens s := by
    obtain ⟨c, hc, rfl⟩ := hs
    exact (read_complete hwf).perm hc
  have c2 : Complete env.tokens s' := by
    obtain ⟨c, hc, rfl⟩ := hs'
    exact (read_complete hwf').perm hc
  by_cases hl : ∀ e ∈ s.contentIter, lexText l e.2.2 ≠ none
  · have hl' : ∀ e ∈ s'.contentIter, lexText l e.2.2 ≠ none := by
      intro e' he'
      obtain ⟨e, he, _, _, hh⟩ := InPlaceParse.forall₂_right h1 e' he'
      exact (between_lexed hlex hb hh).mp (hl e he)
    have apart : ∀ {s : Lima.Sources}, (∀ e ∈ s.contentIter, lexText l e.2.2 ≠ none) →
        ∀ id path text, IsSource s id path text → KeysApart (env.tokens text) := by
      intro s hl id path text hi
      obtain ⟨toks, ht⟩ := Option.ne_none_iff_exists'.mp (hl _ (mem_contentIter.mpr hi))
      rw [hlex _ _ ht]
      exact Layout.lexText_apart ht
    rw [parseTexts_eq hl, parseTexts_eq hl']
    have hin : Within (region s s' before push passage pop after) = InPassage s s' before push passage pop after := funext fun sp => propext (within_region sp)
    rw [← hin]
    refine surround_parse hx c1 c2 (apart hl) (apart hl') ?_ like.rootPath like.globs h2 hp hq ?_ fine
    · intro e he
      obtain ⟨toks, ht⟩ := Option.ne_none_iff_exists'.mp (hl _ he)
      rw [hlex _ _ ht]
      exact lexText_sound ht
    · have key : ∀ {L L' : List (Nat × Option Path × Str)}, (∀ e ∈ L, e ∈ s.contentIter) → (∀ e ∈ L', e ∈ s'.contentIter) →
          List.Forall₂ (fun e e' : Nat × Option Path × Str => e'.1 = e.1 ∧ e'.2.1 = e.2.1 ∧ Surrounded before push passage pop after e.2.2 e'.2.2) L L' →
          List.Forall₂ (fun e e' : Nat × Option Path × Str => e'.1 = e.1 ∧ e'.2.1 = e.2.1 ∧
            Texts pts qts (region s s' before push passage pop after) e.1 (env.tokens e.2.2) (toks (env.tokens e'.2.2))) L L' := by
        intro L L' hL hL' hh
        induction hh with
        | nil => exact .nil
        | @cons e e' L L' h _ ih =>
          refine .cons ⟨h.1, h.2.1, ?_⟩ (ih (fun x hx => hL x (List.mem_cons_of_mem _ hx)) fun x hx => hL' x (List.mem_cons_of_mem _ hx))
          have m := hL e (by simp)
          have m' := hL' e' (by simp)
          by_cases hc : ∃ path, IsSource s e.1 path (before ++ passage ++ after) ∧ IsSource s' e.1 path (before ++ push ++ passage ++ pop ++ after)
          · have hreg : region s s' before push passage pop after e.1 = some (byteLen before, byteLen (before ++ passage)) := by
              unfold region
              exact if_pos hc
            obtain ⟨path, k1, k2⟩ := hc
            have t1 := same_id c1 m (mem_contentIter.mpr k1) rfl
            have t2 := same_id c2 m' (mem_contentIter.mpr k2) h.1
            have t1 : e.2.2 = _ := congrArg (·.2.2) t1
            have t2 : e'.2.2 = _ := congrArg (·.2.2) t2
            rw [t1, t2]
            exact between_texts hlex hb hreg
          · refine .inl ⟨?_, ?_⟩
            · unfold region
              exact if_neg hc
            · rcases h.2.2 with h' | ⟨h1, h2⟩
              · rw [h']
              · refine absurd ⟨e.2.1, ?_, ?_⟩ hc
                · rw [← h1]; exact mem_contentIter.mp m
                · rw [← h2, ← h.1, ← h.2.1]; exact mem_contentIter.mp m'
      exact key (fun _ h => h) (fun _ h => h) h1
  · right
    have panics : ∀ {s : Lima.Sources}, (¬ ∀ e ∈ s.contentIter, lexText l e.2.2 ≠ none) → parseTexts l env s = .panic := by
      intro s hl
      unfold parseTexts
      rw [if_pos]
      push Not at hl
      obtain ⟨e, he, hn⟩ := hl
      exact List.any_eq_true.mpr ⟨e, he, by rw [hn]; rfl⟩
    rw [panics hl, panics (s := s') ?_]
    · exact ⟨fun _ h => (by cases h), fun _ h => (by cases h)⟩
    · intro hl'
      apply hl
      intro e he
      obtain ⟨e', he', _, _, hh⟩ := forall₂_left h1 e he
      exact (between_lexed hlex hb hh).mpr (hl' e' he')

/-- The files of one run can be read for the other. -/
theorem surround_read (hlex : LexedBy l env.tokens)
    (hb : Between l env.tokens pts qts before push passage pop after) (i1 : .include ∉ pts) (i2 : .include ∉ qts)
    (hfs : FilesLike (Surrounded before push passage pop after) fs fs') (ht : Surrounded before push passage pop after text text')
    (hs : ReadInSomeOrder fs env.tokens root text s) : ∃ s', ReadInSomeOrder fs' env.tokens root text' s' ∧ SameVisits s s' := by
  obtain ⟨s', h1, h2⟩ := Revise.readInSomeOrder_like (between_includes hlex hb i1 i2) hfs ht hs
  refine ⟨s', h1, ?_⟩
  have := h2.content
  unfold SameVisits
  generalize s.content = c at this
  generalize s'.content = c' at this
  induction this with
  | nil => rfl
  | cons h _ ih => rw [List.map_cons, List.map_cons, h.1, ih]

/-! ### Lines with a tag -/

theorem tag_line {decimal : Str → Except LexerError Dec} {k : Token} {good : Pragma → Prop} {mk : Spanned Str → Pragma} {t : Str}
    (hk : k ≠ .indent) (ht : ∀ c ∈ t, TagChar c)
    (hgood : ∀ g : Spanned Str, g.item = t → good (mk g))
    (hmk : ∀ {cfg : ParseCfg} {o : ParserOptions} {i r : List Ranged} {g : Spanned Str}, At cfg (KeywordP k TagP) i r g → PragmaP cfg o i r (mk g) o [])
    (hlong : ∀ s, k ≠ .stringLiteral s) : Line decimal True good [k, .tag t, .eol] := by
  refine ⟨.inr ⟨[k, .tag t], rfl⟩, ?_, ?_⟩
  · intro x hx
    cases hx
    exact hk
  · intro P hP id path o
    obtain ⟨a, P, rfl, ha, hP⟩ := List.map_eq_cons_iff.mp hP
    obtain ⟨b, P, rfl, hb, hP⟩ := List.map_eq_cons_iff.mp hP
    obtain ⟨c, P, rfl, hc, hP⟩ := List.map_eq_cons_iff.mp hP
    rw [List.map_eq_nil_iff] at hP
    subst hP
    obtain ⟨ka, a1, a2⟩ := a
    obtain ⟨kb, b1, b2⟩ := b
    obtain ⟨kc, c1, c2⟩ := c
    dsimp only at ha hb hc
    subst ha hb hc
    refine ⟨⟨.pragma (mk ⟨t, ⟨id, a1, b2⟩⟩), ⟨id, a1, c2⟩⟩, _, longStrings (cfgAt decimal id path) o [⟨ka, a1, a2⟩, ⟨.tag t, b1, b2⟩, ⟨.eol, c1, c2⟩] ++ [], ?_, rfl, hgood _ rfl, ?_⟩
    · refine FileP.cons (run := [⟨ka, a1, a2⟩, ⟨.tag t, b1, b2⟩, ⟨.eol, c1, c2⟩]) (r := []) (es := []) (es' := []) (ws' := [])
        (o' := o) (.pragma (hmk (g := ⟨t, ⟨id, a1, b2⟩⟩) ⟨⟨_, ⟨_, _, rfl⟩, ⟨_, _, rfl⟩, ht⟩,
            .inl ⟨⟨ka, a1, a2⟩, [⟨ka, a1, a2⟩, ⟨.tag t, b1, b2⟩], _, rfl, rfl, rfl, rfl⟩⟩)
          (.inl ⟨_, _, rfl⟩) (.inl ⟨_, _, _, rfl, rfl, rfl, rfl⟩)) .nil
    · intro _
      rw [List.append_nil]
      unfold longStrings
      cases ka <;> first | rfl | exact absurd rfl (hlong _)

end

end Lima.Surround
