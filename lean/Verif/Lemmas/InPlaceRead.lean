import Verif.Lemmas.InPlaceSources
import Verif.Spec.InPlace
import Verif.Spec.Display
import Verif.Props.Found

/-! An include and the text in its place: reading. -/

set_option linter.unusedSectionVars false

namespace Lima.InPlaceParse
open Lima Spec Grammar Props

theorem infix_append {x y : Token} {A B : List Token} (hA : WholeLines A) (hx : x ≠ .eol) :
    [x, y] <:+: A ++ B ↔ [x, y] <:+: A ∨ [x, y] <:+: B := by
  constructor
  · rintro ⟨p, q, h⟩
    rw [List.append_assoc] at h
    rcases List.append_eq_append_iff.mp h with ⟨w, h1, h2⟩ | ⟨w, h1, h2⟩
    · -- begins in the first
      cases w with
      | nil =>
        rw [List.nil_append] at h2
        exact .inr ⟨[], q, h2⟩
      | cons c w =>
        cases w with
        | nil =>
          cases h2
          rcases hA with hA | ⟨z, hA⟩
          · rw [hA] at h1
            simp at h1
          · rw [hA] at h1
            exact absurd (List.append_inj' h1 rfl).2 (fun e => hx (List.cons.inj e).1.symm)
        | cons d w =>
          cases h2
          exact .inl ⟨p, w, by rw [h1, List.append_assoc]; rfl⟩
    · exact .inr ⟨w, q, by rw [h2, List.append_assoc]⟩
  · rintro (⟨p, q, h⟩ | ⟨p, q, h⟩)
    · exact ⟨p, q ++ B, by rw [← h]; simp⟩
    · exact ⟨A ++ p, q, by rw [← h]; simp⟩

section
variable [Categories] {l : Logos} {tokens : Str → List Ranged} {fs fs' : FileSystem} {root : Option Path} {b : Path}
  {before line contents after name : Str}

theorem passage_whole (hl : LexedBy l tokens) {t : Str} (h : Passage l t) :
    WholeLines ((tokens t).map (·.tok)) ∧ (∀ x ∈ ((tokens t).map (·.tok)).head?, x ≠ .indent) ∧ lexText l t = some (tokens t) := by
  obtain ⟨toks, h1, h2⟩ := passage_lex h
  rw [hl _ _ h1]
  refine ⟨?_, ?_, h1⟩
  · rcases h2.ended with h | ⟨z, e, h, he⟩
    · exact .inl (by rw [h]; rfl)
    · exact .inr ⟨z.map (·.tok), by rw [h, List.map_append, List.map_singleton, he]⟩
  · intro x hx
    rw [List.head?_map] at hx
    obtain ⟨t, ht, rfl⟩ := Option.map_eq_some_iff.mp hx
    exact h2.head t ht

theorem passages_tokens (hl : LexedBy l tokens) {s t : Str} (hs : Passage l s) (ht : Passage l t) :
    (tokens (s ++ t)).map (·.tok) = (tokens s).map (·.tok) ++ (tokens t).map (·.tok) := by
  obtain ⟨c, h1, h2⟩ := passage_tokens hs ht (passage_whole hl hs).2.2 (passage_whole hl ht).2.2
  rw [hl _ _ h1]
  rw [SameTokens, List.map_append] at h2
  exact h2

variable (hl : LexedBy l tokens) (h : IncludedText l tokens fs fs' root b before line contents after name)
include hl h

theorem pBefore : Passage l before := h.passages _ (by simp)
theorem pLine : Passage l line := h.passages _ (by simp)
theorem pContents : Passage l contents := h.passages _ (by simp)
theorem pAfter : Passage l after := h.passages _ (by simp)

theorem root_tokens : (tokens (before ++ line ++ after)).map (·.tok) =
    (tokens before).map (·.tok) ++ ([.include, .stringLiteral name, .eol] ++ (tokens after).map (·.tok)) := by
  rw [passages_tokens hl (Passage.append (pBefore hl h) (pLine hl h)) (pAfter hl h), passages_tokens hl (pBefore hl h) (pLine hl h), h.lineTokens,
    List.append_assoc]

theorem root_tokens' : (tokens (before ++ contents ++ after)).map (·.tok) =
    (tokens before).map (·.tok) ++ ((tokens contents).map (·.tok) ++ (tokens after).map (·.tok)) := by
  rw [passages_tokens hl (Passage.append (pBefore hl h) (pContents hl h)) (pAfter hl h), passages_tokens hl (pBefore hl h) (pContents hl h),
    List.append_assoc]

theorem includes_root (i : Str) : Includes tokens (before ++ line ++ after) i ↔
    Includes tokens before i ∨ i = name ∨ Includes tokens after i := by
  unfold Includes
  rw [root_tokens hl h, infix_append (passage_whole hl (pBefore hl h)).1 (by simp),
    infix_append (A := [.include, .stringLiteral name, .eol]) (.inr ⟨[.include, .stringLiteral name], rfl⟩) (by simp)]
  have : [Token.include, .stringLiteral i] <:+: [.include, .stringLiteral name, .eol] ↔ i = name := by
    constructor
    · rintro ⟨p, q, e⟩
      cases p with
      | nil => cases e; rfl
      | cons a p =>
        cases p with
        | nil => cases e
        | cons a p =>
          cases p with
          | nil => cases e
          | cons a p => simp at e
    · rintro rfl
      exact ⟨[], [.eol], rfl⟩
  rw [this]

theorem includes_root' (i : Str) : Includes tokens (before ++ contents ++ after) i ↔
    Includes tokens before i ∨ Includes tokens contents i ∨ Includes tokens after i := by
  unfold Includes
  rw [root_tokens' hl h, infix_append (passage_whole hl (pBefore hl h)).1 (by simp),
    infix_append (passage_whole hl (pContents hl h)).1 (by simp)]

theorem same_resolve (i : Str) : resolveIncludedPath (some b) (Path.ofStr i) = resolveIncludedPath root (Path.ofStr i) := by
  unfold resolveIncludedPath
  rw [h.directory]
  rfl

theorem found_b : Found fs tokens root (before ++ line ++ after) (some b) contents :=
  .step .root ((includes_root hl h name).mpr (.inr (.inl rfl))) h.leads List.mem_cons_self (Ne.symm h.notRoot) h.isFile h.bText

/-- An include of the second run, in the first. -/
theorem include_back {path : Option Path} {text i : Str}
    (hf : (path = root ∧ text = before ++ contents ++ after) ∨ Found fs tokens root (before ++ line ++ after) path text)
    (hi : Includes tokens text i) : ∃ path' text', Found fs tokens root (before ++ line ++ after) path' text' ∧ Includes tokens text' i ∧
      resolveIncludedPath path' (Path.ofStr i) = resolveIncludedPath path (Path.ofStr i) := by
  rcases hf with ⟨rfl, rfl⟩ | hf
  · rcases (includes_root' hl h i).mp hi with hi | hi | hi
    · exact ⟨_, _, .root, (includes_root hl h i).mpr (.inl hi), rfl⟩
    · exact ⟨_, _, found_b hl h, hi, same_resolve hl h i⟩
    · exact ⟨_, _, .root, (includes_root hl h i).mpr (.inr (.inr hi)), rfl⟩
  · exact ⟨_, _, hf, hi, rfl⟩

theorem found_back {path : Option Path} {text : Str} (hf : Found fs' tokens root (before ++ contents ++ after) path text) :
    (path = root ∧ text = before ++ contents ++ after) ∨
      (Found fs tokens root (before ++ line ++ after) path text ∧ path ≠ some b ∧ path ≠ root) := by
  induction hf with
  | root => exact .inl ⟨rfl, rfl⟩
  | @step path text i gs q text' hf hi hg hq hr hc ht ih =>
    obtain ⟨p', t', h1, h2, h3⟩ := include_back hl h (ih.imp id (·.1)) hi
    refine .inr ⟨.step h1 h2 (by rw [h3, ← h.glob]; exact hg) hq hr (by rw [← h.canonicalize]; exact hc) (by rw [← h.read q hr]; exact ht), ?_, hr⟩
    intro e
    cases e
    exact h.once ⟨_, _, i, gs, hf, hi, hg, hq⟩

theorem ledTo_back {q : Path} (hq : LedTo fs' tokens root (before ++ contents ++ after) q) :
    LedTo fs tokens root (before ++ line ++ after) q := by
  obtain ⟨path, text, i, gs, h1, h2, h3, h4⟩ := hq
  obtain ⟨p', t', k1, k2, k3⟩ := include_back hl h ((found_back hl h h1).imp id (·.1)) h2
  exact ⟨_, _, i, gs, k1, k2, by rw [k3, ← h.glob]; exact h3, h4⟩

theorem found_forth {path : Option Path} {text : Str} (hf : Found fs tokens root (before ++ line ++ after) path text) :
    (path = root ∧ text = before ++ line ++ after) ∨ (path = some b ∧ text = contents) ∨
      (Found fs' tokens root (before ++ contents ++ after) path text ∧ path ≠ root) := by
  induction hf with
  | root => exact .inl ⟨rfl, rfl⟩
  | @step path text i gs q text' hf hi hg hq hr hc ht ih =>
    right
    have key : (path = root ∧ i = name) ∨ ∃ path' text', Found fs' tokens root (before ++ contents ++ after) path' text' ∧
        Includes tokens text' i ∧ resolveIncludedPath path' (Path.ofStr i) = resolveIncludedPath path (Path.ofStr i) := by
      rcases ih with ⟨rfl, rfl⟩ | ⟨rfl, rfl⟩ | ⟨ih, _⟩
      · rcases (includes_root hl h i).mp hi with hi | hi | hi
        · exact .inr ⟨_, _, .root, (includes_root' hl h i).mpr (.inl hi), rfl⟩
        · exact .inl ⟨rfl, hi⟩
        · exact .inr ⟨_, _, .root, (includes_root' hl h i).mpr (.inr (.inr hi)), rfl⟩
      · exact .inr ⟨_, _, .root, (includes_root' hl h i).mpr (.inr (.inl hi)), (same_resolve hl h i).symm⟩
      · exact .inr ⟨_, _, ih, hi, rfl⟩
    rcases key with ⟨rfl, rfl⟩ | ⟨p', t', h1, h2, h3⟩
    · left
      rw [h.leads] at hg
      cases hg
      simp only [List.mem_singleton, Globbed.path.injEq] at hq
      subst hq
      rw [h.bText] at ht
      cases ht
      exact ⟨rfl, rfl⟩
    · exact .inr ⟨.step h1 h2 (by rw [h3, h.glob]; exact hg) hq hr (by rw [h.canonicalize]; exact hc) (by rw [h.read q hr]; exact ht), hr⟩

theorem ledTo_forth {q : Path} (hq : LedTo fs tokens root (before ++ line ++ after) q) :
    q = b ∨ LedTo fs' tokens root (before ++ contents ++ after) q := by
  obtain ⟨path, text, i, gs, h1, hi, hg, h4⟩ := hq
  rcases found_forth hl h h1 with ⟨rfl, rfl⟩ | ⟨rfl, rfl⟩ | ⟨k, _⟩
  · rcases (includes_root hl h i).mp hi with hi | rfl | hi
    · exact .inr ⟨_, _, i, gs, .root, (includes_root' hl h i).mpr (.inl hi), by rw [h.glob]; exact hg, h4⟩
    · rw [h.leads] at hg
      cases hg
      simp only [List.mem_singleton, Globbed.path.injEq] at h4
      exact .inl h4
    · exact .inr ⟨_, _, i, gs, .root, (includes_root' hl h i).mpr (.inr (.inr hi)), by rw [h.glob]; exact hg, h4⟩
  · exact .inr ⟨_, _, i, gs, .root, (includes_root' hl h i).mpr (.inr (.inl hi)), by rw [h.glob, ← same_resolve hl h]; exact hg, h4⟩
  · exact .inr ⟨_, _, i, gs, k, hi, by rw [h.glob]; exact hg, h4⟩

theorem names' : OneName fs' tokens root (before ++ contents ++ after) := by
  intro q q' c hq hq' hc hc'
  rw [h.canonicalize] at hc hc'
  exact h.names q q' c (hq.imp (ledTo_back hl h) id) (hq'.imp (ledTo_back hl h) id) hc hc'

theorem noErrors' : NoGlobErrors fs' := by
  rintro p m ⟨g, gs, h1, h2⟩
  rw [h.glob] at h1
  exact h.noErrors p m ⟨g, gs, h1, h2⟩

/-- Both runs have read what `Split` says. -/
theorem split_of_read (hwf : GlobsWF fs) (ho : OptionsFirst tokens fs root (before ++ line ++ after) after) {s s' : Sources}
    (hs : ReadInSomeOrder fs tokens root (before ++ line ++ after) s)
    (hs' : ReadInSomeOrder fs' tokens root (before ++ contents ++ after) s') :
    Split tokens fs.canonicalize s s' b ((tokens before).map (·.tok)) ((tokens contents).map (·.tok)) ((tokens after).map (·.tok)) name := by
  have hwf' : GlobsWF fs' := fun p gs hg => hwf p gs (by rw [← h.glob]; exact hg)
  have c1 : Complete tokens s := by
    obtain ⟨c, hc, rfl⟩ := hs
    exact (read_complete hwf).perm hc
  have c2 : Complete tokens s' := by
    obtain ⟨c, hc, rfl⟩ := hs'
    exact (read_complete hwf').perm hc
  have r1 : s.rootPath = root ∧ s.rootContent = before ++ line ++ after := by
    obtain ⟨c, hc, rfl⟩ := hs
    exact ⟨rfl, rfl⟩
  have r2 : s'.rootPath = root ∧ s'.rootContent = before ++ contents ++ after := by
    obtain ⟨c, hc, rfl⟩ := hs'
    exact ⟨rfl, rfl⟩
  have f1 := C60_files_found hwf h.names h.noErrors hs
  have f2 := C60_files_found hwf' (names' hl h) (noErrors' hl h) hs'
  have e2 : ∀ e ∈ s'.contentIter, Found fs' tokens root (before ++ contents ++ after) e.2.1 e.2.2 := fun e he =>
    (f2 _ _).mp ⟨e.1, mem_contentIter.mp he⟩
  have glob1 : ∀ e ∈ s'.contentIter, ∀ i, HasInclude tokens e.2.2 i →
      AMap.get s.globs (resolveIncludedPath e.2.1 (Path.ofStr i)) =
      some (match fs.glob (resolveIncludedPath e.2.1 (Path.ofStr i)) with
        | .ok gs => .expanded (gs.map Globbed.thePath)
        | .error e => .error e) := by
    intro e he i hi
    obtain ⟨p', t', k1, k2, k3⟩ := include_back hl h ((found_back hl h (e2 e he)).imp id (·.1)) hi
    rw [← k3]
    exact C60_includes_found hwf h.names h.noErrors hs k1 k2
  constructor
  · exact c1
  · exact c2
  · rw [r1.2]
    exact root_tokens hl h
  · rw [r2.2]
    exact root_tokens' hl h
  · exact (passage_whole hl (pBefore hl h)).1
  · exact (passage_whole hl (pContents hl h)).1
  · exact (passage_whole hl (pContents hl h)).2.1
  · exact (passage_whole hl (pAfter hl h)).2.1
  · obtain ⟨id, hid⟩ := (f1 _ _).mpr (found_b hl h)
    exact ⟨id, contents, hid, rfl⟩
  · rw [r1.1, r2.1]
  · rw [r1.1]
    exact h.notRoot
  · rw [r1.1]
    exact h.directory
  · intro id text hi
    rcases found_back hl h ((f2 _ _).mp ⟨id, hi⟩) with ⟨k, _⟩ | ⟨_, k, _⟩
    · exact h.notRoot k.symm
    · exact k rfl
  · intro p text hp hr
    rw [r1.1] at hr
    rw [f1, f2]
    constructor
    · intro k
      rcases found_back hl h k with ⟨k, _⟩ | ⟨k, _⟩
      · exact absurd k hr
      · exact k
    · intro k
      rcases found_forth hl h k with ⟨k, _⟩ | ⟨k, _⟩ | ⟨k, _⟩
      · exact absurd k hr
      · exact absurd (Option.some.inj k) hp
      · exact k
  · intro k
    exact ho.1 (SetsParserOption.same (by unfold SameTokens; rw [place_toks]) k)
  · intro e he
    obtain ⟨p, hp⟩ := tail_some he
    have h1 := (f1 _ _).mp ⟨e.1, mem_contentIter.mp (tail_mem he)⟩
    have h2 := tail_path c1 he
    rw [hp] at h1 h2
    rw [r1.1] at h2
    exact ho.2 p _ h2 h1
  · rw [r1.1, C60_includes_found hwf h.names h.noErrors hs .root ((includes_root hl h name).mpr (.inr (.inl rfl))), h.leads]
    rfl
  · intro e he i hi
    rw [glob1 e he i hi, C60_includes_found hwf' (names' hl h) (noErrors' hl h) hs' (e2 e he) hi, h.glob]
    rfl
  · intro e he i hi q hq
    unfold expansion at hq
    rw [glob1 e he i hi] at hq
    cases hg : fs.glob (resolveIncludedPath e.2.1 (Path.ofStr i)) with
    | error m =>
      rw [hg] at hq
      cases hq
    | ok gs =>
      rw [hg] at hq
      obtain ⟨x, hx, rfl⟩ := List.mem_map.mp hq
      cases x with
      | error p m => exact absurd ⟨_, gs, hg, hx⟩ (h.noErrors p m)
      | path q =>
        have lq : LedTo fs' tokens root (before ++ contents ++ after) q := ⟨_, _, i, gs, e2 e he, hi, by rw [h.glob]; exact hg, hx⟩
        have hqb : q ≠ b := by
          rintro rfl
          exact h.once lq
        refine ⟨hqb, fun x hx1 hx2 => hqb ?_⟩
        exact h.names q b x (.inl (ledTo_back hl h lq))
          (.inl ⟨_, _, name, _, .root, (includes_root hl h name).mpr (.inr (.inl rfl)), h.leads, List.mem_cons_self⟩) hx2 hx1
  · intro p
    have key : ∀ q m, AMap.get s'.errorPaths (some q) = some m ↔ AMap.get s.errorPaths (some q) = some m := by
      intro q m
      rw [C60_unreadable_found hwf h.names h.noErrors hs, C60_unreadable_found hwf' (names' hl h) (noErrors' hl h) hs', h.canonicalize]
      constructor
      · rintro ⟨k1, k2, k3, e, k4, k5⟩
        exact ⟨ledTo_back hl h k1, k2, k3, e, by rw [← h.read q k2]; exact k4, k5⟩
      · rintro ⟨k1, k2, k3, e, k4, k5⟩
        rcases ledTo_forth hl h k1 with rfl | k1
        · rw [h.bText] at k4
          cases k4
        · exact ⟨k1, k2, k3, e, by rw [h.read q k2]; exact k4, k5⟩
    have none_none : ∀ s : Sources, AMap.get s.errorPaths none = none := by
      intro s
      refine get_not_mem ?_
      intro hm
      obtain ⟨e, he, h0⟩ := List.mem_map.mp hm
      unfold Sources.errorPaths at he
      obtain ⟨⟨p, x⟩, _, hx⟩ := List.mem_filterMap.mp he
      cases x with
      | error m => cases hx; cases h0
      | content _ _ _ => cases hx
      | duplicate => cases hx
    cases p with
    | none => rw [none_none, none_none]
    | some q =>
      cases hx : AMap.get s.errorPaths (some q) with
      | some m => exact (key q m).mpr hx
      | none =>
        cases hy : AMap.get s'.errorPaths (some q) with
        | none => rfl
        | some m =>
          rw [(key q m).mp hy] at hx
          cases hx

end

end Lima.InPlaceParse
