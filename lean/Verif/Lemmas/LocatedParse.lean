import Verif.Lemmas.LocatedPragma
import Verif.Lemmas.WholeParse
import Verif.Lemmas.Sort
import Verif.Lemmas.LexText
import Mathlib.Tactic.ByContra

/-! The locations of a whole parse. -/

set_option linter.unusedSectionVars false

namespace Lima

open Spec Grammar

/-! ### Tokens and texts -/

theorem run_bounds {run : List Ranged} (ho : Ordered run) {first last t : Ranged} (hf : run.head? = some first)
    (hl : run.getLast? = some last) (ht : t ∈ run) :
    first.start ≤ t.start ∧ t.start ≤ t.stop ∧ t.stop ≤ last.stop := by
  have h1 := ho.1 t ht
  refine ⟨?_, h1, ?_⟩
  · cases run with
    | nil => cases ht
    | cons a run =>
      obtain rfl : a = first := by simpa using hf
      rcases List.mem_cons.mp ht with rfl | ht
      · exact Nat.le_refl _
      · have h2 := ho.1 a List.mem_cons_self
        rcases (List.pairwise_cons.mp ho.2).1 t ht with h | h <;> omega
  · obtain ⟨pre, rfl⟩ := List.getLast?_eq_some_iff.mp hl
    rcases List.mem_append.mp ht with ht | ht
    · have h2 := ho.1 last (by simp)
      rcases (List.pairwise_append.mp ho.2).2.2 t ht last (by simp) with h | h <;> omega
    · rw [List.mem_singleton.mp ht]

theorem ordered_run {before run after : List Ranged} (ho : Ordered (before ++ run ++ after)) : Ordered run := by
  refine ⟨fun t ht => ho.1 t (by simp [ht]), ?_⟩
  exact (List.pairwise_append.mp (List.pairwise_append.mp ho.2).1).2.1

/-- Between two boundaries there is text. -/
theorem boundary_slice {s : Str} {a b : Nat} (ha : Boundary s a) (hb : Boundary s b) (h : a ≤ b) :
    ∃ text, slice s a b = some text := by
  obtain ⟨p, q, e1, e2⟩ := ha
  obtain ⟨p', q', e3, e4⟩ := hb
  obtain ⟨m, hm⟩ : ∃ m, p' = p ++ m := by
    rw [e1] at e3
    rcases List.append_eq_append_iff.mp e3 with ⟨m, h, _⟩ | ⟨m, h, _⟩
    · exact ⟨m, h⟩
    · rw [h, byteLen_append] at e2
      have : byteLen m = 0 := by omega
      have : m = [] := by
        by_contra hne
        have := byteLen_pos hne
        omega
      subst this
      exact ⟨[], by rw [h]; simp⟩
  refine ⟨m, (slice_iff _ _ _ _).mpr ⟨p, q', by rw [e3, hm], e2, ?_⟩⟩
  rw [← e4, hm, byteLen_append]

/-- A part of a part. -/
theorem slice_within {s part piece : Str} {a b a' b' : Nat} (h : slice s a b = some part) (h' : slice s a' b' = some piece)
    (h1 : a ≤ a') (h2 : b' ≤ b) : ∃ before after, part = before ++ piece ++ after := by
  obtain ⟨p, r, e1, e2, e3⟩ := (slice_iff _ _ _ _).mp h
  obtain ⟨p', r', e4, e5, e6⟩ := (slice_iff _ _ _ _).mp h'
  obtain ⟨m, hm⟩ := boundary_slice (s := s) (a := a) (b := a') ⟨p, part ++ r, by simp [e1], e2⟩
    ⟨p', piece ++ r', by simp [e4], e5⟩ h1
  obtain ⟨n, hn⟩ := boundary_slice (s := s) (a := b') (b := b) ⟨p' ++ piece, r', by simp [e4], by simp [byteLen_append, e6]⟩
    ⟨p ++ part, r, by simp [e1], by simp [byteLen_append, e3]⟩ h2
  obtain ⟨q1, r1, f1, f2, f3⟩ := (slice_iff _ _ _ _).mp hm
  obtain ⟨q2, r2, f4, f5, f6⟩ := (slice_iff _ _ _ _).mp hn
  refine ⟨m, n, ?_⟩
  have key : slice s a b = some (m ++ piece ++ n) := by
    have inj : ∀ {x y x' y' : Str}, s = x ++ y → s = x' ++ y' → byteLen x = byteLen x' → x = x' ∧ y = y' := by
      intro x y x' y' h1 h2 h3
      have : x = x' := by
        rw [h1] at h2
        rcases List.append_eq_append_iff.mp h2 with ⟨m, h, _⟩ | ⟨m, h, _⟩
        · rw [h, byteLen_append] at h3
          have : m = [] := by
            by_contra hne
            have := byteLen_pos hne
            omega
          rw [h, this]; simp
        · rw [h, byteLen_append] at h3
          have : m = [] := by
            by_contra hne
            have := byteLen_pos hne
            omega
          rw [h, this]; simp
      subst this
      exact ⟨rfl, List.append_cancel_left (h1 ▸ h2)⟩
    have g1 := inj (x := q1 ++ m) (y := r1) (x' := p') (y' := piece ++ r') f1 (by simp [e4]) (by
      rw [byteLen_append]; omega)
    have g2 := inj (x := q2) (y := n ++ r2) (x' := p' ++ piece) (y' := r') (by simp [f4]) e4 (by
      rw [byteLen_append]; omega)
    refine (slice_iff _ _ _ _).mpr ⟨q1, r2, ?_, f2, ?_⟩
    · rw [f4, g2.1, ← g1.1]
      simp
    · have := congrArg byteLen g1.1
      have := congrArg byteLen g2.1
      simp only [byteLen_append] at *
      omega
  rw [h] at key
  exact Option.some.inj key

/-! ### Whole parses -/

section
variable [Unicode] [DecOps] {env : ParseEnv} {s : Sources}

omit [Unicode] [DecOps] in
theorem LocatedInSources.forget {x : Location} (h : LocatedInSources env s x) :
    LocatedInSources env s ⟨x.span, x.mayBeBlank, none⟩ := by
  obtain ⟨id, path, text, h1, h2⟩ := h
  exact ⟨id, path, text, h1, LocatedIn_forget h2⟩

theorem inOrder_located {o o' : ParserOptions} {es : List (Nat × Option Path × Str)} {rs : List FileResult}
    (h : InOrder env o es rs o') (hes : ∀ e ∈ es, IsSource s e.1 e.2.1 e.2.2)
    (ho : ∀ x ∈ Locations.parserOptions o, LocatedInSources env s x) :
    (∀ x ∈ Locations.parserOptions o', LocatedInSources env s x) ∧
    (∀ res ∈ rs, ∀ w ∈ res.warns, ∀ x ∈ Locations.report w, LocatedInSources env s x) := by
  induction h with
  | nil => exact ⟨ho, by simp⟩
  | cons o o' id path text res es rs h t ih =>
    obtain ⟨_, _, k3, ws, k4, k5⟩ := parseFile_located h
    have hsrc := hes _ List.mem_cons_self
    have hl : ∀ x, x ∈ Locations.parserOptions o ∨ LocatedIn (env.cfg id path) (env.tokens text) [] x →
        LocatedInSources env s x := by
      rintro x (h | h)
      · exact ho x h
      · exact ⟨id, path, text, hsrc, h⟩
    obtain ⟨m1, m2⟩ := ih (fun e he => hes e (List.mem_cons_of_mem _ he)) fun x hx => hl x (k3 x hx)
    refine ⟨m1, ?_⟩
    intro res' hr w hw x hx
    rcases List.mem_cons.mp hr with rfl | hr
    · rw [k4, List.nil_append] at hw
      exact hl x (k5 w hw x hx)
    · exact m2 res' hr w hw x hx

theorem declaredIn_located {cfg : ParseCfg} {toks : List Ranged} {d : Spanned Declaration} (h : DeclaredIn cfg toks d) :
    LocatedIn cfg toks [] (here d) ∧ ∀ x ∈ Locations.declaration d.item, LocatedIn cfg toks [] x := by
  obtain ⟨before, run, after, rfl, h1, h2⟩ := h
  refine ⟨.inl ⟨before, run, after, by simp, h1, by simp [here]⟩, fun x hx => ?_⟩
  exact LocatedIn_mono (h2 x hx) ⟨before, by simp⟩ List.nil_suffix

theorem outputs_located {o o' : ParserOptions} {rs : List FileResult} (h : InOrder env o s.contentIter rs o') :
    ∀ e ∈ outputsOf s.contentIter rs, DeclarationsLocated (LocatedInSources env s) e.2 := by
  intro e he
  obtain ⟨⟨⟨id, path, text⟩, res⟩, hm, rfl⟩ := List.mem_map.mp he
  obtain ⟨h1, o1, h2⟩ := inOrder_mem h hm
  intro d hd
  simp only at hd
  cases hr : res.declarations with
  | none => rw [hr] at hd; cases hd
  | some ds =>
    rw [hr] at hd
    have hD := (parseFile_located h2).1 ds hr d hd
    have hs := mem_contentIter.mp h1
    exact ⟨⟨id, path, text, hs, (declaredIn_located hD).1⟩, fun x hx => ⟨id, path, text, hs, (declaredIn_located hD).2 x hx⟩⟩

theorem faults_located {o o' : ParserOptions} {rs : List FileResult} (h : InOrder env o s.contentIter rs o') :
    ∀ f ∈ faultsOf s.contentIter rs, ∃ id e path text, f = .parsing id e ∧ IsSource s id path text ∧
      ∀ x ∈ Locations.parserError e, LocatedIn (env.cfg id path) (env.tokens text) [] x := by
  intro f hf
  obtain ⟨⟨⟨id, path, text⟩, res⟩, hm, hf⟩ := List.mem_flatMap.mp hf
  obtain ⟨e, he, rfl⟩ := List.mem_map.mp hf
  obtain ⟨h1, o1, h2⟩ := inOrder_mem h hm
  exact ⟨id, e, path, text, rfl, mem_contentIter.mp h1, (parseFile_located h2).2.1 e he⟩

end

end Lima
