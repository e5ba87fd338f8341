import Verif.Lemmas.ReviseText

/-! Directives written at the end of the root. -/

set_option linter.unusedSectionVars false

namespace Lima.Append
open Lima Spec Grammar Props InPlaceParse Revise

/-! ### The pragma processor -/

/-- A directive, as a declaration. -/
def decl (d : Spanned Directive) : Spanned Declaration := ⟨.directive d.item, d.span⟩

theorem decls_of {P : Directive → Prop} : ∀ {u : List (Spanned Declaration)}, Only P u → ∃ X : List (Spanned Directive), u = X.map decl
  | [], _ => ⟨[], rfl⟩
  | d :: u, h => by
    obtain ⟨X, rfl⟩ := decls_of (u := u) fun d hd => h d (List.mem_cons_of_mem _ hd)
    obtain ⟨x, hx, _⟩ := h d (by simp)
    obtain ⟨i, s⟩ := d
    dsimp only at hx
    subst hx
    exact ⟨⟨x, s⟩ :: X, rfl⟩

/-- The second state has some more declarations at the end of the root. -/
structure AtEnd (Y : List (Spanned Declaration)) (st st' : PragmaState) : Prop where
  path : st'.currentPath = st.currentPath
  remaining : st'.remaining = st.remaining
  data : st'.data = st.data
  frames : (st.stacked = [] ∧ st'.stacked = [] ∧ st'.current = st.current ++ Y) ∨
    ∃ k p l, st.stacked = k ++ [(p, l)] ∧ st'.stacked = k ++ [(p, l ++ Y)] ∧ st'.current = st.current

variable {Y : List (Spanned Declaration)}

theorem AtEnd.includeOne {env : PragmaEnv} {st st' : PragmaState} (h : AtEnd Y st st') (span : Span) (p : Path) :
    AtEnd Y (st.includeOne env span p) (st'.includeOne env span p) := by
  unfold PragmaState.includeOne
  rw [h.remaining]
  cases AMap.get st.remaining (some p) with
  | none => exact ⟨h.path, rfl, by dsimp only; rw [h.data], h.frames⟩
  | some l =>
    refine ⟨rfl, rfl, by dsimp only; rw [h.data], .inr ?_⟩
    dsimp only
    rw [h.path]
    rcases h.frames with ⟨h1, h2, h3⟩ | ⟨k, q, m, h1, h2, h3⟩
    · exact ⟨[], st.currentPath, st.current, by rw [h1]; rfl, by rw [h2, h3]; rfl, rfl⟩
    · exact ⟨(st.currentPath, st.current) :: k, q, m, by rw [h1]; rfl, by rw [h2, h3]; rfl, rfl⟩

theorem AtEnd.includes {env : PragmaEnv} (span : Span) : ∀ (ps : List Path) {st st' : PragmaState}, AtEnd Y st st' →
    AtEnd Y (ps.foldl (PragmaState.includeOne env span) st) (ps.foldl (PragmaState.includeOne env span) st')
  | [], _, _, h => h
  | p :: ps, _, _, h => AtEnd.includes span ps (h.includeOne span p)

/-- The outcomes of a turn of both runs which meet the same declaration. -/
inductive Turns (Y : List (Spanned Declaration)) : Turn → Turn → Prop
  | yield {x st st'} : AtEnd Y st st' → Turns Y (.yield x st) (.yield x st')
  | cont {st st'} : AtEnd Y st st' → Turns Y (.continue st) (.continue st')
  | panic : Turns Y .panic .panic

theorem consume (env : PragmaEnv) {p : Option Path} (d : Spanned Declaration) {l l' : List (Spanned Declaration)} {k k' r : Files} 
    (next : ∀ dat : PragmaData, AtEnd Y ⟨p, l, k, r, dat⟩ ⟨p, l', k', r, dat⟩) (dat : PragmaData) :
    Turns Y (PragmaState.step env ⟨p, d :: l, k, r, dat⟩) (PragmaState.step env ⟨p, d :: l', k', r, dat⟩) := by
  obtain ⟨decl, span⟩ := d
  cases decl with
  | directive dir =>
    simp only [PragmaState.step]
    cases PragmaData.augment dat dir with
    | none => exact .panic
    | some x => exact .yield (next _)
  | pragma pr =>
    cases pr with
    | pushtag t => exact .cont (next _)
    | poptag t => exact .cont (next _)
    | pushmeta t => exact .cont (next _)
    | popmeta t => exact .cont (next _)
    | option o => exact .cont (next _)
    | plugin pl => exact .cont (next _)
    | «include» g =>
      simp only [PragmaState.step, PragmaState.includeGlob]
      cases AMap.get env.globs (resolveIncludedPath p (Path.ofStr g.item)) with
      | none => exact .panic
      | some gl =>
        cases gl with
        | expanded ps =>
          refine .cont (AtEnd.includes g.span ps ?_)
          cases ps with
          | nil => exact next _
          | cons q qs => exact next _
        | error e => exact .cont (next _)

theorem augment_nothing {dat : PragmaData} (ht : dat.tags = []) (hm : dat.metas = []) (d : Directive) : dat.augment d = some d := by
  unfold PragmaData.augment
  rw [ht, hm]
  rfl

/-- With nothing pushed, directives come out as they are. -/
theorem runs_directives {env : PragmaEnv} {p : Option Path} {r : Files} {dat : PragmaData} (ht : dat.tags = []) (hm : dat.metas = []) :
    ∀ X : List (Spanned Directive), ∃ n, Runs env n ⟨p, X.map decl, [], r, dat⟩ X ⟨p, [], [], r, dat⟩
  | [] => ⟨0, .done rfl⟩
  | d :: X => by
    obtain ⟨n, h⟩ := runs_directives ht hm X
    refine ⟨n + 1, .yield ?_ h⟩
    simp only [PragmaState.step, List.map_cons, decl, augment_nothing ht hm]

/-- The directives at the end of the root come out last. -/
theorem runs_append {env : PragmaEnv} {X : List (Spanned Directive)} {n : Nat} {st fin : PragmaState} {out : List (Spanned Directive)}
    (hr : Runs env n st out fin) (ht : fin.data.tags = []) (hm : fin.data.metas = []) : ∀ {st' : PragmaState}, AtEnd (X.map decl) st st' →
    ∃ n' fin', Runs env n' st' (out ++ X) fin' ∧ fin'.data = fin.data := by
  induction hr with
  | @done st hs =>
    intro st' h
    obtain ⟨p, c, k, r, dat⟩ := st
    obtain ⟨p', c', k', r', dat'⟩ := st'
    obtain ⟨h1, h2, h3, h4⟩ := h
    dsimp only at h1 h2 h3 h4 ht hm
    subst h1 h2 h3
    cases c with
    | cons d l =>
      exfalso
      have := consume env (p := p') (k := k) (k' := k) (r := r') (l := l) (l' := l) (Y := []) d
        (fun dat => ⟨rfl, rfl, rfl, by
          cases k using List.reverseRecOn with
          | nil => exact .inl ⟨rfl, rfl, by simp⟩
          | append_singleton k e => exact .inr ⟨k, e.1, e.2, rfl, by simp, rfl⟩⟩) dat'
      rw [hs] at this
      cases this
    | nil =>
      cases k with
      | cons e k => cases hs
      | nil =>
        rcases h4 with ⟨_, rfl, rfl⟩ | ⟨k, q, m, h5, _⟩
        · obtain ⟨n, h⟩ := runs_directives (env := env) (p := p') (r := r') ht hm X
          exact ⟨n, _, h, rfl⟩
        · simp at h5
  | @cont n st st1 out fin hs _ ih =>
    intro st' h
    obtain ⟨p, c, k, r, dat⟩ := st
    obtain ⟨p', c', k', r', dat'⟩ := st'
    obtain ⟨h1, h2, h3, h4⟩ := h
    dsimp only at h1 h2 h3 h4
    subst h1 h2 h3
    cases c with
    | nil =>
      rcases h4 with ⟨rfl, rfl, rfl⟩ | ⟨k, q, m, rfl, rfl, rfl⟩
      · cases hs
      · cases k with
        | nil =>
          cases hs
          obtain ⟨n', fin', g1, g2⟩ := ih ht hm (st' := ⟨q, m ++ X.map decl, [], r', dat'⟩) ⟨rfl, rfl, rfl, .inl ⟨rfl, rfl, rfl⟩⟩
          exact ⟨n' + 1, fin', .cont rfl g1, g2⟩
        | cons e k =>
          cases hs
          obtain ⟨n', fin', g1, g2⟩ := ih ht hm (st' := ⟨e.1, e.2, k ++ [(q, m ++ X.map decl)], r', dat'⟩) ⟨rfl, rfl, rfl, .inr ⟨k, q, m, rfl, rfl, rfl⟩⟩
          exact ⟨n' + 1, fin', .cont rfl g1, g2⟩
    | cons d l =>
      obtain ⟨l', rfl, hl⟩ : ∃ l', c' = d :: l' ∧ ∀ dat, AtEnd (X.map decl) ⟨p', l, k, r', dat⟩ ⟨p', l', k', r', dat⟩ := by
        rcases h4 with ⟨rfl, rfl, rfl⟩ | ⟨k, q, m, rfl, rfl, rfl⟩
        · exact ⟨_, rfl, fun _ => ⟨rfl, rfl, rfl, .inl ⟨rfl, rfl, rfl⟩⟩⟩
        · exact ⟨_, rfl, fun _ => ⟨rfl, rfl, rfl, .inr ⟨k, q, m, rfl, rfl, rfl⟩⟩⟩
      have hc := consume env d hl dat'
      rw [hs] at hc
      generalize e2 : PragmaState.step env ⟨p', d :: l', k', r', dat'⟩ = t at hc
      cases hc with
      | cont hh =>
        obtain ⟨n', fin', g1, g2⟩ := ih ht hm hh
        exact ⟨n' + 1, fin', .cont e2 g1, g2⟩
  | @yield n st x st1 out fin hs _ ih =>
    intro st' h
    obtain ⟨p, c, k, r, dat⟩ := st
    obtain ⟨p', c', k', r', dat'⟩ := st'
    obtain ⟨h1, h2, h3, h4⟩ := h
    dsimp only at h1 h2 h3 h4
    subst h1 h2 h3
    cases c with
    | nil =>
      cases k with
      | nil => cases hs
      | cons e k => cases hs
    | cons d l =>
      obtain ⟨l', rfl, hl⟩ : ∃ l', c' = d :: l' ∧ ∀ dat, AtEnd (X.map decl) ⟨p', l, k, r', dat⟩ ⟨p', l', k', r', dat⟩ := by
        rcases h4 with ⟨rfl, rfl, rfl⟩ | ⟨k, q, m, rfl, rfl, rfl⟩
        · exact ⟨_, rfl, fun _ => ⟨rfl, rfl, rfl, .inl ⟨rfl, rfl, rfl⟩⟩⟩
        · exact ⟨_, rfl, fun _ => ⟨rfl, rfl, rfl, .inr ⟨k, q, m, rfl, rfl, rfl⟩⟩⟩
      have hc := consume env d hl dat'
      rw [hs] at hc
      generalize e2 : PragmaState.step env ⟨p', d :: l', k', r', dat'⟩ = t at hc
      cases hc with
      | yield hh =>
        obtain ⟨n', fin', g1, g2⟩ := ih ht hm hh
        exact ⟨n' + 1, fin', .yield e2 g1, g2⟩

theorem runs_of_collect {env : PragmaEnv} {st : PragmaState} {out : List (Spanned Directive)} {d : PragmaData}
    (h : (st.collect env).map (fun r => (r.1, r.2.data)) = Res.ok (out, d)) : ∃ n fin, Runs env n st out fin ∧ fin.data = d := by
  cases hc : st.collect env with
  | err e => rw [hc] at h; cases h
  | panic => rw [hc] at h; cases h
  | ok r =>
    rw [hc] at h
    cases h
    obtain ⟨m, hm⟩ := runs_of_fuel _ hc
    exact ⟨m, _, hm, rfl⟩

theorem nothing_left {d : PragmaData} (h : d.finalErrors = []) : d.tags = [] ∧ d.metas = [] := by
  unfold PragmaData.finalErrors at h
  simp only [List.append_eq_nil_iff, List.map_eq_nil_iff, List.flatMap_eq_nil_iff] at h
  obtain ⟨⟨_, h1⟩, h2⟩ := h
  refine ⟨?_, h1⟩
  cases ht : d.tags with
  | nil => rfl
  | cons e t => exact absurd (h2 e (by rw [ht]; simp)) (by simp)

/-- The processor, with more directives at the end of the root. -/
theorem process_append {env : PragmaEnv} {root : Option Path} {a : List (Spanned Declaration)} {X : List (Spanned Directive)} {rest : Files} {o : Options}
    {out out' : List (Spanned Directive)} {d d' : PragmaData}
    (h1 : processPragmas env root ((root, a) :: rest) o = .ok (out, d)) (hd : d.finalErrors = [])
    (h2 : processPragmas env root ((root, a ++ X.map decl) :: rest) o = .ok (out', d')) : out' = out ++ X ∧ d' = d := by
  unfold processPragmas PragmaState.new at h1 h2
  simp only [AMap.get_cons, if_true] at h1 h2
  obtain ⟨n, fin, r1, rfl⟩ := runs_of_collect h1
  obtain ⟨n', fin', r2, rfl⟩ := runs_of_collect h2
  obtain ⟨m, f, r3, hf⟩ := runs_append r1 (nothing_left hd).1 (nothing_left hd).2 (X := X) (st' := ⟨root, a ++ X.map decl, [], AMap.erase ((root, a ++ X.map decl) :: rest) root, _⟩)
    ⟨rfl, by simp [AMap.erase], rfl, .inl ⟨rfl, rfl, rfl⟩⟩
  obtain ⟨rfl, rfl⟩ := r3.unique r2
  exact ⟨rfl, hf⟩

/-- Directives alone. -/
theorem process_alone {env : PragmaEnv} {root : Option Path} {X : List (Spanned Directive)} {o : Options}
    {out : List (Spanned Directive)} {d : PragmaData}
    (h : processPragmas env root [(root, X.map decl)] o = .ok (out, d)) : out = X ∧ d.finalErrors = [] := by
  unfold processPragmas PragmaState.new at h
  simp only [AMap.get_cons, if_true] at h
  obtain ⟨n, fin, r1, rfl⟩ := runs_of_collect h
  obtain ⟨m, r2⟩ := runs_directives (env := env) (p := root) (r := AMap.erase [(root, X.map decl)] root)
    (dat := { includeBy := [], tags := [], metas := [], options := o, plugins := [], errors := [] }) rfl rfl X
  obtain ⟨h1, h2⟩ := r2.unique r1
  rw [h1, h2]
  exact ⟨rfl, rfl⟩

/-! ### Sorting -/

/-- Sorting two lists together. -/
theorem sort_both (a b : List (Spanned Directive)) : sortDirectives (a ++ b) = sortDirectives (sortDirectives a ++ sortDirectives b) := by
  refine C01_sort_unique _ _ (C01_sort_ordered _) fun d => ?_
  rw [C01_sort_stable, List.filter_append, List.filter_append, C01_sort_stable, C01_sort_stable]

end Lima.Append
