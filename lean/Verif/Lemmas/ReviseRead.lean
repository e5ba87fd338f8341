import Verif.Lemmas.ReviseFile
import Verif.Lemmas.InPlaceRead

/-! Directives exchanged or left out: reading. -/

set_option linter.unusedSectionVars false

namespace Lima.Revise
open Lima Spec Grammar Props InPlaceParse Relation

/-! ### Reading texts which have the same includes -/

inductive SourceLike (R : Str → Str → Prop) : IncludedSource → IncludedSource → Prop
  | content {id : Nat} {text text' : Str} {indices indices' : List Nat} (h : R text text') :
      SourceLike R (.content id text indices) (.content id text' indices')
  | error (e : Str) : SourceLike R (.error e) (.error e)
  | duplicate : SourceLike R .duplicate .duplicate

structure SourcesLike (R : Str → Str → Prop) (s s' : Sources) : Prop where
  rootPath : s'.rootPath = s.rootPath
  rootContent : R s.rootContent s'.rootContent
  globs : s'.globs = s.globs
  content : List.Forall₂ (fun e e' => e'.1 = e.1 ∧ SourceLike R e.2 e'.2) s.content s'.content
  ids : s'.ids = s.ids

section
variable {R : Str → Str → Prop} {tokens : Str → List Ranged} {fs fs' : FileSystem}

abbrev ContentLike (R : Str → Str → Prop) (c c' : List (Path × IncludedSource)) : Prop :=
  List.Forall₂ (fun e e' => e'.1 = e.1 ∧ SourceLike R e.2 e'.2) c c'

structure StateLike (R : Str → Str → Prop) (st st' : ReadState) : Prop where
  pending : st'.pending = st.pending
  globs : st'.globs = st.globs
  content : ContentLike R st.content st'.content
  canonical : st'.canonical = st.canonical
  ids : st'.ids = st.ids

theorem has_like {c c' : List (Path × IncludedSource)} (h : ContentLike R c c') (p : Path) : AMap.has c' p = AMap.has c p := by
  unfold AMap.has
  induction h with
  | nil => rfl
  | cons h _ ih => rw [List.any_cons, List.any_cons, ih, h.1]

theorem insert_like {c c' : List (Path × IncludedSource)} (h : ContentLike R c c') (p : Path) {x x' : IncludedSource}
    (hx : SourceLike R x x') : ContentLike R (AMap.insert c p x) (AMap.insert c' p x') := by
  unfold AMap.insert
  rw [has_like h]
  split
  · rw [ContentLike, List.forall₂_map_left_iff, List.forall₂_map_right_iff]
    refine h.imp fun e e' h => ?_
    rw [h.1]
    split
    · exact ⟨rfl, hx⟩
    · exact h
  · exact List.rel_append h (.cons ⟨rfl, hx⟩ .nil)

variable (hR : ∀ a b, R a b → getIncludes tokens b = getIncludes tokens a)
include hR

theorem readGlobbed_like (hfs : FilesLike R fs fs') {st st' : ReadState} (h : StateLike R st st')
    (g : Globbed) : StateLike R (readGlobbed fs tokens st g) (readGlobbed fs' tokens st' g) := by
  unfold readGlobbed
  cases g with
  | error p e => exact ⟨h.pending, h.globs, insert_like h.content p (.error e), h.canonical, h.ids⟩
  | path p =>
    dsimp only
    rw [hfs.canonicalize, h.canonical, has_like h.content]
    cases fs.canonicalize p with
    | none => exact h
    | some c =>
      dsimp only
      split
      · split
        · exact h
        · exact ⟨h.pending, h.globs, insert_like h.content p .duplicate, rfl, h.ids⟩
      · have hr := hfs.read p
        generalize fs.read p = r at hr
        generalize fs'.read p = r' at hr
        cases hr with
        | error e =>
          exact ⟨h.pending, h.globs, insert_like h.content p (.error _), rfl, by dsimp only; rw [h.ids]⟩
        | @ok text text' ht =>
          refine ⟨?_, h.globs, ?_, rfl, by dsimp only; rw [h.ids]⟩
          · dsimp only
            rw [h.pending, hR _ _ ht]
          · dsimp only
            rw [h.ids]
            exact insert_like h.content p (.content ht)

theorem foldl_like (hfs : FilesLike R fs fs') (gs : List Globbed) {st st' : ReadState}
    (h : StateLike R st st') :
    StateLike R (gs.foldl (readGlobbed fs tokens) st) (gs.foldl (readGlobbed fs' tokens) st') := by
  induction gs generalizing st st' with
  | nil => exact h
  | cons g gs ih => exact ih (readGlobbed_like hR hfs h g)

omit hR in
/-- Both steps of reading. -/
inductive StepLike (R : Str → Str → Prop) : Option ReadState → Option ReadState → Prop
  | none : StepLike R none none
  | some {st st' : ReadState} (h : StateLike R st st') : StepLike R (some st) (some st')

theorem readStep_like (hfs : FilesLike R fs fs') {st st' : ReadState} (h : StateLike R st st') :
    StepLike R (readStep fs tokens st) (readStep fs' tokens st') := by
  unfold readStep
  rw [h.pending]
  cases st.pending with
  | nil => exact .none
  | cons p ps =>
    dsimp only
    rw [hfs.glob]
    cases fs.glob p with
    | error e => exact .some ⟨rfl, by dsimp only; rw [h.globs], h.content, h.canonical, h.ids⟩
    | ok gs =>
      have := foldl_like hR hfs gs (st := { st with pending := ps }) (st' := { st' with pending := ps })
        ⟨rfl, h.globs, h.content, h.canonical, h.ids⟩
      exact .some ⟨this.pending, by dsimp only; rw [this.globs], this.content, this.canonical, this.ids⟩

theorem readLoop_like (hfs : FilesLike R fs fs') (st : ReadState) : ∀ st' : ReadState,
    StateLike R st st' → StateLike R (readLoop fs tokens st) (readLoop fs' tokens st') := by
  fun_induction readLoop fs tokens st with
  | case1 st hn =>
    intro st' h
    have := readStep_like hR hfs h
    rw [hn] at this
    generalize hq : readStep fs' tokens st' = q at this
    cases this
    rw [Layout.readLoop_none hq]
    exact h
  | case2 st st1 hn ih =>
    intro st' h
    have := readStep_like hR hfs h
    rw [hn] at this
    generalize hq : readStep fs' tokens st' = q at this
    cases this with
    | some h =>
      rw [Layout.readLoop_some hq]
      exact ih _ h

theorem read_like (hfs : FilesLike R fs fs') (rootPath : Option Path) {text text' : Str} (ht : R text text') :
    SourcesLike R (readWithIncludes fs tokens rootPath text) (readWithIncludes fs' tokens rootPath text') := by
  have := readLoop_like hR hfs (readInit fs tokens rootPath text) (readInit fs' tokens rootPath text') (by
    unfold readInit
    refine ⟨?_, rfl, .nil, ?_, rfl⟩
    · dsimp only
      rw [hR _ _ ht]
    · dsimp only
      rw [hfs.canonicalize])
  exact ⟨rfl, ht, this.globs, this.content, this.ids⟩

theorem readInSomeOrder_like (hfs : FilesLike R fs fs') {rootPath : Option Path} {text text' : Str}
    (ht : R text text') {s : Sources} (hs : ReadInSomeOrder fs tokens rootPath text s) :
    ∃ s', ReadInSomeOrder fs' tokens rootPath text' s' ∧ SourcesLike R s s' := by
  obtain ⟨content, hp, rfl⟩ := hs
  have h := read_like hR hfs rootPath ht
  obtain ⟨content', h1, h2⟩ := List.perm_comp_forall₂ hp.symm h.content
  exact ⟨_, ⟨content', h2.symm, rfl⟩, ⟨h.rootPath, h.rootContent, h.globs, h1, h.ids⟩⟩

omit hR in
theorem eq_of_keys {α β : Type} : ∀ {l l' : List (α × β)}, l.Perm l' → (l.map (·.1)).Nodup → l'.map (·.1) = l.map (·.1) → l' = l
  | [], l', hp, _, _ => hp.symm.eq_nil
  | x :: l, l', hp, hn, he => by
    cases l' with
    | nil => cases he
    | cons y l' =>
      rw [List.map_cons, List.map_cons, List.cons.injEq] at he
      rw [List.map_cons, List.nodup_cons] at hn
      have hy : y ∈ x :: l := hp.mem_iff.mpr (by simp)
      have hxy : y = x := by
        rcases List.mem_cons.mp hy with rfl | hy
        · rfl
        · exact absurd (he.1 ▸ List.mem_map_of_mem hy) hn.1
      subst hxy
      rw [eq_of_keys (List.perm_cons _ |>.mp hp) hn.2 he.2]

/-- What is read, if files are visited in the same order. -/
theorem read_alike (hwf : GlobsWF fs') (hfs : FilesLike R fs fs') {rootPath : Option Path} {text text' : Str} (ht : R text text') {s s' : Sources}
    (hs : ReadInSomeOrder fs tokens rootPath text s) (hs' : ReadInSomeOrder fs' tokens rootPath text' s') (hv : SameVisits s s') :
    SourcesLike R s s' := by
  obtain ⟨s'', h1, h2⟩ := readInSomeOrder_like hR hfs ht hs
  suffices s' = s'' by rw [this]; exact h2
  have hk : s''.content.map (·.1) = s.content.map (·.1) := by
    have := h2.content
    generalize s.content = c at this
    generalize s''.content = c' at this
    induction this with
    | nil => rfl
    | cons h _ ih => rw [List.map_cons, List.map_cons, h.1, ih]
  obtain ⟨c1, p1, rfl⟩ := h1
  obtain ⟨c2, p2, rfl⟩ := hs'
  have hn : (c1.map (·.1)).Nodup := ((read_complete hwf).perm p1).keys
  unfold SameVisits at hv
  dsimp only at hv hk
  rw [eq_of_keys (p1.symm.trans p2) hn (hv.trans hk.symm)]

end

end Lima.Revise
