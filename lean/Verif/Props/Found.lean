import Verif.Props.Parse
import Verif.Spec.Found
import Verif.Lemmas.ReadOrigin

/-!
# C60: exactly the files found by following includes are read
-/

set_option linter.unusedSectionVars false

namespace Lima.Props
open Lima.Spec

section
variable {fs : FileSystem} {tokens : Str → List Ranged} {rootPath : Option Path} {rootContent : Str} {s : Sources}

/-- Whatever is given to the file system for reading has been found. -/
theorem read_ledTo (hwf : GlobsWF fs) : ∀ (n : Nat) (p : Path), (readWithIncludes fs tokens rootPath rootContent).reads[n]? = some p →
    LedTo fs tokens rootPath rootContent p ∧ some p ≠ rootPath ∧ fs.canonicalize p ≠ none := by
  intro n
  induction n using Nat.strongRecOn with
  | _ n ih =>
    intro p hp
    obtain ⟨hn, hpn⟩ := List.getElem?_eq_some_iff.mp hp
    have hmem : p ∈ (readWithIncludes fs tokens rootPath rootContent).reads := List.mem_of_getElem? hp
    obtain ⟨c, hc, hroot⟩ := (C08_read_once hwf).2 p hmem
    have hsplit : (readWithIncludes fs tokens rootPath rootContent).reads =
        (readWithIncludes fs tokens rootPath rootContent).reads.take n ++ p :: (readWithIncludes fs tokens rootPath rootContent).reads.drop (n + 1) := by
      rw [← hpn, List.cons_getElem_drop_succ, List.take_append_drop]
    obtain ⟨q, gs, hq, hg, hm⟩ := read_named _ _ _ hsplit
    refine ⟨?_, fun e => hroot p e.symm hc, by rw [hc]; simp⟩
    rcases hq with ⟨i, hi, rfl⟩ | ⟨r, hr, text, ht, i, hi, rfl⟩
    · exact ⟨_, _, i, gs, .root, (getIncludes_iff _ _).mp hi, hg, hm⟩
    · obtain ⟨k, hk, hkr⟩ := List.getElem_of_mem hr
      rw [List.length_take] at hk
      rw [List.getElem_take] at hkr
      obtain ⟨⟨path', text', i', gs', h1, h2, h3, h4⟩, h5, h6⟩ := ih k (by omega) r (by rw [← hkr]; exact List.getElem?_eq_getElem _)
      exact ⟨_, _, i, gs, .step h1 h2 h3 h4 h5 h6 ht, (getIncludes_iff _ _).mp hi, hg, hm⟩

theorem source_found (hwf : GlobsWF fs) {id : Nat} {path : Option Path} {text : Str}
    (h : IsSource (readWithIncludes fs tokens rootPath rootContent) id path text) : Found fs tokens rootPath rootContent path text := by
  rcases h with ⟨_, rfl, rfl⟩ | ⟨p, ix, rfl, h⟩
  · exact .root
  · obtain ⟨h1, h2⟩ := C08_content_faithful hwf _ _ _ _ h
    obtain ⟨n, hn, rfl⟩ := List.getElem_of_mem h2
    obtain ⟨⟨path', text', i', gs', k1, k2, k3, k4⟩, k5, k6⟩ := read_ledTo hwf n _ (List.getElem?_eq_getElem hn)
    exact .step k1 k2 k3 k4 k5 k6 h1

/-- What is led to, exists and is not the root has been given to the file system for reading. -/
theorem ledTo_read (hwf : GlobsWF fs) (hn : OneName fs tokens rootPath rootContent) (he : NoGlobErrors fs) {id : Nat} {path : Option Path}
    {text i : Str} {gs : List Globbed} {q : Path} (hs : IsSource (readWithIncludes fs tokens rootPath rootContent) id path text)
    (hi : Includes tokens text i) (hg : fs.glob (resolveIncludedPath path (Path.ofStr i)) = .ok gs) (hq : .path q ∈ gs)
    (hr : some q ≠ rootPath) (hc : fs.canonicalize q ≠ none) : q ∈ (readWithIncludes fs tokens rootPath rootContent).reads := by
  have inv := readLoop_inv (fs := fs) (tokens := tokens) (rootPath := rootPath) (rootContent := rootContent) hwf
  obtain ⟨x, hx⟩ := ((C08_includes_recorded hwf id path text i hs hi).2 gs hg).2 _ hq hc
  cases x with
  | content id text' ix =>
    exact (C08_content_faithful hwf _ _ _ _ (AMap.mem_of_get hx)).2
  | error m =>
    rcases (readLoop_outcome (fs := fs) (tokens := tokens) rootPath rootContent).errors _ m hx with ⟨e, h, _⟩ | h
    · exact h
    · exact absurd h (he _ _)
  | duplicate =>
    obtain ⟨c, h1, h2⟩ := inv.dup _ (AMap.mem_of_get hx)
    have lq : LedTo fs tokens rootPath rootContent q := ⟨_, _, i, gs, source_found hwf hs, hi, hg, hq⟩
    rcases inv.canonMem c h2 with h3 | h3
    · obtain ⟨r, h4, h5⟩ := Option.bind_eq_some_iff.mp h3
      exact absurd (h4.trans (congrArg some (hn q r c (.inl lq) (.inr h4) h1 h5).symm)).symm hr
    · obtain ⟨p, h4, h5⟩ := List.mem_map.mp h3
      obtain ⟨n, hn', rfl⟩ := List.getElem_of_mem h4
      have := (read_ledTo hwf n _ (List.getElem?_eq_getElem hn')).1
      rw [hn q _ c (.inl lq) (.inl this) h1 h5]
      exact h4

theorem found_source (hwf : GlobsWF fs) (hn : OneName fs tokens rootPath rootContent) (he : NoGlobErrors fs) {path : Option Path} {text : Str}
    (h : Found fs tokens rootPath rootContent path text) : ∃ id, IsSource (readWithIncludes fs tokens rootPath rootContent) id path text := by
  induction h with
  | root => exact ⟨0, .inl ⟨rfl, rfl, rfl⟩⟩
  | @step path text i gs q text' _ hi hg hq hr hc ht ih =>
    obtain ⟨id, ih⟩ := ih
    have := ledTo_read hwf hn he ih hi hg hq hr hc
    rcases C08_read_outcome q this with ⟨t, id', h1, h2⟩ | ⟨e, h1, _⟩ | ⟨m, h1, _⟩
    · rw [ht] at h1
      cases h1
      exact ⟨id', .inr ⟨q, _, rfl, AMap.mem_of_get h2⟩⟩
    · rw [ht] at h1
      cases h1
    · exact absurd h1 (he _ _)

theorem isSource_order (hs : ReadInSomeOrder fs tokens rootPath rootContent s) (id : Nat) (path : Option Path) (text : Str) :
    IsSource s id path text ↔ IsSource (readWithIncludes fs tokens rootPath rootContent) id path text := by
  obtain ⟨c, hc, rfl⟩ := hs
  unfold IsSource
  simp only [hc.mem_iff]

/-! ### C60 -/

/-- C60: every file read is found from the root by following includes. -/
theorem C60_only_found (hwf : GlobsWF fs) (hs : ReadInSomeOrder fs tokens rootPath rootContent s) (id : Nat) (path : Option Path) (text : Str)
    (h : IsSource s id path text) : Found fs tokens rootPath rootContent path text :=
  source_found hwf ((isSource_order hs _ _ _).mp h)

/-- C60: the files read are exactly those found, if none goes by two names. -/
theorem C60_files_found (hwf : GlobsWF fs) (hn : OneName fs tokens rootPath rootContent) (he : NoGlobErrors fs)
    (hs : ReadInSomeOrder fs tokens rootPath rootContent s) (path : Option Path) (text : Str) :
    (∃ id, IsSource s id path text) ↔ Found fs tokens rootPath rootContent path text := by
  constructor
  · rintro ⟨id, h⟩
    exact C60_only_found hwf hs id path text h
  · intro h
    obtain ⟨id, h⟩ := found_source hwf hn he h
    exact ⟨id, (isSource_order hs _ _ _).mpr h⟩

/-- C60: the files known to be unreadable are exactly those an include leads to which exist and cannot be read, each with the
error of the file system. -/
theorem C60_unreadable_found (hwf : GlobsWF fs) (hn : OneName fs tokens rootPath rootContent) (he : NoGlobErrors fs)
    (hs : ReadInSomeOrder fs tokens rootPath rootContent s) (q : Path) (m : Str) :
    AMap.get s.errorPaths (some q) = some m ↔
      LedTo fs tokens rootPath rootContent q ∧ some q ≠ rootPath ∧ fs.canonicalize q ≠ none ∧
        ∃ e, fs.read q = .error e ∧ m = q.render ++ ": ".toList ++ e := by
  rw [C08_unreadable_files_reported hwf hs]
  have hget : AMap.get s.content q = AMap.get (readWithIncludes fs tokens rootPath rootContent).content q := by
    obtain ⟨c, hc, rfl⟩ := hs
    exact AMap.get_perm hc.symm ((hc.map _).nodup_iff.mp (read_complete (tokens := tokens) hwf).keys) q
  rw [hget]
  constructor
  · intro h
    rcases (readLoop_outcome (fs := fs) (tokens := tokens) rootPath rootContent).errors _ m h with ⟨e, h1, h2, h3⟩ | h1
    · obtain ⟨n, hn', rfl⟩ := List.getElem_of_mem h1
      obtain ⟨k1, k2, k3⟩ := read_ledTo hwf n _ (List.getElem?_eq_getElem hn')
      exact ⟨k1, k2, k3, e, h2, h3⟩
    · exact absurd h1 (he _ _)
  · rintro ⟨⟨path, text, i, gs, h1, h2, h3, h4⟩, hr, hc, e, h5, rfl⟩
    obtain ⟨id, h1⟩ := found_source hwf hn he h1
    rcases C08_read_outcome q (ledTo_read hwf hn he h1 h2 h3 h4 hr hc) with ⟨t, id', k1, _⟩ | ⟨e', k1, k2⟩ | ⟨m, k1, _⟩
    · rw [h5] at k1
      cases k1
    · rw [h5] at k1
      cases k1
      exact k2
    · exact absurd k1 (he _ _)

/-- C60: an include of a file found is recorded with what its pattern expands to. -/
theorem C60_includes_found (hwf : GlobsWF fs) (hn : OneName fs tokens rootPath rootContent) (he : NoGlobErrors fs)
    (hs : ReadInSomeOrder fs tokens rootPath rootContent s) {path : Option Path} {text i : Str}
    (hf : Found fs tokens rootPath rootContent path text) (hi : Includes tokens text i) :
    AMap.get s.globs (resolveIncludedPath path (Path.ofStr i)) =
      some (match fs.glob (resolveIncludedPath path (Path.ofStr i)) with
        | .ok gs => .expanded (gs.map Globbed.thePath)
        | .error e => .error e) := by
  obtain ⟨id, h⟩ := found_source hwf hn he hf
  have := C08_includes_recorded hwf id path text i h hi
  obtain ⟨c, hc, rfl⟩ := hs
  change AMap.get (readWithIncludes fs tokens rootPath rootContent).globs _ = _
  cases hg : fs.glob (resolveIncludedPath path (Path.ofStr i)) with
  | error e => exact this.1 e hg
  | ok gs => exact (this.2 gs hg).1

end

/-! ### Concrete cases -/

theorem exampleFS_names (tokens : Str → List Ranged) (root : Option Path) (text : Str) : OneName exampleFS tokens root text := by
  intro q q' c _ _ h h'
  have : ∀ p c, exampleFS.canonicalize p = some c → c = p := by
    intro p c h
    unfold exampleFS at h
    dsimp only at h
    split at h
    · exact (Option.some.inj h).symm
    · cases h
  rw [← this q c h, ← this q' c h']

theorem exampleFS_errors : NoGlobErrors exampleFS := by
  rintro p m ⟨g, gs, h, hm⟩
  unfold exampleFS at h
  dsimp only at h
  injection h with h
  subst h
  split at hm <;> simp at hm

/-- The root includes `s`, which is found and read. -/
example : Found exampleFS exampleTokens (some (Path.ofStr (str "r"))) (str "a b é ") (some (Path.ofStr (str "s"))) (str "é") :=
  .step .root ⟨[], [.eol, .include, .stringLiteral (str "r")], rfl⟩ rfl List.mem_cons_self
    (by decide) (by decide) rfl

example : ∃ id, IsSource (readWithIncludes exampleFS exampleTokens (some (Path.ofStr (str "r"))) (str "a b é ")) id
    (some (Path.ofStr (str "s"))) (str "é") :=
  (C60_files_found exampleFS_wf (exampleFS_names _ _ _) exampleFS_errors ⟨_, .refl _, rfl⟩ _ _).mpr
    (.step .root ⟨[], [.eol, .include, .stringLiteral (str "r")], rfl⟩ rfl List.mem_cons_self
      (by decide) (by decide) rfl)

/-- Two names for one file. -/
def linkedFS : FileSystem where
  glob := exampleFS.glob
  canonicalize p := if p = Path.ofStr (str "r") ∨ p = Path.ofStr (str "s") then some (Path.ofStr (str "s")) else none
  read _ := .ok (str "é")
  files := [Path.ofStr (str "s")]
  canonicalize_mem := by
    intro p c h
    split at h
    · cases h
      simp
    · cases h

/-- A file which goes by two names is found by both, and is a source by the one which is read first: the files read are not
all files found. -/
theorem C60_two_names :
    Found linkedFS exampleTokens none [] (some (Path.ofStr (str "r"))) (str "é") ∧
    Found linkedFS exampleTokens none [] (some (Path.ofStr (str "s"))) (str "é") ∧
    (∃ id, IsSource (readWithIncludes linkedFS exampleTokens none []) id (some (Path.ofStr (str "s"))) (str "é")) ∧
    ¬ ∃ id text, IsSource (readWithIncludes linkedFS exampleTokens none []) id (some (Path.ofStr (str "r"))) text := by
  have hr : (readWithIncludes linkedFS exampleTokens none []).content =
      [(Path.ofStr (str "s"), .content 1 (str "é") [0]), (Path.ofStr (str "r"), .duplicate)] := by
    unfold readWithIncludes
    rw [readLoop_some rfl, readLoop_some rfl, readLoop_some rfl, readLoop_none rfl]
    rfl
  refine ⟨.step .root ⟨[.include, .stringLiteral (str "s"), .eol], [], rfl⟩ rfl List.mem_cons_self (by decide) (by decide) rfl,
    .step .root ⟨[], [.eol, .include, .stringLiteral (str "r")], rfl⟩ rfl List.mem_cons_self (by decide) (by decide) rfl, ?_, ?_⟩
  · exact ⟨1, .inr ⟨_, [0], rfl, by rw [hr]; simp⟩⟩
  · rintro ⟨id, text, h⟩
    rcases h with ⟨_, h, _⟩ | ⟨p, ix, h, hm⟩
    · cases h
    · cases h
      rw [hr] at hm
      have : Path.ofStr (str "r") ≠ Path.ofStr (str "s") := by decide
      simp [this] at hm

end Lima.Props
