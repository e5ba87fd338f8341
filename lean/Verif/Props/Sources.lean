import Verif.Lemmas.Sources

/-!
# C08-C12: reading sources, identifiers, include paths, resolved spans
-/

namespace Lima.Props
open Lima Lima.Spec

variable {fs : FileSystem} {tokens : Str → List Ranged} {rootPath : Option Path} {rootContent : Str}

/-- The includes found by the token scan are exactly the strings right after an `include` token. -/
theorem includesOf_iff (i : Str) (ts : List Token) :
    i ∈ includesOf ts ↔ [Token.include, Token.stringLiteral i] <:+: ts := by
  fun_induction includesOf ts with
  | case1 => simp
  | case2 s ts ih =>
    rw [List.mem_cons, ih]
    constructor
    · rintro (rfl | h)
      · exact ⟨[], ts, by simp⟩
      · exact h.trans ⟨[Token.include, Token.stringLiteral s], [], by simp⟩
    · rintro ⟨pre, post, h⟩
      match pre with
      | [] => simp at h; exact .inl h.1
      | [a] => simp at h
      | a :: b :: pre =>
        simp only [List.cons_append, List.cons.injEq] at h
        exact .inr ⟨pre, post, h.2.2⟩
  | case3 t ts hne ih =>
    rw [ih]
    constructor
    · intro h; exact h.trans ⟨[t], [], by simp⟩
    · rintro ⟨pre, post, h⟩
      match pre with
      | [] =>
        simp at h
        exact (hne i post h.1.symm h.2.symm).elim
      | a :: pre =>
        simp only [List.cons_append, List.cons.injEq] at h
        exact ⟨pre, post, h.2⟩

/-- A file has this include: the string follows the `include` keyword in its tokens. -/
def HasInclude (tokens : Str → List Ranged) (text i : Str) : Prop :=
  [Token.include, Token.stringLiteral i] <:+: (tokens text).map (·.tok)

theorem getIncludes_iff (text i : Str) : i ∈ getIncludes tokens text ↔ HasInclude tokens text i :=
  includesOf_iff i _

/-! ## C08 -/

/-- C08: the loop comes to an end, with nothing pending, after finitely many turns, for every file system and
include graph; the sources are what it ends with. -/
theorem C08_terminates (fs : FileSystem) (tokens : Str → List Ranged) (rootPath : Option Path)
    (rootContent : Str) :
    ∃ n st, Reads fs tokens n (readInit fs tokens rootPath rootContent) st ∧ readStep fs tokens st = none ∧
      (readWithIncludes fs tokens rootPath rootContent).content = st.content ∧
      (readWithIncludes fs tokens rootPath rootContent).globs = st.globs ∧
      (readWithIncludes fs tokens rootPath rootContent).reads = st.reads := by
  obtain ⟨n, h1, h2⟩ := readLoop_reads (fs := fs) (tokens := tokens) (readInit fs tokens rootPath rootContent)
  refine ⟨n, _, h1, ?_, rfl, rfl, rfl⟩
  unfold readStep
  rw [h2]

/-- C08: no canonical file is read twice, and the root is not read again. -/
theorem C08_read_once (hwf : GlobsWF fs) :
    ((readWithIncludes fs tokens rootPath rootContent).reads.map fs.canonicalize).Nodup ∧
    (∀ p ∈ (readWithIncludes fs tokens rootPath rootContent).reads, ∃ c, fs.canonicalize p = some c ∧
      ∀ r, rootPath = some r → fs.canonicalize r ≠ some c) := by
  have inv := readLoop_inv (fs := fs) (tokens := tokens) (rootPath := rootPath) (rootContent := rootContent) hwf
  refine ⟨inv.nodup, ?_⟩
  intro p hp
  obtain ⟨c, h1, _⟩ := inv.seen p hp
  refine ⟨c, h1, ?_⟩
  intro r hr h
  have := (inv.root c (by rw [hr]; exact h)).2
  exact this (List.mem_map.mpr ⟨p, hp, h1⟩)

/-- C08: every include of the root and of every file read is recorded with what the glob library said about
it, and each path it expands to that exists is recorded as content, error or duplicate. -/
theorem C08_includes_recorded (hwf : GlobsWF fs) (id : Nat) (path : Option Path) (text i : Str)
    (hs : IsSource (readWithIncludes fs tokens rootPath rootContent) id path text)
    (hi : HasInclude tokens text i) :
    let s := readWithIncludes fs tokens rootPath rootContent
    let q := resolveIncludedPath path (Path.ofStr i)
    (∀ e, fs.glob q = .error e → AMap.get s.globs q = some (.error e)) ∧
    (∀ gs, fs.glob q = .ok gs →
      AMap.get s.globs q = some (.expanded (gs.map Globbed.thePath)) ∧
      ∀ g ∈ gs, fs.canonicalize g.thePath ≠ none → ∃ x, AMap.get s.content g.thePath = some x) := by
  intro s q
  have inv := readLoop_inv (fs := fs) (tokens := tokens) (rootPath := rootPath) (rootContent := rootContent) hwf
  obtain ⟨_, _, hp⟩ := readLoop_reads (fs := fs) (tokens := tokens) (readInit fs tokens rootPath rootContent)
  have hi' : i ∈ getIncludes tokens text := (getIncludes_iff text i).mpr hi
  have hhas : AMap.has s.globs q = true := by
    rcases hs with ⟨_, h1, h2⟩ | ⟨p, ix, h1, h2⟩
    · rw [h2] at hi'
      rcases inv.incRoot i hi' with h | h | h
      · rw [hp] at h; cases h
      · simp only [q, h1]; exact h
      · cases h
    · rcases inv.incFile p id text ix h2 i hi' with h | h | h
      · rw [hp] at h; cases h
      · simp only [q, h1]; exact h
      · cases h
  rw [AMap.has_eq_isSome, Option.isSome_iff_exists] at hhas
  obtain ⟨x, hx⟩ := hhas
  have hex := inv.expanded q x hx
  constructor
  · intro e he
    rw [he] at hex
    rw [hx, hex]
  · intro gs hgs
    rw [hgs] at hex
    simp only at hex
    refine ⟨by rw [hx, hex], ?_⟩
    intro g hg hc
    rcases inv.recorded q _ (hex ▸ hx) g.thePath (List.mem_map.mpr ⟨g, hg, rfl⟩) with h | h
    · rw [AMap.has_eq_isSome, Option.isSome_iff_exists] at h
      exact h
    · exact absurd h hc

/-- C08: what is recorded as content is what the file system holds under that path. -/
theorem C08_content_faithful (hwf : GlobsWF fs) (id : Nat) (p : Path) (text : Str) (ix : List Nat)
    (h : (p, IncludedSource.content id text ix) ∈ (readWithIncludes fs tokens rootPath rootContent).content) :
    fs.read p = .ok text ∧ p ∈ (readWithIncludes fs tokens rootPath rootContent).reads := by
  have inv := readLoop_inv (fs := fs) (tokens := tokens) (rootPath := rootPath) (rootContent := rootContent) hwf
  obtain ⟨_, h2, h3, _⟩ := inv.entry p id text ix h
  exact ⟨h3, List.mem_of_getElem? h2⟩

/-! ## C09 -/

theorem isSource_index (hwf : GlobsWF fs) {id : Nat} {path : Option Path} {text : Str}
    (h : IsSource (readWithIncludes fs tokens rootPath rootContent) id path text) :
    (id = 0 ∧ path = rootPath ∧ text = rootContent) ∨
    ∃ p, path = some p ∧ 1 ≤ id ∧ (readWithIncludes fs tokens rootPath rootContent).reads[id - 1]? = some p ∧
      AMap.get (readWithIncludes fs tokens rootPath rootContent).content p =
        some (.content id text (charIndices text)) := by
  have inv := readLoop_inv (fs := fs) (tokens := tokens) (rootPath := rootPath) (rootContent := rootContent) hwf
  rcases h with h | ⟨p, ix, h1, h2⟩
  · exact .inl h
  · obtain ⟨k1, k2, _, k4⟩ := inv.entry p id text ix h2
    subst k4
    exact .inr ⟨p, h1, k1, k2, AMap.get_of_mem inv.keys h2⟩

/-- C09: an identifier never refers to two files. -/
theorem C09_identifier_unique (hwf : GlobsWF fs) (id : Nat) (path path' : Option Path) (text text' : Str)
    (h : IsSource (readWithIncludes fs tokens rootPath rootContent) id path text)
    (h' : IsSource (readWithIncludes fs tokens rootPath rootContent) id path' text') :
    path = path' ∧ text = text' := by
  rcases isSource_index hwf h with ⟨h1, h2, h3⟩ | ⟨p, h1, h2, h3, h4⟩ <;>
    rcases isSource_index hwf h' with ⟨k1, k2, k3⟩ | ⟨p', k1, k2, k3, k4⟩
  · exact ⟨by rw [h2, k2], by rw [h3, k3]⟩
  · omega
  · omega
  · rw [h3] at k3; cases k3
    rw [h4] at k4
    injection k4 with k4
    injection k4 with _ k4
    exact ⟨by rw [h1, k1], k4⟩

/-- C09: two sources with the same path are the same source, so every file has its own identifier. -/
theorem C09_path_unique (hwf : GlobsWF fs) (id id' : Nat) (p : Path) (text text' : Str)
    (h : IsSource (readWithIncludes fs tokens rootPath rootContent) id (some p) text)
    (h' : IsSource (readWithIncludes fs tokens rootPath rootContent) id' (some p) text') :
    id = id' := by
  have inv := readLoop_inv (fs := fs) (tokens := tokens) (rootPath := rootPath) (rootContent := rootContent) hwf
  have noRoot : ∀ id q, (readWithIncludes fs tokens rootPath rootContent).reads[id - 1]? = some q →
      rootPath ≠ some q := by
    intro id q hq e
    obtain ⟨c, h1, _⟩ := inv.seen q (List.mem_of_getElem? hq)
    have := (inv.root c (by rw [e]; exact h1)).2
    exact this (List.mem_map.mpr ⟨q, List.mem_of_getElem? hq, h1⟩)
  rcases isSource_index hwf h with ⟨h1, h2, h3⟩ | ⟨q, h1, h2, h3, h4⟩ <;>
    rcases isSource_index hwf h' with ⟨k1, k2, k3⟩ | ⟨q', k1, k2, k3, k4⟩
  · omega
  · cases k1; exact absurd h2.symm (noRoot _ _ k3)
  · cases h1; exact absurd k2.symm (noRoot _ _ h3)
  · cases h1; cases k1
    rw [h4] at k4
    injection k4 with k4
    injection k4

/-- C09: looking up an identifier gives the text of the file and its name. -/
theorem C09_lookup [Unicode] [PartitionPoint] (hwf : GlobsWF fs) (id : Nat) (path : Option Path) (text : Str)
    (a b : Nat) (h : IsSource (readWithIncludes fs tokens rootPath rootContent) id path text) :
    ∃ bs, trimmedSpan text ⟨id, a, b⟩ = some bs ∧
      (readWithIncludes fs tokens rootPath rootContent).adjusted ⟨id, a, b⟩ =
        some (text, (path.map Path.render).getD (str "inline"), bs, byteToRune (charIndices text) bs) := by
  have inv := readLoop_inv (fs := fs) (tokens := tokens) (rootPath := rootPath) (rootContent := rootContent) hwf
  obtain ⟨bs, hbs⟩ := Option.isSome_iff_exists.mp (trimmedSpan_isSome text ⟨id, a, b⟩)
  refine ⟨bs, hbs, ?_⟩
  have hids : (readWithIncludes fs tokens rootPath rootContent).ids =
      (rootPath.map Path.render).getD (str "inline") ::
        (readWithIncludes fs tokens rootPath rootContent).reads.map Path.render := inv.ids
  unfold Sources.adjusted
  rcases isSource_index hwf h with ⟨h1, h2, h3⟩ | ⟨p, h1, h2, h3, h4⟩
  · subst h1; subst h2; subst h3
    have hlen : ¬ (0 : Nat) ≥ (readWithIncludes fs tokens path text).ids.length := by rw [hids]; simp
    have hid : (readWithIncludes fs tokens path text).ids[0]? =
        some ((path.map Path.render).getD (str "inline")) := by rw [hids]; rfl
    have hr : (readWithIncludes fs tokens path text).rootContent = text := rfl
    have hr' : (readWithIncludes fs tokens path text).rootCharIndices = charIndices text := rfl
    simp only [hlen, if_false, if_true, hid, hr, hr', hbs]
  · subst h1
    have hlt : id - 1 < (readWithIncludes fs tokens rootPath rootContent).reads.length :=
      (List.getElem?_eq_some_iff.mp h3).1
    have hlen : ¬ id ≥ (readWithIncludes fs tokens rootPath rootContent).ids.length := by
      rw [hids]; simp; omega
    have hid : (readWithIncludes fs tokens rootPath rootContent).ids[id]? = some p.render := by
      rw [hids]
      obtain ⟨k, rfl⟩ : ∃ k, id = k + 1 := ⟨id - 1, by omega⟩
      simp only [Nat.add_sub_cancel] at h3
      simp [h3]
    have hp : Path.ofStr p.render = p := Path.ofStr_render p (inv.wf p (List.mem_of_getElem? h3))
    have h0 : ¬ id = 0 := by omega
    simp only [hlen, if_false, hid, h0, hp, h4, hbs]
    rfl

/-- Identifiers of sources are below the number of identifiers handed out. -/
theorem C09_identifier_lt (hwf : GlobsWF fs) (id : Nat) (path : Option Path) (text : Str)
    (h : IsSource (readWithIncludes fs tokens rootPath rootContent) id path text) :
    id < (readWithIncludes fs tokens rootPath rootContent).ids.length := by
  have inv := readLoop_inv (fs := fs) (tokens := tokens) (rootPath := rootPath) (rootContent := rootContent) hwf
  have hids : (readWithIncludes fs tokens rootPath rootContent).ids =
      (rootPath.map Path.render).getD (str "inline") ::
        (readWithIncludes fs tokens rootPath rootContent).reads.map Path.render := inv.ids
  rw [hids]
  rcases isSource_index hwf h with ⟨h1, h2, h3⟩ | ⟨p, h1, h2, h3, h4⟩
  · subst h1; simp
  · have := (List.getElem?_eq_some_iff.mp h3).1
    simp
    omega

/-! ## C10 -/

/-- C10: an include from a file in a directory, in terms of path texts: `d/f` including `i` means `d/i`. -/
theorem C10_relative (d f i : Str) (hf : f ≠ [] ∧ f ≠ ['.'] ∧ '/' ∉ f) (hi : ∀ j, i ≠ '/' :: j) :
    resolveIncludedPath (some (Path.ofStr (d ++ '/' :: f))) (Path.ofStr i) = Path.ofStr (d ++ '/' :: i) := by
  have hnames : pathNames f = [f] := by
    unfold pathNames
    have := splitBy_word isSlash f (isSlash_false hf.2.2)
    change splitBy (fun c => decide (c = '/')) f = [f] at this
    rw [this]
    have : isName f = true := (isName_iff f).mpr ⟨hf.1, hf.2.1⟩
    simp [this]
  have hroot : (Path.ofStr i).root = false := by
    unfold Path.ofStr
    split
    · rfl
    · rename_i first rest he
      simp only [decide_eq_false_iff_not, not_and]
      intro h1 h2
      cases i with
      | nil => simp [splitBy] at he; exact h2 he.2
      | cons c i =>
        rw [splitBy] at he
        split at he
        · rename_i hc
          simp at hc
          exact hi i (by rw [hc])
        · split at he
          · injection he with he1 _; rw [← he1] at h1; cases h1
          · injection he with he1 _; rw [← he1] at h1; cases h1
  have hfilt : (Path.ofStr i).names.filter isName = pathNames i := by
    unfold Path.ofStr pathNames
    split
    · rename_i h; exact absurd h (splitBy_ne_nil _ _)
    · rename_i first rest he
      rw [he, List.filter_append, List.filter_filter]
      by_cases h1 : first = []
      · subst h1; simp [show isName [] = false from rfl]
      · simp [h1, List.filter_cons]
        split <;> simp
  have hdne : (Path.ofStr d).names = [] → d = [] ∨ (Path.ofStr d).root = true := by
    intro hn
    unfold Path.ofStr at hn ⊢
    split at hn
    · rename_i h; exact absurd h (splitBy_ne_nil _ _)
    · rename_i first rest he
      simp only at hn
      have h1 : first = [] := by
        by_cases h1 : first = []
        · exact h1
        · simp [h1] at hn
      by_cases h2 : rest = []
      · left
        subst h1; subst h2
        cases d with
        | nil => rfl
        | cons c d =>
          rw [splitBy] at he
          split at he
          · injection he with _ he; exact absurd he (splitBy_ne_nil _ _)
          · split at he <;> simp at he
      · right; simp [h1, h2]
  rw [Path.ofStr_concat, Path.ofStr_concat, hnames]
  unfold resolveIncludedPath pathDir Path.parent
  simp only [Option.bind_some, List.append_eq_nil_iff, List.cons_ne_nil, and_false, if_false,
    List.dropLast_concat]
  have hne : Path.isEmpty ⟨decide (d = []) || (Path.ofStr d).root, (Path.ofStr d).names⟩ = false := by
    unfold Path.isEmpty
    simp only [Bool.and_eq_false_iff, Bool.not_eq_false', Bool.or_eq_true, decide_eq_true_eq,
      decide_eq_false_iff_not]
    by_cases hn : (Path.ofStr d).names = []
    · left; exact hdne hn
    · right; exact hn
  simp only [hne]
  unfold Path.join
  simp only [hroot, hne, hfilt, Bool.false_eq_true, if_false]

/-- C10: an absolute include is used as is, whatever file it is in. -/
theorem C10_absolute (including : Option Path) (j : Str) :
    resolveIncludedPath including (Path.ofStr ('/' :: j)) = Path.ofStr ('/' :: j) := by
  have hroot : (Path.ofStr ('/' :: j)).root = true := by
    have := Path.ofStr_concat [] j
    simp only [List.nil_append] at this
    rw [this]; simp
  unfold resolveIncludedPath
  split
  · unfold Path.join; rw [if_pos hroot]
  · rfl

/-- C10: includes of inline input, and of a root file given without directory, are used as is. -/
theorem C10_no_directory (f i : Str) (hf : '/' ∉ f) :
    resolveIncludedPath none (Path.ofStr i) = Path.ofStr i ∧
    resolveIncludedPath (some (Path.ofStr f)) (Path.ofStr i) = Path.ofStr i := by
  refine ⟨rfl, ?_⟩
  have h := splitBy_word isSlash f (isSlash_false hf)
  change splitBy (fun c => decide (c = '/')) f = [f] at h
  unfold resolveIncludedPath pathDir Path.parent Path.ofStr
  simp only [h]
  by_cases h1 : f = []
  · simp [h1]
  · simp [h1, Path.isEmpty]

example : resolveIncludedPath (some (Path.ofStr (str "books/main.beancount"))) (Path.ofStr (str "2024/*.bean")) =
    Path.ofStr (str "books/2024/*.bean") := by decide

/-! ## C11 -/

/-- C11: for a span on character boundaries of any source, the reported range of characters is that of the
spanned text without trailing white space, and the lines are those of its first and last character. -/
theorem C11_lines_and_runes [Unicode] [PartitionPoint] (hwf : GlobsWF fs) (id : Nat) (path : Option Path)
    (p m r t : Str) (h : IsSource (readWithIncludes fs tokens rootPath rootContent) id path (p ++ m ++ r))
    (ht : Trimmed (fun c => Unicode.isWhitespace c = true) m t) :
    (∃ name bs, (readWithIncludes fs tokens rootPath rootContent).adjusted ⟨id, byteLen p, byteLen p + byteLen m⟩ =
      some (p ++ m ++ r, name, bs, ⟨id, p.length, p.length + t.length⟩)) ∧
    (∃ content, (readWithIncludes fs tokens rootPath rootContent).resolveSpan
        ⟨id, byteLen p, byteLen p + byteLen m⟩ =
      some ⟨sourceName path, lineAfter p, lineAfter (p ++ t), content⟩) := by
  obtain ⟨bs, h1, h2⟩ := C09_lookup hwf id path (p ++ m ++ r) (byteLen p) (byteLen p + byteLen m) h
  obtain ⟨bs', h3, h4⟩ := runeSpan_trimmed id p m t r ht
  rw [h1] at h3; cases h3
  rw [h4] at h2
  refine ⟨⟨_, _, h2⟩, ?_⟩
  unfold Sources.resolveSpan
  rw [h2]
  have hname : (if id = 0 then
        (if (readWithIncludes fs tokens rootPath rootContent).rootPath.isSome then
          some ((path.map Path.render).getD (str "inline")) else none)
      else some ((path.map Path.render).getD (str "inline"))) = sourceName path := by
    unfold sourceName
    rcases isSource_index hwf h with ⟨k1, k2, k3⟩ | ⟨q, k1, k2, k3, k4⟩
    · subst k1; subst k2
      cases path <;> simp [readWithIncludes]
    · have : id ≠ 0 := by omega
      subst k1
      simp [this]
  refine ⟨(slice (p ++ m ++ r) bs.start bs.stop).getD [], ?_⟩
  simp only [resolveLines, hname]
  have htm : ∃ w, m = t ++ w := by
    rcases ht with ⟨body, c, w, rfl, rfl, _, _⟩ | ⟨_, rfl⟩
    · exact ⟨w, rfl⟩
    · exact ⟨[], by simp⟩
  obtain ⟨w, rfl⟩ := htm
  have e1 : (p ++ (t ++ w) ++ r).take p.length = p := by simp
  have e2 : ((p ++ (t ++ w) ++ r).drop p.length).take (p.length + t.length - p.length) = t := by
    have : p ++ (t ++ w) ++ r = p ++ (t ++ (w ++ r)) := by simp
    rw [this, List.drop_left, Nat.add_sub_cancel_left, List.take_left]
  rw [if_pos (Nat.le_add_right _ _), e1, e2]
  simp only [Option.some.injEq, SpannedSource.mk.injEq, true_and, and_true]
  unfold lineAfter
  rw [countNewlines_eq, countNewlines_eq, List.count_append]
  omega

/-- C11: a span that is not a stretch of whole characters of the source resolves to nothing, at line 1. -/
theorem C11_bad_span [Unicode] [PartitionPoint] (hwf : GlobsWF fs) (id : Nat) (path : Option Path)
    (text : Str) (a b : Nat) (h : IsSource (readWithIncludes fs tokens rootPath rootContent) id path text)
    (hbad : ¬ ∃ p m r, text = p ++ m ++ r ∧ byteLen p = a ∧ a + byteLen m = b) :
    (readWithIncludes fs tokens rootPath rootContent).resolveSpan ⟨id, a, b⟩ = some ⟨sourceName path, 1, 1, []⟩ := by
  have hs : slice text a b = none := by
    cases hs : slice text a b with
    | none => rfl
    | some m =>
      obtain ⟨p, r, h1, h2, h3⟩ := (slice_iff _ _ _ _).mp hs
      exact absurd ⟨p, m, r, h1, h2, by omega⟩ hbad
  obtain ⟨bs, h1, h2⟩ := C09_lookup hwf id path text a b h
  have hbs : bs = ⟨id, 0, 0⟩ := by
    unfold trimmedSpan at h1
    simp only [hs] at h1
    cases h1; rfl
  subst hbs
  have hrune : byteToRune (charIndices text) ⟨id, 0, 0⟩ = ⟨id, 0, 0⟩ := by
    unfold byteToRune
    simp only [partition_zero]
  rw [hrune] at h2
  unfold Sources.resolveSpan
  rw [h2]
  have hname : (if id = 0 then
        (if (readWithIncludes fs tokens rootPath rootContent).rootPath.isSome then
          some ((path.map Path.render).getD (str "inline")) else none)
      else some ((path.map Path.render).getD (str "inline"))) = sourceName path := by
    unfold sourceName
    rcases isSource_index hwf h with ⟨k1, k2, k3⟩ | ⟨q, k1, k2, k3, k4⟩
    · subst k1; subst k2
      cases path <;> simp [readWithIncludes]
    · have : id ≠ 0 := by omega
      subst k1
      simp [this]
  have hempty : slice text 0 0 = some [] := (slice_iff _ _ _ _).mpr ⟨[], text, by simp, rfl, rfl⟩
  simp [resolveLines, hname, hempty, countNewlines]

/-- C11: resolving never panics, whatever the span, even with a source identifier that was never handed out. -/
theorem C11_never_panics [Unicode] [PartitionPoint] (hwf : GlobsWF fs) (span : Span) :
    ∃ r, (readWithIncludes fs tokens rootPath rootContent).resolveSpan span = some r := by
  have inv := readLoop_inv (fs := fs) (tokens := tokens) (rootPath := rootPath) (rootContent := rootContent) hwf
  have hids : (readWithIncludes fs tokens rootPath rootContent).ids =
      (rootPath.map Path.render).getD (str "inline") ::
        (readWithIncludes fs tokens rootPath rootContent).reads.map Path.render := inv.ids
  have key : ∃ text name bs ix, (readWithIncludes fs tokens rootPath rootContent).adjusted span =
      some (text, name, bs, byteToRune ix bs) ∧ bs.start ≤ bs.stop ∧ ix = charIndices text := by
    unfold Sources.adjusted
    have hsafe : ∃ sf : Span, (if span.source ≥ (readWithIncludes fs tokens rootPath rootContent).ids.length
          then (⟨0, 0, 0⟩ : Span) else span) = sf ∧
        sf.source < (readWithIncludes fs tokens rootPath rootContent).ids.length := by
      split
      · exact ⟨_, rfl, by rw [hids]; simp⟩
      · exact ⟨_, rfl, by omega⟩
    obtain ⟨sf, hsf, hlt⟩ := hsafe
    simp only [hsf, List.getElem?_eq_getElem hlt]
    by_cases h0 : sf.source = 0
    · simp only [h0, if_true]
      obtain ⟨bs, hbs⟩ := Option.isSome_iff_exists.mp
        (trimmedSpan_isSome (readWithIncludes fs tokens rootPath rootContent).rootContent sf)
      simp only [hbs]
      exact ⟨_, _, _, _, rfl, trimmedSpan_le _ _ _ hbs, rfl⟩
    · simp only [h0, if_false]
      obtain ⟨k, hk⟩ : ∃ k, sf.source = k + 1 := ⟨sf.source - 1, by omega⟩
      have hp : ∃ p ∈ (readWithIncludes fs tokens rootPath rootContent).reads,
          (readWithIncludes fs tokens rootPath rootContent).ids[sf.source] = p.render := by
        have hk' : k < (readWithIncludes fs tokens rootPath rootContent).reads.length := by
          rw [hids] at hlt; simp at hlt; omega
        refine ⟨_, List.getElem_mem hk', ?_⟩
        simp [hids, hk]
      obtain ⟨p, hpm, hpr⟩ := hp
      rw [hpr, Path.ofStr_render p (inv.wf p hpm)]
      have hkey := inv.keyed p hpm
      rw [AMap.has_eq_isSome, Option.isSome_iff_exists] at hkey
      obtain ⟨x, hx⟩ := hkey
      have hx' : AMap.get (readWithIncludes fs tokens rootPath rootContent).content p = some x := hx
      rw [hx']
      cases x with
      | content id text ix =>
        have := (inv.entry p id text ix (AMap.mem_of_get hx)).2.2.2
        subst this
        obtain ⟨bs, hbs⟩ := Option.isSome_iff_exists.mp (trimmedSpan_isSome text sf)
        simp only [hbs]
        exact ⟨_, _, _, _, rfl, trimmedSpan_le _ _ _ hbs, rfl⟩
      | error e =>
        obtain ⟨bs, hbs⟩ := Option.isSome_iff_exists.mp (trimmedSpan_isSome [] sf)
        simp only [hbs]
        exact ⟨_, _, _, _, rfl, trimmedSpan_le _ _ _ hbs, rfl⟩
      | duplicate =>
        obtain ⟨bs, hbs⟩ := Option.isSome_iff_exists.mp (trimmedSpan_isSome [] sf)
        simp only [hbs]
        exact ⟨_, _, _, _, rfl, trimmedSpan_le _ _ _ hbs, rfl⟩
  obtain ⟨text, name, bs, ix, h1, h2, rfl⟩ := key
  unfold Sources.resolveSpan
  rw [h1]
  simp only [resolveLines]
  have : (byteToRune (charIndices text) bs).start ≤ (byteToRune (charIndices text) bs).stop :=
    point_mono text _ _ h2
  rw [if_pos this]
  exact ⟨_, rfl⟩

/-! ## C12 -/

/-- C12: what trimming computes, for any text: the end is one byte after the start of the last character
that is not white space. -/
theorem C12_trim [Unicode] (p body : Str) (c : Char) (w r : Str)
    (hc : Unicode.isWhitespace c = false) (hw : ∀ x ∈ w, Unicode.isWhitespace x = true) :
    trimTrailingWhitespace (p ++ (body ++ [c] ++ w) ++ r) (byteLen p) (byteLen p + byteLen (body ++ [c] ++ w)) =
      some (byteLen p + byteLen body + 1) := trim_some p body c w r hc hw

/-- C12: a text of nothing but white space is not trimmed. -/
theorem C12_all_whitespace [Unicode] (p m r : Str) (hm : ∀ x ∈ m, Unicode.isWhitespace x = true) :
    trimTrailingWhitespace (p ++ m ++ r) (byteLen p) (byteLen p + byteLen m) = some (byteLen p + byteLen m) :=
  trim_none p m r hm

/-- C12, the part that holds: when the last character that is not white space is one byte long, the
resolved content and the error text are the spanned text without its trailing white space.  Missing: longer
last characters, where the span is cut inside the character, see `C12_multibyte`. -/
theorem C12_content_partial [Unicode] [PartitionPoint] (hwf : GlobsWF fs) (id : Nat) (path : Option Path)
    (p body : Str) (c : Char) (w r : Str)
    (h : IsSource (readWithIncludes fs tokens rootPath rootContent) id path (p ++ (body ++ [c] ++ w) ++ r))
    (hc : Unicode.isWhitespace c = false) (hw : ∀ x ∈ w, Unicode.isWhitespace x = true) (h1 : c.utf8Size = 1) :
    let span : Span := ⟨id, byteLen p, byteLen p + byteLen (body ++ [c] ++ w)⟩
    ((readWithIncludes fs tokens rootPath rootContent).resolveSpan span).map (·.content) = some (body ++ [c]) ∧
    (readWithIncludes fs tokens rootPath rootContent).errorSourceText span = some (body ++ [c]) := by
  intro span
  obtain ⟨bs, k1, k2⟩ := C09_lookup hwf id path _ (byteLen p) (byteLen p + byteLen (body ++ [c] ++ w)) h
  have hs : slice (p ++ (body ++ [c] ++ w) ++ r) (byteLen p) (byteLen p + byteLen (body ++ [c] ++ w)) =
      some (body ++ [c] ++ w) := (slice_iff _ _ _ _).mpr ⟨p, r, rfl, rfl, rfl⟩
  have hbs : bs = ⟨id, byteLen p, byteLen p + byteLen body + 1⟩ := by
    unfold trimmedSpan at k1
    simp only [hs, trim_some p body c w r hc hw] at k1
    cases k1; rfl
  subst hbs
  have hslice : slice (p ++ (body ++ [c] ++ w) ++ r) (byteLen p) (byteLen p + byteLen body + 1) =
      some (body ++ [c]) := by
    refine (slice_iff _ _ _ _).mpr ⟨p, w ++ r, by simp, rfl, ?_⟩
    rw [byteLen_append, byteLen_cons, h1]
    have : byteLen [] = 0 := rfl
    omega
  obtain ⟨res, hres⟩ := C11_never_panics (fs := fs) (tokens := tokens) (rootPath := rootPath)
    (rootContent := rootContent) hwf span
  constructor
  · rw [hres]
    unfold Sources.resolveSpan at hres
    rw [k2] at hres
    simp only [resolveLines] at hres
    split at hres
    · cases hres
      simp only [Option.map_some, hslice]
      rfl
    · cases hres
  · unfold Sources.errorSourceText
    rw [k2]
    exact hslice

theorem slice_inside (a : Str) (c : Char) (b : Str) (h : c.utf8Size ≠ 1) (k : Nat) :
    slice (a ++ c :: b) k (byteLen a + 1) = none := by
  cases hs : slice (a ++ c :: b) k (byteLen a + 1) with
  | none => rfl
  | some m =>
    exfalso
    obtain ⟨p, r, h1, h2, h3⟩ := (slice_iff _ _ _ _).mp hs
    have hpos := utf8Size_pos c
    have hlen : byteLen (p ++ m) = byteLen a + 1 := by rw [byteLen_append]; omega
    rcases List.append_eq_append_iff.mp h1 with ⟨z, hz1, hz2⟩ | ⟨z, hz1, hz2⟩
    · rw [hz1, byteLen_append] at hlen
      cases z with
      | nil => simp [byteLen] at hlen
      | cons x z =>
        simp only [List.cons_append, List.cons.injEq] at hz2
        rw [← hz2.1, byteLen_cons] at hlen
        omega
    · rw [hz1, byteLen_append] at h3
      have : byteLen (p ++ m ++ z) = byteLen p + byteLen m + byteLen z := by rw [byteLen_append, byteLen_append]
      rw [hz1, this] at hlen
      rw [byteLen_append] at hlen
      omega

/-- C12, what is false: whenever the last character that is not white space takes more than one byte, the
resolved content is empty and asking for the error text panics. -/
theorem C12_multibyte [Unicode] [PartitionPoint] (hwf : GlobsWF fs) (id : Nat) (path : Option Path)
    (p body : Str) (c : Char) (w r : Str)
    (h : IsSource (readWithIncludes fs tokens rootPath rootContent) id path (p ++ (body ++ [c] ++ w) ++ r))
    (hc : Unicode.isWhitespace c = false) (hw : ∀ x ∈ w, Unicode.isWhitespace x = true) (h1 : c.utf8Size ≠ 1) :
    let span : Span := ⟨id, byteLen p, byteLen p + byteLen (body ++ [c] ++ w)⟩
    ((readWithIncludes fs tokens rootPath rootContent).resolveSpan span).map (·.content) = some [] ∧
    (readWithIncludes fs tokens rootPath rootContent).errorSourceText span = none := by
  intro span
  obtain ⟨bs, k1, k2⟩ := C09_lookup hwf id path _ (byteLen p) (byteLen p + byteLen (body ++ [c] ++ w)) h
  have hs : slice (p ++ (body ++ [c] ++ w) ++ r) (byteLen p) (byteLen p + byteLen (body ++ [c] ++ w)) =
      some (body ++ [c] ++ w) := (slice_iff _ _ _ _).mpr ⟨p, r, rfl, rfl, rfl⟩
  have hbs : bs = ⟨id, byteLen p, byteLen p + byteLen body + 1⟩ := by
    unfold trimmedSpan at k1
    simp only [hs, trim_some p body c w r hc hw] at k1
    cases k1; rfl
  subst hbs
  have hslice : slice (p ++ (body ++ [c] ++ w) ++ r) (byteLen p) (byteLen p + byteLen body + 1) = none := by
    have := slice_inside (p ++ body) c (w ++ r) h1 (byteLen p)
    rw [byteLen_append] at this
    simpa using this
  obtain ⟨res, hres⟩ := C11_never_panics (fs := fs) (tokens := tokens) (rootPath := rootPath)
    (rootContent := rootContent) hwf span
  constructor
  · rw [hres]
    unfold Sources.resolveSpan at hres
    rw [k2] at hres
    simp only [resolveLines] at hres
    split at hres
    · cases hres
      simp only [Option.map_some, hslice]
      rfl
    · cases hres
  · unfold Sources.errorSourceText
    rw [k2]
    exact hslice

/-! ### A concrete case: a root file and a file which include each other -/

/-- Two files, `r` and `s`. -/
def exampleFS : FileSystem where
  glob p := .ok (if p = Path.ofStr (str "r") ∨ p = Path.ofStr (str "s") then [.path p] else [])
  canonicalize p := if p = Path.ofStr (str "r") ∨ p = Path.ofStr (str "s") then some p else none
  read p := if p = Path.ofStr (str "s") then .ok (str "é") else .error (str "no such file")
  files := [Path.ofStr (str "r"), Path.ofStr (str "s")]
  canonicalize_mem := by
    intro p c h
    split at h
    · rename_i h'
      cases h
      rcases h' with rfl | rfl <;> simp
    · cases h

/-- `r` includes `s` and both include `r`. -/
def exampleTokens (text : Str) : List Ranged :=
  if text = str "é" then [⟨.include, 0, 1⟩, ⟨.stringLiteral (str "r"), 1, 2⟩]
  else [⟨.include, 0, 1⟩, ⟨.stringLiteral (str "s"), 1, 2⟩, ⟨.eol, 2, 3⟩, ⟨.include, 3, 4⟩,
    ⟨.stringLiteral (str "r"), 4, 5⟩]

def exampleInit : ReadState := readInit exampleFS exampleTokens (some (Path.ofStr (str "r"))) (str "a b é ")

theorem readLoop_some {st st' : ReadState} (h : readStep fs tokens st = some st') :
    readLoop fs tokens st = readLoop fs tokens st' := by
  rw [readLoop]
  split
  · rename_i h'; rw [h] at h'; cases h'
  · rename_i h'; rw [h] at h'; cases h'; rfl

theorem readLoop_none {st : ReadState} (h : readStep fs tokens st = none) : readLoop fs tokens st = st := by
  rw [readLoop]
  split
  · rfl
  · rename_i h'; rw [h] at h'; cases h'

/-- The cyclic includes are read once each. -/
theorem example_result :
    readWithIncludes exampleFS exampleTokens (some (Path.ofStr (str "r"))) (str "a b é ") =
      { rootPath := some (Path.ofStr (str "r"))
        rootContent := str "a b é "
        rootCharIndices := [0, 1, 2, 3, 4, 6]
        globs := [(Path.ofStr (str "s"), .expanded [Path.ofStr (str "s")]),
          (Path.ofStr (str "r"), .expanded [Path.ofStr (str "r")])]
        content := [(Path.ofStr (str "s"), .content 1 (str "é") [0]), (Path.ofStr (str "r"), .duplicate)]
        ids := [str "r", str "s"]
        reads := [Path.ofStr (str "s")] } := by
  unfold readWithIncludes
  rw [readLoop_some rfl, readLoop_some rfl, readLoop_some rfl, readLoop_none rfl]
  rfl

/-- The hypotheses of the theorems above are met. -/
theorem exampleFS_wf : GlobsWF exampleFS := by
  intro p gs h g hg
  simp only [exampleFS] at h
  split at h
  · rename_i h'
    cases h
    simp only [List.mem_singleton] at hg
    subst hg
    rcases h' with rfl | rfl
    · exact Path.ofStr_wf (str "r")
    · exact Path.ofStr_wf (str "s")
  · cases h; cases hg

example : IsSource (readWithIncludes exampleFS exampleTokens (some (Path.ofStr (str "r"))) (str "a b é "))
    1 (some (Path.ofStr (str "s"))) (str "é") :=
  .inr ⟨_, [0], rfl, by rw [example_result]; simp⟩

/-- An instance of `C12_multibyte`: the error text of `é` at the end of the root file. -/
example : let _ := Unicode.latin1; let _ := PartitionPoint.linear
    ∀ s, s = readWithIncludes exampleFS exampleTokens (some (Path.ofStr (str "r"))) (str "a b é ") →
      s.errorSourceText ⟨0, 0, 7⟩ = none ∧ s.errorSourceText ⟨0, 0, 4⟩ = some (str "a b") := by
  intro _ _ s h
  rw [h, example_result]
  constructor <;> rfl

end Lima.Props
