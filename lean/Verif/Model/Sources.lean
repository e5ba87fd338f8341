import Verif.Model.Spans
import Verif.Model.Path
import Verif.Model.Token

/-!
# Reading sources and resolving spans, `/repo/src/sources.rs`

The file system is a parameter, unchanged while sources are read: glob expansion, canonical paths, file
contents.  The lexer is a parameter too: `tokens content` are the tokens of a file.  Source identifiers are
unbounded numbers (`u32` in the code).
-/

namespace Lima

/-- `IncludedGlob`, `/repo/src/lib.rs:96-100`. -/
inductive IncludedGlob where
  | expanded (paths : List Path)
  | error (e : Str)
deriving Repr, DecidableEq

/-- `IncludedSource`, `/repo/src/sources.rs:44-49`. -/
inductive IncludedSource where
  | content (id : Nat) (text : Str) (charIndices : List Nat)
  | error (e : Str)
  | duplicate
deriving Repr, DecidableEq

/-- A result of the glob iterator: a path, or an error about a path. -/
inductive Globbed where
  | path (p : Path)
  | error (p : Path) (e : Str)
deriving Repr, DecidableEq

/-- The path of a glob result. -/
def Globbed.thePath : Globbed → Path
  | .path p => p
  | .error p _ => p

/-- What the code asks of the file system.  `files` makes it finite. -/
structure FileSystem where
  glob : Path → Except Str (List Globbed)
  canonicalize : Path → Option Path
  read : Path → Except Str Str
  files : List Path
  canonicalize_mem : ∀ p c, canonicalize p = some c → c ∈ files

/-- `includes`, `/repo/src/parsers.rs:24-38`, on the whole token list: the strings right after `include`. -/
def includesOf : List Token → List Str
  | [] => []
  | .include :: .stringLiteral s :: ts => s :: includesOf ts
  | _ :: ts => includesOf ts

/-- `get_includes`, `/repo/src/lib.rs:103-125`. -/
def getIncludes (tokens : Str → List Ranged) (content : Str) : List Str :=
  includesOf ((tokens content).map (·.tok))

/-- The local state of `read_with_includes`, `/repo/src/sources.rs:63-79`; `reads` lists the paths given to
`read` so far. -/
structure ReadState where
  pending : List Path
  globs : List (Path × IncludedGlob)
  content : List (Path × IncludedSource)
  canonical : List Path
  ids : List Str
  reads : List Path

/-- One turn of the inner loop, `/repo/src/sources.rs:100-168`. -/
def readGlobbed (fs : FileSystem) (tokens : Str → List Ranged) (st : ReadState) (g : Globbed) : ReadState :=
  match g with
  | .error p e => { st with content := AMap.insert st.content p (.error e) }
  | .path p =>
    match fs.canonicalize p with
    | none => st
    | some c =>
      if c ∈ st.canonical then
        if AMap.has st.content p then st
        else { st with content := AMap.insert st.content p .duplicate }
      else
        let id := st.ids.length
        let st := { st with
          canonical := c :: st.canonical
          ids := st.ids ++ [p.render]
          reads := st.reads ++ [p] }
        match fs.read p with
        | .error e => { st with content := AMap.insert st.content p (.error (p.render ++ str ": " ++ e)) }
        | .ok text =>
          { st with
            content := AMap.insert st.content p (.content id text (charIndices text))
            pending := st.pending ++
              (getIncludes tokens text).map (fun i => resolveIncludedPath (some p) (Path.ofStr i)) }

/-- One turn of the outer loop, `/repo/src/sources.rs:81-173`; `none` when nothing is pending. -/
def readStep (fs : FileSystem) (tokens : Str → List Ranged) (st : ReadState) : Option ReadState :=
  match st.pending with
  | [] => none
  | included :: pending =>
    let st := { st with pending := pending }
    match fs.glob included with
    | .error e => some { st with globs := AMap.insert st.globs included (.error e) }
    | .ok gs =>
      let st := gs.foldl (readGlobbed fs tokens) st
      some { st with globs := AMap.insert st.globs included (.expanded (gs.map Globbed.thePath)) }

/-- How many canonical paths have not been seen. -/
def unseen (fs : FileSystem) (st : ReadState) : Nat :=
  (fs.files.filter (fun c => decide (c ∉ st.canonical))).length

theorem unseen_cons (l : List Path) (canonical : List Path) (c : Path) (hc : c ∈ l) (hn : c ∉ canonical) :
    (l.filter (fun x => decide (x ∉ c :: canonical))).length <
      (l.filter (fun x => decide (x ∉ canonical))).length := by
  have hle : ∀ l : List Path, (l.filter (fun x => decide (x ∉ c :: canonical))).length ≤
      (l.filter (fun x => decide (x ∉ canonical))).length := by
    intro l
    induction l with
    | nil => simp
    | cons x l ih =>
      by_cases h1 : x = c <;> by_cases h2 : x ∈ canonical <;> simp_all <;> omega
  induction l with
  | nil => cases hc
  | cons x l ih =>
    by_cases hx : x = c
    · subst hx
      have h1 := hle l
      rw [List.filter_cons_of_neg (by simp), List.filter_cons_of_pos (by simpa using hn), List.length_cons]
      omega
    · have : c ∈ l := by
        rcases List.mem_cons.mp hc with h | h
        · exact absurd h.symm hx
        · exact h
      have := ih this
      by_cases h2 : x ∈ canonical <;> simp_all

theorem readGlobbed_rank (fs : FileSystem) (tokens : Str → List Ranged) (st : ReadState) (g : Globbed) :
    unseen fs (readGlobbed fs tokens st g) < unseen fs st ∨
      (unseen fs (readGlobbed fs tokens st g) = unseen fs st ∧
        (readGlobbed fs tokens st g).pending = st.pending) := by
  unfold readGlobbed
  split
  · exact .inr ⟨rfl, rfl⟩
  · rename_i p
    split
    · exact .inr ⟨rfl, rfl⟩
    · rename_i c hc
      split
      · split
        · exact .inr ⟨rfl, rfl⟩
        · exact .inr ⟨rfl, rfl⟩
      · rename_i hn
        have := unseen_cons fs.files st.canonical c (fs.canonicalize_mem p c hc) hn
        left
        dsimp only
        split <;> exact this

theorem foldl_readGlobbed_rank (fs : FileSystem) (tokens : Str → List Ranged) (gs : List Globbed)
    (st : ReadState) :
    unseen fs (gs.foldl (readGlobbed fs tokens) st) < unseen fs st ∨
      (unseen fs (gs.foldl (readGlobbed fs tokens) st) = unseen fs st ∧
        (gs.foldl (readGlobbed fs tokens) st).pending = st.pending) := by
  induction gs generalizing st with
  | nil => exact .inr ⟨rfl, rfl⟩
  | cons g gs ih =>
    rw [List.foldl_cons]
    have h1 := ih (readGlobbed fs tokens st g)
    have h2 := readGlobbed_rank fs tokens st g
    rcases h1 with h1 | ⟨h1, h1'⟩ <;> rcases h2 with h2 | ⟨h2, h2'⟩
    · left; omega
    · left; omega
    · left; omega
    · right; exact ⟨by omega, by rw [h1', h2']⟩

theorem readStep_rank (fs : FileSystem) (tokens : Str → List Ranged) (st st' : ReadState)
    (h : readStep fs tokens st = some st') :
    unseen fs st' < unseen fs st ∨
      (unseen fs st' = unseen fs st ∧ st'.pending.length < st.pending.length) := by
  unfold readStep at h
  split at h
  · cases h
  · rename_i included pending hp
    dsimp only at h
    split at h
    · cases h
      exact .inr ⟨rfl, by simp [hp]⟩
    · rename_i gs _
      cases h
      have := foldl_readGlobbed_rank fs tokens gs { st with pending := pending }
      rcases this with h1 | ⟨h1, h2⟩
      · exact .inl h1
      · refine .inr ⟨h1, ?_⟩
        simp only [h2, hp]
        simp

/-- The loop of `read_with_includes`, `/repo/src/sources.rs:81-173`. -/
def readLoop (fs : FileSystem) (tokens : Str → List Ranged) (st : ReadState) : ReadState :=
  match h : readStep fs tokens st with
  | none => st
  | some st' => readLoop fs tokens st'
termination_by (unseen fs st, st.pending.length)
decreasing_by
  rcases readStep_rank fs tokens st st' h with h | ⟨h1, h2⟩
  · exact Prod.Lex.left _ _ h
  · rw [h1]; exact Prod.Lex.right _ h2

/-- `BeancountSources`, `/repo/src/sources.rs:33-42`.  `reads` is the log of files read. -/
structure Sources where
  rootPath : Option Path
  rootContent : Str
  rootCharIndices : List Nat
  globs : List (Path × IncludedGlob)
  content : List (Path × IncludedSource)
  ids : List Str
  reads : List Path

/-- The state before the loop, `/repo/src/sources.rs:58-79`. -/
def readInit (fs : FileSystem) (tokens : Str → List Ranged) (rootPath : Option Path) (rootContent : Str) :
    ReadState :=
  { pending := (getIncludes tokens rootContent).map (fun i => resolveIncludedPath rootPath (Path.ofStr i))
    globs := []
    content := []
    canonical := (rootPath.bind fs.canonicalize).toList
    ids := [(rootPath.map Path.render).getD (str "inline")]
    reads := [] }

/-- `read_with_includes`, `/repo/src/sources.rs:57-189`. -/
def readWithIncludes (fs : FileSystem) (tokens : Str → List Ranged) (rootPath : Option Path)
    (rootContent : Str) : Sources :=
  let st := readLoop fs tokens (readInit fs tokens rootPath rootContent)
  { rootPath
    rootContent
    rootCharIndices := charIndices rootContent
    globs := st.globs
    content := st.content
    ids := st.ids
    reads := st.reads }

/-- `get_adjusted_source`, `/repo/src/sources.rs:294-324`: content, source name, byte span, rune span; `none`
is a panic. -/
def Sources.adjusted [Unicode] [PartitionPoint] (s : Sources) (span : Span) :
    Option (Str × Str × Span × Span) :=
  let safe : Span := if span.source ≥ s.ids.length then ⟨0, 0, 0⟩ else span
  match s.ids[safe.source]? with
  | none => none
  | some idStr =>
    let found : Option (Str × List Nat) :=
      if safe.source = 0 then some (s.rootContent, s.rootCharIndices)
      else
        match AMap.get s.content (Path.ofStr idStr) with
        | none => none
        | some (.content _ text indices) => some (text, indices)
        | some _ => some ([], [])
    match found with
    | none => none
    | some (text, indices) =>
      match trimmedSpan text safe with
      | none => none
      | some byteSpan => some (text, idStr, byteSpan, byteToRune indices byteSpan)

/-- `BeancountSources::resolve_span`, `/repo/src/sources.rs:245-276`; `none` is a panic. -/
def Sources.resolveSpan [Unicode] [PartitionPoint] (s : Sources) (span : Span) : Option SpannedSource :=
  match s.adjusted span with
  | none => none
  | some (text, idStr, byteSpan, runeSpan) =>
    let fileName := if span.source = 0 then (if s.rootPath.isSome then some idStr else none) else some idStr
    resolveLines fileName text byteSpan runeSpan

/-- `error_source_text`, `/repo/src/sources.rs:285-292`, of the span of the error; `none` is a panic. -/
def Sources.errorSourceText [Unicode] [PartitionPoint] (s : Sources) (span : Span) : Option Str :=
  match s.adjusted span with
  | none => none
  | some (text, _, byteSpan, _) => slice text byteSpan.start byteSpan.stop

/-- `content_iter`, `/repo/src/sources.rs:352-369`: root first, then the included files in the order of the
hash map, here the list order. -/
def Sources.contentIter (s : Sources) : List (Nat × Option Path × Str) :=
  (0, s.rootPath, s.rootContent) ::
    s.content.filterMap (fun e =>
      match e.2 with
      | .content id text _ => some (id, some e.1, text)
      | _ => none)

/-- `error_paths`, `/repo/src/sources.rs:384-395`. -/
def Sources.errorPaths (s : Sources) : List (Option Path × Str) :=
  s.content.filterMap (fun e =>
    match e.2 with
    | .error m => some (some e.1, m)
    | _ => none)

/-! ## Synthetic sources -/

/-- `SyntheticSources`, `/repo/src/sources.rs:447-453`. -/
structure Synthetic where
  sources : Sources
  baseId : Nat
  content : List (Str × (Nat × Str × List Nat))
  ids : List Str

/-- `SyntheticSources::new`, `/repo/src/sources.rs:456-463`. -/
def Synthetic.new (sources : Sources) : Synthetic := ⟨sources, sources.ids.length, [], []⟩

/-- `create_synthetic_span`, `/repo/src/sources.rs:479-517`. -/
def Synthetic.create (s : Synthetic) (name fragment : Str) : Span × Synthetic :=
  match AMap.get s.content name with
  | some (id, content, indices) =>
    let start := byteLen content
    let indices' := indices ++ (charIndices fragment).map (fun i => i + indices.length)
    (⟨id, start, start + byteLen fragment⟩,
      { s with content := AMap.insert s.content name (id, content ++ fragment, indices') })
  | none =>
    let source := s.ids.length + s.baseId
    (⟨source, 0, byteLen fragment⟩,
      { s with
        ids := s.ids ++ [name]
        content := AMap.insert s.content name (source, fragment, charIndices fragment) })

/-- `SyntheticSources::get_adjusted_source`, `/repo/src/sources.rs:576-591`; `none` is a panic. -/
def Synthetic.adjusted [Unicode] [PartitionPoint] (s : Synthetic) (span : Span) :
    Option (Str × Str × Span × Span) :=
  if span.source ≥ s.baseId ∧ span.source < s.baseId + s.ids.length then
    match s.ids[span.source - s.baseId]? with
    | none => none
    | some idStr =>
      match AMap.get s.content idStr with
      | none => none
      | some (_, content, indices) =>
        match trimmedSpan content span with
        | none => none
        | some byteSpan => some (content, idStr, byteSpan, byteToRune indices byteSpan)
  else s.sources.adjusted span

/-- `SyntheticSources::resolve_span`, `/repo/src/sources.rs:563-565`. -/
def Synthetic.resolveSpan [Unicode] [PartitionPoint] (s : Synthetic) (span : Span) : Option SpannedSource :=
  match s.adjusted span with
  | none => none
  | some (text, idStr, byteSpan, runeSpan) => resolveLines (some idStr) text byteSpan runeSpan

/-- `SyntheticSources::error_source_text`, `/repo/src/sources.rs:567-574`, of the span of the error; `none` is
a panic. -/
def Synthetic.errorSourceText [Unicode] [PartitionPoint] (s : Synthetic) (span : Span) : Option Str :=
  match s.adjusted span with
  | none => none
  | some (text, _, byteSpan, _) => slice text byteSpan.start byteSpan.stop

end Lima
