import Verif.Spec.RootName
import Verif.Lemmas.ReviseRead

/-! Two roots in the same directory. -/

set_option linter.unusedSectionVars false

namespace Lima.RootName
open Lima Spec Grammar

/-! ### Reading -/

/-- The same state of reading, but that other canonical paths are taken from the beginning. -/
structure Ext (e e' : List Path) (st st' : ReadState) : Prop where
  pending : st'.pending = st.pending
  globs : st'.globs = st.globs
  content : st'.content = st.content
  reads : st'.reads = st.reads
  canonical : ∃ base, st.canonical = base ++ e ∧ st'.canonical = base ++ e'
  ids : ∃ i i' rest, st.ids = i :: rest ∧ st'.ids = i' :: rest

/-- No file has one of the canonical paths. -/
def Away (fs : FileSystem) (e : List Path) (content : List (Path × IncludedSource)) : Prop :=
  ∀ q, AMap.has content q = true → ∀ c ∈ e, fs.canonicalize q ≠ some c

section
variable {fs : FileSystem} {tokens : Str → List Ranged} {e e' : List Path}

theorem has_readGlobbed (st : ReadState) (g : Globbed) {q : Path} (h : AMap.has st.content q = true) :
    AMap.has (readGlobbed fs tokens st g).content q = true := by
  unfold readGlobbed
  split
  · exact AMap.has_insert_of h
  · split
    · exact h
    · split
      · split
        · exact h
        · exact AMap.has_insert_of h
      · dsimp only
        split
        · exact AMap.has_insert_of h
        · exact AMap.has_insert_of h

theorem has_self (st : ReadState) {p c : Path} (hc : fs.canonicalize p = some c) :
    AMap.has (readGlobbed fs tokens st (.path p)).content p = true := by
  unfold readGlobbed
  dsimp only
  rw [hc]
  dsimp only
  split
  · split
    · assumption
    · rw [AMap.has_insert]; simp
  · split <;> (dsimp only; rw [AMap.has_insert]; simp)

theorem has_foldl (gs : List Globbed) (st : ReadState) {q : Path} (h : AMap.has st.content q = true) :
    AMap.has (gs.foldl (readGlobbed fs tokens) st).content q = true := by
  induction gs generalizing st with
  | nil => exact h
  | cons g gs ih => exact ih _ (has_readGlobbed st g h)

theorem has_step {st st' : ReadState} (hs : readStep fs tokens st = some st') {q : Path} (h : AMap.has st.content q = true) :
    AMap.has st'.content q = true := by
  unfold readStep at hs
  split at hs
  · cases hs
  · dsimp only at hs
    split at hs
    · cases hs; exact h
    · cases hs
      exact has_foldl _ _ h

theorem has_loop (st : ReadState) {q : Path} (h : AMap.has st.content q = true) :
    AMap.has (readLoop fs tokens st).content q = true := by
  fun_induction readLoop fs tokens st with
  | case1 st hn => exact h
  | case2 st st' hn ih => exact ih (has_step hn h)

theorem readGlobbed_ext {st st' : ReadState} (h : Ext e e' st st') (g : Globbed)
    (ha : Away fs e (readGlobbed fs tokens st g).content) (ha' : Away fs e' (readGlobbed fs tokens st g).content) :
    Ext e e' (readGlobbed fs tokens st g) (readGlobbed fs tokens st' g) := by
  obtain ⟨h1, h2, h3, h4, ⟨base, h5, h6⟩, ⟨i, i', rest, h7, h8⟩⟩ := h
  cases g with
  | error p m =>
    unfold readGlobbed
    exact ⟨h1, h2, by dsimp only; rw [h3], h4, ⟨base, h5, h6⟩, ⟨i, i', rest, h7, h8⟩⟩
  | path p =>
    cases hc : fs.canonicalize p with
    | none =>
      unfold readGlobbed
      dsimp only
      rw [hc]
      exact ⟨h1, h2, h3, h4, ⟨base, h5, h6⟩, ⟨i, i', rest, h7, h8⟩⟩
    | some c =>
      have hself := has_self (tokens := tokens) st hc
      have hn : c ∉ e := fun hm => ha p hself c hm hc
      have hn' : c ∉ e' := fun hm => ha' p hself c hm hc
      unfold readGlobbed
      dsimp only
      rw [hc]
      dsimp only
      have m1 : c ∈ st.canonical ↔ c ∈ base := by rw [h5]; simp [hn]
      have m2 : c ∈ st'.canonical ↔ c ∈ base := by rw [h6]; simp [hn']
      by_cases hb : c ∈ base
      · rw [if_pos (m1.mpr hb), if_pos (m2.mpr hb), h3]
        split
        · exact ⟨h1, h2, h3, h4, ⟨base, h5, h6⟩, ⟨i, i', rest, h7, h8⟩⟩
        · exact ⟨h1, h2, rfl, h4, ⟨base, h5, h6⟩, ⟨i, i', rest, h7, h8⟩⟩
      · rw [if_neg (fun x => hb (m1.mp x)), if_neg (fun x => hb (m2.mp x))]
        have hl : st'.ids.length = st.ids.length := by rw [h7, h8]; rfl
        cases fs.read p with
        | error m =>
          exact ⟨h1, h2, by dsimp only; rw [h3], by dsimp only; rw [h4], ⟨c :: base, by simp [h5], by simp [h6]⟩,
            ⟨i, i', rest ++ [p.render], by simp [h7], by simp [h8]⟩⟩
        | ok text =>
          exact ⟨by dsimp only; rw [h1], h2, by dsimp only; rw [h3, hl], by dsimp only; rw [h4],
            ⟨c :: base, by simp [h5], by simp [h6]⟩, ⟨i, i', rest ++ [p.render], by simp [h7], by simp [h8]⟩⟩

theorem foldl_ext (gs : List Globbed) {st st' : ReadState} (h : Ext e e' st st')
    (ha : Away fs e (gs.foldl (readGlobbed fs tokens) st).content)
    (ha' : Away fs e' (gs.foldl (readGlobbed fs tokens) st).content) :
    Ext e e' (gs.foldl (readGlobbed fs tokens) st) (gs.foldl (readGlobbed fs tokens) st') := by
  induction gs generalizing st st' with
  | nil => exact h
  | cons g gs ih =>
    refine ih (readGlobbed_ext h g (fun q hq => ha q ?_) (fun q hq => ha' q ?_)) ha ha'
    · exact has_foldl gs _ hq
    · exact has_foldl gs _ hq

theorem readStep_ext {st st' st1 : ReadState} (h : Ext e e' st st') (hs : readStep fs tokens st = some st1)
    (ha : Away fs e st1.content) (ha' : Away fs e' st1.content) :
    ∃ st1', readStep fs tokens st' = some st1' ∧ Ext e e' st1 st1' := by
  unfold readStep at hs ⊢
  rw [h.pending]
  split at hs
  · cases hs
  · rename_i p ps hp
    dsimp only at hs ⊢
    cases hg : fs.glob p with
    | error m =>
      rw [hg] at hs
      cases hs
      exact ⟨_, rfl, rfl, by dsimp only; rw [h.globs], h.content, h.reads, h.canonical, h.ids⟩
    | ok gs =>
      rw [hg] at hs
      dsimp only at hs ⊢
      cases hs
      have := foldl_ext (fs := fs) (tokens := tokens) gs (st := { st with pending := ps }) (st' := { st' with pending := ps })
        ⟨rfl, h.globs, h.content, h.reads, h.canonical, h.ids⟩ ha ha'
      exact ⟨_, rfl, this.pending, by dsimp only; rw [this.globs], this.content, this.reads, this.canonical, this.ids⟩

theorem readLoop_ext (st : ReadState) : ∀ st' : ReadState, Ext e e' st st' → Away fs e (readLoop fs tokens st).content →
    Away fs e' (readLoop fs tokens st).content → Ext e e' (readLoop fs tokens st) (readLoop fs tokens st') := by
  fun_induction readLoop fs tokens st with
  | case1 st hn =>
    intro st' h _ _
    have hn' : readStep fs tokens st' = none := by
      unfold readStep at hn ⊢
      rw [h.pending]
      split at hn
      · rfl
      · dsimp only at hn
        split at hn <;> cases hn
    rw [Layout.readLoop_none hn']
    exact h
  | case2 st st1 hn ih =>
    intro st' h ha ha'
    obtain ⟨st1', h1, h2⟩ := readStep_ext h hn (fun q hq => ha q (has_loop _ hq)) (fun q hq => ha' q (has_loop _ hq))
    rw [Layout.readLoop_some h1]
    exact ih _ h2 ha ha'

/-- Two roots from which the same paths are resolved. -/
structure Alike (r r' : Option Path) : Prop where
  resolve : ∀ p, resolveIncludedPath r' p = resolveIncludedPath r p
  documents : ∀ v, (match r'.bind Path.parent with | none => Path.ofStr v | some d => d.join (Path.ofStr v)) =
    match r.bind Path.parent with | none => Path.ofStr v | some d => d.join (Path.ofStr v)

/-- Sources with another root. -/
structure Rooted (s s' : Sources) : Prop where
  rootContent : s'.rootContent = s.rootContent
  rootCharIndices : s'.rootCharIndices = s.rootCharIndices
  globs : s'.globs = s.globs
  content : s'.content = s.content
  ids : ∃ i i' rest, s.ids = i :: rest ∧ s'.ids = i' :: rest
  reads : s'.reads = s.reads

theorem read_rooted {r r' : Option Path} (hr : Alike r r') {text : Str}
    (ha : Away fs (r.bind fs.canonicalize).toList (readWithIncludes fs tokens r text).content)
    (ha' : Away fs (r'.bind fs.canonicalize).toList (readWithIncludes fs tokens r text).content) :
    Rooted (readWithIncludes fs tokens r text) (readWithIncludes fs tokens r' text) := by
  have := readLoop_ext (fs := fs) (tokens := tokens) (readInit fs tokens r text) (readInit fs tokens r' text)
    ⟨by unfold readInit; dsimp only; simp only [hr.resolve], rfl, rfl, rfl, ⟨[], rfl, rfl⟩, ⟨_, _, [], rfl, rfl⟩⟩ ha ha'
  exact ⟨rfl, rfl, this.globs, this.content, this.ids, this.reads⟩

theorem read_rooted_some (hwf : GlobsWF fs) {r r' : Option Path} (hr : Alike r r') {text : Str} {s s' : Sources}
    (hs : ReadInSomeOrder fs tokens r text s) (hs' : ReadInSomeOrder fs tokens r' text s') (hv : SameVisits s s')
    (ha : Away fs (r.bind fs.canonicalize).toList s.content) (ha' : Away fs (r'.bind fs.canonicalize).toList s.content) :
    Rooted s s' ∧ s.rootPath = r ∧ s'.rootPath = r' := by
  obtain ⟨c, p, rfl⟩ := hs
  obtain ⟨c', p', rfl⟩ := hs'
  have hm : ∀ q, AMap.has (readWithIncludes fs tokens r text).content q = true → AMap.has c q = true := by
    intro q hq
    rw [AMap.has_iff] at hq ⊢
    obtain ⟨x, h1, h2⟩ := hq
    exact ⟨x, p.mem_iff.mp h1, h2⟩
  have h := read_rooted hr (text := text) (fun q hq => ha q (hm q hq)) (fun q hq => ha' q (hm q hq))
  have hn : (c.map (·.1)).Nodup := ((read_complete hwf).perm p).keys
  have hc : c' = c := Revise.eq_of_keys (p.symm.trans (h.content ▸ p')) hn hv
  subst hc
  exact ⟨⟨h.rootContent, h.rootCharIndices, h.globs, rfl, h.ids, h.reads⟩, rfl, rfl⟩

end

/-! ### Parsing -/

section
variable [Unicode] [DecOps] {r r' : Option Path}

theorem option_alike (hr : Alike r r') (decimal : Str → Except LexerError Dec) (name value : Str) :
    OptVariant.parse decimal name value r' = OptVariant.parse decimal name value r := by
  unfold OptVariant.parse
  have h := hr.documents value
  cases h1 : r.bind Path.parent <;> cases h2 : r'.bind Path.parent <;> rw [h1, h2] at h <;> dsimp only at h ⊢
  · rw [h]
  · rw [← h]
  · rw [h]

theorem assimilateOption_alike (hr : Alike r r') (id : Nat) (e : List Ranged → Span) (d : Str → Except LexerError Dec) :
    assimilateOption ⟨id, r', e, d⟩ = assimilateOption ⟨id, r, e, d⟩ := by
  funext name value s
  unfold assimilateOption BOption.parse
  dsimp only
  rw [option_alike hr]

theorem pragma_alike (hr : Alike r r') (id : Nat) (e : List Ranged → Span) (d : Str → Except LexerError Dec) :
    pragma ⟨id, r', e, d⟩ = pragma ⟨id, r, e, d⟩ := by
  have ho : Grammar.option ⟨id, r', e, d⟩ = Grammar.option ⟨id, r, e, d⟩ := by
    unfold Grammar.option
    rw [assimilateOption_alike hr]
    rfl
  unfold pragma
  rw [ho]
  rfl

theorem directive_alike (id : Nat) (e : List Ranged → Span) (d : Str → Except LexerError Dec) :
    directive ⟨id, r', e, d⟩ = directive ⟨id, r, e, d⟩ := rfl

theorem parseFile_alike (hr : Alike r r') (id : Nat) (e : List Ranged → Span) (d : Str → Except LexerError Dec) :
    parseFile ⟨id, r', e, d⟩ = parseFile ⟨id, r, e, d⟩ := by
  have hd : declaration ⟨id, r', e, d⟩ = declaration ⟨id, r, e, d⟩ := by
    unfold declaration
    rw [pragma_alike hr, directive_alike (r := r)]
    rfl
  funext toks o w
  unfold parseFile file
  rw [hd]

/-! ### The files -/

/-- The same files, but that the root has another path. -/
structure Keyed (r r' : Option Path) (o o' : List (Option Path × List (Spanned Declaration))) : Prop where
  keyed : ∃ ds rest, o = (r, ds) :: rest ∧ o' = (r', ds) :: rest ∧ ∀ x ∈ rest, x.1 ≠ r ∧ x.1 ≠ r'

theorem insert_keyed {o o' : List (Option Path × List (Spanned Declaration))} (h : Keyed r r' o o') {k : Option Path}
    (hk : k ≠ r) (hk' : k ≠ r') (ds : List (Spanned Declaration)) : Keyed r r' (AMap.insert o k ds) (AMap.insert o' k ds) := by
  obtain ⟨d, rest, rfl, rfl, hrest⟩ := h
  have e1 : ∀ x : Option Path, k ≠ x → AMap.insert ((x, d) :: rest) k ds = (x, d) :: AMap.insert rest k ds := by
    intro x hx
    unfold AMap.insert AMap.has
    rw [List.any_cons]
    have : decide (x = k) = false := by simp [hx.symm]
    simp only [this, Bool.false_or]
    split
    · simp [hx.symm]
    · rfl
  refine ⟨d, AMap.insert rest k ds, e1 r hk, e1 r' hk', ?_⟩
  intro x hx
  rcases AMap.mem_insert hx with rfl | hx
  · exact ⟨hk, hk'⟩
  · exact hrest x hx.1

structure KeyedFiles (r r' : Option Path) (x x' : ParsedFiles) : Prop where
  outputs : Keyed r r' x.outputs x'.outputs
  errors : x'.errors = x.errors
  opts : x'.opts = x.opts
  warns : x'.warns = x.warns

inductive KeyedOpt (r r' : Option Path) : Option ParsedFiles → Option ParsedFiles → Prop
  | none : KeyedOpt r r' none none
  | some {x x' : ParsedFiles} (h : KeyedFiles r r' x x') : KeyedOpt r r' (some x) (some x')

theorem parseOne_keyed (env : ParseEnv) (tokenized : List (List Ranged)) {acc acc' : ParsedFiles} (h : KeyedFiles r r' acc acc')
    {e : Nat × Option Path × Str} (he : e.2.1 ≠ r) (he' : e.2.1 ≠ r') :
    KeyedOpt r r' (parseOne env tokenized acc e) (parseOne env tokenized acc' e) := by
  unfold parseOne
  rw [h.opts, h.warns, h.errors]
  split
  · exact .none
  · split
    · exact .none
    · exact .some ⟨insert_keyed h.outputs he he' _, rfl, rfl, rfl⟩

theorem foldlM_keyed (env : ParseEnv) (tokenized : List (List Ranged)) (es : List (Nat × Option Path × Str))
    (he : ∀ e ∈ es, e.2.1 ≠ r ∧ e.2.1 ≠ r') {acc acc' : ParsedFiles} (h : KeyedFiles r r' acc acc') :
    KeyedOpt r r' (es.foldlM (parseOne env tokenized) acc) (es.foldlM (parseOne env tokenized) acc') := by
  induction es generalizing acc acc' with
  | nil => exact .some h
  | cons e es ih =>
    rw [List.foldlM_cons, List.foldlM_cons]
    have := parseOne_keyed env tokenized h (he e (by simp)).1 (he e (by simp)).2
    generalize parseOne env tokenized acc e = x at this
    generalize parseOne env tokenized acc' e = x' at this
    cases this with
    | none => exact .none
    | some h => exact ih (fun e' h' => he e' (by simp [h'])) h

/-! ### Pragmas -/

/-- A path is the other root's instead of the root's. -/
def ren (r r' : Option Path) (p : Option Path) : Option Path := if p = r then r' else p

def renState (r r' : Option Path) (st : PragmaState) : PragmaState :=
  { st with currentPath := ren r r' st.currentPath, stacked := st.stacked.map (fun f => (ren r r' f.1, f.2)) }

theorem ren_resolve (hr : Alike r r') (p : Option Path) (q : Path) :
    resolveIncludedPath (ren r r' p) q = resolveIncludedPath p q := by
  unfold ren
  split
  · rename_i h; rw [h, hr.resolve]
  · rfl

/-- No file left has the path of the root. -/
def Left (r : Option Path) (st : PragmaState) : Prop := AMap.has st.remaining r = false

theorem includeOne_ren (env : PragmaEnv) (span : Span) (st : PragmaState) (p : Path) (hl : Left r st) :
    PragmaState.includeOne env span (renState r r' st) p = renState r r' (PragmaState.includeOne env span st p) ∧
      Left r (PragmaState.includeOne env span st p) := by
  unfold PragmaState.includeOne
  have hrem : (renState r r' st).remaining = st.remaining := rfl
  rw [hrem]
  cases hg : AMap.get st.remaining (some p) with
  | none => exact ⟨rfl, hl⟩
  | some ds =>
    dsimp only
    have hp : some p ≠ r := by
      rintro rfl
      unfold Left at hl
      rw [AMap.has_eq_isSome, hg] at hl
      cases hl
    refine ⟨?_, ?_⟩
    · unfold renState
      dsimp only
      rw [List.map_cons]
      simp only [ren, if_neg hp]
    · unfold Left at hl ⊢
      dsimp only
      rw [Bool.eq_false_iff] at hl ⊢
      intro hh
      apply hl
      rw [AMap.has_iff] at hh ⊢
      obtain ⟨x, h1, h2⟩ := hh
      exact ⟨x, (List.mem_filter.mp h1).1, h2⟩

theorem foldl_ren (env : PragmaEnv) (span : Span) (ps : List Path) (st : PragmaState) (hl : Left r st) :
    ps.foldl (PragmaState.includeOne env span) (renState r r' st) = renState r r' (ps.foldl (PragmaState.includeOne env span) st) ∧
      Left r (ps.foldl (PragmaState.includeOne env span) st) := by
  induction ps generalizing st with
  | nil => exact ⟨rfl, hl⟩
  | cons p ps ih =>
    rw [List.foldl_cons, List.foldl_cons]
    obtain ⟨h1, h2⟩ := includeOne_ren (r' := r') env span st p hl
    rw [h1]
    exact ih _ h2

theorem includeGlob_ren (hr : Alike r r') (env : PragmaEnv) (st : PragmaState) (g : Spanned Str) (hl : Left r st) :
    (renState r r' st).includeGlob env g = (st.includeGlob env g).map (renState r r') ∧
      ∀ st', st.includeGlob env g = some st' → Left r st' := by
  unfold PragmaState.includeGlob
  have : (renState r r' st).currentPath = ren r r' st.currentPath := rfl
  rw [this, ren_resolve hr]
  split
  · exact ⟨rfl, by simp⟩
  · rename_i paths _
    dsimp only
    by_cases hp : paths.isEmpty
    · rw [if_pos hp, if_pos hp]
      obtain ⟨h1, h2⟩ := foldl_ren (r' := r') env g.span paths
        { st with data := st.data.report (Report.new (str "include failed") (str "no such file") g.span) } hl
      exact ⟨by rw [Option.map_some, ← h1]; rfl, by rintro st' hh; cases hh; exact h2⟩
    · rw [if_neg hp, if_neg hp]
      obtain ⟨h1, h2⟩ := foldl_ren (r' := r') env g.span paths st hl
      exact ⟨by rw [Option.map_some, ← h1], by rintro st' hh; cases hh; exact h2⟩
  · exact ⟨rfl, by rintro st' hh; cases hh; exact hl⟩

/-- What a turn is, the root having another path. -/
def renTurn (r r' : Option Path) : Turn → Turn
  | .yield d st => .yield d (renState r r' st)
  | .continue st => .continue (renState r r' st)
  | .done => .done
  | .panic => .panic

def LeftTurn (r : Option Path) : Turn → Prop
  | .yield _ st => Left r st
  | .continue st => Left r st
  | _ => True

theorem step_ren (hr : Alike r r') (env : PragmaEnv) (st : PragmaState) (hl : Left r st) :
    (renState r r' st).step env = renTurn r r' (st.step env) ∧ LeftTurn r (st.step env) := by
  unfold PragmaState.step
  have hcur : (renState r r' st).current = st.current := rfl
  have hdata : (renState r r' st).data = st.data := rfl
  rw [hcur]
  cases st.current with
  | nil =>
    have hst : (renState r r' st).stacked = st.stacked.map (fun f => (ren r r' f.1, f.2)) := rfl
    dsimp only
    rw [hst]
    cases st.stacked with
    | nil => exact ⟨rfl, trivial⟩
    | cons f fs => exact ⟨rfl, hl⟩
  | cons d rest =>
    dsimp only
    cases d.item with
    | directive dir =>
      dsimp only
      rw [hdata]
      cases st.data.augment dir with
      | none => exact ⟨rfl, trivial⟩
      | some x => exact ⟨rfl, hl⟩
    | pragma pr =>
      cases pr with
      | «include» g =>
        dsimp only
        obtain ⟨h1, h2⟩ := includeGlob_ren hr env { st with current := rest } g hl
        have e : (renState r r' { st with current := rest }) = { renState r r' st with current := rest } := rfl
        rw [e] at h1
        rw [h1]
        cases hg : PragmaState.includeGlob env { st with current := rest } g with
        | none => exact ⟨rfl, trivial⟩
        | some st' => exact ⟨rfl, h2 _ hg⟩
      | _ => exact ⟨rfl, hl⟩

theorem collectFuel_ren (hr : Alike r r') (env : PragmaEnv) (n : Nat) (st : PragmaState) (hl : Left r st) :
    (renState r r' st).collectFuel env n = (st.collectFuel env n).map (fun x => (x.1, renState r r' x.2)) := by
  induction n generalizing st with
  | zero => rfl
  | succ n ih =>
    unfold PragmaState.collectFuel
    obtain ⟨h1, h2⟩ := step_ren hr env st hl
    rw [h1]
    generalize st.step env = x at h2
    cases x with
    | yield d st' =>
      dsimp only [renTurn]
      rw [ih st' h2]
      cases PragmaState.collectFuel env n st' <;> rfl
    | «continue» st' => exact ih st' h2
    | done => rfl
    | panic => rfl

theorem size_ren (st : PragmaState) : (renState r r' st).size = st.size := by
  unfold PragmaState.size renState
  dsimp only
  rw [List.map_map]
  rfl

theorem process_keyed (hr : Alike r r') (env : PragmaEnv) {o o' : List (Option Path × List (Spanned Declaration))}
    (h : Keyed r r' o o') (options : Options) : processPragmas env r' o' options = processPragmas env r o options := by
  obtain ⟨ds, rest, rfl, rfl, hrest⟩ := h
  have hget : ∀ x : Option Path, AMap.get ((x, ds) :: rest) x = some ds := by intro x; rw [AMap.get_cons]; simp
  have herase : ∀ x : Option Path, (∀ y ∈ rest, y.1 ≠ x) → AMap.erase ((x, ds) :: rest) x = rest := by
    intro x hx
    unfold AMap.erase
    rw [List.filter_cons_of_neg (by simp), List.filter_eq_self]
    intro y hy
    simpa using hx y hy
  unfold processPragmas PragmaState.new
  rw [hget, hget]
  dsimp only
  rw [herase r (fun y hy => (hrest y hy).1), herase r' (fun y hy => (hrest y hy).2)]
  generalize hst : (⟨r, ds, [], rest, _⟩ : PragmaState) = st
  have hst' : (⟨r', ds, [], rest, ⟨[], [], [], options, [], []⟩⟩ : PragmaState) = renState r r' st := by
    rw [← hst]
    unfold renState ren
    simp
  rw [hst']
  unfold PragmaState.collect
  rw [size_ren, collectFuel_ren hr env _ st]
  · cases PragmaState.collectFuel env (st.size + 1) st <;> rfl
  · unfold Left
    rw [← hst, Bool.eq_false_iff]
    intro hh
    rw [AMap.has_iff] at hh
    obtain ⟨x, h1, h2⟩ := hh
    exact (hrest x h1).1 h2

/-! ### The whole -/

theorem contentIter_rooted {s s' : Sources} (h : Rooted s s') : ∃ es, s.contentIter = (0, s.rootPath, s.rootContent) :: es ∧
    s'.contentIter = (0, s'.rootPath, s.rootContent) :: es ∧ ∀ e ∈ es, ∃ q, e.2.1 = some q ∧ q ∈ s.content.map (·.1) := by
  unfold Sources.contentIter
  rw [h.rootContent, h.content]
  refine ⟨_, rfl, rfl, ?_⟩
  intro e he
  obtain ⟨x, h1, h2⟩ := List.mem_filterMap.mp he
  split at h2
  · cases h2
    exact ⟨_, rfl, List.mem_map_of_mem h1⟩
  · cases h2

theorem parse_rooted (env : ParseEnv) {s s' : Sources} (h : Rooted s s') (hr : Alike s.rootPath s'.rootPath)
    (h1 : ∀ q ∈ s.content.map (·.1), some q ≠ s.rootPath ∧ some q ≠ s'.rootPath) :
    parseSources env s' = parseSources env s := by
  obtain ⟨es, e1, e2, e3⟩ := contentIter_rooted h
  have hnew : BeancountParser.new env s' = (BeancountParser.new env s).map (fun p => ⟨s', p.tokenized⟩) := by
    unfold BeancountParser.new
    have hids : s'.ids.length = s.ids.length := by
      obtain ⟨i, i', rest, h1, h2⟩ := h.ids
      rw [h1, h2]; rfl
    rw [hids, e1, e2, List.foldlM_cons, List.foldlM_cons]
    have : ∀ t, tokenizeOne env.tokens t (0, s'.rootPath, s.rootContent) = tokenizeOne env.tokens t (0, s.rootPath, s.rootContent) :=
      fun t => rfl
    rw [this, Option.map_map]
    rfl
  unfold parseSources
  rw [hnew]
  cases hp : BeancountParser.new env s with
  | none => rfl
  | some p =>
    have hsrc : p.sources = s := by
      unfold BeancountParser.new at hp
      obtain ⟨t, _, rfl⟩ := Option.map_eq_some_iff.mp hp
      rfl
    rw [Option.map_some]
    dsimp only
    unfold BeancountParser.parse
    have hkey : KeyedOpt s.rootPath s'.rootPath (BeancountParser.parseDeclarations env p)
        (BeancountParser.parseDeclarations env ⟨s', p.tokenized⟩) := by
      unfold BeancountParser.parseDeclarations
      dsimp only
      rw [hsrc, e1, e2, List.foldlM_cons, List.foldlM_cons]
      have : KeyedOpt s.rootPath s'.rootPath
          (parseOne env p.tokenized ⟨[], [], ParserOptions.default, []⟩ (0, s.rootPath, s.rootContent))
          (parseOne env p.tokenized ⟨[], [], ParserOptions.default, []⟩ (0, s'.rootPath, s.rootContent)) := by
        unfold parseOne ParseEnv.cfg
        dsimp only
        split
        · exact .none
        · rw [parseFile_alike hr]
          split
          · exact .none
          · exact .some ⟨⟨_, [], rfl, rfl, by simp⟩, rfl, rfl, rfl⟩
      generalize parseOne env p.tokenized _ (0, s.rootPath, s.rootContent) = x at this
      generalize parseOne env p.tokenized _ (0, s'.rootPath, s.rootContent) = x' at this
      cases this with
      | none => exact .none
      | some h =>
        refine foldlM_keyed env p.tokenized es (fun e he => ?_) h
        obtain ⟨q, hq, hm⟩ := e3 e he
        rw [hq]
        exact h1 q hm
    have henv : env.pragmaEnv s' = env.pragmaEnv s := by
      unfold ParseEnv.pragmaEnv Sources.errorPaths
      rw [h.globs, h.content]
    rw [hsrc]
    dsimp only
    generalize BeancountParser.parseDeclarations env p = x at hkey
    generalize BeancountParser.parseDeclarations env ⟨s', p.tokenized⟩ = x' at hkey
    cases hkey with
    | none => rfl
    | some hk =>
      dsimp only
      rw [henv, hk.opts, process_keyed hr _ hk.outputs, hk.errors, hk.warns]

end

end Lima.RootName
