import Verif.Lemmas.BlindWhole
import Verif.Lemmas.WholeParse
import Verif.Lemmas.LexText

/-! Reading, and then parsing, does not depend on layout. -/

set_option linter.unusedSectionVars false

namespace Lima
open Spec

/-! ### A file -/

namespace Layout

/-- Everything at the same place. -/
def nowhere (toks : List Ranged) : List Ranged := toks.map (fun t => ⟨t.tok, 0, 0⟩)

theorem nowhere_congr {a b : List Ranged} (h : SameTokens a b) : nowhere a = nowhere b := by
  have key : ∀ l : List Ranged, nowhere l = (l.map (·.tok)).map (fun t => ⟨t, 0, 0⟩) := by
    intro l
    rw [List.map_map]
    rfl
  rw [key, key, show a.map (·.tok) = b.map (·.tok) from h]

/-- Forget all places. -/
def forget (cfg : ParseCfg) (toks : List Ranged) : Relaid where
  move := fun _ => ⟨0, 0, 0⟩
  cfg := cfg
  cfg' := ⟨0, cfg.path, fun _ => ⟨0, 0, 0⟩, cfg.decimal⟩
  toks := toks
  toks' := nowhere toks
  same := by
    unfold SameTokens nowhere
    rw [List.map_map]
    rfl
  path := rfl
  decimal := rfl
  span := by
    intro i j hij hj
    have hl : (nowhere toks).length = toks.length := List.length_map ..
    rcases Nat.eq_or_lt_of_le hij with rfl | hij
    · exact (spanOf_empty ⟨0, cfg.path, fun _ => ⟨0, 0, 0⟩, cfg.decimal⟩ _).symm
    · obtain ⟨a, b, h1, h2, h3⟩ := spanOf_run ⟨0, cfg.path, fun _ => ⟨0, 0, 0⟩, cfg.decimal⟩ (nowhere toks) hij
        (by rw [hl]; exact hj)
      rw [h3]
      unfold nowhere at h1 h2
      rw [List.getElem?_map] at h1 h2
      obtain ⟨_, _, rfl⟩ := Option.map_eq_some_iff.mp h1
      obtain ⟨_, _, rfl⟩ := Option.map_eq_some_iff.mp h2
      rfl

theorem parseFile_same [Unicode] [DecOps] {cfg cfg' : ParseCfg} {toks toks' : List Ranged} {o o' : ParserOptions}
    {ws ws' : List Report} (ht : SameTokens toks toks') (hp : cfg'.path = cfg.path) (hd : cfg'.decimal = cfg.decimal)
    (ho : SameButPlaces o o') (hw : SameButPlaces ws ws') :
    SameButPlaces (Grammar.parseFile cfg toks o ws) (Grammar.parseFile cfg' toks' o' ws') := by
  unfold SameButPlaces at *
  have h1 := (forget cfg toks).parseFile o ws
  have h2 := (forget cfg' toks').parseFile o' ws'
  refine h1.symm.trans (Eq.trans ?_ h2)
  change Grammar.parseFile ⟨0, cfg.path, _, cfg.decimal⟩ (nowhere toks) (move _ o) (move _ ws) =
    Grammar.parseFile ⟨0, cfg'.path, _, cfg'.decimal⟩ (nowhere toks') (move _ o') (move _ ws')
  rw [nowhere_congr ht, hp, hd]
  exact congrArg₂ _ ho hw

/-! ### All files -/

theorem tokenize_same {tokens tokens' : Str → List Ranged} {es es' : List (Nat × Option Path × Str)}
    (h : List.Forall₂ (fun e e' => e'.1 = e.1 ∧ SameTokens (tokens e.2.2) (tokens' e'.2.2)) es es')
    {t t' : List (List Ranged)} (ht : t.map plain = t'.map plain) :
    (es.foldlM (tokenizeOne tokens) t).map (List.map plain) = (es'.foldlM (tokenizeOne tokens') t').map (List.map plain) := by
  induction h generalizing t t' with
  | nil => exact congrArg some ht
  | @cons e e' es es' h _ ih =>
    have hlen : t'.length = t.length := by simpa using (congrArg List.length ht).symm
    rw [List.foldlM_cons, List.foldlM_cons]
    unfold tokenizeOne
    rw [h.1, hlen]
    split
    · refine ih ?_
      rw [List.map_set, List.map_set, ht, plain_congr h.2]
    · rfl

theorem tokenize_mem {tokens : Str → List Ranged} (es : List (Nat × Option Path × Str)) {t out : List (List Ranged)}
    (h : es.foldlM (tokenizeOne tokens) t = some out) : ∀ toks ∈ out, toks ∈ t ∨ ∃ e ∈ es, toks = tokens e.2.2 := by
  induction es generalizing t with
  | nil => cases h; exact fun toks h => .inl h
  | cons e es ih =>
    rw [List.foldlM_cons] at h
    unfold tokenizeOne at h
    split at h
    · intro toks hm
      rcases ih h toks hm with hm | ⟨e', he, rfl⟩
      · rcases List.mem_or_eq_of_mem_set hm with hm | rfl
        · exact .inl hm
        · exact .inr ⟨e, by simp, rfl⟩
      · exact .inr ⟨e', by simp [he], rfl⟩
    · cases h

theorem content_same {tokens tokens' : Str → List Ranged} {s s' : Sources} (h : SameSources tokens tokens' s s') :
    List.Forall₂ (fun e e' : Nat × Option Path × Str => e'.1 = e.1 ∧ e'.2.1 = e.2.1 ∧ SameTokens (tokens e.2.2) (tokens' e'.2.2))
      s.contentIter s'.contentIter ∧ s'.errorPaths = s.errorPaths := by
  obtain ⟨h1, h2, h3, h4, h5⟩ := h
  unfold Sources.contentIter Sources.errorPaths
  generalize s.content = c at h4
  generalize s'.content = c' at h4
  constructor
  · refine .cons ⟨rfl, h1, h2⟩ ?_
    induction h4 with
    | nil => exact .nil
    | @cons e e' c c' h _ ih =>
      obtain ⟨p, x⟩ := e
      obtain ⟨p', x'⟩ := e'
      obtain ⟨rfl, h⟩ := h
      cases h with
      | content h => exact .cons ⟨rfl, rfl, h⟩ ih
      | error e => exact ih
      | duplicate => exact ih
  · induction h4 with
    | nil => rfl
    | @cons e e' c c' h _ ih =>
      obtain ⟨p, x⟩ := e
      obtain ⟨p', x'⟩ := e'
      obtain ⟨rfl, h⟩ := h
      cases h with
      | content h => exact ih
      | error e => exact congrArg (List.cons _) ih
      | duplicate => exact ih

theorem apart_nil : KeysApart [] := by
  intro i j a b k l h
  cases h

theorem parseSources_same [Unicode] [DecOps] {env env' : ParseEnv} {s s' : Sources} (he : SameEnv env env')
    (hs : SameSources env.tokens env'.tokens s s')
    (hk : ∀ id path text, IsSource s id path text → KeysApart (env.tokens text))
    (hk' : ∀ id path text, IsSource s' id path text → KeysApart (env'.tokens text)) :
    SameButPlaces (parseSources env s) (parseSources env' s') := by
  obtain ⟨h1, h2⟩ := content_same hs
  have ht := tokenize_same (tokens := env.tokens) (tokens' := env'.tokens) (h1.imp fun e e' h => ⟨h.1, h.2.2⟩)
    (t := List.replicate s.ids.length []) (t' := List.replicate s'.ids.length []) (by rw [hs.ids])
  unfold parseSources BeancountParser.new
  have hmem := @tokenize_mem env.tokens s.contentIter (List.replicate s.ids.length [])
  have hmem' := @tokenize_mem env'.tokens s'.contentIter (List.replicate s'.ids.length [])
  generalize s.contentIter.foldlM (tokenizeOne env.tokens) _ = r at ht hmem
  generalize s'.contentIter.foldlM (tokenizeOne env'.tokens) _ = r' at ht hmem'
  cases r with
  | none =>
    cases r' with
    | none => rfl
    | some t' => cases ht
  | some t =>
    cases r' with
    | none => cases ht
    | some t' =>
      have ht : t.map plain = t'.map plain := Option.some.inj ht
      have hka : ∀ toks ∈ t, KeysApart toks := by
        intro toks hm
        rcases hmem rfl toks hm with hm | ⟨e, he, rfl⟩
        · rw [List.eq_of_mem_replicate hm]
          exact apart_nil
        · exact hk _ _ _ (mem_contentIter.mp he)
      have hka' : ∀ toks ∈ t', KeysApart toks := by
        intro toks hm
        rcases hmem' rfl toks hm with hm | ⟨e, he, rfl⟩
        · rw [List.eq_of_mem_replicate hm]
          exact apart_nil
        · exact hk' _ _ _ (mem_contentIter.mp he)
      have refl : ∀ {α : Type} [Places α] (x : α), SameButPlaces x x := fun _ => rfl
      have p1 := parse_plain env s s t hka env.context (fun tags metas => by
          rw [← he.context _ tags _ metas (same_move_left _ tags) (same_move_left _ metas),
            ← he.context tags tags metas metas (refl tags) (refl metas)])
        (List.forall₂_same.mpr fun e _ => ⟨rfl, rfl⟩) rfl rfl rfl
      have p2 := parse_plain env' s' s t' hka' env.context (fun tags metas =>
          he.context tags _ metas _ (same_move_left _ tags).symm (same_move_left _ metas).symm)
        (h1.imp fun e e' h => ⟨h.1, h.2.1⟩) hs.rootPath.symm hs.globs.symm h2.symm
      dsimp only [Option.map_some]
      rw [p1, p2, ← ht, show plainEnv env' env.context = plainEnv env env.context by
        unfold plainEnv; rw [he.decimal, he.canonicalize]]
      exact same_move _ _ _

/-! ### Reading -/

section
variable {tokens tokens' : Str → List Ranged} {fs fs' : FileSystem}

abbrev SameContent (tokens tokens' : Str → List Ranged) (c c' : List (Path × IncludedSource)) : Prop :=
  List.Forall₂ (fun e e' => e'.1 = e.1 ∧ SameSource tokens tokens' e.2 e'.2) c c'

structure SameState (tokens tokens' : Str → List Ranged) (st st' : ReadState) : Prop where
  pending : st'.pending = st.pending
  globs : st'.globs = st.globs
  content : SameContent tokens tokens' st.content st'.content
  canonical : st'.canonical = st.canonical
  ids : st'.ids = st.ids

theorem has_same {c c' : List (Path × IncludedSource)} (h : SameContent tokens tokens' c c') (p : Path) :
    AMap.has c' p = AMap.has c p := by
  unfold AMap.has
  induction h with
  | nil => rfl
  | cons h _ ih =>
    rw [List.any_cons, List.any_cons, ih, h.1]

theorem insert_same {c c' : List (Path × IncludedSource)} (h : SameContent tokens tokens' c c') (p : Path) {x x' : IncludedSource}
    (hx : SameSource tokens tokens' x x') : SameContent tokens tokens' (AMap.insert c p x) (AMap.insert c' p x') := by
  unfold AMap.insert
  rw [has_same h]
  split
  · rw [SameContent, List.forall₂_map_left_iff, List.forall₂_map_right_iff]
    refine h.imp fun e e' h => ?_
    rw [h.1]
    split
    · exact ⟨rfl, hx⟩
    · exact h
  · exact List.rel_append h (.cons ⟨rfl, hx⟩ .nil)

theorem includes_same {a b : Str} (h : SameTokens (tokens a) (tokens' b)) : getIncludes tokens' b = getIncludes tokens a := by
  unfold getIncludes
  rw [show (tokens a).map (·.tok) = (tokens' b).map (·.tok) from h]

theorem readGlobbed_same (hfs : SameFileSystem tokens tokens' fs fs') {st st' : ReadState} (h : SameState tokens tokens' st st')
    (g : Globbed) : SameState tokens tokens' (readGlobbed fs tokens st g) (readGlobbed fs' tokens' st' g) := by
  unfold readGlobbed
  cases g with
  | error p e => exact ⟨h.pending, h.globs, insert_same h.content p (.error e), h.canonical, h.ids⟩
  | path p =>
    dsimp only
    rw [hfs.canonicalize, h.canonical, has_same h.content]
    cases fs.canonicalize p with
    | none => exact h
    | some c =>
      dsimp only
      split
      · split
        · exact h
        · exact ⟨h.pending, h.globs, insert_same h.content p .duplicate, rfl, h.ids⟩
      · have hr := hfs.read p
        generalize fs.read p = r at hr
        generalize fs'.read p = r' at hr
        cases hr with
        | error e =>
          exact ⟨h.pending, h.globs, insert_same h.content p (.error _), rfl, by dsimp only; rw [h.ids]⟩
        | @ok text text' ht =>
          refine ⟨?_, h.globs, ?_, rfl, by dsimp only; rw [h.ids]⟩
          · dsimp only
            rw [h.pending, includes_same ht]
          · dsimp only
            rw [h.ids]
            exact insert_same h.content p (.content ht)

theorem foldl_same (hfs : SameFileSystem tokens tokens' fs fs') (gs : List Globbed) {st st' : ReadState}
    (h : SameState tokens tokens' st st') :
    SameState tokens tokens' (gs.foldl (readGlobbed fs tokens) st) (gs.foldl (readGlobbed fs' tokens') st') := by
  induction gs generalizing st st' with
  | nil => exact h
  | cons g gs ih => exact ih (readGlobbed_same hfs h g)

/-- The same outcome of a step of reading. -/
inductive SameStep (tokens tokens' : Str → List Ranged) : Option ReadState → Option ReadState → Prop
  | none : SameStep tokens tokens' none none
  | some {st st' : ReadState} (h : SameState tokens tokens' st st') : SameStep tokens tokens' (some st) (some st')

theorem readStep_same (hfs : SameFileSystem tokens tokens' fs fs') {st st' : ReadState} (h : SameState tokens tokens' st st') :
    SameStep tokens tokens' (readStep fs tokens st) (readStep fs' tokens' st') := by
  unfold readStep
  rw [h.pending]
  cases st.pending with
  | nil => exact .none
  | cons p ps =>
    dsimp only
    rw [hfs.glob]
    cases fs.glob p with
    | error e => exact .some ⟨rfl, by dsimp only; rw [h.globs], h.content, h.canonical, h.ids⟩
    | ok gs =>
      have := foldl_same hfs gs (st := { st with pending := ps }) (st' := { st' with pending := ps })
        ⟨rfl, h.globs, h.content, h.canonical, h.ids⟩
      exact .some ⟨this.pending, by dsimp only; rw [this.globs], this.content, this.canonical, this.ids⟩

theorem readLoop_none {st : ReadState} (h : readStep fs tokens st = none) : readLoop fs tokens st = st := by
  rw [readLoop]
  split
  · rfl
  · rename_i heq
    rw [h] at heq
    cases heq

theorem readLoop_some {st st1 : ReadState} (h : readStep fs tokens st = some st1) :
    readLoop fs tokens st = readLoop fs tokens st1 := by
  rw [readLoop]
  split
  · rename_i heq
    rw [h] at heq
    cases heq
  · rename_i heq
    rw [h] at heq
    cases heq
    rfl

theorem readLoop_same (hfs : SameFileSystem tokens tokens' fs fs') (st : ReadState) : ∀ st' : ReadState,
    SameState tokens tokens' st st' → SameState tokens tokens' (readLoop fs tokens st) (readLoop fs' tokens' st') := by
  fun_induction readLoop fs tokens st with
  | case1 st hn =>
    intro st' h
    have := readStep_same hfs h
    rw [hn] at this
    generalize hq : readStep fs' tokens' st' = q at this
    cases this
    rw [readLoop_none hq]
    exact h
  | case2 st st1 hn ih =>
    intro st' h
    have := readStep_same hfs h
    rw [hn] at this
    generalize hq : readStep fs' tokens' st' = q at this
    cases this with
    | some h =>
      rw [readLoop_some hq]
      exact ih _ h

theorem read_same (hfs : SameFileSystem tokens tokens' fs fs') (rootPath : Option Path) {text text' : Str}
    (ht : SameTokens (tokens text) (tokens' text')) :
    SameSources tokens tokens' (readWithIncludes fs tokens rootPath text) (readWithIncludes fs' tokens' rootPath text') := by
  have := readLoop_same hfs (readInit fs tokens rootPath text) (readInit fs' tokens' rootPath text') (by
    unfold readInit
    refine ⟨?_, rfl, .nil, ?_, rfl⟩
    · dsimp only
      rw [includes_same ht]
    · dsimp only
      rw [hfs.canonicalize])
  exact ⟨rfl, ht, this.globs, this.content, this.ids⟩

theorem readInSomeOrder_same (hfs : SameFileSystem tokens tokens' fs fs') {rootPath : Option Path} {text text' : Str}
    (ht : SameTokens (tokens text) (tokens' text')) {s : Sources} (hs : ReadInSomeOrder fs tokens rootPath text s) :
    ∃ s', ReadInSomeOrder fs' tokens' rootPath text' s' ∧ SameSources tokens tokens' s s' := by
  obtain ⟨content, hp, rfl⟩ := hs
  have h := read_same hfs rootPath ht
  obtain ⟨content', h1, h2⟩ := List.perm_comp_forall₂ hp.symm h.content
  exact ⟨_, ⟨content', h2.symm, rfl⟩, ⟨h.rootPath, h.rootContent, h.globs, h1, h.ids⟩⟩

end

/-! ### Texts -/

theorem lexText_apart [Categories] {l : Logos} {s : Str} {toks : List Ranged} (h : lexText l s = some toks) :
    KeysApart toks := by
  obtain ⟨raw, h1, h2, rfl⟩ := lexText_spec h
  have hh := handleEolIndent_handled h1 h2
  generalize handleEolIndent raw _ = toks at hh
  have key : ∀ (i j : Nat) (a b : Ranged) (k l : Str), toks[i]? = some a → toks[j]? = some b → a.tok = .key k → b.tok = .key l →
      a.start = b.start → a.stop = b.stop → ¬ i < j := by
    intro i j a b k l ha hb hak hbk e1 e2 hij
    have hp : a.start < a.stop := by
      rcases hh.mem a (List.mem_of_getElem? ha) with h | h | h
      · exact (h1 a h).1
      · rw [hak] at h; cases h
      · rw [hak] at h; cases h
    obtain ⟨hi, rfl⟩ := List.getElem?_eq_some_iff.mp ha
    obtain ⟨hj, rfl⟩ := List.getElem?_eq_some_iff.mp hb
    rcases List.pairwise_iff_getElem.mp hh.order i j hi hj hij with h | ⟨h, _⟩
    · omega
    · rw [hbk] at h; cases h
  intro i j a b k l ha hb hak hbk e1 e2
  rcases Nat.lt_trichotomy i j with h | h | h
  · exact absurd h (key i j a b k l ha hb hak hbk e1 e2)
  · exact h
  · exact absurd h (key j i b a l k hb ha hbk hak e1.symm e2.symm)

end Layout

end Lima
