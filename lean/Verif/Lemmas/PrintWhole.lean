import Verif.Lemmas.PrintFile
import Verif.Lemmas.ProvenanceParse
import Verif.Props.Parse

/-! Printing the directives of a parse, and parsing them again. -/

set_option linter.unusedSectionVars false

namespace Lima
open Spec Grammar

section
variable [Categories] [Unicode] [DecOps]

/-- The directives of a parse come from the tokens of the sources. -/
theorem parse_good {fs : FileSystem} {env : ParseEnv} {rootPath : Option Path} {rootContent : Str} {s : Sources} {l : Logos}
    (hwf : GlobsWF fs) (hs : ReadInSomeOrder fs env.tokens rootPath rootContent s) {a : ParseSuccess} (ha : parseSources env s = .ok a)
    (hl : SoundNumbers l) (hlex : LexedBy l env.tokens) (hne : ∀ id path text, IsSource s id path text → lexText l text ≠ none) :
    ∀ x ∈ a.directives, GoodDirective x.item := by
  have hc := Props.read_in_order hwf hs
  obtain ⟨rs, o, ds, data, h1, h2, h3, h4⟩ := (Props.C41_success_iff hwf hs).mp ⟨a, ha⟩
  obtain ⟨ds', data', h5, h6⟩ := parseSources_ok hc h1
  rw [h3] at h5
  cases h5
  rw [ha] at h6
  split at h6
  · cases h6
    intro x hx
    have hx : x ∈ ds := (Props.C01_sort_perm ds).mem_iff.mp hx
    refine process_good ?_ h3 x hx
    intro f hf
    unfold outputsOf at hf
    obtain ⟨⟨e, res⟩, hm, rfl⟩ := List.mem_map.mp hf
    obtain ⟨he, o1, hp⟩ := inOrder_mem h1 hm
    have herr := h2 _ (List.of_mem_zip hm).2
    obtain ⟨decls, ws, hr, hp⟩ := parseFile_sound hp (by rw [herr]; simp)
    obtain ⟨id, path, text⟩ := e
    cases ht : lexText l text with
    | none => exact absurd ht (hne id path text (mem_contentIter.mp he))
    | some toks =>
      have hok := lexText_lexOk hl ht
      rw [hr]
      intro d hd
      refine file_ok hp ?_ d hd
      rw [hlex text toks ht]
      exact hok
  · cases h6

theorem includesOf_none {ts : List Token} (h : .include ∉ ts) : includesOf ts = [] := by
  induction ts with
  | nil => rfl
  | cons t ts ih =>
    have h1 : t ≠ .include := fun e => h (by simp [e])
    have ih := ih (fun hm => h (by simp [hm]))
    unfold includesOf
    split
    · rfl
    · rename_i e; injection e with e _; exact absurd e h1
    · rename_i e; injection e with _ e; rw [← e]; exact ih

/-- Reading a text without includes. -/
theorem read_plain {fs : FileSystem} {tokens : Str → List Ranged} {text : Str} (h : getIncludes tokens text = []) (path : Option Path) :
    readWithIncludes fs tokens path text =
      ⟨path, text, charIndices text, [], [], [(path.map Path.render).getD (str "inline")], []⟩ := by
  unfold readWithIncludes
  rw [readLoop]
  have : readStep fs tokens (readInit fs tokens path text) = none := by
    unfold readStep readInit
    rw [h]
    rfl
  split
  · rfl
  · rename_i e; rw [this] at e; cases e

theorem augment_nothing {d : PragmaData} (h1 : d.tags = []) (h2 : d.metas = []) (x : Directive) : d.augment x = some x := by
  unfold PragmaData.augment
  rw [h1, h2]
  rfl

theorem collect_directives (env : PragmaEnv) (es : List (Spanned Directive)) : ∀ (n : Nat) (st : PragmaState), es.length < n →
    st.current = es.map (fun e => ⟨.directive e.item, e.span⟩) → st.stacked = [] → st.data.tags = [] → st.data.metas = [] →
    ∃ st', PragmaState.collectFuel env n st = .ok (es, st') ∧ st'.data = st.data := by
  induction es with
  | nil =>
    intro n st hn hc hs _ _
    cases n with
    | zero => cases hn
    | succ n =>
      refine ⟨st, ?_, rfl⟩
      unfold PragmaState.collectFuel PragmaState.step
      rw [hc]
      simp only [List.map_nil, hs]
  | cons e es ih =>
    intro n st hn hc hs ht hm
    cases n with
    | zero => cases hn
    | succ n =>
      obtain ⟨st', h1, h2⟩ := ih n { st with current := es.map (fun e => ⟨.directive e.item, e.span⟩) } (by simpa using hn) rfl hs ht hm
      refine ⟨st', ?_, h2⟩
      have hstep : st.step env = .yield e { st with current := es.map (fun e => ⟨.directive e.item, e.span⟩) } := by
        unfold PragmaState.step
        rw [hc]
        simp only [List.map_cons]
        rw [augment_nothing ht hm]
      unfold PragmaState.collectFuel
      rw [hstep]
      simp only [h1]
      rfl

/-- A file of directives has those directives. -/
theorem process_directives (env : PragmaEnv) (root : Option Path) (es : List (Spanned Directive)) (o : Options) :
    processPragmas env root [(root, es.map (fun e => ⟨.directive e.item, e.span⟩))] o = .ok (es, ⟨[], [], [], o, [], []⟩) := by
  unfold processPragmas PragmaState.new
  have : AMap.get [(root, es.map (fun e => (⟨.directive e.item, e.span⟩ : Spanned Declaration)))] root = some (es.map (fun e => ⟨.directive e.item, e.span⟩)) := by
    rw [AMap.get_cons]; simp
  rw [this]
  simp only
  generalize hst : (PragmaState.mk root (es.map (fun e => (⟨.directive e.item, e.span⟩ : Spanned Declaration))) [] _ _) = st
  obtain ⟨st', h1, h2⟩ := collect_directives env es (st.size + 1) st (by
    subst hst
    unfold PragmaState.size
    simp only [List.length_map]
    omega) (by subst hst; rfl) (by subst hst; rfl) (by subst hst; rfl) (by subst hst; rfl)
  unfold PragmaState.collect
  rw [h1]
  subst hst
  simp only [Res.map, h2]

theorem decls_directives {ds : List Directive} {decls : List (Spanned Declaration)}
    (h : List.Forall₂ (fun d x => ∃ e, x.item = Declaration.directive e ∧ Same d e) ds decls) :
    ∃ es : List (Spanned Directive), decls = es.map (fun e => ⟨.directive e.item, e.span⟩) ∧ List.Forall₂ (fun d e => Same d e.item) ds es := by
  induction h with
  | nil => exact ⟨[], rfl, .nil⟩
  | cons h _ ih =>
    obtain ⟨es, rfl, h2⟩ := ih
    obtain ⟨e, h3, h4⟩ := h
    rename_i _ x _ _
    refine ⟨⟨e, x.span⟩ :: es, ?_, .cons h4 h2⟩
    rw [List.map_cons, ← h3]

/-- Parsing a text which is lexed as printed directives. -/
theorem parse_printed {fs : FileSystem} {env : ParseEnv} {l : Logos} (hwf : GlobsWF fs)
    (hlex : LexedBy l env.tokens) {ds : List Directive} {text : Str} (hl : Lexed l text (allTokens ds))
    (h : ∀ d ∈ ds, GoodDirective d ∧ Printable d)
    (hk : ∀ d ∈ ds, ∀ a ∈ accountsOf d, KnowsAccount ParserOptions.default a) (path : Option Path) :
    ∃ b es, parseSources env (readWithIncludes fs env.tokens path text) = .ok b ∧
      List.Forall₂ (fun d e => Same d e.item) ds es ∧ b.directives = sortDirectives es ∧
      b.options = Options.new ParserOptions.default ∧ b.plugins = [] := by
  obtain ⟨toks, decls, ws, h1, h2, h3, h4⟩ := print_parse ⟨0, path, env.emptySpan 0, env.decimal⟩ ds hl h hk
  obtain ⟨es, rfl, h5⟩ := decls_directives h4
  have htoks := hlex _ _ h1
  have hinc : getIncludes env.tokens text = [] := by
    unfold getIncludes
    rw [htoks, h2]
    refine includesOf_none ?_
    intro hm
    obtain ⟨d, hd, hm⟩ := List.mem_flatMap.mp hm
    rcases List.mem_append.mp hm with hm | hm
    · exact (stringsIn_directive d _ hm).1.2.1 rfl
    · simp at hm
  have hread := read_plain (fs := fs) hinc path
  have hfile := parseFile_complete [] h3
  rw [← htoks] at hfile
  have hc := read_complete (fs := fs) (tokens := env.tokens) (rootPath := path) (rootContent := text) hwf
  have hio : InOrder env ParserOptions.default (readWithIncludes fs env.tokens path text).contentIter
      [⟨some (es.map (fun e => ⟨.directive e.item, e.span⟩)), [], ParserOptions.default, [] ++ ws⟩] ParserOptions.default := by
    rw [hread]
    exact .cons _ _ _ _ _ _ _ _ hfile (.nil _)
  obtain ⟨ds', data, h6, h7⟩ := parseSources_ok hc hio
  have hout : outputsOf (readWithIncludes fs env.tokens path text).contentIter
      [⟨some (es.map (fun e => ⟨.directive e.item, e.span⟩)), [], ParserOptions.default, [] ++ ws⟩] =
        [((readWithIncludes fs env.tokens path text).rootPath, es.map (fun e => ⟨.directive e.item, e.span⟩))] := by
    rw [hread]
    rfl
  rw [hout, process_directives] at h6
  cases h6
  rw [if_pos ⟨by rw [hread]; rfl, rfl⟩] at h7
  exact ⟨_, es, h7, h5, rfl, rfl, rfl⟩

end

/-! ### The same directive -/

theorem BothOrNeither.refl {α : Type} {same : α → α → Prop} (h : ∀ a, same a a) (x : Option (Spanned α)) : BothOrNeither same x x := by
  cases x with
  | none => trivial
  | some a => exact h a.item

theorem SameMetadata.refl (m : Metadata) : SameMetadata m m := ⟨.refl _, .refl _, .refl _⟩

theorem SamePosting.refl (p : Posting) : SamePosting p p :=
  ⟨rfl, rfl, rfl, rfl, BothOrNeither.refl (fun _ => ⟨rfl, rfl, rfl, rfl, rfl, rfl⟩) _, rfl, SameMetadata.refl _⟩

theorem Same.refl (d : Directive) : Same d d := by
  refine ⟨rfl, SameMetadata.refl _, ?_⟩
  cases d.variant with
  | transaction t => exact ⟨rfl, rfl, rfl, List.forall₂_same.mpr fun p _ => SamePosting.refl _⟩
  | price c a => exact ⟨rfl, rfl, rfl⟩
  | balance a t => exact ⟨rfl, ⟨rfl, rfl⟩, rfl⟩
  | «open» a cs b => exact ⟨rfl, .refl _, rfl⟩
  | close a => exact rfl
  | commodity c => exact rfl
  | _ => exact ⟨rfl, rfl⟩

theorem same_kindRank {d e : Directive} (h : Same d e) : kindRank d = kindRank e := by
  obtain ⟨_, _, h⟩ := h
  unfold kindRank
  cases hd : d.variant <;> cases he : e.variant <;> rw [hd, he] at h <;> exact h.elim

theorem same_before {d e d' e' : Directive} (h : Same d e) (h' : Same d' e') : StrictlyBefore d d' ↔ StrictlyBefore e e' := by
  unfold StrictlyBefore
  rw [h.1, h'.1, same_kindRank h, same_kindRank h']

theorem pairwise_of_same {xs ys : List (Spanned Directive)} (h : List.Forall₂ (fun x y => Same x.item y.item) xs ys)
    (hx : xs.Pairwise (fun a b => ¬ StrictlyBefore b.item a.item)) : ys.Pairwise (fun a b => ¬ StrictlyBefore b.item a.item) := by
  induction h with
  | nil => exact .nil
  | cons h hs ih =>
    rw [List.pairwise_cons] at hx
    refine .cons ?_ (ih hx.2)
    intro y hy
    obtain ⟨x, hxm, hxy⟩ := forall₂_mem hs y hy
    rw [← same_before hxy h]
    exact hx.1 x hxm

end Lima
