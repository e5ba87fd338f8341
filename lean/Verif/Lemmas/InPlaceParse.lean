import Verif.Lemmas.InPlace
import Verif.Lemmas.CutFile
import Verif.Lemmas.BlindRead
import Verif.Lemmas.WholeParse
import Verif.Lemmas.FileComplete
import Verif.Lemmas.FileRuns

/-! An include and the text in its place: parsing. -/

set_option linter.unusedSectionVars false

namespace Lima.InPlaceParse
open Lima Spec Grammar Props

/-! ### Other source identifiers -/

/-- The location in a source by another identifier. -/
def renumber (ρ : Nat → Nat) (s : Span) : Span := ⟨ρ s.source, s.start, s.stop⟩

/-- A way to lay out in which what is between tokens is nowhere. -/
abbrev cfgAt (decimal : Str → Except LexerError Dec) (id : Nat) (path : Option Path) : ParseCfg :=
  ⟨id, path, fun _ => ⟨0, 0, 0⟩, decimal⟩

def renumbered {ρ : Nat → Nat} (h0 : ρ 0 = 0) (decimal : Str → Except LexerError Dec) {path path' : Option Path}
    (hp : path'.bind pathDir = path.bind pathDir) (k : Nat) (toks : List Ranged) : Relaid where
  move := renumber ρ
  cfg := cfgAt decimal k path
  cfg' := cfgAt decimal (ρ k) path'
  toks := toks
  toks' := toks
  same := rfl
  path := hp
  decimal := rfl
  span := by
    intro i j hij hj
    rcases Nat.eq_or_lt_of_le hij with rfl | hij
    · rw [Layout.spanOf_empty, Layout.spanOf_empty]
      simp [renumber, h0]
    · obtain ⟨a, b, h1, h2, h3⟩ := Layout.spanOf_run (cfgAt decimal k path) toks hij hj
      obtain ⟨a', b', k1, k2, k3⟩ := Layout.spanOf_run (cfgAt decimal (ρ k) path') toks hij hj
      rw [h3, k3]
      rw [h1] at k1
      rw [h2] at k2
      cases k1
      cases k2
      rfl

section
variable [Unicode] [DecOps]

theorem parseFile_renumber {ρ : Nat → Nat} (h0 : ρ 0 = 0) {decimal : Str → Except LexerError Dec} {path path' : Option Path}
    (hp : path'.bind pathDir = path.bind pathDir) {k : Nat} {toks : List Ranged} {o : ParserOptions} {res : FileResult}
    (h : parseFile (cfgAt decimal k path) toks o [] = some res) :
    parseFile (cfgAt decimal (ρ k) path') toks (move (renumber ρ) o) [] = some (move (renumber ρ) res) := by
  have := (renumbered h0 decimal hp k toks).parseFile o []
  change _ = move (renumber ρ) (parseFile (cfgAt decimal k path) toks o []) at this
  rw [h] at this
  exact this

/-! ### The setting -/

/-- The whole sources, laid out alike: `s1` has the include of `b`, `s2` its text in place of it. -/
structure Core (env1 env2 : ParseEnv) (s1 s2 : Sources) (b : Path) (ρ : Nat → Nat) (a u c : List Ranged) (t1 t2 t3 : Nat × Nat)
    (g : Str) (idb : Nat) (tb : Str) (es : List (Nat × Option Path × Str)) : Prop where
  complete1 : Complete env1.tokens s1
  complete2 : Complete env2.tokens s2
  empty1 : env1.emptySpan = fun _ _ => ⟨0, 0, 0⟩
  empty2 : env2.emptySpan = fun _ _ => ⟨0, 0, 0⟩
  decimal : env2.decimal = env1.decimal
  canonicalize : env2.canonicalize = env1.canonicalize
  context : env2.context = env1.context
  contextPlaces : ∀ tags metas, env1.context (move (renumber ρ) tags) (move (renumber ρ) metas) = env1.context tags metas
  rootPath : s2.rootPath = s1.rootPath
  notRoot : s1.rootPath ≠ some b
  directory : s1.rootPath.bind pathDir = pathDir b
  aEnded : a = [] ∨ ∃ z e, a = z ++ [e] ∧ e.tok = .eol
  uEnded : u = [] ∨ ∃ z e, u = z ++ [e] ∧ e.tok = .eol
  uHead : ∀ t ∈ u.head?, t.tok ≠ .indent
  cHead : ∀ t ∈ c.head?, t.tok ≠ .indent
  root1 : env1.tokens s1.rootContent = a ++ ([⟨.include, t1.1, t1.2⟩, ⟨.stringLiteral g, t2.1, t2.2⟩, ⟨.eol, t3.1, t3.2⟩] ++ c)
  root2 : env2.tokens s2.rootContent = a ++ (u ++ c)
  textb : env1.tokens tb = u
  perm : s1.contentIter.tail.Perm ((idb, some b, tb) :: es)
  rest : List.Forall₂ (fun e e' : Nat × Option Path × Str => e'.1 = ρ e.1 ∧ e'.2.1 = e.2.1 ∧ env2.tokens e'.2.2 = env1.tokens e.2.2)
    es s2.contentIter.tail
  zero : ρ 0 = 0
  zerob : ρ idb = 0
  apart : ∀ e ∈ s1.contentIter, ∀ e' ∈ s1.contentIter, ∀ t ∈ env1.tokens e.2.2, ∀ t' ∈ env1.tokens e'.2.2, ∀ k k',
    t.tok = .key k → t'.tok = .key k' → ρ e.1 = ρ e'.1 → t.start = t'.start → t.stop = t'.stop → e.1 = e'.1
  cOpts : ¬ SetsParserOption c
  opts : ∀ e ∈ s1.contentIter.tail, ¬ SetsParserOption (env1.tokens e.2.2)
  glob : AMap.get s1.globs (resolveIncludedPath s1.rootPath (Path.ofStr g)) = some (.expanded [b])
  globs : ∀ e ∈ s2.contentIter, ∀ i, HasInclude env2.tokens e.2.2 i →
    AMap.get s2.globs (resolveIncludedPath e.2.1 (Path.ofStr i)) = AMap.get s1.globs (resolveIncludedPath e.2.1 (Path.ofStr i))
  avoids : ∀ e ∈ s2.contentIter, ∀ i, HasInclude env2.tokens e.2.2 i → ∀ q ∈ expansion (AMap.get s1.globs) e.2.1 i,
    q ≠ b ∧ ∀ x, env1.canonicalize b = some x → env1.canonicalize q ≠ some x
  errorPaths : ∀ p, AMap.get s2.errorPaths p = AMap.get s1.errorPaths p

/-- The pieces into which the files of both are parsed. -/
structure Pieces (decimal : Str → Except LexerError Dec) (tokens : Str → List Ranged) (root : Option Path) (b : Path) (a u c : List Ranged) (t1 t2 t3 : Nat × Nat) (g : Str)
    (idb : Nat) (es : List (Nat × Option Path × Str))
    (o : ParserOptions) (d1 d2 du : List (Spanned Declaration)) (w1 w2 wu : List Report) (rs : List FileResult) : Prop where
  pa : FileP (cfgAt decimal 0 root) ParserOptions.default a d1 o [] w1
  pc : FileP (cfgAt decimal 0 root) o c d2 o [] w2
  pu : FileP (cfgAt decimal idb (some b)) o u du o [] wu
  others : List.Forall₂ (fun e res => parseFile (cfgAt decimal e.1 e.2.1) (tokens e.2.2) o [] = some res) es rs
  errors : ∀ res ∈ rs, res.errors = []

theorem FileP.eq {cfg : ParseCfg} {o o' o'' : ParserOptions} {toks : List Ranged} {ds ds' : List (Spanned Declaration)} {e e' : List PErr}
    {ws ws' : List Report} (h : FileP cfg o toks ds o' e ws) (h' : FileP cfg o toks ds' o'' e' ws') :
    ds' = ds ∧ o'' = o' ∧ e' = e ∧ ws' = ws := by
  have h1 := parseFile_complete [] h
  rw [parseFile_complete [] h'] at h1
  simp only [Option.some.injEq, FileResult.mk.injEq, List.nil_append] at h1
  exact ⟨h1.1, h1.2.2.1, h1.2.1, h1.2.2.2⟩

theorem FileP.steady {cfg : ParseCfg} {o o' : ParserOptions} {toks : List Ranged} {ds : List (Spanned Declaration)} {e : List PErr}
    {ws : List Report} (h : FileP cfg o toks ds o' e ws) (hn : ¬ SetsParserOption toks) : o' = o :=
  parseFile_steady (parseFile_complete [] h) hn

theorem part_alone {decimal : Str → Except LexerError Dec} {id : Nat} {path : Option Path} {a c : List Ranged}
    (ha : a = [] ∨ ∃ z e, a = z ++ [e] ∧ e.tok = .eol) {o o' : ParserOptions} {ds : List (Spanned Declaration)} {es : List PErr}
    {ws : List Report} (h : Part (cfgAt decimal id path) o (a ++ c) c ds o' es ws) : FileP (cfgAt decimal id path) o a ds o' es ws := by
  have := Part.swap (a := a) (b := c) (b' := []) ha (cfg' := cfgAt decimal id path) rfl rfl rfl (fun _ => rfl) h
  rw [List.append_nil] at this
  exact this.file

theorem part_before {decimal : Str → Except LexerError Dec} {id : Nat} {path : Option Path} {a c : List Ranged}
    (ha : a = [] ∨ ∃ z e, a = z ++ [e] ∧ e.tok = .eol) {o o' : ParserOptions} {ds : List (Spanned Declaration)} {es : List PErr}
    {ws : List Report} (h : FileP (cfgAt decimal id path) o a ds o' es ws) : Part (cfgAt decimal id path) o (a ++ c) c ds o' es ws := by
  refine Part.swap (b := []) ha (cfg := cfgAt decimal id path) (cfg' := cfgAt decimal id path) rfl rfl rfl (fun _ => rfl) ?_
  rw [List.append_nil]
  exact Part.of_file h

/-- Two parts of a file, each as a file of its own. -/
theorem file_parts {decimal : Str → Except LexerError Dec} {id : Nat} {path : Option Path} {a c : List Ranged}
    (ha : a = [] ∨ ∃ z e, a = z ++ [e] ∧ e.tok = .eol) (hc : ∀ t ∈ c.head?, t.tok ≠ .indent) {o o' : ParserOptions}
    {ds : List (Spanned Declaration)} {es : List PErr} {ws : List Report} :
    FileP (cfgAt decimal id path) o (a ++ c) ds o' es ws ↔ ∃ ds1 ds2 o1 es1 es2 ws1 ws2,
      FileP (cfgAt decimal id path) o a ds1 o1 es1 ws1 ∧ FileP (cfgAt decimal id path) o1 c ds2 o' es2 ws2 ∧
      ds = ds1 ++ ds2 ∧ es = es1 ++ es2 ∧ ws = ws1 ++ ws2 := by
  constructor
  · intro h
    obtain ⟨ds1, ds2, o1, es1, es2, ws1, ws2, h1, h2, h3⟩ := (Part.of_file h).cut hc rfl ha
    exact ⟨ds1, ds2, o1, es1, es2, ws1, ws2, part_alone ha h1, h2.file, h3⟩
  · rintro ⟨ds1, ds2, o1, es1, es2, ws1, ws2, h1, h2, rfl, rfl, rfl⟩
    exact (part_before ha h1).file_of h2

/-- The include, parsed. -/
theorem include_file (decimal : Str → Except LexerError Dec) (path : Option Path) (t1 t2 t3 : Nat × Nat) (g : Str) (o : ParserOptions) :
    ∃ inc g' ws, FileP (cfgAt decimal 0 path) o [⟨.include, t1.1, t1.2⟩, ⟨.stringLiteral g, t2.1, t2.2⟩, ⟨.eol, t3.1, t3.2⟩] [inc] o [] ws ∧
      inc.item = .pragma (.include g') ∧ g'.item = g ∧ ws.length ≤ 1 := by
  refine ⟨⟨.pragma (.include ⟨g, ⟨0, t2.1, t2.2⟩⟩), ⟨0, t1.1, t3.2⟩⟩, ⟨g, ⟨0, t2.1, t2.2⟩⟩,
    longStrings (cfgAt decimal 0 path) o [⟨.include, t1.1, t1.2⟩, ⟨.stringLiteral g, t2.1, t2.2⟩, ⟨.eol, t3.1, t3.2⟩] ++ [], ?_, rfl, rfl, ?_⟩
  · refine FileP.cons (run := [⟨.include, t1.1, t1.2⟩, ⟨.stringLiteral g, t2.1, t2.2⟩, ⟨.eol, t3.1, t3.2⟩]) (r := []) (es := []) (es' := []) (ws' := [])
      (o' := o) (.pragma (.include ⟨_, _, rfl⟩ ⟨⟨_, _, rfl⟩, .inl ⟨⟨.stringLiteral g, t2.1, t2.2⟩, [⟨.stringLiteral g, t2.1, t2.2⟩], _, rfl, rfl, rfl, rfl⟩⟩)
        (.inl ⟨_, _, rfl⟩) (.inl ⟨_, _, _, rfl, rfl, rfl, rfl⟩)) .nil
  · rw [List.append_nil]
    unfold longStrings
    simp only [List.filterMap_cons, List.filterMap_nil]
    split <;> simp

/-! ### Into pieces -/

theorem succeeded {env : ParseEnv} {s : Sources} (hc : Complete env.tokens s) {r : ParseSuccess} (h : parseSources env s = .ok r) :
    ∃ rs o, InOrder env ParserOptions.default s.contentIter rs o ∧ ∀ res ∈ rs, res.errors = [] := by
  have hp : ¬ parseSources env s = .panic := by rw [h]; intro h; cases h
  rw [parseSources_panic hc, Classical.not_not] at hp
  obtain ⟨rs, o, hr⟩ := hp
  obtain ⟨ds, data, _, h1⟩ := parseSources_ok hc hr
  refine ⟨rs, o, hr, fun res hres => ?_⟩
  rw [h] at h1
  split at h1
  · rename_i hh
    have hf := hh.1
    unfold faultsOf at hf
    rw [List.flatMap_eq_nil_iff] at hf
    obtain ⟨i, hi, rfl⟩ := List.getElem_of_mem hres
    have hl := inOrder_length hr
    have := hf (s.contentIter[i]'(by omega), rs[i]) (by
      have := List.getElem_mem (l := s.contentIter.zip rs) (n := i) (by rw [List.length_zip]; omega)
      rwa [List.getElem_zip] at this)
    simpa using this
  · cases h1

variable {env1 env2 : ParseEnv} {s1 s2 : Sources} {b : Path} {ρ : Nat → Nat} {a u c : List Ranged} {t1 t2 t3 : Nat × Nat}
    {g : Str} {idb : Nat} {tb : Str} {es : List (Nat × Option Path × Str)}

theorem head_append {u c : List Ranged} (hu : ∀ t ∈ u.head?, t.tok ≠ .indent) (hc : ∀ t ∈ c.head?, t.tok ≠ .indent) :
    ∀ t ∈ (u ++ c).head?, t.tok ≠ .indent := by
  cases u with
  | nil => exact hc
  | cons x u => exact hu

abbrev incToks (t1 t2 t3 : Nat × Nat) (g : Str) : List Ranged :=
  [⟨.include, t1.1, t1.2⟩, ⟨.stringLiteral g, t2.1, t2.2⟩, ⟨.eol, t3.1, t3.2⟩]

theorem inc_ended : incToks t1 t2 t3 g = [] ∨ ∃ z e, incToks t1 t2 t3 g = z ++ [e] ∧ e.tok = .eol :=
  .inr ⟨[⟨.include, t1.1, t1.2⟩, ⟨.stringLiteral g, t2.1, t2.2⟩], ⟨.eol, t3.1, t3.2⟩, rfl, rfl⟩

theorem inc_head (c : List Ranged) : ∀ t ∈ (incToks t1 t2 t3 g ++ c).head?, t.tok ≠ .indent := by
  intro t ht
  cases ht
  exact fun h => by cases h

theorem pieces1 (h : Core env1 env2 s1 s2 b ρ a u c t1 t2 t3 g idb tb es) {r : ParseSuccess} (hr : parseSources env1 s1 = .ok r) :
    ∃ o d1 d2 du w1 w2 wu rs, Pieces env1.decimal env1.tokens s1.rootPath b a u c t1 t2 t3 g idb es o d1 d2 du w1 w2 wu rs := by
  obtain ⟨rs, o, hio, he⟩ := succeeded h.complete1 hr
  have hi : s1.contentIter = (0, s1.rootPath, s1.rootContent) :: s1.contentIter.tail := rfl
  rw [hi] at hio
  cases hio with
  | cons _ _ _ _ _ r0 _ rs0 h0 ht =>
    rw [inOrder_steady _ h.opts] at ht
    obtain ⟨rfl, ht⟩ := ht
    rw [h.empty1] at h0 ht
    have he0 := he r0 (by simp)
    obtain ⟨ds, ws, h1, h2⟩ := parseFile_sound h0 (by rw [he0]; simp)
    rw [he0, h.root1] at h2
    obtain ⟨d1, d3, o1, es1, es2, w1, w3, k1, k2, rfl, k3, rfl⟩ := (file_parts h.aEnded (inc_head c)).mp h2
    obtain ⟨rfl, rfl⟩ := List.append_eq_nil_iff.mp k3.symm
    obtain ⟨di, d2, o2, es1, es2, wi, w2, k4, k5, rfl, k6, rfl⟩ := (file_parts (inc_ended) h.cHead).mp k2
    obtain ⟨rfl, rfl⟩ := List.append_eq_nil_iff.mp k6.symm
    obtain ⟨inc, g', wi', k7, _⟩ := include_file env1.decimal s1.rootPath t1 t2 t3 g o1
    obtain ⟨_, rfl, _, _⟩ := FileP.eq k7 k4
    have k8 := FileP.steady k5 h.cOpts
    rw [k8] at k5 ht
    obtain ⟨rs', m1, m2⟩ := forall₂_perm h.perm ht
    cases m1 with
    | @cons _ rb _ rs' m1 m3 =>
      have hmem : ∀ res ∈ rb :: rs', res.errors = [] := by
        intro res hres
        refine he res (List.mem_cons_of_mem _ ?_)
        have hl : ((idb, some b, tb) :: es).length = (rb :: rs').length := by simp [m3.length_eq]
        obtain ⟨i, hi, rfl⟩ := List.getElem_of_mem hres
        have := List.getElem_mem (l := ((idb, some b, tb) :: es).zip (rb :: rs')) (n := i) (by rw [List.length_zip]; omega)
        rw [List.getElem_zip] at this
        exact (List.of_mem_zip (m2.mem_iff.mpr this)).2
      have heb := hmem rb (by simp)
      dsimp only at m1
      rw [h.textb] at m1
      obtain ⟨du, wu, n1, n2⟩ := parseFile_sound m1 (by rw [heb]; simp)
      rw [heb] at n2
      have n3 := FileP.steady n2 (by
        rw [← h.textb]
        exact h.opts (idb, some b, tb) (h.perm.mem_iff.mpr (by simp)))
      rw [n3] at n2
      exact ⟨_, d1, d2, du, w1, w2, wu, rs', k1, k5, n2, m3, fun res hres => hmem res (List.mem_cons_of_mem _ hres)⟩

theorem forall₂_right {α β : Type} {R : α → β → Prop} {l : List α} {m : List β} (h : List.Forall₂ R l m) : ∀ y ∈ m, ∃ x ∈ l, R x y := by
  induction h with
  | nil => intro y hy; cases hy
  | cons h _ ih =>
    intro y hy
    rcases List.mem_cons.mp hy with rfl | hy
    · exact ⟨_, by simp, h⟩
    · obtain ⟨x, hx, hr⟩ := ih y hy
      exact ⟨x, List.mem_cons_of_mem _ hx, hr⟩

theorem forall₂_through {α β : Type} {R : α → β → Prop} {P : α → FileResult → Prop} {Q : β → FileResult → Prop} {l : List α} {m : List β}
    {rs : List FileResult} (h : List.Forall₂ R l m) (h' : List.Forall₂ Q m rs) (he : ∀ res ∈ rs, res.errors = [])
    (key : ∀ x y res, R x y → Q y res → res.errors = [] → ∃ res', P x res' ∧ res'.errors = []) :
    ∃ rs', List.Forall₂ P l rs' ∧ ∀ res ∈ rs', res.errors = [] := by
  induction h generalizing rs with
  | nil => exact ⟨[], .nil, fun _ h => by cases h⟩
  | cons h _ ih =>
    cases h' with
    | cons h1 h2 =>
      obtain ⟨rs', h3, h4⟩ := ih h2 (fun res hres => he res (List.mem_cons_of_mem _ hres))
      obtain ⟨res', h5, h6⟩ := key _ _ _ h h1 (he _ (by simp))
      refine ⟨res' :: rs', .cons h5 h3, fun res hres => ?_⟩
      rcases List.mem_cons.mp hres with rfl | hres
      · exact h6
      · exact h4 res hres

theorem same_ok {f : Span → Span} {x y : Option FileResult} {r : FileResult} (h : move f x = move f y) (hx : x = some r) :
    ∃ r', y = some r' ∧ move f r' = move f r := by
  subst hx
  cases y with
  | none => cases h
  | some y => exact ⟨y, rfl, (Option.some.inj h).symm⟩

theorem errors_nil_of_move {f : Span → Span} {r r' : FileResult} (h : move f r' = move f r) (he : r.errors = []) : r'.errors = [] := by
  have h1 : move f r'.errors = move f r.errors := congrArg FileResult.errors h
  rw [he] at h1
  exact List.map_eq_nil_iff.mp h1

theorem pieces2 (h : Core env1 env2 s1 s2 b ρ a u c t1 t2 t3 g idb tb es) {r : ParseSuccess} (hr : parseSources env2 s2 = .ok r) :
    ∃ o d1 d2 du w1 w2 wu rs, Pieces env1.decimal env1.tokens s1.rootPath b a u c t1 t2 t3 g idb es o d1 d2 du w1 w2 wu rs := by
  obtain ⟨rs, o, hio, he⟩ := succeeded h.complete2 hr
  have hi : s2.contentIter = (0, s2.rootPath, s2.rootContent) :: s2.contentIter.tail := rfl
  have hopts : ∀ e ∈ es, ¬ SetsParserOption (env1.tokens e.2.2) := fun e he =>
    h.opts e (h.perm.mem_iff.mpr (List.mem_cons_of_mem _ he))
  have hopts2 : ∀ e ∈ s2.contentIter.tail, ¬ SetsParserOption (env2.tokens e.2.2) := by
    intro e' he'
    obtain ⟨e, he, _, _, hh⟩ := forall₂_right h.rest e' he'
    rw [hh]
    exact hopts e he
  rw [hi] at hio
  cases hio with
  | cons _ _ _ _ _ r0 _ rs0 h0 ht =>
    rw [inOrder_steady _ hopts2] at ht
    obtain ⟨rfl, ht⟩ := ht
    rw [h.empty2, h.decimal] at h0 ht
    rw [h.rootPath] at h0
    have he0 := he r0 (by simp)
    obtain ⟨ds, ws, h1, h2⟩ := parseFile_sound h0 (by rw [he0]; simp)
    rw [he0, h.root2] at h2
    obtain ⟨d1, d3, o1, es1, es2, w1, w3, k1, k2, rfl, k3, rfl⟩ := (file_parts h.aEnded (head_append h.uHead h.cHead)).mp h2
    obtain ⟨rfl, rfl⟩ := List.append_eq_nil_iff.mp k3.symm
    obtain ⟨du, d2, o2, es1, es2, wu, w2, k4, k5, rfl, k6, rfl⟩ := (file_parts h.uEnded h.cHead).mp k2
    obtain ⟨rfl, rfl⟩ := List.append_eq_nil_iff.mp k6.symm
    have hu : ¬ SetsParserOption u := by
      rw [← h.textb]
      exact h.opts (idb, some b, tb) (h.perm.mem_iff.mpr (by simp))
    have k7 := FileP.steady k4 hu
    subst k7
    have k8 := FileP.steady k5 h.cOpts
    rw [k8] at k5 ht
    have key : ∀ {k k' : Nat} {path path' : Option Path} (hp : path'.bind pathDir = path.bind pathDir) (toks : List Ranged) {o : ParserOptions}
        {res : FileResult}, parseFile (cfgAt env1.decimal k path) toks o [] = some res → res.errors = [] →
        ∃ res', parseFile (cfgAt env1.decimal k' path') toks o [] = some res' ∧ res'.errors = [] := by
      intro k k' path path' hp toks o res h1 h2
      have m1 := (Layout.forget (cfgAt env1.decimal k path) toks).parseFile o []
      have m2 := (Layout.forget (cfgAt env1.decimal k' path) toks).parseFile o []
      obtain ⟨r', m3, m4⟩ := same_ok (m1.symm.trans m2) h1
      have m5 := parseFile_renumber (ρ := id) rfl hp m3
      have hid : ∀ (o : ParserOptions), move (renumber id) o = o := by
        rintro ⟨n, _ | ⟨⟨m, _⟩, ⟨_, _⟩⟩⟩ <;> rfl
      rw [hid] at m5
      refine ⟨_, m5, ?_⟩
      have := errors_nil_of_move m4 h2
      change List.map _ r'.errors = []
      rw [this]
      rfl
    obtain ⟨rb, n1, n2⟩ := key (k' := idb) (path' := some b) h.directory.symm u (parseFile_complete [] k4) rfl
    obtain ⟨du', wu', n3, n4⟩ := parseFile_sound n1 (by rw [n2]; simp)
    rw [n2] at n4
    have n5 := FileP.steady n4 hu
    rw [n5] at n4
    have others : ∃ rs', List.Forall₂ (fun e res => parseFile (cfgAt env1.decimal e.1 e.2.1) (env1.tokens e.2.2) o2 [] = some res) es rs' ∧
        ∀ res ∈ rs', res.errors = [] := by
      refine forall₂_through h.rest ht (fun res hres => he res (List.mem_cons_of_mem _ hres)) ?_
      rintro e e' res ⟨p1, p2, p3⟩ p4 p5
      dsimp only at p4
      rw [p2, p3] at p4
      exact key rfl _ p4 p5
    obtain ⟨rs', n6, n7⟩ := others
    exact ⟨_, d1, d2, du', w1, w2, wu', rs', k1, k5, n4, n6, n7⟩

/-! ### Back together -/

/-- The results of both parses. -/
structure Alike (f : Span → Span) (r1 r2 : ParseSuccess) : Prop where
  directives : r2.directives = move f r1.directives
  options : r2.options = move f r1.options
  plugins : r2.plugins = move f r1.plugins
  warnings : ∃ extra : List Report, extra.length ≤ 1 ∧ (move f r1.warnings : List Report).Perm (extra ++ r2.warnings)

theorem outputs_keys {es : List (Nat × Option Path × Str)} {rs : List FileResult} (hl : es.length = rs.length) :
    (outputsOf es rs).map (·.1) = es.map (·.2.1) := by
  unfold outputsOf
  rw [List.map_map]
  have : ((fun x : Option Path × List (Spanned Declaration) => x.1) ∘
      fun x : (Nat × Option Path × Str) × FileResult => (x.1.2.1, x.2.declarations.getD [])) =
      (fun x : Nat × Option Path × Str => x.2.1) ∘ Prod.fst := rfl
  rw [this, ← List.map_map, List.map_fst_zip (by omega)]

theorem getD_move (f : Span → Span) (x : Option (List (Spanned Declaration))) :
    (move f x : Option (List (Spanned Declaration))).getD [] = move f (x.getD []) := by
  cases x <;> rfl

theorem outputs_moved {f : Span → Span} {es l : List (Nat × Option Path × Str)} {rs : List FileResult}
    (h : List.Forall₂ (fun e e' : Nat × Option Path × Str => e'.1 = ρ e.1 ∧ e'.2.1 = e.2.1 ∧ env2.tokens e'.2.2 = env1.tokens e.2.2) es l) :
    outputsOf l (rs.map (move f)) = Moved.onValues (move f) (outputsOf es rs) := by
  unfold outputsOf Moved.onValues
  induction h generalizing rs with
  | nil => rfl
  | cons h _ ih =>
    cases rs with
    | nil => rfl
    | cons r rs =>
      have := ih (rs := rs)
      simp only [List.map_cons, List.zip_cons_cons] at this ⊢
      rw [this, h.2.1, ← getD_move]
      rfl

omit [Unicode] [DecOps] in
theorem get_not_mem {κ ν : Type} [DecidableEq κ] {m : List (κ × ν)} {k : κ} (h : k ∉ m.map (·.1)) : AMap.get m k = none := by
  cases hg : AMap.get m k with
  | none => rfl
  | some v => exact absurd (List.mem_map.mpr ⟨_, AMap.mem_of_get hg, rfl⟩) h

theorem together (h : Core env1 env2 s1 s2 b ρ a u c t1 t2 t3 g idb tb es) {o : ParserOptions} {d1 d2 du : List (Spanned Declaration)}
    {w1 w2 wu : List Report} {rs : List FileResult}
    (hp : Pieces env1.decimal env1.tokens s1.rootPath b a u c t1 t2 t3 g idb es o d1 d2 du w1 w2 wu rs) :
    (∃ r1 r2, parseSources env1 s1 = .ok r1 ∧ parseSources env2 s2 = .ok r2 ∧ Alike (renumber ρ) r1 r2) ∨
    ((∀ r, parseSources env1 s1 ≠ .ok r) ∧ ∀ r, parseSources env2 s2 ≠ .ok r) := by
  -- what is not moved
  have fa := parseFile_renumber h.zero (path' := s1.rootPath) rfl (parseFile_complete [] hp.pa)
  rw [h.zero, show move (renumber ρ) ParserOptions.default = ParserOptions.default from rfl, parseFile_complete [] hp.pa] at fa
  have fo : move (renumber ρ) o = o := (congrArg FileResult.opts (Option.some.inj fa)).symm
  have fd1 : move (renumber ρ) d1 = d1 := (Option.some.inj (congrArg FileResult.declarations (Option.some.inj fa))).symm
  have fw1 : move (renumber ρ) w1 = w1 := (congrArg FileResult.warns (Option.some.inj fa)).symm
  have fc := parseFile_renumber h.zero (path' := s1.rootPath) rfl (parseFile_complete [] hp.pc)
  rw [h.zero, fo, parseFile_complete [] hp.pc] at fc
  have fd2 : move (renumber ρ) d2 = d2 := (Option.some.inj (congrArg FileResult.declarations (Option.some.inj fc))).symm
  have fw2 : move (renumber ρ) w2 = w2 := (congrArg FileResult.warns (Option.some.inj fc)).symm
  -- the included file as a part of the root file
  have fu := parseFile_renumber h.zero (path := some b) (path' := s1.rootPath) h.directory (parseFile_complete [] hp.pu)
  rw [h.zerob, fo] at fu
  obtain ⟨du', wu', fu1, fu2⟩ := parseFile_sound fu (by change _ ∉ ([] : List PErr); simp)
  have edu : du' = move (renumber ρ) du := (Option.some.inj (congrArg FileResult.declarations fu1)).symm
  have ewu : wu' = move (renumber ρ) wu := (congrArg FileResult.warns fu1).symm
  change FileP _ o u du' (move (renumber ρ) o) [] wu' at fu2
  rw [fo, edu, ewu] at fu2
  -- both root files
  obtain ⟨inc, g', wi, ki, ki1, ki2, ki3⟩ := include_file env1.decimal s1.rootPath t1 t2 t3 g o
  have r1 : FileP (cfgAt env1.decimal 0 s1.rootPath) ParserOptions.default (env1.tokens s1.rootContent) (d1 ++ ([inc] ++ d2)) o [] (w1 ++ (wi ++ w2)) := by
    rw [h.root1]
    exact (file_parts h.aEnded (inc_head c)).mpr ⟨_, _, _, _, _, _, _, hp.pa,
      (file_parts inc_ended h.cHead).mpr ⟨_, _, _, _, _, _, _, ki, hp.pc, rfl, rfl, rfl⟩, rfl, rfl, rfl⟩
  have r2 : FileP (cfgAt env1.decimal 0 s1.rootPath) ParserOptions.default (env2.tokens s2.rootContent)
      (d1 ++ (move (renumber ρ) du ++ d2)) o [] (w1 ++ (move (renumber ρ) wu ++ w2)) := by
    rw [h.root2]
    exact (file_parts h.aEnded (head_append h.uHead h.cHead)).mpr ⟨_, _, _, _, _, _, _, hp.pa,
      (file_parts h.uEnded h.cHead).mpr ⟨_, _, _, _, _, _, _, fu2, hp.pc, rfl, rfl, rfl⟩, rfl, rfl, rfl⟩
  -- the other files
  have hopts : ∀ e ∈ es, ¬ SetsParserOption (env1.tokens e.2.2) := fun e he =>
    h.opts e (h.perm.mem_iff.mpr (List.mem_cons_of_mem _ he))
  have hopts2 : ∀ e ∈ s2.contentIter.tail, ¬ SetsParserOption (env2.tokens e.2.2) := by
    intro e' he'
    obtain ⟨e, he, _, _, hh⟩ := forall₂_right h.rest e' he'
    rw [hh]
    exact hopts e he
  have hb : List.Forall₂ (fun e res => parseFile (cfgAt env1.decimal e.1 e.2.1) (env1.tokens e.2.2) o [] = some res)
      ((idb, some b, tb) :: es) (⟨some du, [], o, [] ++ wu⟩ :: rs) :=
    .cons (by dsimp only; rw [h.textb]; exact parseFile_complete [] hp.pu) hp.others
  obtain ⟨rsp, p1, p2⟩ := forall₂_perm h.perm.symm hb
  have io1 : InOrder env1 ParserOptions.default s1.contentIter (⟨some (d1 ++ ([inc] ++ d2)), [], o, [] ++ (w1 ++ (wi ++ w2))⟩ :: rsp) o := by
    have : s1.contentIter = (0, s1.rootPath, s1.rootContent) :: s1.contentIter.tail := rfl
    rw [this]
    refine .cons _ _ _ _ _ _ _ _ (by rw [h.empty1]; exact parseFile_complete [] r1) ?_
    rw [inOrder_steady _ h.opts, h.empty1]
    exact ⟨rfl, p1⟩
  have io2 : InOrder env2 ParserOptions.default s2.contentIter
      (⟨some (d1 ++ (move (renumber ρ) du ++ d2)), [], o, [] ++ (w1 ++ (move (renumber ρ) wu ++ w2))⟩ :: rs.map (move (renumber ρ))) o := by
    have : s2.contentIter = (0, s2.rootPath, s2.rootContent) :: s2.contentIter.tail := rfl
    rw [this]
    refine .cons _ _ _ _ _ _ _ _ (by rw [h.empty2, h.decimal, h.rootPath]; exact parseFile_complete [] r2) ?_
    rw [inOrder_steady _ hopts2, h.empty2, h.decimal]
    refine ⟨rfl, ?_⟩
    have key : ∀ {es l : List (Nat × Option Path × Str)} {rs : List FileResult},
        List.Forall₂ (fun e e' : Nat × Option Path × Str => e'.1 = ρ e.1 ∧ e'.2.1 = e.2.1 ∧ env2.tokens e'.2.2 = env1.tokens e.2.2) es l →
        List.Forall₂ (fun e res => parseFile (cfgAt env1.decimal e.1 e.2.1) (env1.tokens e.2.2) o [] = some res) es rs →
        List.Forall₂ (fun e res => parseFile (cfgAt env1.decimal e.1 e.2.1) (env2.tokens e.2.2) o [] = some res) l (rs.map (move (renumber ρ))) := by
      intro es l rs h1 h2
      induction h1 generalizing rs with
      | nil => cases h2; exact .nil
      | cons hh _ ih =>
        cases h2 with
        | cons k1 k2 =>
          refine .cons ?_ (ih k2)
          have := parseFile_renumber h.zero (path' := _) rfl k1
          rw [fo] at this
          rw [hh.1, hh.2.1, hh.2.2]
          exact this
    exact key h.rest hp.others
  -- no errors in files
  have nf1 : faultsOf s1.contentIter (⟨some (d1 ++ ([inc] ++ d2)), [], o, [] ++ (w1 ++ (wi ++ w2))⟩ :: rsp) = [] := by
    unfold faultsOf
    rw [List.flatMap_eq_nil_iff]
    rintro ⟨e, res⟩ hm
    have : res.errors = [] := by
      have hm := (List.of_mem_zip hm).2
      rcases List.mem_cons.mp hm with rfl | hm
      · rfl
      · obtain ⟨i, hi, rfl⟩ := List.getElem_of_mem hm
        have hl := p1.length_eq
        have hz := List.getElem_mem (l := s1.contentIter.tail.zip rsp) (n := i) (by rw [List.length_zip]; omega)
        rw [List.getElem_zip] at hz
        have := (List.of_mem_zip (p2.mem_iff.mpr hz)).2
        rcases List.mem_cons.mp this with e | hm
        · rw [e]
        · exact hp.errors _ hm
    dsimp only
    rw [this]
    rfl
  have nf2 : faultsOf s2.contentIter (⟨some (d1 ++ (move (renumber ρ) du ++ d2)), [], o, [] ++ (w1 ++ (move (renumber ρ) wu ++ w2))⟩ ::
      rs.map (move (renumber ρ))) = [] := by
    unfold faultsOf
    rw [List.flatMap_eq_nil_iff]
    rintro ⟨e, res⟩ hm
    have : res.errors = [] := by
      have hm := (List.of_mem_zip hm).2
      rcases List.mem_cons.mp hm with rfl | hm
      · rfl
      · obtain ⟨r, hr, rfl⟩ := List.mem_map.mp hm
        change List.map _ r.errors = []
        rw [hp.errors r hr]
        rfl
    dsimp only
    rw [this]
    rfl
  obtain ⟨ds, data, run1, res1⟩ := parseSources_ok h.complete1 io1
  obtain ⟨ds2, data2, run2, res2⟩ := parseSources_ok h.complete2 io2
  -- the outputs
  have outs1 : ∀ p, AMap.get (outputsOf s1.contentIter (⟨some (d1 ++ ([inc] ++ d2)), [], o, [] ++ (w1 ++ (wi ++ w2))⟩ :: rsp)) p =
      AMap.get ((s1.rootPath, d1 ++ ([inc] ++ d2)) :: (some b, du) :: outputsOf es rs) p := by
    refine AMap.get_perm (List.Perm.cons _ ((p2.map _).symm)) ?_
    rw [outputs_keys (by rw [show s1.contentIter = (0, s1.rootPath, s1.rootContent) :: s1.contentIter.tail from rfl]; simp [p1.length_eq])]
    exact h.complete1.paths
  have keys : (((s1.rootPath, d1 ++ ([inc] ++ d2)) :: (some b, du) :: outputsOf es rs).map (·.1)).Nodup := by
    have hn := h.complete1.paths
    have hpm : s1.contentIter.Perm ((0, s1.rootPath, s1.rootContent) :: (idb, some b, tb) :: es) := h.perm.cons _
    rw [(hpm.map _).nodup_iff] at hn
    rw [List.map_cons, List.map_cons, outputs_keys hp.others.length_eq]
    exact hn
  rw [List.map_cons, List.map_cons, List.nodup_cons, List.nodup_cons, List.mem_cons, not_or] at keys
  obtain ⟨⟨kr1, kr2⟩, kb, _⟩ := keys
  have gr := get_not_mem kr2
  have gb := get_not_mem kb
  have outs2 : outputsOf s2.contentIter (⟨some (d1 ++ (move (renumber ρ) du ++ d2)), [], o, [] ++ (w1 ++ (move (renumber ρ) wu ++ w2))⟩ ::
      rs.map (move (renumber ρ))) = (s1.rootPath, d1 ++ (move (renumber ρ) du ++ d2)) :: Moved.onValues (move (renumber ρ)) (outputsOf es rs) := by
    rw [← outputs_moved h.rest, ← h.rootPath]
    rfl
  have place : InPlace (env1.pragmaEnv s1) (env2.pragmaEnv s2) s1.rootPath b
      (Moved.onValues (move (renumber ρ)) (outputsOf s1.contentIter (⟨some (d1 ++ ([inc] ++ d2)), [], o, [] ++ (w1 ++ (wi ++ w2))⟩ :: rsp)))
      (outputsOf s2.contentIter (⟨some (d1 ++ (move (renumber ρ) du ++ d2)), [], o, [] ++ (w1 ++ (move (renumber ρ) wu ++ w2))⟩ ::
      rs.map (move (renumber ρ)))) := by
    have inc2 : ∀ p ds, AMap.get (outputsOf s2.contentIter (⟨some (d1 ++ (move (renumber ρ) du ++ d2)), [], o, [] ++ (w1 ++ (move (renumber ρ) wu ++ w2))⟩ ::
        rs.map (move (renumber ρ)))) p = some ds → ∀ d ∈ ds, ∀ g, d.item = .pragma (.include g) →
        ∃ e ∈ s2.contentIter, e.2.1 = p ∧ HasInclude env2.tokens e.2.2 g.item := by
      intro p ds hds d hd g hg
      obtain ⟨e, res, hm, rfl, rfl⟩ := outputs_mem hds
      obtain ⟨he, o1, hf⟩ := inOrder_mem io2 hm
      cases hdd : res.declarations with
      | none => rw [hdd] at hd; cases hd
      | some ds' =>
        rw [hdd] at hd
        exact ⟨e, he, rfl, parseFile_include hf hdd hd hg⟩
    constructor
    · refine ⟨d1, move (renumber ρ) inc, move (renumber ρ) g', d2, move (renumber ρ) du, ?_, ?_, ?_, ?_, ?_, ?_⟩
      · change move (renumber ρ) inc.item = _
        rw [ki1]
        rfl
      · change AMap.get s1.globs (resolveIncludedPath s1.rootPath (Path.ofStr g'.item)) = _
        rw [ki2]
        exact h.glob
      · rw [Moved.aget, outs1, AMap.get_cons, if_pos rfl]
        change some (List.map (move (renumber ρ)) (d1 ++ ([inc] ++ d2))) = _
        rw [List.map_append, List.map_append]
        rw [show List.map (move (renumber ρ)) d1 = d1 from fd1, show List.map (move (renumber ρ)) d2 = d2 from fd2]
        rfl
      · rw [Moved.aget, outs1, AMap.get_cons, if_neg h.notRoot, AMap.get_cons, if_pos rfl]
        rfl
      · rw [outs2, AMap.get_cons, if_pos rfl, List.append_assoc]
      · intro d _ g _
        unfold resolveIncludedPath
        rw [h.directory]
        rfl
    · exact h.notRoot
    · rw [outs2, AMap.get_cons, if_neg h.notRoot, Moved.aget, gb]
      rfl
    · intro p hp1 hp2
      rw [outs2, AMap.get_cons, if_neg (Ne.symm hp1), Moved.aget, Moved.aget, outs1, AMap.get_cons, if_neg (Ne.symm hp1), AMap.get_cons,
        if_neg (Ne.symm hp2)]
    · intro p ds hds d hd g hg q hq
      obtain ⟨e, he, rfl, hi⟩ := inc2 p ds hds d hd g hg
      exact h.avoids e he g.item hi q hq
    · intro p ds hds d hd g hg
      obtain ⟨e, he, rfl, hi⟩ := inc2 p ds hds d hd g hg
      exact h.globs e he g.item hi
    · exact h.errorPaths
    · exact h.canonicalize
    · exact h.context
  -- the runs
  have keyed : ∀ x ∈ outputsOf s1.contentIter (⟨some (d1 ++ ([inc] ++ d2)), [], o, [] ++ (w1 ++ (wi ++ w2))⟩ :: rsp),
      Moved.KeyedDecls (fun sp => ∃ e ∈ s1.contentIter, ∃ t ∈ env1.tokens e.2.2, ∃ k, t.tok = .key k ∧ sp = ⟨e.1, t.start, t.stop⟩) x.2 := by
    intro x hx d hd kv hkv
    unfold outputsOf at hx
    obtain ⟨⟨e, res⟩, hm, rfl⟩ := List.mem_map.mp hx
    obtain ⟨he, o1, hf⟩ := inOrder_mem io1 hm
    cases hdd : res.declarations with
    | none => dsimp only at hd; rw [hdd] at hd; cases hd
    | some ds' =>
      dsimp only at hd
      rw [hdd] at hd
      obtain ⟨t, k1, k2, k3⟩ := parseFile_keyToken hf hdd d hd kv hkv
      exact ⟨e, he, t, k1, _, k2, k3⟩
  have hK : ∀ x y, (∃ e ∈ s1.contentIter, ∃ t ∈ env1.tokens e.2.2, ∃ k, t.tok = .key k ∧ x = ⟨e.1, t.start, t.stop⟩) →
      (∃ e ∈ s1.contentIter, ∃ t ∈ env1.tokens e.2.2, ∃ k, t.tok = .key k ∧ y = ⟨e.1, t.start, t.stop⟩) →
      renumber ρ x = renumber ρ y → x = y := by
      rintro x y ⟨e, he, t, ht, k, hk, rfl⟩ ⟨e', he', t', ht', k', hk', rfl⟩ hxy
      simp only [renumber, Span.mk.injEq] at hxy ⊢
      exact ⟨h.apart e he e' he' t ht t' ht' k k' hk hk' hxy.1 hxy.2.1 hxy.2.2, hxy.2⟩
  have moved := Moved.processPragmas (renumber ρ) (K := fun sp => ∃ e ∈ s1.contentIter, ∃ t ∈ env1.tokens e.2.2, ∃ k, t.tok = .key k ∧ sp = ⟨e.1, t.start, t.stop⟩) hK
    (env := env1.pragmaEnv s1) (env' := env1.pragmaEnv s1) rfl rfl rfl h.contextPlaces s1.rootPath _ (Options.new o) keyed
  rw [run1, show move (renumber ρ) (Options.new o) = Options.new (move (renumber ρ) o) from rfl, fo] at moved
  rw [h.rootPath] at run2
  rcases inPlace_process place (Options.new o) with ⟨out, d, d', m1, m2, m3⟩ | ⟨m1, _⟩
  swap
  · rw [moved] at m1; cases m1
  rw [moved] at m1
  rw [run2] at m2
  cases m1
  cases m2
  have fe : data2.finalErrors = move (renumber ρ) data.finalErrors := by
    rw [← Moved.finalErrors]
    unfold PragmaData.finalErrors
    rw [m3.errors, m3.metas, m3.tags]
  by_cases hf : data.finalErrors = []
  · left
    rw [if_pos ⟨nf1, hf⟩] at res1
    rw [if_pos ⟨nf2, by rw [fe, hf]; rfl⟩] at res2
    refine ⟨_, _, res1, res2, Moved.sortDirectives _ hK ds, m3.options, m3.plugins, move (renumber ρ) wi, ?_, ?_⟩
    · change (List.map _ wi).length ≤ 1
      rw [List.length_map]
      exact ki3
    · have pr : (⟨some du, [], o, [] ++ wu⟩ :: rs).Perm rsp := by
        have := p2.map Prod.snd
        rwa [List.map_snd_zip (by simp [hp.others.length_eq]), List.map_snd_zip (by rw [p1.length_eq])] at this
      have pw := pr.flatMap_right (fun r : FileResult => move (renumber ρ) r.warns)
      change (List.map (move (renumber ρ)) (([] ++ (w1 ++ (wi ++ w2))) ++ rsp.flatMap (·.warns))).Perm
        (move (renumber ρ) wi ++ (([] ++ (w1 ++ (move (renumber ρ) wu ++ w2))) ++ (rs.map (move (renumber ρ))).flatMap (·.warns)))
      rw [List.flatMap_map, List.nil_append, List.nil_append, List.map_append, List.map_append, List.map_append, List.map_flatMap,
        show List.map (move (renumber ρ)) w1 = w1 from fw1, show List.map (move (renumber ρ)) w2 = w2 from fw2]
      refine (pw.symm.append_left _).trans ?_
      rw [List.flatMap_cons, List.nil_append]
      rw [show List.map (move (renumber ρ)) wi = move (renumber ρ) wi from rfl]
      change ((w1 ++ (move (renumber ρ) wi ++ w2)) ++ (move (renumber ρ) wu ++ rs.flatMap fun r => move (renumber ρ) r.warns)).Perm
        (move (renumber ρ) wi ++ ((w1 ++ (move (renumber ρ) wu ++ w2)) ++ rs.flatMap fun r => move (renumber ρ) r.warns))
      rw [List.perm_iff_count]
      intro x
      simp only [List.count_append]
      omega
  · right
    rw [if_neg (fun x => hf x.2)] at res1
    rw [if_neg (fun x => hf (by have := x.2; rw [fe] at this; exact List.map_eq_nil_iff.mp this))] at res2
    refine ⟨fun r hr => ?_, fun r hr => ?_⟩
    · rw [res1] at hr; cases hr
    · rw [res2] at hr; cases hr

end

end Lima.InPlaceParse
