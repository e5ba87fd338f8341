import Verif.Lemmas.Append

/-! Directives written at the end of the root: the whole run. -/

set_option linter.unusedSectionVars false

namespace Lima.Append
open Lima Spec Grammar Props InPlaceParse Revise

/-! ### Reading -/

section
variable {fs : FileSystem} {tokens : Str → List Ranged} {root : Option Path} {text text' : Str} {s s' : Sources}

/-- What is read depends on the root's text by its includes only. -/
theorem read_root (h : getIncludes tokens text = getIncludes tokens text') : readWithIncludes fs tokens root text =
    { readWithIncludes fs tokens root text' with rootContent := text, rootCharIndices := charIndices text } := by
  unfold readWithIncludes readInit
  rw [h]

theorem read_both (hwf : GlobsWF fs) (h : getIncludes tokens text = getIncludes tokens text') (hs : ReadInSomeOrder fs tokens root text s)
    (hs' : ReadInSomeOrder fs tokens root text' s') (hv : SameVisits s s') :
    s = { s' with rootContent := text, rootCharIndices := charIndices text } := by
  obtain ⟨c, p, rfl⟩ := hs
  obtain ⟨c', p', rfl⟩ := hs'
  rw [read_root h] at p ⊢
  dsimp only at p ⊢
  unfold SameVisits at hv
  dsimp only at hv
  have hn : (c.map (·.1)).Nodup := ((List.Perm.map _ p).nodup_iff.mp (read_complete hwf).keys)
  rw [eq_of_keys (p.symm.trans p') hn hv]

theorem read_alone (h : getIncludes tokens text = []) (hs : ReadInSomeOrder fs tokens root text s) :
    s.rootPath = root ∧ s.rootContent = text ∧ s.content = [] := by
  obtain ⟨c, p, rfl⟩ := hs
  refine ⟨rfl, rfl, ?_⟩
  have : (readWithIncludes fs tokens root text).content = [] := by
    unfold readWithIncludes
    dsimp only
    rw [readLoop_none]
    · rfl
    · unfold readInit readStep
      rw [h]
      rfl
  rw [this] at p
  exact p.symm.eq_nil

end

/-! ### Erasing places -/

section
variable [Unicode] [DecOps] {env : ParseEnv}

theorem erased (hx : SameEnv env env) {s : Sources} (hc : Complete env.tokens s)
    (hk : ∀ id path text, IsSource s id path text → KeysApart (env.tokens text)) {f : Nat → List Ranged}
    (hf : ∀ e ∈ s.contentIter, toks (f e.1) = toks (env.tokens e.2.2) ∧ ((f e.1).map (·.start)).Nodup) :
    Complete (envOf env f).tokens (recode s) ∧ SameButPlaces (parseSources env s) (parseSources (envOf env f) (recode s)) := by
  have same : ∀ e ∈ s.contentIter, SameTokens (env.tokens e.2.2) ((envOf env f).tokens (code e.1)) := by
    intro e he
    change SameTokens _ (f (code e.1).length)
    rw [code_length]
    exact (hf e he).1.symm
  refine ⟨recode_complete hc same, Layout.parseSources_same ⟨rfl, rfl, hx.context⟩ (recode_same same) hk ?_⟩
  intro id path text hi
  have := mem_contentIter.mpr hi
  rw [recode_iter] at this
  obtain ⟨e, hm, he⟩ := List.mem_map.mp this
  cases he
  change KeysApart (f (code e.1).length)
  rw [code_length]
  exact apart_of_starts (hf e hm).2

theorem inOrder_congr {f g : Nat → List Ranged} {es : List (Nat × Option Path × Str)} {o o' : ParserOptions} {rs : List FileResult}
    (h : InOrder (envOf env f) o es rs o') (he : ∀ e ∈ es, f e.2.2.length = g e.2.2.length) : InOrder (envOf env g) o es rs o' := by
  induction h with
  | nil o => exact .nil o
  | cons o o' id path text res es rs hp _ ih =>
    refine .cons _ _ _ _ _ _ _ _ ?_ (ih fun e hm => he e (List.mem_cons_of_mem _ hm))
    have := he _ List.mem_cons_self
    dsimp only at this
    change parseFile _ (g text.length) o [] = some res
    rw [← this]
    exact hp

/-- Both files in one. -/
theorem files_append {id : Nat} {path : Option Path} {a u : List Ranged} (ha : Ended a) (hu : Begun u) (na : ¬ SetsParserOption a) (nu : NoPragma (toks u))
    {ra ru : FileResult} (h1 : parseFile ⟨id, path, fun _ => ⟨0, 0, 0⟩, env.decimal⟩ a ParserOptions.default [] = some ra) (e1 : ra.errors = [])
    (h2 : parseFile ⟨id, path, fun _ => ⟨0, 0, 0⟩, env.decimal⟩ u ParserOptions.default [] = some ru) (e2 : ru.errors = []) :
    ∃ (da : List (Spanned Declaration)) (X : List (Spanned Directive)) (wa wu : List Report), ra = ⟨some da, [], ParserOptions.default, wa⟩ ∧ ru = ⟨some (X.map decl), [], ParserOptions.default, wu⟩ ∧
      parseFile ⟨id, path, fun _ => ⟨0, 0, 0⟩, env.decimal⟩ (a ++ u) ParserOptions.default [] =
        some ⟨some (da ++ X.map decl), [], ParserOptions.default, wa ++ wu⟩ := by
  obtain ⟨da, wa, k1, k2⟩ := parseFile_sound h1 (by rw [e1]; simp)
  obtain ⟨du, wu, k3, k4⟩ := parseFile_sound h2 (by rw [e2]; simp)
  have s1 := InPlaceParse.FileP.steady k2 na
  have s2 := InPlaceParse.FileP.steady k4 (not_sets nu)
  obtain ⟨X, rfl⟩ := decls_of (only_directives k4 nu)
  rw [e1, s1] at k1 k2
  rw [e2, s2] at k3 k4
  refine ⟨da, X, wa, wu, k1, k3, ?_⟩
  exact parseFile_complete [] ((file_parts ha hu).mpr ⟨_, _, _, _, _, _, _, k2, k4, rfl, rfl, rfl⟩)

/-- One result, by the other two. -/
structure Merged (r r' p : ParseSuccess) : Prop where
  directives : r.directives = sortDirectives (r'.directives ++ p.directives)
  options : r.options = r'.options
  plugins : r.plugins = r'.plugins
  warnings : r.warnings.Perm (r'.warnings ++ p.warnings)

theorem merged {root : Option Path} {a u : List Ranged} (ha : Ended a) (hu : Begun u) (na : ¬ SetsParserOption a) (nu : NoPragma (toks u))
    {f1 f2 f3 : Nat → List Ranged} (g1 : f1 0 = a ++ u) (g2 : f2 0 = a) (g3 : f3 0 = u) (hf : ∀ k, k ≠ 0 → f1 k = f2 k) {s1 s2 s3 : Sources}
    (c1 : Complete (envOf env f1).tokens s1) (c2 : Complete (envOf env f2).tokens s2) (c3 : Complete (envOf env f3).tokens s3)
    (r1 : s1.rootPath = root) (r2 : s2.rootPath = root) (r3 : s3.rootPath = root)
    {tail : List (Nat × Option Path × Str)} (ht : ∀ e ∈ tail, e.2.2.length ≠ 0)
    (i1 : s1.contentIter = (0, root, []) :: tail) (i2 : s2.contentIter = (0, root, []) :: tail) (i3 : s3.contentIter = [(0, root, [])])
    (hp : (envOf env f1).pragmaEnv s1 = (envOf env f2).pragmaEnv s2)
    {r p : ParseSuccess} (hr : parseSources (envOf env f2) s2 = .ok r) (hq : parseSources (envOf env f3) s3 = .ok p) :
    ∃ r1, parseSources (envOf env f1) s1 = .ok r1 ∧ Merged r1 r p := by
  obtain ⟨rs, o, o1, e1⟩ := succeeded c2 hr
  obtain ⟨qs, o', o2, e2⟩ := succeeded c3 hq
  obtain ⟨ds, data, p1, q1⟩ := parseSources_ok c2 o1
  obtain ⟨ds3, data3, p3, q3⟩ := parseSources_ok c3 o2
  rw [no_faults e1, hr] at q1
  rw [no_faults e2, hq] at q3
  rw [i2] at o1 p1
  rw [i3] at o2 p3
  cases o1 with
  | cons _ _ _ _ _ ra _ rs ha1 t1 =>
  cases o2 with
  | cons _ _ _ _ _ ru _ qs ha2 t2 =>
  cases t2
  change parseFile _ (f2 0) _ _ = _ at ha1
  change parseFile _ (f3 0) _ _ = _ at ha2
  rw [g2] at ha1
  rw [g3] at ha2
  obtain ⟨da, X, wa, wu, rfl, rfl, hpf⟩ := files_append ha hu na nu ha1 (e1 _ (by simp)) ha2 (e2 _ (by simp))
  have all : InOrder (envOf env f1) ParserOptions.default s1.contentIter (⟨some (da ++ X.map decl), [], ParserOptions.default, wa ++ wu⟩ :: rs) o := by
    rw [i1]
    refine .cons _ _ _ _ _ _ _ _ ?_ (inOrder_congr t1 fun e he => (hf _ (ht e he)).symm)
    change parseFile _ (f1 0) _ _ = _
    rw [g1]
    exact hpf
  obtain ⟨ds1, data1, p4, q4⟩ := parseSources_ok c1 all
  rw [no_faults (by
    intro res hres
    rcases List.mem_cons.mp hres with rfl | hres
    · rfl
    · exact e1 _ (List.mem_cons_of_mem _ hres))] at q4
  rw [hp, r1, i1] at p4
  rw [r2] at p1
  rw [r3] at p3
  have hfin : data.finalErrors = [] := by
    by_contra hn
    rw [if_neg (fun x => hn x.2)] at q1
    cases q1
  have hfin3 : data3.finalErrors = [] := by
    by_contra hn
    rw [if_neg (fun x => hn x.2)] at q3
    cases q3
  obtain ⟨rfl, rfl⟩ := process_append (rest := outputsOf tail rs) (a := da) (X := X) p1 hfin p4
  have h3 := (process_alone (X := X) p3).1
  subst h3
  rw [if_pos ⟨rfl, hfin⟩] at q1 q4
  rw [if_pos ⟨rfl, hfin3⟩] at q3
  cases q1
  cases q3
  refine ⟨_, q4, sort_both _ _, rfl, rfl, ?_⟩
  dsimp only
  simp only [List.flatMap_cons, List.flatMap_nil, List.append_nil, List.append_assoc]
  exact List.Perm.append_left _ List.perm_append_comm

/-- What is parsed at the end of the root is parsed alone. -/
theorem alone_ok {root : Option Path} {a u : List Ranged} (ha : Ended a) (hu : Begun u) (na : ¬ SetsParserOption a) (nu : NoPragma (toks u))
    {f1 f3 : Nat → List Ranged} (g1 : f1 0 = a ++ u) (g3 : f3 0 = u) {s1 s3 : Sources}
    (c1 : Complete (envOf env f1).tokens s1) (c3 : Complete (envOf env f3).tokens s3) (r3 : s3.rootPath = root)
    {tail : List (Nat × Option Path × Str)} (i1 : s1.contentIter = (0, root, []) :: tail) (i3 : s3.contentIter = [(0, root, [])])
    {r : ParseSuccess} (hr : parseSources (envOf env f1) s1 = .ok r) : ∃ p, parseSources (envOf env f3) s3 = .ok p := by
  obtain ⟨rs, o, o1, e1⟩ := succeeded c1 hr
  rw [i1] at o1
  cases o1 with
  | cons _ _ _ _ _ ra _ rs ha1 t1 =>
  change parseFile _ (f1 0) _ _ = _ at ha1
  rw [g1] at ha1
  have he := e1 _ List.mem_cons_self
  obtain ⟨ds, ws, k1, k2⟩ := parseFile_sound ha1 (by rw [he]; simp)
  rw [he] at k2
  obtain ⟨da, du, o1, x1, x2, wa, wu, k3, k4, rfl, k5, rfl⟩ := (file_parts ha hu).mp k2
  obtain ⟨rfl, rfl⟩ := List.append_eq_nil_iff.mp k5.symm
  have s1 := InPlaceParse.FileP.steady k3 na
  subst s1
  obtain ⟨X, rfl⟩ := decls_of (only_directives k4 nu)
  have all : InOrder (envOf env f3) ParserOptions.default s3.contentIter [⟨some (X.map decl), [], ra.opts, wu⟩] ra.opts := by
    rw [i3]
    refine .cons _ _ _ _ _ _ _ _ ?_ (.nil _)
    change parseFile _ (f3 0) _ _ = _
    rw [g3]
    exact parseFile_complete [] k4
  obtain ⟨ds3, data3, p3, q3⟩ := parseSources_ok c3 all
  rw [i3, r3] at p3
  have h3 := process_alone (X := X) p3
  rw [no_faults (by simp), if_pos ⟨rfl, h3.2⟩] at q3
  exact ⟨_, q3⟩

/-! ### Texts -/

section
variable [Categories] {l : Logos} {fs : FileSystem} {root : Option Path} {text more : Str} {s s' sp : Sources}

/-- Both runs and the run of the passage alone, with places erased. -/
structure Erased (env : ParseEnv) (s s' sp : Sources) (root : Option Path) (a u : List Ranged) (f1 f2 f3 : Nat → List Ranged)
    (tail : List (Nat × Option Path × Str)) : Prop where
  ended : Ended a
  begun : Begun u
  sets : ¬ SetsParserOption a
  plain : NoPragma (toks u)
  first : f1 0 = a ++ u
  second : f2 0 = a
  third : f3 0 = u
  others : ∀ k, k ≠ 0 → f1 k = f2 k
  complete1 : Complete (envOf env f1).tokens (recode s)
  complete2 : Complete (envOf env f2).tokens (recode s')
  complete3 : Complete (envOf env f3).tokens (recode sp)
  root1 : (recode s).rootPath = root
  root2 : (recode s').rootPath = root
  root3 : (recode sp).rootPath = root
  nonempty : ∀ e ∈ tail, e.2.2.length ≠ 0
  iter1 : (recode s).contentIter = (0, root, []) :: tail
  iter2 : (recode s').contentIter = (0, root, []) :: tail
  iter3 : (recode sp).contentIter = [(0, root, [])]
  pragmas : (envOf env f1).pragmaEnv (recode s) = (envOf env f2).pragmaEnv (recode s')
  same1 : SameButPlaces (parseSources env s) (parseSources (envOf env f1) (recode s))
  same2 : SameButPlaces (parseSources env s') (parseSources (envOf env f2) (recode s'))
  same3 : SameButPlaces (parseSources env sp) (parseSources (envOf env f3) (recode sp))

/-- All texts can be lexed. -/
abbrev AllLexed (l : Logos) (s : Sources) : Prop := ∀ e ∈ s.contentIter, lexText l e.2.2 ≠ none

theorem keys_apart (hlex : LexedBy l env.tokens) (hl : AllLexed l s) :
    ∀ id path text, IsSource s id path text → KeysApart (env.tokens text) := by
  intro id path text hi
  obtain ⟨toks, ht⟩ := Option.ne_none_iff_exists'.mp (hl _ (mem_contentIter.mpr hi))
  rw [hlex _ _ ht]
  exact Layout.lexText_apart ht

/-- One text may come after another: it begins where a line begins. -/
structure After (l : Logos) (tokens : Str → List Ranged) (text more : Str) : Prop where
  ended : WholeLines ((tokens text).map (·.tok))
  begun : ∀ x ∈ ((tokens more).map (·.tok)).head?, x ≠ .indent
  both : (tokens (text ++ more)).map (·.tok) = (tokens text).map (·.tok) ++ (tokens more).map (·.tok)
  lexed : lexText l (text ++ more) ≠ none
  alone : lexText l more ≠ none

theorem after_passages (hlex : LexedBy l env.tokens) (pt : Passage l text) (pm : Passage l more) : After l env.tokens text more :=
  ⟨(passage_whole hlex pt).1, (passage_whole hlex pm).2.1, passages_tokens hlex pt pm, lexed_passage hlex (Passage.append pt pm),
    lexed_passage hlex pm⟩

theorem includes_more (pa : After l env.tokens text more) (hn : NoPragma (toks (env.tokens more))) :
    getIncludes env.tokens (text ++ more) = getIncludes env.tokens text ∧ getIncludes env.tokens more = [] := by
  unfold getIncludes
  rw [pa.both, includes_append pa.ended]
  have := includes_none hn.2.1
  unfold toks at this
  rw [this, List.append_nil]
  exact ⟨rfl, rfl⟩

theorem erase_all (hwf : GlobsWF fs) (hlex : LexedBy l env.tokens) (hx : SameEnv env env) (pa : After l env.tokens text more)
    (ho : ¬ SetsParserOption (env.tokens text)) (hn : NoPragma (toks (env.tokens more)))
    (hs : ReadInSomeOrder fs env.tokens root (text ++ more) s) (hs' : ReadInSomeOrder fs env.tokens root text s') (hv : SameVisits s s')
    (hsp : ReadInSomeOrder fs env.tokens root more sp) (hl : AllLexed l s') :
    AllLexed l s ∧ AllLexed l sp ∧ ∃ a u f1 f2 f3 tail, Erased env s s' sp root a u f1 f2 f3 tail := by
  obtain ⟨i1, i2⟩ := includes_more pa hn
  have complete : ∀ {t : Str} {s : Sources}, ReadInSomeOrder fs env.tokens root t s → Complete env.tokens s ∧ s.rootPath = root ∧ s.rootContent = t := by
    rintro t s ⟨c, hc, rfl⟩
    exact ⟨(read_complete hwf).perm hc, rfl, rfl⟩
  obtain ⟨c1, _, t1⟩ := complete hs
  obtain ⟨c2, b2, t2⟩ := complete hs'
  obtain ⟨c3, b3, t3⟩ := complete hsp
  have hss := read_both hwf i1 hs hs' hv
  have hcont : s.content = s'.content := by rw [hss]
  have hglobs : s.globs = s'.globs := by rw [hss]
  have hroot : s.rootPath = s'.rootPath := by rw [hss]
  have h3 : sp.content = [] := (read_alone i2 hsp).2.2
  have it : ∀ x : Sources, x.contentIter = (0, x.rootPath, x.rootContent) :: x.contentIter.tail := fun _ => rfl
  have tl : s.contentIter.tail = s'.contentIter.tail := by
    unfold Sources.contentIter
    rw [hcont]
    rfl
  have tl3 : sp.contentIter.tail = [] := by
    unfold Sources.contentIter
    rw [h3]
    rfl
  have l1 : AllLexed l s := by
    intro e he
    rw [it, tl] at he
    rcases List.mem_cons.mp he with rfl | he
    · change lexText l s.rootContent ≠ none
      rw [t1]
      exact pa.lexed
    · exact hl e (List.mem_of_mem_tail he)
  have l3 : AllLexed l sp := by
    intro e he
    rw [it, tl3] at he
    rcases List.mem_cons.mp he with rfl | he
    · change lexText l sp.rootContent ≠ none
      rw [t3]
      exact pa.alone
    · cases he
  refine ⟨l1, l3, ?_⟩
  let A := toks (env.tokens text)
  let U := toks (env.tokens more)
  let a := place 0 A
  let u := place A.length U
  let f1 : Nat → List Ranged := fun k => if k = 0 then a ++ u else placed env.tokens s' k
  let f2 : Nat → List Ranged := fun k => if k = 0 then a else placed env.tokens s' k
  let f3 : Nat → List Ranged := fun _ => u
  have na : (a.map (·.start)).Nodup := by rw [place_starts]; exact List.nodup_range'
  have nu : (u.map (·.start)).Nodup := by rw [place_starts]; exact List.nodup_range'
  have nau : ((a ++ u).map (·.start)).Nodup := by
    rw [List.map_append, place_starts, place_starts]
    have := List.range'_append (s := 0) (m := A.length) (n := U.length) (step := 1)
    simp only [Nat.one_mul, Nat.zero_add] at this
    rw [this]
    exact List.nodup_range'
  have other : ∀ e ∈ s'.contentIter.tail, e.1 ≠ 0 ∧ toks (placed env.tokens s' e.1) = toks (env.tokens e.2.2) ∧
      ((placed env.tokens s' e.1).map (·.start)).Nodup := by
    intro e he
    refine ⟨tail_id c2 he, ?_⟩
    rw [placed_mem c2 (List.mem_of_mem_tail he)]
    exact ⟨place_toks _ _, by rw [place_starts]; exact List.nodup_range'⟩
  obtain ⟨k1, m1⟩ := erased hx c1 (keys_apart hlex l1) (f := f1) (by
    intro e he
    rw [it, tl] at he
    rcases List.mem_cons.mp he with rfl | he
    · refine ⟨?_, nau⟩
      change toks (a ++ u) = toks (env.tokens s.rootContent)
      rw [t1, toks, toks, pa.both, List.map_append, place_toks, place_toks]
    · obtain ⟨h1, h2⟩ := other e he
      simp only [f1, if_neg h1]
      exact h2)
  obtain ⟨k2, m2⟩ := erased hx c2 (keys_apart hlex hl) (f := f2) (by
    intro e he
    rw [it] at he
    rcases List.mem_cons.mp he with rfl | he
    · refine ⟨?_, na⟩
      change toks a = toks (env.tokens s'.rootContent)
      rw [t2]
      exact place_toks _ _
    · obtain ⟨h1, h2⟩ := other e he
      simp only [f2, if_neg h1]
      exact h2)
  obtain ⟨k3, m3⟩ := erased hx c3 (keys_apart hlex l3) (f := f3) (by
    intro e he
    rw [it, tl3] at he
    rcases List.mem_cons.mp he with rfl | he
    · refine ⟨?_, nu⟩
      change toks u = toks (env.tokens sp.rootContent)
      rw [t3]
      exact place_toks _ _
    · cases he)
  refine ⟨a, u, f1, f2, f3, s'.contentIter.tail.map fun e => (e.1, e.2.1, code e.1), ?_⟩
  exact {
    ended := place_ended pa.ended
    begun := place_head pa.begun
    sets := fun h => ho (SetsParserOption.same (place_toks _ _) h)
    plain := by
      have : toks u = U := place_toks _ _
      rw [this]
      exact hn
    first := rfl
    second := rfl
    third := rfl
    others := fun k hk => by simp only [f1, f2, if_neg hk]
    complete1 := k1
    complete2 := k2
    complete3 := k3
    root1 := hroot.trans b2
    root2 := b2
    root3 := b3
    nonempty := by
      intro e he
      obtain ⟨e, hm, rfl⟩ := List.mem_map.mp he
      dsimp only
      rw [code_length]
      exact (other e hm).1
    iter1 := by
      rw [recode_iter, it, tl, List.map_cons, hroot, b2]
      rfl
    iter2 := by
      rw [recode_iter, it, List.map_cons, b2]
      rfl
    iter3 := by
      rw [recode_iter, it, tl3, List.map_cons, b3]
      rfl
    pragmas := by
      unfold ParseEnv.pragmaEnv
      rw [recode_errors, recode_errors, show (recode s).globs = s.globs from rfl, show (recode s').globs = s'.globs from rfl, hglobs,
        show s.errorPaths = s'.errorPaths by unfold Sources.errorPaths; rw [hcont]]
      rfl
    same1 := m1
    same2 := m2
    same3 := m3 }

end

end

end Lima.Append
