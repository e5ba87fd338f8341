import Verif.Lemmas.SurroundRun

/-! A passage left out, and the directives which remain. -/

set_option linter.unusedSectionVars false

namespace Lima.LeftOut
open Lima Spec Grammar Props InPlaceParse Revise Surround

variable (In : Span → Prop)

/-- What remains. -/
noncomputable def rest (l : List (Spanned Directive)) : List (Spanned Directive) :=
  open Classical in l.filter fun d => decide (¬ In d.span)

/-- Declarations, without the directives at some places. -/
inductive Decls : List (Spanned Declaration) → List (Spanned Declaration) → Prop
  | nil : Decls [] []
  | directive {d : Spanned Declaration} {x : Directive} {l l'} : d.item = .directive x → ¬ In d.span → Decls l l' → Decls (d :: l) (d :: l')
  | pragma {d : Spanned Declaration} {x : Pragma} {l l'} : d.item = .pragma x → Decls l l' → Decls (d :: l) (d :: l')
  | drop {d : Spanned Declaration} {x : Directive} {l l'} : d.item = .directive x → In d.span → Decls l l' → Decls (d :: l) l'

variable {In}

theorem rest_in {d : Spanned Directive} {l : List (Spanned Directive)} (h : In d.span) : rest In (d :: l) = rest In l := by
  unfold rest
  rw [List.filter_cons_of_neg]
  simpa using h

theorem rest_out {d : Spanned Directive} {l : List (Spanned Directive)} (h : ¬ In d.span) : rest In (d :: l) = d :: rest In l := by
  unfold rest
  rw [List.filter_cons_of_pos]
  simpa using h

def Lists (In : Span → Prop) : Files → Files → Prop := List.Forall₂ fun e e' => e'.1 = e.1 ∧ Decls In e.2 e'.2

theorem Lists.get {f f' : Files} (h : Lists In f f') (p : Option Path) :
    (AMap.get f p = none ∧ AMap.get f' p = none) ∨ ∃ l l', AMap.get f p = some l ∧ AMap.get f' p = some l' ∧ Decls In l l' := by
  induction h with
  | nil => exact .inl ⟨rfl, rfl⟩
  | @cons e e' f f' h _ ih =>
    obtain ⟨k, l⟩ := e
    obtain ⟨k', l'⟩ := e'
    obtain ⟨hk, hd⟩ := h
    dsimp only at hk hd
    subst hk
    simp only [AMap.get_cons]
    by_cases hp : k' = p
    · rw [if_pos hp, if_pos hp]
      exact .inr ⟨l, l', rfl, rfl, hd⟩
    · rw [if_neg hp, if_neg hp]
      exact ih

theorem Lists.erase {f f' : Files} (h : Lists In f f') (p : Option Path) : Lists In (AMap.erase f p) (AMap.erase f' p) := by
  unfold AMap.erase
  induction h with
  | nil => exact .nil
  | @cons e e' f f' h _ ih =>
    rw [List.filter_cons, List.filter_cons, h.1]
    split
    · exact .cons h ih
    · exact ih

structure Sim (In : Span → Prop) (st st' : PragmaState) : Prop where
  path : st'.currentPath = st.currentPath
  current : Decls In st.current st'.current
  stacked : Lists In st.stacked st'.stacked
  remaining : Lists In st.remaining st'.remaining
  data : st'.data = st.data

theorem Sim.includeOne {env : PragmaEnv} {st st' : PragmaState} (h : Sim In st st') (span : Span) (p : Path) :
    Sim In (st.includeOne env span p) (st'.includeOne env span p) := by
  unfold PragmaState.includeOne
  rcases h.remaining.get (some p) with ⟨g1, g2⟩ | ⟨l, l', g1, g2, g3⟩
  · rw [g1, g2]
    exact ⟨h.path, h.current, h.stacked, h.remaining, by dsimp only; rw [h.data]⟩
  · rw [g1, g2]
    exact ⟨rfl, g3, .cons ⟨h.path, h.current⟩ h.stacked, h.remaining.erase _, by dsimp only; rw [h.data]⟩

theorem Sim.includes {env : PragmaEnv} (span : Span) : ∀ (ps : List Path) {st st' : PragmaState}, Sim In st st' →
    Sim In (ps.foldl (PragmaState.includeOne env span) st) (ps.foldl (PragmaState.includeOne env span) st')
  | [], _, _, h => h
  | p :: ps, _, _, h => Sim.includes span ps (h.includeOne span p)

/-- A pragma. -/
theorem consume (env : PragmaEnv) {p : Option Path} {d : Spanned Declaration} {x : Pragma} (hx : d.item = .pragma x)
    {l l' : List (Spanned Declaration)} {k k' r r' : Files} {dat : PragmaData} (hl : Decls In l l') (hk : Lists In k k')
    (hr : Lists In r r') :
    (∃ st st', PragmaState.step env ⟨p, d :: l, k, r, dat⟩ = .continue st ∧ PragmaState.step env ⟨p, d :: l', k', r', dat⟩ = .continue st' ∧
      Sim In st st') ∨ PragmaState.step env ⟨p, d :: l, k, r, dat⟩ = .panic := by
  by_cases hn : ∀ g, x ≠ .include g
  · exact .inl ⟨_, _, Bracketed.step_pragma hx hn, Bracketed.step_pragma hx hn, rfl, hl, hk, hr, rfl⟩
  · have : ∃ g, x = .include g := by
      by_contra hh
      exact hn fun g hg => hh ⟨g, hg⟩
    obtain ⟨g, rfl⟩ := this
    simp only [PragmaState.step, hx, PragmaState.includeGlob]
    cases AMap.get env.globs (resolveIncludedPath p (Path.ofStr g.item)) with
    | none => exact .inr rfl
    | some gl =>
      left
      cases gl with
      | expanded ps =>
        refine ⟨_, _, rfl, rfl, Sim.includes g.span ps ?_⟩
        cases ps with
        | nil => exact ⟨rfl, hl, hk, hr, rfl⟩
        | cons q qs => exact ⟨rfl, hl, hk, hr, rfl⟩
      | error e => exact ⟨_, _, rfl, rfl, rfl, hl, hk, hr, rfl⟩

/-- Both runs come to the same end. -/
theorem sim_runs {env : PragmaEnv} (n : Nat) : ∀ {st st' : PragmaState} {out out' : List (Spanned Directive)} {fin fin' : PragmaState} {n' : Nat},
    Runs env n st out fin → Runs env n' st' out' fin' → Sim In st st' → out' = rest In out ∧ fin'.data = fin.data := by
  induction n using Nat.strongRecOn with
  | ind n ih =>
    intro st st' out out' fin fin' n' hr hr' h
    obtain ⟨p, c, k, r, dat⟩ := st
    obtain ⟨p', c', k', r', dat'⟩ := st'
    obtain ⟨h1, h2, h3, h4, h5⟩ := h
    dsimp only at h1 h2 h3 h4 h5
    subst h1
    subst h5
    cases h2 with
    | nil =>
      cases h3 with
      | nil =>
        obtain ⟨rfl, rfl⟩ := hr.inv_done rfl
        obtain ⟨rfl, rfl⟩ := hr'.inv_done rfl
        exact ⟨rfl, rfl⟩
      | @cons e e' k k' he hk =>
        obtain ⟨q, l⟩ := e
        obtain ⟨q', l'⟩ := e'
        obtain ⟨hq, hl⟩ := he
        dsimp only at hq hl
        subst hq
        obtain ⟨m, rfl, hr1⟩ := hr.inv_cont (st1 := ⟨q', l, k, r, dat'⟩) rfl
        obtain ⟨m', rfl, hr1'⟩ := hr'.inv_cont (st1 := ⟨q', l', k', r', dat'⟩) rfl
        exact ih m (by omega) hr1 hr1' ⟨rfl, hl, hk, h4, rfl⟩
    | @directive d x l l' hx hn hl =>
      obtain ⟨m, x1, o1, rfl, a1, rfl, hr1⟩ := Runs.directive hx hr
      obtain ⟨m', x2, o2, rfl, a2, rfl, hr1'⟩ := Runs.directive hx hr'
      rw [a1] at a2
      cases a2
      obtain ⟨a, b⟩ := ih m (by omega) hr1 hr1' ⟨rfl, hl, h3, h4, rfl⟩
      exact ⟨by rw [rest_out hn, a], b⟩
    | @pragma d x l l' hx hl =>
      rcases consume env (p := p') (dat := dat') hx hl h3 h4 with ⟨st, st', e1, e2, hs⟩ | e1
      · obtain ⟨m, rfl, hr1⟩ := hr.inv_cont e1
        obtain ⟨m', rfl, hr1'⟩ := hr'.inv_cont e2
        exact ih m (by omega) hr1 hr1' hs
      · exact absurd e1 hr.inv_panic
    | @drop d x l l' hx hn hl =>
      obtain ⟨m, x1, o1, rfl, a1, rfl, hr1⟩ := Runs.directive hx hr
      obtain ⟨a, b⟩ := ih m (by omega) hr1 hr' ⟨rfl, hl, h3, h4, rfl⟩
      exact ⟨by rw [rest_in hn, a], b⟩

theorem process {env : PragmaEnv} {root : Option Path} {files files' : Files} {o : Options} (h : Lists In files files')
    {out out' : List (Spanned Directive)} {d d' : PragmaData}
    (h1 : processPragmas env root files o = .ok (out, d)) (h2 : processPragmas env root files' o = .ok (out', d')) :
    out' = rest In out ∧ d' = d := by
  unfold processPragmas PragmaState.new at h1 h2
  have key : ∀ {st : PragmaState} {out d}, (st.collect env).map (fun r => (r.1, r.2.data)) = Res.ok (out, d) →
      ∃ n fin, Runs env n st out fin ∧ fin.data = d := by
    intro st out d hh
    cases hc : st.collect env with
    | err e => rw [hc] at hh; cases hh
    | panic => rw [hc] at hh; cases hh
    | ok r =>
      rw [hc] at hh
      cases hh
      obtain ⟨m, hm⟩ := runs_of_fuel _ hc
      exact ⟨m, _, hm, rfl⟩
  rcases h.get root with ⟨k1, _⟩ | ⟨l, l', k1, k2, k3⟩
  · rw [k1] at h1; cases h1
  · rw [k1] at h1
    rw [k2] at h2
    dsimp only at h1 h2
    obtain ⟨n, fin, r1, rfl⟩ := key h1
    obtain ⟨n', fin', r2, rfl⟩ := key h2
    exact sim_runs n r1 r2 ⟨rfl, k3, .nil, h.erase _, rfl⟩

/-- What remains is sorted as before. -/
theorem rest_sort (l : List (Spanned Directive)) : sortDirectives (rest In l) = rest In (sortDirectives l) := by
  have := Bracketed.related_of_ranks (Q := (· = ·)) (fun a b h => h ▸ ⟨rfl, rfl⟩) (sortDirectives (rest In l)) (rest In (sortDirectives l))
    (Props.C01_sort_ordered _) ((Props.C01_sort_ordered l).filter _) fun d => ?_
  · rwa [List.forall₂_eq_eq_eq] at this
  · rw [List.forall₂_eq_eq_eq]
    unfold ofRank rest
    rw [Props.C01_sort_stable, List.filter_comm, List.filter_comm (l := sortDirectives l), Props.C01_sort_stable]

section
variable [Unicode] [DecOps]

/-! ### Files -/

/-- The tokens of a file, and those of the other. -/
def Tokens (reg : Nat → Option (Nat × Nat)) (id : Nat) (x y : List Ranged) : Prop :=
  (reg id = none ∧ y = x) ∨ ∃ n m, reg id = some (n, m) ∧ ∃ a u c : List Ranged, x = a ++ (u ++ c) ∧ y = a ++ c ∧
    Ended a ∧ Ended u ∧ Begun u ∧ Begun c ∧ NoPragma (toks u) ∧
    (∀ t ∈ a, isDate t.tok = true → t.start < n) ∧ (∀ t ∈ u, isDate t.tok = true → n ≤ t.start ∧ t.start < m) ∧
    (∀ t ∈ c, isDate t.tok = true → m ≤ t.start)

variable {decimal : Str → Except LexerError Dec} {reg : Nat → Option (Nat × Nat)}
  {id : Nat} {path : Option Path} {x y : List Ranged} {o o' : ParserOptions} {ds : List (Spanned Declaration)} {ws : List Report}

theorem outside {l l' : List (Spanned Declaration)} (h : Decls In l l') : ∀ {ds : List (Spanned Declaration)},
    (∀ d ∈ ds, ∀ x, d.item = .directive x → ¬ In d.span) → Decls In (ds ++ l) (ds ++ l')
  | [], _ => h
  | d :: ds, ho => by
    have ih := outside h (ds := ds) fun e he => ho e (List.mem_cons_of_mem _ he)
    cases hd : d.item with
    | directive x => exact .directive hd (ho d (by simp) x hd) ih
    | pragma x => exact .pragma hd ih

theorem inside {l l' : List (Spanned Declaration)} (h : Decls In l l') : ∀ {ds : List (Spanned Declaration)},
    (∀ d ∈ ds, ∃ x, d.item = .directive x ∧ In d.span) → Decls In (ds ++ l) l'
  | [], _ => h
  | d :: ds, ho => by
    obtain ⟨x, h1, h2⟩ := ho d (by simp)
    exact .drop h1 h2 (inside h fun e he => ho e (List.mem_cons_of_mem _ he))

theorem forth (h : Tokens reg id x y) (hf : FileP (cfgAt decimal id path) o x ds o' [] ws) :
    ∃ ds' ws', FileP (cfgAt decimal id path) o y ds' o' [] ws' ∧ Decls (Within reg) ds ds' ∧ ws'.Sublist ws := by
  rcases h with ⟨h1, rfl⟩ | ⟨n, m, h1, a, u, c, rfl, rfl, ha, hu, bu, bc, nu, ra, ru, rc⟩
  · refine ⟨ds, ws, hf, ?_, .refl _⟩
    have := outside (In := Within reg) (.nil) (ds := ds) fun d hd z hz => ?_
    · simpa using this
    · have hs := (stands hf d hd z hz).source
      rintro ⟨n, m, h2, _⟩
      rw [hs] at h2
      rw [show reg (cfgAt decimal id path).source = none from h1] at h2
      cases h2
  · obtain ⟨da, d1, o1, e1, e2, wa, w1, k1, k2, rfl, k3, rfl⟩ := (file_parts ha (InPlaceParse.head_append bu bc)).mp hf
    obtain ⟨rfl, rfl⟩ := List.append_eq_nil_iff.mp k3.symm
    obtain ⟨du, dc, o2, e1, e2, wu, wc, k4, k5, rfl, k6, rfl⟩ := (file_parts hu bc).mp k2
    obtain ⟨rfl, rfl⟩ := List.append_eq_nil_iff.mp k6.symm
    have s1 := InPlaceParse.FileP.steady k4 (not_sets nu)
    subst s1
    refine ⟨da ++ dc, wa ++ wc, (file_parts ha bc).mpr ⟨_, _, _, _, _, _, _, k1, k5, rfl, rfl, rfl⟩, ?_, ?_⟩
    · have out : ∀ {ts : List Ranged} {span : Span}, (∀ t ∈ ts, isDate t.tok = true → t.start < n ∨ m ≤ t.start) →
          Stands id ts span → ¬ Within reg span := by
        rintro ts span hts ⟨h2, ⟨t, ht, hd, hst⟩, _⟩ ⟨n', m', h3, h4, h5⟩
        rw [h2, h1] at h3
        cases h3
        have := hts t ht hd
        omega
      have hc : Decls (Within reg) (dc ++ []) (dc ++ []) := outside .nil
        (fun d hd z hz => out (fun t ht hdt => .inr (rc t ht hdt)) (stands k5 d hd z hz))
      rw [List.append_nil] at hc
      refine outside ?_ (fun d hd z hz => out (fun t ht hdt => .inl (ra t ht hdt)) (stands k1 d hd z hz))
      refine inside hc fun d hd => ?_
      obtain ⟨z, hz, _⟩ := only_directives k4 nu d hd
      obtain ⟨h2, ⟨t, ht, hdt, hst⟩, _⟩ := stands k4 d hd z hz
      have := ru t ht hdt
      exact ⟨z, hz, n, m, by rw [h2]; exact h1, by omega, by omega⟩
    · exact (List.Sublist.refl _).append (List.sublist_append_right _ _)

structure Sources (reg : Nat → Option (Nat × Nat)) (env1 env2 : ParseEnv) (s1 s2 : Lima.Sources) : Prop where
  complete1 : Complete env1.tokens s1
  complete2 : Complete env2.tokens s2
  empty1 : env1.emptySpan = fun _ _ => ⟨0, 0, 0⟩
  empty2 : env2.emptySpan = fun _ _ => ⟨0, 0, 0⟩
  decimal : env2.decimal = env1.decimal
  pragmas : env2.pragmaEnv s2 = env1.pragmaEnv s1
  rootPath : s2.rootPath = s1.rootPath
  files : List.Forall₂ (fun e e' : Nat × Option Path × Str => e'.1 = e.1 ∧ e'.2.1 = e.2.1 ∧
    Tokens reg e.1 (env1.tokens e.2.2) (env2.tokens e'.2.2)) s1.contentIter s2.contentIter

theorem files_forth {env1 env2 : ParseEnv} (e1 : env1.emptySpan = fun _ _ => ⟨0, 0, 0⟩) (e2 : env2.emptySpan = fun _ _ => ⟨0, 0, 0⟩)
    (hd : env2.decimal = env1.decimal) {es es' : List (Nat × Option Path × Str)}
    (h : List.Forall₂ (fun e e' : Nat × Option Path × Str => e'.1 = e.1 ∧ e'.2.1 = e.2.1 ∧
      Tokens reg e.1 (env1.tokens e.2.2) (env2.tokens e'.2.2)) es es')
    {o o' : ParserOptions} {rs : List FileResult} (hr : InOrder env1 o es rs o') (he : ∀ res ∈ rs, res.errors = []) :
    ∃ rs', InOrder env2 o es' rs' o' ∧ (∀ res ∈ rs', res.errors = []) ∧
      Lists (Within reg) (outputsOf es rs) (outputsOf es' rs') ∧ (rs'.flatMap (·.warns)).Sublist (rs.flatMap (·.warns)) := by
  induction hr generalizing es' with
  | nil o =>
    cases h
    exact ⟨[], .nil _, fun _ h => (by cases h), .nil, .refl _⟩
  | cons o o' id path text res es rs hpf _ ih =>
    cases h with
    | @cons _ e' _ es' hh ht =>
      obtain ⟨id', path', text'⟩ := e'
      obtain ⟨h1, h2, h3⟩ := hh
      dsimp only at h1 h2 h3
      subst h1
      subst h2
      have he0 := he res (by simp)
      rw [e1] at hpf
      obtain ⟨ds, ws, k1, k2⟩ := parseFile_sound hpf (by rw [he0]; simp)
      rw [he0] at k2
      obtain ⟨ds', ws', k3, k4, k5⟩ := forth h3 k2
      obtain ⟨rs', m1, m2, m3, m4⟩ := ih ht fun res hres => he res (List.mem_cons_of_mem _ hres)
      refine ⟨⟨some ds', [], res.opts, [] ++ ws'⟩ :: rs', .cons _ _ _ _ _ _ _ _ (by rw [e2, hd]; exact parseFile_complete [] k3) m1, ?_, ?_, ?_⟩
      · intro r hr
        rcases List.mem_cons.mp hr with rfl | hr
        · rfl
        · exact m2 r hr
      · refine .cons ⟨rfl, ?_⟩ m3
        change Decls _ (res.declarations.getD []) ds'
        rw [k1]
        exact k4
      · rw [List.flatMap_cons, List.flatMap_cons]
        refine List.Sublist.append ?_ m4
        rw [k1]
        exact k5

/-- The second result, by the first. -/
structure Results (In : Span → Prop) (r r' : ParseSuccess) : Prop where
  options : r'.options = r.options
  plugins : r'.plugins = r.plugins
  warnings : r'.warnings.Sublist r.warnings
  directives : r'.directives = rest In r.directives

theorem sources_parse {env1 env2 : ParseEnv} {s1 s2 : Lima.Sources} (h : Sources reg env1 env2 s1 s2) {r : ParseSuccess}
    (hr : parseSources env1 s1 = .ok r) : ∃ r', parseSources env2 s2 = .ok r' ∧ Results (Within reg) r r' := by
  obtain ⟨rs, o, hio, he⟩ := succeeded h.complete1 hr
  obtain ⟨rs', h1, h2, h3, h4⟩ := files_forth h.empty1 h.empty2 h.decimal h.files hio he
  obtain ⟨ds, data, p1, q1⟩ := parseSources_ok h.complete1 hio
  obtain ⟨ds', data', p2, q2⟩ := parseSources_ok h.complete2 h1
  rw [h.pragmas, h.rootPath] at p2
  obtain ⟨rfl, rfl⟩ := process h3 p1 p2
  rw [no_faults he] at q1
  rw [no_faults h2] at q2
  by_cases hf : data'.finalErrors = []
  · rw [if_pos ⟨rfl, hf⟩] at q1 q2
    rw [q1] at hr
    cases hr
    exact ⟨_, q2, rfl, rfl, h4, rest_sort _⟩
  · rw [if_neg (fun x => hf x.2)] at q1
    rw [q1] at hr
    cases hr

end

/-! ### Texts -/

/-- The tokens of a file, and what those of the other are. -/
def Texts (reg : Nat → Option (Nat × Nat)) (id : Nat) (x : List Ranged) (ts : List Token) : Prop :=
  (reg id = none ∧ ts = toks x) ∨ ∃ n m, reg id = some (n, m) ∧ ∃ a u c : List Ranged, x = a ++ (u ++ c) ∧
    ts = toks a ++ toks c ∧
    Ended a ∧ Ended u ∧ Begun u ∧ Begun c ∧ NoPragma (toks u) ∧
    (∀ t ∈ a, isDate t.tok = true → t.start < n) ∧ (∀ t ∈ u, isDate t.tok = true → n ≤ t.start ∧ t.start < m) ∧
    (∀ t ∈ c, isDate t.tok = true → m ≤ t.start)

variable {reg : Nat → Option (Nat × Nat)}

theorem tokens_of {id : Nat} {x : List Ranged} {ts : List Token} (h : Texts reg id x ts) (hk : KeysApart x) :
    ∃ y, toks y = ts ∧ Tokens reg id x y ∧ KeysApart y := by
  rcases h with ⟨h1, rfl⟩ | ⟨n, m, h1, a, u, c, rfl, rfl, ha, hu, bu, bc, nu, ra, ru, rc⟩
  · exact ⟨x, rfl, .inl ⟨h1, rfl⟩, hk⟩
  · refine ⟨a ++ c, by simp only [toks, List.map_append], .inr ⟨n, m, h1, a, u, c, rfl, rfl, ha, hu, bu, bc, nu, ra, ru, rc⟩, ?_⟩
    rw [apart_iff] at *
    exact hk.sublist ((List.Sublist.refl _).append (List.sublist_append_right _ _))

/-- The tokens of all of the other texts. -/
theorem all_tokens {tokens : Str → List Ranged} {s s' : Lima.Sources} (hc' : Complete tokens s')
    (hk : ∀ id path text, IsSource s id path text → KeysApart (tokens text))
    (h : List.Forall₂ (fun e e' : Nat × Option Path × Str => e'.1 = e.1 ∧ e'.2.1 = e.2.1 ∧
      Texts reg e.1 (tokens e.2.2) (toks (tokens e'.2.2))) s.contentIter s'.contentIter) :
    ∃ f : Nat → List Ranged, List.Forall₂ (fun e e' : Nat × Option Path × Str => e'.1 = e.1 ∧ e'.2.1 = e.2.1 ∧
      toks (f e'.1) = toks (tokens e'.2.2) ∧ Tokens reg e.1 (tokens e.2.2) (f e'.1) ∧ KeysApart (f e'.1)) s.contentIter s'.contentIter := by
  have ids : ((s'.contentIter).map (·.1)).Nodup := hc'.ids
  have key : ∀ {l l' : List (Nat × Option Path × Str)}, (∀ e ∈ l, e ∈ s.contentIter) → (l'.map (·.1)).Nodup →
      List.Forall₂ (fun e e' : Nat × Option Path × Str => e'.1 = e.1 ∧ e'.2.1 = e.2.1 ∧ Texts reg e.1 (tokens e.2.2) (toks (tokens e'.2.2))) l l' →
      ∃ f : Nat → List Ranged, List.Forall₂ (fun e e' : Nat × Option Path × Str => e'.1 = e.1 ∧ e'.2.1 = e.2.1 ∧
        toks (f e'.1) = toks (tokens e'.2.2) ∧ Tokens reg e.1 (tokens e.2.2) (f e'.1) ∧ KeysApart (f e'.1)) l l' := by
    intro l l' hm hn hh
    induction hh with
    | nil => exact ⟨fun _ => [], .nil⟩
    | @cons e e' l l' h hrest ih =>
      rw [List.map_cons, List.nodup_cons] at hn
      obtain ⟨f, hf⟩ := ih (fun x hx => hm x (List.mem_cons_of_mem _ hx)) hn.2
      obtain ⟨y, h1, h2, h3⟩ := tokens_of h.2.2 (hk _ _ _ (mem_contentIter.mp (hm e (by simp))))
      refine ⟨fun k => if k = e'.1 then y else f k, .cons ⟨h.1, h.2.1, ?_⟩ ?_⟩
      · dsimp only
        rw [if_pos rfl]
        exact ⟨h1, h2, h3⟩
      · have : ∀ x ∈ l', ¬ x.1 = e'.1 := fun x hx he => hn.1 (he ▸ List.mem_map_of_mem hx)
        clear h1 h2 h3 h hm ih hn hrest
        induction hf with
        | nil => exact .nil
        | @cons a b l l' hab _ ih =>
          refine .cons ?_ (ih fun x hx => this x (List.mem_cons_of_mem _ hx))
          dsimp only
          rw [if_neg (this b (by simp))]
          exact hab
  exact key (fun _ h => h) ids h

section
variable [Unicode] [DecOps]

theorem without {l l1 m : List (Spanned Directive)}
    (h : List.Forall₂ (fun d d1 : Spanned Directive => SameButPlaces d d1 ∧ d.span = d1.span) l l1) (h' : List.Forall₂ SameButPlaces (rest In l1) m) :
    Without In l m := by
  induction h generalizing m with
  | nil => cases h'; exact .nil
  | @cons d d1 l l1 hd _ ih =>
    by_cases hin : In d1.span
    · rw [rest_in hin] at h'
      exact .goes (by rw [hd.2]; exact hin) (ih h')
    · rw [rest_out hin] at h'
      cases h' with
      | cons a b => exact .stays (by rw [hd.2]; exact hin) (hd.1.trans a) (ih b)

theorem left_parse {env : ParseEnv} (hx : SameEnv env env) {s s' : Lima.Sources} (hc : Complete env.tokens s) (hc' : Complete env.tokens s')
    (hk : ∀ id path text, IsSource s id path text → KeysApart (env.tokens text))
    (hk' : ∀ id path text, IsSource s' id path text → KeysApart (env.tokens text))
    (hsound : ∀ e ∈ s.contentIter, Surround.Sound (env.tokens e.2.2))
    (hr : s'.rootPath = s.rootPath) (hg : s'.globs = s.globs) (he : s'.errorPaths = s.errorPaths)
    (h : List.Forall₂ (fun e e' : Nat × Option Path × Str => e'.1 = e.1 ∧ e'.2.1 = e.2.1 ∧
      Texts reg e.1 (env.tokens e.2.2) (toks (env.tokens e'.2.2))) s.contentIter s'.contentIter)
    {r : ParseSuccess} (ok : parseSources env s = .ok r) : ∃ r', parseSources env s' = .ok r' ∧ Spec.Rest (Within reg) r r' := by
  obtain ⟨f, hf⟩ := all_tokens hc' hk h
  let env1 : ParseEnv := { env with emptySpan := fun _ _ => ⟨0, 0, 0⟩ }
  let env2 := envOf env f
  have same1 : SameButPlaces (parseSources env s) (parseSources env1 s) := by
    refine Layout.parseSources_same ⟨rfl, rfl, hx.context⟩ ⟨rfl, rfl, rfl, ?_, rfl⟩ hk hk
    rw [List.forall₂_same]
    intro e _
    refine ⟨rfl, ?_⟩
    obtain ⟨p, x⟩ := e
    cases x with
    | content => exact .content rfl
    | error => exact .error _
    | duplicate => exact .duplicate
  have same2 : ∀ e ∈ s'.contentIter, SameTokens (env.tokens e.2.2) (env2.tokens (code e.1)) := by
    intro e' he'
    obtain ⟨e, _, _, _, hh, _⟩ := forall₂_right hf e' he'
    change SameTokens _ (f (code e'.1).length)
    rw [code_length]
    exact hh.symm
  have p2 : SameButPlaces (parseSources env s') (parseSources env2 (recode s')) := by
    refine Layout.parseSources_same ⟨rfl, rfl, hx.context⟩ (recode_same same2) hk' ?_
    intro id path text hi
    have := mem_contentIter.mpr hi
    rw [recode_iter] at this
    obtain ⟨e', hm, he⟩ := List.mem_map.mp this
    cases he
    obtain ⟨e, _, _, _, _, _, hh⟩ := forall₂_right hf e' hm
    change KeysApart (f (code e'.1).length)
    rw [code_length]
    exact hh
  have hs : Sources reg env1 env2 s (recode s') := by
    refine ⟨hc, recode_complete hc' same2, rfl, rfl, rfl, ?_, hr, ?_⟩
    · unfold ParseEnv.pragmaEnv
      rw [recode_errors, he, show (recode s').globs = s'.globs from rfl, hg]
      rfl
    · rw [recode_iter, List.forall₂_map_right_iff]
      refine hf.imp fun e e' hh => ⟨hh.1, hh.2.1, ?_⟩
      change Tokens _ _ _ (f (code e'.1).length)
      rw [code_length]
      exact hh.2.2.2.1
  obtain ⟨r1, q1, _⟩ := same_ok_result same1.symm ok
  obtain ⟨r2, q2, q3⟩ := sources_parse hs q1
  obtain ⟨r0, e1, e2, e3⟩ := respan hx hk q1
  rw [ok] at e1
  cases e1
  obtain ⟨r', e4, e5⟩ := same_ok_result p2 q2
  have stops := all_stop (env := env1) rfl hc hsound q1
  refine ⟨r', e4, ?_, ?_, ?_, ?_⟩
  · have a1 := forall₂_same_places (show SameButPlaces r.directives r1.directives from congrArg ParseSuccess.directives e2)
    have a2 := forall₂_same_places (show SameButPlaces r2.directives r'.directives from (congrArg ParseSuccess.directives e5).symm)
    rw [q3.directives] at a2
    have b1 : List.Forall₂ (fun d d1 : Spanned Directive => SameButPlaces d d1 ∧ d.span = d1.span) r.directives r1.directives := by
      have := forall₂_and a1 e3
      clear a1 a2 e3 q3
      revert stops
      generalize r1.directives = w at this
      generalize r.directives = v at this
      intro stops
      induction this with
      | nil => exact .nil
      | cons h _ ih => exact .cons ⟨h.1, h.2 (stops _ (by simp))⟩ (ih fun x hx => stops x (List.mem_cons_of_mem _ hx))
    exact without b1 a2
  · have a1 : SameButPlaces r.options r1.options := congrArg ParseSuccess.options e2
    have a2 : SameButPlaces r'.options r2.options := congrArg ParseSuccess.options e5
    rw [q3.options] at a2
    exact a1.trans a2.symm
  · have a1 : SameButPlaces r.plugins r1.plugins := congrArg ParseSuccess.plugins e2
    have a2 : SameButPlaces r'.plugins r2.plugins := congrArg ParseSuccess.plugins e5
    rw [q3.plugins] at a2
    exact a1.trans a2.symm
  · have a1 : SameButPlaces r.warnings r1.warnings := congrArg ParseSuccess.warnings e2
    have a2 : SameButPlaces r'.warnings r2.warnings := congrArg ParseSuccess.warnings e5
    exact sublist_like a1 q3.warnings a2

end

/-! ### Runs -/

section
variable [Categories] {l : Logos} {tokens : Str → List Ranged} {before passage after : Str}

theorem left_includes (hl : LexedBy l tokens) (hp : ∀ t ∈ [before, passage, after], Passage l t) (hn : NoPragma ((tokens passage).map (·.tok)))
    (t t' : Str) (ht : Spec.LeftOut before passage after t t') : getIncludes tokens t' = getIncludes tokens t := by
  rcases ht with rfl | ⟨rfl, rfl⟩
  · rfl
  · have pb := hp before (by simp)
    have pu := hp passage (by simp)
    have pa := hp after (by simp)
    unfold getIncludes
    rw [passages_tokens hl (Passage.append pb pu) pa, passages_tokens hl pb pu, passages_tokens hl pb pa, List.append_assoc,
      includes_append (passage_whole hl pb).1, includes_append (passage_whole hl pb).1, includes_append (passage_whole hl pu).1,
      includes_none hn.2.1]
    rfl

theorem left_lexed (hl : LexedBy l tokens) (hp : ∀ t ∈ [before, passage, after], Passage l t)
    {t t' : Str} (ht : Spec.LeftOut before passage after t t') (h : lexText l t ≠ none) : lexText l t' ≠ none := by
  rcases ht with rfl | ⟨rfl, rfl⟩
  · exact h
  · exact lexed_passage hl (Passage.append (hp before (by simp)) (hp after (by simp)))

theorem left_texts (hl : LexedBy l tokens) (hp : ∀ t ∈ [before, passage, after], Passage l t) (hn : NoPragma ((tokens passage).map (·.tok)))
    {id : Nat} (hr : reg id = some (byteLen before, byteLen (before ++ passage))) :
    Texts reg id (tokens (before ++ passage ++ after)) (toks (tokens (before ++ after))) := by
  have pb := hp before (by simp)
  have pu := hp passage (by simp)
  have pa := hp after (by simp)
  have hF := (passage_whole hl (Passage.append (Passage.append pb pu) pa)).2.2
  obtain ⟨r1, r2⟩ := passage_region (Passage.append pb pu) pa (passage_whole hl (Passage.append pb pu)).2.2 hF
  obtain ⟨r3, r4⟩ := passage_region pb (Passage.append pu pa) (passage_whole hl pb).2.2 (F := tokens (before ++ passage ++ after))
    (by rw [← List.append_assoc]; exact hF)
  have ht : toks (tokens (before ++ passage ++ after)) = toks (tokens before) ++ (toks (tokens passage) ++ toks (tokens after)) := by
    rw [toks, passages_tokens hl (Passage.append pb pu) pa, passages_tokens hl pb pu, List.append_assoc]
  have hlen : (tokens (before ++ passage)).length = (tokens before).length + (tokens passage).length := by
    have := congrArg List.length (passages_tokens hl pb pu)
    simpa using this
  obtain ⟨a, x, hx, ha, hx'⟩ := List.map_eq_append_iff.mp ht
  obtain ⟨u, c, rfl, hu, hc⟩ := List.map_eq_append_iff.mp hx'
  have la : a.length = (tokens before).length := by simpa using congrArg List.length ha
  have lu : u.length = (tokens passage).length := by simpa using congrArg List.length hu
  rw [hx] at r1 r2 r3 r4
  rw [← la, List.take_left] at r3
  rw [← la, List.drop_left] at r4
  have lau : (tokens (before ++ passage)).length = (a ++ u).length := by rw [hlen, List.length_append, la, lu]
  rw [lau, ← List.append_assoc, List.take_left] at r1
  rw [lau, ← List.append_assoc, List.drop_left] at r2
  refine .inr ⟨_, _, hr, a, u, c, hx, ?_, ended_of ?_, ended_of ?_, begun_of ?_, begun_of ?_, ?_, r3, ?_, r2⟩
  · rw [toks, passages_tokens hl pb pa]
    exact congrArg₂ (· ++ ·) ha.symm hc.symm
  · rw [toks, ha]; exact (passage_whole hl pb).1
  · rw [toks, hu]; exact (passage_whole hl pu).1
  · rw [toks, hu]; exact (passage_whole hl pu).2.1
  · rw [toks, hc]; exact (passage_whole hl pa).2.1
  · rw [toks, hu]; exact hn
  · intro t ht hd
    exact ⟨r4 t (List.mem_append_left _ ht) hd, r1 t (List.mem_append_right _ ht) hd⟩

variable [Unicode] [DecOps] {env : ParseEnv} {fs fs' : FileSystem} {root : Option Path} {text text' : Str} {s s' : Lima.Sources}

/-- Where the passage is. -/
noncomputable def region (s s' : Lima.Sources) (before passage after : Str) (id : Nat) : Option (Nat × Nat) :=
  open Classical in
  if ∃ path, IsSource s id path (before ++ passage ++ after) ∧ IsSource s' id path (before ++ after) then
    some (byteLen before, byteLen (before ++ passage))
  else none

theorem within_region (sp : Span) : Within (region s s' before passage after) sp ↔ InLeftOut s s' before passage after sp := by
  unfold Within InLeftOut region
  constructor
  · rintro ⟨n, m, h, h1, h2⟩
    split at h
    · rename_i hc
      cases h
      exact ⟨hc, h1, h2⟩
    · cases h
  · rintro ⟨hc, h1, h2⟩
    exact ⟨_, _, if_pos hc, h1, h2⟩

/-- A run on the files, and on the files without a passage. -/
theorem left_run (hwf : GlobsWF fs) (hlex : LexedBy l env.tokens) (hx : SameEnv env env)
    (hp : ∀ t ∈ [before, passage, after], Passage l t) (hn : NoPragma ((env.tokens passage).map (·.tok)))
    (hfs : FilesLike (Spec.LeftOut before passage after) fs fs') (ht : Spec.LeftOut before passage after text text')
    (hs : ReadInSomeOrder fs env.tokens root text s) (hs' : ReadInSomeOrder fs' env.tokens root text' s') (hv : SameVisits s s')
    {r : ParseSuccess} (ok : parseTexts l env s = .ok r) :
    ∃ r', parseTexts l env s' = .ok r' ∧ Spec.Rest (InLeftOut s s' before passage after) r r' := by
  have hwf' : GlobsWF fs' := fun p gs hg => hwf p gs (by rw [← hfs.glob]; exact hg)
  have like := Revise.read_alike (left_includes hlex hp hn) hwf' hfs ht hs hs' hv
  obtain ⟨h1, h2⟩ := Revise.content_like like
  have c1 : Complete env.tokens s := by
    obtain ⟨c, hc, rfl⟩ := hs
    exact (read_complete hwf).perm hc
  have c2 : Complete env.tokens s' := by
    obtain ⟨c, hc, rfl⟩ := hs'
    exact (read_complete hwf').perm hc
  have hl : ∀ e ∈ s.contentIter, lexText l e.2.2 ≠ none := by
    by_contra hl
    unfold parseTexts at ok
    rw [if_pos] at ok
    · cases ok
    · push Not at hl
      obtain ⟨e, he, hn⟩ := hl
      exact List.any_eq_true.mpr ⟨e, he, by rw [hn]; rfl⟩
  have hl' : ∀ e ∈ s'.contentIter, lexText l e.2.2 ≠ none := by
    intro e' he'
    obtain ⟨e, he, _, _, hh⟩ := InPlaceParse.forall₂_right h1 e' he'
    exact left_lexed hlex hp hh (hl e he)
  have apart : ∀ {s : Lima.Sources}, (∀ e ∈ s.contentIter, lexText l e.2.2 ≠ none) →
      ∀ id path text, IsSource s id path text → KeysApart (env.tokens text) := by
    intro s hl id path text hi
    obtain ⟨toks, ht⟩ := Option.ne_none_iff_exists'.mp (hl _ (mem_contentIter.mpr hi))
    rw [hlex _ _ ht]
    exact Layout.lexText_apart ht
  rw [parseTexts_eq hl] at ok
  rw [parseTexts_eq hl']
  have hin : Within (region s s' before passage after) = InLeftOut s s' before passage after := funext fun sp => propext (within_region sp)
  rw [← hin]
  refine left_parse hx c1 c2 (apart hl) (apart hl') ?_ like.rootPath like.globs h2 ?_ ok
  · intro e he
    obtain ⟨toks, ht⟩ := Option.ne_none_iff_exists'.mp (hl _ he)
    rw [hlex _ _ ht]
    exact lexText_sound ht
  · have key : ∀ {L L' : List (Nat × Option Path × Str)}, (∀ e ∈ L, e ∈ s.contentIter) → (∀ e ∈ L', e ∈ s'.contentIter) →
        List.Forall₂ (fun e e' : Nat × Option Path × Str => e'.1 = e.1 ∧ e'.2.1 = e.2.1 ∧ Spec.LeftOut before passage after e.2.2 e'.2.2) L L' →
        List.Forall₂ (fun e e' : Nat × Option Path × Str => e'.1 = e.1 ∧ e'.2.1 = e.2.1 ∧
          Texts (region s s' before passage after) e.1 (env.tokens e.2.2) (toks (env.tokens e'.2.2))) L L' := by
      intro L L' hL hL' hh
      induction hh with
      | nil => exact .nil
      | @cons e e' L L' h _ ih =>
        refine .cons ⟨h.1, h.2.1, ?_⟩ (ih (fun x hx => hL x (List.mem_cons_of_mem _ hx)) fun x hx => hL' x (List.mem_cons_of_mem _ hx))
        have m := hL e (by simp)
        have m' := hL' e' (by simp)
        by_cases hc : ∃ path, IsSource s e.1 path (before ++ passage ++ after) ∧ IsSource s' e.1 path (before ++ after)
        · have hreg : region s s' before passage after e.1 = some (byteLen before, byteLen (before ++ passage)) := by
            unfold region
            exact if_pos hc
          obtain ⟨path, k1, k2⟩ := hc
          have t1 := same_id c1 m (mem_contentIter.mpr k1) rfl
          have t2 := same_id c2 m' (mem_contentIter.mpr k2) h.1
          have t1 : e.2.2 = _ := congrArg (·.2.2) t1
          have t2 : e'.2.2 = _ := congrArg (·.2.2) t2
          rw [t1, t2]
          exact left_texts hlex hp hn hreg
        · refine .inl ⟨?_, ?_⟩
          · unfold region
            exact if_neg hc
          · rcases h.2.2 with h' | ⟨h1, h2⟩
            · rw [h']
            · refine absurd ⟨e.2.1, ?_, ?_⟩ hc
              · rw [← h1]; exact mem_contentIter.mp m
              · rw [← h2, ← h.1, ← h.2.1]; exact mem_contentIter.mp m'
    exact key (fun _ h => h) (fun _ h => h) h1

end

end Lima.LeftOut
