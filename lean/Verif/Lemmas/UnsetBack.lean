import Verif.Lemmas.UnsetRun

/-! A pragma put in which affects options or plugins only: the two runs of the pragma processor. -/

set_option linter.unusedSectionVars false

namespace Lima.Unset
open Lima Spec Grammar Props InPlaceParse Revise Surround Bracketed

/-! ### The two runs of the pragma processor -/

/-- What makes the run without the pragma unfit, so that the other need not be like it. -/
structure Back (E : Effect) (bad : PragmaData → Prop) : Prop where
  persist : ∀ {env n st out fin}, Runs env n st out fin → bad st.data → bad fin.data
  act : ∀ {d d'} pr, Alike E d d' → bad (act pr d') ∨ Alike E (act pr d) (act pr d')
  drop : ∀ {d d' pr}, E.drop pr → Alike E d d' → Alike E (Bracketed.act pr d) d'

variable {E : Effect} {bad : PragmaData → Prop}

theorem consume_back (B : Back E bad) (env : PragmaEnv) {p : Option Path} {d : Spanned Declaration} {x : Pragma} (hx : d.item = .pragma x)
    {l l' : List (Spanned Declaration)} {k k' r r' : Files} {dat dat' : PragmaData} (hl : Decls E l l') (hk : Lists E k k')
    (hr : Lists E r r') (ha : Alike E dat dat') :
    (∃ st st', PragmaState.step env ⟨p, d :: l, k, r, dat⟩ = .continue st ∧ PragmaState.step env ⟨p, d :: l', k', r', dat'⟩ = .continue st' ∧
      (bad st'.data ∨ Sim E st st')) ∨ PragmaState.step env ⟨p, d :: l, k, r, dat⟩ = .panic := by
  by_cases hn : ∀ g, x ≠ .include g
  · refine .inl ⟨_, _, Bracketed.step_pragma hx hn, Bracketed.step_pragma hx hn, ?_⟩
    exact (B.act x ha).imp id fun h => ⟨rfl, hl, hk, hr, h⟩
  · have : ∃ g, x = .include g := by
      by_contra hh
      exact hn fun g hg => hh ⟨g, hg⟩
    obtain ⟨g, rfl⟩ := this
    simp only [PragmaState.step, hx, PragmaState.includeGlob]
    cases AMap.get env.globs (resolveIncludedPath p (Path.ofStr g.item)) with
    | none => exact .inr rfl
    | some gl =>
      left
      cases gl with
      | expanded ps =>
        refine ⟨_, _, rfl, rfl, .inr (Sim.includes g.span ps ?_)⟩
        cases ps with
        | nil => exact ⟨rfl, hl, hk, hr, ha.report _⟩
        | cons q qs => exact ⟨rfl, hl, hk, hr, ha⟩
      | error e => exact ⟨_, _, rfl, rfl, .inr ⟨rfl, hl, hk, hr, ha.report _⟩⟩

theorem sim_back (B : Back E bad) {env : PragmaEnv} (n : Nat) : ∀ {st st' : PragmaState} {out out' : List (Spanned Directive)} {fin fin' : PragmaState} {n' : Nat},
    Runs env n st out fin → Runs env n' st' out' fin' → Sim E st st' → bad fin'.data ∨ (out' = out ∧ Alike E fin.data fin'.data) := by
  induction n using Nat.strongRecOn with
  | ind n ih =>
    intro st st' out out' fin fin' n' hr hr' h
    obtain ⟨p, c, k, r, dat⟩ := st
    obtain ⟨p', c', k', r', dat'⟩ := st'
    obtain ⟨h1, h2, h3, h4, h5⟩ := h
    dsimp only at h1 h2 h3 h4 h5
    subst h1
    cases h2 with
    | nil =>
      cases h3 with
      | nil =>
        obtain ⟨rfl, rfl⟩ := hr.inv_done rfl
        obtain ⟨rfl, rfl⟩ := hr'.inv_done rfl
        exact .inr ⟨rfl, h5⟩
      | @cons e e' k k' he hk =>
        obtain ⟨q, l⟩ := e
        obtain ⟨q', l'⟩ := e'
        obtain ⟨hq, hl⟩ := he
        dsimp only at hq hl
        subst hq
        obtain ⟨m, rfl, hr1⟩ := hr.inv_cont (st1 := ⟨q', l, k, r, dat⟩) rfl
        obtain ⟨m', rfl, hr1'⟩ := hr'.inv_cont (st1 := ⟨q', l', k', r', dat'⟩) rfl
        exact ih m (by omega) hr1 hr1' ⟨rfl, hl, hk, h4, h5⟩
    | @same d l l' hl =>
      cases hx : d.item with
      | directive x =>
        obtain ⟨m, x1, o1, rfl, a1, rfl, hr1⟩ := Runs.directive hx hr
        obtain ⟨m', x2, o2, rfl, a2, rfl, hr1'⟩ := Runs.directive hx hr'
        rw [h5.augment, a1] at a2
        cases a2
        rcases ih m (by omega) hr1 hr1' ⟨rfl, hl, h3, h4, h5⟩ with h | ⟨a, b⟩
        · exact .inl h
        · exact .inr ⟨by rw [a], b⟩
      | pragma x =>
        rcases consume_back B env (p := p') hx hl h3 h4 h5 with ⟨st, st', e1, e2, hs⟩ | e1
        · obtain ⟨m, rfl, hr1⟩ := hr.inv_cont e1
          obtain ⟨m', rfl, hr1'⟩ := hr'.inv_cont e2
          rcases hs with hs | hs
          · exact .inl (B.persist hr1' hs)
          · exact ih m (by omega) hr1 hr1' hs
        · exact absurd e1 hr.inv_panic
    | @drop d x l l' hx hd hl =>
      have hn : ∀ g, x ≠ .include g := by
        rintro g rfl
        rcases E.drops _ hd with ⟨_, h⟩ | ⟨_, h⟩ <;> cases h
      obtain ⟨m, rfl, hr1⟩ := hr.inv_cont (step_pragma hx hn)
      exact ih m (by omega) hr1 hr' ⟨rfl, hl, h3, h4, B.drop hd h5⟩

/-- Runs of the pragma processor. -/
theorem collected {env : PragmaEnv} {st : PragmaState} {out : List (Spanned Directive)} {d : PragmaData}
    (hh : (st.collect env).map (fun r => (r.1, r.2.data)) = Res.ok (out, d)) : ∃ n fin, Runs env n st out fin ∧ fin.data = d := by
  cases hc : st.collect env with
  | err e => rw [hc] at hh; cases hh
  | panic => rw [hc] at hh; cases hh
  | ok r =>
    rw [hc] at hh
    cases hh
    obtain ⟨m, hm⟩ := runs_of_fuel _ hc
    exact ⟨m, _, hm, rfl⟩

theorem process_back (B : Back E bad) {env : PragmaEnv} {root : Option Path} {files files' : Files} {o : Options} (h : Lists E files files')
    {out out' : List (Spanned Directive)} {d d' : PragmaData}
    (h1 : processPragmas env root files o = .ok (out, d)) (h2 : processPragmas env root files' o = .ok (out', d')) :
    bad d' ∨ (out' = out ∧ Alike E d d') := by
  unfold processPragmas PragmaState.new at h1 h2
  rcases h.get root with ⟨k1, _⟩ | ⟨l, l', k1, k2, k3⟩
  · rw [k1] at h1; cases h1
  · rw [k1] at h1
    rw [k2] at h2
    dsimp only at h1 h2
    obtain ⟨n, fin, r1, rfl⟩ := collected h1
    obtain ⟨n', fin', r2, rfl⟩ := collected h2
    exact sim_back B n r1 r2 ⟨rfl, k3, .nil, h.erase _, rfl, rfl, rfl, rfl, E.start o⟩

/-! ### A single pragma in the root -/

/-- The pragma is yet to come, in this file or one below it. -/
inductive Ahead (x : Pragma) : List (Spanned Declaration) → Files → List (Spanned Declaration) → Files → Prop
  | here {a c : List (Spanned Declaration)} {d : Spanned Declaration} {k : Files} : d.item = .pragma x → Ahead x (a ++ d :: c) k (a ++ c) k
  | under {l l1 l1' : List (Spanned Declaration)} {q : Option Path} {k k' : Files} : Ahead x l1 k l1' k' →
      Ahead x l ((q, l1) :: k) l ((q, l1') :: k')

/-- Neither file is at its end, but begins with the same declaration; or the pragma comes first; or both are at their end. -/
theorem Ahead.first {x : Pragma} {l l' : List (Spanned Declaration)} {k k' : Files} (h : Ahead x l k l' k') :
    (∃ e m m', l = e :: m ∧ l' = e :: m' ∧ Ahead x m k m' k') ∨ (∃ d, d.item = .pragma x ∧ l = d :: l' ∧ k' = k) ∨
    ∃ q l1 l1' k1 k1', l = [] ∧ l' = [] ∧ k = (q, l1) :: k1 ∧ k' = (q, l1') :: k1' ∧ Ahead x l1 k1 l1' k1' := by
  cases h with
  | @here a c d k hd =>
    cases a with
    | nil => exact .inr (.inl ⟨d, hd, rfl, rfl⟩)
    | cons e a => exact .inl ⟨e, _, _, rfl, rfl, .here hd⟩
  | @under l l1 l1' q k k' hk =>
    cases l with
    | nil => exact .inr (.inr ⟨q, l1, l1', k, k', rfl, rfl, rfl, rfl, hk⟩)
    | cons e l => exact .inl ⟨e, l, l, rfl, rfl, .under hk⟩

/-- The states before the pragma. -/
def Before (x : Pragma) (st st' : PragmaState) : Prop :=
  st'.currentPath = st.currentPath ∧ st'.remaining = st.remaining ∧ st'.data = st.data ∧ Ahead x st.current st.stacked st'.current st'.stacked

theorem Before.includeOne {x : Pragma} {env : PragmaEnv} {st st' : PragmaState} (h : Before x st st') (span : Span) (p : Path) :
    Before x (st.includeOne env span p) (st'.includeOne env span p) := by
  obtain ⟨h1, h2, h3, h4⟩ := h
  unfold PragmaState.includeOne
  rw [h2]
  cases AMap.get st.remaining (some p) with
  | none =>
    dsimp only
    rw [h3]
    exact ⟨h1, rfl, rfl, h4⟩
  | some l =>
    dsimp only
    rw [h3, h1]
    exact ⟨rfl, rfl, rfl, .under h4⟩

theorem Before.includes {x : Pragma} {env : PragmaEnv} (span : Span) : ∀ (ps : List Path) {st st' : PragmaState}, Before x st st' →
    Before x (ps.foldl (PragmaState.includeOne env span) st) (ps.foldl (PragmaState.includeOne env span) st')
  | [], _, _, h => h
  | p :: ps, _, _, h => Before.includes span ps (h.includeOne span p)

theorem before_include {x : Pragma} (env : PragmaEnv) {p : Option Path} {d : Spanned Declaration} {g : Spanned Str} (hx : d.item = .pragma (.include g))
    {l l' : List (Spanned Declaration)} {k k' r : Files} {dat : PragmaData} (h : Ahead x l k l' k') :
    (∃ st st', PragmaState.step env ⟨p, d :: l, k, r, dat⟩ = .continue st ∧ PragmaState.step env ⟨p, d :: l', k', r, dat⟩ = .continue st' ∧
      Before x st st') ∨ PragmaState.step env ⟨p, d :: l, k, r, dat⟩ = .panic := by
  simp only [PragmaState.step, hx, PragmaState.includeGlob]
  cases AMap.get env.globs (resolveIncludedPath p (Path.ofStr g.item)) with
  | none => exact .inr rfl
  | some gl =>
    left
    cases gl with
    | expanded ps =>
      refine ⟨_, _, rfl, rfl, Before.includes g.span ps ?_⟩
      cases ps with
      | nil => exact ⟨rfl, rfl, rfl, h⟩
      | cons q qs => exact ⟨rfl, rfl, rfl, h⟩
    | error e => exact ⟨_, _, rfl, rfl, rfl, rfl, rfl, h⟩

theorem decls_refl : ∀ l : List (Spanned Declaration), Decls E l l
  | [] => .nil
  | _ :: l => .same (decls_refl l)

theorem lists_refl : ∀ k : Files, Lists E k k
  | [] => .nil
  | _ :: k => .cons ⟨rfl, decls_refl _⟩ (lists_refl k)

/-- From a single pragma on. -/
theorem single_back (B : Back E bad) {x : Pragma} (hn : ∀ g, x ≠ .include g) (hx : ∀ d, bad d ∨ Alike E (act x d) d) {env : PragmaEnv} (n : Nat) :
    ∀ {st st' : PragmaState} {out out' : List (Spanned Directive)} {fin fin' : PragmaState} {n' : Nat},
    Runs env n st out fin → Runs env n' st' out' fin' → Before x st st' → bad fin'.data ∨ (out' = out ∧ Alike E fin.data fin'.data) := by
  induction n using Nat.strongRecOn with
  | ind n ih =>
    intro st st' out out' fin fin' n' hr hr' h
    obtain ⟨p, c, k, r, dat⟩ := st
    obtain ⟨p', c', k', r', dat'⟩ := st'
    obtain ⟨h1, h2, h3, h4⟩ := h
    dsimp only at h1 h2 h3 h4
    subst h1 h2 h3
    rcases h4.first with ⟨e, m, m', rfl, rfl, h⟩ | ⟨d, hd, rfl, rfl⟩ | ⟨q, l1, l1', k1, k1', rfl, rfl, rfl, rfl, h⟩
    · cases he : e.item with
      | directive y =>
        obtain ⟨m, x1, o1, rfl, a1, rfl, hr1⟩ := Runs.directive he hr
        obtain ⟨m', x2, o2, rfl, a2, rfl, hr1'⟩ := Runs.directive he hr'
        rw [a1] at a2
        cases a2
        rcases ih m (by omega) hr1 hr1' ⟨rfl, rfl, rfl, h⟩ with h | ⟨a, b⟩
        · exact .inl h
        · exact .inr ⟨by rw [a], b⟩
      | pragma y =>
        by_cases hy : ∀ g, y ≠ .include g
        · obtain ⟨m, rfl, hr1⟩ := hr.inv_cont (step_pragma he hy)
          obtain ⟨m', rfl, hr1'⟩ := hr'.inv_cont (step_pragma he hy)
          exact ih m (by omega) hr1 hr1' ⟨rfl, rfl, rfl, h⟩
        · have : ∃ g, y = .include g := by
            by_contra hh
            exact hy fun g hg => hh ⟨g, hg⟩
          obtain ⟨g, rfl⟩ := this
          rcases before_include env (p := p') he (r := r') (dat := dat') h with ⟨st, st', e1, e2, hs⟩ | e1
          · obtain ⟨m, rfl, hr1⟩ := hr.inv_cont e1
            obtain ⟨m', rfl, hr1'⟩ := hr'.inv_cont e2
            exact ih m (by omega) hr1 hr1' hs
          · exact absurd e1 hr.inv_panic
    · obtain ⟨m, rfl, hr1⟩ := hr.inv_cont (step_pragma hd hn)
      rcases hx dat' with hb | ha
      · exact .inl (B.persist hr' hb)
      · exact sim_back B m hr1 hr' ⟨rfl, decls_refl _, lists_refl _, lists_refl _, ha⟩
    · obtain ⟨m, rfl, hr1⟩ := hr.inv_cont (st1 := ⟨q, l1, k1, r', dat'⟩) rfl
      obtain ⟨m', rfl, hr1'⟩ := hr'.inv_cont (st1 := ⟨q, l1', k1', r', dat'⟩) rfl
      exact ih m (by omega) hr1 hr1' ⟨rfl, rfl, rfl, h⟩

/-! ### What stays -/

theorem runs_persist {bad : PragmaData → Prop} (hact : ∀ pr d, bad d → bad (act pr d)) (hrep : ∀ d e, bad d → bad (d.report e))
    (hopen : ∀ env span p d, bad d → bad (PragmaData.opened env span d p)) {env : PragmaEnv} {n : Nat} {st fin : PragmaState} {out : List (Spanned Directive)}
    (hr : Runs env n st out fin) : bad st.data → bad fin.data := by
  have one : ∀ {span : Span} {st : PragmaState} {p : Path}, bad st.data → bad (st.includeOne env span p).data := by
    intro span st p h
    unfold PragmaState.includeOne
    split
    · exact hopen _ _ _ _ h
    · unfold PragmaData.notOpened
      dsimp only
      split
      · exact hrep _ _ h
      · split
        · split
          · split
            · exact h
            · exact hrep _ _ h
          · exact hrep _ _ h
        · exact hrep _ _ h
  have all : ∀ {span : Span} (ps : List Path) {st : PragmaState}, bad st.data → bad (ps.foldl (PragmaState.includeOne env span) st).data := by
    intro span ps
    induction ps with
    | nil => exact fun h => h
    | cons p ps ih => exact fun h => ih (one h)
  induction hr with
  | done _ => exact id
  | @cont n st st1 out fin hs _ ih =>
    intro h
    apply ih
    obtain ⟨p, c, k, r, dat⟩ := st
    cases c with
    | nil =>
      cases k with
      | nil => cases hs
      | cons e k => cases hs; exact h
    | cons d l =>
      cases hd : d.item with
      | directive x =>
        simp only [PragmaState.step, hd] at hs
        split at hs <;> cases hs
      | pragma x =>
        by_cases hn : ∀ g, x ≠ .include g
        · rw [step_pragma hd hn] at hs
          cases hs
          exact hact _ _ h
        · have : ∃ g, x = .include g := by
            by_contra hh
            exact hn fun g hg => hh ⟨g, hg⟩
          obtain ⟨g, rfl⟩ := this
          simp only [PragmaState.step, hd, PragmaState.includeGlob] at hs
          cases hg : AMap.get env.globs (resolveIncludedPath p (Path.ofStr g.item)) with
          | none => rw [hg] at hs; cases hs
          | some gl =>
            rw [hg] at hs
            cases gl with
            | expanded ps =>
              cases hs
              apply all
              split
              · exact hrep _ _ h
              · exact h
            | error e =>
              cases hs
              exact hrep _ _ h
  | @yield n st d st1 out fin hs _ ih =>
    intro h
    apply ih
    obtain ⟨p, c, k, r, dat⟩ := st
    cases c with
    | nil =>
      cases k with
      | nil => cases hs
      | cons e k => cases hs
    | cons d l =>
      cases hd : d.item with
      | directive x =>
        simp only [PragmaState.step, hd] at hs
        split at hs <;> cases hs
        exact h
      | pragma x =>
        by_cases hn : ∀ g, x ≠ .include g
        · rw [step_pragma hd hn] at hs
          cases hs
        · have : ∃ g, x = .include g := by
            by_contra hh
            exact hn fun g hg => hh ⟨g, hg⟩
          obtain ⟨g, rfl⟩ := this
          simp only [PragmaState.step, hd] at hs
          split at hs <;> cases hs

/-- A setting which is made stays made. -/
theorem act_kept {k : Setting} {pr : Pragma} {d : PragmaData} (h : keptSource d.options k ≠ none) : keptSource (act pr d).options k ≠ none := by
  cases pr with
  | pushtag t => unfold act PragmaData.pushtag; dsimp only; split <;> exact h
  | poptag t =>
    unfold act PragmaData.poptag
    dsimp only
    split
    · split <;> exact h
    · exact h
  | pushmeta t => unfold act PragmaData.pushmeta; dsimp only; split <;> exact h
  | popmeta t =>
    unfold act PragmaData.popmeta
    dsimp only
    split
    · split <;> exact h
    · exact h
  | «include» g => exact h
  | option o =>
    unfold act PragmaData.option
    dsimp only
    split
    · exact kept_or _ _ _ h
    · exact kept_or _ _ _ h
  | plugin p => exact h

/-! ### Files -/

/-- The declarations of the files, and of those without. -/
def Put (allowed : Option Path → Prop) (Q : List (Spanned Declaration) → Prop) : Files → Files → Prop :=
  List.Forall₂ fun e e' => e'.1 = e.1 ∧ (e'.2 = e.2 ∨ (allowed e.1 ∧ ∃ da du dc, e.2 = da ++ (du ++ dc) ∧ e'.2 = da ++ dc ∧ Q du))

/-- The runs of the pragma processor, if it does not crash. -/
def Processes (E : Effect) (bad : PragmaData → Prop) (allowed : Option Path → Prop) (Q : List (Spanned Declaration) → Prop) (root : Option Path) : Prop :=
  ∀ {env : PragmaEnv} {files files' : Files} {o : Options} {out out' : List (Spanned Directive)} {d d' : PragmaData}, Put allowed Q files files' →
    processPragmas env root files o = .ok (out, d) → processPragmas env root files' o = .ok (out', d') → bad d' ∨ (out' = out ∧ Alike E d d')

section
variable [Unicode] [DecOps]

/-- What has these tokens is without errors, in these files. -/
structure Fits (decimal : Str → Except LexerError Dec) (pts : List Token) (allowed : Option Path → Prop) (Q : List (Spanned Declaration) → Prop) : Prop where
  file : ∀ {P : List Ranged}, toks P = pts → ∀ (id : Nat) {path : Option Path} (o : ParserOptions), allowed path →
    ∃ ds ws, FileP (cfgAt decimal id path) o P ds o [] ws ∧ Q ds

variable {decimal : Str → Except LexerError Dec} {pts : List Token} {allowed : Option Path → Prop} {Q : List (Spanned Declaration) → Prop}
  {id : Nat} {path : Option Path} {x y : List Ranged} {o o' : ParserOptions} {ds' : List (Spanned Declaration)} {ws' : List Report}

theorem back (hp : Fits decimal pts allowed Q) (h : Tokens pts x y) (ha : allowed path ∨ y = x) (hf : FileP (cfgAt decimal id path) o y ds' o' [] ws') :
    ∃ ds ws, FileP (cfgAt decimal id path) o x ds o' [] ws ∧
      (ds' = ds ∨ (allowed path ∧ ∃ da du dc, ds = da ++ (du ++ dc) ∧ ds' = da ++ dc ∧ Q du)) ∧ ws'.Sublist ws := by
  rcases ha with ha | rfl
  swap
  · exact ⟨ds', ws', hf, .inl rfl, .refl _⟩
  rcases h with rfl | ⟨a, P, c, rfl, rfl, ea, eP, bP, bc, ht⟩
  · exact ⟨ds', ws', hf, .inl rfl, .refl _⟩
  · obtain ⟨da, dc, o1, e1, e2, wa, wc, k1, k2, rfl, k3, rfl⟩ := (file_parts ea bc).mp hf
    obtain ⟨rfl, rfl⟩ := List.append_eq_nil_iff.mp k3.symm
    obtain ⟨du, wu, k4, k5⟩ := hp.file ht id o1 ha
    exact ⟨da ++ (du ++ dc), wa ++ (wu ++ wc), (file_parts ea (InPlaceParse.head_append bP bc)).mpr ⟨_, _, _, [], [], _, _, k1,
      (file_parts eP bc).mpr ⟨_, _, _, [], [], _, _, k4, k2, rfl, rfl, rfl⟩, rfl, rfl, rfl⟩, .inr ⟨ha, da, du, dc, rfl, rfl, k5⟩,
      (List.Sublist.refl _).append (List.sublist_append_right _ _)⟩

structure SourcesBack (pts : List Token) (allowed : Option Path → Prop) (env1 env2 : ParseEnv) (s1 s2 : Lima.Sources) : Prop where
  complete1 : Complete env1.tokens s1
  complete2 : Complete env2.tokens s2
  empty1 : env1.emptySpan = fun _ _ => ⟨0, 0, 0⟩
  empty2 : env2.emptySpan = fun _ _ => ⟨0, 0, 0⟩
  decimal : env2.decimal = env1.decimal
  pragmas : env2.pragmaEnv s2 = env1.pragmaEnv s1
  rootPath : s2.rootPath = s1.rootPath
  files : List.Forall₂ (fun e e' : Nat × Option Path × Str => e'.1 = e.1 ∧ e'.2.1 = e.2.1 ∧
    Tokens pts (env1.tokens e.2.2) (env2.tokens e'.2.2) ∧ (allowed e.2.1 ∨ env2.tokens e'.2.2 = env1.tokens e.2.2)) s1.contentIter s2.contentIter

theorem files_back {env1 env2 : ParseEnv} (e1 : env1.emptySpan = fun _ _ => ⟨0, 0, 0⟩) (e2 : env2.emptySpan = fun _ _ => ⟨0, 0, 0⟩)
    (hd : env2.decimal = env1.decimal) (hp : Fits env1.decimal pts allowed Q) {es es' : List (Nat × Option Path × Str)}
    (h : List.Forall₂ (fun e e' : Nat × Option Path × Str => e'.1 = e.1 ∧ e'.2.1 = e.2.1 ∧
      Tokens pts (env1.tokens e.2.2) (env2.tokens e'.2.2) ∧ (allowed e.2.1 ∨ env2.tokens e'.2.2 = env1.tokens e.2.2)) es es')
    {o o' : ParserOptions} {rs' : List FileResult} (hr : InOrder env2 o es' rs' o') (he : ∀ res ∈ rs', res.errors = []) :
    ∃ rs, InOrder env1 o es rs o' ∧ (∀ res ∈ rs, res.errors = []) ∧
      Put allowed Q (outputsOf es rs) (outputsOf es' rs') ∧ (rs'.flatMap (·.warns)).Sublist (rs.flatMap (·.warns)) := by
  induction hr generalizing es with
  | nil o =>
    cases h
    exact ⟨[], .nil _, fun _ h => (by cases h), .nil, .refl _⟩
  | cons o o' id' path' text' res es' rs' hpf _ ih =>
    cases h with
    | @cons e _ es _ hh ht =>
      obtain ⟨id, path, text⟩ := e
      obtain ⟨h1, h2, h3, h4⟩ := hh
      dsimp only at h1 h2 h3 h4
      subst h1
      subst h2
      have he0 := he res (by simp)
      rw [e2] at hpf
      obtain ⟨ds', ws', k1, k2⟩ := parseFile_sound hpf (by rw [he0]; simp)
      rw [he0, hd] at k2
      obtain ⟨ds, ws, k3, k4, k5⟩ := back hp h3 h4 k2
      obtain ⟨rs, m1, m2, m3, m4⟩ := ih ht fun res hres => he res (List.mem_cons_of_mem _ hres)
      refine ⟨⟨some ds, [], res.opts, [] ++ ws⟩ :: rs, .cons _ _ _ _ _ _ _ _ (by rw [e1]; exact parseFile_complete [] k3) m1, ?_, ?_, ?_⟩
      · intro r hr
        rcases List.mem_cons.mp hr with rfl | hr
        · rfl
        · exact m2 r hr
      · refine .cons ⟨rfl, ?_⟩ m3
        change res.declarations.getD [] = ds ∨ (allowed _ ∧ ∃ da du dc, ds = da ++ (du ++ dc) ∧ res.declarations.getD [] = da ++ dc ∧ Q du)
        rw [k1]
        exact k4
      · rw [List.flatMap_cons, List.flatMap_cons]
        refine List.Sublist.append ?_ m4
        rw [k1]
        exact k5

theorem sources_back {E : Effect} {bad : PragmaData → Prop} {env1 env2 : ParseEnv} {s1 s2 : Lima.Sources} (h : SourcesBack pts allowed env1 env2 s1 s2)
    (hp : Fits env1.decimal pts allowed Q) (hq : Processes E bad allowed Q s1.rootPath) {r' : ParseSuccess} (hr : parseSources env2 s2 = .ok r')
    (hb : ∀ d : PragmaData, d.errors = [] → d.options = r'.options → ¬ bad d) :
    ∃ r, parseSources env1 s1 = .ok r ∧ Results E r r' := by
  obtain ⟨rs', o, hio, he⟩ := succeeded h.complete2 hr
  obtain ⟨rs, h1, h2, h3, h4⟩ := files_back h.empty1 h.empty2 h.decimal hp h.files hio he
  obtain ⟨ds, data, p1, q1⟩ := parseSources_ok h.complete1 h1
  obtain ⟨ds', data', p2, q2⟩ := parseSources_ok h.complete2 hio
  rw [h.pragmas, h.rootPath] at p2
  rw [no_faults h2] at q1
  rw [no_faults he] at q2
  by_cases hf : data'.finalErrors = []
  · rw [if_pos ⟨rfl, hf⟩] at q2
    rw [q2] at hr
    cases hr
    rcases hq h3 p1 p2 with hh | ⟨rfl, ha⟩
    · exfalso
      refine hb data' ?_ rfl hh
      unfold PragmaData.finalErrors at hf
      simp only [List.append_eq_nil_iff] at hf
      exact hf.1.1
    · have hf' : data.finalErrors = [] := by
        unfold PragmaData.finalErrors at *
        rw [← ha.errors, ← ha.tags, ← ha.metas]
        exact hf
      rw [if_pos ⟨rfl, hf'⟩] at q1
      exact ⟨_, q1, ha.rel, h4, rfl⟩
  · rw [if_neg (fun x => hf x.2)] at q2
    rw [q2] at hr
    cases hr

end

/-! ### The two ways -/

theorem Put.lists [Unicode] [DecOps] {allowed : Option Path → Prop} {E : Effect} {f f' : Files}
    (h : Put allowed (fun du => ∀ d ∈ du, ∃ x, d.item = .pragma x ∧ E.drop x) f f') : Lists E f f' := by
  refine h.imp fun e e' h => ⟨h.1, ?_⟩
  rcases h.2 with h | ⟨_, da, du, dc, h1, h2, h3⟩
  · rw [h]; exact decls_refl _
  · rw [h1, h2]
    exact outside (inside (decls_refl _) h3)

theorem processes_all [Unicode] [DecOps] (B : Back E bad) (allowed : Option Path → Prop) (root : Option Path) :
    Processes E bad allowed (fun du => ∀ d ∈ du, ∃ x, d.item = .pragma x ∧ E.drop x) root :=
  fun h h1 h2 => process_back B h.lists h1 h2

theorem put_get {root : Option Path} {Q : List (Spanned Declaration) → Prop} {f f' : Files} (h : Put (· = root) Q f f') :
    ((AMap.get f root = none ∧ AMap.get f' root = none) ∨ ∃ l l', AMap.get f root = some l ∧ AMap.get f' root = some l' ∧
      (l' = l ∨ ∃ da du dc, l = da ++ (du ++ dc) ∧ l' = da ++ dc ∧ Q du)) ∧ AMap.erase f' root = AMap.erase f root := by
  induction h with
  | nil => exact ⟨.inl ⟨rfl, rfl⟩, rfl⟩
  | @cons e e' f f' h _ ih =>
    obtain ⟨k, l⟩ := e
    obtain ⟨k', l'⟩ := e'
    obtain ⟨hk, hd⟩ := h
    dsimp only at hk hd
    subst hk
    simp only [AMap.get_cons]
    have er : ∀ (l : List (Spanned Declaration)) (f : Files), AMap.erase ((k', l) :: f) root = if k' = root then AMap.erase f root else (k', l) :: AMap.erase f root := by
      intro l f
      unfold AMap.erase
      rw [List.filter_cons]
      by_cases hp : k' = root
      · simp [hp]
      · simp [hp]
    rw [er, er]
    by_cases hp : k' = root
    · simp only [if_pos hp]
      exact ⟨.inr ⟨l, l', rfl, rfl, hd.imp id And.right⟩, ih.2⟩
    · simp only [if_neg hp]
      refine ⟨ih.1, ?_⟩
      rw [ih.2]
      rcases hd with rfl | ⟨hd, _⟩
      · rfl
      · exact absurd hd hp

theorem processes_one (B : Back E bad) {X : Pragma → Prop} (hn : ∀ x, X x → ∀ g, x ≠ .include g) (hx : ∀ x, X x → ∀ d, bad d ∨ Alike E (act x d) d)
    (root : Option Path) : Processes E bad (· = root) (fun du => ∃ d x, du = [d] ∧ d.item = .pragma x ∧ X x) root := by
  intro env files files' o out out' d d' h h1 h2
  unfold processPragmas PragmaState.new at h1 h2
  obtain ⟨hg, he⟩ := put_get h
  rcases hg with ⟨k1, _⟩ | ⟨l, l', k1, k2, k3⟩
  · rw [k1] at h1; cases h1
  · rw [k1] at h1
    rw [k2] at h2
    dsimp only at h1 h2
    rw [he] at h2
    obtain ⟨n, fin, r1, rfl⟩ := collected h1
    obtain ⟨n', fin', r2, rfl⟩ := collected h2
    rcases k3 with rfl | ⟨da, du, dc, rfl, rfl, e, x, rfl, h3, h4⟩
    · exact sim_back B n r1 r2 ⟨rfl, decls_refl _, .nil, lists_refl _, rfl, rfl, rfl, rfl, E.start o⟩
    · exact single_back B (hn x h4) (hx x h4) n r1 r2 ⟨rfl, rfl, rfl, .here h3⟩

/-! ### Runs -/

/-- For each of the second texts one of the lists there are. -/
theorem choose {R : Nat × Option Path × Str → Nat × Option Path × Str → List Ranged → Prop} {l l' : List (Nat × Option Path × Str)}
    (hn : (l'.map (·.1)).Nodup) (h : List.Forall₂ (fun e e' => ∃ y, R e e' y) l l') :
    ∃ f : Nat → List Ranged, List.Forall₂ (fun e e' => R e e' (f e'.1)) l l' := by
  induction h with
  | nil => exact ⟨fun _ => [], .nil⟩
  | @cons e e' l l' h hrest ih =>
    rw [List.map_cons, List.nodup_cons] at hn
    obtain ⟨f, hf⟩ := ih hn.2
    obtain ⟨y, hy⟩ := h
    refine ⟨fun k => if k = e'.1 then y else f k, .cons ?_ ?_⟩
    · dsimp only
      rw [if_pos rfl]
      exact hy
    · have : ∀ x ∈ l', ¬ x.1 = e'.1 := fun x hx he => hn.1 (he ▸ List.mem_map_of_mem hx)
      clear hy ih hn hrest
      induction hf with
      | nil => exact .nil
      | @cons a b l l' hab _ ih =>
        refine .cons ?_ (ih fun x hx => this x (List.mem_cons_of_mem _ hx))
        dsimp only
        rw [if_neg (this b (by simp))]
        exact hab

section
variable [Unicode] [DecOps] {pts : List Token} {allowed : Option Path → Prop} {Q : List (Spanned Declaration) → Prop}

theorem left_parse_back {env : ParseEnv} (hx : SameEnv env env) {s s' : Lima.Sources} (hc : Complete env.tokens s) (hc' : Complete env.tokens s')
    (hk : ∀ id path text, IsSource s id path text → KeysApart (env.tokens text))
    (hk' : ∀ id path text, IsSource s' id path text → KeysApart (env.tokens text))
    (hr : s'.rootPath = s.rootPath) (hg : s'.globs = s.globs) (he : s'.errorPaths = s.errorPaths)
    (hp : Fits env.decimal pts allowed Q) (hq : Processes E bad allowed Q s.rootPath)
    (h : List.Forall₂ (fun e e' : Nat × Option Path × Str => e'.1 = e.1 ∧ e'.2.1 = e.2.1 ∧
      Texts pts (env.tokens e.2.2) (toks (env.tokens e'.2.2)) ∧ (allowed e.2.1 ∨ e'.2.2 = e.2.2)) s.contentIter s'.contentIter)
    {r' : ParseSuccess} (ok : parseSources env s' = .ok r')
    (hb : ∀ d : PragmaData, d.errors = [] → SameButPlaces r'.options d.options → ¬ bad d) : ∃ r, parseSources env s = .ok r ∧ Follows E r r' := by
  have hm : List.Forall₂ (fun e e' : Nat × Option Path × Str => ∃ y, e'.1 = e.1 ∧ e'.2.1 = e.2.1 ∧
      toks y = toks (env.tokens e'.2.2) ∧ Tokens pts (env.tokens e.2.2) y ∧ KeysApart y ∧ (allowed e.2.1 ∨ y = env.tokens e.2.2))
      s.contentIter s'.contentIter := by
    have key : ∀ {l l' : List (Nat × Option Path × Str)}, (∀ e ∈ l, e ∈ s.contentIter) →
      List.Forall₂ (fun e e' : Nat × Option Path × Str => e'.1 = e.1 ∧ e'.2.1 = e.2.1 ∧
        Texts pts (env.tokens e.2.2) (toks (env.tokens e'.2.2)) ∧ (allowed e.2.1 ∨ e'.2.2 = e.2.2)) l l' →
      List.Forall₂ (fun e e' : Nat × Option Path × Str => ∃ y, e'.1 = e.1 ∧ e'.2.1 = e.2.1 ∧
        toks y = toks (env.tokens e'.2.2) ∧ Tokens pts (env.tokens e.2.2) y ∧ KeysApart y ∧ (allowed e.2.1 ∨ y = env.tokens e.2.2)) l l' := by
      intro l l' hm hh
      induction hh with
      | nil => exact .nil
      | @cons e e' l l' h hrest ih =>
        refine .cons ?_ (ih fun x hx => hm x (List.mem_cons_of_mem _ hx))
        have ka := hk _ _ _ (mem_contentIter.mp (hm e (by simp)))
        rcases h.2.2.2 with ha | ha
        · obtain ⟨y, h1, h2, h3⟩ := tokens_of h.2.2.1 ka
          exact ⟨y, h.1, h.2.1, h1, h2, h3, .inl ha⟩
        · exact ⟨env.tokens e.2.2, h.1, h.2.1, by rw [ha], .inl rfl, ka, .inr rfl⟩
    exact key (fun _ h => h) h
  obtain ⟨f, hf⟩ := choose hc'.ids hm
  let env1 : ParseEnv := { env with emptySpan := fun _ _ => ⟨0, 0, 0⟩ }
  let env2 := envOf env f
  have same1 : SameButPlaces (parseSources env s) (parseSources env1 s) := by
    refine Layout.parseSources_same ⟨rfl, rfl, hx.context⟩ ⟨rfl, rfl, rfl, ?_, rfl⟩ hk hk
    rw [List.forall₂_same]
    intro e _
    refine ⟨rfl, ?_⟩
    obtain ⟨p, x⟩ := e
    cases x with
    | content => exact .content rfl
    | error => exact .error _
    | duplicate => exact .duplicate
  have same2 : ∀ e ∈ s'.contentIter, SameTokens (env.tokens e.2.2) (env2.tokens (code e.1)) := by
    intro e' he'
    obtain ⟨e, _, _, _, hh, _⟩ := forall₂_right hf e' he'
    change SameTokens _ (f (code e'.1).length)
    rw [code_length]
    exact hh.symm
  have p2 : SameButPlaces (parseSources env s') (parseSources env2 (recode s')) := by
    refine Layout.parseSources_same ⟨rfl, rfl, hx.context⟩ (recode_same same2) hk' ?_
    intro id path text hi
    have := mem_contentIter.mpr hi
    rw [recode_iter] at this
    obtain ⟨e', hm, he⟩ := List.mem_map.mp this
    cases he
    obtain ⟨e, _, _, _, _, _, hh, _⟩ := forall₂_right hf e' hm
    change KeysApart (f (code e'.1).length)
    rw [code_length]
    exact hh
  have hs : SourcesBack pts allowed env1 env2 s (recode s') := by
    refine ⟨hc, recode_complete hc' same2, rfl, rfl, rfl, ?_, hr, ?_⟩
    · unfold ParseEnv.pragmaEnv
      rw [recode_errors, he, show (recode s').globs = s'.globs from rfl, hg]
      rfl
    · rw [recode_iter, List.forall₂_map_right_iff]
      refine hf.imp fun e e' hh => ⟨hh.1, hh.2.1, ?_⟩
      change Tokens _ _ (f (code e'.1).length) ∧ (_ ∨ f (code e'.1).length = _)
      rw [code_length]
      exact ⟨hh.2.2.2.1, hh.2.2.2.2.2⟩
  obtain ⟨r2, q1, e2⟩ := same_ok_result p2.symm ok
  obtain ⟨r1, q2, q3⟩ := sources_back hs hp hq q1 fun d h1 h2 =>
    hb d h1 (by rw [h2]; exact (show SameButPlaces r2.options r'.options from congrArg ParseSuccess.options e2).symm)
  obtain ⟨r, e4, e5⟩ := same_ok_result same1 q2
  refine ⟨r, e4, ?_, ?_, ?_⟩
  · have a1 : SameButPlaces r.directives r1.directives := congrArg ParseSuccess.directives e5
    have a2 : SameButPlaces r2.directives r'.directives := congrArg ParseSuccess.directives e2
    rw [q3.directives] at a2
    exact a1.trans a2
  · have a1 : SameButPlaces r.warnings r1.warnings := congrArg ParseSuccess.warnings e5
    have a2 : SameButPlaces r2.warnings r'.warnings := congrArg ParseSuccess.warnings e2
    exact sublist_like a1 q3.warnings a2.symm
  · exact ⟨r1.options, r1.plugins, r2.options, r2.plugins, congrArg ParseSuccess.options e5, congrArg ParseSuccess.plugins e5, q3.rel,
      congrArg ParseSuccess.options e2, congrArg ParseSuccess.plugins e2⟩

variable [Categories] {l : Logos} {before line after : Str}
variable {env : ParseEnv} {fs fs' : FileSystem} {root : Option Path} {text text' : Str} {s s' : Lima.Sources}

/-- A run on the files without the line, and on the files. -/
theorem left_run_back (hwf : GlobsWF fs) (hlex : LexedBy l env.tokens) (hx : SameEnv env env)
    (hp : ∀ t ∈ [before, line, after], Passage l t) (e1 : (env.tokens line).map (·.tok) = pts) (hn : .include ∉ pts)
    (hline : Fits env.decimal pts allowed Q) (hq : Processes E bad allowed Q root)
    (hfs : FilesLike (Spec.LeftOut before line after) fs fs') (ht : Spec.LeftOut before line after text text')
    (hs : ReadInSomeOrder fs env.tokens root text s) (hs' : ReadInSomeOrder fs' env.tokens root text' s') (hv : SameVisits s s')
    (ha : ∀ {id id' path t t'}, IsSource s id path t → IsSource s' id' path t' → allowed path ∨ t' = t)
    {r' : ParseSuccess} (ok : parseTexts l env s' = .ok r')
    (hb : ∀ d : PragmaData, d.errors = [] → SameButPlaces r'.options d.options → ¬ bad d) : ∃ r, parseTexts l env s = .ok r ∧ Follows E r r' := by
  have hwf' : GlobsWF fs' := fun p gs hg => hwf p gs (by rw [← hfs.glob]; exact hg)
  have like := Revise.read_alike (left_includes hlex hp e1 hn) hwf' hfs ht hs hs' hv
  obtain ⟨h1, h2⟩ := Revise.content_like like
  have c1 : Complete env.tokens s := by
    obtain ⟨c, hc, rfl⟩ := hs
    exact (read_complete hwf).perm hc
  have c2 : Complete env.tokens s' := by
    obtain ⟨c, hc, rfl⟩ := hs'
    exact (read_complete hwf').perm hc
  have hroot : s.rootPath = root := by
    obtain ⟨c, hc, rfl⟩ := hs
    rfl
  have hl' : ∀ e ∈ s'.contentIter, lexText l e.2.2 ≠ none := by
    by_contra hl
    unfold parseTexts at ok
    rw [if_pos] at ok
    · cases ok
    · push Not at hl
      obtain ⟨e, he, hn⟩ := hl
      exact List.any_eq_true.mpr ⟨e, he, by rw [hn]; rfl⟩
  have hl : ∀ e ∈ s.contentIter, lexText l e.2.2 ≠ none := by
    intro e he
    obtain ⟨e', he', _, _, hh⟩ := InPlaceParse.forall₂_right h1.flip e he
    rcases hh with hh | ⟨hh, _⟩
    · rw [← hh]; exact hl' e' he'
    · rw [hh]
      exact lexed_passage hlex (Passage.append (Passage.append (hp before (by simp)) (hp line (by simp))) (hp after (by simp)))
  have apart : ∀ {s : Lima.Sources}, (∀ e ∈ s.contentIter, lexText l e.2.2 ≠ none) →
      ∀ id path text, IsSource s id path text → KeysApart (env.tokens text) := by
    intro s hl id path text hi
    obtain ⟨toks, ht⟩ := Option.ne_none_iff_exists'.mp (hl _ (mem_contentIter.mpr hi))
    rw [hlex _ _ ht]
    exact Layout.lexText_apart ht
  rw [parseTexts_eq hl'] at ok
  rw [parseTexts_eq hl]
  rw [← hroot] at hq
  refine left_parse_back hx c1 c2 (apart hl) (apart hl') like.rootPath like.globs h2 hline hq ?_ ok hb
  have key : ∀ {es es' : List (Nat × Option Path × Str)}, (∀ e ∈ es, e ∈ s.contentIter) → (∀ e ∈ es', e ∈ s'.contentIter) →
      List.Forall₂ (fun e e' : Nat × Option Path × Str => e'.1 = e.1 ∧ e'.2.1 = e.2.1 ∧ Spec.LeftOut before line after e.2.2 e'.2.2) es es' →
      List.Forall₂ (fun e e' : Nat × Option Path × Str => e'.1 = e.1 ∧ e'.2.1 = e.2.1 ∧
        Texts pts (env.tokens e.2.2) (toks (env.tokens e'.2.2)) ∧ (allowed e.2.1 ∨ e'.2.2 = e.2.2)) es es' := by
    intro es es' m m' h
    induction h with
    | nil => exact .nil
    | @cons e e' es es' h _ ih =>
      refine .cons ⟨h.1, h.2.1, ?_, ?_⟩ (ih (fun x hx => m x (List.mem_cons_of_mem _ hx)) fun x hx => m' x (List.mem_cons_of_mem _ hx))
      · rcases h.2.2 with h' | ⟨h1, h2⟩
        · rw [h']
          exact .inl rfl
        · rw [h1, h2]
          exact left_texts hlex hp e1
      · refine ha (mem_contentIter.mp (m e (by simp))) (id' := e'.1) ?_
        rw [← h.2.1]
        exact mem_contentIter.mp (m' e' (by simp))
  exact key (fun _ h => h) (fun _ h => h) h1

end

end Lima.Unset
