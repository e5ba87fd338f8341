import Verif.Lemmas.UnsetOptions
import Verif.Lemmas.LeftOut

/-! A pragma left out which affects options or plugins only: the two runs of the pragma processor. -/

set_option linter.unusedSectionVars false

namespace Lima.Unset
open Lima Spec Grammar Props InPlaceParse Revise Surround Bracketed

/-! ### Errors stay -/

theorem report_errors (d : PragmaData) (e : Report) : (d.report e).errors ≠ [] := by simp [PragmaData.report]

theorem act_errors {pr : Pragma} {d : PragmaData} (h : d.errors ≠ []) : (act pr d).errors ≠ [] := by
  cases pr with
  | pushtag t => unfold act PragmaData.pushtag; dsimp only; split <;> exact h
  | poptag t =>
    unfold act PragmaData.poptag
    dsimp only
    split
    · split <;> exact h
    · exact report_errors _ _
  | pushmeta t => unfold act PragmaData.pushmeta; dsimp only; split <;> exact h
  | popmeta t =>
    unfold act PragmaData.popmeta
    dsimp only
    split
    · split <;> exact h
    · exact report_errors _ _
  | «include» g => exact h
  | option o =>
    unfold act PragmaData.option
    dsimp only
    split
    · exact report_errors _ _
    · exact h
  | plugin p => exact h

theorem includeOne_errors {env : PragmaEnv} {span : Span} {st : PragmaState} {p : Path} (h : st.data.errors ≠ []) :
    (st.includeOne env span p).data.errors ≠ [] := by
  unfold PragmaState.includeOne
  split
  · unfold PragmaData.opened
    dsimp only
    split <;> exact h
  · unfold PragmaData.notOpened
    dsimp only
    split
    · exact report_errors _ _
    · split
      · split
        · split
          · exact h
          · exact report_errors _ _
        · exact report_errors _ _
      · exact report_errors _ _

theorem includes_errors {env : PragmaEnv} {span : Span} : ∀ (ps : List Path) {st : PragmaState}, st.data.errors ≠ [] →
    (ps.foldl (PragmaState.includeOne env span) st).data.errors ≠ []
  | [], _, h => h
  | _ :: ps, _, h => includes_errors ps (includeOne_errors h)

theorem runs_errors {env : PragmaEnv} {n : Nat} {st fin : PragmaState} {out : List (Spanned Directive)} (hr : Runs env n st out fin) :
    st.data.errors ≠ [] → fin.data.errors ≠ [] := by
  induction hr with
  | done _ => exact id
  | @cont n st st1 out fin hs _ ih =>
    intro h
    apply ih
    obtain ⟨p, c, k, r, dat⟩ := st
    cases c with
    | nil =>
      cases k with
      | nil => cases hs
      | cons e k => cases hs; exact h
    | cons d l =>
      cases hd : d.item with
      | directive x =>
        simp only [PragmaState.step, hd] at hs
        split at hs <;> cases hs
      | pragma x =>
        by_cases hn : ∀ g, x ≠ .include g
        · rw [step_pragma hd hn] at hs
          cases hs
          exact act_errors h
        · have : ∃ g, x = .include g := by
            by_contra hh
            exact hn fun g hg => hh ⟨g, hg⟩
          obtain ⟨g, rfl⟩ := this
          simp only [PragmaState.step, hd, PragmaState.includeGlob] at hs
          cases hg : AMap.get env.globs (resolveIncludedPath p (Path.ofStr g.item)) with
          | none => rw [hg] at hs; cases hs
          | some gl =>
            rw [hg] at hs
            cases gl with
            | expanded ps =>
              cases hs
              apply includes_errors
              split
              · exact report_errors _ _
              · exact h
            | error e =>
              cases hs
              exact report_errors _ _
  | @yield n st d st1 out fin hs _ ih =>
    intro h
    apply ih
    obtain ⟨p, c, k, r, dat⟩ := st
    cases c with
    | nil =>
      cases k with
      | nil => cases hs
      | cons e k => cases hs
    | cons d l =>
      cases hd : d.item with
      | directive x =>
        simp only [PragmaState.step, hd] at hs
        split at hs <;> cases hs
        exact h
      | pragma x =>
        by_cases hn : ∀ g, x ≠ .include g
        · rw [step_pragma hd hn] at hs
          cases hs
        · have : ∃ g, x = .include g := by
            by_contra hh
            exact hn fun g hg => hh ⟨g, hg⟩
          obtain ⟨g, rfl⟩ := this
          simp only [PragmaState.step, hd] at hs
          split at hs <;> cases hs

/-! ### What the pragma does -/

/-- Pragmas to be left out, and what becomes of options and plugins. -/
structure Effect where
  R : Options → List Plugin → Options → List Plugin → Prop
  drop : Pragma → Prop
  start : ∀ o, R o [] o []
  drops : ∀ p, drop p → (∃ b, p = .option b) ∨ ∃ q, p = .plugin q
  option : ∀ {o ps o' ps'} b, R o ps o' ps' → (o.assimilate b).2 ≠ none ∨
    ((o.assimilate b).2 = none ∧ (o'.assimilate b).2 = none ∧ R (o.assimilate b).1 ps (o'.assimilate b).1 ps')
  plugin : ∀ {o ps o' ps'} q, R o ps o' ps' → R o (ps ++ [q]) o' (ps' ++ [q])
  dropOption : ∀ {o ps o' ps'} b, drop (.option b) → R o ps o' ps' → (o.assimilate b).2 ≠ none ∨
    ((o.assimilate b).2 = none ∧ R (o.assimilate b).1 ps o' ps')
  dropPlugin : ∀ {o ps o' ps'} q, drop (.plugin q) → R o ps o' ps' → R o (ps ++ [q]) o' ps'

variable (E : Effect)

/-- Declarations, without some pragmas. -/
inductive Decls : List (Spanned Declaration) → List (Spanned Declaration) → Prop
  | nil : Decls [] []
  | same {d : Spanned Declaration} {l l'} : Decls l l' → Decls (d :: l) (d :: l')
  | drop {d : Spanned Declaration} {x : Pragma} {l l'} : d.item = .pragma x → E.drop x → Decls l l' → Decls (d :: l) l'

structure Alike (d d' : PragmaData) : Prop where
  includeBy : d'.includeBy = d.includeBy
  tags : d'.tags = d.tags
  metas : d'.metas = d.metas
  errors : d'.errors = d.errors
  rel : E.R d.options d.plugins d'.options d'.plugins

variable {E}

theorem Alike.report {d d' : PragmaData} (h : Alike E d d') (e : Report) : Alike E (d.report e) (d'.report e) :=
  ⟨h.includeBy, h.tags, h.metas, by simp only [PragmaData.report, h.errors], h.rel⟩

theorem Alike.augment {d d' : PragmaData} (h : Alike E d d') (x : Directive) : d'.augment x = d.augment x := by
  unfold PragmaData.augment
  rw [h.tags, h.metas]

theorem Alike.act {d d' : PragmaData} (h : Alike E d d') (pr : Pragma) : (act pr d).errors ≠ [] ∨ Alike E (act pr d) (act pr d') := by
  cases pr with
  | pushtag t =>
    right
    unfold Bracketed.act PragmaData.pushtag
    dsimp only
    rw [h.tags]
    split <;> exact ⟨h.includeBy, rfl, h.metas, h.errors, h.rel⟩
  | poptag t =>
    right
    unfold Bracketed.act PragmaData.poptag
    dsimp only
    rw [h.tags]
    split
    · split <;> exact ⟨h.includeBy, rfl, h.metas, h.errors, h.rel⟩
    · exact h.report _
  | pushmeta t =>
    right
    unfold Bracketed.act PragmaData.pushmeta
    dsimp only
    rw [h.metas]
    split <;> exact ⟨h.includeBy, h.tags, rfl, h.errors, h.rel⟩
  | popmeta t =>
    right
    unfold Bracketed.act PragmaData.popmeta
    dsimp only
    rw [h.metas]
    split
    · split <;> exact ⟨h.includeBy, h.tags, rfl, h.errors, h.rel⟩
    · exact h.report _
  | «include» g => exact .inr h
  | plugin p => exact .inr ⟨h.includeBy, h.tags, h.metas, h.errors, E.plugin p h.rel⟩
  | option b =>
    unfold Bracketed.act PragmaData.option
    dsimp only
    rcases E.option b h.rel with e | ⟨e1, e2, e3⟩
    · left
      obtain ⟨r, hr⟩ := Option.ne_none_iff_exists'.mp e
      rw [hr]
      exact report_errors _ _
    · right
      rw [e1, e2]
      exact ⟨h.includeBy, h.tags, h.metas, h.errors, e3⟩

theorem Alike.drop {d d' : PragmaData} (h : Alike E d d') {pr : Pragma} (hp : E.drop pr) :
    (Bracketed.act pr d).errors ≠ [] ∨ Alike E (Bracketed.act pr d) d' := by
  rcases E.drops _ hp with ⟨b, rfl⟩ | ⟨q, rfl⟩
  · unfold Bracketed.act PragmaData.option
    dsimp only
    rcases E.dropOption b hp h.rel with e | ⟨e1, e2⟩
    · left
      obtain ⟨r, hr⟩ := Option.ne_none_iff_exists'.mp e
      rw [hr]
      exact report_errors _ _
    · right
      rw [e1]
      exact ⟨h.includeBy, h.tags, h.metas, h.errors, e2⟩
  · exact .inr ⟨h.includeBy, h.tags, h.metas, h.errors, E.dropPlugin q hp h.rel⟩

theorem Alike.opened {d d' : PragmaData} (h : Alike E d d') (env : PragmaEnv) (span : Span) (p : Path) :
    Alike E (d.opened env span p) (d'.opened env span p) := by
  unfold PragmaData.opened
  split
  · exact ⟨by dsimp only; rw [h.includeBy, h.tags, h.metas], h.tags, h.metas, h.errors, h.rel⟩
  · exact h

theorem Alike.notOpened {d d' : PragmaData} (h : Alike E d d') (env : PragmaEnv) (span : Span) (p : Path) :
    Alike E (d.notOpened env span p) (d'.notOpened env span p) := by
  have hc : ∀ c, sameContext c d' = sameContext c d := fun c => by unfold sameContext; rw [h.tags, h.metas]
  unfold PragmaData.notOpened
  split
  · exact h.report _
  · dsimp only
    rw [h.tags, h.metas, h.includeBy]
    split
    · split
      · rw [hc]
        split
        · exact h
        · exact h.report _
      · exact h.report _
    · exact h.report _

/-! ### The two runs -/

variable (E) in
def Lists : Files → Files → Prop := List.Forall₂ fun e e' => e'.1 = e.1 ∧ Decls E e.2 e'.2

theorem Lists.get {f f' : Files} (h : Lists E f f') (p : Option Path) :
    (AMap.get f p = none ∧ AMap.get f' p = none) ∨ ∃ l l', AMap.get f p = some l ∧ AMap.get f' p = some l' ∧ Decls E l l' := by
  induction h with
  | nil => exact .inl ⟨rfl, rfl⟩
  | @cons e e' f f' h _ ih =>
    obtain ⟨k, l⟩ := e
    obtain ⟨k', l'⟩ := e'
    obtain ⟨hk, hd⟩ := h
    dsimp only at hk hd
    subst hk
    simp only [AMap.get_cons]
    by_cases hp : k' = p
    · rw [if_pos hp, if_pos hp]
      exact .inr ⟨l, l', rfl, rfl, hd⟩
    · rw [if_neg hp, if_neg hp]
      exact ih

theorem Lists.erase {f f' : Files} (h : Lists E f f') (p : Option Path) : Lists E (AMap.erase f p) (AMap.erase f' p) := by
  unfold AMap.erase
  induction h with
  | nil => exact .nil
  | @cons e e' f f' h _ ih =>
    rw [List.filter_cons, List.filter_cons, h.1]
    split
    · exact .cons h ih
    · exact ih

variable (E) in
structure Sim (st st' : PragmaState) : Prop where
  path : st'.currentPath = st.currentPath
  current : Decls E st.current st'.current
  stacked : Lists E st.stacked st'.stacked
  remaining : Lists E st.remaining st'.remaining
  data : Alike E st.data st'.data

theorem Sim.includeOne {env : PragmaEnv} {st st' : PragmaState} (h : Sim E st st') (span : Span) (p : Path) :
    Sim E (st.includeOne env span p) (st'.includeOne env span p) := by
  unfold PragmaState.includeOne
  rcases h.remaining.get (some p) with ⟨g1, g2⟩ | ⟨l, l', g1, g2, g3⟩
  · rw [g1, g2]
    exact ⟨h.path, h.current, h.stacked, h.remaining, h.data.notOpened _ _ _⟩
  · rw [g1, g2]
    exact ⟨rfl, g3, .cons ⟨h.path, h.current⟩ h.stacked, h.remaining.erase _, h.data.opened _ _ _⟩

theorem Sim.includes {env : PragmaEnv} (span : Span) : ∀ (ps : List Path) {st st' : PragmaState}, Sim E st st' →
    Sim E (ps.foldl (PragmaState.includeOne env span) st) (ps.foldl (PragmaState.includeOne env span) st')
  | [], _, _, h => h
  | p :: ps, _, _, h => Sim.includes span ps (h.includeOne span p)

/-- A pragma. -/
theorem consume (env : PragmaEnv) {p : Option Path} {d : Spanned Declaration} {x : Pragma} (hx : d.item = .pragma x)
    {l l' : List (Spanned Declaration)} {k k' r r' : Files} {dat dat' : PragmaData} (hl : Decls E l l') (hk : Lists E k k')
    (hr : Lists E r r') (ha : Alike E dat dat') :
    (∃ st st', PragmaState.step env ⟨p, d :: l, k, r, dat⟩ = .continue st ∧ PragmaState.step env ⟨p, d :: l', k', r', dat'⟩ = .continue st' ∧
      (st.data.errors ≠ [] ∨ Sim E st st')) ∨ PragmaState.step env ⟨p, d :: l, k, r, dat⟩ = .panic := by
  by_cases hn : ∀ g, x ≠ .include g
  · refine .inl ⟨_, _, Bracketed.step_pragma hx hn, Bracketed.step_pragma hx hn, ?_⟩
    exact (ha.act x).imp id fun h => ⟨rfl, hl, hk, hr, h⟩
  · have : ∃ g, x = .include g := by
      by_contra hh
      exact hn fun g hg => hh ⟨g, hg⟩
    obtain ⟨g, rfl⟩ := this
    simp only [PragmaState.step, hx, PragmaState.includeGlob]
    cases AMap.get env.globs (resolveIncludedPath p (Path.ofStr g.item)) with
    | none => exact .inr rfl
    | some gl =>
      left
      cases gl with
      | expanded ps =>
        refine ⟨_, _, rfl, rfl, .inr (Sim.includes g.span ps ?_)⟩
        cases ps with
        | nil => exact ⟨rfl, hl, hk, hr, ha.report _⟩
        | cons q qs => exact ⟨rfl, hl, hk, hr, ha⟩
      | error e => exact ⟨_, _, rfl, rfl, .inr ⟨rfl, hl, hk, hr, ha.report _⟩⟩

/-- Both runs come to the same end, unless there are errors. -/
theorem sim_runs {env : PragmaEnv} (n : Nat) : ∀ {st st' : PragmaState} {out out' : List (Spanned Directive)} {fin fin' : PragmaState} {n' : Nat},
    Runs env n st out fin → Runs env n' st' out' fin' → Sim E st st' → fin.data.errors ≠ [] ∨ (out' = out ∧ Alike E fin.data fin'.data) := by
  induction n using Nat.strongRecOn with
  | ind n ih =>
    intro st st' out out' fin fin' n' hr hr' h
    obtain ⟨p, c, k, r, dat⟩ := st
    obtain ⟨p', c', k', r', dat'⟩ := st'
    obtain ⟨h1, h2, h3, h4, h5⟩ := h
    dsimp only at h1 h2 h3 h4 h5
    subst h1
    cases h2 with
    | nil =>
      cases h3 with
      | nil =>
        obtain ⟨rfl, rfl⟩ := hr.inv_done rfl
        obtain ⟨rfl, rfl⟩ := hr'.inv_done rfl
        exact .inr ⟨rfl, h5⟩
      | @cons e e' k k' he hk =>
        obtain ⟨q, l⟩ := e
        obtain ⟨q', l'⟩ := e'
        obtain ⟨hq, hl⟩ := he
        dsimp only at hq hl
        subst hq
        obtain ⟨m, rfl, hr1⟩ := hr.inv_cont (st1 := ⟨q', l, k, r, dat⟩) rfl
        obtain ⟨m', rfl, hr1'⟩ := hr'.inv_cont (st1 := ⟨q', l', k', r', dat'⟩) rfl
        exact ih m (by omega) hr1 hr1' ⟨rfl, hl, hk, h4, h5⟩
    | @same d l l' hl =>
      cases hx : d.item with
      | directive x =>
        obtain ⟨m, x1, o1, rfl, a1, rfl, hr1⟩ := Runs.directive hx hr
        obtain ⟨m', x2, o2, rfl, a2, rfl, hr1'⟩ := Runs.directive hx hr'
        rw [h5.augment, a1] at a2
        cases a2
        rcases ih m (by omega) hr1 hr1' ⟨rfl, hl, h3, h4, h5⟩ with h | ⟨a, b⟩
        · exact .inl h
        · exact .inr ⟨by rw [a], b⟩
      | pragma x =>
        rcases consume env (p := p') hx hl h3 h4 h5 with ⟨st, st', e1, e2, hs⟩ | e1
        · obtain ⟨m, rfl, hr1⟩ := hr.inv_cont e1
          obtain ⟨m', rfl, hr1'⟩ := hr'.inv_cont e2
          rcases hs with hs | hs
          · exact .inl (runs_errors hr1 hs)
          · exact ih m (by omega) hr1 hr1' hs
        · exact absurd e1 hr.inv_panic
    | @drop d x l l' hx hd hl =>
      have hn : ∀ g, x ≠ .include g := by
        rintro g rfl
        rcases E.drops _ hd with ⟨_, h⟩ | ⟨_, h⟩ <;> cases h
      obtain ⟨m, rfl, hr1⟩ := hr.inv_cont (step_pragma hx hn)
      rcases h5.drop hd with h | h
      · exact .inl (runs_errors hr1 h)
      · exact ih m (by omega) hr1 hr' ⟨rfl, hl, h3, h4, h⟩

theorem process {env : PragmaEnv} {root : Option Path} {files files' : Files} {o : Options} (h : Lists E files files')
    {out out' : List (Spanned Directive)} {d d' : PragmaData}
    (h1 : processPragmas env root files o = .ok (out, d)) (h2 : processPragmas env root files' o = .ok (out', d')) :
    d.errors ≠ [] ∨ (out' = out ∧ Alike E d d') := by
  unfold processPragmas PragmaState.new at h1 h2
  have key : ∀ {st : PragmaState} {out d}, (st.collect env).map (fun r => (r.1, r.2.data)) = Res.ok (out, d) →
      ∃ n fin, Runs env n st out fin ∧ fin.data = d := by
    intro st out d hh
    cases hc : st.collect env with
    | err e => rw [hc] at hh; cases hh
    | panic => rw [hc] at hh; cases hh
    | ok r =>
      rw [hc] at hh
      cases hh
      obtain ⟨m, hm⟩ := runs_of_fuel _ hc
      exact ⟨m, _, hm, rfl⟩
  rcases h.get root with ⟨k1, _⟩ | ⟨l, l', k1, k2, k3⟩
  · rw [k1] at h1; cases h1
  · rw [k1] at h1
    rw [k2] at h2
    dsimp only at h1 h2
    obtain ⟨n, fin, r1, rfl⟩ := key h1
    obtain ⟨n', fin', r2, rfl⟩ := key h2
    exact sim_runs n r1 r2 ⟨rfl, k3, .nil, h.erase _, rfl, rfl, rfl, rfl, E.start o⟩

/-! ### Files -/

section
variable [Unicode] [DecOps]

/-- What has these tokens is pragmas of the effect, if it is without errors. -/
structure Line (E : Effect) (decimal : Str → Except LexerError Dec) (pts : List Token) : Prop where
  file : ∀ {P : List Ranged}, toks P = pts → ∀ {id : Nat} {path : Option Path} {o o' : ParserOptions} {ds : List (Spanned Declaration)} {ws : List Report},
    FileP (cfgAt decimal id path) o P ds o' [] ws → o' = o ∧ ∀ d ∈ ds, ∃ x, d.item = .pragma x ∧ E.drop x

/-- The tokens of a file, and those of the other. -/
def Tokens (pts : List Token) (x y : List Ranged) : Prop :=
  y = x ∨ ∃ a P c : List Ranged, x = a ++ (P ++ c) ∧ y = a ++ c ∧ Ended a ∧ Ended P ∧ Begun P ∧ Begun c ∧ toks P = pts

variable {decimal : Str → Except LexerError Dec} {pts : List Token}
  {id : Nat} {path : Option Path} {x y : List Ranged} {o o' : ParserOptions} {ds : List (Spanned Declaration)} {ws : List Report}

theorem outside {l l' : List (Spanned Declaration)} (h : Decls E l l') : ∀ {ds : List (Spanned Declaration)}, Decls E (ds ++ l) (ds ++ l')
  | [] => h
  | _ :: _ => .same (outside h)

theorem inside {l l' : List (Spanned Declaration)} (h : Decls E l l') : ∀ {ds : List (Spanned Declaration)},
    (∀ d ∈ ds, ∃ x, d.item = .pragma x ∧ E.drop x) → Decls E (ds ++ l) l'
  | [], _ => h
  | d :: ds, ho => by
    obtain ⟨x, h1, h2⟩ := ho d (by simp)
    exact .drop h1 h2 (inside h fun e he => ho e (List.mem_cons_of_mem _ he))

theorem forth (hp : Line E decimal pts) (h : Tokens pts x y) (hf : FileP (cfgAt decimal id path) o x ds o' [] ws) :
    ∃ ds' ws', FileP (cfgAt decimal id path) o y ds' o' [] ws' ∧ Decls E ds ds' ∧ ws'.Sublist ws := by
  have all : ∀ ds : List (Spanned Declaration), Decls E ds ds := by
    intro ds
    have := outside (E := E) .nil (ds := ds)
    rwa [List.append_nil] at this
  rcases h with rfl | ⟨a, P, c, rfl, rfl, ha, hP, bP, bc, ht⟩
  · exact ⟨ds, ws, hf, all ds, .refl _⟩
  · obtain ⟨da, d1, o1, e1, e2, wa, w1, k1, k2, rfl, k3, rfl⟩ := (file_parts ha (InPlaceParse.head_append bP bc)).mp hf
    obtain ⟨rfl, rfl⟩ := List.append_eq_nil_iff.mp k3.symm
    obtain ⟨du, dc, o2, e1, e2, wu, wc, k4, k5, rfl, k6, rfl⟩ := (file_parts hP bc).mp k2
    obtain ⟨rfl, rfl⟩ := List.append_eq_nil_iff.mp k6.symm
    obtain ⟨rfl, hd⟩ := hp.file ht k4
    exact ⟨da ++ dc, wa ++ wc, (file_parts ha bc).mpr ⟨_, _, _, _, _, _, _, k1, k5, rfl, rfl, rfl⟩, outside (inside (all dc) hd),
      (List.Sublist.refl _).append (List.sublist_append_right _ _)⟩

structure Sources (pts : List Token) (env1 env2 : ParseEnv) (s1 s2 : Lima.Sources) : Prop where
  complete1 : Complete env1.tokens s1
  complete2 : Complete env2.tokens s2
  empty1 : env1.emptySpan = fun _ _ => ⟨0, 0, 0⟩
  empty2 : env2.emptySpan = fun _ _ => ⟨0, 0, 0⟩
  decimal : env2.decimal = env1.decimal
  pragmas : env2.pragmaEnv s2 = env1.pragmaEnv s1
  rootPath : s2.rootPath = s1.rootPath
  files : List.Forall₂ (fun e e' : Nat × Option Path × Str => e'.1 = e.1 ∧ e'.2.1 = e.2.1 ∧
    Tokens pts (env1.tokens e.2.2) (env2.tokens e'.2.2)) s1.contentIter s2.contentIter

theorem files_forth {env1 env2 : ParseEnv} (e1 : env1.emptySpan = fun _ _ => ⟨0, 0, 0⟩) (e2 : env2.emptySpan = fun _ _ => ⟨0, 0, 0⟩)
    (hd : env2.decimal = env1.decimal) (hp : Line E env1.decimal pts) {es es' : List (Nat × Option Path × Str)}
    (h : List.Forall₂ (fun e e' : Nat × Option Path × Str => e'.1 = e.1 ∧ e'.2.1 = e.2.1 ∧
      Tokens pts (env1.tokens e.2.2) (env2.tokens e'.2.2)) es es')
    {o o' : ParserOptions} {rs : List FileResult} (hr : InOrder env1 o es rs o') (he : ∀ res ∈ rs, res.errors = []) :
    ∃ rs', InOrder env2 o es' rs' o' ∧ (∀ res ∈ rs', res.errors = []) ∧
      Lists E (outputsOf es rs) (outputsOf es' rs') ∧ (rs'.flatMap (·.warns)).Sublist (rs.flatMap (·.warns)) := by
  induction hr generalizing es' with
  | nil o =>
    cases h
    exact ⟨[], .nil _, fun _ h => (by cases h), .nil, .refl _⟩
  | cons o o' id path text res es rs hpf _ ih =>
    cases h with
    | @cons _ e' _ es' hh ht =>
      obtain ⟨id', path', text'⟩ := e'
      obtain ⟨h1, h2, h3⟩ := hh
      dsimp only at h1 h2 h3
      subst h1
      subst h2
      have he0 := he res (by simp)
      rw [e1] at hpf
      obtain ⟨ds, ws, k1, k2⟩ := parseFile_sound hpf (by rw [he0]; simp)
      rw [he0] at k2
      obtain ⟨ds', ws', k3, k4, k5⟩ := forth hp h3 k2
      obtain ⟨rs', m1, m2, m3, m4⟩ := ih ht fun res hres => he res (List.mem_cons_of_mem _ hres)
      refine ⟨⟨some ds', [], res.opts, [] ++ ws'⟩ :: rs', .cons _ _ _ _ _ _ _ _ (by rw [e2, hd]; exact parseFile_complete [] k3) m1, ?_, ?_, ?_⟩
      · intro r hr
        rcases List.mem_cons.mp hr with rfl | hr
        · rfl
        · exact m2 r hr
      · refine .cons ⟨rfl, ?_⟩ m3
        change Decls _ (res.declarations.getD []) ds'
        rw [k1]
        exact k4
      · rw [List.flatMap_cons, List.flatMap_cons]
        refine List.Sublist.append ?_ m4
        rw [k1]
        exact k5

/-- The second result, by the first. -/
structure Results (E : Effect) (r r' : ParseSuccess) : Prop where
  rel : E.R r.options r.plugins r'.options r'.plugins
  warnings : r'.warnings.Sublist r.warnings
  directives : r'.directives = r.directives

theorem sources_parse {env1 env2 : ParseEnv} {s1 s2 : Lima.Sources} (h : Sources pts env1 env2 s1 s2) (hp : Line E env1.decimal pts) {r : ParseSuccess}
    (hr : parseSources env1 s1 = .ok r) : ∃ r', parseSources env2 s2 = .ok r' ∧ Results E r r' := by
  obtain ⟨rs, o, hio, he⟩ := succeeded h.complete1 hr
  obtain ⟨rs', h1, h2, h3, h4⟩ := files_forth h.empty1 h.empty2 h.decimal hp h.files hio he
  obtain ⟨ds, data, p1, q1⟩ := parseSources_ok h.complete1 hio
  obtain ⟨ds', data', p2, q2⟩ := parseSources_ok h.complete2 h1
  rw [h.pragmas, h.rootPath] at p2
  rw [no_faults he] at q1
  rw [no_faults h2] at q2
  by_cases hf : data.finalErrors = []
  · rcases process h3 p1 p2 with hh | ⟨rfl, ha⟩
    · exfalso
      unfold PragmaData.finalErrors at hf
      simp only [List.append_eq_nil_iff] at hf
      exact hh hf.1.1
    · have hf' : data'.finalErrors = [] := by
        unfold PragmaData.finalErrors at *
        rw [ha.errors, ha.tags, ha.metas]
        exact hf
      rw [if_pos ⟨rfl, hf⟩] at q1
      rw [if_pos ⟨rfl, hf'⟩] at q2
      rw [q1] at hr
      cases hr
      exact ⟨_, q2, ha.rel, h4, rfl⟩
  · rw [if_neg (fun x => hf x.2)] at q1
    rw [q1] at hr
    cases hr

end

/-! ### Texts -/

/-- The tokens of a file, and what those of the other are. -/
def Texts (pts : List Token) (x : List Ranged) (ts : List Token) : Prop :=
  ts = toks x ∨ ∃ a P c : List Ranged, x = a ++ (P ++ c) ∧ ts = toks a ++ toks c ∧ Ended a ∧ Ended P ∧ Begun P ∧ Begun c ∧ toks P = pts

variable {pts : List Token}

theorem tokens_of {x : List Ranged} {ts : List Token} (h : Texts pts x ts) (hk : KeysApart x) : ∃ y, toks y = ts ∧ Tokens pts x y ∧ KeysApart y := by
  rcases h with rfl | ⟨a, P, c, rfl, rfl, ha, hP, bP, bc, ht⟩
  · exact ⟨x, rfl, .inl rfl, hk⟩
  · refine ⟨a ++ c, by simp only [toks, List.map_append], .inr ⟨a, P, c, rfl, rfl, ha, hP, bP, bc, ht⟩, ?_⟩
    rw [apart_iff] at *
    exact hk.sublist ((List.Sublist.refl _).append (List.sublist_append_right _ _))

/-- The tokens of all of the other texts. -/
theorem all_tokens {tokens : Str → List Ranged} {s s' : Lima.Sources} (hc' : Complete tokens s')
    (hk : ∀ id path text, IsSource s id path text → KeysApart (tokens text))
    (h : List.Forall₂ (fun e e' : Nat × Option Path × Str => e'.1 = e.1 ∧ e'.2.1 = e.2.1 ∧
      Texts pts (tokens e.2.2) (toks (tokens e'.2.2))) s.contentIter s'.contentIter) :
    ∃ f : Nat → List Ranged, List.Forall₂ (fun e e' : Nat × Option Path × Str => e'.1 = e.1 ∧ e'.2.1 = e.2.1 ∧
      toks (f e'.1) = toks (tokens e'.2.2) ∧ Tokens pts (tokens e.2.2) (f e'.1) ∧ KeysApart (f e'.1)) s.contentIter s'.contentIter := by
  have ids : ((s'.contentIter).map (·.1)).Nodup := hc'.ids
  have key : ∀ {l l' : List (Nat × Option Path × Str)}, (∀ e ∈ l, e ∈ s.contentIter) → (l'.map (·.1)).Nodup →
      List.Forall₂ (fun e e' : Nat × Option Path × Str => e'.1 = e.1 ∧ e'.2.1 = e.2.1 ∧ Texts pts (tokens e.2.2) (toks (tokens e'.2.2))) l l' →
      ∃ f : Nat → List Ranged, List.Forall₂ (fun e e' : Nat × Option Path × Str => e'.1 = e.1 ∧ e'.2.1 = e.2.1 ∧
        toks (f e'.1) = toks (tokens e'.2.2) ∧ Tokens pts (tokens e.2.2) (f e'.1) ∧ KeysApart (f e'.1)) l l' := by
    intro l l' hm hn hh
    induction hh with
    | nil => exact ⟨fun _ => [], .nil⟩
    | @cons e e' l l' h hrest ih =>
      rw [List.map_cons, List.nodup_cons] at hn
      obtain ⟨f, hf⟩ := ih (fun x hx => hm x (List.mem_cons_of_mem _ hx)) hn.2
      obtain ⟨y, h1, h2, h3⟩ := tokens_of h.2.2 (hk _ _ _ (mem_contentIter.mp (hm e (by simp))))
      refine ⟨fun k => if k = e'.1 then y else f k, .cons ⟨h.1, h.2.1, ?_⟩ ?_⟩
      · dsimp only
        rw [if_pos rfl]
        exact ⟨h1, h2, h3⟩
      · have : ∀ x ∈ l', ¬ x.1 = e'.1 := fun x hx he => hn.1 (he ▸ List.mem_map_of_mem hx)
        clear h1 h2 h3 h hm ih hn hrest
        induction hf with
        | nil => exact .nil
        | @cons a b l l' hab _ ih =>
          refine .cons ?_ (ih fun x hx => this x (List.mem_cons_of_mem _ hx))
          dsimp only
          rw [if_neg (this b (by simp))]
          exact hab
  exact key (fun _ h => h) ids h

section
variable [Unicode] [DecOps]

/-- The second result, by the first, but for locations. -/
structure Follows (E : Effect) (r r' : ParseSuccess) : Prop where
  directives : SameButPlaces r.directives r'.directives
  warnings : ∃ ws, ws.Sublist r.warnings ∧ SameButPlaces ws r'.warnings
  rel : ∃ o ps o' ps', SameButPlaces r.options o ∧ SameButPlaces r.plugins ps ∧ E.R o ps o' ps' ∧ SameButPlaces o' r'.options ∧ SameButPlaces ps' r'.plugins

theorem left_parse {env : ParseEnv} (hx : SameEnv env env) {s s' : Lima.Sources} (hc : Complete env.tokens s) (hc' : Complete env.tokens s')
    (hk : ∀ id path text, IsSource s id path text → KeysApart (env.tokens text))
    (hk' : ∀ id path text, IsSource s' id path text → KeysApart (env.tokens text))
    (hr : s'.rootPath = s.rootPath) (hg : s'.globs = s.globs) (he : s'.errorPaths = s.errorPaths) (hp : Line E env.decimal pts)
    (h : List.Forall₂ (fun e e' : Nat × Option Path × Str => e'.1 = e.1 ∧ e'.2.1 = e.2.1 ∧
      Texts pts (env.tokens e.2.2) (toks (env.tokens e'.2.2))) s.contentIter s'.contentIter)
    {r : ParseSuccess} (ok : parseSources env s = .ok r) : ∃ r', parseSources env s' = .ok r' ∧ Follows E r r' := by
  obtain ⟨f, hf⟩ := all_tokens hc' hk h
  let env1 : ParseEnv := { env with emptySpan := fun _ _ => ⟨0, 0, 0⟩ }
  let env2 := envOf env f
  have same1 : SameButPlaces (parseSources env s) (parseSources env1 s) := by
    refine Layout.parseSources_same ⟨rfl, rfl, hx.context⟩ ⟨rfl, rfl, rfl, ?_, rfl⟩ hk hk
    rw [List.forall₂_same]
    intro e _
    refine ⟨rfl, ?_⟩
    obtain ⟨p, x⟩ := e
    cases x with
    | content => exact .content rfl
    | error => exact .error _
    | duplicate => exact .duplicate
  have same2 : ∀ e ∈ s'.contentIter, SameTokens (env.tokens e.2.2) (env2.tokens (code e.1)) := by
    intro e' he'
    obtain ⟨e, _, _, _, hh, _⟩ := forall₂_right hf e' he'
    change SameTokens _ (f (code e'.1).length)
    rw [code_length]
    exact hh.symm
  have p2 : SameButPlaces (parseSources env s') (parseSources env2 (recode s')) := by
    refine Layout.parseSources_same ⟨rfl, rfl, hx.context⟩ (recode_same same2) hk' ?_
    intro id path text hi
    have := mem_contentIter.mpr hi
    rw [recode_iter] at this
    obtain ⟨e', hm, he⟩ := List.mem_map.mp this
    cases he
    obtain ⟨e, _, _, _, _, _, hh⟩ := forall₂_right hf e' hm
    change KeysApart (f (code e'.1).length)
    rw [code_length]
    exact hh
  have hs : Sources pts env1 env2 s (recode s') := by
    refine ⟨hc, recode_complete hc' same2, rfl, rfl, rfl, ?_, hr, ?_⟩
    · unfold ParseEnv.pragmaEnv
      rw [recode_errors, he, show (recode s').globs = s'.globs from rfl, hg]
      rfl
    · rw [recode_iter, List.forall₂_map_right_iff]
      refine hf.imp fun e e' hh => ⟨hh.1, hh.2.1, ?_⟩
      change Tokens _ _ (f (code e'.1).length)
      rw [code_length]
      exact hh.2.2.2.1
  obtain ⟨r1, q1, e2⟩ := same_ok_result same1.symm ok
  obtain ⟨r2, q2, q3⟩ := sources_parse hs hp q1
  obtain ⟨r', e4, e5⟩ := same_ok_result p2 q2
  refine ⟨r', e4, ?_, ?_, ?_⟩
  · have a1 : SameButPlaces r1.directives r.directives := congrArg ParseSuccess.directives e2
    have a2 : SameButPlaces r'.directives r2.directives := congrArg ParseSuccess.directives e5
    rw [q3.directives] at a2
    exact a1.symm.trans a2.symm
  · have a1 : SameButPlaces r1.warnings r.warnings := congrArg ParseSuccess.warnings e2
    have a2 : SameButPlaces r'.warnings r2.warnings := congrArg ParseSuccess.warnings e5
    exact sublist_like a1.symm q3.warnings a2
  · exact ⟨r1.options, r1.plugins, r2.options, r2.plugins, (show SameButPlaces r1.options r.options from congrArg ParseSuccess.options e2).symm,
      (show SameButPlaces r1.plugins r.plugins from congrArg ParseSuccess.plugins e2).symm, q3.rel,
      (show SameButPlaces r'.options r2.options from congrArg ParseSuccess.options e5).symm,
      (show SameButPlaces r'.plugins r2.plugins from congrArg ParseSuccess.plugins e5).symm⟩

end

/-! ### Runs -/

section
variable [Categories] {l : Logos} {tokens : Str → List Ranged} {before line after : Str}

theorem left_includes (hl : LexedBy l tokens) (hp : ∀ t ∈ [before, line, after], Passage l t) (e1 : (tokens line).map (·.tok) = pts) (hn : .include ∉ pts)
    (t t' : Str) (ht : Spec.LeftOut before line after t t') : getIncludes tokens t' = getIncludes tokens t := by
  rcases ht with rfl | ⟨rfl, rfl⟩
  · rfl
  · have pb := hp before (by simp)
    have pu := hp line (by simp)
    have pa := hp after (by simp)
    unfold getIncludes
    rw [passages_tokens hl (Passage.append pb pu) pa, passages_tokens hl pb pu, passages_tokens hl pb pa, List.append_assoc,
      includes_append (passage_whole hl pb).1, includes_append (passage_whole hl pb).1, includes_append (passage_whole hl pu).1, e1,
      includes_none hn]
    rfl

theorem left_texts (hl : LexedBy l tokens) (hp : ∀ t ∈ [before, line, after], Passage l t) (e1 : (tokens line).map (·.tok) = pts) :
    Texts pts (tokens (before ++ line ++ after)) (toks (tokens (before ++ after))) := by
  have pb := hp before (by simp)
  have pu := hp line (by simp)
  have pa := hp after (by simp)
  have ht : toks (tokens (before ++ line ++ after)) = toks (tokens before) ++ (toks (tokens line) ++ toks (tokens after)) := by
    rw [toks, passages_tokens hl (Passage.append pb pu) pa, passages_tokens hl pb pu, List.append_assoc]
  obtain ⟨a, x, hx, ha, hx'⟩ := List.map_eq_append_iff.mp ht
  obtain ⟨u, c, rfl, hu, hc⟩ := List.map_eq_append_iff.mp hx'
  refine .inr ⟨a, u, c, hx, ?_, ended_of ?_, ended_of ?_, begun_of ?_, begun_of ?_, ?_⟩
  · rw [toks, passages_tokens hl pb pa]
    exact congrArg₂ (· ++ ·) ha.symm hc.symm
  · rw [toks, ha]; exact (passage_whole hl pb).1
  · rw [toks, hu]; exact (passage_whole hl pu).1
  · rw [toks, hu]; exact (passage_whole hl pu).2.1
  · rw [toks, hc]; exact (passage_whole hl pa).2.1
  · rw [toks, hu]; exact e1

variable [Unicode] [DecOps] {env : ParseEnv} {fs fs' : FileSystem} {root : Option Path} {text text' : Str} {s s' : Lima.Sources}

/-- A run on the files, and on the files without the line. -/
theorem left_run (hwf : GlobsWF fs) (hlex : LexedBy l env.tokens) (hx : SameEnv env env)
    (hp : ∀ t ∈ [before, line, after], Passage l t) (e1 : (env.tokens line).map (·.tok) = pts) (hn : .include ∉ pts) (hline : Line E env.decimal pts)
    (hfs : FilesLike (Spec.LeftOut before line after) fs fs') (ht : Spec.LeftOut before line after text text')
    (hs : ReadInSomeOrder fs env.tokens root text s) (hs' : ReadInSomeOrder fs' env.tokens root text' s') (hv : SameVisits s s')
    {r : ParseSuccess} (ok : parseTexts l env s = .ok r) :
    ∃ r', parseTexts l env s' = .ok r' ∧ Follows E r r' := by
  have hwf' : GlobsWF fs' := fun p gs hg => hwf p gs (by rw [← hfs.glob]; exact hg)
  have like := Revise.read_alike (left_includes hlex hp e1 hn) hwf' hfs ht hs hs' hv
  obtain ⟨h1, h2⟩ := Revise.content_like like
  have c1 : Complete env.tokens s := by
    obtain ⟨c, hc, rfl⟩ := hs
    exact (read_complete hwf).perm hc
  have c2 : Complete env.tokens s' := by
    obtain ⟨c, hc, rfl⟩ := hs'
    exact (read_complete hwf').perm hc
  have hl : ∀ e ∈ s.contentIter, lexText l e.2.2 ≠ none := by
    by_contra hl
    unfold parseTexts at ok
    rw [if_pos] at ok
    · cases ok
    · push Not at hl
      obtain ⟨e, he, hn⟩ := hl
      exact List.any_eq_true.mpr ⟨e, he, by rw [hn]; rfl⟩
  have hl' : ∀ e ∈ s'.contentIter, lexText l e.2.2 ≠ none := by
    intro e' he'
    obtain ⟨e, he, _, _, hh⟩ := InPlaceParse.forall₂_right h1 e' he'
    exact LeftOut.left_lexed hlex hp hh (hl e he)
  have apart : ∀ {s : Lima.Sources}, (∀ e ∈ s.contentIter, lexText l e.2.2 ≠ none) →
      ∀ id path text, IsSource s id path text → KeysApart (env.tokens text) := by
    intro s hl id path text hi
    obtain ⟨toks, ht⟩ := Option.ne_none_iff_exists'.mp (hl _ (mem_contentIter.mpr hi))
    rw [hlex _ _ ht]
    exact Layout.lexText_apart ht
  rw [parseTexts_eq hl] at ok
  rw [parseTexts_eq hl']
  refine left_parse hx c1 c2 (apart hl) (apart hl') like.rootPath like.globs h2 hline ?_ ok
  refine h1.imp fun e e' h => ⟨h.1, h.2.1, ?_⟩
  rcases h.2.2 with h' | ⟨h1, h2⟩
  · rw [h']
    exact .inl rfl
  · rw [h1, h2]
    exact left_texts hlex hp e1

end

end Lima.Unset
