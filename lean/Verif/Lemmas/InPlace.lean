import Verif.Spec.InPlace
import Verif.Lemmas.Pragma

/-! An include and the declarations in its place: the two runs of the processor go in step. -/

set_option linter.unusedSectionVars false

namespace Lima.InPlaceRun
open Lima Spec

abbrev Frame := Option Path × List (Spanned Declaration)

structure Setup where
  env : PragmaEnv
  env' : PragmaEnv
  root : Option Path
  b : Path
  inc : Spanned Declaration
  g : Spanned Str
  contents : List (Spanned Declaration)
  after : List (Spanned Declaration)
  hinc : inc.item = .pragma (.include g)
  hglob : AMap.get env.globs (resolveIncludedPath root (Path.ofStr g.item)) = some (.expanded [b])
  hres : ∀ d ∈ contents, ∀ g, d.item = .pragma (.include g) →
      resolveIncludedPath (some b) (Path.ofStr g.item) = resolveIncludedPath root (Path.ofStr g.item)
  hroot : root ≠ some b
  hrest : SameGlobs env env' root after ∧ Avoids env b root after
  hcont : SameGlobs env env' root contents ∧ Avoids env b root contents
  errorPaths : ∀ p, AMap.get env'.errorPaths p = AMap.get env.errorPaths p
  canonicalize : env'.canonicalize = env.canonicalize
  context : env'.context = env.context

variable (S : Setup)

namespace Setup

/-- Includes of a frame are harmless. -/
def Good (f : Frame) : Prop := SameGlobs S.env S.env' f.1 f.2 ∧ Avoids S.env S.b f.1 f.2

/-- The frames of the two runs; `true` as long as the include is ahead. -/
inductive Frames : Bool → List Frame → List Frame → Prop
  | before (x) : S.Good (S.root, x) → Frames true [(S.root, x ++ S.inc :: S.after)] [(S.root, x ++ S.contents ++ S.after)]
  | inside (x) : (∀ d ∈ x, d ∈ S.contents) → Frames false [(some S.b, x), (S.root, S.after)] [(S.root, x ++ S.after)]
  | same (fs) : (∀ f ∈ fs, S.Good f) → Frames false fs fs
  | push {a f fs fs'} : S.Good f → Frames a fs fs' → Frames a (f :: fs) (f :: fs')

structure Data (d d' : PragmaData) : Prop where
  tags : d'.tags = d.tags
  metas : d'.metas = d.metas
  options : d'.options = d.options
  plugins : d'.plugins = d.plugins
  errors : d'.errors = d.errors
  includeBy : ∀ k, S.env.canonicalize S.b ≠ some k → AMap.get d'.includeBy k = AMap.get d.includeBy k

structure Sim (a : Bool) (st st' : PragmaState) : Prop where
  frames : S.Frames a (frames st) (Lima.frames st')
  data : S.Data st.data st'.data
  remaining : ∀ q, q ≠ some S.b → AMap.get st'.remaining q = AMap.get st.remaining q
  gone : AMap.get st'.remaining (some S.b) = none
  here : AMap.get st.remaining (some S.b) = if a then some S.contents else none
  good : ∀ q ds, AMap.get st'.remaining q = some ds → S.Good (q, ds)

variable {S}

theorem Good.tail {p : Option Path} {d : Spanned Declaration} {ds : List (Spanned Declaration)} (h : S.Good (p, d :: ds)) :
    S.Good (p, ds) :=
  ⟨fun x hx => h.1 x (List.mem_cons_of_mem _ hx), fun x hx => h.2 x (List.mem_cons_of_mem _ hx)⟩

theorem Data.report {d d' : PragmaData} (h : S.Data d d') (r : Report) : S.Data (d.report r) (d'.report r) :=
  ⟨h.tags, h.metas, h.options, h.plugins, by simp [PragmaData.report, h.errors], h.includeBy⟩

theorem Data.pushtag {d d' : PragmaData} (h : S.Data d d') (t : Spanned Str) : S.Data (d.pushtag t) (d'.pushtag t) := by
  unfold PragmaData.pushtag
  rw [h.tags]
  split <;> exact ⟨rfl, h.metas, h.options, h.plugins, h.errors, h.includeBy⟩

theorem Data.poptag {d d' : PragmaData} (h : S.Data d d') (t : Spanned Str) : S.Data (d.poptag t) (d'.poptag t) := by
  unfold PragmaData.poptag
  rw [h.tags]
  split
  · split <;> exact ⟨rfl, h.metas, h.options, h.plugins, h.errors, h.includeBy⟩
  · exact h.report _

theorem Data.pushmeta {d d' : PragmaData} (h : S.Data d d') (t : MetaKeyValue) : S.Data (d.pushmeta t) (d'.pushmeta t) := by
  unfold PragmaData.pushmeta
  rw [h.metas]
  split <;> exact ⟨h.tags, rfl, h.options, h.plugins, h.errors, h.includeBy⟩

theorem Data.popmeta {d d' : PragmaData} (h : S.Data d d') (t : Spanned Str) : S.Data (d.popmeta t) (d'.popmeta t) := by
  unfold PragmaData.popmeta
  rw [h.metas]
  split
  · split <;> exact ⟨h.tags, rfl, h.options, h.plugins, h.errors, h.includeBy⟩
  · exact h.report _

theorem Data.option {d d' : PragmaData} (h : S.Data d d') (o : BOption) : S.Data (d.option o) (d'.option o) := by
  unfold PragmaData.option
  dsimp only
  rw [h.options]
  split
  · exact ⟨h.tags, h.metas, rfl, h.plugins, by simp [PragmaData.report, h.errors], h.includeBy⟩
  · exact ⟨h.tags, h.metas, rfl, h.plugins, h.errors, h.includeBy⟩

theorem Data.plugin {d d' : PragmaData} (h : S.Data d d') (p : Plugin) :
    S.Data { d with plugins := d.plugins ++ [p] } { d' with plugins := d'.plugins ++ [p] } :=
  ⟨h.tags, h.metas, h.options, by simp [h.plugins], h.errors, h.includeBy⟩

theorem Data.augment {d d' : PragmaData} (h : S.Data d d') (dir : Directive) : d'.augment dir = d.augment dir := by
  unfold PragmaData.augment
  rw [h.tags, h.metas]

theorem Data.opened {d d' : PragmaData} (h : S.Data d d') (span : Span) (p : Path) :
    S.Data (d.opened S.env span p) (d'.opened S.env' span p) := by
  unfold PragmaData.opened
  rw [S.canonicalize]
  split
  · refine ⟨h.tags, h.metas, h.options, h.plugins, h.errors, fun k hk => ?_⟩
    simp only [AMap.get_insert, h.tags, h.metas, h.includeBy k hk]
  · exact h

theorem Data.notOpened {d d' : PragmaData} (h : S.Data d d') (span : Span) {p : Path}
    (hp : ∀ c, S.env.canonicalize S.b = some c → S.env.canonicalize p ≠ some c) :
    S.Data (d.notOpened S.env span p) (d'.notOpened S.env' span p) := by
  unfold PragmaData.notOpened
  rw [S.errorPaths, S.canonicalize, S.context, h.tags, h.metas]
  split
  · exact h.report _
  · dsimp only
    cases hc : S.env.canonicalize p with
    | none => exact h.report _
    | some c =>
      dsimp only
      rw [h.includeBy c (fun e => hp c e hc)]
      cases AMap.get d.includeBy c with
      | none => exact h.report _
      | some ctx =>
        dsimp only
        have : sameContext ctx d' = sameContext ctx d := by
          unfold sameContext
          rw [h.tags, h.metas]
        rw [this]
        split
        · exact h
        · exact h.report _

theorem Sim.includeOne {a : Bool} {st st' : PragmaState} (h : S.Sim a st st') (span : Span) {p : Path} (hp : p ≠ S.b)
    (hc : ∀ c, S.env.canonicalize S.b = some c → S.env.canonicalize p ≠ some c) :
    S.Sim a (st.includeOne S.env span p) (st'.includeOne S.env' span p) := by
  have hp' : (some p : Option Path) ≠ some S.b := fun e => hp (Option.some.inj e)
  unfold PragmaState.includeOne
  rw [h.remaining _ hp']
  cases hg : AMap.get st.remaining (some p) with
  | none =>
    exact ⟨h.frames, h.data.notOpened span hc, h.remaining, h.gone, h.here, h.good⟩
  | some ds =>
    have hgood := h.good (some p) ds (by rw [h.remaining _ hp', hg])
    refine ⟨.push hgood h.frames, h.data.opened span p, fun q hq => ?_, ?_, ?_, fun q ds' hq => ?_⟩
    · simp only [AMap.get_erase, h.remaining q hq]
    · simp only [AMap.get_erase, h.gone]
      split <;> rfl
    · simp only [AMap.get_erase]
      rw [if_neg hp', h.here]
    · simp only [AMap.get_erase] at hq
      split at hq
      · cases hq
      · exact h.good q ds' hq

theorem Sim.includes {a : Bool} (span : Span) : ∀ (ps : List Path) {st st' : PragmaState}, S.Sim a st st' →
    (∀ p ∈ ps, p ≠ S.b ∧ ∀ c, S.env.canonicalize S.b = some c → S.env.canonicalize p ≠ some c) →
    S.Sim a (ps.foldl (PragmaState.includeOne S.env span) st) (ps.foldl (PragmaState.includeOne S.env' span) st')
  | [], _, _, h, _ => h
  | p :: ps, _, _, h, hp =>
    Sim.includes span ps (h.includeOne span (hp p (by simp)).1 (hp p (by simp)).2) (fun q hq => hp q (List.mem_cons_of_mem _ hq))

/-- The outcomes of a turn of both runs. -/
inductive Turns (a : Bool) : Turn → Turn → Prop
  | yield {x st st'} : S.Sim a st st' → Turns a (.yield x st) (.yield x st')
  | cont {st st'} : S.Sim a st st' → Turns a (.continue st) (.continue st')
  | done : Turns a .done .done
  | panic : Turns a .panic .panic

/-- Both runs meet the same declaration. -/
theorem Sim.consume {a : Bool} {p p' : Option Path} {d : Spanned Declaration} {ds ds' : List (Spanned Declaration)}
    {k k' : List Frame} {r r' : List (Option Path × List (Spanned Declaration))} {dat dat' : PragmaData}
    (h : S.Sim a ⟨p, ds, k, r, dat⟩ ⟨p', ds', k', r', dat'⟩)
    (hr : ∀ g, d.item = .pragma (.include g) →
      resolveIncludedPath p (Path.ofStr g.item) = resolveIncludedPath p' (Path.ofStr g.item))
    (hg : S.Good (p', [d])) :
    S.Turns a (PragmaState.step S.env ⟨p, d :: ds, k, r, dat⟩) (PragmaState.step S.env' ⟨p', d :: ds', k', r', dat'⟩) := by
  have next : ∀ {x x' : PragmaData}, S.Data x x' → S.Sim a ⟨p, ds, k, r, x⟩ ⟨p', ds', k', r', x'⟩ :=
    fun hx => ⟨h.frames, hx, h.remaining, h.gone, h.here, h.good⟩
  obtain ⟨decl, span⟩ := d
  cases decl with
  | directive dir =>
    simp only [PragmaState.step]
    rw [h.data.augment]
    cases PragmaData.augment dat dir with
    | none => exact .panic
    | some x => exact .yield h
  | pragma pr =>
    cases pr with
    | pushtag t => exact .cont (next (h.data.pushtag t))
    | poptag t => exact .cont (next (h.data.poptag t))
    | pushmeta t => exact .cont (next (h.data.pushmeta t))
    | popmeta t => exact .cont (next (h.data.popmeta t))
    | option o => exact .cont (next (h.data.option o))
    | plugin pl => exact .cont (next (h.data.plugin pl))
    | «include» g =>
      have h1 := hg.1 _ (List.mem_singleton.mpr rfl) g rfl
      have h2 := hg.2 _ (List.mem_singleton.mpr rfl) g rfl
      simp only [PragmaState.step, PragmaState.includeGlob]
      rw [hr g rfl]
      dsimp only at h1
      rw [h1]
      unfold expansion at h2
      dsimp only at h2
      cases hgl : AMap.get S.env.globs (resolveIncludedPath p' (Path.ofStr g.item)) with
      | none => exact .panic
      | some gl =>
        rw [hgl] at h2
        cases gl with
        | expanded ps =>
          dsimp only
          refine .cont (Sim.includes g.span ps ?_ h2)
          cases ps with
          | nil => exact next (h.data.report _)
          | cons q qs => exact h
        | error e => exact .cont (next (h.data.report _))

theorem Frames.shape {a : Bool} {fs fs' : List Frame} (h : S.Frames a fs fs') :
    (fs = [] ∧ fs' = []) ∨ ∃ f k f' k', fs = f :: k ∧ fs' = f' :: k' := by
  cases h with
  | before x _ => exact .inr ⟨_, _, _, _, rfl, rfl⟩
  | inside x _ => exact .inr ⟨_, _, _, _, rfl, rfl⟩
  | same fs _ =>
    cases fs with
    | nil => exact .inl ⟨rfl, rfl⟩
    | cons f k => exact .inr ⟨_, _, _, _, rfl, rfl⟩
  | push _ _ => exact .inr ⟨_, _, _, _, rfl, rfl⟩

/-- One turn: both runs do the same, or the run with the include enters or leaves the included file. -/
theorem Sim.turn {a : Bool} {st st' : PragmaState} (h : S.Sim a st st') :
    S.Turns a (st.step S.env) (st'.step S.env') ∨ ∃ a' st1, st.step S.env = .continue st1 ∧ S.Sim a' st1 st' := by
  obtain ⟨p, c, k, r, dat⟩ := st
  obtain ⟨p', c', k', r', dat'⟩ := st'
  have build : ∀ {a : Bool} {p p' : Option Path} {c c' : List (Spanned Declaration)} {k k' : List Frame},
      S.Frames a ((p, c) :: k) ((p', c') :: k') → S.Data dat dat' →
      (AMap.get r (some S.b) = if a then some S.contents else none) →
      S.Sim a ⟨p, c, k, r, dat⟩ ⟨p', c', k', r', dat'⟩ :=
    fun h1 h2 h3 => ⟨h1, h2, h.remaining, h.gone, h3, h.good⟩
  have hf := h.frames
  change S.Frames a ((p, c) :: k) ((p', c') :: k') at hf
  generalize e1 : ((p, c) :: k) = F at hf
  generalize e2 : ((p', c') :: k') = F' at hf
  cases hf with
  | before x hx =>
    cases e1
    cases e2
    cases x with
    | nil =>
      refine .inr ⟨false, ⟨some S.b, S.contents, [(S.root, S.after)], AMap.erase r (some S.b), dat.opened S.env S.g.span S.b⟩, ?_, ?_⟩
      · have hh : AMap.get r (some S.b) = some S.contents := h.here
        simp only [PragmaState.step, List.nil_append, S.hinc, PragmaState.includeGlob, S.hglob, List.isEmpty_cons,
          List.foldl_cons, List.foldl_nil, PragmaState.includeOne, Bool.false_eq_true, if_false, hh]
      · refine ⟨.inside S.contents (fun _ h => h), ?_, fun q hq => ?_, h.gone, ?_, h.good⟩
        · have hd := h.data
          dsimp only at hd ⊢
          unfold PragmaData.opened
          cases hc : S.env.canonicalize S.b with
          | none => exact hd
          | some c =>
            refine ⟨hd.tags, hd.metas, hd.options, hd.plugins, hd.errors, fun k hk => ?_⟩
            rw [AMap.get_insert, if_neg, hd.includeBy k hk]
            rintro rfl
            exact hk hc
        · dsimp only
          rw [AMap.get_erase, if_neg (Ne.symm hq)]
          exact h.remaining q hq
        · simp [AMap.get_erase]
    | cons d x =>
      refine .inl (Sim.consume (build (.before x hx.tail) h.data h.here) (fun _ _ => rfl) ?_)
      exact ⟨fun y hy => hx.1 y (List.mem_cons.mpr (.inl (List.mem_singleton.mp hy))), fun y hy => hx.2 y (List.mem_cons.mpr (.inl (List.mem_singleton.mp hy)))⟩
  | inside x hx =>
    cases e1
    cases e2
    cases c with
    | nil =>
      refine .inr ⟨false, ⟨S.root, S.after, [], r, dat⟩, rfl, build (.same _ ?_) h.data h.here⟩
      intro f hf
      rw [List.mem_singleton] at hf
      subst hf
      exact S.hrest
    | cons d c =>
      have hd := hx d (by simp)
      refine .inl (Sim.consume (build (.inside c (fun y hy => hx y (List.mem_cons_of_mem _ hy))) h.data h.here) (S.hres d hd) ?_)
      exact ⟨fun y hy => S.hcont.1 y (List.mem_singleton.mp hy ▸ hd), fun y hy => S.hcont.2 y (List.mem_singleton.mp hy ▸ hd)⟩
  | same fs hfs =>
    cases e1
    cases e2
    cases c with
    | nil =>
      left
      cases k with
      | nil => exact .done
      | cons f k => exact .cont (build (.same _ (fun x hx => hfs x (List.mem_cons_of_mem _ hx))) h.data h.here)
    | cons d c =>
      have hg := hfs (p, d :: c) (by simp)
      refine .inl (Sim.consume (build (.same _ ?_) h.data h.here) (fun _ _ => rfl) ?_)
      · intro f hf
        rcases List.mem_cons.mp hf with rfl | hf
        · exact hg.tail
        · exact hfs f (List.mem_cons_of_mem _ hf)
      · exact ⟨fun y hy => hg.1 y (List.mem_cons.mpr (.inl (List.mem_singleton.mp hy))), fun y hy => hg.2 y (List.mem_cons.mpr (.inl (List.mem_singleton.mp hy)))⟩
  | push hg hk =>
    cases e1
    cases e2
    cases c with
    | nil =>
      left
      rcases hk.shape with ⟨rfl, rfl⟩ | ⟨f, k0, f', k0', rfl, rfl⟩
      · exact .done
      · exact .cont (build hk h.data h.here)
    | cons d c =>
      refine .inl (Sim.consume (build (.push hg.tail hk) h.data h.here) (fun _ _ => rfl) ?_)
      exact ⟨fun y hy => hg.1 y (List.mem_cons.mpr (.inl (List.mem_singleton.mp hy))), fun y hy => hg.2 y (List.mem_cons.mpr (.inl (List.mem_singleton.mp hy)))⟩

/-- The outcomes of both runs. -/
inductive Outcomes : Res Unit (List (Spanned Directive) × PragmaState) → Res Unit (List (Spanned Directive) × PragmaState) → Prop
  | ok {out st st'} : S.Data st.data st'.data → Outcomes (.ok (out, st)) (.ok (out, st'))
  | panic : Outcomes .panic .panic

theorem done_data {a : Bool} {st st' : PragmaState} (h : S.Sim a st st') : S.Data st.data st'.data := h.data

theorem Sim.run (n : Nat) : ∀ {a : Bool} {st st' : PragmaState}, S.Sim a st st' → st.collectFuel S.env n ≠ .err () →
    ∃ m, S.Outcomes (st.collectFuel S.env n) (st'.collectFuel S.env' m) := by
  induction n with
  | zero => intro a st st' _ h; exact absurd rfl h
  | succ n ih =>
    intro a st st' h hn
    rcases h.turn with ht | ⟨a', st1, h1, h2⟩
    · simp only [PragmaState.collectFuel] at hn ⊢
      generalize e1 : st.step S.env = t1 at ht
      generalize e2 : st'.step S.env' = t2 at ht
      rw [e1] at hn
      cases ht with
      | @yield x s s' hs =>
        dsimp only at hn ⊢
        obtain ⟨m, hm⟩ := ih hs (fun e => hn (by rw [e]; rfl))
        refine ⟨m + 1, ?_⟩
        simp only [PragmaState.collectFuel, e2]
        generalize s.collectFuel S.env n = r1 at hm
        generalize s'.collectFuel S.env' m = r2 at hm
        cases hm with
        | ok hd => exact .ok hd
        | panic => exact .panic
      | @cont s s' hs =>
        dsimp only at hn ⊢
        obtain ⟨m, hm⟩ := ih hs hn
        refine ⟨m + 1, ?_⟩
        simp only [PragmaState.collectFuel, e2]
        exact hm
      | done =>
        refine ⟨1, ?_⟩
        simp only [PragmaState.collectFuel, e2]
        exact .ok h.data
      | panic =>
        refine ⟨1, ?_⟩
        simp only [PragmaState.collectFuel, e2]
        exact .panic
    · simp only [PragmaState.collectFuel, h1] at hn ⊢
      exact ih h2 hn

theorem Sim.collect {a : Bool} {st st' : PragmaState} (h : S.Sim a st st') :
    S.Outcomes (st.collect S.env) (st'.collect S.env') := by
  obtain ⟨m, hm⟩ := h.run (st.size + 1) (collectFuel_enough S.env _ st (Nat.lt_succ_self _))
  have he := collectFuel_enough S.env' (st'.size + 1) st' (Nat.lt_succ_self _)
  have hm' : st'.collectFuel S.env' m ≠ .err () := by
    generalize st'.collectFuel S.env' m = r at hm
    generalize st.collectFuel S.env (st.size + 1) = r0 at hm
    cases hm <;> simp
  have : st'.collectFuel S.env' (st'.size + 1) = st'.collectFuel S.env' m := by
    rcases Nat.le_total m (st'.size + 1) with hle | hle
    · exact collectFuel_mono S.env' _ _ hle st' hm'
    · exact (collectFuel_mono S.env' _ _ hle st' he).symm
  unfold PragmaState.collect
  rw [this]
  exact hm

end Setup

end Lima.InPlaceRun

namespace Lima
open Spec

/-- What the data of the two runs have in common. -/
structure SameData (d d' : PragmaData) : Prop where
  tags : d'.tags = d.tags
  metas : d'.metas = d.metas
  options : d'.options = d.options
  plugins : d'.plugins = d.plugins
  errors : d'.errors = d.errors

theorem inPlace_process {env env' : PragmaEnv} {root : Option Path} {b : Path}
    {files files' : List (Option Path × List (Spanned Declaration))} (h : InPlace env env' root b files files') (o : Options) :
    (∃ out d d', processPragmas env root files o = .ok (out, d) ∧ processPragmas env' root files' o = .ok (out, d') ∧ SameData d d') ∨
    (processPragmas env root files o = .panic ∧ processPragmas env' root files' o = .panic) := by
  obtain ⟨before, inc, g, after, contents, h1, h2, h3, h4, h5, h6⟩ := h.root_split
  have ha := h.avoids root _ h5
  have hg := h.globs root _ h5
  let S : InPlaceRun.Setup := ⟨env, env', root, b, inc, g, contents, after, h1, h2, h6, h.not_root,
    ⟨fun d hd => hg d (by simp [hd]), fun d hd => ha d (by simp [hd])⟩,
    ⟨fun d hd => hg d (by simp [hd]), fun d hd => ha d (by simp [hd])⟩, h.errorPaths, h.canonicalize, h.context⟩
  have sim : S.Sim true
      ⟨root, before ++ inc :: after, [], AMap.erase files root, ⟨[], [], [], o, [], []⟩⟩
      ⟨root, before ++ contents ++ after, [], AMap.erase files' root, ⟨[], [], [], o, [], []⟩⟩ := by
    refine ⟨.before before ⟨fun d hd => hg d (by simp [hd]), fun d hd => ha d (by simp [hd])⟩, ⟨rfl, rfl, rfl, rfl, rfl, fun _ _ => rfl⟩, fun q hq => ?_, ?_, ?_,
      fun q ds hq => ?_⟩
    · simp only [AMap.get_erase]
      split
      · rfl
      · exact h.others q (Ne.symm (by assumption)) hq
    · simp only [AMap.get_erase]
      split
      · rfl
      · exact h.gone
    · change AMap.get (AMap.erase files root) (some b) = _
      rw [AMap.get_erase, if_neg h.not_root, h4]
      rfl
    · simp only [AMap.get_erase] at hq
      split at hq
      · cases hq
      · exact ⟨h.globs q ds hq, h.avoids q ds hq⟩
  have hc := sim.collect
  unfold processPragmas PragmaState.new
  rw [h3, h5]
  dsimp only
  change S.Outcomes (PragmaState.collect env _) (PragmaState.collect env' _) at hc
  generalize PragmaState.collect env _ = r1 at hc ⊢
  generalize PragmaState.collect env' _ = r2 at hc ⊢
  cases hc with
  | ok hd => exact .inl ⟨_, _, _, rfl, rfl, hd.tags, hd.metas, hd.options, hd.plugins, hd.errors⟩
  | panic => exact .inr ⟨rfl, rfl⟩

end Lima
