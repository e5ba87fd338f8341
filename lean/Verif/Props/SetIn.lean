import Verif.Lemmas.UnsetBack
import Verif.Props.Unset
import Verif.Props.Success
import Verif.Props.Found

/-!
# C71: an option, or a plugin, which is put in
-/

set_option linter.unusedSectionVars false

namespace Lima.Unset
open Lima Spec Grammar Props InPlaceParse Revise Surround Bracketed

/-! ### Data of the pragma processor -/

theorem Alike.act_other {E : Effect} {d d' : PragmaData} (h : Alike E d d') {pr : Pragma} (hn : ∀ b, pr ≠ .option b) :
    Alike E (Bracketed.act pr d) (Bracketed.act pr d') := by
  cases pr with
  | pushtag t =>
    unfold Bracketed.act PragmaData.pushtag
    dsimp only
    rw [h.tags]
    split <;> exact ⟨h.includeBy, rfl, h.metas, h.errors, h.rel⟩
  | poptag t =>
    unfold Bracketed.act PragmaData.poptag
    dsimp only
    rw [h.tags]
    split
    · split <;> exact ⟨h.includeBy, rfl, h.metas, h.errors, h.rel⟩
    · exact h.report _
  | pushmeta t =>
    unfold Bracketed.act PragmaData.pushmeta
    dsimp only
    rw [h.metas]
    split <;> exact ⟨h.includeBy, h.tags, rfl, h.errors, h.rel⟩
  | popmeta t =>
    unfold Bracketed.act PragmaData.popmeta
    dsimp only
    rw [h.metas]
    split
    · split <;> exact ⟨h.includeBy, h.tags, rfl, h.errors, h.rel⟩
    · exact h.report _
  | «include» g => exact h
  | plugin p => exact ⟨h.includeBy, h.tags, h.metas, h.errors, E.plugin p h.rel⟩
  | option b => exact absurd rfl (hn b)

theorem act_fine {d : PragmaData} {b : BOption} (h : (d.options.assimilate b).2 = none) :
    act (.option b) d = { d with options := (d.options.assimilate b).1 } := by
  unfold act PragmaData.option
  dsimp only
  rw [h]

theorem act_bad {d : PragmaData} {b : BOption} (h : (d.options.assimilate b).2 ≠ none) : (act (.option b) d).errors ≠ [] := by
  unfold act PragmaData.option
  dsimp only
  obtain ⟨r, hr⟩ := Option.ne_none_iff_exists'.mp h
  rw [hr]
  exact report_errors _ _

theorem act_set (b : BOption) (d : PragmaData) : (act (.option b) d).options = (d.options.assimilate b).1 := by
  unfold act PragmaData.option
  dsimp only
  split <;> rfl

/-- What the pragma processor does for a plugin which is put in. -/
theorem plugins_back (name : Str) (config : Option Str) : Back (plugins name config) (fun d => d.errors ≠ []) where
  persist hr := runs_errors hr
  act := by
    intro d d' pr h
    by_cases hn : ∀ b, pr ≠ .option b
    · exact .inr (h.act_other hn)
    · have : ∃ b, pr = .option b := by
        by_contra hh
        exact hn fun b hb => hh ⟨b, hb⟩
      obtain ⟨b, rfl⟩ := this
      have ho : d'.options = d.options := h.rel.1
      by_cases hb : (d'.options.assimilate b).2 = none
      · right
        rw [act_fine hb, act_fine (by rw [← ho]; exact hb)]
        exact ⟨h.includeBy, h.tags, h.metas, h.errors, by dsimp only; rw [ho], h.rel.2⟩
      · exact .inl (act_bad hb)
  drop := by
    rintro d d' _ ⟨q, rfl, h1, h2⟩ h
    exact ⟨h.includeBy, h.tags, h.metas, h.errors, (plugins name config).dropPlugin q ⟨q, rfl, h1, h2⟩ h.rel⟩

/-- A setting which one of the two runs has. -/
def oneSetting (k : Setting) : Effect where
  R := (settings (· = k)).R
  drop _ := False
  start := (settings (· = k)).start
  drops := fun _ h => h.elim
  option := (settings (· = k)).option
  plugin := (settings (· = k)).plugin
  dropOption := fun _ h => h.elim
  dropPlugin := fun _ h => h.elim

/-- What makes the run without the option unfit. -/
def Unfit (k : Setting) (d : PragmaData) : Prop := d.errors ≠ [] ∨ keptSource d.options k ≠ none

/-- What the pragma processor does for an option which is put in. -/
theorem setting_back (k : Setting) : Back (oneSetting k) (Unfit k) where
  persist hr := by
    refine runs_persist ?_ ?_ ?_ hr
    · rintro pr d (h | h)
      · exact .inl (act_errors h)
      · exact .inr (act_kept h)
    · rintro d e (h | h)
      · exact .inl (report_errors _ _)
      · exact .inr h
    · rintro env span p d h
      unfold PragmaData.opened
      split
      · exact h
      · exact h
  act := by
    intro d d' pr h
    by_cases hn : ∀ b, pr ≠ .option b
    · exact .inr (h.act_other hn)
    · have : ∃ b, pr = .option b := by
        by_contra hh
        exact hn fun b hb => hh ⟨b, hb⟩
      obtain ⟨b, rfl⟩ := this
      obtain ⟨hp, S, h1, h2, h3⟩ := h.rel
      cases hs : settingOf b.variant with
      | none =>
        right
        rw [act_fine (by rw [other hs]), act_fine (by rw [other hs]), other hs, other hs]
        exact ⟨h.includeBy, h.tags, h.metas, h.errors, h.rel⟩
      | some j =>
        by_cases hk : keptSource d'.options j = none
        · by_cases hS : S j
          · left
            right
            rw [act_set]
            obtain rfl := h1 j hS
            exact kept_now _ _ _ hs
          · right
            have hk0 : keptSource d.options j = none := by rw [h3, kept_butFor hS] at hk; exact hk
            rw [act_fine (once hs hk), act_fine (once hs hk0)]
            refine ⟨h.includeBy, h.tags, h.metas, h.errors, hp, S, h1, fun i hi => kept_or _ _ _ (h2 i hi), ?_⟩
            dsimp only
            rw [h3]
            exact butFor_set hs hk0 hS
        · exact .inl (.inl (act_bad (twice hs hk)))
  drop := fun h => h.elim

theorem setting_put {k : Setting} {b : BOption} (hb : settingOf b.variant = some k) (d : PragmaData) :
    Unfit k d ∨ Alike (oneSetting k) (act (.option b) d) d := by
  by_cases hk : keptSource d.options k = none
  · right
    rw [act_fine (once hb hk)]
    refine ⟨rfl, rfl, rfl, rfl, rfl, fun x => False ∨ x = k, ?_, ?_, ?_⟩
    · rintro j (hj | hj)
      · exact hj.elim
      · exact hj
    · rintro j (hj | rfl)
      · exact hj.elim
      · exact kept_now _ _ _ hb
    · dsimp only
      rw [butFor_drop (S := fun _ => False) hb hk, butFor_none]
  · exact .inl (.inr hk)

/-! ### Whether a setting is made -/

theorem get_move {κ ν : Type} [DecidableEq κ] (g : ν → ν) (m : List (κ × ν)) (k : κ) :
    AMap.get (m.map fun e => (e.1, g e.2)) k = (AMap.get m k).map g := by
  induction m with
  | nil => rfl
  | cons e m ih =>
    rw [List.map_cons, AMap.get_cons, AMap.get_cons, ih]
    dsimp only
    split <;> rfl

theorem kept_move (f : Span → Span) (o : Options) (k : Setting) : keptSource (move f o) k = none ↔ keptSource o k = none := by
  have key : ∀ {α : Type} [Places α] (x : Option (Sourced α)), (move f x).map (·.source) = none ↔ x.map (·.source) = none := by
    intro α _ x
    cases x with
    | none => exact Iff.rfl
    | some x => exact Iff.intro (fun h => by cases h) (fun h => by cases h)
  cases k
  case tolerance c =>
    change (AMap.get (o.inferredToleranceDefault.map fun e => (e.1, move f e.2)) c).map (·.2) = none ↔ _
    rw [get_move]
    change _ ↔ (AMap.get _ _).map _ = none
    simp only [Option.map_eq_none_iff]
  case document c =>
    change AMap.get (o.documents.map fun e => (e.1, move f e.2)) c = none ↔ _
    rw [get_move]
    change _ ↔ AMap.get _ _ = none
    simp only [Option.map_eq_none_iff]
  case operatingCurrency c =>
    change AMap.get (o.operatingCurrency.map fun e => (e.1, move f e.2)) c = none ↔ _
    rw [get_move]
    change _ ↔ AMap.get _ _ = none
    simp only [Option.map_eq_none_iff]
  all_goals exact key _

theorem kept_same {o o' : Options} (h : SameButPlaces o o') (k : Setting) : keptSource o k = none ↔ keptSource o' k = none := by
  unfold SameButPlaces at h
  rw [← kept_move (fun _ => ⟨0, 0, 0⟩) o, h, kept_move]

theorem leaving_same {α : Type} {p : Prop} (hp : p) {x : Option α} (h : leaving p x = x) : x = none := by
  rw [leaving_yes hp] at h
  exact h.symm

theorem others_same {κ ν : Type} [DecidableEq κ] {P : κ → Prop} {k : κ} (hk : P k) {m : List (κ × ν)} (h : others P m = m) : AMap.get m k = none := by
  cases hg : AMap.get m k with
  | none => rfl
  | some v =>
    have := AMap.mem_of_get hg
    rw [← h] at this
    unfold others at this
    simp [hk] at this

/-- A setting which the options do not have is not made. -/
theorem kept_unset {o : Options} {k : Setting} (h : NotSet k o) : keptSource o k = none := by
  cases k
  case tolerance c =>
    have := congrArg Options.inferredToleranceDefault h
    exact Option.map_eq_none_iff.mpr (others_same (P := fun x => Setting.tolerance x = .tolerance c) rfl this)
  case document c =>
    have := congrArg Options.documents h
    exact others_same (P := fun x => Setting.document x = .document c) rfl this
  case operatingCurrency c =>
    have := congrArg Options.operatingCurrency h
    exact others_same (P := fun x => Setting.operatingCurrency x = .operatingCurrency c) rfl this
  all_goals
    refine Option.map_eq_none_iff.mpr ?_
    first
    | exact leaving_same rfl (congrArg Options.title h)
    | exact leaving_same rfl (congrArg Options.accountPreviousBalances h)
    | exact leaving_same rfl (congrArg Options.accountPreviousEarnings h)
    | exact leaving_same rfl (congrArg Options.accountPreviousConversions h)
    | exact leaving_same rfl (congrArg Options.accountCurrentEarnings h)
    | exact leaving_same rfl (congrArg Options.accountCurrentConversions h)
    | exact leaving_same rfl (congrArg Options.accountUnrealizedGains h)
    | exact leaving_same rfl (congrArg Options.accountRounding h)
    | exact leaving_same rfl (congrArg Options.conversionCurrency h)
    | exact leaving_same rfl (congrArg Options.inferredToleranceMultiplier h)
    | exact leaving_same rfl (congrArg Options.inferToleranceFromCost h)
    | exact leaving_same rfl (congrArg Options.renderCommas h)
    | exact leaving_same rfl (congrArg Options.bookingMethod h)
    | exact leaving_same rfl (congrArg Options.pluginProcessingMode h)

/-! ### Files -/

section
variable [Unicode] [DecOps] {decimal : Str → Except LexerError Dec}

/-- A file with a pragma only. -/
theorem file_of {cfg : ParseCfg} {o : ParserOptions} {P : List Ranged} {x y : Nat} {p : Pragma} (h : PragmaP cfg o P [⟨.eol, x, y⟩] p o []) :
    ∃ d ws, FileP cfg o P [d] o [] ws ∧ d.item = .pragma p := by
  obtain ⟨span, hs⟩ := covers_of cfg P []
  have : FileP cfg o (P ++ []) [⟨.pragma p, span⟩] o ([] ++ []) (longStrings cfg o P ++ []) :=
    .cons (.pragma (by rw [List.append_nil]; exact h) (.inl ⟨x, y, rfl⟩) hs) .nil
  rw [List.append_nil] at this
  exact ⟨_, _, this, rfl⟩

theorem at_string (cfg : ParseCfg) (s : Str) (x y : Nat) (r : List Ranged) : At cfg StringP (⟨.stringLiteral s, x, y⟩ :: r) r ⟨s, ⟨cfg.source, x, y⟩⟩ :=
  ⟨⟨x, y, rfl⟩, .inl ⟨_, [⟨.stringLiteral s, x, y⟩], _, rfl, rfl, rfl, rfl⟩⟩

theorem plugin_fits {name : Str} {config : Option Str} :
    Fits decimal (pluginLine name config) (fun _ => True) (fun du => ∀ d ∈ du, ∃ x, d.item = .pragma x ∧ (plugins name config).drop x) := by
  constructor
  intro P hP id path o _
  suffices ∃ e1 e2 pl, PragmaP (cfgAt decimal id path) o P [⟨.eol, e1, e2⟩] (.plugin pl) o [] ∧ pl.moduleName.item = name ∧ pl.config.map (·.item) = config by
    obtain ⟨e1, e2, pl, h1, h2, h3⟩ := this
    obtain ⟨d, ws, k1, k2⟩ := file_of h1
    refine ⟨_, _, k1, ?_⟩
    intro d' hd
    rw [List.mem_singleton.mp hd]
    exact ⟨_, k2, pl, rfl, h2, h3⟩
  cases config with
  | none =>
    obtain ⟨a, P, rfl, ha, hP⟩ := List.map_eq_cons_iff.mp hP
    obtain ⟨b, P, rfl, hb, hP⟩ := List.map_eq_cons_iff.mp hP
    obtain ⟨e, P, rfl, he, hP⟩ := List.map_eq_cons_iff.mp hP
    rw [List.map_eq_nil_iff] at hP
    subst hP
    obtain ⟨ka, a1, a2⟩ := a
    obtain ⟨kb, b1, b2⟩ := b
    obtain ⟨ke, e1, e2⟩ := e
    dsimp only at ha hb he
    subst ha hb he
    exact ⟨e1, e2, ⟨_, none⟩, .plugin ⟨_, _, rfl⟩ (at_string _ _ _ _ _) rfl, rfl, rfl⟩
  | some config =>
    obtain ⟨a, P, rfl, ha, hP⟩ := List.map_eq_cons_iff.mp hP
    obtain ⟨b, P, rfl, hb, hP⟩ := List.map_eq_cons_iff.mp hP
    obtain ⟨c, P, rfl, hc, hP⟩ := List.map_eq_cons_iff.mp hP
    obtain ⟨e, P, rfl, he, hP⟩ := List.map_eq_cons_iff.mp hP
    rw [List.map_eq_nil_iff] at hP
    subst hP
    obtain ⟨ka, a1, a2⟩ := a
    obtain ⟨kb, b1, b2⟩ := b
    obtain ⟨kc, c1, c2⟩ := c
    obtain ⟨ke, e1, e2⟩ := e
    dsimp only at ha hb hc he
    subst ha hb hc he
    exact ⟨e1, e2, ⟨_, some _⟩, .plugin ⟨_, _, rfl⟩ (at_string _ _ _ _ _) (at_string _ _ _ _ _), rfl, rfl⟩

theorem option_fits {root : Option Path} {name value : Str} {v : OptVariant} {k : Setting} (hd : Decodes (okOf decimal) root name value v)
    (hk : settingOf v = some k) : Fits decimal (optionLine name value) (· = root)
      (fun du => ∃ d x, du = [d] ∧ d.item = .pragma x ∧ ∃ b, x = .option b ∧ settingOf b.variant = some k) := by
  constructor
  intro P hP id path o hr
  subst hr
  obtain ⟨a, P, rfl, ha, hP⟩ := List.map_eq_cons_iff.mp hP
  obtain ⟨b, P, rfl, hb, hP⟩ := List.map_eq_cons_iff.mp hP
  obtain ⟨c, P, rfl, hc, hP⟩ := List.map_eq_cons_iff.mp hP
  obtain ⟨e, P, rfl, he, hP⟩ := List.map_eq_cons_iff.mp hP
  rw [List.map_eq_nil_iff] at hP
  subst hP
  obtain ⟨ka, a1, a2⟩ := a
  obtain ⟨kb, b1, b2⟩ := b
  obtain ⟨kc, c1, c2⟩ := c
  obtain ⟨ke, e1, e2⟩ := e
  dsimp only at ha hb hc he
  subst ha hb hc he
  have ok := (C46_decodes _ _ _ _ _).mpr hd
  have h1 := at_string (cfgAt decimal id path) name b1 b2 [⟨.stringLiteral value, c1, c2⟩, ⟨.eol, e1, e2⟩]
  have h2 := at_string (cfgAt decimal id path) value c1 c2 [⟨.eol, e1, e2⟩]
  have ha : ∀ src, o.assimilate ⟨src, v⟩ = (.ok ⟨src, v⟩, o) := by
    intro src
    cases v <;> first | rfl | cases hk
  obtain ⟨d, ws, k1, k2⟩ := file_of (.option ⟨a1, a2, rfl⟩ h1 h2 (.accepted ((map_ok _ _ _).mpr ⟨v, ok, rfl⟩) (ha _)))
  exact ⟨_, _, k1, d, _, rfl, k2, _, rfl, hk⟩

end

end Lima.Unset

namespace Lima.Props
open Lima Spec Grammar InPlaceParse Revise Surround

section
variable [Categories] [Unicode] [DecOps] {l : Logos} {env : ParseEnv} {fs fs' : FileSystem} {root : Option Path} {text text' : Str} {s s' : Sources}
  {before line after : Str}

/-- C71: if a run succeeds, then so does a run on the files with a line for a plugin put in, anywhere between two declarations; it
yields the same directives, in the same order, the same options, and the same plugins, in the same order, besides that one. -/
theorem C71_plugin {name : Str} {config : Option Str} (hwf : GlobsWF fs) (hlex : LexedBy l env.tokens) (hx : SameEnv env env)
    (hp : ∀ t ∈ [before, line, after], Passage l t) (hl : (env.tokens line).map (·.tok) = pluginLine name config)
    (hfs : FilesLike (LeftOut before line after) fs fs') (ht : LeftOut before line after text text')
    (hs : ReadInSomeOrder fs env.tokens root text s) (hs' : ReadInSomeOrder fs' env.tokens root text' s') (hv : SameVisits s s')
    {r' : ParseSuccess} (hr : parseTexts l env s' = .ok r') :
    ∃ r, parseTexts l env s = .ok r ∧ SameButPlugin name config r r' := by
  obtain ⟨r, h1, h2, h3, o, ps, o', ps', h4, h5, ⟨rfl, h6⟩, h7, h8⟩ :=
    Unset.left_run_back hwf hlex hx hp hl (by cases config <;> simp [pluginLine]) Unset.plugin_fits
      (Unset.processes_all (Unset.plugins_back name config) _ root) hfs ht hs hs' hv (fun _ _ => .inl trivial) hr (fun d h _ hn => hn h)
  exact ⟨r, h1, h2, h4.trans h7, Unset.gone_same (forall₂_same_places h5) h6 (forall₂_same_places h8), h3⟩

/-- C71: if a run succeeds, then so does a run with a line for an option put in, anywhere between two declarations of the root, if
the line is a proper option, which sets something that is not set so far; it yields the same directives, in the same order, the same
plugins, and the same options besides that one, which now has the value. -/
theorem C71_option {name value : Str} {v : OptVariant} {k : Setting} (hwf : GlobsWF fs) (hlex : LexedBy l env.tokens) (hx : SameEnv env env)
    (hp : ∀ t ∈ [before, line, after], Passage l t) (hl : (env.tokens line).map (·.tok) = optionLine name value)
    (hd : Decodes (okOf env.decimal) root name value v) (hk : settingOf v = some k)
    (hs : ReadInSomeOrder fs env.tokens root (before ++ line ++ after) s) (hs' : ReadInSomeOrder fs env.tokens root (before ++ after) s')
    (hv : SameVisits s s') {r' : ParseSuccess} (hr : parseTexts l env s' = .ok r')
    (hu : NotSet k r'.options) :
    ∃ r, parseTexts l env s = .ok r ∧ SameButSettings (· = k) r r' ∧ ∃ at', Holds r.options at' v := by
  have hfs : FilesLike (LeftOut before line after) fs fs := Ordered.same_files (fun t => .inl rfl) fs
  have ha : ∀ {id id' path t t'}, IsSource s id path t → IsSource s' id' path t' → path = root ∨ t' = t := by
    intro id id' path t t' h h'
    cases C60_only_found hwf hs _ _ _ h with
    | root => exact .inl rfl
    | step _ _ _ _ hne _ h1 =>
      right
      generalize hq : some _ = path at h'
      cases C60_only_found hwf hs' _ _ _ h' with
      | root => exact absurd hq hne
      | step _ _ _ _ _ _ h2 =>
        cases hq
        rw [h1] at h2
        cases h2
        rfl
  obtain ⟨r, h1, h2, h3, o, ps, o', ps', h4, h5, ⟨rfl, S, h6, _, rfl⟩, h7, h8⟩ :=
    Unset.left_run_back hwf hlex hx hp hl (by simp [optionLine]) (Unset.option_fits hd hk)
      (Unset.processes_one (Unset.setting_back k) (X := fun x => ∃ b, x = .option b ∧ settingOf b.variant = some k)
        (by rintro _ ⟨b, rfl, _⟩ g h; cases h) (by rintro _ ⟨b, rfl, hb⟩ d; exact Unset.setting_put hb d) root)
      hfs (.inr ⟨rfl, rfl⟩) hs hs' hv ha hr (by
        rintro d he ho (h | h)
        · exact h he
        · exact h ((Unset.kept_same ho k).mp (Unset.kept_unset hu)))
  refine ⟨r, h1, ⟨h2, ⟨S, h6, (Unset.butFor_same h4).trans h7⟩, h5.trans h8, h3⟩, ?_⟩
  have pb := hp before (by simp)
  have pu := hp line (by simp)
  have pa := hp after (by simp)
  have ok : parseSources env s = .ok r := by
    have hl : ∀ e ∈ s.contentIter, lexText l e.2.2 ≠ none := by
      by_contra hl
      unfold parseTexts at h1
      rw [if_pos] at h1
      · cases h1
      · push Not at hl
        obtain ⟨e, he, hn⟩ := hl
        exact List.any_eq_true.mpr ⟨e, he, by rw [hn]; rfl⟩
    rwa [parseTexts_eq hl] at h1
  have hw : ∃ at', WritesOption (env.tokens (before ++ line ++ after)) 0 name value at' := by
    have ht : (env.tokens (before ++ line ++ after)).map (·.tok) = (env.tokens before).map (·.tok) ++ (optionLine name value ++ (env.tokens after).map (·.tok)) := by
      rw [passages_tokens hlex (Passage.append pb pu) pa, passages_tokens hlex pb pu, List.append_assoc, hl]
    obtain ⟨a, x, hx, _, hx'⟩ := List.map_eq_append_iff.mp ht
    obtain ⟨u, c, rfl, hu, _⟩ := List.map_eq_append_iff.mp hx'
    obtain ⟨t1, u, rfl, e1, hu⟩ := List.map_eq_cons_iff.mp hu
    obtain ⟨t2, u, rfl, e2, hu⟩ := List.map_eq_cons_iff.mp hu
    obtain ⟨t3, u, rfl, e3, hu⟩ := List.map_eq_cons_iff.mp hu
    obtain ⟨k1, a1, a2⟩ := t1
    obtain ⟨k2, b1, b2⟩ := t2
    obtain ⟨k3, c1, c2⟩ := t3
    dsimp only at e1 e2 e3
    subst e1 e2 e3
    exact ⟨_, a, u ++ c, a1, a2, b1, b2, c1, c2, hx, rfl⟩
  obtain ⟨at', hw⟩ := hw
  have hi : IsSource s 0 root (before ++ line ++ after) := by
    obtain ⟨c, hc, rfl⟩ := hs
    exact .inl ⟨rfl, rfl, rfl⟩
  exact ⟨at', (C56_options_partial hwf hs ok at' v (by rw [hk]; simp)).mpr ⟨0, root, _, name, value, hi, hw, hd⟩⟩

end

/-! ### Samples -/

section
attribute [local instance] Categories.asciiOnly Sample.unicode Sample.decOps

theorem Untitled.unset {o : Options} (h : o.title = none) : NotSet .title o := by
  cases o
  dsimp only at h
  subst h
  unfold NotSet butFor
  simp only [reduceCtorEq, Unset.leaving_no not_false, Unset.others_nothing, Unset.leaving_none]

/-- Two directives, without a title: with a title between them there are the same two directives, and the title.  The hypotheses of
`C71_option` are met. -/
example : ∃ r r', parseTexts logos Included.env (Ordered.alone (Worded.tight ++ Ordered.shut)) = .ok r' ∧ r'.directives.length = 2 ∧
    parseTexts logos Included.env (Ordered.alone (Worded.tight ++ Untitled.titled ++ Ordered.shut)) = .ok r ∧
    SameButSettings (· = .title) r r' ∧ ∃ at', Holds r.options at' (.title (str "x y")) := by
  obtain ⟨r', hr', hd⟩ := Ordered.key (x := parseTexts logos Included.env (Ordered.alone (Worded.tight ++ Ordered.shut)))
    (f := fun r => r.directives.length == 2 && r.options.title == none) (by decide +kernel)
  simp only [Bool.and_eq_true, beq_iff_eq] at hd
  obtain ⟨r, hr, h1, h2⟩ := C71_option (env := Included.env) (before := Worded.tight) (line := Untitled.titled) (after := Ordered.shut)
    (name := str "title") (value := str "x y") (v := .title (str "x y")) (k := .title) Included.files_wf Laid.lexedBy Included.sameEnv
    (by intro t ht
        simp only [List.mem_cons, List.not_mem_nil, or_false] at ht
        rcases ht with rfl | rfl | rfl
        · exact Worded.tight_passage
        · exact Untitled.titled_passage
        · exact Ordered.shut_passage) (by decide +kernel) (.title _) rfl
    (Ordered.alone_eq (by decide +kernel)) (Ordered.alone_eq (by decide +kernel)) rfl hr'
    (Untitled.unset hd.2)
  exact ⟨r, r', hr', hd.1, hr, h1, h2⟩

/-- Two directives, without a plugin: with one between them there are the same two directives, and one plugin.  The hypotheses of
`C71_plugin` are met. -/
example : ∃ r r', parseTexts logos Included.env (Ordered.alone (Worded.tight ++ Ordered.shut)) = .ok r' ∧ r'.directives.length = 2 ∧
    parseTexts logos Included.env (Ordered.alone (Worded.tight ++ Worded.pushed ++ Ordered.shut)) = .ok r ∧ SameButPlugin (str "x y") none r r' := by
  obtain ⟨r', hr', hd⟩ := Ordered.key (x := parseTexts logos Included.env (Ordered.alone (Worded.tight ++ Ordered.shut)))
    (f := fun r => r.directives.length == 2) (by decide +kernel)
  simp only [beq_iff_eq] at hd
  obtain ⟨r, hr, hf⟩ := C71_plugin (env := Included.env) (before := Worded.tight) (line := Worded.pushed) (after := Ordered.shut)
    (name := str "x y") (config := none) Included.files_wf Laid.lexedBy Included.sameEnv
    (by intro t ht
        simp only [List.mem_cons, List.not_mem_nil, or_false] at ht
        rcases ht with rfl | rfl | rfl
        · exact Worded.tight_passage
        · exact Worded.pushed_passage
        · exact Ordered.shut_passage) (by decide +kernel)
    (Ordered.same_files (fun t => .inl rfl) Included.files) (.inr ⟨rfl, rfl⟩) (Ordered.alone_eq (by decide +kernel)) (Ordered.alone_eq (by decide +kernel)) rfl hr'
  exact ⟨r, r', hr', hd, hr, hf⟩

end

end Lima.Props
