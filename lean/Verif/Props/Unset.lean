import Verif.Lemmas.UnsetRun
import Verif.Props.Revised
import Verif.Props.Getters

/-!
# C68: an option, or a plugin, has no effect on anything else
-/

set_option linter.unusedSectionVars false

namespace Lima.Unset
open Lima Spec Grammar Props InPlaceParse Revise Surround

/-- An option which is left out. -/
def settings (Q : Setting → Prop) : Effect where
  R o ps o' ps' := ps' = ps ∧ ∃ S : Setting → Prop, (∀ k, S k → Q k) ∧ (∀ k, S k → keptSource o k ≠ none) ∧ o' = butFor S o
  drop p := ∃ b k, p = .option b ∧ settingOf b.variant = some k ∧ Q k
  start o := ⟨rfl, fun _ => False, fun _ h => h.elim, fun _ h => h.elim, (butFor_none o).symm⟩
  drops := by
    rintro _ ⟨b, _, rfl, _⟩
    exact .inl ⟨b, rfl⟩
  option := by
    rintro o ps _ _ b ⟨rfl, S, h1, h2, rfl⟩
    cases hs : settingOf b.variant with
    | none =>
      right
      rw [other hs, other hs]
      exact ⟨rfl, rfl, rfl, S, h1, h2, rfl⟩
    | some k =>
      by_cases hk : keptSource o k = none
      · right
        have hS : ¬ S k := fun h => h2 k h hk
        refine ⟨once hs hk, once hs (by rw [kept_butFor hS]; exact hk), rfl, S, h1, fun j hj => kept_or _ _ _ (h2 j hj), butFor_set hs hk hS⟩
      · exact .inl (twice hs hk)
  plugin := by
    rintro o ps _ _ q ⟨rfl, h⟩
    exact ⟨rfl, h⟩
  dropOption := by
    rintro o ps _ _ b ⟨b', k, hb, hs, hQ⟩ ⟨rfl, S, h1, h2, rfl⟩
    cases hb
    by_cases hk : keptSource o k = none
    · refine .inr ⟨once hs hk, rfl, fun x => S x ∨ x = k, ?_, ?_, (butFor_drop hs hk).symm⟩
      · rintro j (hj | rfl)
        · exact h1 j hj
        · exact hQ
      · rintro j (hj | rfl)
        · exact kept_or _ _ _ (h2 j hj)
        · exact kept_now _ _ _ hs
    · exact .inl (twice hs hk)
  dropPlugin := by
    rintro o ps _ _ q ⟨_, _, h, _⟩ _
    cases h

theorem gone_refl {name : Str} {config : Option Str} : ∀ ps : List Plugin, PluginGone name config ps ps
  | [] => .nil
  | p :: ps => .stays rfl (gone_refl ps)

theorem gone_append {name : Str} {config : Option Str} {a a' b b' : List Plugin} (h : PluginGone name config a a') (h' : PluginGone name config b b') :
    PluginGone name config (a ++ b) (a' ++ b') := by
  induction h with
  | nil => exact h'
  | stays h1 _ ih => exact .stays h1 ih
  | goes h1 h2 _ ih => exact .goes h1 h2 ih

theorem gone_same {name : Str} {config : Option Str} {a b c d : List Plugin} (h1 : List.Forall₂ SameButPlaces a b) (h2 : PluginGone name config b c)
    (h3 : List.Forall₂ SameButPlaces c d) : PluginGone name config a d := by
  induction h2 generalizing a d with
  | nil => cases h1; cases h3; exact .nil
  | stays h _ ih =>
    cases h1 with
    | cons k1 k2 =>
      cases h3 with
      | cons k3 k4 => exact .stays ((k1.trans h).trans k3) (ih k2 k4)
  | @goes p ps ps' e1 e2 _ ih =>
    cases h1 with
    | @cons q _ qs _ k1 k2 =>
      unfold SameButPlaces at k1
      have m1 : q.moduleName.item = p.moduleName.item := by
        have := congrArg (fun x : Plugin => x.moduleName.item) k1
        exact this
      have m2 : q.config.map (·.item) = p.config.map (·.item) := by
        have := congrArg (fun x : Plugin => x.config.map (·.item)) k1
        change (q.config.map _).map _ = (p.config.map _).map _ at this
        rw [Option.map_map, Option.map_map] at this
        exact this
      exact .goes (m1.trans e1) (m2.trans e2) (ih k2 h3)

/-- A plugin which is left out. -/
def plugins (name : Str) (config : Option Str) : Effect where
  R o ps o' ps' := o' = o ∧ PluginGone name config ps ps'
  drop p := ∃ q, p = .plugin q ∧ q.moduleName.item = name ∧ q.config.map (·.item) = config
  start o := ⟨rfl, .nil⟩
  drops := by
    rintro _ ⟨q, rfl, _⟩
    exact .inr ⟨q, rfl⟩
  option := by
    rintro _ ps o _ b ⟨rfl, h⟩
    by_cases hb : (o.assimilate b).2 = none
    · exact .inr ⟨hb, hb, rfl, h⟩
    · exact .inl hb
  plugin := by
    rintro o ps _ _ q ⟨rfl, h⟩
    exact ⟨rfl, gone_append h (gone_refl _)⟩
  dropOption := by
    rintro o ps _ _ b ⟨_, h, _⟩ _
    cases h
  dropPlugin := by
    rintro o ps _ ps' q ⟨q', hq, h1, h2⟩ ⟨rfl, h⟩
    cases hq
    refine ⟨rfl, ?_⟩
    have := gone_append h (.goes h1 h2 .nil)
    rwa [List.append_nil] at this

section
variable [Unicode] [DecOps]

/-- A file with a pragma only. -/
theorem single {cfg : ParseCfg} {o o' : ParserOptions} {t : Ranged} {P : List Ranged} {ds : List (Spanned Declaration)} {ws : List Report}
    (hf : FileP cfg o (t :: P) ds o' [] ws) (ht : isDate t.tok = false) (rest : ∀ {j r : List Ranged} {p : Pragma} {o' : ParserOptions} {es : List PErr},
      PragmaP cfg o (t :: P) j p o' es → EndOfLine j r → r = []) :
    ∃ p j r o'', PragmaP cfg o (t :: P) j p o'' [] ∧ EndOfLine j r ∧ ∀ d ∈ ds, d.item = .pragma p := by
  generalize hi : t :: P = i at hf
  generalize he : ([] : List PErr) = es at hf
  cases hf with
  | nil => cases hi
  | @cons _ o1 _ run r d ds es es' ws' hd hr =>
    obtain ⟨h1, h2⟩ := List.append_eq_nil_iff.mp he.symm
    rw [← hi] at hd
    cases hd with
    | directive h _ =>
      exfalso
      have hw : ∃ (dt : Date) (j : List Ranged), Word (.date dt) (t :: P) j := by
        cases h with
        | transaction hd _ _ _ _ _ _ _ => exact ⟨_, _, hd.1⟩
        | other hd _ _ _ _ _ _ => exact ⟨_, _, hd.1⟩
        | custom hd _ _ _ _ _ _ => exact ⟨_, _, hd.1⟩
      obtain ⟨dt, j, a, b, e⟩ := hw
      injection e with e1 e2
      rw [e1] at ht
      cases ht
    | pragma k1 k2 k3 =>
      obtain rfl := rest k1 k2
      obtain rfl := (InPlaceParse.FileP.eq hr .nil).1
      rw [h1] at k1
      rw [← hi, ← he]
      refine ⟨_, _, _, _, k1, k2, ?_⟩
      intro d hd
      simp only [List.mem_singleton] at hd
      rw [hd]

variable {decimal : Str → Except LexerError Dec}

theorem ends {t : Token} {x y : Nat} {j r : List Ranged} {P : List Ranged} (hj : (⟨t, x, y⟩ : Ranged) :: P = j) (ht : t = .eol) (hP : P = []) (h : EndOfLine j r) : r = [] := by
  subst hj hP ht
  rcases h with ⟨_, _, h⟩ | ⟨h, _⟩
  · injection h with _ h
    exact h.symm
  · cases h

theorem option_line {name value : Str} (hn : name ∉ readingOptions) : Line (settings (SetBy (okOf decimal) name value)) decimal (optionLine name value) := by
  constructor
  intro P hP id path o o' ds ws hf
  have s1 : o' = o := by
    refine InPlaceParse.FileP.steady hf ?_
    rintro ⟨b, a, n, v, hm, hx⟩
    rw [toks] at hP
    rw [hP] at hm
    have : n = name := by
      match b, hm with
      | [], hm => injection hm with _ hm; injection hm with hm _; injection hm with hm; exact hm.symm
      | [_], hm => injection hm with _ hm; injection hm with hm _; cases hm
      | [_, _], hm => injection hm with _ hm; injection hm with _ hm; injection hm with hm _; cases hm
      | [_, _, _], hm => injection hm with _ hm; injection hm with _ hm; injection hm with _ hm; injection hm with hm _; cases hm
      | _ :: _ :: _ :: _ :: b, hm =>
        have := congrArg List.length hm
        simp [optionLine] at this
    subst this
    apply hn
    unfold readingOptions
    simp only [List.mem_cons, List.not_mem_nil, or_false]
    exact hx
  refine ⟨s1, ?_⟩
  obtain ⟨a, P, rfl, ha, hP⟩ := List.map_eq_cons_iff.mp hP
  obtain ⟨b, P, rfl, hb, hP⟩ := List.map_eq_cons_iff.mp hP
  obtain ⟨c, P, rfl, hc, hP⟩ := List.map_eq_cons_iff.mp hP
  obtain ⟨e, P, rfl, he, hP⟩ := List.map_eq_cons_iff.mp hP
  rw [List.map_eq_nil_iff] at hP
  subst hP
  obtain ⟨ka, a1, a2⟩ := a
  obtain ⟨kb, b1, b2⟩ := b
  obtain ⟨kc, c1, c2⟩ := c
  obtain ⟨ke, e1, e2⟩ := e
  dsimp only at ha hb hc he
  subst ha hb hc he
  have inv : ∀ {j : List Ranged} {p : Pragma} {o' : ParserOptions} {es : List PErr},
      PragmaP (cfgAt decimal id path) o [⟨.option, a1, a2⟩, ⟨.stringLiteral name, b1, b2⟩, ⟨.stringLiteral value, c1, c2⟩, ⟨.eol, e1, e2⟩] j p o' es →
      j = [⟨.eol, e1, e2⟩] ∧ ∃ opt n v, p = .option opt ∧ n.item = name ∧ v.item = value ∧ OptionP (cfgAt decimal id path) o n v opt o' es := by
    intro j p o' es h
    cases h with
    | pushtag h => obtain ⟨⟨j, ⟨_, _, h⟩, _⟩, _⟩ := h; cases h
    | poptag h => obtain ⟨⟨j, ⟨_, _, h⟩, _⟩, _⟩ := h; cases h
    | popmeta h => obtain ⟨⟨j, ⟨_, _, h⟩, _⟩, _⟩ := h; cases h
    | pushmeta h => obtain ⟨_, _, h⟩ := h; cases h
    | «include» h => obtain ⟨_, _, h⟩ := h; cases h
    | plugin h => obtain ⟨_, _, h⟩ := h; cases h
    | option k1 k2 k3 k4 =>
      obtain ⟨x', y', hi⟩ := k1
      obtain ⟨a', b', rfl, hs1⟩ := at_word k2.1 k2.2
      obtain ⟨c', d', rfl, hs2⟩ := at_word k3.1 k3.2
      injection hi with hi1 hi
      injection hi with hi2 hi
      injection hi with hi3 hi
      injection hi2 with hi21 hi22 hi23
      injection hi3 with hi31 hi32 hi33
      injection hi21 with hi21
      injection hi31 with hi31
      exact ⟨hi.symm, _, _, _, rfl, hi21.symm, hi31.symm, k4⟩
  obtain ⟨p, j, r, o'', h1, hl, h2⟩ := single hf rfl (fun h hl => ends (inv h).1.symm rfl rfl hl)
  obtain ⟨_, opt, n, v, rfl, h3, h4, h5⟩ := inv h1
  intro d hd
  refine ⟨_, h2 d hd, ?_⟩
  generalize hz : ([] : List PErr) = es at h5
  cases h5 with
  | unknown => cases hz
  | badValue => cases hz
  | refused => cases hz
  | accepted k5 k6 =>
    obtain ⟨w, k7, rfl⟩ := (map_ok _ _ _).mp k5
    rw [h3, h4] at k7
    have k8 := (C46_decodes _ _ _ _ _).mp k7
    have hw : ∃ k, settingOf w = some k ∧ (o.assimilate ⟨⟨n.span, v.span⟩, w⟩).1 = .ok ⟨⟨n.span, v.span⟩, w⟩ := by
      cases k8 <;> first | exact ⟨_, rfl, rfl⟩ | exact absurd (by decide +kernel) hn
    obtain ⟨k, hk, hw⟩ := hw
    rw [k6] at hw
    cases hw
    exact ⟨_, k, rfl, hk, _, _, k8, hk⟩

theorem plugin_line {name : Str} {config : Option Str} : Line (plugins name config) decimal (pluginLine name config) := by
  constructor
  intro P hP id path o o' ds ws hf
  have s1 : o' = o := by
    refine InPlaceParse.FileP.steady hf ?_
    rintro ⟨b, a, n, v, hm, hx⟩
    have : Token.option ∈ toks P := by rw [toks, hm]; simp
    rw [hP] at this
    cases config <;> simp [pluginLine] at this
  refine ⟨s1, ?_⟩
  cases config with
  | none =>
    obtain ⟨a, P, rfl, ha, hP⟩ := List.map_eq_cons_iff.mp hP
    obtain ⟨b, P, rfl, hb, hP⟩ := List.map_eq_cons_iff.mp hP
    obtain ⟨e, P, rfl, he, hP⟩ := List.map_eq_cons_iff.mp hP
    rw [List.map_eq_nil_iff] at hP
    subst hP
    obtain ⟨ka, a1, a2⟩ := a
    obtain ⟨kb, b1, b2⟩ := b
    obtain ⟨ke, e1, e2⟩ := e
    dsimp only at ha hb he
    subst ha hb he
    have inv : ∀ {j : List Ranged} {p : Pragma} {o' : ParserOptions} {es : List PErr},
        PragmaP (cfgAt decimal id path) o [⟨.plugin, a1, a2⟩, ⟨.stringLiteral name, b1, b2⟩, ⟨.eol, e1, e2⟩] j p o' es →
        j = [⟨.eol, e1, e2⟩] ∧ (plugins name none).drop p := by
      intro j p o' es h
      cases h with
      | pushtag h => obtain ⟨⟨j, ⟨_, _, h⟩, _⟩, _⟩ := h; cases h
      | poptag h => obtain ⟨⟨j, ⟨_, _, h⟩, _⟩, _⟩ := h; cases h
      | popmeta h => obtain ⟨⟨j, ⟨_, _, h⟩, _⟩, _⟩ := h; cases h
      | pushmeta h => obtain ⟨_, _, h⟩ := h; cases h
      | «include» h => obtain ⟨_, _, h⟩ := h; cases h
      | option h => obtain ⟨_, _, h⟩ := h; cases h
      | @plugin _ _ _ _ c k1 k2 k3 =>
        obtain ⟨x', y', hi⟩ := k1
        obtain ⟨a', b', rfl, hs1⟩ := at_word k2.1 k2.2
        injection hi with hi1 hi
        injection hi with hi2 hi
        injection hi2 with hi21 hi22 hi23
        injection hi21 with hi21
        subst hi
        cases c with
        | none =>
          obtain rfl : j = _ := k3
          exact ⟨rfl, _, rfl, hi21.symm, rfl⟩
        | some c =>
          exfalso
          obtain ⟨⟨_, _, k3⟩, _⟩ := k3
          cases k3
    obtain ⟨p, j, r, o'', h1, hl, h2⟩ := single hf rfl (fun h hl => ends (inv h).1.symm rfl rfl hl)
    exact fun d hd => ⟨_, h2 d hd, (inv h1).2⟩
  | some config =>
    obtain ⟨a, P, rfl, ha, hP⟩ := List.map_eq_cons_iff.mp hP
    obtain ⟨b, P, rfl, hb, hP⟩ := List.map_eq_cons_iff.mp hP
    obtain ⟨c, P, rfl, hc, hP⟩ := List.map_eq_cons_iff.mp hP
    obtain ⟨e, P, rfl, he, hP⟩ := List.map_eq_cons_iff.mp hP
    rw [List.map_eq_nil_iff] at hP
    subst hP
    obtain ⟨ka, a1, a2⟩ := a
    obtain ⟨kb, b1, b2⟩ := b
    obtain ⟨kc, c1, c2⟩ := c
    obtain ⟨ke, e1, e2⟩ := e
    dsimp only at ha hb hc he
    subst ha hb hc he
    have inv : ∀ {j r : List Ranged} {p : Pragma} {o' : ParserOptions} {es : List PErr},
        PragmaP (cfgAt decimal id path) o [⟨.plugin, a1, a2⟩, ⟨.stringLiteral name, b1, b2⟩, ⟨.stringLiteral config, c1, c2⟩, ⟨.eol, e1, e2⟩] j p o' es →
        EndOfLine j r → j = [⟨.eol, e1, e2⟩] ∧ (plugins name (some config)).drop p := by
      intro j r p o' es h hl
      cases h with
      | pushtag h => obtain ⟨⟨j, ⟨_, _, h⟩, _⟩, _⟩ := h; cases h
      | poptag h => obtain ⟨⟨j, ⟨_, _, h⟩, _⟩, _⟩ := h; cases h
      | popmeta h => obtain ⟨⟨j, ⟨_, _, h⟩, _⟩, _⟩ := h; cases h
      | pushmeta h => obtain ⟨_, _, h⟩ := h; cases h
      | «include» h => obtain ⟨_, _, h⟩ := h; cases h
      | option h => obtain ⟨_, _, h⟩ := h; cases h
      | @plugin _ _ _ _ c k1 k2 k3 =>
        obtain ⟨x', y', hi⟩ := k1
        obtain ⟨a', b', rfl, hs1⟩ := at_word k2.1 k2.2
        injection hi with hi1 hi
        injection hi with hi2 hi
        injection hi2 with hi21 hi22 hi23
        injection hi21 with hi21
        subst hi
        cases c with
        | none =>
          exfalso
          obtain rfl : j = _ := k3
          rcases hl with ⟨_, _, hl⟩ | ⟨hl, _⟩ <;> cases hl
        | some c =>
          obtain ⟨c', d', k4, k5⟩ := at_word k3.1 k3.2
          injection k4 with k4 k6
          injection k4 with k4
          injection k4 with k4
          exact ⟨k6.symm, _, rfl, hi21.symm, congrArg some k4.symm⟩
    obtain ⟨p, j, r, o'', h1, hl, h2⟩ := single hf rfl (fun h hl => ends (inv h hl).1.symm rfl rfl hl)
    exact fun d hd => ⟨_, h2 d hd, (inv h1 hl).2⟩

end

end Lima.Unset

namespace Lima.Props
open Lima Spec Grammar InPlaceParse Revise Surround

section
variable [Categories] [Unicode] [DecOps] {l : Logos} {env : ParseEnv} {fs fs' : FileSystem} {root : Option Path} {text text' : Str} {s s' : Sources}
  {before line after : Str}

/-- C68: if a run succeeds, then so does a run on the files without a line which is an option, unless the option is among those
which affect how what follows is read; it yields the same directives, in the same order, the same plugins, and the same options
but for what that line may set, which is either as before or not set at all. -/
theorem C68_option {name value : Str} (hwf : GlobsWF fs) (hlex : LexedBy l env.tokens) (hx : SameEnv env env)
    (hp : ∀ t ∈ [before, line, after], Passage l t) (hl : (env.tokens line).map (·.tok) = optionLine name value) (hn : name ∉ readingOptions)
    (hfs : FilesLike (LeftOut before line after) fs fs') (ht : LeftOut before line after text text')
    (hs : ReadInSomeOrder fs env.tokens root text s) (hs' : ReadInSomeOrder fs' env.tokens root text' s') (hv : SameVisits s s')
    {r : ParseSuccess} (hr : parseTexts l env s = .ok r) :
    ∃ r', parseTexts l env s' = .ok r' ∧ SameButSettings (SetBy (okOf env.decimal) name value) r r' := by
  obtain ⟨r', h1, h2, h3, o, ps, o', ps', h4, h5, ⟨rfl, S, h6, _, rfl⟩, h7, h8⟩ :=
    Unset.left_run hwf hlex hx hp hl (by simp [optionLine]) (Unset.option_line hn) hfs ht hs hs' hv hr
  exact ⟨r', h1, h2, ⟨S, h6, (Unset.butFor_same h4).trans h7⟩, h5.trans h8, h3⟩

/-- C68: if a run succeeds, then so does a run on the files without a line which is a plugin; it yields the same directives, in
the same order, the same options, and the same plugins, in the same order, but for that one. -/
theorem C68_plugin {name : Str} {config : Option Str} (hwf : GlobsWF fs) (hlex : LexedBy l env.tokens) (hx : SameEnv env env)
    (hp : ∀ t ∈ [before, line, after], Passage l t) (hl : (env.tokens line).map (·.tok) = pluginLine name config)
    (hfs : FilesLike (LeftOut before line after) fs fs') (ht : LeftOut before line after text text')
    (hs : ReadInSomeOrder fs env.tokens root text s) (hs' : ReadInSomeOrder fs' env.tokens root text' s') (hv : SameVisits s s')
    {r : ParseSuccess} (hr : parseTexts l env s = .ok r) :
    ∃ r', parseTexts l env s' = .ok r' ∧ SameButPlugin name config r r' := by
  obtain ⟨r', h1, h2, h3, o, ps, o', ps', h4, h5, ⟨rfl, h6⟩, h7, h8⟩ :=
    Unset.left_run hwf hlex hx hp hl (by cases config <;> simp [pluginLine]) Unset.plugin_line hfs ht hs hs' hv hr
  exact ⟨r', h1, h2, h4.trans h7, Unset.gone_same (forall₂_same_places h5) h6 (forall₂_same_places h8), h3⟩

end

/-! ### Samples -/

section
attribute [local instance] Categories.asciiOnly Sample.unicode Sample.decOps

namespace Untitled
open Worded

local instance (s : String) (c : Char) : Decidable (In s c) := inferInstanceAs (Decidable (c ∈ s.toList))

theorem title : WordFor logos ('"' :: str "title\"") (.stringLiteral (str "title")) := by
  refine ⟨.stringLiteral, ?_, fun t h => ?_, ?_⟩
  · exact Lexeme.string (body := str "title") (.plain (by decide) (by decide) (.plain (by decide) (by decide) (.plain (by decide) (by decide)
      (.plain (by decide) (by decide) (.plain (by decide) (by decide) .nil)))))
  · have : ∀ p ∈ literals, p.2 ≠ str "\"title\"" := by decide +kernel
    exact absurd rfl (this _ (fixed_iff.mp h))
  · exact Denotes.string (body := str "title") (.plain (by decide) (.plain (by decide) (.plain (by decide) (.plain (by decide)
      (.plain (by decide) .nil)))))

/-- The option of the title. -/
def titled : Str := 'o' :: str "ption" ++ ([' '] ++ ('"' :: str "title\"" ++ ([' '] ++ ('"' :: str "x y\"" ++ ['\n']))))

example : titled = str "option \"title\" \"x y\"\n" := by decide +kernel

theorem titled_passage : Passage logos titled := by
  refine ⟨⟨[.option, .stringLiteral (str "title"), .stringLiteral (str "x y"), .eol], ?_, .inr ⟨[_, _, _], rfl⟩, [], _, rfl, by simp, fun t ht => ?_⟩,
    notBlank (by decide), notIgnored (by decide)⟩
  · refine apart_spaced (w := 'o' :: str "ption") (fixed (t := .option) (by decide +kernel) (by decide +kernel)) rfl ⟨_, _, rfl, .inl rfl⟩ ?_
    refine apart_gap (b := [' ']) ⟨by simp, by simp⟩ (notBlank (by decide)) ?_
    refine apart_spaced title rfl ⟨_, _, rfl, .inl rfl⟩ ?_
    refine apart_gap (b := [' ']) ⟨by simp, by simp⟩ (notBlank (by decide)) ?_
    refine apart_spaced string rfl ⟨_, _, rfl, by decide⟩ ?_
    exact apart_line (e := ['\n']) plainEnd (by rintro _ _ ⟨⟩) (by rintro _ _ ⟨⟩) .done
  · cases ht
    exact ⟨notLine rfl, by simp⟩

end Untitled

/-- A directive, the title, and another directive: without the title there are the same two directives, and no title.  The
hypotheses of `C68_option` are met. -/
example : ∃ r r', parseTexts logos Included.env (Ordered.alone (Worded.tight ++ Untitled.titled ++ Ordered.shut)) = .ok r ∧
    r.directives.length = 2 ∧ (Getters.title r.options).map (·.item) = some (str "x y") ∧
    parseTexts logos Included.env (Ordered.alone (Worded.tight ++ Ordered.shut)) = .ok r' ∧ (Getters.title r'.options).map (·.item) = none ∧
    SameButSettings (SetBy (okOf Included.env.decimal) (str "title") (str "x y")) r r' := by
  obtain ⟨r, hr, hd⟩ := Ordered.key (x := parseTexts logos Included.env (Ordered.alone (Worded.tight ++ Untitled.titled ++ Ordered.shut)))
    (f := fun r => r.directives.length == 2 && (Getters.title r.options).map (·.item) == some (str "x y")) (by decide +kernel)
  obtain ⟨r2, hr2, hd2⟩ := Ordered.key (x := parseTexts logos Included.env (Ordered.alone (Worded.tight ++ Ordered.shut)))
    (f := fun r => (Getters.title r.options).map (·.item) == none) (by decide +kernel)
  obtain ⟨r', hr', hf⟩ := C68_option (env := Included.env) (before := Worded.tight) (line := Untitled.titled) (after := Ordered.shut)
    (name := str "title") (value := str "x y") Included.files_wf Laid.lexedBy Included.sameEnv
    (by intro t ht
        simp only [List.mem_cons, List.not_mem_nil, or_false] at ht
        rcases ht with rfl | rfl | rfl
        · exact Worded.tight_passage
        · exact Untitled.titled_passage
        · exact Ordered.shut_passage) (by decide +kernel) (by decide +kernel)
    (Ordered.same_files (fun t => .inl rfl) Included.files) (.inr ⟨rfl, rfl⟩) (Ordered.alone_eq (by decide +kernel)) (Ordered.alone_eq (by decide +kernel)) rfl hr
  rw [hr'] at hr2
  cases hr2
  simp only [Bool.and_eq_true, beq_iff_eq] at hd hd2
  exact ⟨r, _, hr, hd.1, hd.2, hr', hd2, hf⟩

/-- What that line sets is the title. -/
example : SetBy (okOf Included.env.decimal) (str "title") (str "x y") .title := ⟨none, _, .title _, rfl⟩

/-- A directive, a plugin, and another directive: without the plugin there is none.  The hypotheses of `C68_plugin` are met. -/
example : ∃ r r', parseTexts logos Included.env (Ordered.alone (Worded.tight ++ Worded.pushed ++ Ordered.shut)) = .ok r ∧
    r.directives.length = 2 ∧ r.plugins.length = 1 ∧
    parseTexts logos Included.env (Ordered.alone (Worded.tight ++ Ordered.shut)) = .ok r' ∧ r'.plugins.length = 0 ∧
    SameButPlugin (str "x y") none r r' := by
  obtain ⟨r, hr, hd⟩ := Ordered.key (x := parseTexts logos Included.env (Ordered.alone (Worded.tight ++ Worded.pushed ++ Ordered.shut)))
    (f := fun r => r.directives.length == 2 && r.plugins.length == 1) (by decide +kernel)
  obtain ⟨r2, hr2, hd2⟩ := Ordered.key (x := parseTexts logos Included.env (Ordered.alone (Worded.tight ++ Ordered.shut)))
    (f := fun r => r.plugins.length == 0) (by decide +kernel)
  obtain ⟨r', hr', hf⟩ := C68_plugin (env := Included.env) (before := Worded.tight) (line := Worded.pushed) (after := Ordered.shut)
    (name := str "x y") (config := none) Included.files_wf Laid.lexedBy Included.sameEnv
    (by intro t ht
        simp only [List.mem_cons, List.not_mem_nil, or_false] at ht
        rcases ht with rfl | rfl | rfl
        · exact Worded.tight_passage
        · exact Worded.pushed_passage
        · exact Ordered.shut_passage) (by decide +kernel)
    (Ordered.same_files (fun t => .inl rfl) Included.files) (.inr ⟨rfl, rfl⟩) (Ordered.alone_eq (by decide +kernel)) (Ordered.alone_eq (by decide +kernel)) rfl hr
  rw [hr'] at hr2
  cases hr2
  simp only [Bool.and_eq_true, beq_iff_eq] at hd hd2
  exact ⟨r, _, hr, hd.1, hd.2, hr', hd2, hf⟩

end

end Lima.Props
