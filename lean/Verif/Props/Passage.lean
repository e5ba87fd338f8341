import Verif.Props.Text
import Verif.Lemmas.Passage
import Verif.Lemmas.CutFile

/-!
# C59: passages of a file may be parsed one after the other

A file made of two passages, each of whole lines and beginning with an unindented line, is the two parsed in turn.
-/

set_option linter.unusedSectionVars false

namespace Lima.Props
open Lima.Spec Grammar

/-! ### The tokens -/

section
variable [Categories]

/-- C59: the tokens of two passages one after the other are those of the one and then those of the other. -/
theorem C59_tokens {l : Logos} {s s' : Str} (h : Passage l s) (h' : Passage l s') :
    ∃ a b c, lexText l s = some a ∧ lexText l s' = some b ∧ lexText l (s ++ s') = some c ∧ SameTokens c (a ++ b) := by
  obtain ⟨a, h1, _⟩ := passage_lex h
  obtain ⟨b, h2, _⟩ := passage_lex h'
  obtain ⟨c, h3, h4⟩ := passage_tokens h h' h1 h2
  exact ⟨a, b, c, h1, h2, h3, h4⟩

/-- C59: two passages one after the other are a passage. -/
theorem C59_passage {l : Logos} {s s' : Str} (h : Passage l s) (h' : Passage l s') : Passage l (s ++ s') :=
  Passage.append h h'

end

/-! ### The declarations -/

section
variable [Categories] [Unicode] [DecOps]

/-- With locations which do not depend on what comes behind, the two parts are exactly the whole. -/
theorem file_cut {cfg : ParseCfg} (hc : ∀ y z, cfg.emptySpan y = cfg.emptySpan z) {a b : List Ranged}
    (ha : a = [] ∨ ∃ z e, a = z ++ [e] ∧ e.tok = .eol) (hb : ∀ t ∈ b.head?, t.tok ≠ .indent) {o : ParserOptions} {ws : List Report}
    {res : FileResult} (h : parseFile cfg (a ++ b) o ws = some res) (he : .syntax ∉ res.errors) :
    ∃ r1 r2, parseFile cfg a o ws = some r1 ∧ parseFile cfg b r1.opts r1.warns = some r2 ∧ .syntax ∉ r1.errors ∧ .syntax ∉ r2.errors ∧
      res = inTurn r1 r2 := by
  obtain ⟨ds, ws', hr, hf⟩ := parseFile_sound h he
  obtain ⟨ds1, ds2, o', es1, es2, ws1, ws2, h1, h2, h3, h4, h5⟩ := (Part.of_file hf).cut hb rfl ha
  have h6 := Part.swap (b' := []) ha (cfg' := cfg) rfl rfl rfl (fun y => hc _ _) h1
  rw [List.append_nil] at h6
  have e1 := parseFile_complete ws h6.file
  have e2 := parseFile_complete (ws ++ ws1) h2.file
  rw [h4] at he
  refine ⟨_, _, e1, e2, fun h => he (List.mem_append_left _ h), fun h => he (List.mem_append_right _ h), ?_⟩
  rw [hr]
  simp [inTurn, h3, h4, h5]

theorem file_join {cfg : ParseCfg} (hc : ∀ y z, cfg.emptySpan y = cfg.emptySpan z) {a b : List Ranged}
    (ha : a = [] ∨ ∃ z e, a = z ++ [e] ∧ e.tok = .eol) {o : ParserOptions} {ws : List Report}
    {r1 r2 : FileResult} (h1 : parseFile cfg a o ws = some r1) (h2 : parseFile cfg b r1.opts r1.warns = some r2)
    (he1 : .syntax ∉ r1.errors) (he2 : .syntax ∉ r2.errors) :
    parseFile cfg (a ++ b) o ws = some (inTurn r1 r2) := by
  obtain ⟨ds1, ws1, hr1, hf1⟩ := parseFile_sound h1 he1
  obtain ⟨ds2, ws2, hr2, hf2⟩ := parseFile_sound h2 he2
  have h6 := Part.swap (a := a) (b := []) (b' := b) ha (cfg' := cfg) rfl rfl rfl (fun y => hc _ _)
    (by rw [List.append_nil]; exact Part.of_file hf1)
  have e := parseFile_complete ws (h6.file_of hf2)
  rw [e]
  rw [hr1, hr2]
  simp only [inTurn]
  have : r1.warns = ws ++ ws1 := by rw [hr1]
  simp [this]

theorem syntax_same {es es' : List PErr} (h : SameButPlaces es es') (he : .syntax ∉ es) : .syntax ∉ es' := by
  have key : ∀ (f : Span → Span) (es : List PErr), .syntax ∈ (move f es : List PErr) ↔ .syntax ∈ es := by
    intro f es
    change .syntax ∈ es.map (move f) ↔ _
    constructor
    · intro h
      obtain ⟨x, h1, h2⟩ := List.mem_map.mp h
      cases x with
      | «syntax» => exact h1
      | _ => cases h2
    · intro h
      exact List.mem_map.mpr ⟨_, h, rfl⟩
  intro h'
  rw [SameButPlaces] at h
  rw [← key (fun _ => ⟨0, 0, 0⟩), h, key] at he
  exact he h'

theorem same_some {α : Type} [Places α] {x : α} {y : Option α} (h : SameButPlaces (some x) y) :
    ∃ y', y = some y' ∧ SameButPlaces x y' := by
  cases y with
  | none => cases h
  | some y => exact ⟨y, rfl, Option.some.inj h⟩

theorem same_errors {r r' : FileResult} (h : SameButPlaces r r') : SameButPlaces r.errors r'.errors := congrArg FileResult.errors h
theorem same_opts {r r' : FileResult} (h : SameButPlaces r r') : SameButPlaces r.opts r'.opts := congrArg FileResult.opts h
theorem same_warns {r r' : FileResult} (h : SameButPlaces r r') : SameButPlaces r.warns r'.warns := congrArg FileResult.warns h
theorem same_declarations {r r' : FileResult} (h : SameButPlaces r r') : SameButPlaces r.declarations r'.declarations :=
  congrArg FileResult.declarations h

theorem move_append {α : Type} [Places α] (f : Span → Span) (a b : List α) :
    (move f (a ++ b) : List α) = move f a ++ move f b := List.map_append

theorem same_inTurn {r1 r2 r1' r2' : FileResult} (h1 : SameButPlaces r1 r1') (h2 : SameButPlaces r2 r2') :
    SameButPlaces (inTurn r1 r2) (inTurn r1' r2') := by
  have key : ∀ (f : Span → Span) (r1 r2 : FileResult), move f (inTurn r1 r2) = inTurn (move f r1) (move f r2) := by
    rintro f ⟨d1, e1, o1, w1⟩ ⟨d2, e2, o2, w2⟩
    refine FileResult.mk.injEq .. ▸ ⟨?_, List.map_append, rfl, rfl⟩
    cases d1 with
    | none => rfl
    | some d1 =>
      cases d2 with
      | none => rfl
      | some d2 => exact congrArg some List.map_append
  unfold SameButPlaces at *
  rw [key, key, h1, h2]

theorem same_trans {α : Type} [Places α] {x y z : α} (h : SameButPlaces x y) (h' : SameButPlaces y z) : SameButPlaces x z :=
  Eq.trans h h'
theorem same_symm {α : Type} [Places α] {x y : α} (h : SameButPlaces x y) : SameButPlaces y x := Eq.symm h
theorem same_refl {α : Type} [Places α] (x : α) : SameButPlaces x x := rfl

theorem tokens_append {a b a' b' : List Ranged} (h : SameTokens a a') (h' : SameTokens b b') : SameTokens (a ++ b) (a' ++ b') := by
  unfold SameTokens at *
  rw [List.map_append, List.map_append, h, h']

/-- C59: a file whose tokens are those of whole lines and then those of further lines, the first of them not indented, is parsed
as these lines are in turn: it has no syntax error if and only if these have none, and then it has the same declarations, errors,
warnings and options, but for locations. -/
theorem C59_file {cfg cfgA cfgB : ParseCfg} {toks a b : List Ranged} {o : ParserOptions} {ws : List Report}
    (ht : SameTokens toks (a ++ b)) (ha : a = [] ∨ ∃ z e, a = z ++ [e] ∧ e.tok = .eol) (hb : ∀ t ∈ b.head?, t.tok ≠ .indent)
    (hpa : cfgA.path = cfg.path) (hda : cfgA.decimal = cfg.decimal) (hpb : cfgB.path = cfg.path)
    (hdb : cfgB.decimal = cfg.decimal) :
    (∀ res, parseFile cfg toks o ws = some res → .syntax ∉ res.errors →
      ∃ r1 r2, parseFile cfgA a o ws = some r1 ∧ parseFile cfgB b r1.opts r1.warns = some r2 ∧
        .syntax ∉ r1.errors ∧ .syntax ∉ r2.errors ∧ SameButPlaces res (inTurn r1 r2)) ∧
    ∀ r1 r2, parseFile cfgA a o ws = some r1 → parseFile cfgB b r1.opts r1.warns = some r2 →
      .syntax ∉ r1.errors → .syntax ∉ r2.errors →
      ∃ res, parseFile cfg toks o ws = some res ∧ .syntax ∉ res.errors ∧ SameButPlaces res (inTurn r1 r2) := by
  let c0 : ParseCfg := { cfg with emptySpan := fun _ => ⟨0, 0, 0⟩ }
  have hc0 : ∀ y z, c0.emptySpan y = c0.emptySpan z := fun _ _ => rfl
  constructor
  · intro res h he
    have h1 := Layout.parseFile_same (cfg := cfg) (cfg' := c0) ht rfl rfl (same_refl o) (same_refl ws)
    rw [h] at h1
    obtain ⟨res0, h2, h3⟩ := same_some h1
    obtain ⟨r1, r2, h4, h5, h6, h7, h8⟩ := file_cut hc0 ha hb h2 (syntax_same (same_errors h3) he)
    have k1 := Layout.parseFile_same (cfg := c0) (cfg' := cfgA) (toks := a) (toks' := a) rfl hpa hda (same_refl o) (same_refl ws)
    rw [h4] at k1
    obtain ⟨r1', k2, k3⟩ := same_some k1
    have k4 := Layout.parseFile_same (cfg := c0) (cfg' := cfgB) (toks := b) (toks' := b) rfl hpb hdb (same_opts k3) (same_warns k3)
    rw [h5] at k4
    obtain ⟨r2', k5, k6⟩ := same_some k4
    refine ⟨r1', r2', k2, k5, syntax_same (same_errors k3) h6, syntax_same (same_errors k6) h7, ?_⟩
    exact same_trans h3 (h8 ▸ same_inTurn k3 k6)
  · intro r1 r2 h1 h2 he1 he2
    have k1 := Layout.parseFile_same (cfg := cfgA) (cfg' := c0) (toks := a) (toks' := a) rfl hpa.symm hda.symm (same_refl o) (same_refl ws)
    rw [h1] at k1
    obtain ⟨r1', k2, k3⟩ := same_some k1
    have k4 := Layout.parseFile_same (cfg := cfgB) (cfg' := c0) (toks := b) (toks' := b) rfl hpb.symm hdb.symm (same_opts k3) (same_warns k3)
    rw [h2] at k4
    obtain ⟨r2', k5, k6⟩ := same_some k4
    have h := file_join hc0 ha k2 k5 (syntax_same (same_errors k3) he1) (syntax_same (same_errors k6) he2)
    have h3 := Layout.parseFile_same (cfg := c0) (cfg' := cfg) (toks := a ++ b) (toks' := toks) (Eq.symm ht) rfl rfl (same_refl o) (same_refl ws)
    rw [h] at h3
    obtain ⟨res, h4, h5⟩ := same_some h3
    refine ⟨res, h4, syntax_same (same_errors h5) ?_, same_trans (same_symm h5) (same_symm (same_inTurn k3 k6))⟩
    intro hm
    rcases List.mem_append.mp hm with hm | hm
    · exact syntax_same (same_errors k3) he1 hm
    · exact syntax_same (same_errors k6) he2 hm

/-- C59: a text made of two passages is parsed as these are in turn. -/
theorem C59_text {l : Logos} {tokens : Str → List Ranged} (hl : LexedBy l tokens) {s s' : Str} (h : Passage l s) (h' : Passage l s')
    {cfg cfgA cfgB : ParseCfg} {o : ParserOptions} {ws : List Report}
    (hpa : cfgA.path = cfg.path) (hda : cfgA.decimal = cfg.decimal) (hpb : cfgB.path = cfg.path)
    (hdb : cfgB.decimal = cfg.decimal) :
    (∀ res, parseFile cfg (tokens (s ++ s')) o ws = some res → .syntax ∉ res.errors →
      ∃ r1 r2, parseFile cfgA (tokens s) o ws = some r1 ∧ parseFile cfgB (tokens s') r1.opts r1.warns = some r2 ∧
        .syntax ∉ r1.errors ∧ .syntax ∉ r2.errors ∧ SameButPlaces res (inTurn r1 r2)) ∧
    ∀ r1 r2, parseFile cfgA (tokens s) o ws = some r1 → parseFile cfgB (tokens s') r1.opts r1.warns = some r2 →
      .syntax ∉ r1.errors → .syntax ∉ r2.errors →
      ∃ res, parseFile cfg (tokens (s ++ s')) o ws = some res ∧ .syntax ∉ res.errors ∧ SameButPlaces res (inTurn r1 r2) := by
  obtain ⟨a, h1, h2⟩ := passage_lex h
  obtain ⟨b, h3, h4⟩ := passage_lex h'
  obtain ⟨c, h5, h6⟩ := passage_tokens h h' h1 h3
  rw [hl _ _ h1, hl _ _ h3, hl _ _ h5]
  exact C59_file h6 h2.ended h4.head hpa hda hpb hdb

end

/-! ### Samples -/

section
attribute [local instance] Categories.asciiOnly Sample.unicode Sample.decOps

namespace Worded

local instance (s : String) (c : Char) : Decidable (In s c) := inferInstanceAs (Decidable (c ∈ s.toList))

theorem apart_spaced {w s : Str} {t : Token} {ts : List Token} (h : WordFor logos w t) (hn : t.isEol = false) (hs : BeginsWithSpace s)
    (hw : Apart logos s ts) : Apart logos (w ++ s) (t :: ts) := .word h (ends_word h (notLine hn) hs) hw

theorem apart_gap {b s : Str} {ts : List Token} (hb : Blanks b) (hn : NotBlank s) (h : Apart logos s ts) : Apart logos (b ++ s) ts :=
  .blanks hb (endsBefore_blanks hb hn) h

theorem apart_line {e s : Str} {ts : List Token} (he : LineEnding e) (hn : NotBlank s) (hi : NotIgnored s) (h : Apart logos s ts) :
    Apart logos (e ++ s) (.eol :: ts) := .word (word_lineEnd he) (endsBefore_line he hn hi) h

theorem apart_lineIndent {e b s : Str} {ts : List Token} (he : LineEnding e) (hb : Blanks b) (hn : NotBlank s)
    (h : Apart logos s ts) : Apart logos (e ++ b ++ s) (.eolThenIndent :: ts) :=
  .word (word_lineEndIndent he hb) (endsBefore_indent he hb hn) h

/-- A directive with metadata is a passage. -/
theorem tight_passage : Passage logos tight := by
  refine ⟨⟨[.date ⟨2024, 1, 2⟩, .open, .account (str "Assets:A"), .eolThenIndent, .key (str "kk"), .colon, .stringLiteral (str "x y"),
    .eol], ?_, .inr ⟨[_, _, _, _, _, _, _], rfl⟩, [], _, rfl, by simp, fun t ht => ?_⟩, notBlank (by decide), notIgnored (by decide)⟩
  · refine apart_spaced date rfl ⟨_, _, rfl, .inl rfl⟩ ?_
    refine apart_gap (b := [' ']) ⟨by simp, by simp⟩ (notBlank (by decide)) ?_
    refine apart_spaced (w := 'o' :: str "pen") (fixed (t := .open) (by decide +kernel) (by decide +kernel)) rfl ⟨_, _, rfl, .inl rfl⟩ ?_
    refine apart_gap (b := [' ']) ⟨by simp, by simp⟩ (notBlank (by decide)) ?_
    refine apart_spaced account rfl ⟨_, _, rfl, by decide⟩ ?_
    refine apart_lineIndent (e := ['\n']) (b := [' ']) plainEnd ⟨by simp, by simp⟩ (notBlank (by decide)) ?_
    refine .word key key_colon ?_
    refine apart_spaced (w := [':']) (fixed (t := .colon) (by decide +kernel) (by decide +kernel)) rfl ⟨_, _, rfl, .inl rfl⟩ ?_
    refine apart_gap (b := [' ']) ⟨by simp, by simp⟩ (notBlank (by decide)) ?_
    refine apart_spaced string rfl ⟨_, _, rfl, by decide⟩ ?_
    exact apart_line (e := ['\n']) plainEnd (by rintro _ _ ⟨⟩) (by rintro _ _ ⟨⟩) .done
  · cases ht
    exact ⟨notLine rfl, by simp⟩

/-- A pragma with a comment at its end, and an empty line before. -/
def pushed : Str := ['\n'] ++ ('p' :: str "lugin" ++ ([' '] ++ ('"' :: str "x y\"" ++ (';' :: str "b\n* c\n"))))

example : pushed = str "\nplugin \"x y\";b\n* c\n" := by decide +kernel

theorem pushed_passage : Passage logos pushed := by
  refine ⟨⟨[.eol, .plugin, .stringLiteral (str "x y"), .eol], ?_, .inr ⟨[_, _, _], rfl⟩, [.eol], _, rfl, by simp, fun t ht => ?_⟩,
    notBlank (by decide), notIgnored (by decide)⟩
  · refine apart_line (e := ['\n']) plainEnd (notBlank (by decide)) (notIgnored (by decide)) ?_
    refine apart_spaced (w := 'p' :: str "lugin") (fixed (w := 'p' :: str "lugin") (t := .plugin) (by decide +kernel) (by decide +kernel)) rfl ⟨_, _, rfl, .inl rfl⟩ ?_
    refine apart_gap (b := [' ']) ⟨by simp, by simp⟩ (notBlank (by decide)) ?_
    refine apart_spaced string rfl ⟨_, _, rfl, by decide⟩ ?_
    have := apart_line (e := ';' :: str "b\n* c\n") (s := []) (ts := []) ⟨str ";b", ['\n'], str "* c\n", rfl, .inr ⟨str "b", rfl, by decide⟩,
      .inl rfl, .cons (u := str "* c\n") (v := []) ⟨'*', str " c", ['\n'], rfl, by decide, by decide, .inl rfl⟩ .nil⟩
      (by rintro _ _ ⟨⟩) (by rintro _ _ ⟨⟩) .done
    simpa using this
  · cases ht
    exact ⟨notLine rfl, by simp⟩

end Worded

/-- The hypotheses of the theorems about C59 are met by a directive with metadata and a pragma, in both orders. -/
example : Passage logos (Worded.tight ++ Worded.pushed) ∧ Passage logos (Worded.pushed ++ Worded.tight) :=
  ⟨C59_passage Worded.tight_passage Worded.pushed_passage, C59_passage Worded.pushed_passage Worded.tight_passage⟩

/-- An indented line is not a passage: after another one it belongs to what comes before. -/
example : ¬ Passage logos (str " kk: \"x y\"\n") := fun h => (h.notBlank ' ' _ rfl).1 rfl

end

end Lima.Props
