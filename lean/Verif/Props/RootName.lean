import Verif.Model.Entry
import Verif.Lemmas.RootName
import Verif.Props.Parse

/-!
# C65: the root may be a file, of any name, or a text given directly
-/

set_option linter.unusedSectionVars false

namespace Lima
open Lima Spec Grammar Props

namespace RootName

theorem isEmpty_join (d p : Path) (h : d.isEmpty = true) : d.join p = p := by
  unfold Path.join
  rw [h]
  split <;> rfl

theorem resolve_dir {r : Option Path} {d : Path} (h : InDirectory r d) (p : Path) : resolveIncludedPath r p = d.join p := by
  cases h with
  | text => exact (isEmpty_join _ _ rfl).symm
  | file root names name =>
    unfold resolveIncludedPath
    have hp : Path.parent ⟨root, names ++ [name]⟩ = some ⟨root, names⟩ := by
      unfold Path.parent
      simp
    rw [Option.bind_some]
    unfold pathDir
    rw [hp]
    dsimp only
    split
    · rename_i d hd
      split at hd
      · cases hd
      · cases hd; rfl
    · rename_i hd
      split at hd
      · rename_i he
        exact (isEmpty_join _ _ he).symm
      · cases hd

theorem documents_dir {r : Option Path} {d : Path} (h : InDirectory r d) (v : Str) :
    (match r.bind Path.parent with | none => Path.ofStr v | some d => d.join (Path.ofStr v)) = d.join (Path.ofStr v) := by
  cases h with
  | text => exact (isEmpty_join _ _ rfl).symm
  | file root names name =>
    have hp : Path.parent ⟨root, names ++ [name]⟩ = some ⟨root, names⟩ := by
      unfold Path.parent
      simp
    rw [Option.bind_some, hp]

theorem alike {r r' : Option Path} {d : Path} (h : InDirectory r d) (h' : InDirectory r' d) : Alike r r' :=
  ⟨fun p => by rw [resolve_dir h, resolve_dir h'], fun v => (documents_dir h' v).trans (documents_dir h v).symm⟩

theorem away {fs : FileSystem} {r : Option Path} {s : Sources} (h : NotIncluded fs r s) :
    Away fs (r.bind fs.canonicalize).toList s.content := by
  intro q hq c hc
  obtain ⟨e, he, rfl⟩ := (AMap.has_iff _ _).mp hq
  rw [Option.mem_toList] at hc
  obtain ⟨p, hp, hpc⟩ := Option.bind_eq_some_iff.mp hc
  exact (h p hp e he).2 c hpc

theorem not_root {fs : FileSystem} {r : Option Path} {s : Sources} (h : NotIncluded fs r s) {q : Path}
    (hq : q ∈ s.content.map (·.1)) : some q ≠ r := by
  rintro rfl
  obtain ⟨e, he, rfl⟩ := List.mem_map.mp hq
  exact (h _ rfl e he).1 rfl

/-- Locations are taken to the same places. -/
theorem adjusted_rooted [Unicode] [PartitionPoint] {s s' : Sources} (h : Rooted s s') (span : Span) :
    (s'.adjusted span).map (fun x => (x.1, x.2.2)) = (s.adjusted span).map (fun x => (x.1, x.2.2)) ∧
    (0 < span.source → span.source < s.ids.length → s'.adjusted span = s.adjusted span) := by
  obtain ⟨i, i', rest, h4, h5⟩ := h.ids
  have hl : s'.ids.length = s.ids.length := by rw [h4, h5]; rfl
  unfold Sources.adjusted
  dsimp only
  rw [hl]
  generalize hsafe : (if span.source ≥ s.ids.length then (⟨0, 0, 0⟩ : Span) else span) = safe
  rw [h.content, h.rootContent, h.rootCharIndices, h4, h5]
  cases hn : safe.source with
  | zero =>
    refine ⟨?_, fun h1 h2 => ?_⟩
    · simp only [List.getElem?_cons_zero, if_true]
      cases trimmedSpan s.rootContent safe <;> rfl
    · rw [← h4] at h2
      rw [if_neg (by omega)] at hsafe
      rw [hsafe] at h1
      omega
  | succ n => exact ⟨rfl, fun _ _ => rfl⟩

end RootName

namespace Props
open RootName

section
variable {fs : FileSystem} {tokens : Str → List Ranged}

/-- C65: sources can be made from a file exactly if that file can be read, and else the error is that of reading it: nothing about
the included files is an error at this point. -/
theorem C65_opens (p : Path) :
    (∀ e, Sources.tryFromPath fs tokens p = .error e ↔ fs.read p = .error e) ∧
    ((∃ s, Sources.tryFromPath fs tokens p = .ok s) ↔ ∃ text, fs.read p = .ok text) := by
  unfold Sources.tryFromPath
  cases fs.read p <;> simp

variable [Unicode] [DecOps] {env : ParseEnv} {r r' : Option Path} {d : Path} {text : Str} {s s' : Sources}

/-- C65: the name of the root does not matter, nor whether it is a file at all.  Two roots with the same text in the same
directory, which no include leads to, have the same result, including all locations. -/
theorem C65_same_result (hwf : GlobsWF fs) (hr : InDirectory r d) (hr' : InDirectory r' d)
    (hs : ReadInSomeOrder fs env.tokens r text s) (hs' : ReadInSomeOrder fs env.tokens r' text s') (hv : SameVisits s s')
    (hn : NotIncluded fs r s) (hn' : NotIncluded fs r' s) : parseSources env s' = parseSources env s := by
  obtain ⟨h1, rfl, rfl⟩ := read_rooted_some hwf (alike hr hr') hs hs' hv (away hn) (away hn')
  exact parse_rooted env h1 (alike hr hr') (fun q hq => ⟨not_root hn hq, not_root hn' hq⟩)

/-- C65: what is shown for a location is the same as well, except for the name of the root. -/
theorem C65_same_text [PartitionPoint] (hwf : GlobsWF fs) (hr : InDirectory r d) (hr' : InDirectory r' d)
    (hs : ReadInSomeOrder fs tokens r text s) (hs' : ReadInSomeOrder fs tokens r' text s') (hv : SameVisits s s')
    (hn : NotIncluded fs r s) (hn' : NotIncluded fs r' s) (span : Span) :
    s'.errorSourceText span = s.errorSourceText span ∧
    (s'.resolveSpan span).map (fun x => (x.startLine, x.endLine, x.content)) =
      (s.resolveSpan span).map (fun x => (x.startLine, x.endLine, x.content)) ∧
    (0 < span.source → span.source < s.ids.length → s'.resolveSpan span = s.resolveSpan span) := by
  obtain ⟨h1, h2, h3⟩ := read_rooted_some hwf (alike hr hr') hs hs' hv (away hn) (away hn')
  obtain ⟨h4, h5⟩ := adjusted_rooted h1 span
  refine ⟨?_, ?_, fun h6 h7 => ?_⟩
  · unfold Sources.errorSourceText
    rcases hx : s.adjusted span with _ | ⟨t, i, b, r⟩ <;> rcases hx' : s'.adjusted span with _ | ⟨t', i', b', r'⟩ <;>
      rw [hx, hx'] at h4
    · cases h4
    · cases h4
    · simp only [Option.map_some, Option.some.injEq, Prod.mk.injEq] at h4
      obtain ⟨rfl, rfl, rfl⟩ := h4
      rfl
  · unfold Sources.resolveSpan
    rcases hx : s.adjusted span with _ | ⟨t, i, b, r⟩ <;> rcases hx' : s'.adjusted span with _ | ⟨t', i', b', r'⟩ <;>
      rw [hx, hx'] at h4
    · cases h4
    · cases h4
    · simp only [Option.map_some, Option.some.injEq, Prod.mk.injEq] at h4
      obtain ⟨rfl, rfl, rfl⟩ := h4
      dsimp only
      unfold resolveLines
      split <;> rfl
  · unfold Sources.resolveSpan
    rw [h5 h6 h7]
    simp only [show span.source ≠ 0 by omega, if_false]

/-- C65: the sources read are the same, in the same order, and have the same numbers. -/
theorem C65_same_reads (hwf : GlobsWF fs) (hr : InDirectory r d) (hr' : InDirectory r' d)
    (hs : ReadInSomeOrder fs tokens r text s) (hs' : ReadInSomeOrder fs tokens r' text s') (hv : SameVisits s s')
    (hn : NotIncluded fs r s) (hn' : NotIncluded fs r' s) :
    s'.reads = s.reads ∧ s'.content = s.content ∧ s'.rootContent = s.rootContent := by
  obtain ⟨h1, _, _⟩ := read_rooted_some hwf (alike hr hr') hs hs' hv (away hn) (away hn')
  exact ⟨h1.reads, h1.content, h1.rootContent⟩

end

/-! ### Cases -/

section
attribute [local instance] Sample.unicode Sample.decOps

namespace Rooting

/-- Two files, `r` and `a`. -/
def files : FileSystem where
  glob p := .ok (if p = Path.ofStr (str "r") ∨ p = Path.ofStr (str "a") then [.path p] else [])
  canonicalize p := if p = Path.ofStr (str "r") ∨ p = Path.ofStr (str "a") then some p else none
  read p := if p = Path.ofStr (str "r") then .ok (str "C") else if p = Path.ofStr (str "a") then .ok (str "A") else .error (str "no such file")
  files := [Path.ofStr (str "r"), Path.ofStr (str "a")]
  canonicalize_mem := by
    intro p c h
    split at h
    · rename_i h'
      cases h
      rcases h' with rfl | rfl <;> simp
    · cases h

theorem files_wf : GlobsWF files := by
  intro p gs h g hg
  simp only [files] at h
  split at h
  · rename_i h'
    cases h
    simp only [List.mem_singleton] at hg
    subst hg
    rcases h' with rfl | rfl
    · exact Path.ofStr_wf (str "r")
    · exact Path.ofStr_wf (str "a")
  · cases h; cases hg

/-- `A` is a directive, `C` includes the file `r`, anything else the file `a`. -/
def tokens (text : Str) : List Ranged :=
  if text = str "A" then Whole.openTokens
  else [⟨.include, 0, 7⟩, ⟨.stringLiteral (if text = str "C" then str "r" else str "a"), 8, 11⟩, ⟨.eol, 11, 12⟩]

def env : ParseEnv := ⟨tokens, fun n _ => ⟨n, 0, 0⟩, fun _ => .error ⟨[]⟩, files.canonicalize, fun _ _ => []⟩

/-- A root which includes `a`. -/
def sources (root : Option Path) : Sources where
  rootPath := root
  rootContent := str "R"
  rootCharIndices := [0]
  globs := [(Path.ofStr (str "a"), .expanded [Path.ofStr (str "a")])]
  content := [(Path.ofStr (str "a"), .content 1 (str "A") [0])]
  ids := [(root.map Path.render).getD (str "inline"), str "a"]
  reads := [Path.ofStr (str "a")]

theorem read_text : Sources.fromString files tokens (str "R") = sources none := by
  unfold Sources.fromString readWithIncludes
  rw [Layout.readLoop_some rfl, Layout.readLoop_none rfl]
  rfl

theorem read_file : readWithIncludes files tokens (some (Path.ofStr (str "r"))) (str "R") = sources (some (Path.ofStr (str "r"))) := by
  unfold readWithIncludes
  rw [Layout.readLoop_some rfl, Layout.readLoop_none rfl]
  rfl

/-- The root includes itself: as a file. -/
def selfFile : Sources where
  rootPath := some (Path.ofStr (str "r"))
  rootContent := str "C"
  rootCharIndices := [0]
  globs := [(Path.ofStr (str "r"), .expanded [Path.ofStr (str "r")])]
  content := [(Path.ofStr (str "r"), .duplicate)]
  ids := [str "r"]
  reads := []

/-- The root includes itself: as a text. -/
def selfText : Sources where
  rootPath := none
  rootContent := str "C"
  rootCharIndices := [0]
  globs := [(Path.ofStr (str "r"), .expanded [Path.ofStr (str "r")])]
  content := [(Path.ofStr (str "r"), .content 1 (str "C") [0])]
  ids := [str "inline", str "r"]
  reads := [Path.ofStr (str "r")]

theorem read_selfFile : Sources.tryFromPath files tokens (Path.ofStr (str "r")) = .ok selfFile := by
  have : files.read (Path.ofStr (str "r")) = .ok (str "C") := rfl
  unfold Sources.tryFromPath
  rw [this]
  dsimp only
  unfold readWithIncludes
  rw [Layout.readLoop_some rfl, Layout.readLoop_none rfl]
  rfl

theorem read_selfText : Sources.fromString files tokens (str "C") = selfText := by
  unfold Sources.fromString readWithIncludes
  rw [Layout.readLoop_some rfl, Layout.readLoop_some rfl, Layout.readLoop_none rfl]
  rfl

end Rooting
open Rooting

/-- The hypotheses of C65 are met: a text with an include, and a file with this text. -/
example : ∃ a, parseSources env (Sources.fromString files tokens (str "R")) = .ok a ∧
    parseSources env (sources (some (Path.ofStr (str "r")))) = .ok a ∧ a.directives.length = 1 := by
  have hr : ReadInSomeOrder files env.tokens none (str "R") (sources none) :=
    ⟨_, .refl _, by have := read_text; unfold Sources.fromString at this; exact this.symm ▸ rfl⟩
  have hr' : ReadInSomeOrder files env.tokens (some (Path.ofStr (str "r"))) (str "R") (sources (some (Path.ofStr (str "r")))) :=
    ⟨_, .refl _, by have := read_file; exact this.symm ▸ rfl⟩
  have h := C65_same_result files_wf .text (.file false [] (str "r")) hr hr' rfl (by intro p hp; cases hp) (by
    intro p hp e he
    cases hp
    simp only [sources, List.mem_singleton] at he
    subst he
    decide)
  rw [h, read_text]
  have key : ∀ x : Res ParseError ParseSuccess, (match x with | .ok r => r.directives.length == 1 | _ => false) = true →
      ∃ r, x = .ok r ∧ x = .ok r ∧ r.directives.length = 1 := by
    intro x hx
    cases x with
    | ok r => exact ⟨r, rfl, rfl, by simpa using hx⟩
    | err _ => cases hx
    | panic => cases hx
  exact key _ (by decide +kernel)

/-- C65, why includes may not lead to the root: a file which includes itself is an error, but the same text given directly
succeeds. -/
theorem C65_self_include : ∃ (fs : FileSystem) (env : ParseEnv) (p : Path) (text : Str) (s' : Sources), GlobsWF fs ∧ InDirectory (some p) ⟨false, []⟩ ∧
    fs.read p = .ok text ∧ Sources.tryFromPath fs env.tokens p = .ok s' ∧
    (∃ a, parseSources env (Sources.fromString fs env.tokens text) = .ok a) ∧ ∃ e, parseSources env s' = .err e := by
  refine ⟨files, env, Path.ofStr (str "r"), str "C", selfFile, files_wf, .file false [] (str "r"), rfl, read_selfFile, ?_,
    Whole.fails_iff (by decide +kernel)⟩
  have : Sources.fromString files env.tokens (str "C") = selfText := read_selfText
  rw [this]
  exact Whole.succeeds_iff (by decide +kernel)

end

end Props
end Lima
