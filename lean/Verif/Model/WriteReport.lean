import Verif.Model.Sources
import Verif.Model.Report

/-!
# Writing reports, `/repo/src/sources.rs:202-239`, `330-350`, `466-475`, `520-557`, `628-666`, `704-713`

The library hands a report made of labels and a table of source texts to the `ariadne` crate, which draws it.
What is handed over is modelled; the drawing is not.
-/

namespace Lima

/-- The marker types `ErrorKind` and `WarningKind`, `/repo/src/types.rs:50-66`. -/
inductive ReportKind
  | error | warning
deriving Repr, DecidableEq, Inhabited

/-- `ariadne::Color`, as far as it is used. -/
inductive Colour
  | red | yellow
deriving Repr, DecidableEq, Inhabited

/-- `ErrorOrWarningKind::color`, `/repo/src/types.rs:253-275`. -/
def ReportKind.colour : ReportKind → Colour
  | .error => .red
  | .warning => .yellow

/-- `ariadne::Label` with a source name and a range of characters. -/
structure Label where
  source : Str
  start : Nat
  stop : Nat
  message : Str
  colour : Colour
deriving Repr, DecidableEq, Inhabited

/-- `ariadne::Report`, as built, with the cache it is written with: the texts of the sources by name.
`kind` is `report_kind`, `/repo/src/types.rs:253-275`. -/
structure Drawing where
  kind : ReportKind
  source : Str
  start : Nat
  stop : Nat
  message : Str
  labels : List Label
  files : List (Str × Str)
deriving Repr, DecidableEq, Inhabited

/-- `source_id_string_and_adjusted_rune_span`, `/repo/src/sources.rs:704-713`, followed by `Label::new`, which
panics if the start is after the end; `none` is a panic. -/
def labelFor (adjusted : Span → Option (Str × Str × Span × Span)) (message : Str) (colour : Colour) (span : Span) :
    Option Label :=
  match adjusted span with
  | none => none
  | some (_, name, _, runes) =>
    if runes.start ≤ runes.stop then some ⟨name, runes.start, runes.stop, message, colour⟩ else none

/-- The labels for a list of spans; `none` is a panic. -/
def labelsFor (adjusted : Span → Option (Str × Str × Span × Span)) (colour : Colour) :
    List (Str × Span) → Option (List Label)
  | [] => some []
  | (message, span) :: rest =>
    match labelFor adjusted message colour span with
    | none => none
    | some l =>
      match labelsFor adjusted colour rest with
      | none => none
      | some ls => some (l :: ls)

/-- `write_report`, `/repo/src/sources.rs:628-666`: what is drawn; `none` is a panic. -/
def drawReport (adjusted : Span → Option (Str × Str × Span × Span)) (files : List (Str × Str)) (kind : ReportKind)
    (report : Report) : Option Drawing :=
  match labelFor adjusted report.reason kind.colour report.span with
  | none => none
  | some first =>
    match labelsFor adjusted .yellow (report.contextsIter.map (fun c => (str "in this " ++ c.1, c.2))) with
    | none => none
    | some contexts =>
      match labelsFor adjusted .yellow report.relatedIter with
      | none => none
      | some related =>
        some
          { kind := kind
            source := first.source
            start := first.start
            stop := first.stop
            message := report.message
            labels := first :: contexts ++ related
            files := files }

/-- `BeancountSources::sources`, `/repo/src/sources.rs:330-350`; `none` is the panic of `source_id_string` on
an identifier which was not handed out.  The included files come in the order of the hash map, here the list
order. -/
def Sources.filesOf (ids : List Str) : List (Path × IncludedSource) → Option (List (Str × Str))
  | [] => some []
  | (_, .content id text _) :: rest =>
    match ids[id]?, Sources.filesOf ids rest with
    | some name, some files => some ((name, text) :: files)
    | _, _ => none
  | _ :: rest => Sources.filesOf ids rest

/-- `BeancountSources::sources`, `/repo/src/sources.rs:330-350`. -/
def Sources.files (s : Sources) : Option (List (Str × Str)) :=
  match s.ids[0]?, Sources.filesOf s.ids s.content with
  | some name, some files => some ((name, s.rootContent) :: files)
  | _, _ => none

/-- `SyntheticSources::sources`, `/repo/src/sources.rs:467-475`. -/
def Synthetic.files (s : Synthetic) : Option (List (Str × Str)) :=
  match s.sources.files with
  | none => none
  | some files => some (files ++ s.content.map (fun e => (e.1, e.2.2.1)))

/-- `BeancountSources::write_report`, `/repo/src/sources.rs:227-239`. -/
def Sources.draw [Unicode] [PartitionPoint] (s : Sources) (kind : ReportKind) (report : Report) : Option Drawing :=
  match s.files with
  | none => none
  | some files => drawReport s.adjusted files kind report

/-- `SyntheticSources::write_report`, `/repo/src/sources.rs:545-557`. -/
def Synthetic.draw [Unicode] [PartitionPoint] (s : Synthetic) (kind : ReportKind) (report : Report) : Option Drawing :=
  match s.files with
  | none => none
  | some files => drawReport s.adjusted files kind report

/-- What is asked of the writer. -/
inductive WriteOp
  | drawing (d : Drawing)
  | text (s : Str)
deriving Repr, DecidableEq, Inhabited

/-- The writer: what it becomes, and the error if writing fails. -/
abbrev Writer (σ ε : Type) := σ → WriteOp → σ × Option ε

/-- How writing ends. -/
inductive WriteEnd (σ ε : Type)
  | done (w : σ)
  | failed (w : σ) (e : ε)
  | panic

/-- `write_errors_or_warnings`, `/repo/src/sources.rs:202-225` and `520-543`, with `draw` the drawing of the
report; the `?` operators stop at the first failure to write. -/
def writeAll {σ ε : Type} (write : Writer σ ε) (draw : Report → Option Drawing) :
    σ → List Annotated → WriteEnd σ ε
  | w, [] => .done w
  | w, e :: rest =>
    match draw e.report with
    | none => .panic
    | some d =>
      match write w (.drawing d) with
      | (w, some err) => .failed w err
      | (w, none) =>
        match e.annotation with
        | none => writeAll write draw w rest
        | some a =>
          match write w (.text (a ++ str "\n")) with
          | (w, some err) => .failed w err
          | (w, none) => writeAll write draw w rest

end Lima
