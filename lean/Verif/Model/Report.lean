import Verif.Model.Ast

/-!
# Errors and warnings, `/repo/src/types.rs:29-318`
-/

namespace Lima

/-- `ErrorOrWarningImpl`, `/repo/src/types.rs:41-48`, one type for errors and warnings: the marker `K` carries
no data. -/
structure Report where
  message : Str
  reason : Str
  span : Span
  contexts : Option (List (Str × Span))
  related : Option (List (Str × Span))
deriving Repr, DecidableEq, Inhabited

/-- `ErrorOrWarning::new`, `/repo/src/types.rs:104-114`. -/
def Report.new (message reason : Str) (span : Span) : Report := ⟨message, reason, span, none, none⟩

/-- `Report::contexts`, `/repo/src/types.rs:81-87`. -/
def Report.contextsIter (e : Report) : List (Str × Span) :=
  match e.contexts with
  | none => []
  | some cs => cs

/-- `Report::related`, `/repo/src/types.rs:89-95`. -/
def Report.relatedIter (e : Report) : List (Str × Span) :=
  match e.related with
  | none => []
  | some rs => rs

/-- `Option::get_or_insert(Vec::new())`. -/
def orEmpty (o : Option (List (Str × Span))) : List (Str × Span) :=
  match o with
  | none => []
  | some l => l

/-- `related_to_named_span`, `/repo/src/types.rs:145-153`. -/
def Report.relatedToNamedSpan (e : Report) (name : Str) (span : Span) : Report :=
  { e with related := some (orEmpty e.related ++ [(name, span)]) }

/-- `related_to`, `/repo/src/types.rs:117-125`; `elementType` is the element's `ElementType`. -/
def Report.relatedTo (e : Report) (elementType : Str) (span : Span) : Report :=
  { e with related := some (orEmpty e.related ++ [(elementType, span)]) }

/-- `related_to_all`, `/repo/src/types.rs:128-143`. -/
def Report.relatedToAll (e : Report) (elements : List (Str × Span)) : Report :=
  { e with related := some (orEmpty e.related ++ elements) }

/-- `in_context`, `/repo/src/types.rs:157-165`. -/
def Report.inContext (e : Report) (elementType : Str) (span : Span) : Report :=
  { e with contexts := some (orEmpty e.contexts ++ [(elementType, span)]) }

/-- `in_contexts` and `in_explicitly_labelled_contexts`, `/repo/src/types.rs:168-195`. -/
def Report.inContexts (e : Report) (elements : List (Str × Span)) : Report :=
  { e with contexts := some (orEmpty e.contexts ++ elements) }

/-- `AnnotatedErrorOrWarning`, `/repo/src/types.rs:277-283`. -/
structure Annotated where
  report : Report
  annotation : Option Str
deriving Repr, DecidableEq, Inhabited

/-- `with_annotation`, `/repo/src/types.rs:197-205`. -/
def Report.withAnnotation (e : Report) (annotation : Str) : Annotated := ⟨e, some annotation⟩

/-- `From<ErrorOrWarning> for AnnotatedErrorOrWarning`, `/repo/src/types.rs:285-295`. -/
def Annotated.ofReport (e : Report) : Annotated := ⟨e, none⟩

/-- `Spanned::error`, `/repo/src/types.rs:623-629`. -/
def Spanned.error {α : Type} (elementType : Str) (s : Spanned α) (reason : Str) : Report :=
  Report.new (str "invalid " ++ elementType) reason s.span

/-- `Spanned::warning`, `/repo/src/types.rs:632-638`. -/
def Spanned.warning {α : Type} (elementType : Str) (s : Spanned α) (reason : Str) : Report :=
  Report.new (str "questionable " ++ elementType) reason s.span

/-- Decimal digits of a number, as `Display for usize` writes it. -/
def natStr (n : Nat) : Str := Nat.toDigits 10 n

/-- `fmt_error_or_warning`, `/repo/src/types.rs:221-238`; `debug` is the derived `Debug` of `Span`. -/
def Report.display (debug : Span → Str) (e : Report) : Str :=
  e.message ++ str " (" ++ e.reason ++ str ") " ++
  str "at " ++ natStr e.span.start ++ str ".." ++ natStr e.span.stop ++ str " of source " ++
  natStr e.span.source ++
  (match e.contexts with
   | none => []
   | some cs => cs.flatMap (fun c => str " while parsing " ++ c.1 ++ str " at " ++ debug c.2))

end Lima
