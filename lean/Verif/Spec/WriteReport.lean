import Mathlib.Data.List.Forall2
import Verif.Model.WriteReport
import Verif.Spec.Sources

/-!
# Specification of written reports (C51)
-/

namespace Lima.Spec
open Lima

/-- What a report points at, in order: its own span, then its contexts, then its related spans, with what is
said about each. -/
def pointedAt (r : Report) : List (Str × Span) :=
  (r.reason, r.span) :: (r.contextsIter.map (fun c => (str "in this " ++ c.1, c.2)) ++ r.relatedIter)

/-- A way of finding the text of a source by name in the table handed over: it finds one of those with that
name, if there are any.  (The renderer's table is a hash map, so it keeps one of them.) -/
structure Finds (find : List (Str × Str) → Str → Option Str) : Prop where
  sound : ∀ files name text, find files name = some text → (name, text) ∈ files
  complete : ∀ files name text, (name, text) ∈ files → find files name ≠ none

/-- In the text the renderer finds for it, the label covers `t`, which comes after `before`. -/
def LabelCovers (find : List (Str × Str) → Str → Option Str) (d : Drawing) (l : Label) (before t : Str) : Prop :=
  ∃ after, find d.files l.source = some (before ++ t ++ after) ∧
    l.start = before.length ∧ l.stop = (before ++ t).length

/-- The name under which a source is written: its path, or `inline`. -/
def writtenName (path : Option Path) : Str :=
  match path with
  | some p => p.render
  | none => str "inline"

/-- The operations on the writer for these reports, whose drawings are `ds`: each drawing, followed by its
annotation on a line of its own, if there is one. -/
def expectedOps : List (Annotated × Drawing) → List WriteOp
  | [] => []
  | (e, d) :: rest =>
    .drawing d :: ((match e.annotation with
      | some a => [.text (a ++ ['\n'])]
      | none => []) ++ expectedOps rest)

/-- Operations are performed one after another up to the first that fails. -/
inductive Performs {σ ε : Type} (write : Writer σ ε) : σ → List WriteOp → WriteEnd σ ε → Prop
  | nil (w) : Performs write w [] (.done w)
  | fail (w w' op ops e) : write w op = (w', some e) → Performs write w (op :: ops) (.failed w' e)
  | next (w w' op ops r) : write w op = (w', none) → Performs write w' ops r → Performs write w (op :: ops) r

end Lima.Spec
