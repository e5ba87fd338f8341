import Verif.Model.Text

/-!
# Trimming, character offsets and line numbers, `/repo/src/trim.rs`, `/repo/src/sources.rs:670-733`
-/

namespace Lima

/-- `str::rfind` with a predicate: byte offset of the last character satisfying it, counting from `off`. -/
def rfindFrom (p : Char → Bool) (off : Nat) : Str → Option Nat
  | [] => none
  | c :: cs =>
    match rfindFrom p (off + c.utf8Size) cs with
    | some i => some i
    | none => if p c then some off else none

/-- `trim_trailing_whitespace`, `/repo/src/trim.rs:5-10`; `none` is the panic of slicing. -/
def trimTrailingWhitespace [Unicode] (content : Str) (start stop : Nat) : Option Nat :=
  match slice content start stop with
  | none => none
  | some m =>
    match rfindFrom (fun c => !Unicode.isWhitespace c) 0 m with
    | some i => some (start + i + 1)
    | none => some stop

/-- `trimmed_span`, `/repo/src/sources.rs:715-726`.  The slice in `trim_trailing_whitespace` is the one
checked before, so the panic cannot happen; `none` is kept to be faithful. -/
def trimmedSpan [Unicode] (source : Str) (span : Span) : Option Span :=
  match slice source span.start span.stop with
  | none => some { span with start := 0, stop := 0 }
  | some _ =>
    match trimTrailingWhitespace source span.start span.stop with
    | some e => some { span with stop := e }
    | none => none

/-- `s.char_indices().map(|(i, _)| i)`, from offset `off`. -/
def charIndicesFrom (off : Nat) : Str → List Nat
  | [] => []
  | c :: cs => off :: charIndicesFrom (off + c.utf8Size) cs

/-- `s.char_indices().map(|(i, _)| i)`. -/
def charIndices (s : Str) : List Nat := charIndicesFrom 0 s

/-- `slice::partition_point`.  It is a binary search: for a list in which the elements satisfying the predicate
come first, it returns their number; what it returns for other lists is not specified, except that it is at
most the length. -/
class PartitionPoint where
  point : List Nat → (Nat → Bool) → Nat
  point_partitioned : ∀ (a b : List Nat) (p : Nat → Bool),
    (∀ x ∈ a, p x = true) → (∀ x ∈ b, p x = false) → point (a ++ b) p = a.length
  point_le : ∀ l p, point l p ≤ l.length

/-- A linear search is one. -/
@[reducible] def PartitionPoint.linear : PartitionPoint where
  point l p := (l.takeWhile p).length
  point_partitioned a b p ha hb := by
    rw [List.takeWhile_append_of_pos ha]
    cases b with
    | nil => simp
    | cons x b => simp [hb x (by simp)]
  point_le l p := (List.takeWhile_prefix p).length_le

/-- A binary search also gives monotone answers on lists which are not partitioned: a predicate which holds in
more places is never answered with a smaller number.  Not promised by the documentation of
`slice::partition_point`, but it holds of the implementation, see `PartitionPoint.binary` in `Lemmas/BinarySearch`. -/
class MonotonePoint extends PartitionPoint where
  point_mono : ∀ (l : List Nat) (p q : Nat → Bool), (∀ x, p x = true → q x = true) → point l p ≤ point l q

/-- Whether the predicate holds of the element with this index. -/
def holdsAt (l : List Nat) (p : Nat → Bool) (i : Nat) : Bool :=
  match l[i]? with
  | some x => p x
  | none => false

/-- The loop of `slice::binary_search_by` of the standard library (since Rust 1.82). -/
def binaryLoop (l : List Nat) (p : Nat → Bool) (base size : Nat) : Nat :=
  if size ≤ 1 then base + (if holdsAt l p base then 1 else 0)
  else
    let half := size / 2
    if holdsAt l p (base + half) then binaryLoop l p (base + half) (size - half)
    else binaryLoop l p base (size - half)
termination_by size
decreasing_by all_goals omega

/-- `byte_to_rune`, `/repo/src/sources.rs:728-733`. -/
def byteToRune [PartitionPoint] (indices : List Nat) (span : Span) : Span :=
  { span with
    start := PartitionPoint.point indices (fun i => decide (i < span.start))
    stop := PartitionPoint.point indices (fun i => decide (i < span.stop)) }

/-- The number of newlines. -/
def countNewlines (s : Str) : Nat := (s.filter (fun c => decide (c = '\n'))).length

/-- `SpannedSource`, `/repo/src/types.rs:322-328`. -/
structure SpannedSource where
  fileName : Option Str
  startLine : Nat
  endLine : Nat
  content : Str
deriving Repr, DecidableEq

/-- The common part of `resolve_span`, `/repo/src/sources.rs:254-275, 680-701`.  Subtraction
`rune_span.end - rune_span.start` panics on underflow in a checked build: `none`. -/
def resolveLines (fileName : Option Str) (content : Str) (byteSpan runeSpan : Span) : Option SpannedSource :=
  if runeSpan.start ≤ runeSpan.stop then
    let startLine := countNewlines (content.take runeSpan.start) + 1
    let linesSpanned := countNewlines ((content.drop runeSpan.start).take (runeSpan.stop - runeSpan.start))
    some
      { fileName
        startLine
        endLine := startLine + linesSpanned
        content := (slice content byteSpan.start byteSpan.stop).getD [] }
  else none

end Lima
