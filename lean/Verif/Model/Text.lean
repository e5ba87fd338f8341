import Verif.Model.Chars

/-!
# Byte offsets into strings

Rust slices strings by byte offset and panics, or returns `None` with `get`, when an offset is out of range or
inside a character.  Here strings are lists of characters and byte offsets are computed with `Char.utf8Size`.
-/

namespace Lima

/-- `&s[n..]`; `none` when `n` is out of range or inside a character. -/
def dropBytes : Nat → Str → Option Str
  | 0, s => some s
  | _ + 1, [] => none
  | n + 1, c :: cs => if c.utf8Size ≤ n + 1 then dropBytes (n + 1 - c.utf8Size) cs else none
termination_by structural _ s => s

/-- `&s[..n]`; `none` when `n` is out of range or inside a character. -/
def takeBytes : Nat → Str → Option Str
  | 0, _ => some []
  | _ + 1, [] => none
  | n + 1, c :: cs =>
    if c.utf8Size ≤ n + 1 then (takeBytes (n + 1 - c.utf8Size) cs).map (c :: ·) else none
termination_by structural _ s => s

/-- `s.get(a..b)`; indexing `&s[a..b]` panics exactly when this is `none`. -/
def slice (s : Str) (a b : Nat) : Option Str :=
  if a ≤ b then (dropBytes a s).bind (takeBytes (b - a)) else none

end Lima
