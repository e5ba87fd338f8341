import Verif.Model.Parse
import Verif.Model.Display

/-!
# The program `dump`, `/repo/examples/dump.rs`

What it prints on standard output after a parse.  What it writes on standard error is not part of this model: reports, see
`Model/WriteReport.lean`, and counts of allocations.
-/

namespace Lima.Dump

/-- `show_directive`, `/repo/examples/dump.rs:71-84`: what is printed, and `directives_as_strings` afterwards; `none` is a
panic.  `println!` adds a line end to the line end in the format. -/
def showDirective (showAllocations : Bool) (directive : Directive) (directivesAsStrings : List Str) :
    Option (Str × List Str) :=
  if showAllocations then
    let strings := directivesAsStrings ++ [Display.directive directive]
    match strings.getLast? with
    | none => none
    | some last => some (last ++ ['\n'] ++ ['\n'], strings)
  else some (Display.directive directive ++ ['\n'] ++ ['\n'], directivesAsStrings)

/-- The loop over the directives, `/repo/examples/dump.rs:86-88`. -/
def showAll (showAllocations : Bool) : List Directive → List Str → Option Str
  | [], _ => some []
  | d :: ds, strings =>
    match showDirective showAllocations d strings with
    | none => none
    | some (printed, strings) => (showAll showAllocations ds strings).map (printed ++ ·)

/-- Standard output of `parse`, `/repo/examples/dump.rs:42-101`; `none` is a panic. -/
def stdout (showAllocations : Bool) : Res ParseError ParseSuccess → Option Str
  | .ok r => showAll showAllocations (r.directives.map (·.item)) []
  | .err _ => some []
  | .panic => none

end Lima.Dump
