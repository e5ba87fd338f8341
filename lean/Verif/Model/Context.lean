import Verif.Model.Display
import Verif.Model.Pragma

/-! How an include context is worded. -/

namespace Lima

/-- `fmt_include_context`, `/repo/src/lib.rs:334-359`.  The hash maps are in iteration order, which is the order of the
lists. -/
def fmtIncludeContext (tags : TagStacks) (metas : MetaStacks) : Str :=
  Display.format (fun e => Display.tag e.1.item) (str " ") none tags ++ str " " ++
    Display.format (fun e => e.1.item ++ str ": [" ++ Display.format (fun v => Display.metaValue v.2.item) (str " ") none e.2 ++
      str "]") (str " ") none metas

end Lima
