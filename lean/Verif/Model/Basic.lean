/-!
# Basic vocabulary of the model

`&str`/`String` are lists of characters.  `usize` offsets are `Nat` (no source is larger than
`usize::MAX` bytes).  Hash maps and sets are association lists, looked up by key equality.
-/

namespace Lima

/-- A Rust `&str`/`String` as its sequence of Unicode scalar values. -/
abbrev Str := List Char

/-- Notation helper: the characters of a literal. -/
abbrev str (s : String) : Str := s.toList

/-- Outcome of a Rust function returning `Result`, with a panic as an explicit third outcome. -/
inductive Res (ε α : Type) where
  | ok (a : α)
  | err (e : ε)
  | panic
deriving Repr, DecidableEq

/-- `Span` of `/repo/src/types.rs:491-497`: source index, start and end byte offset. -/
structure Span where
  source : Nat
  start : Nat
  stop : Nat
deriving Repr, DecidableEq, Inhabited

/-- `Spanned<T>` of `/repo/src/types.rs:529-535`. -/
structure Spanned (α : Type) where
  item : α
  span : Span
deriving Repr, DecidableEq, Inhabited

/-- `impl PartialEq for Spanned<T>`, `/repo/src/types.rs:641-648`: the span is ignored. -/
def Spanned.eq {α : Type} [DecidableEq α] (a b : Spanned α) : Bool := decide (a.item = b.item)

/-- `impl Hash for Spanned<T>`, `/repo/src/types.rs:652-659`: hashes the item only; `h` is the item's hash. -/
def Spanned.hash {α : Type} (h : α → Nat) (a : Spanned α) : Nat := h a.item

/-- `Spanned::map`/`map_into`, `/repo/src/types.rs:596-615`. -/
def Spanned.map {α β : Type} (f : α → β) (a : Spanned α) : Spanned β := ⟨f a.item, a.span⟩

/-! ### Hash containers keyed by spanned items

`HashSet<Spanned<T>>` and `HashMap<Spanned<K>, V>` compare keys with `Spanned`'s equality, i.e. by
item only.  The list order stands for an arbitrary iteration order. -/

/-- `HashSet::contains` on a `HashSet<Spanned<T>>`. -/
def SSet.has {α : Type} [DecidableEq α] (s : List (Spanned α)) (a : α) : Bool :=
  s.any (fun x => decide (x.item = a))

/-- `HashSet::get` on a `HashSet<Spanned<T>>`: the stored element equal to the given item. -/
def SSet.get {α : Type} [DecidableEq α] (s : List (Spanned α)) (a : α) : Option (Spanned α) :=
  s.find? (fun x => decide (x.item = a))

/-- `HashSet::insert`: no effect when an equal element is already there. -/
def SSet.insert {α : Type} [DecidableEq α] (s : List (Spanned α)) (x : Spanned α) : List (Spanned α) :=
  if SSet.has s x.item then s else s ++ [x]

/-- `HashMap::get` on a `HashMap<Spanned<K>, V>`. -/
def SMap.get {κ ν : Type} [DecidableEq κ] (m : List (Spanned κ × ν)) (k : κ) : Option ν :=
  (m.find? (fun e => decide (e.1.item = k))).map (·.2)

/-- `HashMap::contains_key`. -/
def SMap.has {κ ν : Type} [DecidableEq κ] (m : List (Spanned κ × ν)) (k : κ) : Bool :=
  m.any (fun e => decide (e.1.item = k))

/-- `HashMap::insert`: replaces the value of an existing equal key (keeping the stored key),
otherwise adds the entry. -/
def SMap.insert {κ ν : Type} [DecidableEq κ] (m : List (Spanned κ × ν)) (k : Spanned κ) (v : ν) :
    List (Spanned κ × ν) :=
  if SMap.has m k.item then m.map (fun e => if e.1.item = k.item then (e.1, v) else e)
  else m ++ [(k, v)]

/-- `HashMap::remove`. -/
def SMap.erase {κ ν : Type} [DecidableEq κ] (m : List (Spanned κ × ν)) (k : κ) : List (Spanned κ × ν) :=
  m.filter (fun e => decide (e.1.item ≠ k))

/-! ### Hash containers with plain keys -/

/-- `HashMap::get`. -/
def AMap.get {κ ν : Type} [DecidableEq κ] (m : List (κ × ν)) (k : κ) : Option ν :=
  (m.find? (fun e => decide (e.1 = k))).map (·.2)

/-- `HashMap::contains_key`. -/
def AMap.has {κ ν : Type} [DecidableEq κ] (m : List (κ × ν)) (k : κ) : Bool :=
  m.any (fun e => decide (e.1 = k))

/-- `HashMap::insert`. -/
def AMap.insert {κ ν : Type} [DecidableEq κ] (m : List (κ × ν)) (k : κ) (v : ν) : List (κ × ν) :=
  if AMap.has m k then m.map (fun e => if e.1 = k then (k, v) else e) else m ++ [(k, v)]

/-- `HashMap::remove`. -/
def AMap.erase {κ ν : Type} [DecidableEq κ] (m : List (κ × ν)) (k : κ) : List (κ × ν) :=
  m.filter (fun e => decide (e.1 ≠ k))

end Lima
