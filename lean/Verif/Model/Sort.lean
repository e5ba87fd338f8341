import Verif.Model.Ast

/-!
# Stable sort by buckets, `/repo/src/sort.rs`

The `BTreeMap<K, VecDeque<V>>` is an association list kept in increasing key order; `lt` is the key's
strict order.
-/

namespace Lima

variable {κ ν : Type}

/-- One iteration of the loop in `Sort::new`, `/repo/src/sort.rs:21-34`: append the item to the bucket of
its key, creating the bucket at its place in key order if there is none. -/
def bucketPush (lt : κ → κ → Bool) : List (κ × List ν) → κ → ν → List (κ × List ν)
  | [], k, v => [(k, [v])]
  | (k', b) :: m, k, v =>
    if lt k k' then (k, [v]) :: (k', b) :: m
    else if lt k' k then (k', b) :: bucketPush lt m k v
    else (k', b ++ [v]) :: m

/-- `Sort<K, V>`, `/repo/src/sort.rs:7-10`. -/
structure SortState (κ ν : Type) where
  headBucket : Option (List ν)
  tailBuckets : List (κ × List ν)

/-- `Sort::new`, `/repo/src/sort.rs:13-40`. -/
def SortState.new (lt : κ → κ → Bool) (key : ν → κ) (items : List ν) : SortState κ ν :=
  { headBucket := none
    tailBuckets := items.foldl (fun m v => bucketPush lt m (key v) v) [] }

/-- `Iterator::next for Sort`, `/repo/src/sort.rs:49-59`. -/
def SortState.next (s : SortState κ ν) : Option ν × SortState κ ν :=
  let needNext := match s.headBucket with
    | none => true
    | some b => b.isEmpty
  let s1 : SortState κ ν := if needNext then
      match s.tailBuckets with
      | [] => ⟨none, []⟩
      | (_, v) :: rest => ⟨some v, rest⟩
    else s
  match s1.headBucket with
  | none => (none, s1)
  | some [] => (none, s1)
  | some (x :: xs) => (some x, ⟨some xs, s1.tailBuckets⟩)

/-- Number of items still held. -/
def SortState.size (s : SortState κ ν) : Nat :=
  (s.headBucket.getD []).length + (s.tailBuckets.map (fun b => b.2.length)).sum

theorem SortState.size_next {s s' : SortState κ ν} {v : ν} (h : s.next = (some v, s')) :
    s'.size < s.size := by
  obtain ⟨hb, tb⟩ := s
  unfold SortState.next at h
  match hb with
  | none =>
    match tb with
    | [] => simp at h
    | (k, b) :: rest =>
      match b with
      | [] => simp at h
      | x :: xs =>
        simp at h
        obtain ⟨_, rfl⟩ := h
        simp [SortState.size]
  | some [] =>
    match tb with
    | [] => simp at h
    | (k, b) :: rest =>
      match b with
      | [] => simp at h
      | x :: xs =>
        simp at h
        obtain ⟨_, rfl⟩ := h
        simp [SortState.size]
  | some (x :: xs) =>
    simp at h
    obtain ⟨_, rfl⟩ := h
    simp [SortState.size]

/-- `Iterator::collect` on a `Sort`: call `next` until it returns `None`. -/
def SortState.collect (s : SortState κ ν) : List ν :=
  match _h : s.next with
  | (none, _) => []
  | (some v, s') => v :: SortState.collect s'
termination_by s.size
decreasing_by exact SortState.size_next _h

/-- `iter.sort(key).collect()`, `/repo/src/sort.rs:79-85`. -/
def sortBy (lt : κ → κ → Bool) (key : ν → κ) (items : List ν) : List ν :=
  (SortState.new lt key items).collect

/-- The secondary key used in `BeancountParser::parse`, `/repo/src/lib.rs:243-247`. -/
def variantRank : DirectiveVariant → Nat
  | .open .. => 0
  | .balance .. => 1
  | _ => 2

/-- Lexicographic strict order on `(Date, u8)` as derived for tuples. -/
def dateRankLt (a b : Date × Nat) : Bool :=
  a.1.lt b.1 || (decide (a.1 = b.1) && decide (a.2 < b.2))

/-- The sort in `BeancountParser::parse`, `/repo/src/lib.rs:238-250`. -/
def sortDirectives (ds : List (Spanned Directive)) : List (Spanned Directive) :=
  sortBy dateRankLt (fun d => (d.item.date.item, variantRank d.item.variant)) ds

end Lima
