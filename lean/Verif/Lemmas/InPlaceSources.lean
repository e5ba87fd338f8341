import Verif.Lemmas.InPlaceParse
import Verif.Lemmas.Passage

/-! An include and the text in its place: sources. -/

set_option linter.unusedSectionVars false

namespace Lima.InPlaceParse
open Lima Spec Grammar Props

section
variable [Unicode] [DecOps]

theorem core {env1 env2 : ParseEnv} {s1 s2 : Sources} {b : Path} {ρ : Nat → Nat} {a u c : List Ranged} {t1 t2 t3 : Nat × Nat} {g : Str}
    {idb : Nat} {tb : Str} {es : List (Nat × Option Path × Str)} (h : Core env1 env2 s1 s2 b ρ a u c t1 t2 t3 g idb tb es) :
    (∃ r1 r2, parseSources env1 s1 = .ok r1 ∧ parseSources env2 s2 = .ok r2 ∧ Alike (renumber ρ) r1 r2) ∨
    ((∀ r, parseSources env1 s1 ≠ .ok r) ∧ ∀ r, parseSources env2 s2 ≠ .ok r) := by
  by_cases h1 : ∃ r, parseSources env1 s1 = .ok r
  · obtain ⟨r, hr⟩ := h1
    obtain ⟨o, d1, d2, du, w1, w2, wu, rs, hp⟩ := pieces1 h hr
    exact together h hp
  · by_cases h2 : ∃ r, parseSources env2 s2 = .ok r
    · obtain ⟨r, hr⟩ := h2
      obtain ⟨o, d1, d2, du, w1, w2, wu, rs, hp⟩ := pieces2 h hr
      exact together h hp
    · exact .inr ⟨fun r hr => h1 ⟨r, hr⟩, fun r hr => h2 ⟨r, hr⟩⟩

end

/-! ### Placed tokens -/

/-- Tokens one after the other. -/
def place (k : Nat) (ts : List Token) : List Ranged := ts.mapIdx fun i t => ⟨t, k + i, k + i + 1⟩

theorem place_toks (k : Nat) (ts : List Token) : (place k ts).map (·.tok) = ts := by
  unfold place
  apply List.ext_getElem
  · simp
  · intro i h1 h2
    simp

theorem place_starts (k : Nat) (ts : List Token) : (place k ts).map (·.start) = List.range' k ts.length := by
  unfold place
  apply List.ext_getElem
  · simp
  · intro i h1 h2
    simp

theorem place_mem {k : Nat} {ts : List Token} {t : Ranged} (h : t ∈ place k ts) : k ≤ t.start ∧ t.start < k + ts.length := by
  have : t.start ∈ (place k ts).map (·.start) := List.mem_map_of_mem h
  rw [place_starts, List.mem_range'_1] at this
  exact this

theorem apart_of_starts {toks : List Ranged} (h : (toks.map (·.start)).Nodup) : KeysApart toks := by
  intro i j a b k l ha hb _ _ e1 _
  have hi := (List.getElem?_eq_some_iff.mp ha).1
  have key : (toks.map (·.start))[i]? = (toks.map (·.start))[j]? := by
    rw [List.getElem?_map, List.getElem?_map, ha, hb, Option.map_some, Option.map_some, e1]
  exact (List.getElem?_inj (by rw [List.length_map]; exact hi) h).mp key

/-! ### Other texts -/

/-- Each text but for its identifier. -/
def code (k : Nat) : Str := List.replicate k 'x'

theorem code_length (k : Nat) : (code k).length = k := by simp [code]

def recodeOne (e : Path × IncludedSource) : Path × IncludedSource :=
  (e.1, match e.2 with
    | .content id _ ix => .content id (code id) ix
    | x => x)

/-- The sources with their identifiers for texts. -/
def recode (s : Sources) : Sources := { s with rootContent := code 0, content := s.content.map recodeOne }

theorem recode_iter (s : Sources) : (recode s).contentIter = s.contentIter.map fun e => (e.1, e.2.1, code e.1) := by
  unfold Sources.contentIter recode
  rw [List.map_cons]
  congr 1
  rw [List.filterMap_map, List.map_filterMap]
  congr 1
  funext e
  obtain ⟨p, x⟩ := e
  cases x <;> rfl

theorem recode_tail (s : Sources) : (recode s).contentIter.tail = s.contentIter.tail.map fun e => (e.1, e.2.1, code e.1) := by
  rw [recode_iter]
  rfl

theorem recode_errors (s : Sources) : (recode s).errorPaths = s.errorPaths := by
  unfold Sources.errorPaths recode
  rw [List.filterMap_map]
  congr 1
  funext e
  obtain ⟨p, x⟩ := e
  cases x <;> rfl

theorem recode_same {tokens tokens' : Str → List Ranged} {s : Sources}
    (h : ∀ e ∈ s.contentIter, SameTokens (tokens e.2.2) (tokens' (code e.1))) : SameSources tokens tokens' s (recode s) where
  rootPath := rfl
  rootContent := h (0, s.rootPath, s.rootContent) List.mem_cons_self
  globs := rfl
  ids := rfl
  content := by
    change List.Forall₂ _ s.content (s.content.map recodeOne)
    rw [List.forall₂_map_right_iff, List.forall₂_same]
    rintro ⟨p, x⟩ hm
    refine ⟨rfl, ?_⟩
    cases x with
    | content id text ix =>
      exact .content (h (id, some p, text) (mem_contentIter.mpr (.inr ⟨p, ix, rfl, hm⟩)))
    | error e => exact .error e
    | duplicate => exact .duplicate

theorem HasInclude.same {tokens tokens' : Str → List Ranged} {t t' : Str} (h : SameTokens (tokens t) (tokens' t')) {i : Str}
    (hi : HasInclude tokens' t' i) : HasInclude tokens t i := by
  unfold HasInclude at hi ⊢
  rw [h]
  exact hi

theorem recode_complete {tokens tokens' : Str → List Ranged} {s : Sources} (hc : Complete tokens s)
    (h : ∀ e ∈ s.contentIter, SameTokens (tokens e.2.2) (tokens' (code e.1))) : Complete tokens' (recode s) where
  below := by
    intro e he
    rw [recode_iter] at he
    obtain ⟨e, hm, rfl⟩ := List.mem_map.mp he
    exact hc.below e hm
  ids := by
    rw [recode_iter, List.map_map]
    exact hc.ids
  paths := by
    rw [recode_iter, List.map_map]
    exact hc.paths
  keys := by
    change ((s.content.map recodeOne).map _).Nodup
    rw [List.map_map]
    exact hc.keys
  expanded := by
    intro e he i hi
    rw [recode_iter] at he
    obtain ⟨e, hm, rfl⟩ := List.mem_map.mp he
    exact hc.expanded e hm i (HasInclude.same (h e hm) hi)

/-! ### Sources -/

theorem find_key {α β : Type} [DecidableEq β] {f : α → β} : ∀ {l : List α}, (l.map f).Nodup → ∀ {e : α}, e ∈ l →
    l.find? (fun x => decide (f x = f e)) = some e
  | [], _, _, h => by cases h
  | x :: l, hn, e, h => by
    rw [List.map_cons, List.nodup_cons] at hn
    rcases List.mem_cons.mp h with rfl | h
    · simp
    · have : f x ≠ f e := fun hh => hn.1 (hh ▸ List.mem_map_of_mem h)
      rw [List.find?_cons_of_neg (by simpa using this)]
      exact find_key hn.2 h

/-- The sources of both runs, by their tokens. -/
structure Split (tokens : Str → List Ranged) (canonicalize : Path → Option Path) (s s' : Sources) (b : Path) (A U C : List Token)
    (g : Str) : Prop where
  complete : Complete tokens s
  complete' : Complete tokens s'
  root : (tokens s.rootContent).map (·.tok) = A ++ ([.include, .stringLiteral g, .eol] ++ C)
  root' : (tokens s'.rootContent).map (·.tok) = A ++ (U ++ C)
  aEnded : WholeLines A
  uEnded : WholeLines U
  uHead : ∀ t ∈ U.head?, t ≠ .indent
  cHead : ∀ t ∈ C.head?, t ≠ .indent
  included : ∃ id text, IsSource s id (some b) text ∧ (tokens text).map (·.tok) = U
  rootPath : s'.rootPath = s.rootPath
  notRoot : s.rootPath ≠ some b
  directory : s.rootPath.bind pathDir = pathDir b
  gone : ∀ id text, ¬ IsSource s' id (some b) text
  others : ∀ p text, p ≠ b → some p ≠ s.rootPath → ((∃ id, IsSource s' id (some p) text) ↔ ∃ id, IsSource s id (some p) text)
  cOpts : ¬ SetsParserOption (place 0 C)
  opts : ∀ e ∈ s.contentIter.tail, ¬ SetsParserOption (tokens e.2.2)
  glob : AMap.get s.globs (resolveIncludedPath s.rootPath (Path.ofStr g)) = some (.expanded [b])
  globs : ∀ e ∈ s'.contentIter, ∀ i, HasInclude tokens e.2.2 i →
    AMap.get s'.globs (resolveIncludedPath e.2.1 (Path.ofStr i)) = AMap.get s.globs (resolveIncludedPath e.2.1 (Path.ofStr i))
  avoids : ∀ e ∈ s'.contentIter, ∀ i, HasInclude tokens e.2.2 i → ∀ q ∈ expansion (AMap.get s.globs) e.2.1 i,
    q ≠ b ∧ ∀ x, canonicalize b = some x → canonicalize q ≠ some x
  errorPaths : ∀ p, AMap.get s'.errorPaths p = AMap.get s.errorPaths p

/-- The tokens, by identifier of the source. -/
def tokens1 (tokens : Str → List Ranged) (s : Sources) (A U C : List Token) (g : Str) (idb k : Nat) : List Ranged :=
  if k = 0 then
    place 0 A ++ ([⟨.include, A.length + U.length + C.length, A.length + U.length + C.length + 1⟩,
      ⟨.stringLiteral g, A.length + U.length + C.length + 1, A.length + U.length + C.length + 2⟩,
      ⟨.eol, A.length + U.length + C.length + 2, A.length + U.length + C.length + 3⟩] ++ place (A.length + U.length) C)
  else if k = idb then place A.length U
  else match s.contentIter.find? (fun x => decide (x.1 = k)) with
    | some e => tokens e.2.2
    | none => []

def tokens2 (tokens : Str → List Ranged) (s : Sources) (A U C : List Token) (k : Nat) : List Ranged :=
  if k = 0 then place 0 A ++ (place A.length U ++ place (A.length + U.length) C)
  else match s.contentIter.find? (fun x => decide (x.1 = k)) with
    | some e => tokens e.2.2
    | none => []

/-- The identifier in the other sources of a source. -/
def number (s s' : Sources) (idb k : Nat) : Nat :=
  if k = 0 ∨ k = idb then 0
  else match s.contentIter.find? (fun x => decide (x.1 = k)) with
    | some e =>
      match s'.contentIter.find? (fun x => decide (x.2.1 = e.2.1)) with
      | some e' => e'.1
      | none => 0
    | none => 0

/-- The same source in the other sources. -/
def pick (s : Sources) (e' : Nat × Option Path × Str) : Nat × Option Path × Str :=
  match s.contentIter.find? (fun x => decide (x.2.1 = e'.2.1)) with
  | some e => e
  | none => e'

theorem root_mem (s : Sources) : (0, s.rootPath, s.rootContent) ∈ s.contentIter := List.mem_cons_self

theorem tail_mem {s : Sources} {e : Nat × Option Path × Str} (h : e ∈ s.contentIter.tail) : e ∈ s.contentIter := List.mem_of_mem_tail h

theorem tail_id {tokens : Str → List Ranged} {s : Sources} (hc : Complete tokens s) {e : Nat × Option Path × Str}
    (h : e ∈ s.contentIter.tail) : e.1 ≠ 0 := by
  have := hc.ids
  change ((0 :: s.contentIter.tail.map (·.1)) : List Nat).Nodup at this
  rw [List.nodup_cons] at this
  exact fun hh => this.1 (hh ▸ List.mem_map_of_mem h)

theorem tail_path {tokens : Str → List Ranged} {s : Sources} (hc : Complete tokens s) {e : Nat × Option Path × Str}
    (h : e ∈ s.contentIter.tail) : e.2.1 ≠ s.rootPath := by
  have := hc.paths
  change ((s.rootPath :: s.contentIter.tail.map (·.2.1)) : List (Option Path)).Nodup at this
  rw [List.nodup_cons] at this
  exact fun hh => this.1 (hh ▸ List.mem_map_of_mem h)

theorem same_id {tokens : Str → List Ranged} {s : Sources} (hc : Complete tokens s) {e e' : Nat × Option Path × Str}
    (h : e ∈ s.contentIter) (h' : e' ∈ s.contentIter) (hh : e.1 = e'.1) : e = e' := by
  have := find_key hc.ids h'
  rw [← hh, find_key hc.ids h] at this
  exact Option.some.inj this

theorem same_path {tokens : Str → List Ranged} {s : Sources} (hc : Complete tokens s) {e e' : Nat × Option Path × Str}
    (h : e ∈ s.contentIter) (h' : e' ∈ s.contentIter) (hh : e.2.1 = e'.2.1) : e = e' := by
  have := find_key (f := fun e : Nat × Option Path × Str => e.2.1) hc.paths h'
  rw [← hh, find_key (f := fun e : Nat × Option Path × Str => e.2.1) hc.paths h] at this
  exact Option.some.inj this

theorem tail_some {s : Sources} {e : Nat × Option Path × Str} (h : e ∈ s.contentIter.tail) : ∃ p, e.2.1 = some p := by
  change e ∈ s.content.filterMap _ at h
  obtain ⟨⟨p, x⟩, _, hx⟩ := List.mem_filterMap.mp h
  cases x with
  | content id t ix => cases hx; exact ⟨p, rfl⟩
  | error _ => cases hx
  | duplicate => cases hx

theorem mem_tail {s : Sources} {e : Nat × Option Path × Str} (h : e ∈ s.contentIter) (hn : e.2.1 ≠ s.rootPath) : e ∈ s.contentIter.tail := by
  rcases List.mem_cons.mp h with rfl | h
  · exact absurd rfl hn
  · exact h

section
variable {tokens : Str → List Ranged} {canonicalize : Path → Option Path} {s s' : Sources} {b : Path} {A U C : List Token} {g : Str}

/-- The other files of `s'` are files of `s`. -/
theorem pick_spec (h : Split tokens canonicalize s s' b A U C g) {e' : Nat × Option Path × Str} (he : e' ∈ s'.contentIter.tail) :
    pick s e' ∈ s.contentIter.tail ∧ (pick s e').2 = e'.2 ∧ e'.2.1 ≠ some b := by
  obtain ⟨p, hp⟩ := tail_some he
  obtain ⟨id, q, text⟩ := e'
  dsimp only at hp
  subst hp
  have hs' := mem_contentIter.mp (tail_mem he)
  have hb : p ≠ b := by
    rintro rfl
    exact h.gone _ _ hs'
  have hr : some p ≠ s.rootPath := by
    rw [← h.rootPath]
    exact tail_path h.complete' he
  obtain ⟨k, hk⟩ := (h.others p text hb hr).mp ⟨id, hs'⟩
  have hm := mem_contentIter.mpr hk
  have := find_key (f := fun e : Nat × Option Path × Str => e.2.1) h.complete.paths hm
  dsimp only at this
  unfold pick
  dsimp only
  rw [this]
  exact ⟨mem_tail hm hr, rfl, fun hh => hb (Option.some.inj hh)⟩

/-- The other files of `s` are files of `s'`. -/
theorem other_spec (h : Split tokens canonicalize s s' b A U C g) {e : Nat × Option Path × Str} (he : e ∈ s.contentIter.tail)
    (hb : e.2.1 ≠ some b) : ∃ e' ∈ s'.contentIter.tail, e'.2 = e.2 ∧ pick s e' = e := by
  obtain ⟨p, hp⟩ := tail_some he
  obtain ⟨id, q, text⟩ := e
  dsimp only at hp hb
  subst hp
  have hs := mem_contentIter.mp (tail_mem he)
  have hr : some p ≠ s.rootPath := tail_path h.complete he
  obtain ⟨k, hk⟩ := (h.others p text (fun hh => hb (hh ▸ rfl)) hr).mpr ⟨id, hs⟩
  have hm := mem_contentIter.mpr hk
  refine ⟨_, mem_tail hm (by rw [h.rootPath]; exact hr), rfl, ?_⟩
  have := find_key (f := fun e : Nat × Option Path × Str => e.2.1) h.complete.paths (tail_mem he)
  dsimp only at this
  unfold pick
  dsimp only
  rw [this]

theorem number_pick (h : Split tokens canonicalize s s' b A U C g) {idb : Nat} {tb : Str} (hb : IsSource s idb (some b) tb)
    {e' : Nat × Option Path × Str} (he : e' ∈ s'.contentIter.tail) :
    number s s' idb (pick s e').1 = e'.1 ∧ (pick s e').1 ≠ idb := by
  obtain ⟨h1, h2, h3⟩ := pick_spec h he
  have hne : (pick s e').1 ≠ idb := by
    intro hh
    have := same_id h.complete (tail_mem h1) (mem_contentIter.mpr hb) hh
    rw [← h2, this] at h3
    exact h3 rfl
  refine ⟨?_, hne⟩
  unfold number
  rw [if_neg (by rintro (x | x); exacts [tail_id h.complete h1 x, hne x]), find_key h.complete.ids (tail_mem h1)]
  dsimp only
  have := find_key (f := fun e : Nat × Option Path × Str => e.2.1) h.complete'.paths (tail_mem he)
  rw [h2, this]

theorem tokens1_other (h : Split tokens canonicalize s s' b A U C g) {idb : Nat} {e : Nat × Option Path × Str}
    (he : e ∈ s.contentIter.tail) (hb : e.1 ≠ idb) : tokens1 tokens s A U C g idb e.1 = tokens e.2.2 := by
  unfold tokens1
  rw [if_neg (tail_id h.complete he), if_neg hb, find_key h.complete.ids (tail_mem he)]

theorem tokens2_other (h : Split tokens canonicalize s s' b A U C g) {e : Nat × Option Path × Str}
    (he : e ∈ s'.contentIter.tail) : tokens2 tokens s' A U C e.1 = tokens e.2.2 := by
  unfold tokens2
  rw [if_neg (tail_id h.complete' he), find_key h.complete'.ids (tail_mem he)]

theorem same1 (h : Split tokens canonicalize s s' b A U C g) {idb : Nat} {tb : Str} (hb : IsSource s idb (some b) tb)
    (hu : (tokens tb).map (·.tok) = U) (e : Nat × Option Path × Str) (he : e ∈ s.contentIter) :
    SameTokens (tokens e.2.2) (tokens1 tokens s A U C g idb e.1) := by
  rcases List.mem_cons.mp he with rfl | ht
  · unfold tokens1 SameTokens
    rw [if_pos rfl, List.map_append, List.map_append, place_toks, place_toks, h.root]
    rfl
  · by_cases hi : e.1 = idb
    · have := same_id h.complete he (mem_contentIter.mpr hb) hi
      have h0 := tail_id h.complete ht
      subst this
      unfold tokens1 SameTokens
      rw [if_neg h0, if_pos rfl, place_toks, hu]
    · rw [tokens1_other h ht hi]
      rfl

theorem same2 (h : Split tokens canonicalize s s' b A U C g) (e : Nat × Option Path × Str) (he : e ∈ s'.contentIter) :
    SameTokens (tokens e.2.2) (tokens2 tokens s' A U C e.1) := by
  rcases List.mem_cons.mp he with rfl | ht
  · unfold tokens2 SameTokens
    rw [if_pos rfl, List.map_append, List.map_append, place_toks, place_toks, place_toks, h.root']
  · rw [tokens2_other h ht]
    rfl

theorem starts1 (A U C : List Token) (g : Str) :
    ((place 0 A ++ ([⟨.include, A.length + U.length + C.length, A.length + U.length + C.length + 1⟩,
      ⟨.stringLiteral g, A.length + U.length + C.length + 1, A.length + U.length + C.length + 2⟩,
      ⟨.eol, A.length + U.length + C.length + 2, A.length + U.length + C.length + 3⟩] ++ place (A.length + U.length) C) : List Ranged).map (·.start)).Nodup := by
  rw [List.map_append, List.map_append, place_starts, place_starts, List.nodup_append, List.nodup_append]
  refine ⟨List.nodup_range', ⟨by simp, List.nodup_range', ?_⟩, ?_⟩
  · intro x hx y hy
    rw [List.mem_range'_1] at hy
    simp at hx
    omega
  · intro x hx y hy
    rw [List.mem_append, List.mem_range'_1] at hy
    rw [List.mem_range'_1] at hx
    simp at hy
    omega

theorem starts2 (A U C : List Token) :
    ((place 0 A ++ (place A.length U ++ place (A.length + U.length) C)).map (·.start)).Nodup := by
  rw [List.map_append, List.map_append, place_starts, place_starts, place_starts, List.nodup_append, List.nodup_append]
  refine ⟨List.nodup_range', ⟨List.nodup_range', List.nodup_range', ?_⟩, ?_⟩
  · intro x hx y hy
    rw [List.mem_range'_1] at hy hx
    omega
  · intro x hx y hy
    rw [List.mem_append, List.mem_range'_1, List.mem_range'_1] at hy
    rw [List.mem_range'_1] at hx
    omega

theorem apart1 (h : Split tokens canonicalize s s' b A U C g) (hk : ∀ id path text, IsSource s id path text → KeysApart (tokens text))
    {idb : Nat} {tb : Str} (hb : IsSource s idb (some b) tb) (e : Nat × Option Path × Str) (he : e ∈ s.contentIter) :
    KeysApart (tokens1 tokens s A U C g idb e.1) := by
  rcases List.mem_cons.mp he with rfl | ht
  · unfold tokens1
    rw [if_pos rfl]
    exact apart_of_starts (starts1 A U C g)
  · by_cases hi : e.1 = idb
    · have h0 := tail_id h.complete ht
      unfold tokens1
      rw [if_neg h0, if_pos hi]
      refine apart_of_starts ?_
      rw [place_starts]
      exact List.nodup_range'
    · rw [tokens1_other h ht hi]
      exact hk _ _ _ (mem_contentIter.mp he)

theorem apart2 (h : Split tokens canonicalize s s' b A U C g) (hk : ∀ id path text, IsSource s' id path text → KeysApart (tokens text))
    (e : Nat × Option Path × Str) (he : e ∈ s'.contentIter) :
    KeysApart (tokens2 tokens s' A U C e.1) := by
  rcases List.mem_cons.mp he with rfl | ht
  · unfold tokens2
    rw [if_pos rfl]
    exact apart_of_starts (starts2 A U C)
  · rw [tokens2_other h ht]
    exact hk _ _ _ (mem_contentIter.mp he)

theorem others_perm (h : Split tokens canonicalize s s' b A U C g) {idb : Nat} {tb : Str} (hb : IsSource s idb (some b) tb) :
    s.contentIter.tail.Perm ((idb, some b, tb) :: s'.contentIter.tail.map (pick s)) := by
  have hbm : (idb, some b, tb) ∈ s.contentIter.tail := mem_tail (mem_contentIter.mpr hb) (Ne.symm h.notRoot)
  rw [List.perm_ext_iff_of_nodup]
  · intro e
    constructor
    · intro he
      by_cases hp : e.2.1 = some b
      · rw [same_path h.complete (tail_mem he) (mem_contentIter.mpr hb) hp]
        exact List.mem_cons_self
      · obtain ⟨e', h1, _, h2⟩ := other_spec h he hp
        exact List.mem_cons_of_mem _ (List.mem_map.mpr ⟨e', h1, h2⟩)
    · intro he
      rcases List.mem_cons.mp he with rfl | he
      · exact hbm
      · obtain ⟨e', h1, rfl⟩ := List.mem_map.mp he
        exact (pick_spec h h1).1
  · exact List.Nodup.of_map _ (h.complete.ids.sublist ((List.tail_sublist _).map _))
  · rw [List.nodup_cons]
    constructor
    · intro hm
      obtain ⟨e', h1, h2⟩ := List.mem_map.mp hm
      obtain ⟨_, h3, h4⟩ := pick_spec h h1
      rw [h2] at h3
      rw [← h3] at h4
      exact h4 rfl
    · apply List.Nodup.of_map (fun e : Nat × Option Path × Str => e.2.1)
      rw [List.map_map]
      have : s'.contentIter.tail.map ((fun e : Nat × Option Path × Str => e.2.1) ∘ pick s) = s'.contentIter.tail.map (·.2.1) := by
        apply List.map_congr_left
        intro e' he'
        exact congrArg Prod.fst (pick_spec h he').2.1
      rw [this]
      exact h.complete'.paths.sublist ((List.tail_sublist _).map _)

theorem place_ended {k : Nat} {ts : List Token} (h : WholeLines ts) : place k ts = [] ∨ ∃ z e, place k ts = z ++ [e] ∧ e.tok = .eol := by
  have hp := place_toks k ts
  rcases h with h | ⟨z, h⟩
  · rw [h] at hp ⊢
    exact .inl rfl
  · rw [h] at hp ⊢
    obtain ⟨u, v, e, _, hv⟩ := List.map_eq_append_iff.mp hp
    obtain ⟨x, v', rfl, h3, h4⟩ := List.map_eq_cons_iff.mp hv
    rw [List.map_eq_nil_iff] at h4
    subst h4
    exact .inr ⟨u, x, e, h3⟩

theorem place_head {k : Nat} {ts : List Token} (h : ∀ t ∈ ts.head?, t ≠ .indent) : ∀ t ∈ (place k ts).head?, t.tok ≠ .indent := by
  intro t ht
  refine h t.tok ?_
  have hp := place_toks k ts
  generalize place k ts = x at hp ht
  subst hp
  rw [List.head?_map]
  rw [Option.mem_def] at ht
  rw [ht]
  rfl

theorem SetsParserOption.same {a b : List Ranged} (h : SameTokens a b) (hs : SetsParserOption a) : SetsParserOption b := by
  unfold SetsParserOption at hs ⊢
  rw [← h]
  exact hs

end

section
variable [Unicode] [DecOps]

/-- The first run, with identifiers for texts. -/
def env1 (env : ParseEnv) (s : Sources) (A U C : List Token) (g : Str) (idb : Nat) : ParseEnv :=
  { env with tokens := fun w => tokens1 env.tokens s A U C g idb w.length, emptySpan := fun _ _ => ⟨0, 0, 0⟩ }

/-- The second run, with identifiers for texts. -/
def env2 (env : ParseEnv) (s' : Sources) (A U C : List Token) : ParseEnv :=
  { env with tokens := fun w => tokens2 env.tokens s' A U C w.length, emptySpan := fun _ _ => ⟨0, 0, 0⟩ }

variable {env : ParseEnv} {s s' : Sources} {b : Path} {A U C : List Token} {g : Str}

theorem core_of_split (h : Split env.tokens env.canonicalize s s' b A U C g) (hx : SameEnv env env) {idb : Nat} {tb : Str}
    (hb : IsSource s idb (some b) tb) (hu : (env.tokens tb).map (·.tok) = U) :
    Core (env1 env s A U C g idb) (env2 env s' A U C) (recode s) (recode s') b (number s s' idb) (place 0 A) (place A.length U)
      (place (A.length + U.length) C)
      (A.length + U.length + C.length, A.length + U.length + C.length + 1)
      (A.length + U.length + C.length + 1, A.length + U.length + C.length + 2)
      (A.length + U.length + C.length + 2, A.length + U.length + C.length + 3)
      g idb (code idb) ((s'.contentIter.tail.map (pick s)).map fun e => (e.1, e.2.1, code e.1)) := by
  have hs1 : ∀ e ∈ s.contentIter, SameTokens (env.tokens e.2.2) ((env1 env s A U C g idb).tokens (code e.1)) := by
    intro e he
    change SameTokens _ (tokens1 _ _ _ _ _ _ _ (code e.1).length)
    rw [code_length]
    exact same1 h hb hu e he
  have hs2 : ∀ e ∈ s'.contentIter, SameTokens (env.tokens e.2.2) ((env2 env s' A U C).tokens (code e.1)) := by
    intro e he
    change SameTokens _ (tokens2 _ _ _ _ _ (code e.1).length)
    rw [code_length]
    exact same2 h e he
  have hbm : (idb, some b, tb) ∈ s.contentIter.tail := mem_tail (mem_contentIter.mpr hb) (Ne.symm h.notRoot)
  have hib : idb ≠ 0 := tail_id h.complete hbm
  constructor
  · exact recode_complete h.complete hs1
  · exact recode_complete h.complete' hs2
  · rfl
  · rfl
  · rfl
  · rfl
  · rfl
  · intro tags metas
    exact (hx.context _ _ _ _ (same_move_left _ _).symm (same_move_left _ _).symm)
  · exact h.rootPath
  · exact h.notRoot
  · exact h.directory
  · exact place_ended h.aEnded
  · exact place_ended h.uEnded
  · exact place_head h.uHead
  · exact place_head h.cHead
  · change tokens1 env.tokens s A U C g idb (code 0).length = _
    rw [code_length]
    unfold tokens1
    rw [if_pos rfl]
  · change tokens2 env.tokens s' A U C (code 0).length = _
    rw [code_length]
    unfold tokens2
    rw [if_pos rfl]
  · change tokens1 env.tokens s A U C g idb (code idb).length = _
    rw [code_length]
    unfold tokens1
    rw [if_neg hib, if_pos rfl]
  · rw [recode_tail]
    exact (others_perm h hb).map _
  · rw [recode_tail, List.forall₂_map_left_iff, List.forall₂_map_right_iff, List.forall₂_map_left_iff, List.forall₂_same]
    intro e' he'
    obtain ⟨h1, h2, h3⟩ := pick_spec h he'
    obtain ⟨h4, h5⟩ := number_pick h hb he'
    refine ⟨h4.symm, (congrArg Prod.fst h2).symm, ?_⟩
    change tokens2 _ _ _ _ _ (code e'.1).length = tokens1 _ _ _ _ _ _ _ (code (pick s e').1).length
    rw [code_length, code_length, tokens2_other h he', tokens1_other h h1 h5, h2]
  · rfl
  · unfold number
    rw [if_pos (.inr rfl)]
  · have cases3 : ∀ e ∈ s.contentIter, e.1 = 0 ∨ e.1 = idb ∨ ∃ e' ∈ s'.contentIter.tail, pick s e' = e := by
      intro e he
      rcases List.mem_cons.mp he with rfl | ht
      · exact .inl rfl
      · by_cases hp : e.2.1 = some b
        · rw [same_path h.complete he (mem_contentIter.mpr hb) hp]
          exact .inr (.inl rfl)
        · obtain ⟨e', h1, _, h2⟩ := other_spec h ht hp
          exact .inr (.inr ⟨e', h1, h2⟩)
    have n0 : number s s' idb 0 = 0 := rfl
    have nb : number s s' idb idb = 0 := by
      unfold number
      rw [if_pos (.inr rfl)]
    have at0 : ∀ t ∈ tokens1 env.tokens s A U C g idb 0, ∀ t' ∈ tokens1 env.tokens s A U C g idb idb, t.start ≠ t'.start := by
      intro t ht t' ht'
      unfold tokens1 at ht ht'
      rw [if_pos rfl] at ht
      rw [if_neg hib, if_pos rfl] at ht'
      have hu := place_mem ht'
      rcases List.mem_append.mp ht with ht | ht
      · have := place_mem ht
        omega
      · rcases List.mem_append.mp ht with ht | ht
        · simp only [List.mem_cons, List.not_mem_nil, or_false] at ht
          rcases ht with rfl | rfl | rfl <;> dsimp only <;> omega
        · have := place_mem ht
          omega
    intro e he e' he' t ht t' ht' k k' hk hk' hn hs _
    rw [recode_iter] at he he'
    obtain ⟨e, hm, rfl⟩ := List.mem_map.mp he
    obtain ⟨e', hm', rfl⟩ := List.mem_map.mp he'
    change t ∈ tokens1 _ _ _ _ _ _ _ (code e.1).length at ht
    change t' ∈ tokens1 _ _ _ _ _ _ _ (code e'.1).length at ht'
    rw [code_length] at ht ht'
    dsimp only at hn ⊢
    rcases cases3 e hm with h1 | h1 | ⟨x, hx1, hx2⟩
    · rw [h1] at hn ht ⊢
      rcases cases3 e' hm' with h2 | h2 | ⟨y, hy1, hy2⟩
      · exact h2.symm
      · rw [h2] at ht'
        exact absurd hs (at0 t ht t' ht')
      · rw [← hy2, (number_pick h hb hy1).1, n0] at hn
        exact absurd hn.symm (tail_id h.complete' hy1)
    · rw [h1] at hn ht ⊢
      rcases cases3 e' hm' with h2 | h2 | ⟨y, hy1, hy2⟩
      · rw [h2] at ht'
        exact absurd hs.symm (at0 t' ht' t ht)
      · exact h2.symm
      · rw [← hy2, (number_pick h hb hy1).1, nb] at hn
        exact absurd hn.symm (tail_id h.complete' hy1)
    · rw [← hx2, (number_pick h hb hx1).1] at hn
      rcases cases3 e' hm' with h2 | h2 | ⟨y, hy1, hy2⟩
      · rw [h2, n0] at hn
        exact absurd hn (tail_id h.complete' hx1)
      · rw [h2, nb] at hn
        exact absurd hn (tail_id h.complete' hx1)
      · rw [← hy2, (number_pick h hb hy1).1] at hn
        rw [← hx2, ← hy2, same_id h.complete' (tail_mem hx1) (tail_mem hy1) hn]
  · intro hh
    exact h.cOpts (SetsParserOption.same (by unfold SameTokens; rw [place_toks, place_toks]) hh)
  · intro e he hh
    rw [recode_tail] at he
    obtain ⟨e, hm, rfl⟩ := List.mem_map.mp he
    exact h.opts e hm (SetsParserOption.same (hs1 e (tail_mem hm)).symm hh)
  · exact h.glob
  · intro e he i hi
    rw [recode_iter] at he
    obtain ⟨e, hm, rfl⟩ := List.mem_map.mp he
    exact h.globs e hm i (HasInclude.same (hs2 e hm) hi)
  · intro e he i hi q hq
    rw [recode_iter] at he
    obtain ⟨e, hm, rfl⟩ := List.mem_map.mp he
    exact h.avoids e hm i (HasInclude.same (hs2 e hm) hi) q hq
  · intro p
    rw [recode_errors, recode_errors]
    exact h.errorPaths p

theorem perm_map {α β : Type} {f : α → β} {l : List α} {x : List β} (h : (l.map f).Perm x) : ∃ l', l.Perm l' ∧ l'.map f = x := by
  have h0 : List.Forall₂ (fun y z => y = f z) (l.map f) l := by
    rw [List.forall₂_map_left_iff, List.forall₂_same]
    intro _ _
    rfl
  obtain ⟨l', h1, h2⟩ := List.perm_comp_forall₂ h.symm h0
  refine ⟨l', h2.symm, ?_⟩
  · clear h2 h0 h
    induction h1 with
    | nil => rfl
    | cons h _ ih => rw [List.map_cons, ih, h]

theorem split_parse (h : Split env.tokens env.canonicalize s s' b A U C g) (hx : SameEnv env env)
    (hk : ∀ id path text, IsSource s id path text → KeysApart (env.tokens text))
    (hk' : ∀ id path text, IsSource s' id path text → KeysApart (env.tokens text)) :
    (∃ r r', parseSources env s = .ok r ∧ parseSources env s' = .ok r' ∧ SameSuccess r r') ∨
    ((∀ r, parseSources env s ≠ .ok r) ∧ ∀ r, parseSources env s' ≠ .ok r) := by
  obtain ⟨idb, tb, hb, hu⟩ := h.included
  have hs1 : ∀ e ∈ s.contentIter, SameTokens (env.tokens e.2.2) ((env1 env s A U C g idb).tokens (code e.1)) := by
    intro e he
    change SameTokens _ (tokens1 _ _ _ _ _ _ _ (code e.1).length)
    rw [code_length]
    exact same1 h hb hu e he
  have hs2 : ∀ e ∈ s'.contentIter, SameTokens (env.tokens e.2.2) ((env2 env s' A U C).tokens (code e.1)) := by
    intro e he
    change SameTokens _ (tokens2 _ _ _ _ _ (code e.1).length)
    rw [code_length]
    exact same2 h e he
  have p1 := Layout.parseSources_same (env := env) (env' := env1 env s A U C g idb) ⟨rfl, rfl, hx.context⟩ (recode_same hs1) hk
    (by
      intro id path text hi
      have := mem_contentIter.mpr hi
      rw [recode_iter] at this
      obtain ⟨e, hm, he⟩ := List.mem_map.mp this
      cases he
      change KeysApart (tokens1 _ _ _ _ _ _ _ (code e.1).length)
      rw [code_length]
      exact apart1 h hk hb e hm)
  have p2 := Layout.parseSources_same (env := env) (env' := env2 env s' A U C) ⟨rfl, rfl, hx.context⟩ (recode_same hs2) hk'
    (by
      intro id path text hi
      have := mem_contentIter.mpr hi
      rw [recode_iter] at this
      obtain ⟨e, hm, he⟩ := List.mem_map.mp this
      cases he
      change KeysApart (tokens2 _ _ _ _ _ (code e.1).length)
      rw [code_length]
      exact apart2 h hk' e hm)
  have okOf : ∀ {x y : Res ParseError ParseSuccess}, SameButPlaces x y → ∀ r, y = .ok r → ∃ r', x = .ok r' ∧ SameButPlaces r' r := by
    intro x y hxy r hy
    subst hy
    cases x with
    | ok r' => exact ⟨r', rfl, by injection hxy⟩
    | err _ => cases hxy
    | panic => cases hxy
  rcases core (core_of_split h hx hb hu) with ⟨r1, r2, q1, q2, q3⟩ | ⟨q1, q2⟩
  · obtain ⟨r, e1, e2⟩ := okOf p1 _ q1
    obtain ⟨r', e3, e4⟩ := okOf p2 _ q2
    refine .inl ⟨r, r', e1, e3, ?_⟩
    have d1 : ∀ {α : Type} [Places α] [Places.Lawful α] (x : α), move (fun _ => ⟨0, 0, 0⟩) (move (renumber (number s s' idb)) x) = move (fun _ => ⟨0, 0, 0⟩) x :=
      fun x => same_move_left _ _
    refine ⟨?_, ?_, ?_, ?_⟩
    · have h1 : move _ r.directives = move _ r1.directives := congrArg ParseSuccess.directives e2
      have h2 : move _ r'.directives = move _ r2.directives := congrArg ParseSuccess.directives e4
      unfold SameButPlaces
      rw [h1, h2, q3.directives, d1]
    · have h1 : move _ r.options = move _ r1.options := congrArg ParseSuccess.options e2
      have h2 : move _ r'.options = move _ r2.options := congrArg ParseSuccess.options e4
      unfold SameButPlaces
      rw [h1, h2, q3.options, d1]
    · have h1 : move _ r.plugins = move _ r1.plugins := congrArg ParseSuccess.plugins e2
      have h2 : move _ r'.plugins = move _ r2.plugins := congrArg ParseSuccess.plugins e4
      unfold SameButPlaces
      rw [h1, h2, q3.plugins, d1]
    · have h1 : move (fun _ => ⟨0, 0, 0⟩) r.warnings = move (fun _ => ⟨0, 0, 0⟩) r1.warnings := congrArg ParseSuccess.warnings e2
      have h2 : move (fun _ => ⟨0, 0, 0⟩) r'.warnings = move (fun _ => ⟨0, 0, 0⟩) r2.warnings := congrArg ParseSuccess.warnings e4
      obtain ⟨extra, h3, h4⟩ := q3.warnings
      have h5 := h4.map (move (fun _ => ⟨0, 0, 0⟩))
      have h6 : List.map (move (fun _ => ⟨0, 0, 0⟩)) (move (renumber (number s s' idb)) r1.warnings) = List.map (move (fun _ => ⟨0, 0, 0⟩)) r.warnings := by
        change move (fun _ => ⟨0, 0, 0⟩) (move (renumber (number s s' idb)) r1.warnings) = move (fun _ => ⟨0, 0, 0⟩) r.warnings
        rw [d1, h1]
      rw [h6] at h5
      obtain ⟨all, h7, h8⟩ := perm_map h5
      refine ⟨all, extra, h7, h3, ?_⟩
      change List.map _ all = List.map _ (extra ++ r'.warnings)
      rw [h8, List.map_append, List.map_append]
      congr 1
      exact h2.symm
  · refine .inr ⟨fun r hr => ?_, fun r hr => ?_⟩
    · obtain ⟨r', hr', _⟩ := okOf p1.symm _ hr
      exact q1 _ hr'
    · obtain ⟨r', hr', _⟩ := okOf p2.symm _ hr
      exact q2 _ hr'

end

end Lima.InPlaceParse
