import Verif.Lemmas.Spans
import Verif.Lemmas.Path
import Verif.Lemmas.Maps

/-! # Invariant of reading sources -/

namespace Lima
open Lima.Spec

variable (fs : FileSystem) (tokens : Str → List Ranged) (rootPath : Option Path) (rootContent : Str)

/-- What holds throughout the loop; `cur` is the include being expanded. -/
structure RInv (cur : Option Path) (st : ReadState) : Prop where
  ids : st.ids = (rootPath.map Path.render).getD (str "inline") :: st.reads.map Path.render
  seen : ∀ p ∈ st.reads, ∃ c, fs.canonicalize p = some c ∧ c ∈ st.canonical
  nodup : (st.reads.map fs.canonicalize).Nodup
  root : ∀ c, rootPath.bind fs.canonicalize = some c →
    c ∈ st.canonical ∧ some c ∉ st.reads.map fs.canonicalize
  entry : ∀ p id text ix, (p, IncludedSource.content id text ix) ∈ st.content →
    1 ≤ id ∧ st.reads[id - 1]? = some p ∧ fs.read p = .ok text ∧ ix = charIndices text
  keyed : ∀ p ∈ st.reads, AMap.has st.content p = true
  keys : (st.content.map (·.1)).Nodup
  incRoot : ∀ i ∈ getIncludes tokens rootContent,
    let q := resolveIncludedPath rootPath (Path.ofStr i)
    q ∈ st.pending ∨ AMap.has st.globs q = true ∨ cur = some q
  incFile : ∀ p id text ix, (p, IncludedSource.content id text ix) ∈ st.content →
    ∀ i ∈ getIncludes tokens text,
      let q := resolveIncludedPath (some p) (Path.ofStr i)
      q ∈ st.pending ∨ AMap.has st.globs q = true ∨ cur = some q
  expanded : ∀ g x, AMap.get st.globs g = some x →
    match fs.glob g with
    | .error e => x = .error e
    | .ok gs => x = .expanded (gs.map Globbed.thePath)
  recorded : ∀ g ps, AMap.get st.globs g = some (.expanded ps) → ∀ q ∈ ps,
    AMap.has st.content q = true ∨ fs.canonicalize q = none
  canonMem : ∀ c ∈ st.canonical, rootPath.bind fs.canonicalize = some c ∨
    some c ∈ st.reads.map fs.canonicalize
  wf : ∀ p ∈ st.reads, p.WF
  dup : ∀ p, (p, IncludedSource.duplicate) ∈ st.content →
    ∃ c, fs.canonicalize p = some c ∧ c ∈ st.canonical

theorem AMap.mem_insert {κ ν : Type} [DecidableEq κ] {m : List (κ × ν)} {k : κ} {v : ν} {e : κ × ν}
    (h : e ∈ AMap.insert m k v) : e = (k, v) ∨ (e ∈ m ∧ e.1 ≠ k) := by
  unfold AMap.insert at h
  split at h
  · obtain ⟨x, hx, he⟩ := List.mem_map.mp h
    split at he
    · exact .inl he.symm
    · subst he; exact .inr ⟨hx, by assumption⟩
  · rename_i hh
    rcases List.mem_append.mp h with h | h
    · refine .inr ⟨h, fun e' => hh ?_⟩
      rw [AMap.has_iff]; exact ⟨e, h, e'⟩
    · simp at h; exact .inl h

theorem AMap.keys_insert {κ ν : Type} [DecidableEq κ] (m : List (κ × ν)) (k : κ) (v : ν)
    (h : (m.map (·.1)).Nodup) : ((AMap.insert m k v).map (·.1)).Nodup := by
  unfold AMap.insert
  split
  · have : (m.map (fun e => if e.1 = k then (k, v) else e)).map (·.1) = m.map (·.1) := by
      rw [List.map_map]
      apply List.map_congr_left
      intro e _
      simp only [Function.comp]
      split <;> simp_all
    rw [this]; exact h
  · rename_i hh
    rw [List.map_append]
    refine List.nodup_append.mpr ⟨h, by simp, ?_⟩
    intro a ha b hb e
    simp only [List.map_cons, List.map_nil, List.mem_singleton] at hb
    subst hb; subst e
    obtain ⟨x, hx, rfl⟩ := List.mem_map.mp ha
    exact hh (by rw [AMap.has_iff]; exact ⟨x, hx, rfl⟩)

theorem AMap.has_insert_of {κ ν : Type} [DecidableEq κ] {m : List (κ × ν)} {k k' : κ} {v : ν}
    (h : AMap.has m k' = true) : AMap.has (AMap.insert m k v) k' = true := by
  rw [AMap.has_insert, h]; simp

theorem AMap.get_of_mem {κ ν : Type} [DecidableEq κ] {m : List (κ × ν)} (hn : (m.map (·.1)).Nodup) {k : κ}
    {v : ν} (h : (k, v) ∈ m) : AMap.get m k = some v := by
  induction m with
  | nil => cases h
  | cons e m ih =>
    rw [AMap.get_cons]
    rw [List.map_cons, List.nodup_cons] at hn
    rcases List.mem_cons.mp h with rfl | h
    · simp
    · have : e.1 ≠ k := by
        intro e'; exact hn.1 (List.mem_map.mpr ⟨(k, v), h, e'.symm⟩)
      rw [if_neg this, ih hn.2 h]

variable {fs tokens rootPath rootContent}

theorem RInv.readGlobbed {cur : Option Path} {st : ReadState} (g : Globbed) (hg : g.thePath.WF)
    (inv : RInv fs tokens rootPath rootContent cur st) :
    RInv fs tokens rootPath rootContent cur (readGlobbed fs tokens st g) ∧
    (AMap.has (Lima.readGlobbed fs tokens st g).content g.thePath = true ∨ fs.canonicalize g.thePath = none) ∧
    (∀ q, AMap.has st.content q = true → AMap.has (Lima.readGlobbed fs tokens st g).content q = true) ∧
    (Lima.readGlobbed fs tokens st g).globs = st.globs := by
  unfold Lima.readGlobbed
  split
  · -- an error from the glob iterator
    rename_i p e
    have hx : ∀ p' id text ix, (p', IncludedSource.content id text ix) ∈ AMap.insert st.content p (.error e) →
        (p', IncludedSource.content id text ix) ∈ st.content := by
      intro p' id text ix h
      rcases AMap.mem_insert h with h | h
      · cases h
      · exact h.1
    refine ⟨⟨inv.ids, inv.seen, inv.nodup, inv.root, ?_, ?_, AMap.keys_insert _ _ _ inv.keys, inv.incRoot, ?_,
      inv.expanded, ?_, inv.canonMem, inv.wf, ?_⟩, ?_, ?_, rfl⟩
    · intro p' id text ix h; exact inv.entry p' id text ix (hx _ _ _ _ h)
    · intro p' h; exact AMap.has_insert_of (inv.keyed p' h)
    · intro p' id text ix h; exact inv.incFile p' id text ix (hx _ _ _ _ h)
    · intro g ps h q hq
      rcases inv.recorded g ps h q hq with h | h
      · exact .inl (AMap.has_insert_of h)
      · exact .inr h
    · intro p' h
      rcases AMap.mem_insert h with h | h
      · cases h
      · exact inv.dup p' h.1
    · left; simp [Globbed.thePath, AMap.has_insert]
    · intro q h; exact AMap.has_insert_of h
  · rename_i p
    simp only [Globbed.thePath] at hg ⊢
    split
    · rename_i hc
      exact ⟨inv, .inr hc, fun _ h => h, rfl⟩
    · rename_i c hc
      split
      · rename_i hmem
        split
        · rename_i hh
          exact ⟨inv, .inl hh, fun _ h => h, rfl⟩
        · -- a duplicate
          rename_i hh
          have hx : ∀ p' id text ix, (p', IncludedSource.content id text ix) ∈ AMap.insert st.content p .duplicate →
              (p', IncludedSource.content id text ix) ∈ st.content := by
            intro p' id text ix h
            rcases AMap.mem_insert h with h | h
            · cases h
            · exact h.1
          refine ⟨⟨inv.ids, inv.seen, inv.nodup, inv.root, ?_, ?_, AMap.keys_insert _ _ _ inv.keys, inv.incRoot, ?_,
            inv.expanded, ?_, inv.canonMem, inv.wf, ?_⟩, ?_, ?_, rfl⟩
          · intro p' id text ix h; exact inv.entry p' id text ix (hx _ _ _ _ h)
          · intro p' h; exact AMap.has_insert_of (inv.keyed p' h)
          · intro p' id text ix h; exact inv.incFile p' id text ix (hx _ _ _ _ h)
          · intro g ps h q hq
            rcases inv.recorded g ps h q hq with h | h
            · exact .inl (AMap.has_insert_of h)
            · exact .inr h
          · intro p' h
            rcases AMap.mem_insert h with h | h
            · cases h; exact ⟨c, hc, hmem⟩
            · exact inv.dup p' h.1
          · left; simp [AMap.has_insert]
          · intro q h; exact AMap.has_insert_of h
      · -- a new file
        rename_i hnew
        have hlen : st.ids.length = st.reads.length + 1 := by rw [inv.ids]; simp
        have hnotread : some c ∉ st.reads.map fs.canonicalize := by
          intro h
          obtain ⟨q, hq, he⟩ := List.mem_map.mp h
          obtain ⟨c', h1, h2⟩ := inv.seen q hq
          rw [he] at h1; cases h1; exact hnew h2
        have hp : p ∉ st.reads := by
          intro h; exact hnotread (List.mem_map.mpr ⟨p, h, hc⟩)
        have h_ids : st.ids ++ [p.render] = (rootPath.map Path.render).getD (str "inline") ::
            (st.reads ++ [p]).map Path.render := by rw [inv.ids]; simp
        have h_seen : ∀ q ∈ st.reads ++ [p], ∃ c', fs.canonicalize q = some c' ∧ c' ∈ c :: st.canonical := by
          intro q hq
          rcases List.mem_append.mp hq with hq | hq
          · obtain ⟨c', h1, h2⟩ := inv.seen q hq
            exact ⟨c', h1, by simp [h2]⟩
          · simp at hq; subst hq; exact ⟨c, hc, by simp⟩
        have h_nodup : ((st.reads ++ [p]).map fs.canonicalize).Nodup := by
          rw [List.map_append]
          refine List.nodup_append.mpr ⟨inv.nodup, by simp, ?_⟩
          intro a ha b hb e
          simp at hb
          subst hb; subst e
          rw [hc] at ha
          exact hnotread ha
        have h_root : ∀ c', rootPath.bind fs.canonicalize = some c' →
            c' ∈ c :: st.canonical ∧ some c' ∉ (st.reads ++ [p]).map fs.canonicalize := by
          intro c' h
          obtain ⟨h1, h2⟩ := inv.root c' h
          refine ⟨by simp [h1], ?_⟩
          rw [List.map_append, List.mem_append]
          rintro (h3 | h3)
          · exact h2 h3
          · simp [hc] at h3; subst h3; exact hnew h1
        have h_canonMem : ∀ c' ∈ c :: st.canonical, rootPath.bind fs.canonicalize = some c' ∨
            some c' ∈ (st.reads ++ [p]).map fs.canonicalize := by
          intro c' h
          rcases List.mem_cons.mp h with rfl | h
          · right; simp [hc]
          · rcases inv.canonMem c' h with h | h
            · exact .inl h
            · right; rw [List.map_append]; exact List.mem_append.mpr (.inl h)
        have h_wf : ∀ q ∈ st.reads ++ [p], q.WF := by
          intro q hq
          rcases List.mem_append.mp hq with hq | hq
          · exact inv.wf q hq
          · simp at hq; subst hq; exact hg
        have h_old : ∀ p' id text ix, (p', IncludedSource.content id text ix) ∈ st.content →
            1 ≤ id ∧ (st.reads ++ [p])[id - 1]? = some p' ∧ fs.read p' = .ok text ∧ ix = charIndices text := by
          intro p' id text ix h
          obtain ⟨h1, h2, h3, h4⟩ := inv.entry p' id text ix h
          refine ⟨h1, ?_, h3, h4⟩
          rw [List.getElem?_append_left (List.getElem?_eq_some_iff.mp h2).1]
          exact h2
        split
        · rename_i e he
          have hx : ∀ p' id text ix, (p', IncludedSource.content id text ix) ∈
              AMap.insert st.content p (.error (p.render ++ str ": " ++ e)) →
              (p', IncludedSource.content id text ix) ∈ st.content := by
            intro p' id text ix h
            rcases AMap.mem_insert h with h | h
            · cases h
            · exact h.1
          refine ⟨⟨h_ids, h_seen, h_nodup, h_root, ?_, ?_, AMap.keys_insert _ _ _ inv.keys, inv.incRoot, ?_,
            inv.expanded, ?_, h_canonMem, h_wf, ?_⟩, ?_, ?_, rfl⟩
          · intro p' id text ix h; exact h_old p' id text ix (hx _ _ _ _ h)
          · intro q hq
            rcases List.mem_append.mp hq with hq | hq
            · exact AMap.has_insert_of (inv.keyed q hq)
            · simp at hq; subst hq; simp [AMap.has_insert]
          · intro p' id text ix h; exact inv.incFile p' id text ix (hx _ _ _ _ h)
          · intro g ps h q hq
            rcases inv.recorded g ps h q hq with h | h
            · exact .inl (AMap.has_insert_of h)
            · exact .inr h
          · intro p' h
            rcases AMap.mem_insert h with h | h
            · cases h
            · obtain ⟨c', h1, h2⟩ := inv.dup p' h.1
              exact ⟨c', h1, by simp [h2]⟩
          · left; simp [AMap.has_insert]
          · intro q h; exact AMap.has_insert_of h
        · rename_i text htext
          refine ⟨⟨h_ids, h_seen, h_nodup, h_root, ?_, ?_, AMap.keys_insert _ _ _ inv.keys, ?_, ?_,
            inv.expanded, ?_, h_canonMem, h_wf, ?_⟩, ?_, ?_, rfl⟩
          · intro p' id text' ix h
            rcases AMap.mem_insert h with h | h
            · cases h
              refine ⟨by omega, ?_, htext, rfl⟩
              rw [hlen]; simp
            · exact h_old p' id text' ix h.1
          · intro q hq
            rcases List.mem_append.mp hq with hq | hq
            · exact AMap.has_insert_of (inv.keyed q hq)
            · simp at hq; subst hq; simp [AMap.has_insert]
          · intro i hi
            rcases inv.incRoot i hi with h | h
            · exact .inl (List.mem_append.mpr (.inl h))
            · exact .inr h
          · intro p' id text' ix h i hi
            rcases AMap.mem_insert h with h | h
            · cases h
              exact .inl (List.mem_append.mpr (.inr (List.mem_map.mpr ⟨i, hi, rfl⟩)))
            · rcases inv.incFile p' id text' ix h.1 i hi with h | h
              · exact .inl (List.mem_append.mpr (.inl h))
              · exact .inr h
          · intro g ps h q hq
            rcases inv.recorded g ps h q hq with h | h
            · exact .inl (AMap.has_insert_of h)
            · exact .inr h
          · intro p' h
            rcases AMap.mem_insert h with h | h
            · cases h
            · obtain ⟨c', h1, h2⟩ := inv.dup p' h.1
              exact ⟨c', h1, by simp [h2]⟩
          · left; simp [AMap.has_insert]
          · intro q h; exact AMap.has_insert_of h

theorem RInv.foldl {cur : Option Path} (gs : List Globbed) (hg : ∀ g ∈ gs, g.thePath.WF) {st : ReadState}
    (inv : RInv fs tokens rootPath rootContent cur st) :
    RInv fs tokens rootPath rootContent cur (gs.foldl (Lima.readGlobbed fs tokens) st) ∧
    (∀ g ∈ gs, AMap.has (gs.foldl (Lima.readGlobbed fs tokens) st).content g.thePath = true ∨
      fs.canonicalize g.thePath = none) ∧
    (∀ q, AMap.has st.content q = true → AMap.has (gs.foldl (Lima.readGlobbed fs tokens) st).content q = true) := by
  induction gs generalizing st with
  | nil => exact ⟨inv, by simp, fun _ h => h⟩
  | cons g gs ih =>
    obtain ⟨h1, h2, h3, _⟩ := inv.readGlobbed g (hg g (by simp))
    obtain ⟨k1, k2, k3⟩ := ih (fun g hg' => hg g (by simp [hg'])) h1
    rw [List.foldl_cons]
    refine ⟨k1, ?_, fun q h => k3 q (h3 q h)⟩
    intro g' hg'
    rcases List.mem_cons.mp hg' with rfl | hg'
    · rcases h2 with h2 | h2
      · exact .inl (k3 _ h2)
      · exact .inr h2
    · exact k2 g' hg'

theorem RInv.step (hwf : GlobsWF fs) {st st' : ReadState} (inv : RInv fs tokens rootPath rootContent none st)
    (h : readStep fs tokens st = some st') : RInv fs tokens rootPath rootContent none st' := by
  unfold readStep at h
  split at h
  · cases h
  · rename_i included pending hp
    have inv1 : RInv fs tokens rootPath rootContent (some included) { st with pending := pending } := by
      refine ⟨inv.ids, inv.seen, inv.nodup, inv.root, inv.entry, inv.keyed, inv.keys, ?_, ?_, inv.expanded,
        inv.recorded, inv.canonMem, inv.wf, inv.dup⟩
      · intro i hi
        rcases inv.incRoot i hi with h | h | h
        · rw [hp] at h
          rcases List.mem_cons.mp h with h | h
          · exact .inr (.inr (by rw [h]))
          · exact .inl h
        · exact .inr (.inl h)
        · cases h
      · intro p id text ix hm i hi
        rcases inv.incFile p id text ix hm i hi with h | h | h
        · rw [hp] at h
          rcases List.mem_cons.mp h with h | h
          · exact .inr (.inr (by rw [h]))
          · exact .inl h
        · exact .inr (.inl h)
        · cases h
    dsimp only at h
    have finish : ∀ (s : ReadState) (x : IncludedGlob),
        RInv fs tokens rootPath rootContent (some included) s →
        (match fs.glob included with
          | .error e => x = .error e
          | .ok gs => x = .expanded (gs.map Globbed.thePath)) →
        (∀ ps, x = .expanded ps → ∀ q ∈ ps, AMap.has s.content q = true ∨ fs.canonicalize q = none) →
        RInv fs tokens rootPath rootContent none { s with globs := AMap.insert s.globs included x } := by
      intro s x inv hx1 hx2
      refine ⟨inv.ids, inv.seen, inv.nodup, inv.root, inv.entry, inv.keyed, inv.keys, ?_, ?_, ?_,
        ?_, inv.canonMem, inv.wf, inv.dup⟩
      · intro i hi
        rcases inv.incRoot i hi with h | h | h
        · exact .inl h
        · exact .inr (.inl (AMap.has_insert_of h))
        · injection h with h
          exact .inr (.inl (by rw [AMap.has_insert, h]; simp))
      · intro p id text ix hm i hi
        rcases inv.incFile p id text ix hm i hi with h | h | h
        · exact .inl h
        · exact .inr (.inl (AMap.has_insert_of h))
        · injection h with h
          exact .inr (.inl (by rw [AMap.has_insert, h]; simp))
      · intro g y hy
        simp only [AMap.get_insert] at hy
        split at hy
        · rename_i e; subst e
          cases hy; exact hx1
        · exact inv.expanded g y hy
      · intro g ps hy q hq
        simp only [AMap.get_insert] at hy
        split at hy
        · injection hy with hy
          exact hx2 ps hy q hq
        · exact inv.recorded g ps hy q hq
    split at h
    · rename_i e he
      cases h
      exact finish _ _ inv1 (by rw [he]) (by intro ps h; cases h)
    · rename_i gs hgs
      cases h
      obtain ⟨k1, k2, _⟩ := inv1.foldl gs (hwf included gs hgs)
      refine finish _ _ k1 (by rw [hgs]) ?_
      intro ps h q hq
      cases h
      obtain ⟨g, hg, rfl⟩ := List.mem_map.mp hq
      exact k2 g hg

theorem RInv.init : RInv fs tokens rootPath rootContent none (readInit fs tokens rootPath rootContent) where
  ids := rfl
  seen := by simp [readInit]
  nodup := by simp [readInit]
  root := by intro c h; simp [readInit, h]
  entry := by simp [readInit]
  keyed := by simp [readInit]
  keys := by simp [readInit]
  incRoot := by
    intro i hi
    exact .inl (List.mem_map.mpr ⟨i, hi, rfl⟩)
  incFile := by simp [readInit]
  expanded := by simp [readInit, AMap.get_nil]
  recorded := by simp [readInit, AMap.get_nil]
  canonMem := by
    intro c h
    simp only [readInit, Option.mem_toList] at h
    exact .inl h
  wf := by simp [readInit]
  dup := by simp [readInit]

theorem readLoop_reads (st : ReadState) :
    ∃ n, Reads fs tokens n st (readLoop fs tokens st) ∧ (readLoop fs tokens st).pending = [] := by
  fun_induction readLoop fs tokens st with
  | case1 st h =>
    refine ⟨0, .zero _, ?_⟩
    unfold readStep at h
    split at h
    · assumption
    · dsimp only at h
      split at h <;> cases h
  | case2 st st' h ih =>
    obtain ⟨n, h1, h2⟩ := ih
    exact ⟨n + 1, .succ _ _ _ _ h h1, h2⟩

theorem reads_inv (hwf : GlobsWF fs) {n : Nat} {s s' : ReadState} (h : Reads fs tokens n s s')
    (inv : RInv fs tokens rootPath rootContent none s) : RInv fs tokens rootPath rootContent none s' := by
  induction h with
  | zero => exact inv
  | succ n s s' s'' h _ ih => exact ih (inv.step hwf h)

theorem readLoop_inv (hwf : GlobsWF fs) :
    RInv fs tokens rootPath rootContent none
      (readLoop fs tokens (readInit fs tokens rootPath rootContent)) := by
  obtain ⟨n, h, _⟩ := readLoop_reads (fs := fs) (tokens := tokens) (readInit fs tokens rootPath rootContent)
  exact reads_inv hwf h .init

end Lima
