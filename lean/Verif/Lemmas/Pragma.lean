import Verif.Spec.Pragma
import Verif.Lemmas.Sources

/-!
# The pragma processor as a fold over spliced events
-/

namespace Lima
open Lima.Spec

abbrev FileMap := Option Path → Option (List (Spanned Declaration))

/-- Effect of the loop over expanded paths on the data, given which paths are opened. -/
def applyPaths (env : PragmaEnv) (span : Span) : PragmaData → List Path → List Path → PragmaData
  | d, _, [] => d
  | d, toOpen, p :: ps =>
    if p ∈ toOpen then applyPaths env span (d.opened env span p) (toOpen.erase p) ps
    else applyPaths env span (d.notOpened env span p) toOpen ps

/-- Effect of an event on the data. -/
def applyEvent (env : PragmaEnv) (d : PragmaData) (e : Event) : PragmaData :=
  match e.decl.item with
  | .directive _ => d
  | .pragma (.pushtag tag) => d.pushtag tag
  | .pragma (.poptag tag) => d.poptag tag
  | .pragma (.pushmeta kv) => d.pushmeta kv
  | .pragma (.popmeta key) => d.popmeta key
  | .pragma (.option o) => d.option o
  | .pragma (.plugin p) => { d with plugins := d.plugins ++ [p] }
  | .pragma (.include g) =>
    match AMap.get env.globs (resolveIncludedPath e.path (Path.ofStr g.item)) with
    | none => d
    | some (.expanded paths) =>
      applyPaths env g.span
        (if paths.isEmpty then d.report (Report.new (str "include failed") (str "no such file") g.span) else d)
        e.opened paths
    | some (.error e) => d.report (Report.new (str "can't expand glob") e g.span)

/-- The directives yielded along events. -/
def outputs (env : PragmaEnv) : PragmaData → List Event → Option (List (Spanned Directive))
  | _, [] => some []
  | d, e :: es =>
    match e.decl.item with
    | .directive dir =>
      match d.augment dir, outputs env (applyEvent env d e) es with
      | some x, some xs => some (⟨x, e.decl.span⟩ :: xs)
      | _, _ => none
    | _ => outputs env (applyEvent env d e) es

theorem outputs_append (env : PragmaEnv) (d : PragmaData) (es es' : List Event) (xs ys : List (Spanned Directive))
    (h : outputs env d es = some xs) (h' : outputs env (es.foldl (applyEvent env) d) es' = some ys) :
    outputs env d (es ++ es') = some (xs ++ ys) := by
  induction es generalizing d xs with
  | nil => cases h; simpa using h'
  | cons e es ih =>
    simp only [List.cons_append, outputs] at h ⊢
    split at h
    · split at h
      · rename_i x xs' hx hxs
        cases h
        rw [hx, ih _ _ hxs h']
        rfl
      · cases h
    · exact ih _ _ h h'

/-- Some turns of the iterator. -/
inductive Steps (env : PragmaEnv) : Nat → PragmaState → List (Spanned Directive) → PragmaState → Prop
  | refl (st) : Steps env 0 st [] st
  | yield (n st d st' ds st'') (h : st.step env = .yield d st') (t : Steps env n st' ds st'') :
      Steps env (n + 1) st (d :: ds) st''
  | cont (n st st' ds st'') (h : st.step env = .continue st') (t : Steps env n st' ds st'') :
      Steps env (n + 1) st ds st''

theorem Steps.trans {env : PragmaEnv} {n m : Nat} {a b c : PragmaState} {xs ys : List (Spanned Directive)}
    (h : Steps env n a xs b) (h' : Steps env m b ys c) : Steps env (n + m) a (xs ++ ys) c := by
  induction h with
  | refl => simpa using h'
  | yield n st d st' ds st'' h t ih =>
    have := Steps.yield _ _ _ _ _ _ h (ih h')
    rw [show n + 1 + m = n + m + 1 by omega]
    exact this
  | cont n st st' ds st'' h t ih =>
    have := Steps.cont _ _ _ _ _ h (ih h')
    rw [show n + 1 + m = n + m + 1 by omega]
    exact this

theorem Steps.collect {env : PragmaEnv} {n : Nat} {a b : PragmaState} {xs : List (Spanned Directive)}
    (h : Steps env n a xs b) (m : Nat) :
    a.collectFuel env (n + m) = (b.collectFuel env m).map (fun r => (xs ++ r.1, r.2)) := by
  induction h with
  | refl st => cases h : st.collectFuel env m <;> simp [Res.map, h]
  | yield n st d st' ds st'' h t ih =>
    rw [show n + 1 + m = n + m + 1 by omega]
    simp only [PragmaState.collectFuel, h, ih]
    cases st''.collectFuel env m <;> simp [Res.map]
  | cont n st st' ds st'' h t ih =>
    rw [show n + 1 + m = n + m + 1 by omega]
    simp only [PragmaState.collectFuel, h, ih]

theorem collectFuel_mono (env : PragmaEnv) (n m : Nat) (h : n ≤ m) (st : PragmaState)
    (hn : st.collectFuel env n ≠ .err ()) : st.collectFuel env m = st.collectFuel env n := by
  induction n generalizing m st with
  | zero => exact absurd rfl hn
  | succ n ih =>
    obtain ⟨m, rfl⟩ : ∃ k, m = k + 1 := ⟨m - 1, by omega⟩
    simp only [PragmaState.collectFuel] at hn ⊢
    cases hs : st.step env with
    | yield d st' =>
      rw [hs] at hn
      simp only at hn ⊢
      rw [ih m (by omega) st' (by intro h; rw [h] at hn; exact hn rfl)]
    | «continue» st' =>
      rw [hs] at hn
      exact ih m (by omega) st' hn
    | done => rfl
    | panic => rfl

/-! ### Size -/

theorem sum_erase {κ : Type} [DecidableEq κ] (m : List (κ × List (Spanned Declaration))) (k : κ)
    (ds : List (Spanned Declaration)) (h : AMap.get m k = some ds) :
    ((AMap.erase m k).map (fun f => f.2.length + 1)).sum + (ds.length + 1) ≤
      (m.map (fun f => f.2.length + 1)).sum := by
  have hle : ∀ m : List (κ × List (Spanned Declaration)), ((AMap.erase m k).map (fun f => f.2.length + 1)).sum ≤
      (m.map (fun f => f.2.length + 1)).sum := by
    intro m
    induction m with
    | nil => simp [AMap.erase]
    | cons e m ih =>
      unfold AMap.erase at ih ⊢
      rw [List.filter_cons]
      split
      · simp only [List.map_cons, List.sum_cons]; omega
      · simp only [List.map_cons, List.sum_cons]; omega
  induction m with
  | nil => cases h
  | cons e m ih =>
    rw [AMap.get_cons] at h
    by_cases he : e.1 = k
    · simp only [he, if_true, Option.some.injEq] at h
      have := hle m
      unfold AMap.erase at this ⊢
      rw [List.filter_cons_of_neg (by simp [he])]
      simp only [List.map_cons, List.sum_cons]
      rw [h]
      omega
    · simp only [he, if_false] at h
      have := ih h
      unfold AMap.erase at this ⊢
      rw [List.filter_cons_of_pos (by simp [he])]
      simp only [List.map_cons, List.sum_cons]
      omega

theorem size_includeOne (env : PragmaEnv) (span : Span) (st : PragmaState) (p : Path) :
    (st.includeOne env span p).size ≤ st.size := by
  unfold PragmaState.includeOne
  split
  · rename_i ds h
    have := sum_erase _ _ _ h
    simp only [PragmaState.size, List.map_cons, List.sum_cons]
    omega
  · exact Nat.le_refl _

theorem size_foldl (env : PragmaEnv) (span : Span) (ps : List Path) (st : PragmaState) :
    (ps.foldl (PragmaState.includeOne env span) st).size ≤ st.size := by
  induction ps generalizing st with
  | nil => exact Nat.le_refl _
  | cons p ps ih =>
    rw [List.foldl_cons]
    exact Nat.le_trans (ih _) (size_includeOne env span st p)

theorem size_includeGlob (env : PragmaEnv) (st st' : PragmaState) (g : Spanned Str)
    (h : st.includeGlob env g = some st') : st'.size ≤ st.size := by
  unfold PragmaState.includeGlob at h
  split at h
  · cases h
  · cases h
    refine Nat.le_trans (size_foldl _ _ _ _) ?_
    split <;> exact Nat.le_refl _
  · cases h; exact Nat.le_refl _

theorem step_size (env : PragmaEnv) (st : PragmaState) :
    (∀ d st', st.step env = .yield d st' → st'.size < st.size) ∧
    (∀ st', st.step env = .continue st' → st'.size < st.size) := by
  obtain ⟨path, current, stacked, remaining, data⟩ := st
  cases current with
  | nil =>
    cases stacked with
    | nil => exact ⟨fun _ _ h => (by cases h), fun _ h => (by cases h)⟩
    | cons f fs =>
      refine ⟨fun _ _ h => (by cases h), fun _ h => ?_⟩
      cases h
      simp only [PragmaState.size, List.map_cons, List.sum_cons, List.length_nil]
      omega
  | cons d ds =>
    have hlt : (PragmaState.mk path ds stacked remaining data).size <
        (PragmaState.mk path (d :: ds) stacked remaining data).size := by
      simp only [PragmaState.size, List.length_cons]; omega
    constructor
    · intro x st' h
      unfold PragmaState.step at h
      simp only at h
      split at h <;> try (cases h; done)
      · split at h
        · cases h; exact hlt
        · cases h
      · split at h <;> cases h
    · intro st' h
      unfold PragmaState.step at h
      simp only at h
      split at h <;> try (cases h; exact hlt)
      · split at h <;> cases h
      · split at h
        · rename_i hg
          cases h
          exact Nat.lt_of_le_of_lt (size_includeGlob _ _ _ _ hg) hlt
        · cases h

theorem collectFuel_enough (env : PragmaEnv) (n : Nat) (st : PragmaState) (h : st.size < n) :
    st.collectFuel env n ≠ .err () := by
  induction n generalizing st with
  | zero => omega
  | succ n ih =>
    simp only [PragmaState.collectFuel]
    have hs := step_size env st
    cases hst : st.step env with
    | yield d st' =>
      have := ih st' (by have := hs.1 d st' hst; omega)
      simp only
      cases hc : st'.collectFuel env n with
      | ok r => simp [Res.map]
      | err e => exact absurd hc this
      | panic => simp [Res.map]
    | «continue» st' => exact ih st' (by have := hs.2 st' hst; omega)
    | done => simp
    | panic => simp

theorem Steps.collect_done {env : PragmaEnv} {n : Nat} {a b : PragmaState} {xs : List (Spanned Directive)}
    (h : Steps env n a xs b) (hb : b.step env = .done) : a.collect env = .ok (xs, b) := by
  have h1 : a.collectFuel env (n + 1) = .ok (xs, b) := by
    rw [h.collect 1]
    simp [PragmaState.collectFuel, hb, Res.map]
  have h2 := collectFuel_enough env (a.size + 1) a (by omega)
  unfold PragmaState.collect
  rcases Nat.le_total (a.size + 1) (n + 1) with hle | hle
  · rw [← collectFuel_mono env _ _ hle a h2, h1]
  · rw [collectFuel_mono env _ _ hle a (by rw [h1]; simp), h1]

/-! ### Includes -/

/-- The files still to be opened are those not visited. -/
def RemInv (files : FileMap) (remaining : List (Option Path × List (Spanned Declaration)))
    (visited : List (Option Path)) : Prop :=
  ∀ q, AMap.get remaining q = if q ∈ visited then none else files q

def frames (st : PragmaState) : List (Option Path × List (Spanned Declaration)) :=
  (st.currentPath, st.current) :: st.stacked

def fileFrame (files : FileMap) (q : Path) : Option Path × List (Spanned Declaration) :=
  (some q, match files (some q) with
    | some ds => ds
    | none => [])

def remSize (r : List (Option Path × List (Spanned Declaration))) : Nat := (r.map (fun f => f.2.length + 1)).sum

theorem fresh_mem {files : FileMap} {v : List (Option Path)} {ps : List Path} {q : Path}
    (h : q ∈ fresh files v ps) : q ∈ ps ∧ (files (some q)).isSome ∧ some q ∉ v := by
  induction ps generalizing v with
  | nil => cases h
  | cons p ps ih =>
    unfold fresh at h
    split at h
    · rename_i hc
      rcases List.mem_cons.mp h with rfl | h
      · exact ⟨by simp, hc⟩
      · have := ih h
        simp only [List.mem_cons, not_or] at this ⊢
        exact ⟨.inr this.1, this.2.1, this.2.2.2⟩
    · have := ih h
      exact ⟨by simp [this.1], this.2⟩

theorem fresh_nodup (files : FileMap) (v : List (Option Path)) (ps : List Path) : (fresh files v ps).Nodup := by
  induction ps generalizing v with
  | nil => simp [fresh]
  | cons p ps ih =>
    unfold fresh
    split
    · refine List.nodup_cons.mpr ⟨?_, ih _⟩
      intro h
      exact (fresh_mem h).2.2 (by simp)
    · exact ih _

theorem includes_foldl (files : FileMap) (env : PragmaEnv) (span : Span) (ps : List Path) (v : List (Option Path))
    (st : PragmaState) (hr : RemInv files st.remaining v) :
    let st' := ps.foldl (PragmaState.includeOne env span) st
    let new := fresh files v ps
    frames st' = new.reverse.map (fileFrame files) ++ frames st ∧
    RemInv files st'.remaining (new.map some ++ v) ∧
    remSize st'.remaining + (new.map (fun q => (fileFrame files q).2.length + 1)).sum ≤ remSize st.remaining ∧
    st'.data = applyPaths env span st.data new ps := by
  induction ps generalizing v st with
  | nil => exact ⟨rfl, hr, Nat.le_refl _, rfl⟩
  | cons p ps ih =>
    intro st' new
    have hst' : st' = ps.foldl (PragmaState.includeOne env span) (st.includeOne env span p) := rfl
    by_cases hc : (files (some p)).isSome ∧ some p ∉ v
    · have hnew : new = p :: fresh files (some p :: v) ps := by
        change fresh files v (p :: ps) = _
        rw [fresh, if_pos hc]
      obtain ⟨ds, hds⟩ := Option.isSome_iff_exists.mp hc.1
      have hget : AMap.get st.remaining (some p) = some ds := by rw [hr, if_neg hc.2, hds]
      have hone : st.includeOne env span p =
          { currentPath := some p
            current := ds
            stacked := (st.currentPath, st.current) :: st.stacked
            remaining := AMap.erase st.remaining (some p)
            data := st.data.opened env span p } := by
        unfold PragmaState.includeOne
        rw [hget]
      have hr1 : RemInv files (st.includeOne env span p).remaining (some p :: v) := by
        intro q
        rw [hone]
        simp only [AMap.get_erase, List.mem_cons]
        by_cases hq : q = some p
        · simp [hq]
        · have : ¬ some p = q := fun h => hq h.symm
          simp [hq, this, hr q]
      obtain ⟨h1, h2, h3, h4⟩ := ih (some p :: v) (st.includeOne env span p) hr1
      have hsz := sum_erase _ _ _ hget
      have hff : fileFrame files p = (some p, ds) := by simp [fileFrame, hds]
      refine ⟨?_, ?_, ?_, ?_⟩
      · rw [hst', h1, hnew, List.reverse_cons, List.map_append, List.append_assoc, hone]
        simp [frames, hff]
      · intro q
        rw [hst', h2 q, hnew]
        simp only [List.mem_append, List.map_cons, List.mem_cons]
        congr 1
        simp only [eq_iff_iff]
        constructor
        · rintro (h | h | h)
          · exact .inl (.inr h)
          · exact .inl (.inl h)
          · exact .inr h
        · rintro ((h | h) | h)
          · exact .inr (.inl h)
          · exact .inl h
          · exact .inr (.inr h)
      · rw [hst', hnew, List.map_cons, List.sum_cons, hff]
        have : remSize (st.includeOne env span p).remaining + (ds.length + 1) ≤ remSize st.remaining := by
          rw [hone]; exact hsz
        simp only
        omega
      · rw [hst', h4, hnew, hone]
        simp [applyPaths]
    · have hnew : new = fresh files v ps := by
        change fresh files v (p :: ps) = _
        rw [fresh, if_neg hc]
      have hget : AMap.get st.remaining (some p) = none := by
        rw [hr]
        split
        · rfl
        · rename_i hv
          cases hf : files (some p) with
          | none => rfl
          | some ds => exact absurd ⟨by simp [hf], hv⟩ hc
      have hone : st.includeOne env span p = { st with data := st.data.notOpened env span p } := by
        unfold PragmaState.includeOne
        rw [hget]
      obtain ⟨h1, h2, h3, h4⟩ := ih v (st.includeOne env span p) (by rw [hone]; exact hr)
      have hp : p ∉ fresh files v ps := by
        intro h
        exact hc (fresh_mem h).2
      refine ⟨?_, ?_, ?_, ?_⟩
      · rw [hst', h1, hnew, hone]; rfl
      · rw [hst', hnew]; exact h2
      · rw [hst', hnew]; 
        have : remSize (st.includeOne env span p).remaining = remSize st.remaining := by rw [hone]
        rw [this] at h3; exact h3
      · rw [hst', h4, hnew, hone]
        simp [applyPaths, hp]

/-! ### The metadata stacks are never empty -/

def MetasOK (d : PragmaData) : Prop := ∀ e ∈ d.metas, e.2 ≠ []

theorem SMap.mem_insert {κ ν : Type} [DecidableEq κ] {m : List (Spanned κ × ν)} {k : Spanned κ} {v : ν}
    {e : Spanned κ × ν} (h : e ∈ SMap.insert m k v) : e ∈ m ∨ e.2 = v := by
  unfold SMap.insert at h
  split at h
  · obtain ⟨x, hx, rfl⟩ := List.mem_map.mp h
    split
    · exact .inr rfl
    · exact .inl hx
  · rcases List.mem_append.mp h with h | h
    · exact .inl h
    · simp only [List.mem_singleton] at h
      subst h
      exact .inr rfl

theorem MetasOK.of_metas {d d' : PragmaData} (h : MetasOK d) (hm : d'.metas = d.metas) : MetasOK d' := by
  intro e he; rw [hm] at he; exact h e he

theorem opened_metas (env : PragmaEnv) (span : Span) (d : PragmaData) (p : Path) :
    (d.opened env span p).metas = d.metas ∧ (d.opened env span p).tags = d.tags ∧
    (d.opened env span p).options = d.options ∧ (d.opened env span p).plugins = d.plugins ∧
    (d.opened env span p).errors = d.errors := by
  unfold PragmaData.opened
  split <;> exact ⟨rfl, rfl, rfl, rfl, rfl⟩

theorem notOpened_metas (env : PragmaEnv) (span : Span) (d : PragmaData) (p : Path) :
    (d.notOpened env span p).metas = d.metas ∧ (d.notOpened env span p).tags = d.tags ∧
    (d.notOpened env span p).options = d.options ∧ (d.notOpened env span p).plugins = d.plugins ∧
    (d.notOpened env span p).includeBy = d.includeBy := by
  unfold PragmaData.notOpened
  repeat' split
  all_goals exact ⟨rfl, rfl, rfl, rfl, rfl⟩

theorem applyPaths_metas (env : PragmaEnv) (span : Span) (ps : List Path) (toOpen : List Path) (d : PragmaData) :
    (applyPaths env span d toOpen ps).metas = d.metas ∧ (applyPaths env span d toOpen ps).tags = d.tags ∧
    (applyPaths env span d toOpen ps).options = d.options ∧
    (applyPaths env span d toOpen ps).plugins = d.plugins := by
  induction ps generalizing toOpen d with
  | nil => exact ⟨rfl, rfl, rfl, rfl⟩
  | cons p ps ih =>
    unfold applyPaths
    split
    · have h := ih (toOpen.erase p) (d.opened env span p)
      have h' := opened_metas env span d p
      exact ⟨h.1.trans h'.1, h.2.1.trans h'.2.1, h.2.2.1.trans h'.2.2.1, h.2.2.2.trans h'.2.2.2.1⟩
    · have h := ih toOpen (d.notOpened env span p)
      have h' := notOpened_metas env span d p
      exact ⟨h.1.trans h'.1, h.2.1.trans h'.2.1, h.2.2.1.trans h'.2.2.1, h.2.2.2.trans h'.2.2.2.1⟩

theorem option_metas (d : PragmaData) (o : BOption) : (d.option o).metas = d.metas := by
  unfold PragmaData.option
  dsimp only
  split <;> rfl

theorem MetasOK.applyEvent {env : PragmaEnv} {d : PragmaData} (h : MetasOK d) (e : Event) :
    MetasOK (applyEvent env d e) := by
  unfold Lima.applyEvent
  split
  · exact h
  · unfold PragmaData.pushtag; split <;> exact h
  · unfold PragmaData.poptag; split
    · split <;> exact h
    · exact h
  · unfold PragmaData.pushmeta
    split
    · intro e he
      rcases SMap.mem_insert he with he | he
      · exact h e he
      · rw [he]; simp
    · intro e he
      rcases SMap.mem_insert he with he | he
      · exact h e he
      · rw [he]; simp
  · unfold PragmaData.popmeta
    split
    · split
      · intro e he
        exact h e (List.mem_filter.mp he).1
      · rename_i hne
        intro e he
        rcases SMap.mem_insert he with he | he
        · exact h e he
        · rw [he]; simpa using hne
    · exact h
  · exact h.of_metas (option_metas _ _)
  · exact h
  · split
    · exact h
    · refine h.of_metas ((applyPaths_metas _ _ _ _ _).1.trans ?_)
      split <;> rfl
    · exact h

theorem augmentKeyValues_some (own : List (Spanned Str × Spanned MetaValue)) (metas : MetaStacks)
    (h : ∀ e ∈ metas, e.2 ≠ []) : ∃ kvs, augmentKeyValues own metas = some kvs := by
  unfold augmentKeyValues
  induction metas generalizing own with
  | nil => exact ⟨own, rfl⟩
  | cons e metas ih =>
    rw [List.foldlM_cons]
    have ih' := fun own => ih own (fun e he => h e (by simp [he]))
    split
    · exact ih' own
    · cases hl : e.2.getLast? with
      | none => exact absurd (List.getLast?_eq_none_iff.mp hl) (h e (by simp))
      | some x => exact ih' _

theorem augment_some {d : PragmaData} (h : MetasOK d) (dir : Directive) : ∃ x, d.augment dir = some x := by
  obtain ⟨kvs, hk⟩ := augmentKeyValues_some dir.metadata.item.keyValues d.metas h
  unfold PragmaData.augment
  rw [hk]
  exact ⟨_, rfl⟩

/-! ### The main simulation -/

/-- Every include met in a file has been expanded beforehand. -/
def Recorded (env : PragmaEnv) (path : Option Path) (ds : List (Spanned Declaration)) : Prop :=
  ∀ d ∈ ds, ∀ g, d.item = .pragma (.include g) →
    AMap.get env.globs (resolveIncludedPath path (Path.ofStr g.item)) ≠ none

def taskSize (files : FileMap) : Task → Nat
  | .body _ ds => ds.length
  | .files qs => (qs.map (fun q => (fileFrame files q).2.length + 1)).sum

/-- The frames of a task on top of others. -/
def taskFrames (files : FileMap) : Task → List (Option Path × List (Spanned Declaration))
  | .body p ds => [(p, ds)]
  | .files qs => qs.map (fileFrame files)

def doneFrames : Task → List (Option Path × List (Spanned Declaration))
  | .body p _ => [(p, [])]
  | .files _ => []

def TaskOK (files : FileMap) (env : PragmaEnv) : Task → Prop
  | .body p ds => Recorded env p ds
  | .files qs => ∀ q ∈ qs, (files (some q)).isSome

theorem steps_plain {env : PragmaEnv} {p : Option Path} {d : Spanned Declaration}
    {ds : List (Spanned Declaration)} {stacked remaining} {data : PragmaData}
    (hd : ∀ g, d.item ≠ .pragma (.include g)) (hm : MetasOK data) :
    ∃ xs, outputs env data [⟨p, d, []⟩] = some xs ∧
      Steps env 1 ⟨p, d :: ds, stacked, remaining, data⟩ xs
        ⟨p, ds, stacked, remaining, applyEvent env data ⟨p, d, []⟩⟩ := by
  obtain ⟨decl, span⟩ := d
  cases decl with
  | directive dir =>
    obtain ⟨x, hx⟩ := augment_some hm dir
    refine ⟨[⟨x, span⟩], by simp [outputs, hx], .yield _ _ _ _ _ _ ?_ (.refl _)⟩
    simp [PragmaState.step, hx, applyEvent]
  | pragma pr =>
    refine ⟨[], by simp [outputs], .cont _ _ _ _ _ ?_ (.refl _)⟩
    cases pr with
    | «include» g => exact absurd rfl (hd g)
    | _ => simp [PragmaState.step, applyEvent]

theorem steps_pop {env : PragmaEnv} {p : Option Path} {f : Option Path × List (Spanned Declaration)}
    {stacked remaining} {data : PragmaData} :
    Steps env 1 ⟨p, [], f :: stacked, remaining, data⟩ [] ⟨f.1, f.2, stacked, remaining, data⟩ :=
  .cont _ _ _ _ _ rfl (.refl _)

theorem state_of_frames {st : PragmaState} {f : Option Path × List (Spanned Declaration)} {fs}
    (h : frames st = f :: fs) : st = ⟨f.1, f.2, fs, st.remaining, st.data⟩ := by
  obtain ⟨p, c, s, r, d⟩ := st
  simp only [frames, List.cons.injEq] at h
  obtain ⟨rfl, rfl⟩ := h
  rfl

theorem foldl_metasOK {env : PragmaEnv} (es : List Event) {d : PragmaData} (h : MetasOK d) :
    MetasOK (es.foldl (applyEvent env) d) := by
  induction es generalizing d with
  | nil => exact h
  | cons e es ih => exact ih (h.applyEvent e)

/-- Running a task: its events exist, and the processor consumes its frames with the effect of the events. -/
theorem run_task (files : FileMap) (env : PragmaEnv)
    (hrec : ∀ p ds, files p = some ds → Recorded env p ds) (n : Nat) :
    ∀ (task : Task) (base : List (Option Path × List (Spanned Declaration))) (st : PragmaState)
      (v : List (Option Path)),
      taskSize files task + remSize st.remaining < n →
      base ≠ [] ∨ (∃ p ds, task = .body p ds) →
      TaskOK files env task → frames st = taskFrames files task ++ base → RemInv files st.remaining v →
      MetasOK st.data →
      ∃ es v' k xs st', Splice files (expansion (AMap.get env.globs)) v task es v' ∧ Steps env k st xs st' ∧
        frames st' = doneFrames task ++ base ∧ RemInv files st'.remaining v' ∧
        remSize st'.remaining ≤ remSize st.remaining ∧
        st'.data = es.foldl (applyEvent env) st.data ∧ outputs env st.data es = some xs := by
  induction n with
  | zero => intro task base st v h; omega
  | succ n ih =>
    intro task base st v hsize hbase hok hframes hrem hmet
    cases task with
    | body p ds =>
      cases ds with
      | nil =>
        exact ⟨[], v, 0, [], st, .nil v p, .refl st, hframes, hrem, Nat.le_refl _, rfl, rfl⟩
      | cons d ds =>
        simp only [taskFrames, List.singleton_append] at hframes
        have hst := state_of_frames hframes
        have hok' : TaskOK files env (.body p ds) := fun x hx => hok x (by simp [hx])
        simp only [taskSize, List.length_cons] at hsize
        by_cases hd : ∀ g, d.item ≠ .pragma (.include g)
        · obtain ⟨xs, ho, hs⟩ := steps_plain (env := env) (p := p) (ds := ds) (stacked := base)
            (remaining := st.remaining) hd hmet
          obtain ⟨es, v', k, ys, st', h1, h2, h3, h4, h5, h6, h7⟩ := ih (.body p ds) base
            ⟨p, ds, base, st.remaining, applyEvent env st.data ⟨p, d, []⟩⟩ v
            (by simp only [taskSize]; omega) (.inr ⟨p, ds, rfl⟩) hok' rfl hrem (hmet.applyEvent _)
          refine ⟨⟨p, d, []⟩ :: es, v', 1 + k, xs ++ ys, st', .plain _ _ _ _ _ _ hd h1, ?_, h3, h4, h5, h6, ?_⟩
          · have := hs.trans h2
            rw [hst]
            exact this
          · exact outputs_append env st.data [⟨p, d, []⟩] es xs ys ho h7
        · simp only [ne_eq, Classical.not_forall, Classical.not_not] at hd
          obtain ⟨g, hg⟩ := hd
          have hrecg := hok d (by simp) g hg
          let new := fresh files v (expansion (AMap.get env.globs) p g.item)
          let e : Event := ⟨p, d, new⟩
          -- the step
          have hstep : ∃ st1, st.step env = .continue st1 ∧
              frames st1 = new.reverse.map (fileFrame files) ++ ((p, ds) :: base) ∧
              RemInv files st1.remaining (new.map some ++ v) ∧
              remSize st1.remaining + (new.map (fun q => (fileFrame files q).2.length + 1)).sum
                ≤ remSize st.remaining ∧
              st1.data = applyEvent env st.data e := by
            have hs : st.step env = (match (PragmaState.mk p ds base st.remaining st.data).includeGlob env g with
                | some st => .continue st
                | none => .panic) := by
              conv => lhs; rw [hst]
              simp only [PragmaState.step, hg]
              rfl
            cases hgl : AMap.get env.globs (resolveIncludedPath p (Path.ofStr g.item)) with
            | none => exact absurd hgl hrecg
            | some gl =>
              cases gl with
              | error err =>
                have hnew : new = [] := by
                  change fresh files v (expansion _ p g.item) = []
                  simp [expansion, hgl, fresh]
                refine ⟨_, by rw [hs]; simp only [PragmaState.includeGlob, hgl]; rfl, ?_, ?_, ?_, ?_⟩
                · simp [frames, hnew]
                · simpa [hnew] using hrem
                · simp [hnew]
                · simp [e, applyEvent, hg, hgl]
              | expanded paths =>
                have hexp : expansion (AMap.get env.globs) p g.item = paths := by simp [expansion, hgl]
                let st0 : PragmaState := ⟨p, ds, base, st.remaining,
                  if paths.isEmpty then
                    st.data.report (Report.new (str "include failed") (str "no such file") g.span)
                  else st.data⟩
                have hfold := includes_foldl files env g.span paths v st0 hrem
                have hnew : fresh files v paths = new := by
                  change _ = fresh files v (expansion _ p g.item)
                  rw [hexp]
                simp only [hnew] at hfold
                refine ⟨paths.foldl (PragmaState.includeOne env g.span) st0, ?_, hfold.1, hfold.2.1, hfold.2.2.1, ?_⟩
                · rw [hs]
                  simp only [PragmaState.includeGlob, hgl]
                  congr 2
                  change (if paths.isEmpty = true then _ else _) = st0
                  simp only [st0]
                  split <;> rfl
                · rw [hfold.2.2.2]
                  simp only [applyEvent, e, hg, hgl, st0]
          obtain ⟨st1, hc, hf1, hr1, hz1, hd1⟩ := hstep
          obtain ⟨es, v1, k, xs, st2, h1, h2, h3, h4, h5, h6, h7⟩ := ih (.files new.reverse) ((p, ds) :: base)
            st1 (new.map some ++ v)
            (by
              have : taskSize files (.files new.reverse) = (new.map (fun q => (fileFrame files q).2.length + 1)).sum := by
                simp only [taskSize, List.map_reverse, List.sum_reverse]
              omega)
            (.inl (by simp))
            (by intro q hq; exact (fresh_mem (List.mem_reverse.mp hq)).2.1)
            hf1 hr1 (by rw [hd1]; exact hmet.applyEvent _)
          simp only [doneFrames, List.nil_append] at h3
          obtain ⟨es', v2, k', ys, st3, j1, j2, j3, j4, j5, j6, j7⟩ := ih (.body p ds) base st2 v1
            (by simp only [taskSize]; omega) (.inr ⟨p, ds, rfl⟩) hok' h3 h4
            (by rw [h6, hd1]; exact foldl_metasOK _ (hmet.applyEvent _))
          have hstep : Steps env 1 st [] st1 := .cont _ _ _ _ _ hc (.refl _)
          refine ⟨e :: (es ++ es'), v2, 1 + k + k', xs ++ ys, st3, .include _ _ _ _ _ _ _ _ _ hg h1 j1, ?_, j3, j4,
            by omega, ?_, ?_⟩
          · simpa using (hstep.trans h2).trans j2
          · rw [j6, h6, hd1, List.foldl_cons, List.foldl_append]
          · have ho : outputs env st.data (e :: (es ++ es')) = outputs env (applyEvent env st.data e) (es ++ es') := by
              simp [outputs, e, hg]
            rw [ho, ← hd1]
            exact outputs_append env _ _ _ _ _ h7 (by rw [← h6]; exact j7)
    | files qs =>
      cases qs with
      | nil =>
        exact ⟨[], v, 0, [], st, .none v, .refl st, hframes, hrem, Nat.le_refl _, rfl, rfl⟩
      | cons q qs =>
        obtain ⟨dq, hdq⟩ := Option.isSome_iff_exists.mp (hok q (by simp))
        have hff : fileFrame files q = (some q, dq) := by simp [fileFrame, hdq]
        simp only [taskSize, List.map_cons, List.sum_cons, hff] at hsize
        simp only [taskFrames, List.map_cons, hff, List.cons_append] at hframes
        obtain ⟨es, v1, k, xs, st1, h1, h2, h3, h4, h5, h6, h7⟩ := ih (.body (some q) dq)
          (qs.map (fileFrame files) ++ base) st v (by simp only [taskSize]; omega) (.inr ⟨_, _, rfl⟩)
          (hrec _ _ hdq) hframes hrem hmet
        have hne : base ≠ [] := by
          rcases hbase with h | ⟨p, ds, h⟩
          · exact h
          · cases h
        simp only [doneFrames, List.singleton_append] at h3
        have hst1 := state_of_frames h3
        cases hrest : qs.map (fileFrame files) ++ base with
        | nil => simp [hne] at hrest
        | cons f fs =>
          rw [hrest] at hst1
          have hpop : Steps env 1 st1 [] ⟨f.1, f.2, fs, st1.remaining, st1.data⟩ := by
            have := steps_pop (env := env) (p := some q) (f := f) (stacked := fs) (remaining := st1.remaining)
              (data := st1.data)
            rw [← hst1] at this
            exact this
          obtain ⟨es', v2, k', ys, st3, j1, j2, j3, j4, j5, j6, j7⟩ := ih (.files qs) base
            ⟨f.1, f.2, fs, st1.remaining, st1.data⟩ v1
            (by simp only [taskSize]; omega) (.inl hne) (fun x hx => hok x (by simp [hx]))
            (by simp only [frames, taskFrames, hrest]) h4 (by rw [h6]; exact foldl_metasOK _ hmet)
          refine ⟨es ++ es', v2, k + 1 + k', xs ++ ys, st3, .file _ _ _ _ _ _ _ _ hdq h1 j1, ?_, j3, j4,
            by simp only at j5; omega, ?_, ?_⟩
          · simpa using (h2.trans hpop).trans j2
          · rw [j6, List.foldl_append]
            simp only [h6]
          · exact outputs_append env _ _ _ _ _ h7 (by rw [← h6]; exact j7)

end Lima
