import Verif.Lemmas.ReviseRead

/-! Directives exchanged or left out: texts. -/

set_option linter.unusedSectionVars false

namespace Lima.Revise
open Lima Spec Grammar Props InPlaceParse Relation

variable {strict dropping : Prop}

/-! ### Tokens, wherever they are -/

abbrev Unindent (ts : List Token) : Prop := ∀ t ∈ ts.head?, t ≠ .indent

/-- One change of a text's tokens. -/
inductive TStep (strict dropping : Prop) : List Token → List Token → Prop
  | exchange {a u v c : List Token} : WholeLines a → WholeLines u → WholeLines v → Unindent u → Unindent v → Unindent c → NoPragma u → NoPragma v →
      (strict → NoDateInCommon u v) → TStep strict dropping (a ++ (u ++ (v ++ c))) (a ++ (v ++ (u ++ c)))
  | leave {a u c : List Token} : dropping → WholeLines a → WholeLines u → Unindent u → Unindent c → NoPragma u →
      TStep strict dropping (a ++ (u ++ c)) (a ++ c)

theorem ended_of {a : List Ranged} (h : WholeLines (toks a)) : Ended a := by
  rcases h with h | ⟨z, h⟩
  · exact .inl (List.map_eq_nil_iff.mp h)
  · obtain ⟨u, v, e, _, hv⟩ := List.map_eq_append_iff.mp h
    obtain ⟨x, v', rfl, h3, h4⟩ := List.map_eq_cons_iff.mp hv
    rw [List.map_eq_nil_iff] at h4
    subst h4
    exact .inr ⟨u, x, e, h3⟩

theorem begun_of {a : List Ranged} (h : Unindent (toks a)) : Begun a := by
  intro t ht
  refine h t.tok ?_
  rw [toks, List.head?_map, Option.mem_def.mp ht]
  rfl

theorem step_of {T T' : List Token} (h : TStep strict dropping T T') {R : List Ranged} (hR : toks R = T) :
    ∃ R', toks R' = T' ∧ Step strict dropping R R' ∧ ((R.map (·.start)).Nodup → (R'.map (·.start)).Nodup) := by
  cases h with
  | exchange ha hu hv bu bv bc nu nv hd =>
    obtain ⟨a, x, rfl, rfl, hx⟩ := List.map_eq_append_iff.mp hR
    obtain ⟨u, y, rfl, rfl, hy⟩ := List.map_eq_append_iff.mp hx
    obtain ⟨v, c, rfl, rfl, rfl⟩ := List.map_eq_append_iff.mp hy
    refine ⟨a ++ (v ++ (u ++ c)), by simp [toks], .exchange (ended_of ha) (ended_of hu) (ended_of hv) (begun_of bu) (begun_of bv) (begun_of bc) nu nv hd, ?_⟩
    intro hn
    refine (List.Perm.nodup_iff ?_).mp hn
    refine List.Perm.map _ (List.Perm.append_left _ ?_)
    rw [← List.append_assoc, ← List.append_assoc]
    exact List.perm_append_comm.append_right _
  | leave hdrop ha hu bu bc nu =>
    obtain ⟨a, x, rfl, rfl, hx⟩ := List.map_eq_append_iff.mp hR
    obtain ⟨u, c, rfl, rfl, rfl⟩ := List.map_eq_append_iff.mp hx
    refine ⟨a ++ c, by simp [toks], .leave hdrop (ended_of ha) (ended_of hu) (begun_of bu) (begun_of bc) nu, ?_⟩
    intro hn
    exact hn.sublist ((List.Sublist.append_left (List.sublist_append_right _ _) _).map _)

theorem chain_of {T T' : List Token} (h : ReflTransGen (TStep strict dropping) T T') {R : List Ranged} (hR : toks R = T) (hn : (R.map (·.start)).Nodup) :
    ∃ R', toks R' = T' ∧ ReflTransGen (Step strict dropping) R R' ∧ (R'.map (·.start)).Nodup := by
  induction h with
  | refl => exact ⟨R, hR, .refl, hn⟩
  | tail _ hs ih =>
    obtain ⟨R1, h1, h2, h3⟩ := ih
    obtain ⟨R2, h4, h5, h6⟩ := step_of hs h1
    exact ⟨R2, h4, h2.tail h5, h6 h3⟩

/-! ### Includes -/

theorem includes_skip {t : Token} {x : List Token} (h : ∀ s r, t = .include → x = .stringLiteral s :: r → False) :
    includesOf (t :: x) = includesOf x := by
  rw [includesOf]
  exact h

theorem includes_append {A B : List Token} (h : WholeLines A) : includesOf (A ++ B) = includesOf A ++ includesOf B := by
  rcases h with rfl | ⟨z, rfl⟩
  · rfl
  · induction z using includesOf.induct with
    | case1 => rfl
    | case2 s rest ih =>
      simp only [List.cons_append, includesOf] at ih ⊢
      rw [ih]
    | case3 t rest hne ih =>
      have key : ∀ w : List Token, includesOf (t :: (rest ++ .eol :: w)) = includesOf (rest ++ .eol :: w) := by
        intro w
        refine includes_skip fun s r ht hr => ?_
        cases rest with
        | nil => cases hr
        | cons y rest =>
          cases hr
          exact hne s _ ht rfl
      simp only [List.cons_append, List.append_assoc, List.nil_append] at ih ⊢
      rw [key, key, ih]

theorem includes_none {ts : List Token} (h : .include ∉ ts) : includesOf ts = [] := by
  induction ts with
  | nil => rfl
  | cons t ts ih =>
    rw [includes_skip fun _ _ ht _ => h (by simp [ht]), ih fun hm => h (by simp [hm])]

theorem includes_step {T T' : List Token} (h : TStep strict dropping T T') : includesOf T' = includesOf T := by
  cases h with
  | exchange ha hu hv _ _ _ nu nv _ =>
    rw [includes_append ha, includes_append ha, includes_append hu, includes_append hv, includes_append hv, includes_append hu,
      includes_none nu.2.1, includes_none nv.2.1]
  | leave _ ha hu _ _ nu =>
    rw [includes_append ha, includes_append ha, includes_append hu, includes_none nu.2.1]
    rfl

theorem includes_chain {T T' : List Token} (h : ReflTransGen (TStep strict dropping) T T') : includesOf T' = includesOf T := by
  induction h with
  | refl => rfl
  | tail _ hs ih => rw [includes_step hs, ih]

/-! ### Texts -/

/-- One text and the other, by their tokens; if either can be lexed, then so can the other. -/
structure TextLike [Categories] (l : Logos) (tokens : Str → List Ranged) (strict dropping : Prop) (t t' : Str) : Prop where
  chain : ReflTransGen (TStep strict dropping) (toks (tokens t)) (toks (tokens t'))
  lexed : lexText l t ≠ none ↔ lexText l t' ≠ none

section
variable [Categories] {l : Logos} {tokens : Str → List Ranged} (hl : LexedBy l tokens)
include hl

theorem lexed_passage {t : Str} (h : Passage l t) : lexText l t ≠ none := by
  rw [(passage_whole hl h).2.2]
  simp

theorem rearranged_like {apart : Bool} {t t' : Str} (h : Rearranged l tokens apart t t') : TextLike l tokens (apart = true) False t t' := by
  induction h with
  | same text => exact ⟨.refl, Iff.rfl⟩
  | @exchange before one other after pb po pq pa no nq hd =>
    constructor
    · rw [toks, toks, passages_tokens hl (Passage.append (Passage.append pb po) pq) pa, passages_tokens hl (Passage.append pb po) pq,
        passages_tokens hl pb po, passages_tokens hl (Passage.append (Passage.append pb pq) po) pa, passages_tokens hl (Passage.append pb pq) po,
        passages_tokens hl pb pq, List.append_assoc, List.append_assoc, List.append_assoc, List.append_assoc]
      exact .single (.exchange (passage_whole hl pb).1 (passage_whole hl po).1 (passage_whole hl pq).1 (passage_whole hl po).2.1
        (passage_whole hl pq).2.1 (passage_whole hl pa).2.1 no nq hd)
    · exact ⟨fun _ => lexed_passage hl (Passage.append (Passage.append (Passage.append pb pq) po) pa),
        fun _ => lexed_passage hl (Passage.append (Passage.append (Passage.append pb po) pq) pa)⟩
  | trans _ _ h1 h2 => exact ⟨h1.chain.trans h2.chain, h1.lexed.trans h2.lexed⟩

theorem thinned_like {t t' : Str} (h : Thinned l tokens t t') : TextLike l tokens True True t t' := by
  induction h with
  | same text => exact ⟨.refl, Iff.rfl⟩
  | @leave before passage after pb po pa no =>
    constructor
    · rw [toks, toks, passages_tokens hl (Passage.append pb po) pa, passages_tokens hl pb po, passages_tokens hl pb pa, List.append_assoc]
      exact .single (.leave trivial (passage_whole hl pb).1 (passage_whole hl po).1 (passage_whole hl po).2.1 (passage_whole hl pa).2.1 no)
    · exact ⟨fun _ => lexed_passage hl (Passage.append pb pa), fun _ => lexed_passage hl (Passage.append (Passage.append pb po) pa)⟩
  | trans _ _ h1 h2 => exact ⟨h1.chain.trans h2.chain, h1.lexed.trans h2.lexed⟩

omit hl in
theorem includes_like (t t' : Str) (h : TextLike l tokens strict dropping t t') : getIncludes tokens t' = getIncludes tokens t :=
  includes_chain h.chain

end

/-! ### Sources -/

theorem filesLike_mono {R Q : Str → Str → Prop} {fs fs' : FileSystem} (hRQ : ∀ a b, R a b → Q a b) (h : FilesLike R fs fs') : FilesLike Q fs fs' := by
  refine ⟨h.glob, h.canonicalize, fun p => ?_⟩
  have := h.read p
  generalize fs.read p = x at this
  generalize fs'.read p = y at this
  cases this with
  | ok hh => exact .ok (hRQ _ _ hh)
  | error e => exact .error e

theorem content_like {R : Str → Str → Prop} {s s' : Sources} (h : SourcesLike R s s') :
    List.Forall₂ (fun e e' : Nat × Option Path × Str => e'.1 = e.1 ∧ e'.2.1 = e.2.1 ∧ R e.2.2 e'.2.2)
      s.contentIter s'.contentIter ∧ s'.errorPaths = s.errorPaths := by
  obtain ⟨h1, h2, h3, h4, h5⟩ := h
  unfold Sources.contentIter Sources.errorPaths
  generalize s.content = c at h4
  generalize s'.content = c' at h4
  constructor
  · refine .cons ⟨rfl, h1, h2⟩ ?_
    induction h4 with
    | nil => exact .nil
    | @cons e e' c c' h _ ih =>
      obtain ⟨p, x⟩ := e
      obtain ⟨p', x'⟩ := e'
      obtain ⟨rfl, h⟩ := h
      cases h with
      | content h => exact .cons ⟨rfl, rfl, h⟩ ih
      | error e => exact ih
      | duplicate => exact ih
  · induction h4 with
    | nil => rfl
    | @cons e e' c c' h _ ih =>
      obtain ⟨p, x⟩ := e
      obtain ⟨p', x'⟩ := e'
      obtain ⟨rfl, h⟩ := h
      cases h with
      | content h => exact ih
      | error e => exact congrArg (List.cons _) ih
      | duplicate => exact ih

/-- The tokens placed, by identifier of the source. -/
def placed (tokens : Str → List Ranged) (s : Sources) (k : Nat) : List Ranged :=
  match s.contentIter.find? (fun x => decide (x.1 = k)) with
  | some e => place 0 (toks (tokens e.2.2))
  | none => []

theorem placed_mem {tokens : Str → List Ranged} {s : Sources} (hc : Complete tokens s) {e : Nat × Option Path × Str} (he : e ∈ s.contentIter) :
    placed tokens s e.1 = place 0 (toks (tokens e.2.2)) := by
  unfold placed
  rw [find_key hc.ids he]

/-- The tokens of the other, placed accordingly. -/
theorem placed_other {tokens : Str → List Ranged} {s s' : Sources} (hc : Complete tokens s) (hc' : Complete tokens s')
    (h : List.Forall₂ (fun e e' : Nat × Option Path × Str => e'.1 = e.1 ∧ e'.2.1 = e.2.1 ∧
      ReflTransGen (TStep strict dropping) (toks (tokens e.2.2)) (toks (tokens e'.2.2))) s.contentIter s'.contentIter) :
    ∃ f : Nat → List Ranged, List.Forall₂ (fun e e' : Nat × Option Path × Str => e'.1 = e.1 ∧ e'.2.1 = e.2.1 ∧
      ReflTransGen (Step strict dropping) (placed tokens s e.1) (f e'.1) ∧ toks (f e'.1) = toks (tokens e'.2.2) ∧
      ((f e'.1).map (·.start)).Nodup) s.contentIter s'.contentIter := by
  have one : ∀ k, ∃ R', ∀ e ∈ s.contentIter, ∀ e' ∈ s'.contentIter, e.1 = k → e'.1 = k →
      ReflTransGen (TStep strict dropping) (toks (tokens e.2.2)) (toks (tokens e'.2.2)) →
      ReflTransGen (Step strict dropping) (placed tokens s k) R' ∧ toks R' = toks (tokens e'.2.2) ∧ (R'.map (·.start)).Nodup := by
    intro k
    by_cases hk : ∃ e ∈ s.contentIter, ∃ e' ∈ s'.contentIter, e.1 = k ∧ e'.1 = k ∧
      ReflTransGen (TStep strict dropping) (toks (tokens e.2.2)) (toks (tokens e'.2.2))
    · obtain ⟨e, he, e', he', h1, h2, h3⟩ := hk
      obtain ⟨R', k1, k2, k3⟩ := chain_of h3 (R := place 0 (toks (tokens e.2.2))) (place_toks _ _)
        (by rw [place_starts]; exact List.nodup_range')
      refine ⟨R', fun x hx x' hx' g1 g2 _ => ?_⟩
      rw [same_id hc' hx' he' (g2.trans h2.symm), ← h1, placed_mem hc he]
      exact ⟨k2, k1, k3⟩
    · exact ⟨[], fun e he e' he' h1 h2 h3 => absurd ⟨e, he, e', he', h1, h2, h3⟩ hk⟩
  choose f hf using one
  refine ⟨f, ?_⟩
  have key : ∀ {l l' : List (Nat × Option Path × Str)}, (∀ e ∈ l, e ∈ s.contentIter) → (∀ e ∈ l', e ∈ s'.contentIter) →
      List.Forall₂ (fun e e' : Nat × Option Path × Str => e'.1 = e.1 ∧ e'.2.1 = e.2.1 ∧
        ReflTransGen (TStep strict dropping) (toks (tokens e.2.2)) (toks (tokens e'.2.2))) l l' →
      List.Forall₂ (fun e e' : Nat × Option Path × Str => e'.1 = e.1 ∧ e'.2.1 = e.2.1 ∧
        ReflTransGen (Step strict dropping) (placed tokens s e.1) (f e'.1) ∧ toks (f e'.1) = toks (tokens e'.2.2) ∧
        ((f e'.1).map (·.start)).Nodup) l l' := by
    intro l l' m m' hh
    induction hh with
    | nil => exact .nil
    | @cons e e' l l' h _ ih =>
      refine .cons ⟨h.1, h.2.1, ?_⟩ (ih (fun e he => m e (List.mem_cons_of_mem _ he)) fun e he => m' e (List.mem_cons_of_mem _ he))
      have := hf e'.1 e (m e (by simp)) e' (m' e' (by simp)) h.1.symm rfl h.2.2
      rw [h.1] at this ⊢
      exact this
  exact key (fun _ h => h) (fun _ h => h) h

/-! ### The runs -/

section
variable [Unicode] [DecOps]

/-- A run with identifiers for texts. -/
def envOf (env : ParseEnv) (f : Nat → List Ranged) : ParseEnv :=
  { env with tokens := fun w => f w.length, emptySpan := fun _ _ => ⟨0, 0, 0⟩ }

theorem forall₂_left {α β : Type} {R : α → β → Prop} {l : List α} {m : List β} (h : List.Forall₂ R l m) : ∀ x ∈ l, ∃ y ∈ m, R x y := by
  induction h with
  | nil => intro y hy; cases hy
  | cons h _ ih =>
    intro y hy
    rcases List.mem_cons.mp hy with rfl | hy
    · exact ⟨_, by simp, h⟩
    · obtain ⟨x, hx, hr⟩ := ih y hy
      exact ⟨x, List.mem_cons_of_mem _ hx, hr⟩

/-- Up to places, both runs are runs of revised sources. -/
theorem revised {env : ParseEnv} (hx : SameEnv env env) {s s' : Sources} (hc : Complete env.tokens s) (hc' : Complete env.tokens s')
    (hk : ∀ id path text, IsSource s id path text → KeysApart (env.tokens text))
    (hk' : ∀ id path text, IsSource s' id path text → KeysApart (env.tokens text))
    (hr : s'.rootPath = s.rootPath) (hg : s'.globs = s.globs) (he : s'.errorPaths = s.errorPaths)
    (h : List.Forall₂ (fun e e' : Nat × Option Path × Str => e'.1 = e.1 ∧ e'.2.1 = e.2.1 ∧
      ReflTransGen (TStep strict dropping) (toks (env.tokens e.2.2)) (toks (env.tokens e'.2.2))) s.contentIter s'.contentIter) :
    ∃ env1 env2 s1 s2, Revised strict dropping env1 env2 s1 s2 ∧ SameButPlaces (parseSources env s) (parseSources env1 s1) ∧
      SameButPlaces (parseSources env s') (parseSources env2 s2) := by
  obtain ⟨f, hf⟩ := placed_other hc hc' h
  have same1 : ∀ e ∈ s.contentIter, SameTokens (env.tokens e.2.2) ((envOf env (placed env.tokens s)).tokens (code e.1)) := by
    intro e he
    change SameTokens _ (placed _ _ (code e.1).length)
    rw [code_length, placed_mem hc he, SameTokens, place_toks]
  have same2 : ∀ e ∈ s'.contentIter, SameTokens (env.tokens e.2.2) ((envOf env f).tokens (code e.1)) := by
    intro e' he'
    obtain ⟨e, _, _, _, _, hh, _⟩ := forall₂_right hf e' he'
    change SameTokens _ (f (code e'.1).length)
    rw [code_length]
    exact hh.symm
  refine ⟨envOf env (placed env.tokens s), envOf env f, recode s, recode s', ?_, ?_, ?_⟩
  · refine ⟨recode_complete hc same1, recode_complete hc' same2, rfl, rfl, rfl, ?_, hr, ?_⟩
    · unfold ParseEnv.pragmaEnv
      rw [recode_errors, recode_errors, he, show (recode s').globs = s'.globs from rfl, hg]
      rfl
    · rw [recode_iter, recode_iter, List.forall₂_map_left_iff, List.forall₂_map_right_iff]
      refine hf.imp fun e e' hh => ⟨hh.1, hh.2.1, ?_⟩
      change ReflTransGen _ (placed _ _ (code e.1).length) (f (code e'.1).length)
      rw [code_length, code_length]
      exact hh.2.2.1
  · refine Layout.parseSources_same ⟨rfl, rfl, hx.context⟩ (recode_same same1) hk ?_
    intro id path text hi
    have := mem_contentIter.mpr hi
    rw [recode_iter] at this
    obtain ⟨e, hm, he⟩ := List.mem_map.mp this
    cases he
    change KeysApart (placed _ _ (code e.1).length)
    rw [code_length, placed_mem hc hm]
    refine apart_of_starts ?_
    rw [place_starts]
    exact List.nodup_range'
  · refine Layout.parseSources_same ⟨rfl, rfl, hx.context⟩ (recode_same same2) hk' ?_
    intro id path text hi
    have := mem_contentIter.mpr hi
    rw [recode_iter] at this
    obtain ⟨e', hm, he⟩ := List.mem_map.mp this
    cases he
    obtain ⟨e, _, _, _, _, _, hh⟩ := forall₂_right hf e' hm
    change KeysApart (f (code e'.1).length)
    rw [code_length]
    exact apart_of_starts hh

theorem same_ok_result {x y : Res ParseError ParseSuccess} (hxy : SameButPlaces x y) {r : ParseSuccess} (hy : y = .ok r) :
    ∃ r', x = .ok r' ∧ SameButPlaces r' r := by
  subst hy
  cases x with
  | ok r' => exact ⟨r', rfl, by injection hxy⟩
  | err _ => cases hxy
  | panic => cases hxy

theorem same_err_result {x y : Res ParseError ParseSuccess} (hxy : SameButPlaces x y) {e : ParseError} (hy : y = .err e) :
    ∃ e', x = .err e' ∧ SameButPlaces e' e := by
  subst hy
  cases x with
  | ok r' => cases hxy
  | err e' => exact ⟨e', rfl, by injection hxy⟩
  | panic => cases hxy

/-- One result and the other, but for places. -/
def ResultsLike (strict dropping : Prop) (r r' : ParseSuccess) : Prop :=
  ∃ r1 r2, SameButPlaces r r1 ∧ SameButPlaces r' r2 ∧ Results strict dropping r1 r2

/-- If the files of the first run have no errors of their own, then both runs succeed or neither does. -/
theorem parse_like {env : ParseEnv} (hx : SameEnv env env) {s s' : Sources} (hc : Complete env.tokens s) (hc' : Complete env.tokens s')
    (hk : ∀ id path text, IsSource s id path text → KeysApart (env.tokens text))
    (hk' : ∀ id path text, IsSource s' id path text → KeysApart (env.tokens text))
    (hr : s'.rootPath = s.rootPath) (hg : s'.globs = s.globs) (he : s'.errorPaths = s.errorPaths)
    (h : List.Forall₂ (fun e e' : Nat × Option Path × Str => e'.1 = e.1 ∧ e'.2.1 = e.2.1 ∧
      ReflTransGen (TStep strict dropping) (toks (env.tokens e.2.2)) (toks (env.tokens e'.2.2))) s.contentIter s'.contentIter)
    (hf : (∃ r, parseSources env s = .ok r) ∨ ∃ e, parseSources env s = .err e ∧ ∀ id x, .parsing id x ∉ e.errors) :
    (∃ r r', parseSources env s = .ok r ∧ parseSources env s' = .ok r' ∧ ResultsLike strict dropping r r') ∨
    ((∀ r, parseSources env s ≠ .ok r) ∧ ∀ r, parseSources env s' ≠ .ok r) := by
  obtain ⟨env1, env2, s1, s2, hrev, p1, p2⟩ := revised hx hc hc' hk hk' hr hg he h
  have clean : ∃ rs o, InOrder env1 ParserOptions.default s1.contentIter rs o ∧ ∀ res ∈ rs, res.errors = [] := by
    rcases hf with ⟨r, hr⟩ | ⟨e, he, hn⟩
    · obtain ⟨r1, hr1, _⟩ := same_ok_result p1.symm hr
      exact succeeded hrev.complete1 hr1
    · obtain ⟨e1, he1, hs⟩ := same_err_result p1.symm he
      have hp : ¬ parseSources env1 s1 = .panic := by rw [he1]; intro h; cases h
      rw [parseSources_panic hrev.complete1, Classical.not_not] at hp
      obtain ⟨rs, o, hio⟩ := hp
      refine ⟨rs, o, hio, errors_of_faults hio ?_⟩
      obtain ⟨ds, data, _, h1⟩ := parseSources_ok hrev.complete1 hio
      rw [he1] at h1
      split at h1
      · cases h1
      · injection h1 with h1
        have h2 : move (fun _ => ⟨0, 0, 0⟩) e1.errors = move (fun _ => ⟨0, 0, 0⟩) e.errors := congrArg ParseError.errors hs
        cases hfs : faultsOf s1.contentIter rs with
        | nil => rfl
        | cons x xs =>
          exfalso
          have hx : ∃ id y, x = .parsing id y := by
            have : x ∈ faultsOf s1.contentIter rs := by rw [hfs]; simp
            unfold faultsOf at this
            obtain ⟨z, _, hz⟩ := List.mem_flatMap.mp this
            obtain ⟨y, _, rfl⟩ := List.mem_map.mp hz
            exact ⟨_, _, rfl⟩
          obtain ⟨id, y, rfl⟩ := hx
          rw [h1, hfs] at h2
          have h3 : move (fun _ => ⟨0, 0, 0⟩) (Fault.parsing id y) ∈ (move (fun _ => ⟨0, 0, 0⟩) e.errors : List Fault) := by
            rw [← h2]
            exact List.mem_map_of_mem (by simp)
          obtain ⟨z, hz, hzz⟩ := List.mem_map.mp h3
          cases z with
          | parsing id' w => exact hn id' w hz
          | pragma _ => cases hzz
  obtain ⟨rs, o, hio, hee⟩ := clean
  rcases revised_parse hrev hio hee with ⟨r1, r2, q1, q2, q3⟩ | ⟨q1, q2⟩
  · obtain ⟨r, e1, e2⟩ := same_ok_result p1 q1
    obtain ⟨r', e3, e4⟩ := same_ok_result p2 q2
    exact .inl ⟨r, r', e1, e3, r1, r2, e2, e4, q3⟩
  · refine .inr ⟨fun r hr => ?_, fun r hr => ?_⟩
    · obtain ⟨r', hr', _⟩ := same_ok_result p1.symm hr
      exact q1 _ hr'
    · obtain ⟨r', hr', _⟩ := same_ok_result p2.symm hr
      exact q2 _ hr'

theorem like_options {r r' : ParseSuccess} (h : ResultsLike strict dropping r r') : SameButPlaces r.options r'.options ∧ SameButPlaces r.plugins r'.plugins := by
  obtain ⟨r1, r2, h1, h2, h3⟩ := h
  have e1 : SameButPlaces r.options r1.options := congrArg ParseSuccess.options h1
  have e2 : SameButPlaces r'.options r2.options := congrArg ParseSuccess.options h2
  have e3 : SameButPlaces r.plugins r1.plugins := congrArg ParseSuccess.plugins h1
  have e4 : SameButPlaces r'.plugins r2.plugins := congrArg ParseSuccess.plugins h2
  unfold SameButPlaces at *
  rw [e1, e2, e3, e4, h3.options, h3.plugins]
  exact ⟨rfl, rfl⟩

theorem perm_like {α : Type} [Places α] {l l1 l2 l' : List α} (h1 : SameButPlaces l l1) (h : l1.Perm l2) (h2 : SameButPlaces l' l2) :
    ∃ m, l.Perm m ∧ SameButPlaces m l' := by
  have : (l.map (move fun _ => ⟨0, 0, 0⟩)).Perm (l'.map (move fun _ => ⟨0, 0, 0⟩)) := by
    rw [show l.map (move fun _ => ⟨0, 0, 0⟩) = l1.map (move fun _ => ⟨0, 0, 0⟩) from h1,
      show l'.map (move fun _ => ⟨0, 0, 0⟩) = l2.map (move fun _ => ⟨0, 0, 0⟩) from h2]
    exact h.map _
  obtain ⟨m, k1, k2⟩ := perm_map this
  exact ⟨m, k1, k2⟩

theorem sublist_like {α : Type} [Places α] {l l1 l2 l' : List α} (h1 : SameButPlaces l l1) (h : l2.Sublist l1) (h2 : SameButPlaces l' l2) :
    ∃ m, m.Sublist l ∧ SameButPlaces m l' := by
  have : (l'.map (move fun _ => ⟨0, 0, 0⟩)).Sublist (l.map (move fun _ => ⟨0, 0, 0⟩)) := by
    rw [show l.map (move fun _ => ⟨0, 0, 0⟩) = l1.map (move fun _ => ⟨0, 0, 0⟩) from h1,
      show l'.map (move fun _ => ⟨0, 0, 0⟩) = l2.map (move fun _ => ⟨0, 0, 0⟩) from h2]
    exact h.map _
  obtain ⟨m, k1, k2⟩ := List.sublist_map_iff.mp this
  exact ⟨m, k1, k2.symm⟩

theorem subperm_like {α : Type} [Places α] {l l1 l2 l' : List α} (h1 : SameButPlaces l l1) (h : List.Subperm l2 l1) (h2 : SameButPlaces l' l2) :
    ∃ m, List.Subperm m l ∧ SameButPlaces m l' := by
  obtain ⟨x, hx, hs⟩ := h
  obtain ⟨m, k1, k2⟩ := sublist_like (l' := x) h1 hs rfl
  obtain ⟨m', k3, k4⟩ := perm_like k2 hx h2
  exact ⟨m', ⟨m, k3, k1⟩, k4⟩

end

end Lima.Revise
