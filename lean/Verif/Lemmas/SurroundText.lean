import Verif.Lemmas.SurroundFile

/-! A passage between two pragmas: texts. -/

set_option linter.unusedSectionVars false

namespace Lima.Surround
open Lima Spec Grammar Props InPlaceParse Revise

/-! ### Places of keys -/

def Clash (a b : Ranged) : Prop := (∃ k, a.tok = .key k) ∧ (∃ k, b.tok = .key k) ∧ a.start = b.start ∧ a.stop = b.stop

theorem apart_iff {ts : List Ranged} : KeysApart ts ↔ ts.Pairwise fun a b => ¬ Clash a b := by
  rw [List.pairwise_iff_getElem]
  constructor
  · rintro h i j hi hj hij ⟨⟨k, hk⟩, ⟨k', hk'⟩, h1, h2⟩
    have := h i j ts[i] ts[j] k k' (List.getElem?_eq_getElem hi) (List.getElem?_eq_getElem hj) hk hk' h1 h2
    omega
  · intro h i j a b k k' ha hb hk hk' h1 h2
    obtain ⟨hi, rfl⟩ := List.getElem?_eq_some_iff.mp ha
    obtain ⟨hj, rfl⟩ := List.getElem?_eq_some_iff.mp hb
    rcases Nat.lt_trichotomy i j with hij | hij | hij
    · exact absurd ⟨⟨k, hk⟩, ⟨k', hk'⟩, h1, h2⟩ (h i j hi hj hij)
    · exact hij
    · exact absurd ⟨⟨k', hk'⟩, ⟨k, hk⟩, h1.symm, h2.symm⟩ (h j i hj hi hij)

theorem apart_perm {a b : List Ranged} (h : a.Perm b) (ha : KeysApart a) : KeysApart b := by
  rw [apart_iff] at *
  refine (h.pairwise_iff ?_).mp ha
  rintro x y hxy ⟨h1, h2, h3, h4⟩
  exact hxy ⟨h2, h1, h3.symm, h4.symm⟩

theorem apart_append {a b : List Ranged} (ha : KeysApart a) (hb : KeysApart b) (hab : ∀ x ∈ a, ∀ y ∈ b, x.start ≠ y.start) : KeysApart (a ++ b) := by
  rw [apart_iff] at *
  exact List.pairwise_append.mpr ⟨ha, hb, fun x hx y hy h => hab x hx y hy h.2.2.1⟩

theorem bounded (ts : List Ranged) : ∃ N, ∀ t ∈ ts, t.start < N := by
  induction ts with
  | nil => exact ⟨0, fun _ h => (by cases h)⟩
  | cons x ts ih =>
    obtain ⟨N, h⟩ := ih
    refine ⟨N + x.start + 1, fun t ht => ?_⟩
    rcases List.mem_cons.mp ht with rfl | ht
    · omega
    · have := h t ht
      omega

/-! ### Tokens of the other text -/

/-- The tokens of a file, and what those of the other are. -/
def Texts (pts qts : List Token) (reg : Nat → Option (Nat × Nat)) (id : Nat) (x : List Ranged) (ts : List Token) : Prop :=
  (reg id = none ∧ ts = toks x) ∨ ∃ n m, reg id = some (n, m) ∧ ∃ a u c : List Ranged, x = a ++ (u ++ c) ∧
    ts = toks a ++ (pts ++ (toks u ++ (qts ++ toks c))) ∧
    Ended a ∧ Ended u ∧ Begun u ∧ Begun c ∧ NoPragma (toks u) ∧
    (∀ t ∈ a, isDate t.tok = true → t.start < n) ∧ (∀ t ∈ u, isDate t.tok = true → n ≤ t.start ∧ t.start < m) ∧
    (∀ t ∈ c, isDate t.tok = true → m ≤ t.start)

variable {pts qts : List Token} {reg : Nat → Option (Nat × Nat)}

theorem tokens_of {id : Nat} {x : List Ranged} {ts : List Token} (h : Texts pts qts reg id x ts) (hk : KeysApart x) :
    ∃ y, toks y = ts ∧ Tokens pts qts reg id x y ∧ KeysApart y := by
  rcases h with ⟨h1, rfl⟩ | ⟨n, m, h1, a, u, c, rfl, rfl, ha, hu, bu, bc, nu, ra, ru, rc⟩
  · exact ⟨x, rfl, .inl ⟨h1, rfl⟩, hk⟩
  · obtain ⟨N, hN⟩ := bounded (a ++ (u ++ c))
    refine ⟨a ++ (place N pts ++ (u ++ (place (N + pts.length) qts ++ c))), ?_, ?_, ?_⟩
    · simp only [toks, List.map_append, place_toks]
    · exact .inr ⟨n, m, h1, ⟨a, u, c, place N pts, place (N + pts.length) qts, rfl, rfl, place_toks _ _, place_toks _ _, ha, hu, bu, bc, nu, ra, ru, rc⟩⟩
    · have hp : ((place N pts ++ place (N + pts.length) qts) ++ (a ++ (u ++ c))).Perm (a ++ (place N pts ++ (u ++ (place (N + pts.length) qts ++ c)))) := by
        classical
        rw [List.perm_iff_count]
        intro t
        simp only [List.count_append]
        omega
      refine apart_perm hp (apart_append (apart_of_starts ?_) hk ?_)
      · rw [List.map_append, place_starts, place_starts]
        have := List.nodup_range' (s := N) (n := pts.length + qts.length)
        rwa [List.range'_append_1.symm] at this
      · intro s hs t ht
        have h2 := hN t ht
        rcases List.mem_append.mp hs with hs | hs
        · have := (place_mem hs).1
          omega
        · have := (place_mem hs).1
          omega

/-- The tokens of all of the other texts. -/
theorem all_tokens {tokens : Str → List Ranged} {s s' : Lima.Sources} (hc' : Complete tokens s')
    (hk : ∀ id path text, IsSource s id path text → KeysApart (tokens text))
    (h : List.Forall₂ (fun e e' : Nat × Option Path × Str => e'.1 = e.1 ∧ e'.2.1 = e.2.1 ∧
      Texts pts qts reg e.1 (tokens e.2.2) (toks (tokens e'.2.2))) s.contentIter s'.contentIter) :
    ∃ f : Nat → List Ranged, List.Forall₂ (fun e e' : Nat × Option Path × Str => e'.1 = e.1 ∧ e'.2.1 = e.2.1 ∧
      toks (f e'.1) = toks (tokens e'.2.2) ∧ Tokens pts qts reg e.1 (tokens e.2.2) (f e'.1) ∧ KeysApart (f e'.1)) s.contentIter s'.contentIter := by
  have ids : ((s'.contentIter).map (·.1)).Nodup := hc'.ids
  have key : ∀ {l l' : List (Nat × Option Path × Str)}, (∀ e ∈ l, e ∈ s.contentIter) → (l'.map (·.1)).Nodup →
      List.Forall₂ (fun e e' : Nat × Option Path × Str => e'.1 = e.1 ∧ e'.2.1 = e.2.1 ∧ Texts pts qts reg e.1 (tokens e.2.2) (toks (tokens e'.2.2))) l l' →
      ∃ f : Nat → List Ranged, List.Forall₂ (fun e e' : Nat × Option Path × Str => e'.1 = e.1 ∧ e'.2.1 = e.2.1 ∧
        toks (f e'.1) = toks (tokens e'.2.2) ∧ Tokens pts qts reg e.1 (tokens e.2.2) (f e'.1) ∧ KeysApart (f e'.1)) l l' := by
    intro l l' hm hn hh
    induction hh with
    | nil => exact ⟨fun _ => [], .nil⟩
    | @cons e e' l l' h hrest ih =>
      rw [List.map_cons, List.nodup_cons] at hn
      obtain ⟨f, hf⟩ := ih (fun x hx => hm x (List.mem_cons_of_mem _ hx)) hn.2
      obtain ⟨y, h1, h2, h3⟩ := tokens_of h.2.2 (hk _ _ _ (mem_contentIter.mp (hm e (by simp))))
      refine ⟨fun k => if k = e'.1 then y else f k, .cons ⟨h.1, h.2.1, ?_⟩ ?_⟩
      · dsimp only
        rw [if_pos rfl]
        exact ⟨h1, h2, h3⟩
      · have : ∀ x ∈ l', ¬ x.1 = e'.1 := fun x hx he => hn.1 (he ▸ List.mem_map_of_mem hx)
        clear h1 h2 h3 h hm ih hn hrest
        induction hf with
        | nil => exact .nil
        | @cons a b l l' hab _ ih =>
          refine .cons ?_ (ih fun x hx => this x (List.mem_cons_of_mem _ hx))
          dsimp only
          rw [if_neg (this b (by simp))]
          exact hab
  exact key (fun _ h => h) ids h

/-! ### Places of directives -/

section
variable [Unicode] [DecOps]

/-- No pragmas in particular, and no directive at some places. -/
def nowhere : Bracketed.Pair where
  Inv := fun _ => True
  fine := fun _ => True
  push := fun _ => False
  pop := fun _ => False
  Rel := fun _ _ => False
  init := fun _ => trivial
  same := fun _ _ _ _ _ => trivial
  keep := fun _ _ _ _ => trivial
  pushes := fun _ h => h.elim
  pops := fun _ h => h.elim
  back := fun _ _ _ _ h => h.elim
  aug := fun _ _ _ _ _ _ h => h.elim
  rank := fun _ _ h => h.elim

/-- Nothing but what is empty may be without an end. -/
theorem all_stop {env : ParseEnv} (e1 : env.emptySpan = fun _ _ => ⟨0, 0, 0⟩) {s : Lima.Sources} (hc : Complete env.tokens s)
    (hs : ∀ e ∈ s.contentIter, Sound (env.tokens e.2.2)) {r : ParseSuccess} (hr : parseSources env s = .ok r) :
    ∀ d ∈ r.directives, d.span.stop ≠ 0 := by
  obtain ⟨rs, o, hio, he⟩ := succeeded hc hr
  obtain ⟨ds, data, p1, q1⟩ := parseSources_ok hc hio
  have lists : ∀ {es : List (Nat × Option Path × Str)} {o o' : ParserOptions} {rs : List FileResult}, (∀ e ∈ es, Sound (env.tokens e.2.2)) →
      InOrder env o es rs o' → (∀ res ∈ rs, res.errors = []) →
      Bracketed.Lists nowhere (fun sp => sp.stop = 0) (outputsOf es rs) (outputsOf es rs) := by
    intro es o o' rs hs hio he
    induction hio with
    | nil o => exact .nil
    | cons o o' id path text res es rs hpf _ ih =>
      have he0 := he res (by simp)
      rw [e1] at hpf
      obtain ⟨ds, ws, k1, k2⟩ := parseFile_sound hpf (by rw [he0]; simp)
      refine .cons ⟨rfl, ?_⟩ (ih (fun e he => hs e (List.mem_cons_of_mem _ he)) fun res hres => he res (List.mem_cons_of_mem _ hres))
      change Bracketed.Decls _ _ (res.declarations.getD []) (res.declarations.getD [])
      rw [k1]
      have := outside (B := nowhere) (In := fun sp => sp.stop = 0) .nil (ds := ds) (fun _ _ _ _ => trivial)
        fun d hd z hz => (stands k2 d hd z hz).stop (hs (id, path, text) List.mem_cons_self)
      simpa using this
  have := (Bracketed.process (lists hs hio he) p1 p1).1
  have all := Bracketed.related_sort Bracketed.out_rank this
  rw [hr] at q1
  split at q1
  · cases q1
    intro d hd
    obtain ⟨d', _, hout⟩ := forall₂_left all d hd
    exact fun h => hout.inside h
  · cases q1

theorem place_stop {e : Nat → List Ranged → Span} {t : List (List Ranged)} {p : Span}
    (h : (Layout.place (fun _ _ => ⟨0, 0, 0⟩) t p).stop ≠ 0) : Layout.place e t p = Layout.place (fun _ _ => ⟨0, 0, 0⟩) t p := by
  unfold Layout.place at *
  split
  · rfl
  · rename_i toks ht
    rw [ht] at h
    dsimp only at h
    split
    · rename_i hp
      rw [if_pos hp] at h
      exact absurd rfl h
    · rfl

/-- What is not empty is where it is whatever places there are for what is empty. -/
theorem respan {env : ParseEnv} (hx : SameEnv env env) {s : Lima.Sources}
    (hk : ∀ id path text, IsSource s id path text → KeysApart (env.tokens text)) {r1 : ParseSuccess}
    (h : parseSources { env with emptySpan := fun _ _ => ⟨0, 0, 0⟩ } s = .ok r1) :
    ∃ r, parseSources env s = .ok r ∧ SameButPlaces r r1 ∧
      List.Forall₂ (fun d d1 : Spanned Directive => d1.span.stop ≠ 0 → d.span = d1.span) r.directives r1.directives := by
  unfold parseSources BeancountParser.new at h ⊢
  dsimp only at h
  have hmem := @Layout.tokenize_mem env.tokens s.contentIter (List.replicate s.ids.length [])
  generalize s.contentIter.foldlM (tokenizeOne env.tokens) _ = q at h hmem
  cases q with
  | none => cases h
  | some t =>
    dsimp only [Option.map_some] at h ⊢
    have hka : ∀ toks ∈ t, KeysApart toks := by
      intro toks hm
      rcases hmem rfl toks hm with hm | ⟨e, he, rfl⟩
      · rw [List.eq_of_mem_replicate hm]
        exact Layout.apart_nil
      · exact hk _ _ _ (mem_contentIter.mp he)
    have refl : ∀ {α : Type} [Places α] (x : α), SameButPlaces x x := fun _ => rfl
    have hctx : ∀ (f : Span → Span) (tags : TagStacks) (metas : MetaStacks), env.context (move f tags) (move f metas) = env.context tags metas := by
      intro f tags metas
      exact hx.context _ _ _ _ (same_move_left _ tags).symm (same_move_left _ metas).symm
    have p1 := Layout.parse_plain env s s t hka env.context (fun tags metas => hctx _ tags metas)
      (List.forall₂_same.mpr fun e _ => ⟨rfl, rfl⟩) rfl rfl rfl
    have p2 := Layout.parse_plain { env with emptySpan := fun _ _ => ⟨0, 0, 0⟩ } s s t hka env.context (fun tags metas => hctx _ tags metas)
      (List.forall₂_same.mpr fun e _ => ⟨rfl, rfl⟩) rfl rfl rfl
    have pe : Layout.plainEnv { env with emptySpan := fun _ _ => ⟨0, 0, 0⟩ } env.context = Layout.plainEnv env env.context := rfl
    rw [pe] at p2
    rw [p2] at h
    rw [p1]
    generalize BeancountParser.parse (Layout.plainEnv env env.context) ⟨s, t.map Layout.plain⟩ = X at h
    cases X with
    | err e => cases h
    | panic => cases h
    | ok X =>
      cases h
      refine ⟨move (Layout.place env.emptySpan t) X, rfl, same_move _ _ _, ?_⟩
      change List.Forall₂ _ (X.directives.map _) (X.directives.map _)
      rw [List.forall₂_map_left_iff, List.forall₂_map_right_iff, List.forall₂_same]
      intro d _ hd
      exact place_stop hd

/-! ### The runs -/

variable {B : Bracketed.Pair} {quiet : Prop}

/-- One result and the other, but for places. -/
structure Like (B : Bracketed.Pair) (quiet : Prop) (In : Span → Prop) (r r' : ParseSuccess) : Prop where
  options : SameButPlaces r.options r'.options
  plugins : SameButPlaces r.plugins r'.plugins
  warnings : ∃ ws, ws.Sublist r'.warnings ∧ SameButPlaces r.warnings ws
  quiet : quiet → SameButPlaces r.warnings r'.warnings
  directives : List.Forall₂ (fun d d' => (In d.span → ∃ y y', SameButPlaces d.item y ∧ SameButPlaces d'.item y' ∧ B.Rel y y') ∧
    (¬ In d.span → SameButPlaces d d')) r.directives r'.directives

theorem forall₂_same_places {α : Type} [Places α] {l l' : List α} (h : SameButPlaces l l') : List.Forall₂ SameButPlaces l l' := by
  have h : l.map (move fun _ => (⟨0, 0, 0⟩ : Span)) = l'.map (move fun _ => (⟨0, 0, 0⟩ : Span)) := h
  induction l generalizing l' with
  | nil =>
    cases l' with
    | nil => exact .nil
    | cons => cases h
  | cons x l ih =>
    cases l' with
    | nil => cases h
    | cons y l' =>
      rw [List.map_cons, List.map_cons] at h
      injection h with h1 h2
      exact .cons h1 (ih (by exact h2) h2)

theorem forall₂_and {α β : Type} {P Q : α → β → Prop} {l : List α} {m : List β} (h : List.Forall₂ P l m) (h' : List.Forall₂ Q l m) :
    List.Forall₂ (fun a b => P a b ∧ Q a b) l m := by
  induction h with
  | nil => exact .nil
  | cons h _ ih =>
    cases h' with
    | cons h' t => exact .cons ⟨h, h'⟩ (ih t)

theorem forall₂_comp {α β γ : Type} {P : α → β → Prop} {Q : β → γ → Prop} {l : List α} {m : List β} {n : List γ} (h : List.Forall₂ P l m) (h' : List.Forall₂ Q m n) :
    List.Forall₂ (fun a c => ∃ b, P a b ∧ Q b c) l n := by
  induction h generalizing n with
  | nil => cases h'; exact .nil
  | cons h _ ih =>
    cases h' with
    | cons h' t => exact .cons ⟨_, h, h'⟩ (ih t)

theorem surround_parse {env : ParseEnv} (hx : SameEnv env env) {s s' : Lima.Sources} (hc : Complete env.tokens s) (hc' : Complete env.tokens s')
    (hk : ∀ id path text, IsSource s id path text → KeysApart (env.tokens text))
    (hk' : ∀ id path text, IsSource s' id path text → KeysApart (env.tokens text))
    (hsound : ∀ e ∈ s.contentIter, Sound (env.tokens e.2.2))
    (hr : s'.rootPath = s.rootPath) (hg : s'.globs = s.globs) (he : s'.errorPaths = s.errorPaths)
    (hp : Line env.decimal quiet B.push pts) (hq : Line env.decimal quiet B.pop qts)
    (h : List.Forall₂ (fun e e' : Nat × Option Path × Str => e'.1 = e.1 ∧ e'.2.1 = e.2.1 ∧
      Texts pts qts reg e.1 (env.tokens e.2.2) (toks (env.tokens e'.2.2))) s.contentIter s'.contentIter)
    (fine : ∀ e ∈ s.contentIter, ∀ o ds o' ws, FileP (cfgAt env.decimal e.1 e.2.1) o (env.tokens e.2.2) ds o' [] ws →
      ∀ d ∈ ds, ∀ z, d.item = .pragma z → B.fine z) :
    (∃ r r', parseSources env s = .ok r ∧ parseSources env s' = .ok r' ∧ Like B quiet (Within reg) r r') ∨
    ((∀ r, parseSources env s ≠ .ok r) ∧ ∀ r, parseSources env s' ≠ .ok r) := by
  obtain ⟨f, hf⟩ := all_tokens hc' hk h
  let env1 : ParseEnv := { env with emptySpan := fun _ _ => ⟨0, 0, 0⟩ }
  let env2 := envOf env f
  have same1 : SameButPlaces (parseSources env s) (parseSources env1 s) := by
    refine Layout.parseSources_same ⟨rfl, rfl, hx.context⟩ ⟨rfl, rfl, rfl, ?_, rfl⟩ hk hk
    rw [List.forall₂_same]
    intro e _
    refine ⟨rfl, ?_⟩
    obtain ⟨p, x⟩ := e
    cases x with
    | content => exact .content rfl
    | error => exact .error _
    | duplicate => exact .duplicate
  have same2 : ∀ e ∈ s'.contentIter, SameTokens (env.tokens e.2.2) (env2.tokens (code e.1)) := by
    intro e' he'
    obtain ⟨e, _, _, _, hh, _⟩ := forall₂_right hf e' he'
    change SameTokens _ (f (code e'.1).length)
    rw [code_length]
    exact hh.symm
  have p2 : SameButPlaces (parseSources env s') (parseSources env2 (recode s')) := by
    refine Layout.parseSources_same ⟨rfl, rfl, hx.context⟩ (recode_same same2) hk' ?_
    intro id path text hi
    have := mem_contentIter.mpr hi
    rw [recode_iter] at this
    obtain ⟨e', hm, he⟩ := List.mem_map.mp this
    cases he
    obtain ⟨e, _, _, _, _, _, hh⟩ := forall₂_right hf e' hm
    change KeysApart (f (code e'.1).length)
    rw [code_length]
    exact hh
  have hs : Sources B quiet pts qts reg env1 env2 s (recode s') := by
    refine ⟨hc, recode_complete hc' same2, rfl, rfl, rfl, ?_, hr, hp, hq, ?_, fine⟩
    · unfold ParseEnv.pragmaEnv
      rw [recode_errors, he, show (recode s').globs = s'.globs from rfl, hg]
      rfl
    · rw [recode_iter, List.forall₂_map_right_iff]
      refine hf.imp fun e e' hh => ⟨hh.1, hh.2.1, ?_⟩
      change Tokens _ _ _ _ _ (f (code e'.1).length)
      rw [code_length]
      exact hh.2.2.2.1
  rcases sources_parse hs with ⟨r1, r2, q1, q2, q3⟩ | ⟨q1, q2⟩
  · obtain ⟨r, e1, e2, e3⟩ := respan hx hk q1
    obtain ⟨r', e4, e5⟩ := same_ok_result p2 q2
    have stops := all_stop (env := env1) rfl hc hsound q1
    refine .inl ⟨r, r', e1, e4, ?_, ?_, ?_, ?_, ?_⟩
    · have a1 : SameButPlaces r.options r1.options := congrArg ParseSuccess.options e2
      have a2 : SameButPlaces r'.options r2.options := congrArg ParseSuccess.options e5
      rw [q3.options] at a2
      exact a1.trans a2.symm
    · have a1 : SameButPlaces r.plugins r1.plugins := congrArg ParseSuccess.plugins e2
      have a2 : SameButPlaces r'.plugins r2.plugins := congrArg ParseSuccess.plugins e5
      rw [q3.plugins] at a2
      exact a1.trans a2.symm
    · have a1 : SameButPlaces r.warnings r1.warnings := congrArg ParseSuccess.warnings e2
      have a2 : SameButPlaces r'.warnings r2.warnings := congrArg ParseSuccess.warnings e5
      obtain ⟨ws, k1, k2⟩ := sublist_like (l := r'.warnings) (l' := r1.warnings) a2 q3.warnings.1 rfl
      exact ⟨ws, k1, a1.trans k2.symm⟩
    · intro hqt
      have a1 : SameButPlaces r.warnings r1.warnings := congrArg ParseSuccess.warnings e2
      have a2 : SameButPlaces r'.warnings r2.warnings := congrArg ParseSuccess.warnings e5
      rw [q3.warnings.2 hqt] at a2
      exact a1.trans a2.symm
    · have a1 := forall₂_same_places (show SameButPlaces r.directives r1.directives from congrArg ParseSuccess.directives e2)
      have a2 := forall₂_same_places (show SameButPlaces r2.directives r'.directives from (congrArg ParseSuccess.directives e5).symm)
      have b1 : List.Forall₂ (fun d d1 : Spanned Directive => d1 ∈ r1.directives ∧ SameButPlaces d d1 ∧ (d1.span.stop ≠ 0 → d.span = d1.span)) r.directives r1.directives := by
        have := forall₂_and a1 e3
        clear a1 e3
        have mem : ∀ x ∈ r1.directives, x ∈ r1.directives := fun _ h => h
        revert mem
        generalize r1.directives = w at *
        intro mem
        have key : ∀ {l : List (Spanned Directive)} {m : List (Spanned Directive)}, (∀ x ∈ m, x ∈ w) →
            List.Forall₂ (fun d d1 : Spanned Directive => SameButPlaces d d1 ∧ (d1.span.stop ≠ 0 → d.span = d1.span)) l m →
            List.Forall₂ (fun d d1 : Spanned Directive => d1 ∈ w ∧ SameButPlaces d d1 ∧ (d1.span.stop ≠ 0 → d.span = d1.span)) l m := by
          intro l m hm hh
          induction hh with
          | nil => exact .nil
          | cons h _ ih => exact .cons ⟨hm _ (by simp), h⟩ (ih fun x hx => hm x (List.mem_cons_of_mem _ hx))
        exact key mem this
      refine (forall₂_comp b1 (forall₂_comp q3.directives a2)).imp ?_
      rintro d d' ⟨d1, ⟨m1, m2, m3⟩, d2, m4, m5⟩
      have hsp := m3 (stops d1 m1)
      have i1 : SameButPlaces d.item d1.item := congrArg Spanned.item m2
      have i2 : SameButPlaces d'.item d2.item := congrArg Spanned.item m5.symm
      constructor
      · intro hin
        rw [hsp] at hin
        exact ⟨_, _, i1, i2, m4.inside hin⟩
      · intro hin
        rw [hsp] at hin
        have := m4.outside hin
        subst this
        exact m2.trans m5
  · refine .inr ⟨fun r hr => ?_, fun r hr => ?_⟩
    · obtain ⟨r', hr', _⟩ := same_ok_result same1.symm hr
      exact q1 _ hr'
    · obtain ⟨r', hr', _⟩ := same_ok_result p2.symm hr
      exact q2 _ hr'

end

end Lima.Surround
