import Verif.Lemmas.Bracketed
import Verif.Lemmas.ReviseText
import Verif.Lemmas.SurroundRegion

/-! A passage between two pragmas: files. -/

set_option linter.unusedSectionVars false

namespace Lima.Surround
open Lima Spec Grammar Props InPlaceParse Revise


/-! ### Where directives are -/

/-- What is needed of tokens: dates are not empty, and nothing ends before what is before it. -/
structure Sound (ts : List Ranged) : Prop where
  dates : ∀ t ∈ ts, isDate t.tok = true → t.start < t.stop
  order : ts.Pairwise fun a b => a.stop ≤ b.stop

theorem Sound.tail {a b : List Ranged} (h : Sound (a ++ b)) : Sound b :=
  ⟨fun t ht => h.dates t (List.mem_append_right _ ht), (List.pairwise_append.mp h.order).2.1⟩

/-- A directive is where its date is. -/
structure Stands (id : Nat) (ts : List Ranged) (span : Span) : Prop where
  source : span.source = id
  start : ∃ t ∈ ts, isDate t.tok = true ∧ span.start = t.start
  stop : Sound ts → span.stop ≠ 0

theorem Stands.mono {id : Nat} {a b : List Ranged} {span : Span} (h : Stands id b span) : Stands id (a ++ b) span := by
  obtain ⟨t, h1, h2⟩ := h.start
  exact ⟨h.source, ⟨t, List.mem_append_right _ h1, h2⟩, fun hs => h.stop hs.tail⟩

section
variable [Unicode] [DecOps]

theorem stands {cfg : ParseCfg} {o o' : ParserOptions} {ts : List Ranged} {ds : List (Spanned Declaration)} {es : List PErr}
    {ws : List Report} (h : FileP cfg o ts ds o' es ws) : ∀ d ∈ ds, ∀ x, d.item = .directive x → Stands cfg.source ts d.span := by
  induction h with
  | nil => intro d hd; cases hd
  | @cons o o' o'' run r d ds es es' ws' hd _ ih =>
    intro y hy x hx
    rcases List.mem_cons.mp hy with rfl | hy
    · cases hd with
      | pragma => cases hx
      | directive hd hc =>
        have hl := directive_lt hd
        have hw : ∃ (dt : Date) (j : List Ranged), Word (.date dt) (run ++ r) j := by
          cases hd with
          | transaction hd _ _ _ _ _ _ _ => exact ⟨_, _, hd.1⟩
          | other hd _ _ _ _ _ _ => exact ⟨_, _, hd.1⟩
          | custom hd _ _ _ _ _ _ => exact ⟨_, _, hd.1⟩
        obtain ⟨dt, j, a, b, e⟩ := hw
        rcases hc with ⟨first, run', last, h1, h2, h3, rfl⟩ | ⟨h1, _⟩
        · have := List.append_cancel_right h1
          subst this
          cases run with
          | nil => cases h2
          | cons f run =>
            obtain rfl : f = first := by simpa using h2
            rw [List.cons_append] at e
            injection e with e1 e2
            have hdate : isDate f.tok = true := by rw [e1]; rfl
            refine ⟨rfl, ⟨f, by simp, hdate, rfl⟩, fun hs => ?_⟩
            have h4 := hs.dates f (by simp) hdate
            have h5 : f.stop ≤ last.stop := by
              have hm := List.mem_of_getLast? h3
              rcases List.mem_cons.mp hm with rfl | hm
              · exact Nat.le_refl _
              · exact (List.pairwise_cons.mp hs.order).1 _ (List.mem_append_left _ hm)
            dsimp only
            omega
        · rw [h1] at hl
          exact absurd hl (Nat.lt_irrefl _)
    · exact (ih y hy x hx).mono

/-! ### A pragma on a line of its own -/

/-- What has these tokens is a pragma, wherever it is. -/
structure Line (decimal : Str → Except LexerError Dec) (quiet : Prop) (good : Pragma → Prop) (pts : List Token) : Prop where
  whole : WholeLines pts
  unindent : Unindent pts
  file : ∀ P : List Ranged, toks P = pts → ∀ (id : Nat) (path : Option Path) (o : ParserOptions), ∃ dec pr ws,
    FileP (cfgAt decimal id path) o P [dec] o [] ws ∧ dec.item = .pragma pr ∧ good pr ∧ (quiet → ws = [])

/-- Tokens, and the tokens with the two pragmas. -/
structure Wrapped (pts qts : List Token) (n m : Nat) (x y : List Ranged) : Prop where
  parts : ∃ a u c P Q : List Ranged, x = a ++ (u ++ c) ∧ y = a ++ (P ++ (u ++ (Q ++ c))) ∧ toks P = pts ∧ toks Q = qts ∧
    Ended a ∧ Ended u ∧ Begun u ∧ Begun c ∧ NoPragma (toks u) ∧
    (∀ t ∈ a, isDate t.tok = true → t.start < n) ∧ (∀ t ∈ u, isDate t.tok = true → n ≤ t.start ∧ t.start < m) ∧
    (∀ t ∈ c, isDate t.tok = true → m ≤ t.start)

/-- Where the directives between the pragmas are, by source. -/
def Within (reg : Nat → Option (Nat × Nat)) (sp : Span) : Prop := ∃ n m, reg sp.source = some (n, m) ∧ n ≤ sp.start ∧ sp.start < m

/-- The tokens of a file, and those of the other. -/
def Tokens (pts qts : List Token) (reg : Nat → Option (Nat × Nat)) (id : Nat) (x y : List Ranged) : Prop :=
  (reg id = none ∧ y = x) ∨ ∃ n m, reg id = some (n, m) ∧ Wrapped pts qts n m x y

/-- Warnings: the same, or more of them. -/
def Warned (quiet : Prop) (ws ws' : List Report) : Prop := ws.Sublist ws' ∧ (quiet → ws' = ws)

theorem Warned.refl {quiet : Prop} (ws : List Report) : Warned quiet ws ws := ⟨List.Sublist.refl _, fun _ => rfl⟩
theorem Warned.append {quiet : Prop} {a a' b b' : List Report} (h : Warned quiet a a') (h' : Warned quiet b b') : Warned quiet (a ++ b) (a' ++ b') :=
  ⟨h.1.append h'.1, fun q => by rw [h.2 q, h'.2 q]⟩
theorem Warned.more {quiet : Prop} {a b b' : List Report} (h : quiet → a = []) (h' : Warned quiet b b') : Warned quiet b (a ++ b') :=
  ⟨h'.1.trans (List.sublist_append_right _ _), fun q => by rw [h q, h'.2 q]; rfl⟩

variable {B : Bracketed.Pair} {decimal : Str → Except LexerError Dec} {quiet : Prop} {pts qts : List Token} {reg : Nat → Option (Nat × Nat)}
  {id : Nat} {path : Option Path} {x y : List Ranged} {o o' : ParserOptions} {ds : List (Spanned Declaration)} {ws : List Report}

/-- Declarations outside. -/
theorem outside {In : Span → Prop} {l l' : List (Spanned Declaration)} (h : Bracketed.Decls B In l l') : ∀ {ds : List (Spanned Declaration)},
    (∀ d ∈ ds, ∀ x, d.item = .pragma x → B.fine x) → (∀ d ∈ ds, ∀ x, d.item = .directive x → ¬ In d.span) → Bracketed.Decls B In (ds ++ l) (ds ++ l')
  | [], _, _ => h
  | d :: ds, hf, ho => by
    have ih := outside h (ds := ds) (fun e he => hf e (List.mem_cons_of_mem _ he)) fun e he => ho e (List.mem_cons_of_mem _ he)
    cases hd : d.item with
    | directive x => exact .directive hd (ho d (by simp) x hd) ih
    | pragma x => exact .pragma hd (hf d (by simp) x hd) ih

/-- If the first file has no errors then neither has the second. -/
theorem forth (hp : Line decimal quiet B.push pts) (hq : Line decimal quiet B.pop qts) (h : Tokens pts qts reg id x y)
    (hf : FileP (cfgAt decimal id path) o x ds o' [] ws) (hfine : ∀ d ∈ ds, ∀ z, d.item = .pragma z → B.fine z) :
    ∃ ds' ws', FileP (cfgAt decimal id path) o y ds' o' [] ws' ∧ Bracketed.Decls B (Within reg) ds ds' ∧ Warned quiet ws ws' := by
  rcases h with ⟨h1, rfl⟩ | ⟨n, m, h1, ⟨a, u, c, P, Q, rfl, rfl, hP, hQ, ha, hu, bu, bc, nu, ra, ru, rc⟩⟩
  · refine ⟨ds, ws, hf, ?_, .refl _⟩
    have := outside (B := B) (In := Within reg) (.nil) hfine fun d hd z hz => ?_
    · simpa using this
    · have hs := (stands hf d hd z hz).source
      rintro ⟨n, m, h2, _⟩
      rw [hs] at h2
      rw [show reg (cfgAt decimal id path).source = none from h1] at h2
      cases h2
  · obtain ⟨da, d1, o1, e1, e2, wa, w1, k1, k2, rfl, k3, rfl⟩ := (file_parts ha (head_append bu bc)).mp hf
    obtain ⟨rfl, rfl⟩ := List.append_eq_nil_iff.mp k3.symm
    obtain ⟨du, dc, o2, e1, e2, wu, wc, k4, k5, rfl, k6, rfl⟩ := (file_parts hu bc).mp k2
    obtain ⟨rfl, rfl⟩ := List.append_eq_nil_iff.mp k6.symm
    have s1 := InPlaceParse.FileP.steady k4 (not_sets nu)
    subst s1
    obtain ⟨dp, pr, wp, p1, p2, p3, p4⟩ := hp.file P hP id path o2
    obtain ⟨dq, qr, wq, q1, q2, q3, q4⟩ := hq.file Q hQ id path o2
    have eP : Ended P := ended_of (by rw [hP]; exact hp.whole)
    have bP : Begun P := begun_of (by rw [hP]; exact hp.unindent)
    have eQ : Ended Q := ended_of (by rw [hQ]; exact hq.whole)
    have bQ : Begun Q := begun_of (by rw [hQ]; exact hq.unindent)
    have bQc := head_append bQ bc
    have buQc := head_append bu bQc
    refine ⟨da ++ ([dp] ++ (du ++ ([dq] ++ dc))), wa ++ (wp ++ (wu ++ (wq ++ wc))), ?_, ?_, ?_⟩
    · exact (file_parts ha (head_append bP buQc)).mpr ⟨_, _, _, _, _, _, _, k1,
        (file_parts eP buQc).mpr ⟨_, _, _, _, _, _, _, p1,
          (file_parts hu bQc).mpr ⟨_, _, _, _, _, _, _, k4,
            (file_parts eQ bc).mpr ⟨_, _, _, _, _, _, _, q1, k5, rfl, rfl, rfl⟩, rfl, rfl, rfl⟩, rfl, rfl, rfl⟩, rfl, rfl, rfl⟩
    · have out : ∀ {ts : List Ranged} {span : Span}, (∀ t ∈ ts, isDate t.tok = true → t.start < n ∨ m ≤ t.start) →
          Stands id ts span → ¬ Within reg span := by
        rintro ts span hts ⟨h2, ⟨t, ht, hd, hst⟩, _⟩ ⟨n', m', h3, h4, h5⟩
        rw [h2, h1] at h3
        cases h3
        have := hts t ht hd
        omega
      have hc : Bracketed.Decls B (Within reg) (dc ++ []) (dc ++ []) := outside .nil
        (fun d hd => hfine d (List.mem_append_right _ (List.mem_append_right _ hd)))
        (fun d hd z hz => out (fun t ht hdt => .inr (rc t ht hdt)) (stands k5 d hd z hz))
      rw [List.append_nil] at hc
      refine outside ?_ (fun d hd => hfine d (List.mem_append_left _ hd))
        (fun d hd z hz => out (fun t ht hdt => .inl (ra t ht hdt)) (stands k1 d hd z hz))
      refine .bracket p2 q2 p3 q3 ?_ hc
      intro d hd
      obtain ⟨z, hz, _⟩ := only_directives k4 nu d hd
      obtain ⟨h2, ⟨t, ht, hdt, hst⟩, _⟩ := stands k4 d hd z hz
      have := ru t ht hdt
      exact ⟨z, hz, n, m, by rw [h2]; exact h1, by omega, by omega⟩
    · exact (Warned.refl _).append (.more p4 ((Warned.refl _).append (.more q4 (.refl _))))

/-- If the second file has no errors then neither has the first. -/
theorem back (hp : Line decimal quiet B.push pts) (hq : Line decimal quiet B.pop qts) (h : Tokens pts qts reg id x y)
    (hf : FileP (cfgAt decimal id path) o y ds o' [] ws) : ∃ ds' ws', FileP (cfgAt decimal id path) o x ds' o' [] ws' := by
  rcases h with ⟨h1, rfl⟩ | ⟨n, m, h1, ⟨a, u, c, P, Q, rfl, rfl, hP, hQ, ha, hu, bu, bc, nu, ra, ru, rc⟩⟩
  · exact ⟨ds, ws, hf⟩
  · have eP : Ended P := ended_of (by rw [hP]; exact hp.whole)
    have bP : Begun P := begun_of (by rw [hP]; exact hp.unindent)
    have eQ : Ended Q := ended_of (by rw [hQ]; exact hq.whole)
    have bQ : Begun Q := begun_of (by rw [hQ]; exact hq.unindent)
    have bQc := head_append bQ bc
    have buQc := head_append bu bQc
    obtain ⟨da, d1, o1, e1, e2, wa, w1, k1, k2, rfl, k3, rfl⟩ := (file_parts ha (head_append bP buQc)).mp hf
    obtain ⟨rfl, rfl⟩ := List.append_eq_nil_iff.mp k3.symm
    obtain ⟨dp, d2, o2, e1, e2, wp, w2, k4, k5, rfl, k6, rfl⟩ := (file_parts eP buQc).mp k2
    obtain ⟨rfl, rfl⟩ := List.append_eq_nil_iff.mp k6.symm
    obtain ⟨du, d3, o3, e1, e2, wu, w3, k7, k8, rfl, k9, rfl⟩ := (file_parts hu bQc).mp k5
    obtain ⟨rfl, rfl⟩ := List.append_eq_nil_iff.mp k9.symm
    obtain ⟨dq, dc, o4, e1, e2, wq, wc, k10, k11, rfl, k12, rfl⟩ := (file_parts eQ bc).mp k8
    obtain ⟨rfl, rfl⟩ := List.append_eq_nil_iff.mp k12.symm
    obtain ⟨_, _, _, p1, _⟩ := hp.file P hP id path o1
    obtain ⟨_, _, _, q1, _⟩ := hq.file Q hQ id path o3
    have s1 := (InPlaceParse.FileP.eq k4 p1).2.1
    have s2 := (InPlaceParse.FileP.eq k10 q1).2.1
    rw [← s1] at k7
    rw [← s2] at k11
    exact ⟨da ++ (du ++ dc), wa ++ (wu ++ wc), (file_parts ha (head_append bu bc)).mpr ⟨_, _, _, _, _, _, _, k1,
      (file_parts hu bc).mpr ⟨_, _, _, _, _, _, _, k7, k11, rfl, rfl, rfl⟩, rfl, rfl, rfl⟩⟩

/-! ### All files -/

structure Sources (B : Bracketed.Pair) (quiet : Prop) (pts qts : List Token) (reg : Nat → Option (Nat × Nat)) (env1 env2 : ParseEnv)
    (s1 s2 : Lima.Sources) : Prop where
  complete1 : Complete env1.tokens s1
  complete2 : Complete env2.tokens s2
  empty1 : env1.emptySpan = fun _ _ => ⟨0, 0, 0⟩
  empty2 : env2.emptySpan = fun _ _ => ⟨0, 0, 0⟩
  decimal : env2.decimal = env1.decimal
  pragmas : env2.pragmaEnv s2 = env1.pragmaEnv s1
  rootPath : s2.rootPath = s1.rootPath
  push : Line env1.decimal quiet B.push pts
  pop : Line env1.decimal quiet B.pop qts
  files : List.Forall₂ (fun e e' : Nat × Option Path × Str => e'.1 = e.1 ∧ e'.2.1 = e.2.1 ∧
    Tokens pts qts reg e.1 (env1.tokens e.2.2) (env2.tokens e'.2.2)) s1.contentIter s2.contentIter
  fine : ∀ e ∈ s1.contentIter, ∀ o ds o' ws, FileP (cfgAt env1.decimal e.1 e.2.1) o (env1.tokens e.2.2) ds o' [] ws →
    ∀ d ∈ ds, ∀ z, d.item = .pragma z → B.fine z

theorem files_forth {env1 env2 : ParseEnv} (e1 : env1.emptySpan = fun _ _ => ⟨0, 0, 0⟩) (e2 : env2.emptySpan = fun _ _ => ⟨0, 0, 0⟩)
    (hd : env2.decimal = env1.decimal) (hp : Line env1.decimal quiet B.push pts) (hq : Line env1.decimal quiet B.pop qts)
    {es es' : List (Nat × Option Path × Str)}
    (h : List.Forall₂ (fun e e' : Nat × Option Path × Str => e'.1 = e.1 ∧ e'.2.1 = e.2.1 ∧
      Tokens pts qts reg e.1 (env1.tokens e.2.2) (env2.tokens e'.2.2)) es es')
    (hfine : ∀ e ∈ es, ∀ o ds o' ws, FileP (cfgAt env1.decimal e.1 e.2.1) o (env1.tokens e.2.2) ds o' [] ws →
      ∀ d ∈ ds, ∀ z, d.item = .pragma z → B.fine z)
    {o o' : ParserOptions} {rs : List FileResult} (hr : InOrder env1 o es rs o') (he : ∀ res ∈ rs, res.errors = []) :
    ∃ rs', InOrder env2 o es' rs' o' ∧ (∀ res ∈ rs', res.errors = []) ∧
      Bracketed.Lists B (Within reg) (outputsOf es rs) (outputsOf es' rs') ∧ Warned quiet (rs.flatMap (·.warns)) (rs'.flatMap (·.warns)) := by
  induction hr generalizing es' with
  | nil o =>
    cases h
    exact ⟨[], .nil _, fun _ h => (by cases h), .nil, .refl _⟩
  | cons o o' id path text res es rs hpf _ ih =>
    cases h with
    | @cons _ e' _ es' hh ht =>
      obtain ⟨id', path', text'⟩ := e'
      obtain ⟨h1, h2, h3⟩ := hh
      dsimp only at h1 h2 h3
      subst h1
      subst h2
      have he0 := he res (by simp)
      rw [e1] at hpf
      obtain ⟨ds, ws, k1, k2⟩ := parseFile_sound hpf (by rw [he0]; simp)
      rw [he0] at k2
      obtain ⟨ds', ws', k3, k4, k5⟩ := forth hp hq h3 k2 (hfine _ List.mem_cons_self _ _ _ _ k2)
      obtain ⟨rs', m1, m2, m3, m4⟩ := ih ht (fun e hm => hfine e (List.mem_cons_of_mem _ hm)) fun res hres => he res (List.mem_cons_of_mem _ hres)
      refine ⟨⟨some ds', [], res.opts, [] ++ ws'⟩ :: rs', .cons _ _ _ _ _ _ _ _ (by rw [e2, hd]; exact parseFile_complete [] k3) m1, ?_, ?_, ?_⟩
      · intro r hr
        rcases List.mem_cons.mp hr with rfl | hr
        · rfl
        · exact m2 r hr
      · refine .cons ⟨rfl, ?_⟩ m3
        change Bracketed.Decls _ _ (res.declarations.getD []) ds'
        rw [k1]
        exact k4
      · rw [List.flatMap_cons, List.flatMap_cons]
        refine Warned.append ?_ m4
        rw [k1]
        exact k5

theorem files_back {env1 env2 : ParseEnv} (e1 : env1.emptySpan = fun _ _ => ⟨0, 0, 0⟩) (e2 : env2.emptySpan = fun _ _ => ⟨0, 0, 0⟩)
    (hd : env2.decimal = env1.decimal) (hp : Line env1.decimal quiet B.push pts) (hq : Line env1.decimal quiet B.pop qts)
    {es es' : List (Nat × Option Path × Str)}
    (h : List.Forall₂ (fun e e' : Nat × Option Path × Str => e'.1 = e.1 ∧ e'.2.1 = e.2.1 ∧
      Tokens pts qts reg e.1 (env1.tokens e.2.2) (env2.tokens e'.2.2)) es es')
    {o o' : ParserOptions} {rs : List FileResult} (hr : InOrder env2 o es' rs o') (he : ∀ res ∈ rs, res.errors = []) :
    ∃ rs', InOrder env1 o es rs' o' ∧ (∀ res ∈ rs', res.errors = []) := by
  induction hr generalizing es with
  | nil o =>
    cases h
    exact ⟨[], .nil _, fun _ h => (by cases h)⟩
  | cons o o' id path text res es' rs hpf _ ih =>
    cases h with
    | @cons e _ es _ hh ht =>
      obtain ⟨id', path', text'⟩ := e
      obtain ⟨h1, h2, h3⟩ := hh
      dsimp only at h1 h2 h3
      subst h1
      subst h2
      have he0 := he res (by simp)
      rw [e2, hd] at hpf
      obtain ⟨ds, ws, k1, k2⟩ := parseFile_sound hpf (by rw [he0]; simp)
      rw [he0] at k2
      obtain ⟨ds', ws', k3⟩ := back hp hq h3 k2
      obtain ⟨rs', m1, m2⟩ := ih ht fun res hres => he res (List.mem_cons_of_mem _ hres)
      refine ⟨⟨some ds', [], res.opts, [] ++ ws'⟩ :: rs', .cons _ _ _ _ _ _ _ _ (by rw [e1]; exact parseFile_complete [] k3) m1, ?_⟩
      intro r hr
      rcases List.mem_cons.mp hr with rfl | hr
      · rfl
      · exact m2 r hr

/-- The second result, by the first. -/
structure Results (B : Bracketed.Pair) (quiet : Prop) (In : Span → Prop) (r r' : ParseSuccess) : Prop where
  options : r'.options = r.options
  plugins : r'.plugins = r.plugins
  warnings : Warned quiet r.warnings r'.warnings
  directives : List.Forall₂ (Bracketed.Out B In) r.directives r'.directives

theorem sources_parse {env1 env2 : ParseEnv} {s1 s2 : Lima.Sources} (h : Sources B quiet pts qts reg env1 env2 s1 s2) :
    (∃ r r', parseSources env1 s1 = .ok r ∧ parseSources env2 s2 = .ok r' ∧ Results B quiet (Within reg) r r') ∨
    ((∀ r, parseSources env1 s1 ≠ .ok r) ∧ ∀ r, parseSources env2 s2 ≠ .ok r) := by
  by_cases hclean : ∃ rs o, InOrder env1 ParserOptions.default s1.contentIter rs o ∧ ∀ res ∈ rs, res.errors = []
  · obtain ⟨rs, o, hr, he⟩ := hclean
    obtain ⟨rs', h1, h2, h3, h4⟩ := files_forth h.empty1 h.empty2 h.decimal h.push h.pop h.files h.fine hr he
    obtain ⟨ds, data, p1, q1⟩ := parseSources_ok h.complete1 hr
    obtain ⟨ds', data', p2, q2⟩ := parseSources_ok h.complete2 h1
    rw [h.pragmas, h.rootPath] at p2
    obtain ⟨k1, rfl⟩ := Bracketed.process h3 p1 p2
    rw [no_faults he] at q1
    rw [no_faults h2] at q2
    by_cases hf : data'.finalErrors = []
    · left
      rw [if_pos ⟨rfl, hf⟩] at q1 q2
      exact ⟨_, _, q1, q2, rfl, rfl, h4, Bracketed.related_sort Bracketed.out_rank k1⟩
    · right
      rw [if_neg (fun x => hf x.2)] at q1 q2
      refine ⟨fun r hr => ?_, fun r hr => ?_⟩
      · rw [q1] at hr; cases hr
      · rw [q2] at hr; cases hr
  · right
    refine ⟨fun r hr => hclean (succeeded h.complete1 hr), fun r hr => hclean ?_⟩
    obtain ⟨rs, o, hio, he⟩ := succeeded h.complete2 hr
    obtain ⟨rs', m1, m2⟩ := files_back h.empty1 h.empty2 h.decimal h.push h.pop h.files hio he
    exact ⟨rs', o, m1, m2⟩

end

end Lima.Surround
