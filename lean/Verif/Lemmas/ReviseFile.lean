import Verif.Lemmas.ReviseSort
import Verif.Lemmas.InPlaceSources
import Verif.Spec.Revised

/-! Directives exchanged or left out: files. -/

set_option linter.unusedSectionVars false

namespace Lima.Revise
open Lima Spec Grammar Props InPlaceParse Relation

variable {strict dropping : Prop}

/-! ### Blocks of directives -/

/-- All of these are directives. -/
def Only (P : Directive → Prop) (ds : List (Spanned Declaration)) : Prop := ∀ d ∈ ds, ∃ x, d.item = .directive x ∧ P x

theorem move_past {P Q : Directive → Prop} (hpq : ∀ x y, P x → Q y → May strict x y) {u v c : List (Spanned Declaration)} (hu : Only P u) (hv : Only Q v) :
    ReflTransGen (Decls strict dropping) (u ++ (v ++ c)) (v ++ (u ++ c)) := by
  induction u with
  | nil => exact .refl
  | cons x u ih =>
    have ih' := ih fun d hd => hu d (List.mem_cons_of_mem _ hd)
    obtain ⟨dx, hx, px⟩ := hu x (by simp)
    have h1 : ReflTransGen (Decls strict dropping) (x :: (u ++ (v ++ c))) (x :: (v ++ (u ++ c))) :=
      chain_map (fun l => x :: l) (fun _ _ h => .cons x h) ih'
    refine h1.trans ?_
    clear ih ih' h1
    induction v with
    | nil => exact .refl
    | cons y v ih =>
      obtain ⟨dy, hy, py⟩ := hv y (by simp)
      refine .head (b := y :: x :: (v ++ (u ++ c))) (.swap hx hy (hpq _ _ px py) (.refl _)) ?_
      exact chain_map (fun l => y :: l) (fun _ _ h => .cons y h) (ih fun d hd => hv d (List.mem_cons_of_mem _ hd))

theorem leave_out (hd : dropping) {P : Directive → Prop} {u c : List (Spanned Declaration)} (hu : Only P u) : Decls strict dropping (u ++ c) c := by
  induction u with
  | nil => exact .refl _
  | cons x u ih =>
    obtain ⟨dx, hx, _⟩ := hu x (by simp)
    exact .drop hd hx (ih fun d hd => hu d (List.mem_cons_of_mem _ hd))

theorem in_context {a x y : List (Spanned Declaration)} (h : ReflTransGen (Decls strict dropping) x y) :
    ReflTransGen (Decls strict dropping) (a ++ x) (a ++ y) :=
  chain_map (fun l => a ++ l) (fun _ _ h => (Decls.refl a).append h) h

/-! ### Tokens -/

abbrev Ended (a : List Ranged) : Prop := a = [] ∨ ∃ z e, a = z ++ [e] ∧ e.tok = .eol
abbrev Begun (a : List Ranged) : Prop := ∀ t ∈ a.head?, t.tok ≠ .indent
abbrev toks (a : List Ranged) : List Token := a.map (·.tok)

/-- One change of a file's tokens. -/
inductive Step (strict dropping : Prop) : List Ranged → List Ranged → Prop
  | exchange {a u v c : List Ranged} : Ended a → Ended u → Ended v → Begun u → Begun v → Begun c → NoPragma (toks u) → NoPragma (toks v) →
      (strict → NoDateInCommon (toks u) (toks v)) → Step strict dropping (a ++ (u ++ (v ++ c))) (a ++ (v ++ (u ++ c)))
  | leave {a u c : List Ranged} : dropping → Ended a → Ended u → Begun u → Begun c → NoPragma (toks u) → Step strict dropping (a ++ (u ++ c)) (a ++ c)

theorem not_sets {u : List Ranged} (h : NoPragma (toks u)) : ¬ SetsParserOption u := by
  rintro ⟨b, a, n, v, hm, _⟩
  exact h.1 (by rw [toks, hm]; simp)

section
variable [Unicode] [DecOps]

/-- A file of directives only. -/
theorem only_directives {cfg : ParseCfg} {o o' : ParserOptions} {u : List Ranged} {ds : List (Spanned Declaration)} {es : List PErr}
    {ws : List Report} (h : FileP cfg o u ds o' es ws) (hn : NoPragma (toks u)) : Only (fun d => .date d.date.item ∈ toks u) ds := by
  induction h with
  | nil => intro d hd; cases hd
  | @cons o o' o'' run r d ds es es' ws' hd _ ih =>
    have hn' : NoPragma (toks r) := by
      obtain ⟨h1, h2, h3, h4, h5, h6, h7⟩ := hn
      simp only [toks, List.map_append, List.mem_append, not_or] at h1 h2 h3 h4 h5 h6 h7
      exact ⟨h1.2, h2.2, h3.2, h4.2, h5.2, h6.2, h7.2⟩
    intro x hx
    rcases List.mem_cons.mp hx with rfl | hx
    · have word : ∀ {t : Token} {i j : List Ranged}, Word t i j → t ∈ toks i := by
        rintro t i j ⟨_, _, rfl⟩
        simp [toks]
      cases hd with
      | directive hd _ =>
        refine ⟨_, rfl, ?_⟩
        cases hd with
        | transaction hd _ _ _ _ _ _ _ => exact word hd.1
        | other hd _ _ _ _ _ _ => exact word hd.1
        | custom hd _ _ _ _ _ _ => exact word hd.1
      | pragma hp _ _ =>
        obtain ⟨h1, h2, h3, h4, h5, h6, h7⟩ := hn
        exfalso
        cases hp with
        | pushtag h => obtain ⟨⟨_, h, _⟩, _⟩ := h; exact h4 (word h)
        | poptag h => obtain ⟨⟨_, h, _⟩, _⟩ := h; exact h5 (word h)
        | pushmeta h _ => exact h6 (word h)
        | popmeta h => obtain ⟨⟨_, h, _⟩, _⟩ := h; exact h7 (word h)
        | «include» h _ => exact h2 (word h)
        | option h _ _ _ => exact h1 (word h)
        | plugin h _ _ => exact h3 (word h)
    · obtain ⟨y, h1, h2⟩ := ih hn' x hx
      exact ⟨y, h1, by rw [toks, List.map_append]; exact List.mem_append_right _ h2⟩

/-- Warnings: the same in another order, or some of them. -/
def Warns (dropping : Prop) (ws ws' : List Report) : Prop := (¬ dropping → ws.Perm ws') ∧ List.Subperm ws' ws

theorem Warns.refl (ws : List Report) : Warns dropping ws ws := ⟨fun _ => .refl _, .refl _⟩
theorem Warns.trans {a b c : List Report} (h : Warns dropping a b) (h' : Warns dropping b c) : Warns dropping a c :=
  ⟨fun k => (h.1 k).trans (h'.1 k), h'.2.trans h.2⟩
theorem Warns.append {a a' b b' : List Report} (h : Warns dropping a a') (h' : Warns dropping b b') : Warns dropping (a ++ b) (a' ++ b') :=
  ⟨fun k => (h.1 k).append (h'.1 k), h.2.append h'.2⟩

theorem step_file {decimal : Str → Except LexerError Dec} {id : Nat} {path : Option Path} {x y : List Ranged} (h : Step strict dropping x y)
    {o o' : ParserOptions} {ds : List (Spanned Declaration)} {ws : List Report} (hf : FileP (cfgAt decimal id path) o x ds o' [] ws) :
    ∃ ds' ws', FileP (cfgAt decimal id path) o y ds' o' [] ws' ∧ ReflTransGen (Decls strict dropping) ds ds' ∧ Warns dropping ws ws' := by
  cases h with
  | @exchange a u v c ha hu hv bu bv bc nu nv hd =>
    obtain ⟨da, d1, o1, e1, e2, wa, w1, k1, k2, rfl, k3, rfl⟩ := (file_parts ha (head_append bu (head_append bv bc))).mp hf
    obtain ⟨rfl, rfl⟩ := List.append_eq_nil_iff.mp k3.symm
    obtain ⟨du, d2, o2, e1, e2, wu, w2, k4, k5, rfl, k6, rfl⟩ := (file_parts hu (head_append bv bc)).mp k2
    obtain ⟨rfl, rfl⟩ := List.append_eq_nil_iff.mp k6.symm
    obtain ⟨dv, dc, o3, e1, e2, wv, wc, k7, k8, rfl, k9, rfl⟩ := (file_parts hv bc).mp k5
    obtain ⟨rfl, rfl⟩ := List.append_eq_nil_iff.mp k9.symm
    have s1 := InPlaceParse.FileP.steady k4 (not_sets nu)
    have s2 := InPlaceParse.FileP.steady k7 (not_sets nv)
    subst s2
    subst s1
    refine ⟨da ++ (dv ++ (du ++ dc)), wa ++ (wv ++ (wu ++ wc)), ?_, ?_, ?_⟩
    · exact (file_parts ha (head_append bv (head_append bu bc))).mpr ⟨_, _, _, _, _, _, _, k1,
        (file_parts hv (head_append bu bc)).mpr ⟨_, _, _, _, _, _, _, k7,
          (file_parts hu bc).mpr ⟨_, _, _, _, _, _, _, k4, k8, rfl, rfl, rfl⟩, rfl, rfl, rfl⟩, rfl, rfl, rfl⟩
    · refine in_context (move_past ?_ (only_directives k4 nu) (only_directives k7 nv))
      intro x y hx hy hs he
      rw [he] at hx
      exact hd hs _ ⟨hx, hy⟩
    · have hp : (wa ++ (wu ++ (wv ++ wc))).Perm (wa ++ (wv ++ (wu ++ wc))) := by
        refine List.Perm.append_left _ ?_
        rw [← List.append_assoc, ← List.append_assoc]
        exact List.perm_append_comm.append_right _
      exact ⟨fun _ => hp, hp.symm.subperm⟩
  | @leave a u c hdrop ha hu bu bc nu =>
    obtain ⟨da, d1, o1, e1, e2, wa, w1, k1, k2, rfl, k3, rfl⟩ := (file_parts ha (head_append bu bc)).mp hf
    obtain ⟨rfl, rfl⟩ := List.append_eq_nil_iff.mp k3.symm
    obtain ⟨du, dc, o2, e1, e2, wu, wc, k4, k5, rfl, k6, rfl⟩ := (file_parts hu bc).mp k2
    obtain ⟨rfl, rfl⟩ := List.append_eq_nil_iff.mp k6.symm
    have s1 := InPlaceParse.FileP.steady k4 (not_sets nu)
    subst s1
    refine ⟨da ++ dc, wa ++ wc, ?_, ?_, ?_⟩
    · exact (file_parts ha bc).mpr ⟨_, _, _, _, _, _, _, k1, k5, rfl, rfl, rfl⟩
    · exact in_context (.single (leave_out hdrop (only_directives k4 nu)))
    · refine ⟨fun k => absurd hdrop k, ?_⟩
      exact (List.Sublist.append_left (List.sublist_append_right _ _) _).subperm

theorem chain_file {decimal : Str → Except LexerError Dec} {id : Nat} {path : Option Path} {x y : List Ranged}
    (h : ReflTransGen (Step strict dropping) x y)
    {o o' : ParserOptions} {ds : List (Spanned Declaration)} {ws : List Report} (hf : FileP (cfgAt decimal id path) o x ds o' [] ws) :
    ∃ ds' ws', FileP (cfgAt decimal id path) o y ds' o' [] ws' ∧ ReflTransGen (Decls strict dropping) ds ds' ∧ Warns dropping ws ws' := by
  induction h with
  | refl => exact ⟨ds, ws, hf, .refl, .refl _⟩
  | tail _ hs ih =>
    obtain ⟨d1, w1, h1, h2, h3⟩ := ih
    obtain ⟨d2, w2, h4, h5, h6⟩ := step_file hs h1
    exact ⟨d2, w2, h4, h2.trans h5, h3.trans h6⟩

/-! ### All files -/

structure Revised (strict dropping : Prop) (env1 env2 : ParseEnv) (s1 s2 : Sources) : Prop where
  complete1 : Complete env1.tokens s1
  complete2 : Complete env2.tokens s2
  empty1 : env1.emptySpan = fun _ _ => ⟨0, 0, 0⟩
  empty2 : env2.emptySpan = fun _ _ => ⟨0, 0, 0⟩
  decimal : env2.decimal = env1.decimal
  pragmas : env2.pragmaEnv s2 = env1.pragmaEnv s1
  rootPath : s2.rootPath = s1.rootPath
  files : List.Forall₂ (fun e e' : Nat × Option Path × Str => e'.1 = e.1 ∧ e'.2.1 = e.2.1 ∧
    ReflTransGen (Step strict dropping) (env1.tokens e.2.2) (env2.tokens e'.2.2)) s1.contentIter s2.contentIter

theorem files_chain {env1 env2 : ParseEnv} (e1 : env1.emptySpan = fun _ _ => ⟨0, 0, 0⟩) (e2 : env2.emptySpan = fun _ _ => ⟨0, 0, 0⟩)
    (hd : env2.decimal = env1.decimal) {es es' : List (Nat × Option Path × Str)}
    (h : List.Forall₂ (fun e e' : Nat × Option Path × Str => e'.1 = e.1 ∧ e'.2.1 = e.2.1 ∧
      ReflTransGen (Step strict dropping) (env1.tokens e.2.2) (env2.tokens e'.2.2)) es es')
    {o o' : ParserOptions} {rs : List FileResult} (hr : InOrder env1 o es rs o') (he : ∀ res ∈ rs, res.errors = []) :
    ∃ rs', InOrder env2 o es' rs' o' ∧ (∀ res ∈ rs', res.errors = []) ∧
      List.Forall₂ (fun x x' : Option Path × List (Spanned Declaration) => x'.1 = x.1 ∧ ReflTransGen (Decls strict dropping) x.2 x'.2)
        (outputsOf es rs) (outputsOf es' rs') ∧ Warns dropping (rs.flatMap (·.warns)) (rs'.flatMap (·.warns)) := by
  induction hr generalizing es' with
  | nil o =>
    cases h
    exact ⟨[], .nil _, fun _ h => (by cases h), .nil, .refl _⟩
  | cons o o' id path text res es rs hp _ ih =>
    cases h with
    | @cons _ e' _ es' hh ht =>
      obtain ⟨id', path', text'⟩ := e'
      obtain ⟨h1, h2, h3⟩ := hh
      dsimp only at h1 h2 h3
      subst h1
      subst h2
      have he0 := he res (by simp)
      rw [e1] at hp
      obtain ⟨ds, ws, k1, k2⟩ := parseFile_sound hp (by rw [he0]; simp)
      rw [he0] at k2
      obtain ⟨ds', ws', k3, k4, k5⟩ := chain_file h3 k2
      obtain ⟨rs', m1, m2, m3, m4⟩ := ih ht fun res hres => he res (List.mem_cons_of_mem _ hres)
      refine ⟨⟨some ds', [], res.opts, [] ++ ws'⟩ :: rs', .cons _ _ _ _ _ _ _ _ (by rw [e2, hd]; exact parseFile_complete [] k3) m1, ?_, ?_, ?_⟩
      · intro r hr
        rcases List.mem_cons.mp hr with rfl | hr
        · rfl
        · exact m2 r hr
      · refine .cons ⟨rfl, ?_⟩ m3
        change ReflTransGen _ (res.declarations.getD []) ds'
        rw [k1]
        exact k4
      · rw [List.flatMap_cons, List.flatMap_cons]
        refine Warns.append ?_ m4
        rw [k1]
        exact k5

theorem no_faults {es : List (Nat × Option Path × Str)} {rs : List FileResult} (h : ∀ res ∈ rs, res.errors = []) : faultsOf es rs = [] := by
  unfold faultsOf
  rw [List.flatMap_eq_nil_iff]
  rintro ⟨e, res⟩ hm
  dsimp only
  rw [h res (List.of_mem_zip hm).2]
  rfl

theorem errors_of_faults {env : ParseEnv} {o o' : ParserOptions} {es : List (Nat × Option Path × Str)} {rs : List FileResult}
    (hr : InOrder env o es rs o') (h : faultsOf es rs = []) : ∀ res ∈ rs, res.errors = [] := by
  intro res hres
  unfold faultsOf at h
  rw [List.flatMap_eq_nil_iff] at h
  obtain ⟨i, hi, rfl⟩ := List.getElem_of_mem hres
  have hl := inOrder_length hr
  have := h (es[i]'(by omega), rs[i]) (by
    have := List.getElem_mem (l := es.zip rs) (n := i) (by rw [List.length_zip]; omega)
    rwa [List.getElem_zip] at this)
  simpa using this

/-- The second result, by the first. -/
structure Results (strict dropping : Prop) (r r' : ParseSuccess) : Prop where
  options : r'.options = r.options
  plugins : r'.plugins = r.plugins
  warnings : Warns dropping r.warnings r'.warnings
  perm : ¬ dropping → r.directives.Perm r'.directives
  sublist : strict → r'.directives.Sublist r.directives

theorem revised_parse {env1 env2 : ParseEnv} {s1 s2 : Sources} (h : Revised strict dropping env1 env2 s1 s2) {rs : List FileResult} {o : ParserOptions}
    (hr : InOrder env1 ParserOptions.default s1.contentIter rs o) (he : ∀ res ∈ rs, res.errors = []) :
    (∃ r r', parseSources env1 s1 = .ok r ∧ parseSources env2 s2 = .ok r' ∧ Results strict dropping r r') ∨
    ((∀ r, parseSources env1 s1 ≠ .ok r) ∧ ∀ r, parseSources env2 s2 ≠ .ok r) := by
  obtain ⟨rs', h1, h2, h3, h4⟩ := files_chain h.empty1 h.empty2 h.decimal h.files hr he
  obtain ⟨ds, data, p1, q1⟩ := parseSources_ok h.complete1 hr
  obtain ⟨ds', data', p2, q2⟩ := parseSources_ok h.complete2 h1
  rw [h.pragmas, h.rootPath] at p2
  obtain ⟨k1, rfl⟩ := process_chain (lists_chain h3) p1 p2
  rw [no_faults he] at q1
  rw [no_faults h2] at q2
  by_cases hf : data'.finalErrors = []
  · left
    rw [if_pos ⟨rfl, hf⟩] at q1 q2
    exact ⟨_, _, q1, q2, rfl, rfl, h4, fun hd => perm_chain hd k1, fun hs => sorted_chain hs k1⟩
  · right
    rw [if_neg (fun x => hf x.2)] at q1 q2
    refine ⟨fun r hr => ?_, fun r hr => ?_⟩
    · rw [q1] at hr; cases hr
    · rw [q2] at hr; cases hr

end

end Lima.Revise
