import Verif.Lemmas.Revise
import Verif.Lemmas.ReviseSort

/-! Directives between two pragmas, the second of which undoes the first: the two runs of the pragma processor. -/

set_option linter.unusedSectionVars false

namespace Lima.Bracketed
open Lima Spec Revise

/-- What a pragma does, if it is not an include. -/
def act : Pragma → PragmaData → PragmaData
  | .pushtag t, d => d.pushtag t
  | .poptag t, d => d.poptag t
  | .pushmeta kv, d => d.pushmeta kv
  | .popmeta k, d => d.popmeta k
  | .include _, d => d
  | .option o, d => d.option o
  | .plugin p, d => { d with plugins := d.plugins ++ [p] }

theorem step_pragma {env : PragmaEnv} {p : Option Path} {x : Spanned Declaration} {pr : Pragma} (hx : x.item = .pragma pr)
    (hn : ∀ g, pr ≠ .include g) {l : List (Spanned Declaration)} {k r : Files} {dat : PragmaData} :
    PragmaState.step env ⟨p, x :: l, k, r, dat⟩ = .continue ⟨p, l, k, r, act pr dat⟩ := by
  cases pr with
  | «include» g => exact absurd rfl (hn g)
  | _ => simp only [PragmaState.step, hx, act]

/-- Two pragmas, and what becomes of the directives between them. -/
structure Pair where
  Inv : PragmaData → Prop
  fine : Pragma → Prop
  push : Pragma → Prop
  pop : Pragma → Prop
  Rel : Directive → Directive → Prop
  init : ∀ o, Inv ⟨[], [], [], o, [], []⟩
  same : ∀ d d' : PragmaData, d'.tags = d.tags → d'.metas = d.metas → Inv d → Inv d'
  keep : ∀ pr d, fine pr → Inv d → Inv (act pr d)
  pushes : ∀ p, push p → ∀ g, p ≠ .include g
  pops : ∀ p, pop p → ∀ g, p ≠ .include g
  back : ∀ d p q, Inv d → push p → pop q → act q (act p d) = d
  aug : ∀ d p x y y', Inv d → push p → d.augment x = some y → (act p d).augment x = some y' → Rel y y'
  rank : ∀ y y', Rel y y' → y'.date = y.date ∧ y'.variant = y.variant

variable (B : Pair) (In : Span → Prop)

/-- Declarations, with the two pragmas before and after directives. -/
inductive Decls : List (Spanned Declaration) → List (Spanned Declaration) → Prop
  | nil : Decls [] []
  | directive {d : Spanned Declaration} {x : Directive} {l l'} : d.item = .directive x → ¬ In d.span → Decls l l' → Decls (d :: l) (d :: l')
  | pragma {d : Spanned Declaration} {x : Pragma} {l l'} : d.item = .pragma x → B.fine x → Decls l l' → Decls (d :: l) (d :: l')
  | bracket {p q : Spanned Declaration} {x y : Pragma} {us l l'} : p.item = .pragma x → q.item = .pragma y → B.push x → B.pop y →
      (∀ u ∈ us, ∃ z, u.item = .directive z ∧ In u.span) → Decls l l' → Decls (us ++ l) (p :: (us ++ q :: l'))

/-- What becomes of a directive. -/
structure Out (d d' : Spanned Directive) : Prop where
  span : d'.span = d.span
  inside : In d.span → B.Rel d.item d'.item
  outside : ¬ In d.span → d' = d

variable {B In}

/-- The same files with such declarations. -/
def Lists (B : Pair) (In : Span → Prop) : Files → Files → Prop := List.Forall₂ fun e e' => e'.1 = e.1 ∧ Decls B In e.2 e'.2

theorem Lists.get {f f' : Files} (h : Lists B In f f') (p : Option Path) :
    (AMap.get f p = none ∧ AMap.get f' p = none) ∨ ∃ l l', AMap.get f p = some l ∧ AMap.get f' p = some l' ∧ Decls B In l l' := by
  induction h with
  | nil => exact .inl ⟨rfl, rfl⟩
  | @cons e e' f f' h _ ih =>
    obtain ⟨k, l⟩ := e
    obtain ⟨k', l'⟩ := e'
    obtain ⟨hk, hd⟩ := h
    dsimp only at hk hd
    subst hk
    simp only [AMap.get_cons]
    by_cases hp : k' = p
    · rw [if_pos hp, if_pos hp]
      exact .inr ⟨l, l', rfl, rfl, hd⟩
    · rw [if_neg hp, if_neg hp]
      exact ih

theorem Lists.erase {f f' : Files} (h : Lists B In f f') (p : Option Path) : Lists B In (AMap.erase f p) (AMap.erase f' p) := by
  unfold AMap.erase
  induction h with
  | nil => exact .nil
  | @cons e e' f f' h _ ih =>
    rw [List.filter_cons, List.filter_cons, h.1]
    split
    · exact .cons h ih
    · exact ih

structure Sim (B : Pair) (In : Span → Prop) (st st' : PragmaState) : Prop where
  path : st'.currentPath = st.currentPath
  current : Decls B In st.current st'.current
  stacked : Lists B In st.stacked st'.stacked
  remaining : Lists B In st.remaining st'.remaining
  data : st'.data = st.data
  inv : B.Inv st.data

theorem Sim.includeOne {env : PragmaEnv} {st st' : PragmaState} (h : Sim B In st st') (span : Span) (p : Path) :
    Sim B In (st.includeOne env span p) (st'.includeOne env span p) := by
  unfold PragmaState.includeOne
  have h1 := opened_metas env span st.data p
  have h2 := notOpened_metas env span st.data p
  rcases h.remaining.get (some p) with ⟨g1, g2⟩ | ⟨l, l', g1, g2, g3⟩
  · rw [g1, g2]
    exact ⟨h.path, h.current, h.stacked, h.remaining, by dsimp only; rw [h.data], B.same _ _ h2.2.1 h2.1 h.inv⟩
  · rw [g1, g2]
    exact ⟨rfl, g3, .cons ⟨h.path, h.current⟩ h.stacked, h.remaining.erase _, by dsimp only; rw [h.data], B.same _ _ h1.2.1 h1.1 h.inv⟩

theorem Sim.includes {env : PragmaEnv} (span : Span) : ∀ (ps : List Path) {st st' : PragmaState}, Sim B In st st' →
    Sim B In (ps.foldl (PragmaState.includeOne env span) st) (ps.foldl (PragmaState.includeOne env span) st')
  | [], _, _, h => h
  | p :: ps, _, _, h => Sim.includes span ps (h.includeOne span p)

/-- A pragma outside the two. -/
theorem consume (env : PragmaEnv) {p : Option Path} {d : Spanned Declaration} {x : Pragma} (hx : d.item = .pragma x) (hf : B.fine x)
    {l l' : List (Spanned Declaration)} {k k' r r' : Files} {dat : PragmaData} (hl : Decls B In l l') (hk : Lists B In k k')
    (hr : Lists B In r r') (hi : B.Inv dat) :
    (∃ st st', PragmaState.step env ⟨p, d :: l, k, r, dat⟩ = .continue st ∧ PragmaState.step env ⟨p, d :: l', k', r', dat⟩ = .continue st' ∧
      Sim B In st st') ∨ PragmaState.step env ⟨p, d :: l, k, r, dat⟩ = .panic := by
  by_cases hn : ∀ g, x ≠ .include g
  · exact .inl ⟨_, _, step_pragma hx hn, step_pragma hx hn, rfl, hl, hk, hr, rfl, B.keep _ _ hf hi⟩
  · have : ∃ g, x = .include g := by
      by_contra hh
      exact hn fun g hg => hh ⟨g, hg⟩
    obtain ⟨g, rfl⟩ := this
    simp only [PragmaState.step, hx, PragmaState.includeGlob]
    cases AMap.get env.globs (resolveIncludedPath p (Path.ofStr g.item)) with
    | none => exact .inr rfl
    | some gl =>
      left
      cases gl with
      | expanded ps =>
        refine ⟨_, _, rfl, rfl, Sim.includes g.span ps ?_⟩
        cases ps with
        | nil => exact ⟨rfl, hl, hk, hr, rfl, B.same dat _ (by rfl) (by rfl) hi⟩
        | cons q qs => exact ⟨rfl, hl, hk, hr, rfl, hi⟩
      | error e => exact ⟨_, _, rfl, rfl, rfl, hl, hk, hr, rfl, B.same dat _ (by rfl) (by rfl) hi⟩

/-- Directives in turn. -/
theorem directives_runs {env : PragmaEnv} {p : Option Path} {l : List (Spanned Declaration)} {k r : Files} {dat : PragmaData} :
    ∀ {us : List (Spanned Declaration)} {n : Nat} {out : List (Spanned Directive)} {fin : PragmaState}, (∀ u ∈ us, ∃ z, u.item = .directive z ∧ In u.span) →
      Runs env n ⟨p, us ++ l, k, r, dat⟩ out fin →
      ∃ m xs out', m + us.length = n ∧ out = xs ++ out' ∧ Runs env m ⟨p, l, k, r, dat⟩ out' fin ∧
        List.Forall₂ (fun u x => ∃ z, u.item = .directive z ∧ dat.augment z = some x.item ∧ x.span = u.span) us xs
  | [], n, out, fin, _, h => ⟨n, [], out, rfl, rfl, h, .nil⟩
  | u :: us, n, out, fin, hu, h => by
    obtain ⟨z, hz, _⟩ := hu u (by simp)
    obtain ⟨m, x, o, rfl, ha, rfl, h1⟩ := Runs.directive hz h
    obtain ⟨m', xs, o', rfl, rfl, h2, h3⟩ := directives_runs (fun u hm => hu u (List.mem_cons_of_mem _ hm)) h1
    exact ⟨m', _ :: xs, o', by simp only [List.length_cons]; omega, rfl, h2, .cons ⟨z, hz, ha, rfl⟩ h3⟩

theorem both {dat dat' : PragmaData} (hB : ∀ z y y', dat.augment z = some y → dat'.augment z = some y' → B.Rel y y')
    {us : List (Spanned Declaration)} {xs xs' : List (Spanned Directive)} (hu : ∀ u ∈ us, ∃ z, u.item = .directive z ∧ In u.span)
    (h : List.Forall₂ (fun u x => ∃ z, u.item = .directive z ∧ dat.augment z = some x.item ∧ x.span = u.span) us xs)
    (h' : List.Forall₂ (fun u x => ∃ z, u.item = .directive z ∧ dat'.augment z = some x.item ∧ x.span = u.span) us xs') :
    List.Forall₂ (Out B In) xs xs' := by
  induction h generalizing xs' with
  | nil => cases h'; exact .nil
  | @cons u x us xs hx _ ih =>
    cases h' with
    | @cons _ x' _ xs' hx' hh =>
      obtain ⟨z, h1, h2, h3⟩ := hx
      obtain ⟨z', h1', h2', h3'⟩ := hx'
      obtain ⟨w, _, h4⟩ := hu u (by simp)
      rw [h1] at h1'
      cases h1'
      refine .cons ⟨by rw [h3, h3'], fun _ => hB _ _ _ h2 h2', fun hn => absurd (h3 ▸ h4) hn⟩ (ih (fun u hm => hu u (List.mem_cons_of_mem _ hm)) hh)

/-- Both runs come to the same end. -/
theorem sim_runs {env : PragmaEnv} (n' : Nat) : ∀ {st st' : PragmaState} {out out' : List (Spanned Directive)} {fin fin' : PragmaState} {n : Nat},
    Runs env n st out fin → Runs env n' st' out' fin' → Sim B In st st' → List.Forall₂ (Out B In) out out' ∧ fin'.data = fin.data := by
  induction n' using Nat.strongRecOn with
  | ind n' ih =>
    intro st st' out out' fin fin' n hr hr' h
    obtain ⟨p, c, k, r, dat⟩ := st
    obtain ⟨p', c', k', r', dat'⟩ := st'
    obtain ⟨h1, h2, h3, h4, h5, h6⟩ := h
    dsimp only at h1 h2 h3 h4 h5 h6
    subst h1
    subst h5
    cases h2 with
    | nil =>
      cases h3 with
      | nil =>
        obtain ⟨rfl, rfl⟩ := hr.inv_done rfl
        obtain ⟨rfl, rfl⟩ := hr'.inv_done rfl
        exact ⟨.nil, rfl⟩
      | @cons e e' k k' he hk =>
        obtain ⟨q, l⟩ := e
        obtain ⟨q', l'⟩ := e'
        obtain ⟨hq, hl⟩ := he
        dsimp only at hq hl
        subst hq
        obtain ⟨m, rfl, hr1⟩ := hr.inv_cont (st1 := ⟨q', l, k, r, dat'⟩) rfl
        obtain ⟨m', rfl, hr1'⟩ := hr'.inv_cont (st1 := ⟨q', l', k', r', dat'⟩) rfl
        exact ih m' (by omega) hr1 hr1' ⟨rfl, hl, hk, h4, rfl, h6⟩
    | @directive d x l l' hx hn hl =>
      obtain ⟨m, x1, o1, rfl, a1, rfl, hr1⟩ := Runs.directive hx hr
      obtain ⟨m', x2, o2, rfl, a2, rfl, hr1'⟩ := Runs.directive hx hr'
      rw [a1] at a2
      cases a2
      obtain ⟨a, b⟩ := ih m' (by omega) hr1 hr1' ⟨rfl, hl, h3, h4, rfl, h6⟩
      exact ⟨.cons ⟨rfl, fun hh => absurd hh hn, fun _ => rfl⟩ a, b⟩
    | @pragma d x l l' hx hf hl =>
      rcases consume env (p := p') (dat := dat') hx hf hl h3 h4 h6 with ⟨st, st', e1, e2, hs⟩ | e1
      · obtain ⟨m, rfl, hr1⟩ := hr.inv_cont e1
        obtain ⟨m', rfl, hr1'⟩ := hr'.inv_cont e2
        exact ih m' (by omega) hr1 hr1' hs
      · exact absurd e1 hr.inv_panic
    | @bracket pu po x y us l l' hx hy hp hq hu hl =>
      obtain ⟨m, xs, o1, rfl, rfl, hr1, hxs⟩ := directives_runs hu hr
      obtain ⟨m1', rfl, hr1'⟩ := hr'.inv_cont (step_pragma hx (B.pushes _ hp))
      obtain ⟨m2', xs', o2, rfl, rfl, hr2', hxs'⟩ := directives_runs hu hr1'
      obtain ⟨m3', rfl, hr3'⟩ := hr2'.inv_cont (step_pragma hy (B.pops _ hq))
      rw [B.back _ _ _ h6 hp hq] at hr3'
      have key : List.Forall₂ (Out B In) xs xs' := both (fun z y y' => B.aug _ _ _ _ _ h6 hp) hu hxs hxs'
      have rest := ih m3' (by omega) hr1 hr3' ⟨rfl, hl, h3, h4, rfl, h6⟩
      exact ⟨List.rel_append key rest.1, rest.2⟩

theorem process {env : PragmaEnv} {root : Option Path} {files files' : Files} {o : Options} (h : Lists B In files files')
    {out out' : List (Spanned Directive)} {d d' : PragmaData}
    (h1 : processPragmas env root files o = .ok (out, d)) (h2 : processPragmas env root files' o = .ok (out', d')) :
    List.Forall₂ (Out B In) out out' ∧ d' = d := by
  unfold processPragmas PragmaState.new at h1 h2
  have key : ∀ {st : PragmaState} {out d}, (st.collect env).map (fun r => (r.1, r.2.data)) = Res.ok (out, d) →
      ∃ n fin, Runs env n st out fin ∧ fin.data = d := by
    intro st out d hh
    cases hc : st.collect env with
    | err e => rw [hc] at hh; cases hh
    | panic => rw [hc] at hh; cases hh
    | ok r =>
      rw [hc] at hh
      cases hh
      obtain ⟨m, hm⟩ := runs_of_fuel _ hc
      exact ⟨m, _, hm, rfl⟩
  rcases h.get root with ⟨k1, _⟩ | ⟨l, l', k1, k2, k3⟩
  · rw [k1] at h1; cases h1
  · rw [k1] at h1
    rw [k2] at h2
    dsimp only at h1 h2
    obtain ⟨n, fin, r1, rfl⟩ := key h1
    obtain ⟨n', fin', r2, rfl⟩ := key h2
    exact sim_runs n' r1 r2 ⟨rfl, k3, .nil, h.erase _, rfl, B.init _⟩

/-! ### Sorting -/

/-- Of ordered lists, those related for each rank are related. -/
theorem related_of_ranks {Q : Spanned Directive → Spanned Directive → Prop} (hQ : ∀ a b, Q a b → SameRank a.item b.item) :
    ∀ (l l' : List (Spanned Directive)), l.Pairwise (fun a b => ¬ StrictlyBefore b.item a.item) →
    l'.Pairwise (fun a b => ¬ StrictlyBefore b.item a.item) → (∀ d, List.Forall₂ Q (ofRank d l) (ofRank d l')) → List.Forall₂ Q l l'
  | [], l', _, _, h => by
    cases l' with
    | nil => exact .nil
    | cons y l' =>
      have := h y.item
      simp [ofRank, SameRank] at this
  | x :: l, l', hl, hl', h => by
    have own : ∀ (z : Spanned Directive) (m : List (Spanned Directive)), ofRank z.item (z :: m) = z :: ofRank z.item m := by
      intro z m
      have : SameRank z.item z.item := ⟨rfl, rfl⟩
      simp [ofRank, this]
    cases l' with
    | nil =>
      have := h x.item
      rw [own] at this
      cases this
    | cons y l' =>
      have hl1 := List.pairwise_cons.mp hl
      have hl1' := List.pairwise_cons.mp hl'
      have hxy : SameRank x.item y.item := by
        -- what belongs to each is not before the other
        have hx := h x.item
        rw [own] at hx
        have hy := h y.item
        rw [own] at hy
        generalize e1 : ofRank x.item (y :: l') = m at hx
        generalize e2 : ofRank y.item (x :: l) = m2 at hy
        cases hx with
        | @cons _ y1 _ _ q1 _ =>
          cases hy with
          | @cons x1 _ _ _ q2 _ =>
            have my : y1 ∈ y :: l' := (List.mem_filter.mp (show y1 ∈ ofRank x.item (y :: l') by rw [e1]; simp)).1
            have mx : x1 ∈ x :: l := (List.mem_filter.mp (show x1 ∈ ofRank y.item (x :: l) by rw [e2]; simp)).1
            refine same_rank_of ?_ ?_
            · -- x before y, then y1, of the rank of x, is before y
              intro hb
              rw [before_congr (hQ _ _ q1)] at hb
              rcases List.mem_cons.mp my with rfl | my
              · unfold StrictlyBefore at hb; omega
              · exact hl1'.1 y1 my hb
            · intro hb
              rw [before_congr (rank_symm (hQ _ _ q2))] at hb
              rcases List.mem_cons.mp mx with rfl | mx
              · unfold StrictlyBefore at hb; omega
              · exact hl1.1 x1 mx hb
      have hh := h x.item
      rw [own, ofRank_congr hxy (y :: l'), own] at hh
      cases hh with
      | cons q hq =>
        refine .cons q (related_of_ranks hQ l l' hl1.2 hl1'.2 fun d => ?_)
        by_cases hd : SameRank x.item d
        · rw [← ofRank_congr hd, ← ofRank_congr hd, ofRank_congr hxy l']
          exact hq
        · have := h d
          have hd' : ¬ SameRank y.item d := fun k => hd (rank_trans hxy k)
          rw [show ofRank d (x :: l) = ofRank d l by simp [ofRank, hd], show ofRank d (y :: l') = ofRank d l' by simp [ofRank, hd']] at this
          exact this

theorem related_sort {Q : Spanned Directive → Spanned Directive → Prop} (hQ : ∀ a b, Q a b → SameRank a.item b.item)
    {l l' : List (Spanned Directive)} (h : List.Forall₂ Q l l') : List.Forall₂ Q (sortDirectives l) (sortDirectives l') := by
  refine related_of_ranks hQ _ _ (Props.C01_sort_ordered l) (Props.C01_sort_ordered l') fun d => ?_
  unfold ofRank
  rw [Props.C01_sort_stable, Props.C01_sort_stable]
  induction h with
  | nil => exact .nil
  | @cons a b l l' hab _ ih =>
    have e : SameRank a.item d ↔ SameRank b.item d := ⟨rank_trans (rank_symm (hQ _ _ hab)), rank_trans (hQ _ _ hab)⟩
    rw [List.filter_cons, List.filter_cons]
    by_cases hd : SameRank a.item d
    · have hd' := e.mp hd
      simp only [hd, hd', decide_true, if_true]
      exact .cons hab ih
    · have hd' : ¬ SameRank b.item d := fun k => hd (e.mpr k)
      simp only [hd, hd', decide_false]
      exact ih

theorem out_rank (a b : Spanned Directive) (h : Out B In a b) : SameRank a.item b.item := by
  by_cases hi : In a.span
  · obtain ⟨h1, h2⟩ := B.rank _ _ (h.inside hi)
    exact ⟨by rw [h1], by rw [← Props.variantRank_eq, ← Props.variantRank_eq, h2]⟩
  · rw [h.outside hi]
    exact ⟨rfl, rfl⟩

end Lima.Bracketed
