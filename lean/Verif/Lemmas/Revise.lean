import Verif.Spec.Pragma
import Verif.Lemmas.Pragma
import Mathlib.Logic.Relation

/-! Directives exchanged or left out: the two runs of the pragma processor. -/

set_option linter.unusedSectionVars false

namespace Lima.Revise
open Lima Spec

/-- Which neighbours may be exchanged: any, or if `strict` those of different dates. -/
def May (strict : Prop) (x y : Directive) : Prop := strict → x.date.item ≠ y.date.item

variable (strict dropping : Prop)

/-- Declarations, with some neighbouring directives exchanged and some left out. -/
inductive Decls : List (Spanned Declaration) → List (Spanned Declaration) → Prop
  | nil : Decls [] []
  | cons (d) {l l'} : Decls l l' → Decls (d :: l) (d :: l')
  | swap {x y : Spanned Declaration} {dx dy : Directive} {l l'} : x.item = .directive dx → y.item = .directive dy → May strict dx dy →
      Decls l l' → Decls (x :: y :: l) (y :: x :: l')
  | drop {x : Spanned Declaration} {dx : Directive} {l l'} : dropping → x.item = .directive dx → Decls l l' → Decls (x :: l) l'

/-- Directives, with some neighbours exchanged and some left out. -/
inductive Outs : List (Spanned Directive) → List (Spanned Directive) → Prop
  | nil : Outs [] []
  | cons (d) {l l'} : Outs l l' → Outs (d :: l) (d :: l')
  | swap {x y : Spanned Directive} {l l'} : May strict x.item y.item → Outs l l' → Outs (x :: y :: l) (y :: x :: l')
  | drop (x : Spanned Directive) {l l'} : dropping → Outs l l' → Outs (x :: l) l'

variable {strict dropping}

theorem Decls.refl : ∀ l, Decls strict dropping l l
  | [] => .nil
  | d :: l => .cons d (refl l)

theorem Outs.refl : ∀ l, Outs strict dropping l l
  | [] => .nil
  | d :: l => .cons d (refl l)

theorem Decls.append {a a' b b' : List (Spanned Declaration)} (h : Decls strict dropping a a') (h' : Decls strict dropping b b') :
    Decls strict dropping (a ++ b) (a' ++ b') := by
  induction h with
  | nil => exact h'
  | cons d _ ih => exact .cons d ih
  | swap hx hy hm _ ih => exact .swap hx hy hm ih
  | drop hd hx _ ih => exact .drop hd hx ih

abbrev Files := List (Option Path × List (Spanned Declaration))

/-- The same files with such declarations. -/
def Lists (strict dropping : Prop) : Files → Files → Prop := List.Forall₂ fun e e' => e'.1 = e.1 ∧ Decls strict dropping e.2 e'.2

theorem Lists.refl (f : Files) : Lists strict dropping f f := List.forall₂_same.mpr fun e _ => ⟨rfl, .refl _⟩

theorem Lists.get {f f' : Files} (h : Lists strict dropping f f') (p : Option Path) :
    (AMap.get f p = none ∧ AMap.get f' p = none) ∨ ∃ l l', AMap.get f p = some l ∧ AMap.get f' p = some l' ∧ Decls strict dropping l l' := by
  induction h with
  | nil => exact .inl ⟨rfl, rfl⟩
  | @cons e e' f f' h _ ih =>
    obtain ⟨k, l⟩ := e
    obtain ⟨k', l'⟩ := e'
    obtain ⟨hk, hd⟩ := h
    dsimp only at hk hd
    subst hk
    simp only [AMap.get_cons]
    by_cases hp : k' = p
    · rw [if_pos hp, if_pos hp]
      exact .inr ⟨l, l', rfl, rfl, hd⟩
    · rw [if_neg hp, if_neg hp]
      exact ih

theorem Lists.erase {f f' : Files} (h : Lists strict dropping f f') (p : Option Path) :
    Lists strict dropping (AMap.erase f p) (AMap.erase f' p) := by
  unfold AMap.erase
  induction h with
  | nil => exact .nil
  | @cons e e' f f' h _ ih =>
    rw [List.filter_cons, List.filter_cons, h.1]
    split
    · exact .cons h ih
    · exact ih

structure Sim (st st' : PragmaState) : Prop where
  path : st'.currentPath = st.currentPath
  current : Decls strict dropping st.current st'.current
  stacked : Lists strict dropping st.stacked st'.stacked
  remaining : Lists strict dropping st.remaining st'.remaining
  data : st'.data = st.data

theorem Sim.includeOne {env : PragmaEnv} {st st' : PragmaState} (h : Sim (strict := strict) (dropping := dropping) st st') (span : Span) (p : Path) :
    Sim (strict := strict) (dropping := dropping) (st.includeOne env span p) (st'.includeOne env span p) := by
  unfold PragmaState.includeOne
  rcases h.remaining.get (some p) with ⟨h1, h2⟩ | ⟨l, l', h1, h2, h3⟩
  · rw [h1, h2]
    exact ⟨h.path, h.current, h.stacked, h.remaining, by dsimp only; rw [h.data]⟩
  · rw [h1, h2]
    exact ⟨rfl, h3, .cons ⟨h.path, h.current⟩ h.stacked, h.remaining.erase _, by dsimp only; rw [h.data]⟩

theorem Sim.includes {env : PragmaEnv} (span : Span) : ∀ (ps : List Path) {st st' : PragmaState},
    Sim (strict := strict) (dropping := dropping) st st' →
    Sim (strict := strict) (dropping := dropping) (ps.foldl (PragmaState.includeOne env span) st) (ps.foldl (PragmaState.includeOne env span) st')
  | [], _, _, h => h
  | p :: ps, _, _, h => Sim.includes span ps (h.includeOne span p)

/-- Running to the end, in so many turns. -/
inductive Runs (env : PragmaEnv) : Nat → PragmaState → List (Spanned Directive) → PragmaState → Prop
  | done {st} : st.step env = .done → Runs env 0 st [] st
  | cont {n st st1 out fin} : st.step env = .continue st1 → Runs env n st1 out fin → Runs env (n + 1) st out fin
  | yield {n st d st1 out fin} : st.step env = .yield d st1 → Runs env n st1 out fin → Runs env (n + 1) st (d :: out) fin

theorem runs_of_fuel {env : PragmaEnv} : ∀ (n : Nat) {st : PragmaState} {out : List (Spanned Directive)} {fin : PragmaState},
    st.collectFuel env n = .ok (out, fin) → ∃ m, Runs env m st out fin
  | 0, _, _, _, h => by cases h
  | n + 1, st, out, fin, h => by
    rw [PragmaState.collectFuel] at h
    split at h
    · rename_i d st1 hs
      cases hr : PragmaState.collectFuel env n st1 with
      | err e => rw [hr] at h; cases h
      | panic => rw [hr] at h; cases h
      | ok r =>
        rw [hr] at h
        cases h
        obtain ⟨m, hm⟩ := runs_of_fuel n hr
        exact ⟨m + 1, .yield hs hm⟩
    · rename_i st1 hs
      obtain ⟨m, hm⟩ := runs_of_fuel n h
      exact ⟨m + 1, .cont hs hm⟩
    · rename_i hs
      cases h
      exact ⟨0, .done hs⟩
    · cases h

theorem Runs.inv_done {env : PragmaEnv} {n : Nat} {st fin : PragmaState} {out : List (Spanned Directive)} (h : Runs env n st out fin)
    (hs : st.step env = .done) : out = [] ∧ fin = st := by
  cases h with
  | done _ => exact ⟨rfl, rfl⟩
  | cont h _ => rw [hs] at h; cases h
  | yield h _ => rw [hs] at h; cases h

theorem Runs.inv_cont {env : PragmaEnv} {n : Nat} {st st1 fin : PragmaState} {out : List (Spanned Directive)} (h : Runs env n st out fin)
    (hs : st.step env = .continue st1) : ∃ m, n = m + 1 ∧ Runs env m st1 out fin := by
  cases h with
  | done h => rw [hs] at h; cases h
  | cont h k => rw [hs] at h; cases h; exact ⟨_, rfl, k⟩
  | yield h _ => rw [hs] at h; cases h

theorem Runs.inv_yield {env : PragmaEnv} {n : Nat} {st st1 fin : PragmaState} {d : Spanned Directive} {out : List (Spanned Directive)}
    (h : Runs env n st out fin) (hs : st.step env = .yield d st1) : ∃ m out', n = m + 1 ∧ out = d :: out' ∧ Runs env m st1 out' fin := by
  cases h with
  | done h => rw [hs] at h; cases h
  | cont h _ => rw [hs] at h; cases h
  | yield h k => rw [hs] at h; cases h; exact ⟨_, _, rfl, rfl, k⟩

theorem Runs.inv_panic {env : PragmaEnv} {n : Nat} {st fin : PragmaState} {out : List (Spanned Directive)}
    (h : Runs env n st out fin) : st.step env ≠ .panic := by
  intro hs
  cases h with
  | done h => rw [hs] at h; cases h
  | cont h _ => rw [hs] at h; cases h
  | yield h k => rw [hs] at h; cases h

theorem augment_date {d : PragmaData} {x x' : Directive} (h : d.augment x = some x') : x'.date = x.date := by
  unfold PragmaData.augment at h
  split at h
  · cases h
  · cases h; rfl

/-- A directive at the front is yielded. -/
theorem Runs.directive {env : PragmaEnv} {n : Nat} {p : Option Path} {x : Spanned Declaration} {dx : Directive} (hx : x.item = .directive dx)
    {l : List (Spanned Declaration)} {k r : Files} {dat : PragmaData} {out : List (Spanned Directive)} {fin : PragmaState}
    (h : Runs env n ⟨p, x :: l, k, r, dat⟩ out fin) :
    ∃ m dx' out', n = m + 1 ∧ dat.augment dx = some dx' ∧ out = ⟨dx', x.span⟩ :: out' ∧ Runs env m ⟨p, l, k, r, dat⟩ out' fin := by
  have hp := h.inv_panic
  cases ha : dat.augment dx with
  | none =>
    exfalso
    apply hp
    simp only [PragmaState.step, hx, ha]
  | some dx' =>
    have hs : PragmaState.step env ⟨p, x :: l, k, r, dat⟩ = .yield ⟨dx', x.span⟩ ⟨p, l, k, r, dat⟩ := by
      simp only [PragmaState.step, hx, ha]
    obtain ⟨m, out', h1, h2, h3⟩ := h.inv_yield hs
    exact ⟨m, dx', out', h1, rfl, h2, h3⟩

/-- The outcomes of a turn of both runs which meet the same declaration. -/
inductive Turns : Turn → Turn → Prop
  | yield {x st st'} : Sim (strict := strict) (dropping := dropping) st st' → Turns (.yield x st) (.yield x st')
  | cont {st st'} : Sim (strict := strict) (dropping := dropping) st st' → Turns (.continue st) (.continue st')
  | panic : Turns .panic .panic

theorem consume (env : PragmaEnv) {p : Option Path} (d : Spanned Declaration) {l l' : List (Spanned Declaration)} {k k' r r' : Files} {dat : PragmaData}
    (hl : Decls strict dropping l l') (hk : Lists strict dropping k k') (hr : Lists strict dropping r r') :
    Turns (strict := strict) (dropping := dropping) (PragmaState.step env ⟨p, d :: l, k, r, dat⟩) (PragmaState.step env ⟨p, d :: l', k', r', dat⟩) := by
  have next : ∀ x : PragmaData, Sim (strict := strict) (dropping := dropping) ⟨p, l, k, r, x⟩ ⟨p, l', k', r', x⟩ :=
    fun x => ⟨rfl, hl, hk, hr, rfl⟩
  obtain ⟨decl, span⟩ := d
  cases decl with
  | directive dir =>
    simp only [PragmaState.step]
    cases PragmaData.augment dat dir with
    | none => exact .panic
    | some x => exact .yield (next _)
  | pragma pr =>
    cases pr with
    | pushtag t => exact .cont (next _)
    | poptag t => exact .cont (next _)
    | pushmeta t => exact .cont (next _)
    | popmeta t => exact .cont (next _)
    | option o => exact .cont (next _)
    | plugin pl => exact .cont (next _)
    | «include» g =>
      simp only [PragmaState.step, PragmaState.includeGlob]
      cases AMap.get env.globs (resolveIncludedPath p (Path.ofStr g.item)) with
      | none => exact .panic
      | some gl =>
        cases gl with
        | expanded ps =>
          refine .cont (Sim.includes g.span ps ?_)
          cases ps with
          | nil => exact next _
          | cons q qs => exact next _
        | error e => exact .cont (next _)

/-- Both runs come to the same end. -/
theorem sim_runs {env : PragmaEnv} (n : Nat) : ∀ {st st' : PragmaState} {out out' : List (Spanned Directive)} {fin fin' : PragmaState} {n' : Nat},
    Runs env n st out fin → Runs env n' st' out' fin' → Sim (strict := strict) (dropping := dropping) st st' →
    Outs strict dropping out out' ∧ fin'.data = fin.data := by
  induction n using Nat.strongRecOn with
  | ind n ih =>
    intro st st' out out' fin fin' n' hr hr' h
    obtain ⟨p, c, k, r, dat⟩ := st
    obtain ⟨p', c', k', r', dat'⟩ := st'
    obtain ⟨h1, h2, h3, h4, h5⟩ := h
    dsimp only at h1 h2 h3 h4 h5
    subst h1
    subst h5
    cases h2 with
    | nil =>
      cases h3 with
      | nil =>
        obtain ⟨rfl, rfl⟩ := hr.inv_done rfl
        obtain ⟨rfl, rfl⟩ := hr'.inv_done rfl
        exact ⟨.nil, rfl⟩
      | @cons e e' k k' he hk =>
        obtain ⟨q, l⟩ := e
        obtain ⟨q', l'⟩ := e'
        obtain ⟨hq, hl⟩ := he
        dsimp only at hq hl
        subst hq
        obtain ⟨m, rfl, hr1⟩ := hr.inv_cont (st1 := ⟨q', l, k, r, dat'⟩) rfl
        obtain ⟨m', rfl, hr1'⟩ := hr'.inv_cont (st1 := ⟨q', l', k', r', dat'⟩) rfl
        exact ih m (by omega) hr1 hr1' ⟨rfl, hl, hk, h4, rfl⟩
    | @cons d l l' hl =>
      have ht := consume env (p := p') (dat := dat') d hl h3 h4
      generalize e1 : PragmaState.step env ⟨p', d :: l, k, r, dat'⟩ = t1 at ht
      generalize e2 : PragmaState.step env ⟨p', d :: l', k', r', dat'⟩ = t2 at ht
      cases ht with
      | yield hs =>
        obtain ⟨m, o1, rfl, rfl, hr1⟩ := hr.inv_yield e1
        obtain ⟨m', o2, rfl, rfl, hr1'⟩ := hr'.inv_yield e2
        obtain ⟨a, b⟩ := ih m (by omega) hr1 hr1' hs
        exact ⟨.cons _ a, b⟩
      | cont hs =>
        obtain ⟨m, rfl, hr1⟩ := hr.inv_cont e1
        obtain ⟨m', rfl, hr1'⟩ := hr'.inv_cont e2
        exact ih m (by omega) hr1 hr1' hs
      | panic => exact absurd e1 hr.inv_panic
    | @swap x y dx dy l l' hx hy hm hl =>
      obtain ⟨m, dx1, o1, rfl, a1, rfl, hr1⟩ := hr.directive hx
      obtain ⟨m2, dy1, o2, rfl, a2, rfl, hr2⟩ := hr1.directive hy
      obtain ⟨m3, dy2, o3, rfl, a3, rfl, hr1'⟩ := hr'.directive hy
      obtain ⟨m4, dx2, o4, rfl, a4, rfl, hr2'⟩ := hr1'.directive hx
      rw [a1] at a4
      rw [a2] at a3
      cases a3
      cases a4
      obtain ⟨a, b⟩ := ih m2 (by omega) hr2 hr2' ⟨rfl, hl, h3, h4, rfl⟩
      refine ⟨.swap ?_ a, b⟩
      intro hs
      rw [augment_date a1, augment_date a2]
      exact hm hs
    | @drop x dx l _ hd hx hl =>
      obtain ⟨m, dx1, o1, rfl, a1, rfl, hr1⟩ := hr.directive hx
      obtain ⟨a, b⟩ := ih m (by omega) hr1 hr' ⟨rfl, hl, h3, h4, rfl⟩
      exact ⟨.drop _ hd a, b⟩

/-- The other run comes to an end too. -/
theorem sim_forth {env : PragmaEnv} (n : Nat) : ∀ {st st' : PragmaState} {out : List (Spanned Directive)} {fin : PragmaState},
    Runs env n st out fin → Sim (strict := strict) (dropping := dropping) st st' → ∃ n' out' fin', Runs env n' st' out' fin' := by
  induction n using Nat.strongRecOn with
  | ind n ih =>
    intro st st' out fin hr h
    obtain ⟨p, c, k, r, dat⟩ := st
    obtain ⟨p', c', k', r', dat'⟩ := st'
    obtain ⟨h1, h2, h3, h4, h5⟩ := h
    dsimp only at h1 h2 h3 h4 h5
    subst h1
    subst h5
    cases h2 with
    | nil =>
      cases h3 with
      | nil => exact ⟨0, _, _, .done rfl⟩
      | @cons e e' k k' he hk =>
        obtain ⟨q, l⟩ := e
        obtain ⟨q', l'⟩ := e'
        obtain ⟨hq, hl⟩ := he
        dsimp only at hq hl
        subst hq
        obtain ⟨m, rfl, hr1⟩ := hr.inv_cont (st1 := ⟨q', l, k, r, dat'⟩) rfl
        obtain ⟨n', o', f', hh⟩ := ih m (by omega) hr1 (st' := ⟨q', l', k', r', dat'⟩) ⟨rfl, hl, hk, h4, rfl⟩
        exact ⟨_, _, _, .cont rfl hh⟩
    | @cons d l l' hl =>
      have ht := consume env (p := p') (dat := dat') d hl h3 h4
      generalize e1 : PragmaState.step env ⟨p', d :: l, k, r, dat'⟩ = t1 at ht
      generalize e2 : PragmaState.step env ⟨p', d :: l', k', r', dat'⟩ = t2 at ht
      cases ht with
      | yield hs =>
        obtain ⟨m, o1, rfl, rfl, hr1⟩ := hr.inv_yield e1
        obtain ⟨n', o', f', hh⟩ := ih m (by omega) hr1 hs
        exact ⟨_, _, _, .yield e2 hh⟩
      | cont hs =>
        obtain ⟨m, rfl, hr1⟩ := hr.inv_cont e1
        obtain ⟨n', o', f', hh⟩ := ih m (by omega) hr1 hs
        exact ⟨_, _, _, .cont e2 hh⟩
      | panic => exact absurd e1 hr.inv_panic
    | @swap x y dx dy l l' hx hy hm hl =>
      obtain ⟨m, dx1, o1, rfl, a1, rfl, hr1⟩ := hr.directive hx
      obtain ⟨m2, dy1, o2, rfl, a2, rfl, hr2⟩ := hr1.directive hy
      obtain ⟨n', o', f', hh⟩ := ih m2 (by omega) hr2 (st' := ⟨p', l', k', r', dat'⟩) ⟨rfl, hl, h3, h4, rfl⟩
      refine ⟨_, _, _, .yield (d := ⟨dy1, y.span⟩) (st1 := ⟨p', x :: l', k', r', dat'⟩) ?_ (.yield (d := ⟨dx1, x.span⟩) ?_ hh)⟩
      · simp only [PragmaState.step, hy, a2]
      · simp only [PragmaState.step, hx, a1]
    | @drop x dx l _ hd hx hl =>
      obtain ⟨m, dx1, o1, rfl, a1, rfl, hr1⟩ := hr.directive hx
      exact ih m (by omega) hr1 ⟨rfl, hl, h3, h4, rfl⟩

theorem Runs.unique {env : PragmaEnv} {n n' : Nat} {st fin fin' : PragmaState} {out out' : List (Spanned Directive)}
    (h : Runs env n st out fin) (h' : Runs env n' st out' fin') : out' = out ∧ fin' = fin := by
  induction h generalizing n' out' with
  | done hs => exact h'.inv_done hs
  | cont hs _ ih =>
    obtain ⟨m, rfl, hk⟩ := h'.inv_cont hs
    exact ih hk
  | yield hs _ ih =>
    obtain ⟨m, o, rfl, rfl, hk⟩ := h'.inv_yield hs
    obtain ⟨rfl, rfl⟩ := ih hk
    exact ⟨rfl, rfl⟩

open Relation

/-- All changes, one after the other. -/
theorem runs_chain {env : PragmaEnv} {st st' : PragmaState} (h : ReflTransGen (Sim (strict := strict) (dropping := dropping)) st st')
    {n n' : Nat} {out out' : List (Spanned Directive)} {fin fin' : PragmaState} (hr : Runs env n st out fin) (hr' : Runs env n' st' out' fin') :
    ReflTransGen (Outs strict dropping) out out' ∧ fin'.data = fin.data := by
  induction h using ReflTransGen.head_induction_on generalizing n out fin with
  | refl =>
    obtain ⟨rfl, rfl⟩ := hr.unique hr'
    exact ⟨.refl, rfl⟩
  | head hs _ ih =>
    obtain ⟨m, o, f, hm⟩ := sim_forth n hr hs
    obtain ⟨h1, h2⟩ := sim_runs n hr hm hs
    obtain ⟨h3, h4⟩ := ih hm
    exact ⟨.head h1 h3, h4.trans h2⟩

theorem chain_map {α β : Type} {r : α → α → Prop} {q : β → β → Prop} (g : α → β) (hg : ∀ a b, r a b → q (g a) (g b)) {a b : α}
    (h : ReflTransGen r a b) : ReflTransGen q (g a) (g b) := by
  induction h with
  | refl => exact .refl
  | tail _ h ih => exact .tail ih (hg _ _ h)

theorem lists_chain {f f' : Files} (h : List.Forall₂ (fun e e' => e'.1 = e.1 ∧ ReflTransGen (Decls strict dropping) e.2 e'.2) f f') :
    ReflTransGen (Lists strict dropping) f f' := by
  induction h with
  | nil => exact .refl
  | @cons e e' f f' h _ ih =>
    obtain ⟨p, l⟩ := e
    obtain ⟨p', l'⟩ := e'
    obtain ⟨hp, hl⟩ := h
    dsimp only at hp hl
    subst hp
    have h1 : ReflTransGen (Lists strict dropping) ((p', l) :: f) ((p', l) :: f') :=
      chain_map (fun x => (p', l) :: x) (fun a b hab => List.Forall₂.cons ⟨rfl, .refl _⟩ hab) ih
    have h2 : ReflTransGen (Lists strict dropping) ((p', l) :: f') ((p', l') :: f') :=
      chain_map (fun x => (p', x) :: f') (fun a b hab => List.Forall₂.cons ⟨rfl, hab⟩ (Lists.refl _)) hl
    exact h1.trans h2

theorem process_chain {env : PragmaEnv} {root : Option Path} {files files' : Files} {o : Options}
    (h : ReflTransGen (Lists strict dropping) files files') {out out' : List (Spanned Directive)} {d d' : PragmaData}
    (h1 : processPragmas env root files o = .ok (out, d)) (h2 : processPragmas env root files' o = .ok (out', d')) :
    ReflTransGen (Outs strict dropping) out out' ∧ d' = d := by
  unfold processPragmas PragmaState.new at h1 h2
  cases k1 : AMap.get files root with
  | none => rw [k1] at h1; cases h1
  | some l =>
    cases k2 : AMap.get files' root with
    | none => rw [k2] at h2; cases h2
    | some l' =>
      rw [k1] at h1
      rw [k2] at h2
      dsimp only at h1 h2
      have key : ∀ {st : PragmaState} {out d}, (st.collect env).map (fun r => (r.1, r.2.data)) = Res.ok (out, d) →
          ∃ n fin, Runs env n st out fin ∧ fin.data = d := by
        intro st out d hh
        cases hc : st.collect env with
        | err e => rw [hc] at hh; cases hh
        | panic => rw [hc] at hh; cases hh
        | ok r =>
          rw [hc] at hh
          cases hh
          obtain ⟨m, hm⟩ := runs_of_fuel _ hc
          exact ⟨m, _, hm, rfl⟩
      obtain ⟨n, fin, r1, rfl⟩ := key h1
      obtain ⟨n', fin', r2, rfl⟩ := key h2
      have hs : ∀ {f : Files} {l : List (Spanned Declaration)} (dat : PragmaData), ReflTransGen (Lists strict dropping) f files' →
          AMap.get f root = some l →
          ReflTransGen (Sim (strict := strict) (dropping := dropping)) ⟨root, l, [], AMap.erase f root, dat⟩ ⟨root, l', [], AMap.erase files' root, dat⟩ := by
        intro f l dat hf
        induction hf using ReflTransGen.head_induction_on generalizing l with
        | refl =>
          intro hg
          rw [k2] at hg
          cases hg
          exact .refl
        | head hx _ ih =>
          intro hg
          rcases hx.get root with ⟨g1, _⟩ | ⟨x, x', g1, g2, g3⟩
          · rw [g1] at hg; cases hg
          · rw [g1] at hg
            cases hg
            have hsim : Sim (strict := strict) (dropping := dropping) ⟨root, l, [], AMap.erase _ root, dat⟩ ⟨root, x', [], AMap.erase _ root, dat⟩ :=
              ⟨rfl, g3, .nil, hx.erase _, rfl⟩
            exact .head hsim (ih g2)
      exact runs_chain (hs _ h k1) r1 r2

end Lima.Revise
