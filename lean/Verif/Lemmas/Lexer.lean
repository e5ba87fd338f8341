import Verif.Model.Lexer
import Verif.Spec.Lexer

/-! The lexer adaptors as list functions. -/

namespace Lima
open Spec

/-! ### Recovery -/

/-- The tokens a raw item is turned into. -/
def recovered (rlex : Str → List (RawItem RecoveryToken)) (source : Str) (p : RawItem Token) :
    Option (List Ranged) :=
  match p.res with
  | .ok t => some [⟨t, p.start, p.stop⟩]
  | .error _ =>
    (slice source p.start p.stop).map fun failed =>
      (rlex failed).map fun i =>
        ⟨match i.res with | .ok t => t.toToken | .error e => .error e, i.start + p.start, i.stop + p.start⟩

def recoveredAll (rlex : Str → List (RawItem RecoveryToken)) (source : Str) :
    List (RawItem Token) → Option (List Ranged)
  | [] => some []
  | p :: ps =>
    match recovered rlex source p, recoveredAll rlex source ps with
    | some a, some b => some (a ++ b)
    | _, _ => none

def pendingRecovery : Option (List (RawItem RecoveryToken) × Nat) → List Ranged
  | none => []
  | some (is, o) => is.map fun i =>
      ⟨match i.res with | .ok t => t.toToken | .error e => .error e, i.start + o, i.stop + o⟩

theorem recovery_next (rlex : Str → List (RawItem RecoveryToken)) (source : Str)
    (primary : List (RawItem Token)) (recovery : Option (List (RawItem RecoveryToken) × Nat)) :
    (recoveredAll rlex source primary).map (pendingRecovery recovery ++ ·) =
      match Recovery.next rlex source primary recovery with
      | none => none
      | some none => some []
      | some (some (x, r')) =>
        (recoveredAll rlex source r'.primary).map (fun l => x :: (pendingRecovery r'.recovery ++ l)) := by
  fun_induction Recovery.next rlex source primary recovery with
  | case1 primary o i is tok =>
    simp only [pendingRecovery, List.map_cons, List.cons_append]
    rfl
  | case2 => simp [recoveredAll, pendingRecovery]
  | case3 o p ps t ht =>
    simp only [recoveredAll, recovered, ht, pendingRecovery, List.map_nil, List.nil_append]
    cases recoveredAll rlex source ps <;> simp
  | case4 o p ps e he hs =>
    simp [recoveredAll, recovered, he, hs]
  | case5 o p ps e he failed hs ih =>
    rw [← ih]
    simp only [recoveredAll, recovered, he, hs, pendingRecovery]
    cases recoveredAll rlex source ps <;> simp
  | case6 => simp [recoveredAll, pendingRecovery]
  | case7 p ps t ht =>
    simp only [recoveredAll, recovered, ht, pendingRecovery, List.map_nil, List.nil_append]
    cases recoveredAll rlex source ps <;> simp
  | case8 p ps e he hs =>
    simp [recoveredAll, recovered, he, hs]
  | case9 p ps e he failed hs ih =>
    rw [← ih]
    simp only [recoveredAll, recovered, he, hs, pendingRecovery]
    cases recoveredAll rlex source ps <;> simp

theorem recovery_collect (rlex : Str → List (RawItem RecoveryToken)) (source : Str) (r : Recovery) :
    Recovery.collect rlex source r =
      (recoveredAll rlex source r.primary).map (pendingRecovery r.recovery ++ ·) := by
  fun_induction Recovery.collect rlex source r with
  | case1 r h => rw [recovery_next, h]
  | case2 r h => rw [recovery_next, h]
  | case3 r x r' h ih =>
    rw [recovery_next, h, ih, Option.map_map]
    rfl

/-! ### Keys -/

/-- A keyword before a colon becomes a key. -/
def mapKeys : List Ranged → List Ranged
  | [] => []
  | [t] => [t]
  | t :: c :: ts =>
    (match potentialKey t.tok with
      | some k => if c.tok = .colon then ⟨.key k, t.start, t.stop⟩ else t
      | none => t) :: mapKeys (c :: ts)

theorem key_collect_pending (ts : List Ranged) :
    ∀ t : Ranged, KeyState.collect ⟨ts, some (t, potentialKey t.tok)⟩ = mapKeys (t :: ts) := by
  induction hn : ts.length using Nat.strongRecOn generalizing ts with
  | _ n ih =>
    intro t
    rw [KeyState.collect]
    cases hk : potentialKey t.tok with
    | none =>
      have hnext : KeyState.next ⟨ts, some (t, none)⟩ = some (t, ⟨ts, none⟩) := by
        simp [KeyState.next, KeyState.fill]
      rw [hnext]
      simp only
      cases ts with
      | nil =>
        rw [KeyState.collect]
        simp [KeyState.next, KeyState.fill, mapKeys]
      | cons c ts =>
        have : KeyState.collect ⟨c :: ts, none⟩ = KeyState.collect ⟨ts, some (c, potentialKey c.tok)⟩ := by
          rw [KeyState.collect]
          conv => rhs; rw [KeyState.collect]
          have : KeyState.next ⟨c :: ts, none⟩ = KeyState.next ⟨ts, some (c, potentialKey c.tok)⟩ := by
            simp [KeyState.next, KeyState.fill]
          rw [this]
        rw [this, ih ts.length (by simp at hn; omega) ts rfl c]
        simp [mapKeys, hk]
    | some k =>
      cases ts with
      | nil =>
        have hnext : KeyState.next ⟨[], some (t, some k)⟩ = some (t, ⟨[], none⟩) := by
          simp [KeyState.next, KeyState.fill]
        rw [hnext]
        simp only
        rw [KeyState.collect]
        simp [KeyState.next, KeyState.fill, mapKeys]
      | cons c ts =>
        by_cases hc : c.tok = .colon
        · have hnext : KeyState.next ⟨c :: ts, some (t, some k)⟩ =
              some (⟨.key k, t.start, t.stop⟩, ⟨ts, some (c, potentialKey c.tok)⟩) := by
            simp [KeyState.next, KeyState.fill, hc, potentialKey]
          rw [hnext]
          simp only
          rw [ih ts.length (by simp at hn; omega) ts rfl c]
          simp [mapKeys, hk, hc]
        · have hnext : KeyState.next ⟨c :: ts, some (t, some k)⟩ =
              some (t, ⟨ts, some (c, potentialKey c.tok)⟩) := by
            simp [KeyState.next, KeyState.fill, hc]
          rw [hnext]
          simp only
          rw [ih ts.length (by simp at hn; omega) ts rfl c]
          simp [mapKeys, hk, hc]

theorem keywordThenColonToKey_eq (ts : List Ranged) : keywordThenColonToKey ts = mapKeys ts := by
  unfold keywordThenColonToKey
  cases ts with
  | nil =>
    rw [KeyState.collect]
    simp [KeyState.next, KeyState.fill, mapKeys]
  | cons c ts =>
    rw [← key_collect_pending]
    rw [KeyState.collect]
    conv => rhs; rw [KeyState.collect]
    have : KeyState.next ⟨c :: ts, none⟩ = KeyState.next ⟨ts, some (c, potentialKey c.tok)⟩ := by
      simp [KeyState.next, KeyState.fill]
    rw [this]

theorem mapKeys_length (ts : List Ranged) : (mapKeys ts).length = ts.length := by
  fun_induction mapKeys ts <;> simp_all

theorem mapKeys_getElem? (ts : List Ranged) (i : Nat) :
    (mapKeys ts)[i]? = (ts[i]?).map (fun t =>
      match potentialKey t.tok, ts[i+1]? with
      | some k, some c => if c.tok = .colon then ⟨.key k, t.start, t.stop⟩ else t
      | _, _ => t) := by
  fun_induction mapKeys ts generalizing i with
  | case1 => simp
  | case2 t => cases i <;> simp
  | case3 t c ts ih =>
    cases i with
    | zero => simp; cases potentialKey t.tok <;> simp
    | succ i => simp [ih]

/-! ### Line ends -/

/-- Reading modes of the list-level description. -/
inductive EMode where
  | normal
  | run (f : Ranged)
  | skip

/-- The tokens for a merged line end. -/
def emitEol (f : Ranged) (rest : List Ranged) : List Ranged :=
  if f.tok = .eolThenIndent then ⟨.eol, f.start, f.stop⟩ :: ⟨.indent, f.stop - 1, f.stop⟩ :: rest
  else if f.tok = .eolComment then ⟨.eol, f.start, f.start⟩ :: rest
  else f :: rest

/-- `EolIndentHandler` after its first token, without the forced final line end. -/
def eolRun : EMode → List Ranged → List Ranged
  | .normal, [] => []
  | .skip, [] => []
  | .run f, [] => emitEol f []
  | .normal, t :: ts => if t.tok.isEol then eolRun (.run t) ts else t :: eolRun .normal ts
  | .skip, t :: ts => if t.tok.isEol then eolRun (.run t) ts else eolRun .skip ts
  | .run f, t :: ts =>
    if t.tok.isEol then eolRun (.run ⟨t.tok, f.start, if t.tok = .eolComment then t.start else t.stop⟩) ts
    else if f.tok = .eolThenIndent ∧ t.tok = .colon then eolRun .skip ts
    else emitEol f (t :: eolRun .normal ts)

theorem skipToEol_spec (l : List Ranged) :
    eolRun .skip l = (match skipToEol l with
      | (none, _) => []
      | (some f, r) => eolRun (.run f) r) ∧
    (∀ f, (skipToEol l).1 = some f → f.tok.isEol = true) ∧
    ((skipToEol l).1 = none → (skipToEol l).2 = []) := by
  induction l with
  | nil => simp [skipToEol, eolRun]
  | cons t ts ih =>
    by_cases h : t.tok.isEol = true
    · simp [skipToEol, eolRun, h]
    · simp only [skipToEol, eolRun, h, Bool.false_eq_true, if_false]
      exact ih

/-- Tokens still to come from the merge loop's variables. -/
def mergeRest (first second : Option Ranged) (iter : List Ranged) : List Ranged :=
  match first with
  | none => []
  | some f => eolRun (.run f) (second.toList ++ iter)

theorem mergeLoop_spec (first second : Option Ranged) (iter : List Ranged)
    (h1 : ∀ f, first = some f → f.tok.isEol = true) (h2 : second = none → iter = [])
    (h3 : first = none → iter = []) :
    let r := mergeLoop first second iter
    mergeRest first second iter = (match r.1 with
      | none => []
      | some f => emitEol f (r.2.1.toList ++ eolRun .normal r.2.2)) ∧
    (∀ f, r.1 = some f → f.tok.isEol = true) ∧ (∀ s, r.1.isSome → r.2.1 = some s → s.tok.isEol = false) ∧
    (r.1 = none → r.2.2 = []) := by
  fun_induction mergeLoop first second iter with
  | case1 iter f s hfs stop ih =>
    simp only [Bool.and_eq_true] at hfs
    have ih := ih (by intro f' hf'; cases hf'; exact hfs.2) (by intro hn; cases iter <;> simp_all)
      (by intro h; cases h)
    refine ⟨?_, ih.2.1, ih.2.2.1, ih.2.2.2⟩
    rw [← ih.1]
    have : iter.head?.toList ++ iter.tail = iter := by cases iter <;> simp
    simp only [mergeRest, Option.toList_some, List.singleton_append, this]
    rw [eolRun, if_pos hfs.2]
    rfl
  | case2 iter f s hfs hcol r q ih =>
    simp only [Bool.and_eq_true, decide_eq_true_eq] at hcol
    have hr : r = skipToEol iter := rfl
    have hq : q = secondTok r.1 r.2 := rfl
    have hsk := skipToEol_spec iter
    rw [← hr] at hsk
    have hq2 : q.1 = none → q.2 = [] := by
      intro hn
      rw [hq] at hn ⊢
      cases hr1 : r.1 with
      | none => rw [hr1] at hn; simp [secondTok, hsk.2.2 hr1]
      | some f' =>
        rw [hr1] at hn
        simp only [secondTok, hsk.2.1 f' hr1, if_true] at hn ⊢
        cases h : r.2 <;> simp_all
    have hq3 : r.1 = none → q.2 = [] := by
      intro hr1
      rw [hq, hr1]
      simp [secondTok, hsk.2.2 hr1]
    have ih := ih hsk.2.1 hq2 hq3
    refine ⟨?_, ih.2.1, ih.2.2.1, ih.2.2.2⟩
    rw [← ih.1]
    have hseol : s.tok.isEol = false := by rw [hcol.2]; rfl
    simp only [mergeRest, Option.toList_some, List.singleton_append]
    rw [eolRun, if_neg (by simp [hseol]), if_pos hcol, hsk.1]
    cases hr1 : r.1 with
    | none =>
      obtain ⟨r1, r2⟩ := r
      simp only at hr1
      subst hr1
      rfl
    | some f' =>
      obtain ⟨r1, r2⟩ := r
      simp only at hr1
      subst hr1
      have hf' := hsk.2.1 f' rfl
      have : q.1.toList ++ q.2 = r2 := by
        rw [hq]
        simp only [secondTok, hf', if_true]
        cases r2 <;> simp
      simp only [this]
  | case3 iter f s hfs hcol =>
    have hf := h1 f rfl
    have hs : s.tok.isEol = false := by simpa [hf] using hfs
    refine ⟨?_, fun f' h => h1 f' h, ?_, by simp⟩
    · simp only [mergeRest, Option.toList_some, List.singleton_append]
      rw [eolRun, if_neg (by simp [hs]), if_neg (by simpa using hcol)]
    · intro s' _ h; cases h; exact hs
  | case4 first second iter hno =>
    refine ⟨?_, fun f' h => h1 f' h, ?_, h3⟩
    · cases first with
      | none => simp [mergeRest]
      | some f =>
        cases second with
        | none =>
          have := h2 rfl
          subst this
          simp [mergeRest, eolRun]
        | some s => exact absurd rfl (hno f s rfl)
    · intro s hsome h
      cases first with
      | none => simp at hsome
      | some f => exact absurd h (hno f s rfl)

/-- What the handler still has to yield from its fields. -/
def eolRest (st : EolState) : List Ranged :=
  st.firstTok.toList ++ st.pend0.toList ++ st.pend1.toList ++ eolRun .normal st.iter

/-- The fields as they are between calls. -/
structure EolOk (st : EolState) : Prop where
  pend : st.pend0 = none → st.pend1 = none
  first : ∀ t, st.firstTok = some t → t.tok.isEol = false ∧ st.pend0 = none
  pend0 : ∀ t, st.pend0 = some t → t.tok ≠ .eolComment
  pend1 : ∀ t, st.pend1 = some t → t.tok ≠ .eolComment

/-- The conversion of comments at the end of input in `next`. -/
def noComment (item : Ranged) : Ranged :=
  if item.tok = .eolComment then ⟨.eol, item.start, item.start⟩ else item

theorem pick_spec (st : EolState) (h : EolOk st) :
    (∀ x st', st.pick = (some x, st') →
      eolRest st = noComment x :: eolRest st' ∧ EolOk st' ∧ st'.finalEol = st.finalEol ∧
        st'.previousWasEol = st.previousWasEol ∧ st'.any = st.any) ∧
    (∀ st', st.pick = (none, st') → eolRest st = [] ∧ EolOk st' ∧ eolRest st' = [] ∧
        st'.finalEol = st.finalEol ∧ st'.previousWasEol = st.previousWasEol ∧ st'.any = st.any) := by
  obtain ⟨iter, firstTok, pend0, pend1, fe, prev, any⟩ := st
  obtain ⟨hp, hf, hp0, hp1⟩ := h
  simp only at hp hf hp0 hp1
  unfold EolState.pick
  cases firstTok with
  | some t =>
    obtain ⟨ht, hpn⟩ := hf t rfl
    have hpn1 := hp hpn
    subst hpn hpn1
    refine ⟨?_, by simp⟩
    rintro x st' e
    cases e
    have : noComment t = t := by
      unfold noComment
      rw [if_neg]
      intro h; rw [h] at ht; simp [Token.isEol] at ht
    refine ⟨?_, ⟨by simp, by simp, by simp, by simp⟩, rfl, rfl, rfl⟩
    simp [eolRest, this]
  | none =>
    simp only [EolState.nextMerged]
    cases pend0 with
    | some f =>
      refine ⟨?_, by simp⟩
      rintro x st' e
      cases e
      have : noComment f = f := by
        unfold noComment
        rw [if_neg (hp0 f rfl)]
      refine ⟨?_, ⟨by simp, by simp, hp1, by simp⟩, rfl, rfl, rfl⟩
      simp [eolRest, this]
    | none =>
      have := hp rfl
      subst this
      simp only [EolState.merge]
      cases iter with
      | nil =>
        simp only [List.head?_nil, List.tail_nil, secondTok]
        rw [mergeLoop]
        case x_2 => intro _ _ _ h; cases h
        simp only
        refine ⟨by simp, ?_⟩
        rintro st' e
        cases e
        simp only [eolRest, eolRun]
        simp
        constructor <;> simp
      | cons t ts =>
        simp only [List.head?_cons, List.tail_cons]
        by_cases ht : t.tok.isEol = true
        · have hspec := mergeLoop_spec (some t) ts.head? ts.tail (by intro f h; cases h; exact ht)
            (by intro h; cases ts <;> simp_all) (by intro h; cases h)
          have hts : ts.head?.toList ++ ts.tail = ts := by cases ts <;> simp
          have hrest : eolRun .normal (t :: ts) = mergeRest (some t) ts.head? ts.tail := by
            simp only [mergeRest, hts]
            rw [eolRun, if_pos ht]
          have hsec : secondTok (some t) ts = (ts.head?, ts.tail) := by simp [secondTok, ht]
          rw [hsec]
          simp only at hspec ⊢
          generalize mergeLoop (some t) ts.head? ts.tail = r at hspec
          obtain ⟨r1, r2, r3⟩ := r
          obtain ⟨hs1, hs2, hs3, hs4⟩ := hspec
          simp only at hs1 hs2 hs3 hs4
          cases r1 with
          | none =>
            have := hs4 rfl
            subst this
            refine ⟨by simp, ?_⟩
            rintro st' e
            cases e
            refine ⟨?_, ⟨by simp, by simp, by simp, by simp⟩, ?_, rfl, rfl, rfl⟩
            · simp only [eolRest, Option.toList_none, List.nil_append, hrest, hs1]
            · simp [eolRest, eolRun]
          | some f =>
            have hs3 := fun s => hs3 s rfl
            have hnc : ∀ s, r2 = some s → s.tok ≠ .eolComment := by
              intro s h h'
              have := hs3 s h
              rw [h'] at this
              simp [Token.isEol] at this
            simp only
            split
            · rename_i hfi
              refine ⟨?_, by simp⟩
              rintro x st' e
              cases e
              refine ⟨?_, ⟨by simp, by simp, by simp, hnc⟩, rfl, rfl, rfl⟩
              simp only [eolRest, Option.toList_none, List.nil_append, hrest, hs1]
              simp [emitEol, hfi, noComment]
            · rename_i hfi
              refine ⟨?_, by simp⟩
              rintro x st' e
              cases e
              refine ⟨?_, ⟨by simp, by simp, hnc, by simp⟩, rfl, rfl, rfl⟩
              simp only [eolRest, Option.toList_none, List.nil_append, hrest, hs1]
              by_cases hfc : f.tok = .eolComment
              · simp [emitEol, hfc, noComment]
              · simp [emitEol, hfi, hfc, noComment]
        · have hsec : secondTok (some t) ts = (none, ts) := by simp [secondTok, ht]
          rw [hsec]
          simp only
          rw [mergeLoop]
          case x_2 => intro _ _ _ h; cases h
          simp only
          have hti : ¬ t.tok = .eolThenIndent := by
            intro h; rw [h] at ht; simp [Token.isEol] at ht
          have htc : ¬ t.tok = .eolComment := by
            intro h; rw [h] at ht; simp [Token.isEol] at ht
          rw [if_neg hti]
          refine ⟨?_, by simp⟩
          rintro x st' e
          cases e
          refine ⟨?_, ⟨by simp, by simp, by simp, by simp⟩, rfl, rfl, rfl⟩
          simp [eolRest, eolRun, ht, noComment, htc]

/-- The forced final line end, when it is added. -/
def finalTok (fe : Option (Nat × Nat)) (previousWasEol any : Bool) : List Ranged :=
  match fe with
  | some (a, b) => if !previousWasEol && any then [⟨.eol, a, b⟩] else []
  | none => []

theorem eol_collect (st : EolState) (h : EolOk st) :
    st.collect = eolRest st ++
      finalTok st.finalEol (st.previousWasEol || (eolRest st).any (fun t => decide (t.tok = .eol)))
        (st.any || !(eolRest st).isEmpty) := by
  fun_induction EolState.collect st with
  | case1 st st' hn =>
    unfold EolState.next at hn
    cases hp : st.pick with
    | mk o st1 =>
      rw [hp] at hn
      have hps := pick_spec st h
      cases o with
      | some x => simp only [Prod.mk.injEq, reduceCtorEq, false_and] at hn
      | none =>
        obtain ⟨h1, h2, h3, h4, h5, h6⟩ := hps.2 st1 hp
        simp only [h4, h5, h6] at hn
        rw [h1]
        unfold finalTok
        cases hfe : st.finalEol with
        | none => simp
        | some ab =>
          obtain ⟨a, b⟩ := ab
          simp only [hfe] at hn
          cases hpv : st.previousWasEol with
          | true => simp
          | false =>
            cases hany : st.any with
            | false => simp
            | true =>
              simp [hpv, hany] at hn
  | case2 st x st' hn ih =>
    unfold EolState.next at hn
    cases hp : st.pick with
    | mk o st1 =>
      rw [hp] at hn
      have hps := pick_spec st h
      cases o with
      | some y =>
        obtain ⟨h1, h2, h3, h4, h5⟩ := hps.1 y st1 hp
        simp only [Prod.mk.injEq, Option.some.injEq] at hn
        obtain ⟨hx, hst'⟩ := hn
        have hxc : x = noComment y := hx.symm
        rw [← hxc] at h1
        have hok : EolOk st' := by
          subst hst'
          exact ⟨h2.pend, h2.first, h2.pend0, h2.pend1⟩
        have hrest : eolRest st' = eolRest st1 := by subst hst'; rfl
        have ih := ih hok
        rw [ih, h1, hrest]
        have e1 : st'.finalEol = st.finalEol := by subst hst'; exact h3
        have e2 : st'.previousWasEol = (st.previousWasEol || decide (x.tok = .eol)) := by
          subst hst'
          simp only [h4]
          rw [hxc]
          unfold noComment
          generalize (if y.tok = Token.eolComment then _ else y : Ranged) = z
          by_cases hz : z.tok = .eol <;> simp [hz]
        have e3 : st'.any = true := by subst hst'; rfl
        rw [e1, e2, e3]
        simp only [List.cons_append, List.any_cons, Bool.true_or, List.isEmpty_cons, Bool.not_false,
          Bool.or_true, Bool.or_assoc]
      | none =>
        obtain ⟨h1, h2, h3, h4, h5, h6⟩ := hps.2 st1 hp
        simp only [h4, h5, h6] at hn
        rw [h1]
        cases hfe : st.finalEol with
        | none => simp [hfe] at hn
        | some ab =>
          obtain ⟨a, b⟩ := ab
          simp only [hfe] at hn
          cases hpv : st.previousWasEol with
          | true => simp [hpv] at hn
          | false =>
            cases hany : st.any with
            | false => simp [hpv, hany] at hn
            | true =>
              simp only [hpv, hany, Bool.not_false, if_true, Prod.mk.injEq, Option.some.injEq] at hn
              obtain ⟨rfl, hst'⟩ := hn
              have hok : EolOk st' := by
                subst hst'
                exact ⟨h2.pend, h2.first, h2.pend0, h2.pend1⟩
              have hrest : eolRest st' = [] := by subst hst'; exact h3
              have ih := ih hok
              rw [ih, hrest]
              have e1 : st'.finalEol = some (a, b) := by subst hst'; rfl
              have e2 : st'.previousWasEol = true := by subst hst'; rfl
              simp [e2, finalTok, e1]

theorem isEol_iff (t : Token) : t.isEol = true ↔ LineEnd t := by
  simp only [Token.isEol, LineEnd, Bool.or_eq_true, decide_eq_true_eq]
  constructor
  · rintro ((h | h) | h) <;> simp [h]
  · rintro (h | h | h) <;> simp [h]

theorem dropWhile_head {α : Type} (p : α → Bool) (l : List α) (t : α) (ts : List α)
    (h : l.dropWhile p = t :: ts) : p t = false := by
  have := List.head?_dropWhile_not p l
  rw [h] at this
  simpa using this

theorem dropInitial_head (l : List Ranged) :
    ∀ t ts, dropInitial l = t :: ts → t.tok.isEol = false ∧ t.tok ≠ .colon := by
  fun_induction dropInitial l with
  | case1 => simp
  | case2 l t ts h hc ih => exact ih
  | case3 l t ts h hc =>
    intro t' ts' e
    cases e
    exact ⟨dropWhile_head (fun x : Ranged => x.tok.isEol) _ _ _ h, hc⟩

/-- The tokens handed to the parser, except the forced final line end. -/
def eolBody (ts : List Ranged) : List Ranged := eolRun .normal (dropInitial (⟨.eol, 0, 0⟩ :: ts))

theorem handleEolIndent_eq (ts : List Ranged) (fe : Option (Nat × Nat)) :
    handleEolIndent ts fe =
      eolBody ts ++ finalTok fe ((eolBody ts).any (fun t => decide (t.tok = .eol))) (!(eolBody ts).isEmpty) := by
  unfold handleEolIndent
  have hd := dropInitial_head (⟨.eol, 0, 0⟩ :: ts)
  have hrest : eolRest (EolState.new ts fe) = eolBody ts := by
    unfold EolState.new eolBody eolRest
    cases h : dropInitial (⟨.eol, 0, 0⟩ :: ts) with
    | nil => simp [eolRun]
    | cons t us => simp [eolRun, (hd t us h).1]
  rw [eol_collect]
  · rw [hrest]
    rfl
  · refine ⟨fun _ => rfl, ?_, ?_, ?_⟩
    · intro t ht
      unfold EolState.new at ht
      simp only at ht
      refine ⟨?_, rfl⟩
      cases h : dropInitial (⟨.eol, 0, 0⟩ :: ts) with
      | nil => simp [h] at ht
      | cons t' us =>
        rw [h] at ht
        cases ht
        exact (hd t us h).1
    · intro t ht; cases ht
    · intro t ht; cases ht

/-- Not a line end or indent of the normalised stream. -/
def isSig (t : Ranged) : Bool := decide (t.tok ≠ .eol ∧ t.tok ≠ .indent)

theorem filter_emitEol (f : Ranged) (hf : f.tok.isEol = true) (rest : List Ranged) :
    (emitEol f rest).filter isSig = rest.filter isSig := by
  unfold emitEol
  rw [isEol_iff] at hf
  rcases hf with h | h | h <;> simp [h, isSig]

theorem eolRun_significant (ts : List Ranged) (hi : ∀ t ∈ ts, t.tok ≠ .indent) :
    (eolRun .normal ts).filter isSig = significant .inside ts ∧
    (eolRun .skip ts).filter isSig = significant .ignore ts ∧
    ∀ f : Ranged, f.tok.isEol = true → (eolRun (.run f) ts).filter isSig =
      significant (if f.tok = .eolThenIndent then .indented else .inside) ts := by
  induction ts with
  | nil =>
    refine ⟨by simp [eolRun, significant], by simp [eolRun, significant], ?_⟩
    intro f hf
    rw [eolRun, filter_emitEol f hf]
    simp [significant]
  | cons t ts ih =>
    obtain ⟨ih1, ih2, ih3⟩ := ih (fun t ht => hi t (by simp [ht]))
    have hti := hi t (by simp)
    by_cases ht : t.tok.isEol = true
    · have hl : LineEnd t.tok := (isEol_iff _).mp ht
      refine ⟨?_, ?_, ?_⟩
      · rw [eolRun, if_pos ht, ih3 t ht, significant, if_pos hl]
        rfl
      · rw [eolRun, if_pos ht, ih3 t ht, significant, if_pos hl]
        rfl
      · intro f hf
        rw [eolRun, if_pos ht, ih3 ⟨t.tok, f.start, if t.tok = .eolComment then t.start else t.stop⟩ ht, significant, if_pos hl]
        by_cases h1 : f.tok = .eolThenIndent <;> by_cases h2 : t.tok = .eolThenIndent <;>
          simp [h1, h2, LineMode.afterLineEnd]
    · have hl : ¬ LineEnd t.tok := fun h => ht ((isEol_iff _).mpr h)
      have hsig : isSig t = true := by
        have : t.tok ≠ .eol := fun h => hl (Or.inl h)
        simp [isSig, this, hti]
      refine ⟨?_, ?_, ?_⟩
      · rw [eolRun, if_neg ht, significant, if_neg hl, List.filter_cons_of_pos hsig, ih1]
        simp [LineMode.afterToken]
      · rw [eolRun, if_neg ht, significant, if_neg hl, ih2]
        simp [LineMode.afterToken]
      · intro f hf
        rw [eolRun, if_neg ht, significant, if_neg hl]
        by_cases h1 : f.tok = .eolThenIndent
        · simp only [h1, true_and, if_true]
          by_cases h2 : t.tok = .colon
          · simp [h2, ih2, LineMode.afterToken]
          · simp only [h2, if_false]
            rw [filter_emitEol f hf, List.filter_cons_of_pos hsig, ih1]
            simp [LineMode.afterToken, h2]
        · simp only [h1, false_and, if_false]
          rw [filter_emitEol f hf, List.filter_cons_of_pos hsig, ih1]
          simp [LineMode.afterToken]

theorem significant_dropWhile_eol (ts : List Ranged) :
    significant .fileStart ts = significant .fileStart (ts.dropWhile (·.tok.isEol)) := by
  induction ts with
  | nil => rfl
  | cons t ts ih =>
    by_cases ht : t.tok.isEol = true
    · rw [significant, if_pos ((isEol_iff _).mp ht), List.dropWhile_cons, if_pos ht]
      exact ih
    · rw [List.dropWhile_cons, if_neg ht]

theorem significant_dropWhile_line (ts : List Ranged) :
    significant .ignoreAtStart ts = significant .fileStart (ts.dropWhile (fun t => !t.tok.isEol)) := by
  induction ts with
  | nil => rfl
  | cons t ts ih =>
    by_cases ht : t.tok.isEol = true
    · have hl := (isEol_iff _).mp ht
      rw [List.dropWhile_cons, if_neg (by simp [ht]), significant, significant, if_pos hl, if_pos hl]
      rfl
    · have hl : ¬ LineEnd t.tok := fun h => ht ((isEol_iff _).mpr h)
      rw [List.dropWhile_cons, if_pos (by simp [ht]), significant, if_neg hl]
      exact ih

theorem significant_dropInitial (ts : List Ranged) :
    significant .fileStart ts = significant .inside (dropInitial ts) := by
  fun_induction dropInitial ts with
  | case1 l h => rw [significant_dropWhile_eol, h]; rfl
  | case2 l t ts h hc ih =>
    have ht := dropWhile_head (fun x : Ranged => x.tok.isEol) _ _ _ h
    have hl : ¬ LineEnd t.tok := fun h' => by rw [(isEol_iff _).mpr h'] at ht; cases ht
    rw [significant_dropWhile_eol, h, significant, if_neg hl]
    simp only [LineMode.afterToken, hc, if_true, reduceCtorEq, if_false]
    rw [significant_dropWhile_line, ih]
  | case3 l t ts h hc =>
    have ht := dropWhile_head (fun x : Ranged => x.tok.isEol) _ _ _ h
    have hl : ¬ LineEnd t.tok := fun h' => by rw [(isEol_iff _).mpr h'] at ht; cases ht
    rw [significant_dropWhile_eol, h, significant, if_neg hl]
    simp only [LineMode.afterToken, hc, if_true, if_false]
    rw [significant, if_neg hl]
    simp [LineMode.afterToken]

theorem dropInitial_subset (ts : List Ranged) : ∀ t ∈ dropInitial ts, t ∈ ts := by
  fun_induction dropInitial ts with
  | case1 => simp
  | case2 l t ts h hc ih =>
    intro x hx
    have h1 := ih x hx
    have h2 : x ∈ t :: ts := List.mem_cons_of_mem _ ((List.dropWhile_sublist _).subset h1)
    rw [← h] at h2
    exact (List.dropWhile_sublist _).subset h2
  | case3 l t ts h hc =>
    intro x hx
    rw [← h] at hx
    exact (List.dropWhile_sublist _).subset hx

theorem eolBody_significant (ts : List Ranged) (hi : ∀ t ∈ ts, t.tok ≠ .indent) :
    (eolBody ts).filter isSig = significant .fileStart ts := by
  have h : significant .fileStart ts = significant .fileStart (⟨.eol, 0, 0⟩ :: ts) := by
    conv => rhs; rw [significant]
    simp [LineEnd, LineMode.afterLineEnd]
  rw [h, significant_dropInitial]
  unfold eolBody
  refine (eolRun_significant _ ?_).1
  intro t ht
  have := dropInitial_subset _ t ht
  rcases List.mem_cons.mp this with rfl | h
  · simp
  · exact hi t h

/-! #### Adjacent tokens -/

/-- `R` holds for each two neighbours. -/
def Adj {α : Type} (R : α → α → Prop) : List α → Prop
  | [] => True
  | [_] => True
  | a :: b :: l => R a b ∧ Adj R (b :: l)

theorem adj_iff {α : Type} (R : α → α → Prop) (l : List α) :
    Adj R l ↔ ∀ p a b q, l = p ++ a :: b :: q → R a b := by
  induction l with
  | nil => simp [Adj]
  | cons x l ih =>
    cases l with
    | nil =>
      simp only [Adj, true_iff]
      intro p a b q h
      have := congrArg List.length h
      simp at this
      omega
    | cons y l =>
      rw [Adj, ih]
      constructor
      · rintro ⟨h1, h2⟩ p a b q e
        cases p with
        | nil => simp at e; obtain ⟨rfl, rfl, rfl⟩ := e; exact h1
        | cons z p => simp at e; exact h2 p a b q e.2
      · intro h
        refine ⟨h [] x y l rfl, fun p a b q e => h (x :: p) a b q (by rw [e]; rfl)⟩

theorem adj_cons {α : Type} (R : α → α → Prop) (a : α) (l : List α) :
    Adj R (a :: l) ↔ (∀ b, l.head? = some b → R a b) ∧ Adj R l := by
  cases l with
  | nil => simp [Adj]
  | cons b l => simp [Adj]

theorem adj_append_singleton {α : Type} (R : α → α → Prop) (l : List α) (z : α)
    (h : Adj R l) (hz : ∀ a, l.getLast? = some a → R a z) : Adj R (l ++ [z]) := by
  induction l with
  | nil => simp [Adj]
  | cons a l ih =>
    cases l with
    | nil => simp [Adj]; exact hz a rfl
    | cons b l =>
      simp only [List.cons_append, Adj]
      exact ⟨h.1, ih h.2 (fun c hc => hz c (by simpa using hc))⟩

/-- What neighbours in the normalised stream satisfy. -/
def LineRel (a b : Token) : Prop :=
  (a = .eol → b ≠ .eol) ∧ (b = .indent → a = .eol) ∧ (a = .indent → b ≠ .eol ∧ b ≠ .indent ∧ b ≠ .colon)

theorem lineRel_of_sig {a b : Token} (ha : a ≠ .indent) (hb : b ≠ .eol) (hb' : b ≠ .indent) :
    LineRel a b := ⟨fun _ => hb, fun h => absurd h hb', fun h => absurd h ha⟩

theorem emitEol_adj (f : Ranged) (hf : f.tok.isEol = true) (rest : List Token)
    (h : Adj LineRel rest)
    (hr : ∀ b, rest.head? = some b → b ≠ .eol ∧ b ≠ .indent ∧ (f.tok = .eolThenIndent → b ≠ .colon))
    (rest' : List Ranged) (e : rest = rest'.map (·.tok)) :
    Adj LineRel ((emitEol f rest').map (·.tok)) ∧ ((emitEol f rest').map (·.tok)).head? = some .eol := by
  subst e
  unfold emitEol
  rw [isEol_iff] at hf
  rcases hf with hf | hf | hf
  · simp only [hf, reduceCtorEq, if_false, List.map_cons, List.head?_cons, and_true]
    rw [adj_cons]
    refine ⟨fun b hb => lineRel_of_sig (by simp) (hr b hb).1 (hr b hb).2.1, h⟩
  · simp only [hf, if_true, List.map_cons, List.head?_cons, and_true]
    rw [adj_cons, adj_cons]
    refine ⟨?_, ?_, h⟩
    · intro b hb
      cases hb
      exact ⟨by simp, by simp, by simp⟩
    · intro b hb
      exact ⟨by simp, fun h => absurd h (hr b hb).2.1, fun _ => ⟨(hr b hb).1, (hr b hb).2.1, (hr b hb).2.2 hf⟩⟩
  · simp only [hf, reduceCtorEq, if_false, if_true, List.map_cons, List.head?_cons, and_true]
    rw [adj_cons]
    refine ⟨fun b hb => lineRel_of_sig (by simp) (hr b hb).1 (hr b hb).2.1, h⟩

theorem eolRun_adj (ts : List Ranged) (hi : ∀ t ∈ ts, t.tok ≠ .indent) :
    (Adj LineRel ((eolRun .normal ts).map (·.tok)) ∧
      ∀ b, ((eolRun .normal ts).map (·.tok)).head? = some b → b ≠ .indent) ∧
    (Adj LineRel ((eolRun .skip ts).map (·.tok)) ∧
      ∀ b, ((eolRun .skip ts).map (·.tok)).head? = some b → b = .eol) ∧
    ∀ f : Ranged, f.tok.isEol = true → Adj LineRel ((eolRun (.run f) ts).map (·.tok)) ∧
      ∀ b, ((eolRun (.run f) ts).map (·.tok)).head? = some b → b = .eol := by
  induction ts with
  | nil =>
    refine ⟨by simp [eolRun, Adj], by simp [eolRun, Adj], ?_⟩
    intro f hf
    have := emitEol_adj f hf [] (by simp [Adj]) (by simp) [] rfl
    rw [eolRun]
    refine ⟨this.1, fun b hb => ?_⟩
    rw [this.2] at hb
    cases hb; rfl
  | cons t ts ih =>
    obtain ⟨ih1, ih2, ih3⟩ := ih (fun t ht => hi t (by simp [ht]))
    have hti := hi t (by simp)
    by_cases ht : t.tok.isEol = true
    · refine ⟨?_, ?_, ?_⟩
      · rw [eolRun, if_pos ht]
        refine ⟨(ih3 t ht).1, fun b hb => ?_⟩
        rw [(ih3 t ht).2 b hb]; simp
      · rw [eolRun, if_pos ht]
        exact ih3 t ht
      · intro f hf
        rw [eolRun, if_pos ht]
        exact ih3 _ ht
    · have hne : t.tok ≠ .eol := fun h => ht ((isEol_iff _).mpr (Or.inl h))
      have hcons : Adj LineRel ((t :: eolRun .normal ts).map (·.tok)) := by
        rw [List.map_cons, adj_cons]
        refine ⟨fun b hb => ?_, ih1.1⟩
        have := ih1.2 b hb
        exact ⟨fun h => absurd h hne, fun h => absurd h this, fun h => absurd h hti⟩
      refine ⟨?_, ?_, ?_⟩
      · rw [eolRun, if_neg ht]
        refine ⟨hcons, fun b hb => ?_⟩
        simp only [List.map_cons, List.head?_cons, Option.some.injEq] at hb
        subst hb; exact hti
      · rw [eolRun, if_neg ht]; exact ih2
      · intro f hf
        rw [eolRun, if_neg ht]
        split
        · exact ih2
        · rename_i hcol
          have := emitEol_adj f hf _ hcons (by
            intro b hb
            simp only [List.map_cons, List.head?_cons, Option.some.injEq] at hb
            subst hb
            exact ⟨hne, hti, fun h1 h2 => hcol ⟨h1, h2⟩⟩) (t :: eolRun .normal ts) rfl
          refine ⟨this.1, fun b hb => ?_⟩
          rw [this.2] at hb
          cases hb; rfl

theorem emitEol_noRaw (f : Ranged) (hf : f.tok.isEol = true) (rest : List Ranged)
    (h : ∀ t ∈ rest, t.tok ≠ .eolThenIndent ∧ t.tok ≠ .eolComment) :
    ∀ t ∈ emitEol f rest, t.tok ≠ .eolThenIndent ∧ t.tok ≠ .eolComment := by
  intro t ht
  unfold emitEol at ht
  rw [isEol_iff] at hf
  rcases hf with hf | hf | hf <;> simp [hf] at ht
  · rcases ht with rfl | ht
    · simp [hf]
    · exact h t ht
  · rcases ht with rfl | rfl | ht
    · simp
    · simp
    · exact h t ht
  · rcases ht with rfl | ht
    · simp
    · exact h t ht

theorem eolRun_noRaw (ts : List Ranged) (m : EMode) (hm : ∀ f, m = .run f → f.tok.isEol = true) :
    ∀ t ∈ eolRun m ts, t.tok ≠ .eolThenIndent ∧ t.tok ≠ .eolComment := by
  induction ts generalizing m with
  | nil =>
    cases m with
    | normal => simp [eolRun]
    | skip => simp [eolRun]
    | run f => rw [eolRun]; exact emitEol_noRaw f (hm f rfl) [] (by simp)
  | cons t ts ih =>
    have hcons : ¬ t.tok.isEol = true → ∀ x ∈ t :: eolRun .normal ts,
        x.tok ≠ .eolThenIndent ∧ x.tok ≠ .eolComment := by
      intro ht x hx
      rcases List.mem_cons.mp hx with rfl | hx
      · rw [isEol_iff] at ht
        exact ⟨fun h => ht (Or.inr (Or.inl h)), fun h => ht (Or.inr (Or.inr h))⟩
      · exact ih .normal (by simp) x hx
    cases m with
    | normal =>
      rw [eolRun]
      split
      · rename_i ht
        exact ih _ (by rintro f ⟨⟩; exact ht)
      · rename_i ht; exact hcons ht
    | skip =>
      rw [eolRun]
      split
      · rename_i ht
        exact ih _ (by rintro f ⟨⟩; exact ht)
      · exact ih _ (by simp)
    | run f =>
      rw [eolRun]
      split
      · rename_i ht
        exact ih _ (by rintro f ⟨⟩; exact ht)
      · rename_i ht
        split
        · exact ih _ (by simp)
        · exact emitEol_noRaw f (hm f rfl) _ (hcons ht)

end Lima
