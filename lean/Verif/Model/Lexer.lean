import Verif.Model.Token
import Verif.Model.Text

/-!
# The lexer's iterator adaptors, `/repo/src/lexer.rs:300-670`

An iterator is the list of the items it has still to yield; all of them stay exhausted once exhausted.
-/

namespace Lima

/-! ### `RecoveryAttempter` -/

/-- An item of a Logos lexer with its range: `RangedTokenOrError`, `/repo/src/lexer.rs:260`. -/
structure RawItem (τ : Type) where
  res : Except LexerError τ
  start : Nat
  stop : Nat

/-- `RecoveryAttempter`, `/repo/src/lexer.rs:336-340`.  `rlex` is the Logos lexer generated for
`RecoveryToken`. -/
structure Recovery where
  primary : List (RawItem Token)
  recovery : Option (List (RawItem RecoveryToken) × Nat)

/-- `next_recovery_item` and `next_primary_item`, `/repo/src/lexer.rs:358-393`, merged because they call each
other.  `none` is the panic of slicing the source; otherwise the item, if any, and the new state. -/
def Recovery.next (rlex : Str → List (RawItem RecoveryToken)) (source : Str) (primary : List (RawItem Token))
    (recovery : Option (List (RawItem RecoveryToken) × Nat)) : Option (Option (Ranged × Recovery)) :=
  match recovery with
  | some (i :: is, o) =>
    let tok := match i.res with
      | .ok t => t.toToken
      | .error e => .error e
    some (some (⟨tok, i.start + o, i.stop + o⟩, ⟨primary, some (is, o)⟩))
  | some ([], _) | none =>
    match primary with
    | [] => some none
    | p :: ps =>
      match p.res with
      | .ok t => some (some (⟨t, p.start, p.stop⟩, ⟨ps, none⟩))
      | .error _ =>
        match slice source p.start p.stop with
        | none => none
        | some failed => Recovery.next rlex source ps (some (rlex failed, p.start))
termination_by primary.length

/-- What is left to yield shrinks with every item; used for termination of `collect`. -/
def Recovery.rank (rlex : Str → List (RawItem RecoveryToken)) (source : Str) (r : Recovery) : Nat :=
  (match r.recovery with | some (is, _) => is.length | none => 0) +
  (r.primary.map (fun p => match p.res with
    | .ok _ => 1
    | .error _ => match slice source p.start p.stop with
      | none => 0
      | some failed => (rlex failed).length)).sum

theorem Recovery.next_rank (rlex : Str → List (RawItem RecoveryToken)) (source : Str)
    (primary : List (RawItem Token)) (recovery : Option (List (RawItem RecoveryToken) × Nat))
    (x : Ranged) (r' : Recovery) (h : Recovery.next rlex source primary recovery = some (some (x, r'))) :
    r'.rank rlex source < Recovery.rank rlex source ⟨primary, recovery⟩ := by
  fun_induction Recovery.next rlex source primary recovery <;> simp_all [Recovery.rank]
  · obtain ⟨_, rfl⟩ := h; simp
  · obtain ⟨_, rfl⟩ := h; simp
  · obtain ⟨_, rfl⟩ := h; simp

/-- Run `RecoveryAttempter` to exhaustion; `none` is a panic. -/
def Recovery.collect (rlex : Str → List (RawItem RecoveryToken)) (source : Str) (r : Recovery) :
    Option (List Ranged) :=
  match h : Recovery.next rlex source r.primary r.recovery with
  | none => none
  | some none => some []
  | some (some (x, r')) => (Recovery.collect rlex source r').map (x :: ·)
termination_by r.rank rlex source
decreasing_by exact Recovery.next_rank rlex source r.primary r.recovery x r' h

/-- `attempt_recovery`, `/repo/src/lexer.rs:343-350, 406-412`. -/
def attemptRecovery (rlex : Str → List (RawItem RecoveryToken)) (source : Str)
    (items : List (RawItem Token)) : Option (List Ranged) :=
  Recovery.collect rlex source ⟨items, none⟩

/-! ### `KeywordThenColonToKey` -/

/-- `potential_key`, `/repo/src/lexer.rs:430-454`. -/
def potentialKey : Token → Option Str
  | .txn => some (str "txn")
  | .balance => some (str "balance")
  | .open => some (str "open")
  | .close => some (str "close")
  | .commodity => some (str "commodity")
  | .pad => some (str "pad")
  | .event => some (str "event")
  | .query => some (str "query")
  | .custom => some (str "custom")
  | .price => some (str "price")
  | .note => some (str "note")
  | .document => some (str "document")
  | .pushtag => some (str "pushtag")
  | .poptag => some (str "poptag")
  | .pushmeta => some (str "pushmeta")
  | .popmeta => some (str "popmeta")
  | .option => some (str "option")
  | .options => some (str "options")
  | .plugin => some (str "plugin")
  | .include => some (str "include")
  | _ => none

/-- `KeywordThenColonToKey`, `/repo/src/lexer.rs:416-419`. -/
structure KeyState where
  iter : List Ranged
  pending : Option (Ranged × Option Str)

/-- The first part of `next`: fill `pending`, `/repo/src/lexer.rs:464-469`. -/
def KeyState.fill (s : KeyState) : KeyState :=
  match s.pending with
  | some _ => s
  | none =>
    match s.iter with
    | [] => s
    | t :: ts => ⟨ts, some (t, potentialKey t.tok)⟩

/-- `next`, `/repo/src/lexer.rs:463-487`. -/
def KeyState.next (s : KeyState) : Option (Ranged × KeyState) :=
  let s := s.fill
  match s.pending with
  | some (p, some k) =>
    match s.iter with
    | [] => some (p, ⟨[], none⟩)
    | t :: ts =>
      if t.tok = .colon then some (⟨.key k, p.start, p.stop⟩, ⟨ts, some (t, none)⟩)
      else some (p, ⟨ts, some (t, potentialKey t.tok)⟩)
  | some (p, none) => some (p, ⟨s.iter, none⟩)
  | none => none

def KeyState.rank (s : KeyState) : Nat := s.iter.length + if s.pending.isSome then 1 else 0

theorem KeyState.fill_rank (s : KeyState) : s.fill.rank = s.rank := by
  unfold KeyState.fill
  split
  · rfl
  · split <;> simp_all [KeyState.rank]

theorem KeyState.next_rank (s : KeyState) (x : Ranged) (s' : KeyState) (h : s.next = some (x, s')) :
    s'.rank < s.rank := by
  rw [← KeyState.fill_rank s]
  unfold KeyState.next at h
  generalize s.fill = u at h
  rcases u with ⟨iter, pending⟩
  simp only at h
  split at h
  · split at h
    · cases h; simp [KeyState.rank]
    · split at h <;> cases h <;> simp [KeyState.rank]
  · cases h; simp [KeyState.rank]
  · cases h

/-- Run the adaptor to exhaustion. -/
def KeyState.collect (s : KeyState) : List Ranged :=
  match h : s.next with
  | none => []
  | some (x, s') => x :: s'.collect
termination_by s.rank
decreasing_by exact s.next_rank x s' h

/-- `keyword_then_colon_to_key`, `/repo/src/lexer.rs:421-427, 490-495`. -/
def keywordThenColonToKey (ts : List Ranged) : List Ranged := KeyState.collect ⟨ts, none⟩

/-! ### `EolIndentHandler` -/

/-- `EolIndentHandler`, `/repo/src/lexer.rs:505-512`; `pending` is `(pend0, pend1)`. -/
structure EolState where
  iter : List Ranged
  firstTok : Option Ranged
  pend0 : Option Ranged
  pend1 : Option Ranged
  finalEol : Option (Nat × Nat)
  previousWasEol : Bool
  any : Bool

/-- The loop of `new`, `/repo/src/lexer.rs:522-536`; the argument is `first_tok` followed by `iter`.
The inner loops are `dropWhile`. -/
def dropInitial (l : List Ranged) : List Ranged :=
  match h : l.dropWhile (·.tok.isEol) with
  | [] => []
  | t :: ts =>
    if t.tok = .colon then dropInitial (ts.dropWhile (fun t => !t.tok.isEol)) else t :: ts
termination_by l.length
decreasing_by
  have h1 : (l.dropWhile (·.tok.isEol)).length ≤ l.length := (List.dropWhile_sublist _).length_le
  have h2 : (ts.dropWhile (fun t => !t.tok.isEol)).length ≤ ts.length := (List.dropWhile_sublist _).length_le
  rw [h] at h1
  simp only [List.length_cons] at h1
  omega

/-- `new`, `/repo/src/lexer.rs:518-546`. -/
def EolState.new (iter : List Ranged) (finalEol : Option (Nat × Nat)) : EolState :=
  let l := dropInitial (⟨.eol, 0, 0⟩ :: iter)
  { iter := l.tail, firstTok := l.head?, pend0 := none, pend1 := none, finalEol, previousWasEol := false,
    any := false }

/-- `skip_to_end_of_line`, `/repo/src/lexer.rs:548-555`: the token found, if any, and the rest. -/
def skipToEol : List Ranged → Option Ranged × List Ranged
  | [] => (none, [])
  | t :: ts => if t.tok.isEol then (some t, ts) else skipToEol ts

/-- `get_second_tok_if_required`, `/repo/src/lexer.rs:557-567`. -/
def secondTok (first : Option Ranged) (iter : List Ranged) : Option Ranged × List Ranged :=
  match first with
  | some f => if f.tok.isEol then (iter.head?, iter.tail) else (none, iter)
  | none => (none, iter)

theorem skipToEol_length (l : List Ranged) :
    (skipToEol l).2.length ≤ l.length ∧ ((skipToEol l).1.isSome → (skipToEol l).2.length < l.length) := by
  induction l with
  | nil => simp [skipToEol]
  | cons t ts ih =>
    unfold skipToEol
    split
    · simp
    · constructor
      · simp; omega
      · intro h; simp; have := ih.2 h; omega

theorem secondTok_length (first : Option Ranged) (l : List Ranged) :
    (secondTok first l).2.length + (if (secondTok first l).1.isSome then 1 else 0) ≤ l.length := by
  unfold secondTok
  cases first with
  | none => simp
  | some f =>
    simp only
    split
    · cases l <;> simp
    · simp

/-- The loop of `merge`, `/repo/src/lexer.rs:573-593`. -/
def mergeLoop (first second : Option Ranged) (iter : List Ranged) :
    Option Ranged × Option Ranged × List Ranged :=
  match first, second with
  | some f, some s =>
    if f.tok.isEol && s.tok.isEol then
      let stop := if s.tok = .eolComment then s.start else s.stop
      mergeLoop (some ⟨s.tok, f.start, stop⟩) iter.head? iter.tail
    else if decide (f.tok = .eolThenIndent) && decide (s.tok = .colon) then
      let r := skipToEol iter
      let q := secondTok r.1 r.2
      mergeLoop r.1 q.1 q.2
    else (first, second, iter)
  | _, _ => (first, second, iter)
termination_by iter.length + (if second.isSome then 1 else 0)
decreasing_by
  · cases iter <;> simp
  · have h1 := (skipToEol_length iter).1
    have h2 := secondTok_length (skipToEol iter).1 (skipToEol iter).2
    simp only [Option.isSome_some, if_true]
    omega

/-- `merge`, `/repo/src/lexer.rs:569-606`. -/
def EolState.merge (st : EolState) : Option Ranged × EolState :=
  let first := st.iter.head?
  let q := secondTok first st.iter.tail
  match mergeLoop first q.1 q.2 with
  | (some t, second, iter) =>
    if t.tok = .eolThenIndent then
      (some ⟨.eol, t.start, t.stop⟩,
        { st with iter, pend0 := some ⟨.indent, t.stop - 1, t.stop⟩, pend1 := second })
    else (some t, { st with iter, pend0 := second, pend1 := none })
  | (none, _, iter) => (none, { st with iter })

/-- `next_merged`, `/repo/src/lexer.rs:608-616`. -/
def EolState.nextMerged (st : EolState) : Option Ranged × EolState :=
  match st.pend0 with
  | some f => (some f, { st with pend0 := st.pend1, pend1 := none })
  | none => { st with pend1 := none }.merge

/-- The choice of the next token in `next`, `/repo/src/lexer.rs:626-630`. -/
def EolState.pick (st : EolState) : Option Ranged × EolState :=
  match st.firstTok with
  | some t => (some t, { st with firstTok := none })
  | none => st.nextMerged

/-- `next`, `/repo/src/lexer.rs:625-659`. -/
def EolState.next (st : EolState) : Option Ranged × EolState :=
  match st.pick with
  | (none, st) =>
    match st.finalEol with
    | some (a, b) =>
      if !st.previousWasEol then
        let st' := { st with previousWasEol := true }
        if st.any then (some ⟨.eol, a, b⟩, st') else (none, st')
      else (none, st)
    | none => (none, st)
  | (some item, st) =>
    let item := if item.tok = .eolComment then ⟨.eol, item.start, item.start⟩ else item
    let prev := if item.tok = .eol then true else st.previousWasEol
    (some item, { st with previousWasEol := prev, any := true })

/-- What is left to yield shrinks with every item; used for termination of `collect`. -/
def EolState.rank (st : EolState) : Nat :=
  3 * st.iter.length + st.firstTok.toList.length + st.pend0.toList.length + st.pend1.toList.length +
    if st.previousWasEol then 0 else 1

theorem mergeLoop_length (first second : Option Ranged) (iter : List Ranged) :
    (mergeLoop first second iter).2.2.length + (mergeLoop first second iter).2.1.toList.length
      ≤ iter.length + second.toList.length := by
  fun_induction mergeLoop first second iter with
  | case1 iter f s h1 stop ih =>
    refine Nat.le_trans ih ?_
    cases iter <;> simp
  | case2 iter f s h1 h2 r q ih =>
    refine Nat.le_trans ih ?_
    have e1 := (skipToEol_length iter).1
    have e2 := secondTok_length r.1 r.2
    change r.2.length ≤ _ at e1
    change q.2.length + (if q.1.isSome = true then 1 else 0) ≤ _ at e2
    have e3 : q.1.toList.length = if q.1.isSome = true then 1 else 0 := by cases q.1 <;> simp
    simp only [Option.toList_some, List.length_cons, List.length_nil]
    omega
  | case3 => simp
  | case4 => simp

theorem EolState.next_rank (st : EolState) (x : Ranged) (st' : EolState) (h : st.next = (some x, st')) :
    st'.rank < st.rank := by
  have hpick : ∀ o st1, st.pick = (o, st1) → st1.previousWasEol = st.previousWasEol ∧
      st1.rank ≤ st.rank ∧ (o.isSome → st1.rank < st.rank) := by
    intro o st1 h1
    unfold EolState.pick at h1
    split at h1
    · rename_i t ht
      cases h1
      simp [EolState.rank, ht]
    · rename_i ht
      unfold EolState.nextMerged at h1
      split at h1
      · rename_i f hf
        cases h1
        simp [EolState.rank, ht, hf]
      · rename_i hf
        unfold EolState.merge at h1
        simp only at h1
        have hm := mergeLoop_length st.iter.head? (secondTok st.iter.head? st.iter.tail).1
          (secondTok st.iter.head? st.iter.tail).2
        have hs := secondTok_length st.iter.head? st.iter.tail
        have e3 : (secondTok st.iter.head? st.iter.tail).1.toList.length =
          if (secondTok st.iter.head? st.iter.tail).1.isSome = true then 1 else 0 := by
            cases (secondTok st.iter.head? st.iter.tail).1 <;> simp
        have ht' : st.iter.tail.length ≤ st.iter.length := by simp
        have hne : st.iter = [] → mergeLoop st.iter.head? (secondTok st.iter.head? st.iter.tail).1
          (secondTok st.iter.head? st.iter.tail).2 = (none, none, []) := by
          intro e; rw [e]; simp [secondTok, mergeLoop]
        have hlt : st.iter ≠ [] → st.iter.tail.length < st.iter.length := by
          cases st.iter <;> simp
        by_cases hi : st.iter = []
        · rw [hne hi] at h1
          cases h1
          simp [EolState.rank, hi, ht, hf]
        · have hlt := hlt hi
          split at h1
          · rename_i t second iter heq
            rw [heq] at hm
            simp only at hm
            split at h1
            · cases h1
              simp only [EolState.rank, ht, hf, Option.toList_some, Option.toList_none, List.length_cons,
                List.length_nil, true_and]
              have : second.toList.length ≤ 1 := by cases second <;> simp
              exact ⟨by omega, fun _ => by omega⟩
            · cases h1
              simp only [EolState.rank, ht, hf, Option.toList_none,
                List.length_nil, true_and]
              have : second.toList.length ≤ 1 := by cases second <;> simp
              exact ⟨by omega, fun _ => by omega⟩
          · rename_i second iter heq
            rw [heq] at hm
            simp only at hm
            cases h1
            simp only [EolState.rank, ht, hf, Option.toList_none,
              List.length_nil, true_and, Option.isSome_none, Bool.false_eq_true, false_imp_iff, and_true]
            omega
  unfold EolState.next at h
  cases hp : st.pick with
  | mk o st1 =>
    rw [hp] at h
    have ⟨h1, h2, h3⟩ := hpick o st1 hp
    cases o with
    | none =>
      simp only at h
      split at h
      · split at h
        · rename_i hprev
          split at h
          · cases h
            have : st1.rank = 1 + EolState.rank { st1 with previousWasEol := true } := by
              simp [EolState.rank]
              simp at hprev
              rw [hprev]; simp; omega
            omega
          · cases h
        · cases h
      · cases h
    | some item =>
      have h3 := h3 rfl
      simp only at h
      cases h
      refine Nat.lt_of_le_of_lt ?_ h3
      simp only [EolState.rank]
      generalize (if item.tok = Token.eolComment then _ else item : Ranged) = it
      cases st1.previousWasEol <;> by_cases hq : it.tok = Token.eol <;> simp [hq]

/-- Run the adaptor to exhaustion. -/
def EolState.collect (st : EolState) : List Ranged :=
  match h : st.next with
  | (none, _) => []
  | (some x, st') => x :: st'.collect
termination_by st.rank
decreasing_by exact st.next_rank x st' h

/-- `handle_eol_indent`, `/repo/src/lexer.rs:662-668`. -/
def handleEolIndent (ts : List Ranged) (finalEol : Option (Nat × Nat)) : List Ranged :=
  (EolState.new ts finalEol).collect

/-- `lex_with_final_eol`, `/repo/src/lexer.rs:316-324`, from the items of the Logos lexers; `none` is a
panic. -/
def lexWithFinalEol (rlex : Str → List (RawItem RecoveryToken)) (source : Str)
    (items : List (RawItem Token)) (finalEol : Option (Nat × Nat)) : Option (List Ranged) :=
  (attemptRecovery rlex source items).map
    (fun ts => handleEolIndent (keywordThenColonToKey ts) finalEol)

/-- `lex`, `/repo/src/lexer.rs:304-307`, from the items of the Logos lexers. -/
def lex (rlex : Str → List (RawItem RecoveryToken)) (source : Str) (items : List (RawItem Token)) :
    Option (List Ranged) :=
  lexWithFinalEol rlex source items (some (byteLen source, byteLen source))

end Lima
