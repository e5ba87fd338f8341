import Verif.Lemmas.Sources
import Verif.Lemmas.Maps

/-! What reading each file leaves behind. -/

namespace Lima

open Spec

section
variable {fs : FileSystem} {tokens : Str → List Ranged}

/-- The error recorded for a file which could not be read. -/
def readError (p : Path) (e : Str) : Str := p.render ++ str ": " ++ e

/-- What is recorded for each file read, and where recorded errors come from. -/
structure OInv (fs : FileSystem) (st : ReadState) : Prop where
  seen : ∀ p ∈ st.reads, ∃ c, fs.canonicalize p = some c ∧ c ∈ st.canonical
  outcome : ∀ p ∈ st.reads,
    (match fs.read p with
      | .ok text => ∃ id, AMap.get st.content p = some (.content id text (charIndices text))
      | .error e => AMap.get st.content p = some (.error (readError p e))) ∨
    ∃ m, GlobError fs p m ∧ AMap.get st.content p = some (.error m)
  errors : ∀ p m, AMap.get st.content p = some (.error m) →
    (∃ e, p ∈ st.reads ∧ fs.read p = .error e ∧ m = readError p e) ∨ GlobError fs p m

theorem OInv.globbed {st : ReadState} (inv : OInv fs st) (g : Globbed)
    (hg : ∀ p m, g = .error p m → GlobError fs p m) : OInv fs (readGlobbed fs tokens st g) := by
  unfold readGlobbed
  cases g with
  | error p e =>
    refine ⟨inv.seen, ?_, ?_⟩
    · intro q hq
      dsimp only
      rw [AMap.get_insert]
      by_cases h : p = q
      · subst h
        rw [if_pos rfl]
        exact .inr ⟨e, hg _ _ rfl, rfl⟩
      · rw [if_neg h]
        exact inv.outcome q hq
    · intro q m hm
      dsimp only at hm
      rw [AMap.get_insert] at hm
      by_cases h : p = q
      · subst h
        rw [if_pos rfl] at hm
        cases hm
        exact .inr (hg _ _ rfl)
      · rw [if_neg h] at hm
        exact inv.errors q m hm
  | path p =>
    dsimp only
    cases hc : fs.canonicalize p with
    | none => exact inv
    | some c =>
      dsimp only
      by_cases hmem : c ∈ st.canonical
      · rw [if_pos hmem]
        by_cases hh : AMap.has st.content p = true
        · rw [if_pos hh]; exact inv
        · rw [if_neg hh]
          refine ⟨inv.seen, ?_, ?_⟩
          · intro q hq
            dsimp only
            rw [AMap.get_insert]
            by_cases h : p = q
            · subst h
              exfalso
              refine hh ?_
              have : ∃ x, AMap.get st.content p = some x := by
                rcases inv.outcome p hq with h | ⟨m, _, h⟩
                · split at h
                  · exact ⟨_, h.choose_spec⟩
                  · exact ⟨_, h⟩
                · exact ⟨_, h⟩
              obtain ⟨x, hx⟩ := this
              rw [AMap.has_iff]
              exact ⟨_, AMap.mem_of_get hx, rfl⟩
            · rw [if_neg h]
              exact inv.outcome q hq
          · intro q m hm
            dsimp only at hm
            rw [AMap.get_insert] at hm
            by_cases h : p = q
            · subst h
              rw [if_pos rfl] at hm
              cases hm
            · rw [if_neg h] at hm
              exact inv.errors q m hm
      · rw [if_neg hmem]
        have hnot : p ∉ st.reads := by
          intro hp
          obtain ⟨c', h1, h2⟩ := inv.seen p hp
          rw [hc] at h1
          cases h1
          exact hmem h2
        have hseen : ∀ q ∈ st.reads ++ [p], ∃ c', fs.canonicalize q = some c' ∧ c' ∈ c :: st.canonical := by
          intro q hq
          rcases List.mem_append.mp hq with hq | hq
          · obtain ⟨c', h1, h2⟩ := inv.seen q hq
            exact ⟨c', h1, List.mem_cons_of_mem _ h2⟩
          · simp only [List.mem_singleton] at hq
            subst hq
            exact ⟨c, hc, List.mem_cons_self⟩
        cases hr : fs.read p with
        | error e =>
          refine ⟨hseen, ?_, ?_⟩
          · intro q hq
            dsimp only at hq ⊢
            rw [AMap.get_insert]
            by_cases h : p = q
            · subst h
              rw [if_pos rfl, hr]
              exact .inl rfl
            · rw [if_neg h]
              rcases List.mem_append.mp hq with hq | hq
              · exact inv.outcome q hq
              · simp only [List.mem_singleton] at hq
                exact (h hq.symm).elim
          · intro q m hm
            dsimp only at hm ⊢
            rw [AMap.get_insert] at hm
            by_cases h : p = q
            · subst h
              rw [if_pos rfl] at hm
              cases hm
              exact .inl ⟨e, by simp, hr, rfl⟩
            · rw [if_neg h] at hm
              rcases inv.errors q m hm with ⟨e, h1, h2⟩ | h1
              · exact .inl ⟨e, List.mem_append_left _ h1, h2⟩
              · exact .inr h1
        | ok text =>
          refine ⟨hseen, ?_, ?_⟩
          · intro q hq
            dsimp only at hq ⊢
            rw [AMap.get_insert]
            by_cases h : p = q
            · subst h
              rw [if_pos rfl, hr]
              exact .inl ⟨_, rfl⟩
            · rw [if_neg h]
              rcases List.mem_append.mp hq with hq | hq
              · exact inv.outcome q hq
              · simp only [List.mem_singleton] at hq
                exact (h hq.symm).elim
          · intro q m hm
            dsimp only at hm ⊢
            rw [AMap.get_insert] at hm
            by_cases h : p = q
            · subst h
              rw [if_pos rfl] at hm
              cases hm
            · rw [if_neg h] at hm
              rcases inv.errors q m hm with ⟨e, h1, h2⟩ | h1
              · exact .inl ⟨e, List.mem_append_left _ h1, h2⟩
              · exact .inr h1

theorem OInv.foldl {gs : List Globbed} (hg : ∀ p m, .error p m ∈ gs → GlobError fs p m) {st : ReadState}
    (inv : OInv fs st) : OInv fs (gs.foldl (readGlobbed fs tokens) st) := by
  induction gs generalizing st with
  | nil => exact inv
  | cons g gs ih =>
    exact ih (fun p m h => hg p m (List.mem_cons_of_mem _ h))
      (inv.globbed g (fun p m h => hg p m (h ▸ List.mem_cons_self)))

theorem OInv.step {st st' : ReadState} (inv : OInv fs st) (h : readStep fs tokens st = some st') : OInv fs st' := by
  unfold readStep at h
  split at h
  · cases h
  · rename_i included pending hp
    dsimp only at h
    split at h
    · cases h
      exact ⟨inv.seen, inv.outcome, inv.errors⟩
    · rename_i gs hgs
      cases h
      have := OInv.foldl (tokens := tokens) (gs := gs) (fun p m h => ⟨included, gs, hgs, h⟩)
        (st := { st with pending := pending }) ⟨inv.seen, inv.outcome, inv.errors⟩
      exact ⟨this.seen, this.outcome, this.errors⟩

theorem readLoop_outcome (rootPath : Option Path) (rootContent : Str) :
    OInv fs (readLoop fs tokens (readInit fs tokens rootPath rootContent)) := by
  obtain ⟨n, h, -⟩ := readLoop_reads (fs := fs) (tokens := tokens) (readInit fs tokens rootPath rootContent)
  have h0 : OInv fs (readInit fs tokens rootPath rootContent) :=
    ⟨by simp [readInit], by simp [readInit], by simp [readInit, AMap.get]⟩
  generalize readLoop fs tokens (readInit fs tokens rootPath rootContent) = s1 at h ⊢
  generalize readInit fs tokens rootPath rootContent = s0 at h h0
  induction h with
  | zero => exact h0
  | succ n s s' s'' h _ ih => exact ih (h0.step h)

end

end Lima
