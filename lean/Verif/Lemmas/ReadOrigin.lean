import Verif.Lemmas.ReadOutcome

/-! Why each file is read. -/

namespace Lima

open Spec

section
variable {fs : FileSystem} {tokens : Str → List Ranged} {rootPath : Option Path} {rootContent : Str}

/-- The pattern stands in the root, or in one of the files read. -/
def Named (fs : FileSystem) (tokens : Str → List Ranged) (rootPath : Option Path) (rootContent : Str)
    (reads : List Path) (q : Path) : Prop :=
  (∃ i ∈ getIncludes tokens rootContent, q = resolveIncludedPath rootPath (Path.ofStr i)) ∨
  ∃ r ∈ reads, ∃ text, fs.read r = .ok text ∧
    ∃ i ∈ getIncludes tokens text, q = resolveIncludedPath (some r) (Path.ofStr i)

theorem Named.mono {reads more : List Path} {q : Path} (h : Named fs tokens rootPath rootContent reads q) :
    Named fs tokens rootPath rootContent (reads ++ more) q := by
  rcases h with h | ⟨r, hr, h⟩
  · exact .inl h
  · exact .inr ⟨r, List.mem_append_left _ hr, h⟩

/-- Every file read was named by a pattern in the root, or in a file read before. -/
structure NInv (fs : FileSystem) (tokens : Str → List Ranged) (rootPath : Option Path) (rootContent : Str)
    (st : ReadState) : Prop where
  pending : ∀ q ∈ st.pending, Named fs tokens rootPath rootContent st.reads q
  reads : ∀ before p after, st.reads = before ++ p :: after →
    ∃ q gs, Named fs tokens rootPath rootContent before q ∧ fs.glob q = .ok gs ∧ Globbed.path p ∈ gs

theorem NInv.globbed {st : ReadState} (inv : NInv fs tokens rootPath rootContent st) {q : Path} {gs : List Globbed}
    (hq : Named fs tokens rootPath rootContent st.reads q) (hgs : fs.glob q = .ok gs) {g : Globbed} (hg : g ∈ gs) :
    NInv fs tokens rootPath rootContent (readGlobbed fs tokens st g) ∧
      Named fs tokens rootPath rootContent (readGlobbed fs tokens st g).reads q := by
  unfold readGlobbed
  cases g with
  | error p e => exact ⟨⟨inv.pending, inv.reads⟩, hq⟩
  | path p =>
    dsimp only
    cases hc : fs.canonicalize p with
    | none => exact ⟨inv, hq⟩
    | some c =>
      dsimp only
      by_cases hmem : c ∈ st.canonical
      · rw [if_pos hmem]
        split
        · exact ⟨inv, hq⟩
        · exact ⟨⟨inv.pending, inv.reads⟩, hq⟩
      · rw [if_neg hmem]
        have hreads : ∀ before x after, st.reads ++ [p] = before ++ x :: after →
            ∃ q gs, Named fs tokens rootPath rootContent before q ∧ fs.glob q = .ok gs ∧ Globbed.path x ∈ gs := by
          intro before x after h
          rcases List.eq_nil_or_concat after with rfl | ⟨after, y, rfl⟩
          · obtain ⟨h1, h2⟩ := List.append_inj' h rfl
            cases h2
            subst h1
            exact ⟨q, gs, hq, hgs, hg⟩
          · rw [List.concat_eq_append, ← List.cons_append, ← List.append_assoc] at h
            obtain ⟨h1, -⟩ := List.append_inj' h rfl
            exact inv.reads before x after h1
        cases hr : fs.read p with
        | error e => exact ⟨⟨fun q hq => (inv.pending q hq).mono, hreads⟩, hq.mono⟩
        | ok text =>
          refine ⟨⟨fun q hq => ?_, hreads⟩, hq.mono⟩
          rcases List.mem_append.mp hq with hq | hq
          · exact (inv.pending q hq).mono
          · obtain ⟨i, hi, rfl⟩ := List.mem_map.mp hq
            exact .inr ⟨p, by simp, text, hr, i, hi, rfl⟩

theorem NInv.foldl {q : Path} {all : List Globbed} (hgs : fs.glob q = .ok all) (gs : List Globbed)
    (hsub : ∀ g ∈ gs, g ∈ all) {st : ReadState} (inv : NInv fs tokens rootPath rootContent st)
    (hq : Named fs tokens rootPath rootContent st.reads q) :
    NInv fs tokens rootPath rootContent (gs.foldl (readGlobbed fs tokens) st) := by
  induction gs generalizing st with
  | nil => exact inv
  | cons g gs ih =>
    obtain ⟨h1, h2⟩ := inv.globbed hq hgs (hsub g List.mem_cons_self)
    exact ih (fun g hg => hsub g (List.mem_cons_of_mem _ hg)) h1 h2

theorem NInv.step {st st' : ReadState} (inv : NInv fs tokens rootPath rootContent st)
    (h : readStep fs tokens st = some st') : NInv fs tokens rootPath rootContent st' := by
  unfold readStep at h
  split at h
  · cases h
  · rename_i included pending hp
    have hq : Named fs tokens rootPath rootContent st.reads included := inv.pending _ (by rw [hp]; exact List.mem_cons_self)
    have hpend : ∀ q ∈ pending, Named fs tokens rootPath rootContent st.reads q :=
      fun q hq => inv.pending q (by rw [hp]; exact List.mem_cons_of_mem _ hq)
    dsimp only at h
    split at h
    · cases h
      exact ⟨hpend, inv.reads⟩
    · rename_i gs hgs
      cases h
      have := NInv.foldl (tokens := tokens) (rootPath := rootPath) (rootContent := rootContent) hgs gs (fun _ h => h)
        (st := { st with pending := pending }) ⟨hpend, inv.reads⟩ hq
      exact ⟨this.pending, this.reads⟩

/-- Every file read was named by a pattern in the root, or in a file read before. -/
theorem read_named : ∀ before p after, (readWithIncludes fs tokens rootPath rootContent).reads = before ++ p :: after →
    ∃ q gs, Named fs tokens rootPath rootContent before q ∧ fs.glob q = .ok gs ∧ Globbed.path p ∈ gs := by
  have : NInv fs tokens rootPath rootContent (readLoop fs tokens (readInit fs tokens rootPath rootContent)) := by
    obtain ⟨n, h, -⟩ := readLoop_reads (fs := fs) (tokens := tokens) (readInit fs tokens rootPath rootContent)
    have h0 : NInv fs tokens rootPath rootContent (readInit fs tokens rootPath rootContent) := by
      refine ⟨fun q hq => ?_, by simp [readInit]⟩
      obtain ⟨i, hi, rfl⟩ := List.mem_map.mp hq
      exact .inl ⟨i, hi, rfl⟩
    generalize readLoop fs tokens (readInit fs tokens rootPath rootContent) = s1 at h ⊢
    generalize readInit fs tokens rootPath rootContent = s0 at h h0
    induction h with
    | zero => exact h0
    | succ n s s' s'' h _ ih => exact ih (h0.step h)
  exact this.reads

end

end Lima
