import Verif.Lemmas.Passage
import Verif.Props.Lexer

/-! Where the dates of passages are, if one passage follows another. -/

set_option linter.unusedSectionVars false

namespace Lima.Surround
open Lima Spec

def isDate : Token → Bool
  | .date _ => true
  | _ => false

abbrev dates (F : List Ranged) : List Ranged := F.filter fun t => isDate t.tok

section
variable [Categories]

/-- A text in front of another. -/
inductive Upto (l : Logos) (s' : Str) (ts' : List Token) : Str → List Token → Prop
  | done : Apart l s' ts' → Upto l s' ts' [] []
  | blanks {b s : Str} {ts : List Token} : Blanks b → EndsBefore b (s ++ s') → Upto l s' ts' s ts → Upto l s' ts' (b ++ s) ts
  | word {w s : Str} {t : Token} {ts : List Token} : WordFor l w t → EndsBefore w (s ++ s') → Upto l s' ts' s ts → Upto l s' ts' (w ++ s) (t :: ts)

theorem upto {l : Logos} {s s' : Str} {a ts' : List Token} (h : Apart l s (a ++ [.eol])) (h' : Apart l s' ts')
    (h1 : NotBlank s') (h2 : NotIgnored s') : Upto l s' ts' s (a ++ [.eol]) := by
  generalize ht : a ++ [Token.eol] = ts at h
  induction h generalizing a with
  | done => exact absurd ht (by simp)
  | @blanks b s ts hb hn h ih =>
    refine .blanks hb (EndsBefore.app hn (fun e => ?_) s') (ih ht)
    subst e
    rw [apart_ne_nil h] at ht
    exact absurd ht (by simp)
  | @word w s t ts hw hn h ih =>
    cases a with
    | nil =>
      rw [List.nil_append, List.cons.injEq] at ht
      obtain ⟨rfl, rfl⟩ := ht
      by_cases hs : s = []
      · subst hs
        exact .word hw (endsBefore_line (lineEnding_of_word hw) h1 h2) (.done h')
      · have key : ∀ {s : Str} {ts : List Token}, Apart l s ts → ts = [] → s ≠ [] → ∃ b, s = b ∧ Blanks b := by
          intro s ts h
          induction h with
          | done => intro _ h; exact absurd rfl h
          | @blanks b s ts hb hn h ih =>
            intro e _
            by_cases hs : s = []
            · exact ⟨_, rfl, by simpa [hs] using hb⟩
            · obtain ⟨b', rfl, hb'⟩ := ih e hs
              refine ⟨_, rfl, by simp [hb.1], fun c hc => ?_⟩
              rcases List.mem_append.mp hc with hc | hc
              · exact hb.2 c hc
              · exact hb'.2 c hc
          | word _ _ _ _ => intro e; cases e
        obtain ⟨b, rfl, hb⟩ := key h rfl hs
        obtain ⟨c, b', rfl⟩ := List.exists_cons_of_ne_nil hs
        exact absurd (Lexeme.lineEndIndent (lineEnding_of_word hw) hb) (hn c b' rfl _ b')
    | cons x a =>
      rw [List.cons_append, List.cons.injEq] at ht
      obtain ⟨rfl, ht⟩ := ht
      refine .word hw (EndsBefore.app hn (fun e => ?_) s') (ih ht)
      subst e
      rw [apart_ne_nil h] at ht
      exact absurd ht (by simp)

theorem items_after (l : Logos) : ∀ (fuel pos : Nat) (s : Str) {items : List (RawItem Token)},
    lexItems l.token tokenPatterns (tokenCallback l) fuel pos s = some items → ∀ it ∈ items, pos ≤ it.start
  | 0, pos, s, items, h => by
    cases s <;> (rw [lexItems] at h; cases h; simp)
    simp
  | fuel + 1, pos, [], items, h => by
    rw [lexItems] at h; cases h; simp
  | fuel + 1, pos, c :: s, items, h => by
    rw [lexItems] at h
    · have rest : ∀ {n : Nat} {its : List (RawItem Token)}, lexItems l.token tokenPatterns (tokenCallback l) fuel (pos + byteLen ((c :: s).take n)) ((c :: s).drop n) = some its →
          ∀ it ∈ its, pos ≤ it.start := fun h it hm => Nat.le_trans (Nat.le_add_right _ _) (items_after l fuel _ _ h it hm)
      have more : ∀ {n : Nat} {x : RawItem Token} {its : List (RawItem Token)}, x.start = pos →
          (lexItems l.token tokenPatterns (tokenCallback l) fuel (pos + byteLen ((c :: s).take n)) ((c :: s).drop n)).map (x :: ·) = some its →
          ∀ it ∈ its, pos ≤ it.start := by
        intro n x its hx h it hm
        obtain ⟨y, hy, rfl⟩ := Option.map_eq_some_iff.mp h
        rcases List.mem_cons.mp hm with rfl | hm
        · omega
        · exact rest hy it hm
      split at h
      · exact more rfl h
      · dsimp only at h
        split at h
        · exact rest h
        · split at h
          · exact rest h
          · exact more rfl h
          · exact more rfl h
          · cases h
    · simp

theorem byteLen_append (a b : Str) : byteLen (a ++ b) = byteLen a + byteLen b := by
  unfold byteLen
  simp

/-- Items of a text in front of another. -/
theorem upto_items {l : Logos} {s s' : Str} {ts ts' : List Token} (h : Upto l s' ts' s ts) : ∀ pos fuel, (s ++ s').length ≤ fuel →
    ∃ A B, lexItems l.token tokenPatterns (tokenCallback l) fuel pos (s ++ s') = some (A ++ B) ∧ A.map (·.res) = ts.map .ok ∧
      B.map (·.res) = ts'.map .ok ∧ (∀ it ∈ A, it.start < pos + byteLen s) ∧ ∀ it ∈ B, pos + byteLen s ≤ it.start := by
  induction h with
  | done h =>
    intro pos fuel hf
    obtain ⟨items, h1, h2⟩ := lexes_written (Apart.written h) pos fuel hf
    exact ⟨[], items, h1, rfl, h2, by simp, by simpa [byteLen] using items_after l _ _ _ h1⟩
  | @blanks b s ts hb hn _ ih =>
    intro pos fuel hf
    rw [List.append_assoc] at hf ⊢
    have hk : ∀ k, Reads k b → tokenCallback l k b = none := by
      intro k hk
      obtain ⟨d, b, rfl⟩ := List.exists_cons_of_ne_nil hb.1
      have : k = .skip := by
        refine lexeme_kind (lexeme_iff.mpr hk) (.blanks hb) (fun t ht => fixed_odd ?_ ht)
        rcases hb.2 d (by simp) with rfl | rfl <;> decide
      rw [this]
      rfl
    obtain ⟨i, p, hi, hr, _, hx⟩ := stops_longest hb.1 (.skip hb.1 hb.2) (stops_of_ends (l := l) (.inl hn))
    have hlen : 0 < b.length := List.length_pos_iff.mpr hb.1
    rw [List.length_append] at hf
    obtain ⟨fuel, rfl⟩ : ∃ f, fuel = f + 1 := ⟨fuel - 1, by omega⟩
    obtain ⟨A, B, h1, h2, h3, h4, h5⟩ := ih (pos + byteLen b) fuel (by omega)
    rw [lexItems_step hb.1 hi hx, hk p.1 hr]
    rw [byteLen_append, ← Nat.add_assoc]
    exact ⟨A, B, h1, h2, h3, h4, h5⟩
  | @word w s t ts hw hn _ ih =>
    intro pos fuel hf
    rw [List.append_assoc] at hf ⊢
    obtain ⟨k, g1, g2, g3⟩ := hw
    have hne := lexeme_ne_nil g1
    obtain ⟨i, p, hi, hr, hlit, hx⟩ := stops_longest hne (lexeme_iff.mp g1) (stops_of_ends (l := l) (.inl hn))
    have hlen : 0 < w.length := List.length_pos_iff.mpr hne
    rw [List.length_append] at hf
    obtain ⟨fuel, rfl⟩ : ∃ f, fuel = f + 1 := ⟨fuel - 1, by omega⟩
    obtain ⟨A, B, h1, h2, h3, h4, h5⟩ := ih (pos + byteLen w) fuel (by omega)
    rw [lexItems_step hne hi hx, callback_of g1 g2 g3 hr hlit]
    rw [byteLen_append, ← Nat.add_assoc]
    refine ⟨⟨.ok t, pos, pos + byteLen w⟩ :: A, B, by simp only [h1, Option.map_some]; rfl, by simp [h2], h3, ?_, h5⟩
    intro it hm
    rcases List.mem_cons.mp hm with rfl | hm
    · have := byteLen_pos hne
      dsimp only
      omega
    · exact h4 it hm

end

/-! ### After the first stage -/

theorem recoveredAll_at (rlex : Str → List (RawItem RecoveryToken)) (s : Str) : ∀ (items : List (RawItem Token)) (raw : List Token),
    items.map (·.res) = raw.map .ok → ∃ R, recoveredAll rlex s items = some R ∧ R.map (·.tok) = raw ∧ R.map (·.start) = items.map (·.start)
  | [], raw, h => by
    cases raw with
    | nil => exact ⟨[], rfl, rfl, rfl⟩
    | cons => cases h
  | p :: ps, raw, h => by
    cases raw with
    | nil => cases h
    | cons t raw =>
      simp only [List.map_cons, List.cons.injEq] at h
      obtain ⟨R, h1, h2, h3⟩ := recoveredAll_at rlex s ps raw h.2
      refine ⟨⟨t, p.start, p.stop⟩ :: R, ?_, by simp [h2], by simp [h3]⟩
      simp [recoveredAll, recovered, h.1, h1]

theorem mapKeys_start (R : List Ranged) : (mapKeys R).map (·.start) = R.map (·.start) := by
  fun_induction mapKeys R with
  | case1 => rfl
  | case2 t => rfl
  | case3 t c ts ih =>
    rw [List.map_cons, List.map_cons, ih]
    congr 1
    split
    · split <;> rfl
    · rfl

/-- The significant tokens of two lists one after the other. -/
theorem significant_append : ∀ (a b : List Ranged) (m : LineMode), ∃ m', significant m (a ++ b) = significant m a ++ significant m' b
  | [], b, m => ⟨m, rfl⟩
  | t :: a, b, m => by
    rw [List.cons_append, significant, significant]
    split
    · exact significant_append a b _
    · split
      · obtain ⟨m', h⟩ := significant_append a b .inside
        exact ⟨m', by rw [h]; rfl⟩
      · exact significant_append a b _

theorem significant_mem : ∀ (a : List Ranged) (m : LineMode), ∀ t ∈ significant m a, t ∈ a
  | [], m, t, h => by cases h
  | x :: a, m, t, h => by
    rw [significant] at h
    split at h
    · exact List.mem_cons_of_mem _ (significant_mem a _ t h)
    · split at h
      · rcases List.mem_cons.mp h with rfl | h
        · simp
        · exact List.mem_cons_of_mem _ (significant_mem a _ t h)
      · exact List.mem_cons_of_mem _ (significant_mem a _ t h)

theorem significant_tok : ∀ (a b : List Ranged) (m : LineMode), a.map (·.tok) = b.map (·.tok) →
    (significant m a).map (·.tok) = (significant m b).map (·.tok)
  | [], [], m, _ => rfl
  | [], _ :: _, _, h => by cases h
  | _ :: _, [], _, h => by cases h
  | x :: a, y :: b, m, h => by
    simp only [List.map_cons, List.cons.injEq] at h
    rw [significant, significant, h.1]
    split
    · exact significant_tok a b _ h.2
    · split
      · rw [List.map_cons, List.map_cons, h.1, significant_tok a b _ h.2]
      · exact significant_tok a b _ h.2

theorem dates_length (a b : List Ranged) (h : a.map (·.tok) = b.map (·.tok)) : (dates a).length = (dates b).length := by
  have key : ∀ l : List Ranged, (dates l).length = ((l.map (·.tok)).filter isDate).length := by
    intro l
    rw [List.filter_map, List.length_map]
    rfl
  rw [key, key, h]

theorem dates_significant (F : List Ranged) : dates (F.filter (fun t => decide (t.tok ≠ .eol ∧ t.tok ≠ .indent))) = dates F := by
  unfold dates
  rw [List.filter_filter]
  congr 1
  funext t
  cases h : t.tok <;> simp [isDate]

section
variable [Categories]

theorem lexText_eq {l : Logos} {s : Str} {raw : List Token} {items : List (RawItem Token)} (hi : tokenItems l s = some items)
    (hres : items.map (·.res) = raw.map .ok) : ∃ R, R.map (·.tok) = raw ∧ R.map (·.start) = items.map (·.start) ∧
      lexText l s = some (handleEolIndent (mapKeys R) (some (byteLen s, byteLen s))) := by
  have hcalm : recoveryPanics l s items = false := by
    apply List.any_eq_false.mpr
    intro it hit
    have : it.res ∈ raw.map Except.ok := by rw [← hres]; exact List.mem_map_of_mem hit
    obtain ⟨t, _, ht⟩ := List.mem_map.mp this
    simp [← ht]
  obtain ⟨R, hR, htok, hst⟩ := recoveredAll_at (recoveryList l) s items raw hres
  refine ⟨R, htok, hst, ?_⟩
  unfold lexText
  simp only [hi, hcalm]
  unfold lex lexWithFinalEol attemptRecovery
  rw [recovery_collect]
  simp [pendingRecovery, hR, keywordThenColonToKey_eq]

theorem mapKeys_noIndent {R : List Ranged} {raw : List Token} (h : R.map (·.tok) = raw) (hn : ∀ t ∈ raw, t ≠ .indent) :
    ∀ t ∈ mapKeys R, t.tok ≠ .indent := by
  intro t ht
  have := keysOf_noIndent hn t.tok
  rw [← h, ← mapKeys_tok] at this
  exact this (List.mem_map_of_mem ht)

/-- The dates of a passage are before what follows it. -/
theorem passage_region {l : Logos} {s s' : Str} (h : Passage l s) (h' : Passage l s') {a F : List Ranged} (ha : lexText l s = some a)
    (hF : lexText l (s ++ s') = some F) :
    (∀ t ∈ F.take a.length, isDate t.tok = true → t.start < byteLen s) ∧ (∀ t ∈ F.drop a.length, isDate t.tok = true → byteLen s ≤ t.start) := by
  have hp := h
  have hp' := h'
  obtain ⟨⟨ts, h1, h2, h3⟩, h4, h5⟩ := h
  obtain ⟨⟨ts', h1', h2', h3'⟩, h4', h5'⟩ := h'
  rcases h2 with rfl | ⟨x, rfl⟩
  · have : a = [] := by
      obtain ⟨toks, e1, e2⟩ := lexText_of_lexes (lexes_written (Apart.written h1))
      rw [e1] at ha
      cases ha
      exact List.map_eq_nil_iff.mp e2
    subst this
    have : s = [] := by
      cases h1 with
      | done => rfl
      | @blanks b s ts hb _ _ =>
        obtain ⟨c, b', rfl⟩ := List.exists_cons_of_ne_nil hb.1
        have := hb.2 c (by simp)
        have h2 := h4 c (b' ++ s) rfl
        rcases this with rfl | rfl
        · exact absurd rfl h2.1
        · exact absurd rfl h2.2
    subst this
    exact ⟨by simp, by simp [byteLen]⟩
  · obtain ⟨A, B, i1, i2, i3, i4, i5⟩ := upto_items (upto h1 h1' h4' h5') 0 (s ++ s').length (Nat.le_refl _)
    obtain ⟨R, r1, r2, r3⟩ := lexText_eq (raw := (x ++ [.eol]) ++ ts') i1 (by rw [List.map_append, List.map_append, i2, i3])
    obtain ⟨A', j1, j2⟩ := lexes_written (Apart.written h1) 0 s.length (Nat.le_refl _)
    obtain ⟨Q, q1, q2, q3⟩ := lexText_eq j1 j2
    rw [hF] at r3
    rw [ha] at q3
    injection r3 with r3
    injection q3 with q3
    have ni := Apart.noIndent h1
    have ni' := Apart.noIndent h1'
    -- the split of the tokens
    have k1 : (mapKeys R).map (·.tok) = keysOf (x ++ [.eol]) ++ keysOf ts' := by
      rw [mapKeys_tok, r1, List.append_assoc, List.singleton_append, keysOf_line _ _ rfl, keysOf_line _ _ rfl]
      simp [keysOf]
    obtain ⟨KA, KB, k2, k3, k4⟩ := List.map_eq_append_iff.mp k1
    have kq : (mapKeys Q).map (·.tok) = keysOf (x ++ [.eol]) := by rw [mapKeys_tok, q1]
    have klen : KA.length = A.length := by
      have e1 : KA.length = (keysOf (x ++ [.eol])).length := by rw [← k3, List.length_map]
      have e2 : (keysOf (x ++ [.eol])).length = (x ++ [Token.eol]).length := by
        rw [← kq, List.length_map, mapKeys_length, ← q1, List.length_map]
      have e3 : A.length = (x ++ [Token.eol]).length := by
        have := congrArg List.length i2
        simpa using this
      omega
    have kst : KA.map (·.start) ++ KB.map (·.start) = A.map (·.start) ++ B.map (·.start) := by
      rw [← List.map_append, ← k2, mapKeys_start, r2, List.map_append]
    obtain ⟨s1, s2⟩ := List.append_inj kst (by rw [List.length_map, List.length_map, klen])
    have lowA : ∀ t ∈ KA, t.start < byteLen s := by
      intro t ht
      have : t.start ∈ A.map (·.start) := by rw [← s1]; exact List.mem_map_of_mem ht
      obtain ⟨it, hit, he⟩ := List.mem_map.mp this
      have := i4 it hit
      omega
    have highB : ∀ t ∈ KB, byteLen s ≤ t.start := by
      intro t ht
      have : t.start ∈ B.map (·.start) := by rw [← s2]; exact List.mem_map_of_mem ht
      obtain ⟨it, hit, he⟩ := List.mem_map.mp this
      have := i5 it hit
      omega
    -- the dates
    obtain ⟨m', hm⟩ := significant_append KA KB .fileStart
    have dF : dates F = dates (significant .fileStart KA) ++ dates (significant m' KB) := by
      rw [← dates_significant F, r3, Props.C25_significant_tokens _ (mapKeys_noIndent r1 ?_), k2, hm]
      · exact List.filter_append ..
      · intro t ht
        rcases List.mem_append.mp ht with ht | ht
        · exact ni t ht
        · exact ni' t ht
    have da : dates a = dates (significant .fileStart (mapKeys Q)) := by
      rw [← dates_significant a, q3, Props.C25_significant_tokens _ (mapKeys_noIndent q1 ni)]
    -- the tokens of both, one after the other
    obtain ⟨b, hb, _⟩ := passage_lex hp'
    obtain ⟨c, hc, hsame⟩ := passage_tokens hp hp' ha hb
    rw [hF] at hc
    cases hc
    have hlen : a.length ≤ F.length := by
      have := congrArg List.length hsame
      simp at this
      omega
    have htake : (F.take a.length).map (·.tok) = a.map (·.tok) := by
      have := congrArg (List.take a.length) hsame
      rw [← List.map_take, ← List.map_take, List.take_left] at this
      exact this
    have dsplit : dates (F.take a.length) ++ dates (F.drop a.length) = dates (significant .fileStart KA) ++ dates (significant m' KB) := by
      rw [← dF, ← List.filter_append, List.take_append_drop]
    obtain ⟨d1, d2⟩ := List.append_inj dsplit (by
      rw [dates_length _ _ htake, da]
      exact dates_length _ _ (significant_tok _ _ _ (kq.trans k3.symm)))
    constructor
    · intro t ht hd
      have : t ∈ dates (F.take a.length) := List.mem_filter.mpr ⟨ht, hd⟩
      rw [d1] at this
      exact lowA t (significant_mem _ _ t (List.mem_filter.mp this).1)
    · intro t ht hd
      have : t ∈ dates (F.drop a.length) := List.mem_filter.mpr ⟨ht, hd⟩
      rw [d2] at this
      exact highB t (significant_mem _ _ t (List.mem_filter.mp this).1)

end

end Lima.Surround
