import Verif.Lemmas.CutsComplete
import Verif.Lemmas.LexTokens
import Verif.Spec.Panics

/-! On which texts lexing panics. -/

set_option linter.unusedSectionVars false

namespace Lima
open Spec

section
variable [Categories]

theorem ascii_of_isAscii {c : Char} (h : isAscii c = true) : Ascii c := by
  have : c.toNat < 128 := by simpa [isAscii] using h
  exact this

/-- Only dates and times make a callback panic. -/
theorem tokenCallback_panic {l : Logos} {p : Kind × Re} {w : Str} (hp : p ∈ tokenPatterns) (hm : Matches p.2 w)
    (h : tokenCallback l p.1 w = some .panic) : (p.1 = .date ∨ p.1 = .time) ∧ ∃ c ∈ w, ¬ Ascii c := by
  by_contra hn
  refine tokenCallback_calm hp hm (fun hk c hc _ => ?_) h
  by_contra ha
  exact hn ⟨hk, c, hc, fun h => ha (by have : c.toNat < 128 := h; simpa [isAscii] using this)⟩

theorem recoveryItems_panic {l : Logos} {s : Str} (h : recoveryItems l s = none) :
    ∃ pre d post, s = pre ++ d ++ post ∧ Lexeme .date d ∧ ForeignDate d := by
  by_contra hn
  have : ∃ items, recoveryItems l s = some items := by
    apply lexItems_calm recoveryPatterns_inhabited
    intro p hp pre w post e hm
    refine recoveryCallback_calm hp hm (fun hk c hc _ => ?_)
    by_contra ha
    have hd : Lexeme .date w := by
      rw [← matches_dateLexeme]
      simp only [recoveryPatterns, List.mem_cons, List.not_mem_nil, or_false] at hp
      rcases hp with rfl | rfl | rfl | rfl | rfl <;> first | exact hm | cases hk
    exact hn ⟨pre, w, post, e, hd, .inl hd, c, hc, fun h => ha (by have : c.toNat < 128 := h; simpa [isAscii] using this)⟩
  obtain ⟨_, hi⟩ := this
  rw [h] at hi
  cases hi

/-- Where the engine gives up it is unsure. -/
theorem unsure_of_failed {e : Engine} {s : Str} {n : Nat} (hs : s ≠ [])
    (h : e.next (tokenPatterns.map (·.2)) s = .failed n) : Unsure s := by
  intro v k hL
  obtain ⟨rest, hr⟩ := hL.atStart
  subst hr
  obtain ⟨i, p, hm, hi⟩ := longest_match_of_lexeme hL
  obtain ⟨_, h1, q, hq, more, hmq⟩ := (next_failed tokenPatterns_inhabited hs h).2.2 i _ hm
  cases rest with
  | nil => simp at h1
  | cons c rest =>
    obtain ⟨q, hq', rfl⟩ := List.mem_map.mp hq
    rw [List.take_length_add_append] at hmq
    exact ⟨c, rest, more, q.1, rfl, lexeme_iff.mpr ((reads_iff _ _).mpr ⟨q, hq', rfl, by simpa using hmq⟩)⟩

theorem take_ne_nil {s : Str} {n : Nat} (h0 : 0 < n) (hn : n ≤ s.length) : s.take n ≠ [] := by
  intro e
  rcases List.take_eq_nil_iff.mp e with e | e
  · omega
  · rw [e] at hn; simp at hn; omega

theorem longest_split {s : Str} {n i : Nat} {p : Kind × Re} (h : LongestMatch (tokenPatterns.map (·.2)) s i n)
    (hp : tokenPatterns[i]? = some p) : LongestLexeme (s.take n ++ s.drop n) (s.take n) p.1 := by
  refine longest_lexeme ?_ hp
  rw [List.take_append_drop, List.length_take, Nat.min_eq_left h.inText]
  exact h

theorem lexItems_panic (l : Logos) (fuel : Nat) : ∀ (pos : Nat) (s : Str),
    lexItems l.token tokenPatterns (tokenCallback l) fuel pos s = none → ComesToForeignDate l s := by
  induction fuel with
  | zero => intro pos s h; cases s <;> cases h
  | succ fuel ih =>
    intro pos s h
    cases s with
    | nil => cases h
    | cons c cs =>
      generalize hs' : c :: cs = s at *
      have hne : s ≠ [] := by rw [← hs']; simp
      rw [← hs', lexItems, hs'] at h
      · cases hn : l.token.next (tokenPatterns.map (·.2)) s with
        | failed n =>
          simp only [hn, Option.map_eq_none_iff] at h
          obtain ⟨h1, h2, _⟩ := next_failed tokenPatterns_inhabited hne hn
          have hu := unsure_of_failed hne hn
          rw [← List.take_append_drop n s] at hu ⊢
          have step : ∀ {s'}, ComesTo (s.drop n) s' → ComesTo (s.take n ++ s.drop n) s' :=
            fun hc => .unrecognized (take_ne_nil h1 h2) hu hc
          cases ih _ _ h with
          | lexeme w rest k hc hL hf => exact .lexeme w rest k (step hc) hL hf
          | refused w rest pre d post hc hr e hd hf => exact .refused w rest pre d post (step hc) hr e hd hf
        | found i n =>
          simp only [hn] at h
          have hM := next_found tokenPatterns_inhabited hn
          obtain ⟨p, hp1, hm⟩ := hM.isMatch
          rw [List.getElem?_map, Option.map_eq_some_iff] at hp1
          obtain ⟨q, hq, rfl⟩ := hp1
          simp only [hq] at h
          have hL := longest_split hM hq
          have step : ∀ {s'}, ComesTo (s.drop n) s' → ComesTo (s.take n ++ s.drop n) s' := fun hc => .lexeme hL hc
          have later : lexItems l.token tokenPatterns (tokenCallback l) fuel (pos + byteLen (s.take n)) (s.drop n) = none →
              ComesToForeignDate l s := by
            intro h
            rw [← List.take_append_drop n s]
            cases ih _ _ h with
            | lexeme w rest k hc hL hf => exact .lexeme w rest k (step hc) hL hf
            | refused w rest pre d post hc hr e hd hf => exact .refused w rest pre d post (step hc) hr e hd hf
          cases hcb : tokenCallback l q.1 (s.take n) with
          | none => rw [hcb] at h; exact later h
          | some r =>
            cases r with
            | ok t => simp only [hcb, Option.map_eq_none_iff] at h; exact later h
            | err er => simp only [hcb, Option.map_eq_none_iff] at h; exact later h
            | panic =>
              obtain ⟨hk, hf⟩ := tokenCallback_panic (List.mem_of_getElem? hq) hm hcb
              refine .lexeme (s.take n) (s.drop n) q.1 (by rw [List.take_append_drop]; exact .here) hL ⟨?_, hf⟩
              rcases hk with e | e
              · rw [e] at hL; exact .inl hL.lexeme
              · rw [e] at hL; exact .inr hL.lexeme
      · simp

/-- A piece which becomes an error is refused. -/
theorem cuts_refused {l : Logos} {pos : Nat} {s : Str} {items : List (RawItem Token)} (h : Cuts l pos s items) :
    ∀ it ∈ items, (∃ e, it.res = .error e) → ∃ before w rest, s = before ++ w ++ rest ∧ it.start = pos + byteLen before ∧
      it.stop = it.start + byteLen w ∧ ComesTo s (w ++ rest) ∧ Refused l w rest := by
  induction h with
  | done => intro it hit; cases hit
  | @blank pos w s items hL _ ih =>
    intro it hit he
    obtain ⟨b, w', r, e1, e2, e3, hc, hr⟩ := ih it hit he
    exact ⟨w ++ b, w', r, by rw [e1]; simp, by rw [e2, byteLen_append]; omega, e3, .lexeme hL hc, hr⟩
  | @piece pos w s k r items hL hd _ ih =>
    intro it hit he
    rcases List.mem_cons.mp hit with rfl | hit
    · obtain ⟨e, he⟩ := he
      simp only at he
      subst he
      exact ⟨[], w, s, by simp, by simp [byteLen], rfl, .here, .inl ⟨k, e, hL, hd⟩⟩
    · obtain ⟨b, w', r, e1, e2, e3, hc, hr⟩ := ih it hit he
      exact ⟨w ++ b, w', r, by rw [e1]; simp, by rw [e2, byteLen_append]; omega, e3, .lexeme hL hc, hr⟩
  | @unrecognized pos w s e items hw hu _ ih =>
    intro it hit he
    rcases List.mem_cons.mp hit with rfl | hit
    · exact ⟨[], w, s, by simp, by simp [byteLen], rfl, .here, .inr ⟨hw, hu⟩⟩
    · obtain ⟨b, w', r, e1, e2, e3, hc, hr⟩ := ih it hit he
      exact ⟨w ++ b, w', r, by rw [e1]; simp, by rw [e2, byteLen_append]; omega, e3, .unrecognized hw hu hc, hr⟩

theorem recoveryPanics_comes {l : Logos} {s : Str} {items : List (RawItem Token)} (h : tokenItems l s = some items)
    (hr : recoveryPanics l s items = true) : ComesToForeignDate l s := by
  obtain ⟨it, hit, hp⟩ := List.any_eq_true.mp hr
  cases hres : it.res with
  | ok t => simp [hres] at hp
  | error e =>
    obtain ⟨before, w, rest, e1, e2, e3, hc, href⟩ := cuts_refused (cuts_of_tokenizes (tokenItems_tokenizes h)) it hit ⟨e, hres⟩
    have hsl : slice s it.start it.stop = some w := (slice_iff _ _ _ _).mpr ⟨before, rest, e1, by omega, by omega⟩
    simp only [hres, hsl, Option.isNone_iff_eq_none] at hp
    obtain ⟨pre, d, post, e4, h5, h6⟩ := recoveryItems_panic hp
    exact .refused w rest pre d post hc href e4 h5 h6

theorem comesTo_suffix {s s' : Str} (h : ComesTo s s') : ∃ before, s = before ++ s' := by
  induction h with
  | here => exact ⟨[], rfl⟩
  | @lexeme w s s' k _ _ ih => obtain ⟨b, rfl⟩ := ih; exact ⟨w ++ b, by simp⟩
  | @unrecognized w s s' _ _ _ ih => obtain ⟨b, rfl⟩ := ih; exact ⟨w ++ b, by simp⟩

theorem foreignDate_has {l : Logos} {s : Str} (h : ComesToForeignDate l s) : HasForeignDate s := by
  cases h with
  | lexeme w rest k hc _ hf =>
    obtain ⟨b, rfl⟩ := comesTo_suffix hc
    exact ⟨b, w, rest, by simp, hf⟩
  | refused w rest pre d post hc _ e _ hf =>
    obtain ⟨b, rfl⟩ := comesTo_suffix hc
    subst e
    exact ⟨b ++ pre, d, post ++ rest, by simp, hf⟩

/-- If the engine always falls back, it comes to every lexeme that is reached by lexemes. -/
theorem lexItems_reaches {l : Logos} (hl : ∀ s, l.token.fallsBack s = true) {s s' : Str} (h : ComesToByLexemes s s')
    {w rest : Str} {k : Kind} (e : s' = w ++ rest) (hL : LongestLexeme (w ++ rest) w k)
    (hp : tokenCallback l k w = some .panic) : ∀ (pos fuel : Nat), s.length ≤ fuel →
    lexItems l.token tokenPatterns (tokenCallback l) fuel pos s = none := by
  have step : ∀ {w s : Str} {k : Kind}, LongestLexeme (w ++ s) w k → ∀ fuel, (w ++ s).length ≤ fuel →
      ∃ f, fuel = f + 1 ∧ s.length ≤ f ∧ ∃ i p, tokenPatterns[i]? = some p ∧ p.1 = k ∧
        l.token.next (tokenPatterns.map (·.2)) (w ++ s) = .found i w.length := by
    intro w s k hL fuel hf
    have hw := List.length_pos_iff.mpr hL.nonEmpty
    rw [List.length_append] at hf
    obtain ⟨i, p, hm, hi⟩ := longest_match_of_lexeme hL
    exact ⟨fuel - 1, by omega, by omega, i, p, hi, (longestLexeme_unique (longest_lexeme hm hi) hL).2,
      next_of_longest tokenPatterns_inhabited hm (.inl (hl _))⟩
  induction h with
  | here =>
    intro pos fuel hf
    subst e
    obtain ⟨f, rfl, _, i, p, hi, hk, hn⟩ := step hL fuel hf
    rw [lexItems_step hL.nonEmpty hi hn, hk, hp]
  | @lexeme w' s s' k' hL' _ ih =>
    intro pos fuel hf
    obtain ⟨f, rfl, hlen, i, p, hi, hk, hn⟩ := step hL' fuel hf
    rw [lexItems_step hL'.nonEmpty hi hn]
    have := ih e (pos + byteLen w') f hlen
    rw [this]
    split <;> rfl

end

end Lima
