import Verif.Spec.Locations
import Verif.Lemmas.GrammarConsumes
import Verif.Lemmas.GrammarSound
import Mathlib.Tactic.Tauto

/-! Everything that is parsed is located where it was parsed: combinators. -/

set_option linter.unusedSectionVars false

namespace Lima.Grammar

open Spec P

variable {α β : Type} {cfg : ParseCfg} {K : List Location}

theorem LocatedIn_mono {i r i' r' : List Ranged} {x : Location} (h : LocatedIn cfg i r x) (hi : i <:+ i') (hr : r' <:+ r) :
    LocatedIn cfg i' r' x := by
  obtain ⟨a, rfl⟩ := hi
  obtain ⟨b, rfl⟩ := hr
  rcases h with ⟨be, run, af, rfl, h⟩ | ⟨hb, hw, be, af, rfl, h⟩
  · exact .inl ⟨a ++ be, run, af ++ b, by simp, h⟩
  · exact .inr ⟨hb, hw, a ++ be, af ++ b, by simp, by simpa using h⟩

/-- The word may be forgotten. -/
theorem LocatedIn_forget {i r : List Ranged} {x : Location} (h : LocatedIn cfg i r x) :
    LocatedIn cfg i r ⟨x.span, x.mayBeBlank, none⟩ := by
  rcases h with ⟨be, run, af, e, h, _⟩ | ⟨hb, hw, be, af, e, h⟩
  · exact .inl ⟨be, run, af, e, h, by simp⟩
  · exact .inr ⟨hb, rfl, be, af, e, h⟩

/-- Known before, or located between the tokens. -/
def Known (cfg : ParseCfg) (K : List Location) (i r : List Ranged) (x : Location) : Prop := x ∈ K ∨ LocatedIn cfg i r x

theorem Known.mono {i r i' r' : List Ranged} {x : Location} (h : Known cfg K i r x) (hi : i <:+ i') (hr : r' <:+ r) :
    Known cfg K i' r' x := h.imp_right fun h => LocatedIn_mono h hi hr

/-- Known before, in the options, or located in the tokens. -/
def StateKnown (cfg : ParseCfg) (K : List Location) (s : PSt) (x : Location) : Prop :=
  x ∈ Locations.parserOptions s.opts ∨ Known cfg K s.toks [] x

/-- What becomes of the user state. -/
structure Grow (cfg : ParseCfg) (K : List Location) (s s' : PSt) : Prop where
  opts : ∀ x ∈ Locations.parserOptions s'.opts, StateKnown cfg K s x
  warns : ∃ ws, s'.warns = s.warns ++ ws ∧ ∀ w ∈ ws, ∀ x ∈ Locations.report w, StateKnown cfg K s x

theorem Grow.same {s s' : PSt} (h1 : s'.opts = s.opts) (h2 : s'.warns = s.warns) : Grow cfg K s s' :=
  ⟨fun x hx => .inl (h1 ▸ hx), [], by simp [h2], by simp⟩

theorem Grow.trans {s s1 s2 : PSt} {K' : List Location} (h1 : Grow cfg K s s1) (h2 : Grow cfg K' s1 s2)
    (hs : s1.toks <:+ s.toks) (hK : ∀ x ∈ K', Known cfg K s.toks [] x) : Grow cfg K s s2 := by
  have key : ∀ x, StateKnown cfg K' s1 x → StateKnown cfg K s x := by
    rintro x (h | h | h)
    · exact h1.opts x h
    · exact .inr (hK x h)
    · exact .inr (.inr (LocatedIn_mono h hs (List.suffix_refl _)))
  obtain ⟨ws1, e1, w1⟩ := h1.warns
  obtain ⟨ws2, e2, w2⟩ := h2.warns
  refine ⟨fun x hx => key x (h2.opts x hx), ws1 ++ ws2, by rw [e2, e1, List.append_assoc], ?_⟩
  intro w hw x hx
  rcases List.mem_append.mp hw with hw | hw
  · exact w1 w hw x hx
  · exact key x (w2 w hw x hx)

/-- The parser yields things with these locations, each known before or that of tokens it consumed. -/
structure Located (cfg : ParseCfg) (K : List Location) (p : P α) (f : α → List Location) : Prop where
  ok : ∀ s a s', p s = .ok a s' → s'.toks <:+ s.toks ∧ (∀ x ∈ f a, Known cfg K s.toks s'.toks x) ∧
    (∃ es, s'.errs = s.errs ++ es ∧ ∀ e ∈ es, ∀ x ∈ Locations.parserError e, Known cfg K s.toks s'.toks x) ∧
    Grow cfg K s s'
  fail : ∀ s s', p s = .fail s' → Grow cfg K s s'

theorem Located.weaken {p : P α} {f g : α → List Location} (h : Located cfg K p f) (hs : ∀ a, ∀ x ∈ g a, x ∈ f a) :
    Located cfg K p g :=
  ⟨fun s a s' hp => ⟨(h.ok s a s' hp).1, fun x hx => (h.ok s a s' hp).2.1 x (hs a x hx), (h.ok s a s' hp).2.2⟩, h.fail⟩

/-- What is located without knowing anything is located. -/
theorem Located.known {p : P α} {f : α → List Location} (h : Located cfg [] p f) : Located cfg K p f := by
  have key : ∀ {i r x}, Known cfg [] i r x → Known cfg K i r x := fun h => h.imp_left (by simp)
  have grow : ∀ {s s'}, Grow cfg [] s s' → Grow cfg K s s' := by
    intro s s' h
    obtain ⟨ws, e, w⟩ := h.warns
    exact ⟨fun x hx => (h.opts x hx).imp_right key, ws, e, fun v hv x hx => (w v hv x hx).imp_right key⟩
  refine ⟨fun s a s' hp => ?_, fun s s' hp => grow (h.fail s s' hp)⟩
  obtain ⟨h1, h2, ⟨es, h3, h4⟩, h5⟩ := h.ok s a s' hp
  exact ⟨h1, fun x hx => key (h2 x hx), ⟨es, h3, fun e he x hx => key (h4 e he x hx)⟩, grow h5⟩

theorem Located.bind {p : P α} {q : α → P β} {f : α → List Location} {g : β → List Location} (hp : Located cfg [] p f)
    (hq : ∀ a, Located cfg (K ++ f a) (q a) g) : Located cfg K (p >>= q) g := by
  have hp' : Located cfg K p f := hp.known
  constructor
  · intro s b s' h
    obtain ⟨a, s1, h1, h2⟩ := bind_ok.mp h
    obtain ⟨k1, k2, ⟨es, k3, k4⟩, k5⟩ := hp'.ok _ _ _ h1
    obtain ⟨m1, m2, ⟨es', m3, m4⟩, m5⟩ := (hq a).ok _ _ _ h2
    have key : ∀ x, Known cfg (K ++ f a) s1.toks s'.toks x → Known cfg K s.toks s'.toks x := by
      rintro x (h | h)
      · rcases List.mem_append.mp h with h | h
        · exact .inl h
        · exact (k2 x h).mono (List.suffix_refl _) m1
      · exact .inr (LocatedIn_mono h k1 (List.suffix_refl _))
    refine ⟨m1.trans k1, fun x hx => key x (m2 x hx), ⟨es ++ es', by rw [m3, k3, List.append_assoc], ?_⟩,
      k5.trans m5 k1 ?_⟩
    · intro e he x hx
      rcases List.mem_append.mp he with he | he
      · exact (k4 e he x hx).mono (List.suffix_refl _) m1
      · exact key x (m4 e he x hx)
    · intro x hx
      rcases List.mem_append.mp hx with h | h
      · exact .inl h
      · exact (k2 x h).mono (List.suffix_refl _) List.nil_suffix
  · intro s s' h
    rcases bind_fail.mp h with h | ⟨a, s1, h1, h2⟩
    · exact hp'.fail _ _ h
    · obtain ⟨k1, k2, _, k5⟩ := hp'.ok _ _ _ h1
      refine k5.trans ((hq a).fail _ _ h2) k1 ?_
      intro x hx
      rcases List.mem_append.mp hx with h | h
      · exact .inl h
      · exact (k2 x h).mono (List.suffix_refl _) List.nil_suffix

theorem Located.pure {a : α} {f : α → List Location} (h : ∀ x ∈ f a, x ∈ K) : Located cfg K (Pure.pure a : P α) f := by
  constructor
  · intro s b s' hp
    rw [pure_eq] at hp
    cases hp
    exact ⟨List.suffix_refl _, fun x hx => .inl (h x hx), ⟨[], by simp, by simp⟩, .same rfl rfl⟩
  · intro s s' hp
    rw [pure_eq] at hp
    cases hp

theorem Located.map {p : P α} {f : α → List Location} {g : α → β} {f' : β → List Location} (hp : Located cfg [] p f)
    (h : ∀ a, ∀ x ∈ f' (g a), x ∈ f a) : Located cfg K (do let a ← p; Pure.pure (g a)) f' :=
  hp.bind fun a => .pure fun x hx => List.mem_append_right _ (h a x hx)

theorem Located.failure {f : α → List Location} : Located cfg K (P.failure : P α) f :=
  ⟨fun s a s' h => (by cases h), fun s s' h => (by cases h; exact .same rfl rfl)⟩

theorem Located.panicking {f : α → List Location} : Located cfg K (P.panicking : P α) f :=
  ⟨fun s a s' h => (by cases h), fun s s' h => (by cases h)⟩

theorem Located.select (g : Token → Option α) : Located cfg K (P.select g) (fun _ => []) := by
  constructor
  · intro s a s' h
    obtain ⟨t, ts, h1, _, rfl⟩ := select_ok.mp h
    rw [h1]
    exact ⟨List.suffix_cons _ _, by simp, ⟨[], by simp, by simp⟩, .same rfl rfl⟩
  · intro s s' h
    have := (select_fail.mp h).1
    subst this
    exact .same rfl rfl

theorem Located.just (t : Token) : Located cfg K (P.just t) (fun _ => []) := Located.select _

theorem Located.eoi : Located cfg K P.eoi (fun _ => []) := by
  constructor
  · intro s a s' h
    obtain ⟨_, rfl⟩ := eoi_ok.mp h
    exact ⟨List.suffix_refl _, by simp, ⟨[], by simp, by simp⟩, .same rfl rfl⟩
  · intro s s' h
    obtain ⟨_, rfl⟩ := eoi_fail.mp h
    exact .same rfl rfl

theorem grow_rewind {s s1 : PSt} (h : Grow cfg K s s1) : Grow cfg K s (s.rewind s1) := ⟨h.opts, h.warns⟩

theorem Located.alt {p q : P α} {f : α → List Location} (hp : Located cfg K p f) (hq : Located cfg K q f) :
    Located cfg K (P.alt p q) f := by
  constructor
  · intro s a s' h
    rcases alt_ok.mp h with h | ⟨s1, h1, h2⟩
    · exact hp.ok _ _ _ h
    · obtain ⟨k1, k2, k3, k4⟩ := hq.ok _ _ _ h2
      exact ⟨k1, k2, k3, (grow_rewind (hp.fail _ _ h1)).trans k4 (List.suffix_refl _) fun x hx => .inl hx⟩
  · intro s s' h
    obtain ⟨s1, h1, h2⟩ := alt_fail.mp h
    exact (grow_rewind (hp.fail _ _ h1)).trans (hq.fail _ _ h2) (List.suffix_refl _) fun x hx => .inl hx

theorem Located.choice_nil {f : α → List Location} : Located cfg K (P.choice ([] : List (P α))) f := Located.failure

theorem Located.choice_cons {p : P α} {ps : List (P α)} {f : α → List Location} (h1 : Located cfg K p f)
    (h2 : Located cfg K (P.choice ps) f) : Located cfg K (P.choice (p :: ps)) f := by
  cases ps with
  | nil => exact h1
  | cons q qs => exact h1.alt h2

theorem Located.orNot {p : P α} {f : α → List Location} (hp : Located cfg K p f) :
    Located cfg K (P.orNot p) (fun o => o.toList.flatMap f) := by
  constructor
  · intro s o s' h
    rcases orNot_ok.mp h with ⟨a, rfl, h1⟩ | ⟨rfl, s1, h1, rfl⟩
    · obtain ⟨k1, k2, k3⟩ := hp.ok _ _ _ h1
      exact ⟨k1, by simpa using k2, k3⟩
    · exact ⟨List.suffix_refl _, by simp, ⟨[], by simp [PSt.rewind], by simp⟩, grow_rewind (hp.fail _ _ h1)⟩
  · intro s s' h
    exact absurd h orNot_fail

theorem Located.rep {p : P α} {f : α → List Location} (hp : Located cfg K p f) :
    Located cfg K (P.rep p) (fun l => l.flatMap f) := by
  have key : ∀ n s l s', P.repFuel p n s = .ok l s' → s'.toks <:+ s.toks ∧
      (∀ x ∈ l.flatMap f, Known cfg K s.toks s'.toks x) ∧
      (∃ es, s'.errs = s.errs ++ es ∧ ∀ e ∈ es, ∀ x ∈ Locations.parserError e, Known cfg K s.toks s'.toks x) ∧
      Grow cfg K s s' := by
    intro n
    induction n with
    | zero => intro s l s' h; cases h
    | succ n ih =>
      intro s l s' h
      unfold P.repFuel at h
      split at h
      · rename_i a s1 h1
        split at h
        · rename_i as s2 h2
          cases h
          obtain ⟨k1, k2, ⟨es, k3, k4⟩, k5⟩ := hp.ok _ _ _ h1
          obtain ⟨m1, m2, ⟨es', m3, m4⟩, m5⟩ := ih _ _ _ h2
          refine ⟨m1.trans k1, ?_, ⟨es ++ es', by rw [m3, k3, List.append_assoc], ?_⟩,
            k5.trans m5 k1 fun x hx => .inl hx⟩
          · intro x hx
            rw [List.flatMap_cons, List.mem_append] at hx
            rcases hx with hx | hx
            · exact (k2 x hx).mono (List.suffix_refl _) m1
            · exact (m2 x hx).mono k1 (List.suffix_refl _)
          · intro e he x hx
            rcases List.mem_append.mp he with he | he
            · exact (k4 e he x hx).mono (List.suffix_refl _) m1
            · exact (m4 e he x hx).mono k1 (List.suffix_refl _)
        · cases h
        · cases h
      · rename_i s1 h1
        cases h
        exact ⟨List.suffix_refl _, by simp, ⟨[], by simp [PSt.rewind], by simp⟩, grow_rewind (hp.fail _ _ h1)⟩
      · cases h
  exact ⟨fun s l s' h => key _ s l s' h, fun s s' h => absurd h rep_fail⟩

theorem Located.emit {es : List PErr} (h : ∀ e ∈ es, ∀ x ∈ Locations.parserError e, x ∈ K) :
    Located cfg K (P.emit es) (fun _ => []) := by
  constructor
  · intro s a s' hp
    cases hp
    exact ⟨List.suffix_refl _, by simp, ⟨es, rfl, fun e he x hx => .inl (h e he x hx)⟩, .same rfl rfl⟩
  · intro s s' hp
    cases hp

/-- Emit errors with known locations, and go on. -/
theorem Located.emit_bind {es : List PErr} {q : Unit → P β} {g : β → List Location}
    (h : ∀ e ∈ es, ∀ x ∈ Locations.parserError e, x ∈ K) (hq : ∀ u, Located cfg K (q u) g) :
    Located cfg K (P.emit es >>= q) g := by
  constructor
  · intro s b s' hp
    obtain ⟨u, s1, h1, h2⟩ := bind_ok.mp hp
    cases h1
    obtain ⟨m1, m2, ⟨es', m3, m4⟩, m5⟩ := (hq _).ok _ _ _ h2
    refine ⟨m1, m2, ⟨es ++ es', by rw [m3, List.append_assoc], ?_⟩, m5.opts, m5.warns⟩
    intro e he x hx
    rcases List.mem_append.mp he with he | he
    · exact .inl (h e he x hx)
    · exact m4 e he x hx
  · intro s s' hp
    rcases bind_fail.mp hp with hp | ⟨a, s1, h1, h2⟩
    · cases hp
    · cases h1
      have := (hq _).fail _ _ h2
      exact ⟨this.opts, this.warns⟩

theorem Located.options : Located cfg K Grammar.options (fun _ => []) := by
  constructor
  · intro s a s' hp
    cases hp
    exact ⟨List.suffix_refl _, by simp, ⟨[], by simp, by simp⟩, .same rfl rfl⟩
  · intro s s' hp
    cases hp

/-- A parser with its location: the locations `g` of the whole have to be right for the tokens consumed. -/
theorem Located.spannedWith {p : P α} {f : α → List Location} {g : Spanned α → List Location} (hp : Located cfg K p f)
    (hg : ∀ s a s' run span, p s = .ok a s' → s.toks = run ++ s'.toks → ∀ x ∈ g ⟨a, span⟩, x.span = span ∧
      (∀ t, x.word = some t → t ∈ run.map (·.tok)) ∧ (run = [] → x.mayBeBlank = true)) :
    Located cfg K (P.spanned cfg p) (fun x => g x ++ f x.item) := by
  constructor
  · intro s x s' h
    obtain ⟨h1, h2⟩ := spanned_ok.mp h
    obtain ⟨k1, k2, k3⟩ := hp.ok _ _ _ h1
    refine ⟨k1, ?_, k3⟩
    intro y hy
    rcases List.mem_append.mp hy with hy | hy
    · right
      obtain ⟨item, span⟩ := x
      have hcov := covers_spanOf cfg k1
      rw [← h2] at hcov
      rcases hcov with ⟨first, run, last, e, e1, e2, e3⟩ | ⟨e, e1⟩
      · obtain ⟨m1, m2, _⟩ := hg _ _ _ run span h1 e y hy
        exact .inl ⟨[], run, [], by simpa using e, ⟨first, last, e1, e2, m1 ▸ e3⟩, m2⟩
      · obtain ⟨m1, m2, m3⟩ := hg _ _ _ [] span h1 (by simpa using e) y hy
        refine .inr ⟨m3 rfl, ?_, [], [], by simpa using e, ?_⟩
        · cases hw : y.word with
          | none => rfl
          | some t => exact absurd (m2 t hw) (by simp)
        · rw [m1, List.nil_append, ← e]; exact e1
    · exact k2 y hy
  · intro s s' h
    exact hp.fail _ _ (spanned_fail.mp h)

theorem Located.spannedAny {p : P α} {f : α → List Location} (hp : Located cfg K p f) :
    Located cfg K (P.spanned cfg p) (fun x => ⟨x.span, true, none⟩ :: f x.item) :=
  Located.spannedWith (g := fun x => [⟨x.span, true, none⟩]) hp fun _ _ _ _ _ _ _ x hx => by
    rw [List.mem_singleton.mp hx]
    simp

theorem Located.spanned {p : P α} {f : α → List Location} (hc : Consumes p) (hp : Located cfg K p f) :
    Located cfg K (P.spanned cfg p) (fun x => here x :: f x.item) :=
  Located.spannedWith (g := fun x => [here x]) hp fun s a s' run span h e x hx => by
    rw [List.mem_singleton.mp hx]
    refine ⟨rfl, by simp [here], ?_⟩
    rintro rfl
    have := (hc _ _ _ h).2
    rw [e] at this
    simp at this

/-- A parser of something without locations in it. -/
theorem Located.spanned0 {p : P α} (hc : Consumes p) (hp : Located cfg K p (fun _ => [])) :
    Located cfg K (P.spanned cfg p) (fun x => [here x]) := Located.spanned hc hp

theorem Located.opt {p : P α} (hc : Consumes p) (hp : Located cfg K p (fun _ => [])) :
    Located cfg K (P.orNot (P.spanned cfg p)) hereOpt :=
  (Located.spanned0 hc hp).orNot.weaken fun o x hx => by
    cases o with
    | none => exact hx
    | some a => exact hx

/-- One of the tokens consumed is the word for the result. -/
def Reads (p : P α) (word : α → Token) : Prop :=
  ∀ s a s' run, p s = .ok a s' → s.toks = run ++ s'.toks → word a ∈ run.map (·.tok)

theorem Reads.weaken {p : P α} {word word' : α → Token} (h : Reads p word) (he : ∀ a, word a = word' a) :
    Reads p word' := fun s a s' run h1 h2 => he a ▸ h s a s' run h1 h2

theorem word_mem {t : Token} {i r run : List Ranged} (h : Word t i r) (e : i = run ++ r) : t ∈ run.map (·.tok) := by
  obtain ⟨start, stop, h1⟩ := h
  rw [e, show (⟨t, start, stop⟩ :: r : List Ranged) = [⟨t, start, stop⟩] ++ r from rfl] at h1
  rw [List.append_cancel_right h1]
  simp

theorem reads_pur {p : P α} {R : ParserOptions → Phrase α} (h : Pur p R) {word : α → Token}
    (hR : ∀ o i r a, R o i r a → Word (word a) i r) : Reads p word := by
  intro s a s' run h1 e
  obtain ⟨r, rfl, _, h2⟩ := h.ok _ _ _ h1
  exact word_mem (hR _ _ _ _ h2) e

theorem reads_snd {p : P α} {R : Rel α} (h : Snd p R) {word : α → Token}
    (hR : ∀ o i r a es, R o i r a es → Word (word a) i r) : Reads p word := by
  intro s a s' run h1 e
  obtain ⟨_, _, es, _, h2⟩ := h.ok _ _ _ h1
  exact word_mem (hR _ _ _ _ _ h2) e

/-- A keyword before. -/
theorem Reads.after {q : P β} {p : P α} {word : α → Token} (hq : Shrinks q) (hs : Shrinks p) (h : Reads p word) :
    Reads (do let _ ← q; p) word := by
  intro s a s' run h1 e
  obtain ⟨b, s1, h2, h3⟩ := bind_ok.mp h1
  obtain ⟨k1, hk1⟩ := hq _ _ _ h2
  obtain ⟨k2, hk2⟩ := hs _ _ _ h3
  have := h _ _ _ k2 h3 hk2.symm
  have er : run = k1 ++ k2 := by
    rw [← hk1, ← hk2, ← List.append_assoc] at e
    exact (List.append_cancel_right e).symm
  rw [er, List.map_append]
  exact List.mem_append_right _ this

/-- A word after. -/
theorem Reads.before {p : P α} {q : α → P β} {word : α → Token} (hq : ∀ a, Shrinks (q a)) (h : Reads p word)
    (hp : Shrinks p) : Reads (do let a ← p; let _ ← q a; Pure.pure a) word := by
  intro s a s' run h1 e
  obtain ⟨b, s1, h2, h3⟩ := bind_ok.mp h1
  obtain ⟨c, s2, h4, h5⟩ := bind_ok.mp h3
  rw [pure_eq] at h5
  cases h5
  obtain ⟨k1, hk1⟩ := hp _ _ _ h2
  obtain ⟨k2, hk2⟩ := hq _ _ _ _ h4
  have := h _ _ _ k1 h2 hk1.symm
  have er : run = k1 ++ k2 := by
    rw [← hk1, ← hk2, ← List.append_assoc] at e
    exact (List.append_cancel_right e).symm
  rw [er, List.map_append]
  exact List.mem_append_left _ this

theorem Located.reads {p : P α} {word : α → Token} (hr : Reads p word) (hp : Located cfg K p (fun _ => [])) :
    Located cfg K (P.spanned cfg p) (fun x => [here x, reads word x]) :=
  (Located.spannedWith (g := fun x => [here x, Spec.reads word x]) hp fun s a s' run span h e x hx => by
    have hm := hr _ _ _ run h e
    have hne : run ≠ [] := by
      rintro rfl
      simp at hm
    simp only [List.mem_cons, List.not_mem_nil, or_false] at hx
    rcases hx with rfl | rfl
    · exact ⟨rfl, by simp [here], fun h => absurd h hne⟩
    · refine ⟨rfl, ?_, fun h => absurd h hne⟩
      intro t ht
      simp only [Spec.reads, Option.some.injEq] at ht
      exact ht ▸ hm).weaken (by simp)

theorem Located.optReads {p : P α} {word : α → Token} (hr : Reads p word) (hp : Located cfg K p (fun _ => [])) :
    Located cfg K (P.orNot (P.spanned cfg p)) (readsOpt word) :=
  (Located.reads hr hp).orNot.weaken fun o x hx => by
    cases o with
    | none => exact hx
    | some a =>
      rw [List.mem_singleton.mp hx]
      simp

end Lima.Grammar
