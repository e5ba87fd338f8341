import Verif.Lemmas.FileSound
import Verif.Lemmas.FileRuns
import Verif.Spec.Parse

/-! Parsing changes the parser options only at an option pragma for them, and includes are found as in the token
scan; both even in files with errors. -/

namespace Lima.Grammar

open Spec P

variable {α β : Type}

/-- What holds of tokens holds of those after the first few. -/
theorem closed_not_sets : Closed (fun i => ¬ SetsParserOption i) := by
  rintro i r ⟨pre, rfl⟩ h ⟨b, a, n, v, h1, h2⟩
  exact h ⟨pre.map (·.tok) ++ b, a, n, v, by rw [List.map_append, h1, List.append_assoc], h2⟩

/-- On tokens satisfying `T` the parser leaves the options alone. -/
structure Steady (T : List Ranged → Prop) (p : P α) : Prop where
  ok : ∀ s a s', T s.toks → p s = .ok a s' → s'.toks <:+ s.toks ∧ s'.opts = s.opts
  fail : ∀ s s', T s.toks → p s = .fail s' → s'.opts = s.opts

variable {T : List Ranged → Prop}

theorem Steady.of_snd {p : P α} {R : Rel α} (h : Snd p R) : Steady T p :=
  ⟨fun s a s' _ hp => ⟨(h.ok s a s' hp).1, (h.ok s a s' hp).2.1⟩, fun s s' _ hp => h.fail s s' hp⟩

theorem Steady.bind {p : P α} {f : α → P β} (hT : Closed T) (hp : Steady T p) (hf : ∀ a, Steady T (f a)) :
    Steady T (p >>= f) := by
  constructor
  · intro s b s' h1 h
    obtain ⟨a, s1, h2, h3⟩ := bind_ok.mp h
    obtain ⟨k1, k2⟩ := hp.ok _ _ _ h1 h2
    obtain ⟨k3, k4⟩ := (hf a).ok _ _ _ (hT _ _ k1 h1) h3
    exact ⟨k3.trans k1, k4.trans k2⟩
  · intro s s' h1 h
    rcases bind_fail.mp h with h | ⟨a, s1, h2, h3⟩
    · exact hp.fail _ _ h1 h
    · obtain ⟨k1, k2⟩ := hp.ok _ _ _ h1 h2
      exact ((hf a).fail _ _ (hT _ _ k1 h1) h3).trans k2

theorem Steady.alt {p q : P α} (hp : Steady T p) (hq : Steady T q) : Steady T (P.alt p q) := by
  constructor
  · intro s b s' h1 h
    rcases alt_ok.mp h with h | ⟨s1, h2, h3⟩
    · exact hp.ok _ _ _ h1 h
    · obtain ⟨k1, k2⟩ := hq.ok _ _ _ (by rw [rewind_toks]; exact h1) h3
      rw [rewind_toks] at k1
      rw [rewind_opts, hp.fail _ _ h1 h2] at k2
      exact ⟨k1, k2⟩
  · intro s s' h1 h
    obtain ⟨s1, h2, h3⟩ := alt_fail.mp h
    have := hq.fail _ _ (by rw [rewind_toks]; exact h1) h3
    rw [rewind_opts, hp.fail _ _ h1 h2] at this
    exact this

theorem Steady.choice {ps : List (P α)} (h : ∀ p ∈ ps, Steady T p) : Steady T (P.choice ps) := by
  induction ps with
  | nil => exact ⟨fun _ _ _ _ h => (by cases h), fun _ _ _ h => (by cases h; rfl)⟩
  | cons p ps ih =>
    cases ps with
    | nil => exact h p (by simp)
    | cons q qs => exact Steady.alt (h p (by simp)) (ih fun p hp => h p (by simp [hp]))

theorem Steady.spanned {cfg : ParseCfg} {p : P α} (hp : Steady T p) : Steady T (P.spanned cfg p) :=
  ⟨fun s a s' h1 h => hp.ok _ _ _ h1 (spanned_ok.mp h).1, fun s s' h1 h => hp.fail _ _ h1 (spanned_fail.mp h)⟩

theorem steady_skip {p : P α} (hT : Closed T) (hp : Steady T p) (ts : List Ranged) : ∀ s : PSt, T ts →
    (∀ a s', P.skipThenRetry p ts s = .ok a s' → s'.toks <:+ ts ∧ s'.opts = s.opts) ∧
      ∀ s', P.skipThenRetry p ts s = .fail s' → s'.opts = s.opts := by
  induction ts with
  | nil => exact fun s _ => ⟨fun _ _ h => (by cases h), fun _ h => (by cases h; rfl)⟩
  | cons t ts ih =>
    intro s h1
    have ht := hT _ _ (List.suffix_cons t ts) h1
    have next : ∀ s1 : PSt, s1.opts = s.opts →
        (∀ a s', P.skipThenRetry p ts (s.rewind s1) = .ok a s' → s'.toks <:+ t :: ts ∧ s'.opts = s.opts) ∧
          ∀ s', P.skipThenRetry p ts (s.rewind s1) = .fail s' → s'.opts = s.opts := by
      intro s1 hs1
      obtain ⟨k1, k2⟩ := ih (s.rewind s1) ht
      rw [rewind_opts, hs1] at k1 k2
      exact ⟨fun a s' h => ⟨(k1 a s' h).1.trans (List.suffix_cons _ _), (k1 a s' h).2⟩, k2⟩
    simp only [P.skipThenRetry]
    cases hs : p { s with toks := ts } with
    | ok a s1 =>
      obtain ⟨k1, k2⟩ := hp.ok _ _ _ ht hs
      by_cases hl : s1.errs.length = s.errs.length
      · simp only [hl, if_true]
        refine ⟨fun a s' h => ?_, fun s' h => by cases h⟩
        cases h
        exact ⟨k1.trans (List.suffix_cons _ _), k2⟩
      · simp only [hl, if_false]
        exact next s1 k2
    | fail s1 => exact next s1 (hp.fail { s with toks := ts } _ ht hs)
    | panic => exact ⟨fun _ _ h => (by cases h), fun _ h => (by cases h)⟩

theorem Steady.recover {p : P α} (hT : Closed T) (hp : Steady T p) : Steady T (P.recover p) := by
  have main : ∀ s : PSt, T s.toks → (∀ a s', P.recover p s = .ok a s' → s'.toks <:+ s.toks ∧ s'.opts = s.opts) ∧
      ∀ s', P.recover p s = .fail s' → s'.opts = s.opts := by
    intro s h1
    unfold P.recover
    cases hs : p s with
    | ok a s1 =>
      refine ⟨fun a s' h => ?_, fun s' h => by cases h⟩
      cases h
      exact hp.ok _ _ _ h1 hs
    | fail s1 =>
      have := steady_skip hT hp s.toks (s.rewind s1) h1
      rw [rewind_opts, hp.fail _ _ h1 hs] at this
      exact this
    | panic => exact ⟨fun _ _ h => (by cases h), fun _ h => (by cases h)⟩
  exact ⟨fun s a s' h1 h => (main s h1).1 a s' h, fun s s' h1 h => (main s h1).2 s' h⟩

theorem steady_repFuel {p : P α} (hT : Closed T) (hp : Steady T p) (n : Nat) : Steady T (P.repFuel p n) := by
  induction n with
  | zero => exact ⟨fun _ _ _ _ h => (by cases h), fun _ _ _ h => (by cases h)⟩
  | succ n ih =>
    have main : ∀ s : PSt, T s.toks →
        (∀ a s', P.repFuel p (n + 1) s = .ok a s' → s'.toks <:+ s.toks ∧ s'.opts = s.opts) ∧
          ∀ s', P.repFuel p (n + 1) s = .fail s' → s'.opts = s.opts := by
      intro s h1
      simp only [P.repFuel]
      cases hs : p s with
      | ok a s1 =>
        obtain ⟨k1, k2⟩ := hp.ok _ _ _ h1 hs
        simp only
        cases hs' : P.repFuel p n s1 with
        | ok b s2 =>
          obtain ⟨k3, k4⟩ := ih.ok _ _ _ (hT _ _ k1 h1) hs'
          refine ⟨fun a s' h => ?_, fun s' h => by cases h⟩
          cases h
          exact ⟨k3.trans k1, k4.trans k2⟩
        | fail s2 =>
          refine ⟨fun a s' h => (by cases h), fun s' h => ?_⟩
          cases h
          exact (ih.fail _ _ (hT _ _ k1 h1) hs').trans k2
        | panic => exact ⟨fun _ _ h => (by cases h), fun _ h => (by cases h)⟩
      | fail s1 =>
        refine ⟨fun a s' h => ?_, fun s' h => by cases h⟩
        cases h
        exact ⟨List.suffix_refl _, hp.fail s s1 h1 hs⟩
      | panic => exact ⟨fun _ _ h => (by cases h), fun _ h => (by cases h)⟩
    exact ⟨fun s a s' h1 h => (main s h1).1 a s' h, fun s s' h1 h => (main s h1).2 s' h⟩

theorem Steady.rep {p : P α} (hT : Closed T) (hp : Steady T p) : Steady T (P.rep p) :=
  ⟨fun s a s' h1 h => (steady_repFuel hT hp _).ok s a s' h1 h, fun s s' h1 h => (steady_repFuel hT hp _).fail s s' h1 h⟩

section
variable [Unicode] [DecOps]

omit [DecOps] in
/-- Which options change how the rest is parsed. -/
theorem assimilate_same {cfg : ParseCfg} {name value : Spanned Str} {opt : BOption}
    (h : BOption.parse cfg.decimal name value cfg.path = .ok opt) (o : ParserOptions)
    (hn : ¬ (name.item = "name_assets".toList ∨ name.item = "name_liabilities".toList ∨
      name.item = "name_equity".toList ∨ name.item = "name_income".toList ∨ name.item = "name_expenses".toList ∨
      name.item = "long_string_maxlines".toList)) :
    (o.assimilate opt).2 = o := by
  obtain ⟨v, hv, rfl⟩ := (Props.map_ok _ _ _).mp h
  rw [Props.C46_decodes] at hv
  generalize name.item = nm at hv hn
  generalize value.item = vl at hv
  unfold ParserOptions.assimilate
  cases hv <;> first | rfl | exact (hn (by simp)).elim

omit [DecOps] in
theorem steady_option (cfg : ParseCfg) : Steady (fun i => ¬ SetsParserOption i) (option cfg) := by
  have main : ∀ (s s1 s2 s3 : PSt) (name value : Spanned Str), ¬ SetsParserOption s.toks →
      P.just .option s = .ok () s1 → P.spanned cfg (string cfg) s1 = .ok name s2 →
      P.spanned cfg (string cfg) s2 = .ok value s3 →
      s3.toks <:+ s.toks ∧ s3.opts = s.opts ∧ ∀ opt, BOption.parse cfg.decimal name value cfg.path = .ok opt →
        (s3.opts.assimilate opt).2 = s3.opts := by
    intro s s1 s2 s3 name value h1 e1 e2 e3
    obtain ⟨r1, rfl, q1, w1⟩ := (Pur.just .option).ok _ _ _ e1
    obtain ⟨q2, o2, _, _, _, w2, _⟩ := (snd_string cfg).spanned_noErr.ok _ _ _ e2
    obtain ⟨q3, o3, _, _, _, w3, _⟩ := (snd_string cfg).spanned_noErr.ok _ _ _ e3
    refine ⟨(q3.trans q2).trans q1, o3.trans o2, fun opt h => assimilate_same h _ fun hn => h1 ?_⟩
    obtain ⟨x1, y1, w1⟩ := w1
    obtain ⟨x2, y2, w2⟩ := w2
    obtain ⟨x3, y3, w3⟩ := w3
    refine ⟨[], s3.toks.map (·.tok), name.item, value.item, ?_, hn⟩
    dsimp only at w2
    rw [w1, w2, w3]
    rfl
  constructor
  · intro s a s' h1 h
    obtain ⟨_, s1, e1, h⟩ := bind_ok.mp h
    obtain ⟨name, s2, e2, h⟩ := bind_ok.mp h
    obtain ⟨value, s3, e3, h⟩ := bind_ok.mp h
    obtain ⟨k1, k2, k3⟩ := main s s1 s2 s3 name value h1 e1 e2 e3
    unfold assimilateOption at h
    split at h
    · cases h
    · cases h; exact ⟨k1, k2⟩
    · cases h; exact ⟨k1, k2⟩
    · rename_i opt ho
      have := k3 opt ho
      split at h
      · rename_i he
        rw [he] at this
        cases h
        exact ⟨k1, this.trans k2⟩
      · rename_i he
        rw [he] at this
        cases h
        exact ⟨k1, this.trans k2⟩
      · cases h
  · intro s s' h1 h
    exact (opt_option cfg).fail s s' h

theorem steady_pragma (cfg : ParseCfg) : Steady (fun i => ¬ SetsParserOption i) (pragma cfg) := by
  have hpl := snd_pragma_plain cfg
  simp only [List.forall_mem_cons, List.not_mem_nil, false_imp_iff, implies_true, and_true] at hpl
  obtain ⟨p1, p2, p3, p4, p5, p6⟩ := hpl
  refine Steady.bind closed_not_sets (Steady.choice fun q hq => ?_) fun _ =>
    Steady.bind closed_not_sets (Steady.of_snd pur_eol.snd) fun _ => Steady.of_snd (Pur.snd (Pur.pure _))
  simp only [List.mem_cons, List.not_mem_nil, or_false] at hq
  rcases hq with rfl | rfl | rfl | rfl | rfl | rfl | rfl
  · exact Steady.of_snd p1
  · exact Steady.of_snd p2
  · exact Steady.of_snd p3
  · exact Steady.of_snd p4
  · exact Steady.of_snd p5
  · exact Steady.bind closed_not_sets (steady_option cfg) fun _ => Steady.of_snd (Pur.snd (Pur.pure _))
  · exact Steady.of_snd p6

theorem steady_declaration (cfg : ParseCfg) : Steady (fun i => ¬ SetsParserOption i) (declaration cfg) := by
  refine Steady.spanned (Steady.alt ?_ ?_)
  · exact Steady.of_snd (Snd.map (snd_directive cfg) Declaration.directive)
  · exact Steady.bind closed_not_sets (steady_pragma cfg) fun _ => Steady.of_snd (Pur.snd (Pur.pure _))

/-- A file without such an option leaves the parser options as they were. -/
theorem parseFile_steady {cfg : ParseCfg} {toks : List Ranged} {o : ParserOptions} {warns : List Report}
    {res : FileResult} (h : parseFile cfg toks o warns = some res) (hn : ¬ SetsParserOption toks) : res.opts = o := by
  have st := Steady.rep closed_not_sets (Steady.recover closed_not_sets (steady_declaration cfg))
  unfold parseFile at h
  cases hf : file cfg ⟨toks, [], o, warns⟩ with
  | ok ds s =>
    have := (st.ok _ _ _ hn hf).2
    rw [hf] at h
    simp only at h
    split at h <;> (cases h; exact this)
  | fail s =>
    have := st.fail _ _ hn hf
    rw [hf] at h
    cases h
    exact this
  | panic => rw [hf] at h; cases h

/-! ### Includes -/

theorem reps_include {cfg : ParseCfg} {s s' : PSt} {ds : List (Spanned Declaration)}
    (h : Reps (recover (declaration cfg)) s ds s') {d : Spanned Declaration} (hd : d ∈ ds) :
    ∃ (o o' : ParserOptions) (i r : List Ranged) (es : List PErr), i <:+ s.toks ∧ DeclarationP cfg o i r d o' es := by
  induction h with
  | nil => cases hd
  | @cons s s1 s2 a as h _ ih =>
    have sub : s1.toks <:+ s.toks := by
      rcases recover_ok h with ⟨h1, _⟩ | ⟨_, i, h1, _, h2, _⟩
      · exact h1
      · exact h2.trans h1
    rcases List.mem_cons.mp hd with rfl | hd
    · rcases recover_ok h with ⟨_, es, _, h2⟩ | ⟨o, i, h1, _, _, _, h2⟩
      · exact ⟨_, _, _, _, _, List.suffix_refl _, h2⟩
      · exact ⟨_, _, _, _, _, h1, h2⟩
    · obtain ⟨o, o', i, r, es, h1, h2⟩ := ih hd
      exact ⟨o, o', i, r, es, h1.trans sub, h2⟩

/-- Every declaration of a file, even one with errors, is as the specification says. -/
theorem parseFile_declaration {cfg : ParseCfg} {toks : List Ranged} {o : ParserOptions} {warns : List Report}
    {res : FileResult} {ds : List (Spanned Declaration)} (h : parseFile cfg toks o warns = some res)
    (hds : res.declarations = some ds) {d : Spanned Declaration} (hd : d ∈ ds) :
    ∃ (o o' : ParserOptions) (i r : List Ranged) (es : List PErr), i <:+ toks ∧ DeclarationP cfg o i r d o' es := by
  unfold parseFile at h
  cases hf : file cfg ⟨toks, [], o, warns⟩ with
  | ok ds' s =>
    rw [hf] at h
    simp only at h
    split at h
    · cases h
      cases hds
      exact reps_include (rep_reps hf) hd
    · cases h
      cases hds
  | fail s =>
    rw [hf] at h
    cases h
    cases hds
  | panic => rw [hf] at h; cases h

/-- An include in the result of parsing is an `include` token with a string right after it. -/
theorem parseFile_include {cfg : ParseCfg} {toks : List Ranged} {o : ParserOptions} {warns : List Report}
    {res : FileResult} {ds : List (Spanned Declaration)} (h : parseFile cfg toks o warns = some res)
    (hds : res.declarations = some ds) {d : Spanned Declaration} (hd : d ∈ ds) {g : Spanned Str}
    (hg : d.item = .pragma (.include g)) :
    [Token.include, Token.stringLiteral g.item] <:+: toks.map (·.tok) := by
  obtain ⟨o, o', i, r, es, ⟨pre, rfl⟩, h2⟩ := parseFile_declaration h hds hd
  cases h2 with
  | directive _ _ => cases hg
  | pragma hp _ _ =>
    cases hg
    cases hp with
    | «include» h1 h2 =>
      obtain ⟨x, y, rfl⟩ := h1
      obtain ⟨⟨x', y', rfl⟩, _⟩ := h2
      exact ⟨pre.map (·.tok), _, by rw [List.map_append, List.append_assoc]; rfl⟩

end

end Lima.Grammar
