import Verif.Lemmas.SurroundRun

/-! Metadata for a passage. -/

set_option linter.unusedSectionVars false

namespace Lima.Surround
open Lima Spec Grammar Props InPlaceParse Revise Bracketed

/-! ### The pragma processor -/

def MetaInv (k : Str) (d : PragmaData) : Prop := SMap.get d.metas k = none

theorem meta_act {k : Str} (p : Pragma) {d : PragmaData} (hp : ∀ kv, p = .pushmeta kv → kv.key.item ≠ k) (h : MetaInv k d) : MetaInv k (act p d) := by
  unfold MetaInv at *
  cases p with
  | pushtag t =>
    unfold act PragmaData.pushtag
    dsimp only
    split <;> exact h
  | poptag t =>
    unfold act PragmaData.poptag
    dsimp only
    split
    · split <;> exact h
    · exact h
  | pushmeta kv =>
    have hk := hp kv rfl
    unfold act PragmaData.pushmeta
    dsimp only
    split <;> (dsimp only; rw [SMap.get_insert, if_neg (by first | exact hk | exact Ne.symm hk)]; exact h)
  | popmeta q =>
    unfold act PragmaData.popmeta
    dsimp only
    split
    · rename_i vs hv
      have hq : q.item ≠ k := by
        rintro rfl
        rw [h] at hv
        cases hv
      split
      · dsimp only
        rw [SMap.get_erase, if_neg (by first | exact hq | exact Ne.symm hq)]
        exact h
      · dsimp only
        rw [SMap.get_insert, if_neg (by first | exact hq | exact Ne.symm hq)]
        exact h
    · exact h
  | «include» g => exact h
  | option o =>
    unfold act PragmaData.option
    dsimp only
    split <;> exact h
  | plugin p => exact h

theorem push_pop_meta {d : PragmaData} {kv : MetaKeyValue} {k : Spanned Str} (h : MetaInv kv.key.item d) (hk : k.item = kv.key.item) :
    (d.pushmeta kv).popmeta k = d := by
  unfold MetaInv at h
  unfold PragmaData.pushmeta
  rw [h]
  unfold PragmaData.popmeta
  dsimp only
  rw [SMap.get_insert, if_pos hk.symm]
  dsimp only
  rw [if_pos (by simp), hk, erase_insert h]

/-- The directive which gets other metadata. -/
def remeta (d : Directive) (kvs : List (Spanned Str × Spanned MetaValue)) : Directive :=
  { d with metadata := ⟨{ d.metadata.item with keyValues := kvs }, d.metadata.span⟩ }

theorem same_remeta {d d' : Directive} {a b : List (Spanned Str × Spanned MetaValue)} (hd : SameButPlaces d d') (h : SameButPlaces a b) :
    SameButPlaces (remeta d a) (remeta d' b) := by
  unfold SameButPlaces at *
  have e : ∀ (d : Directive) (x : List (Spanned Str × Spanned MetaValue)), move (fun _ => (⟨0, 0, 0⟩ : Span)) (remeta d x) =
      remeta (move (fun _ => (⟨0, 0, 0⟩ : Span)) d) (move (fun _ => (⟨0, 0, 0⟩ : Span)) x) := fun _ _ => rfl
  rw [e, e, h, hd]

theorem same_append {α : Type} [Places α] {a b c d : List α} (h : SameButPlaces a b) (h' : SameButPlaces c d) : SameButPlaces (a ++ c) (b ++ d) := by
  have h : a.map (move _) = b.map (move _) := h
  have h' : c.map (move _) = d.map (move _) := h'
  change (a ++ c).map (move _) = (b ++ d).map (move _)
  rw [List.map_append, List.map_append, h, h']

theorem withMeta_remeta (k : Str) (v : MetaValue) (d : Directive) : withMeta k v d = if k ∈ d.metadata.item.keyValues.map (·.1.item) then d
    else remeta d (d.metadata.item.keyValues ++ [(⟨k, ⟨0, 0, 0⟩⟩, ⟨v, ⟨0, 0, 0⟩⟩)]) := rfl

theorem has_iff {own : List (Spanned Str × Spanned MetaValue)} (k : Str) : SMap.has own k = true ↔ k ∈ own.map (·.1.item) := by
  unfold SMap.has
  rw [List.any_eq_true, List.mem_map]
  constructor
  · rintro ⟨e, he, hh⟩
    exact ⟨e, he, by simpa using hh⟩
  · rintro ⟨e, he, hh⟩
    exact ⟨e, he, by simpa using hh⟩

theorem aug_snoc (own : List (Spanned Str × Spanned MetaValue)) (m : MetaStacks) (k : Spanned Str) (sp : Span) (v : Spanned MetaValue) :
    augmentKeyValues own (m ++ [(k, [(sp, v)])]) = (augmentKeyValues own m).bind fun own =>
      if SMap.has own k.item then some own else some (SMap.insert own ⟨k.item, sp⟩ v) := by
  unfold augmentKeyValues
  rw [List.foldlM_append]
  simp only [Option.bind_eq_bind, List.foldlM_cons, List.foldlM_nil, List.getLast?_singleton]
  congr 1
  funext own
  split <;> rfl

theorem aug_meta {d : PragmaData} {kv : MetaKeyValue} {v : MetaValue} (h : MetaInv kv.key.item d) (hv : SameButPlaces kv.value.item v) {x y y' : Directive}
    (h1 : d.augment x = some y) (h2 : (d.pushmeta kv).augment x = some y') :
    (y'.date = y.date ∧ y'.variant = y.variant) ∧ SameButPlaces y' (withMeta kv.key.item v y) := by
  unfold MetaInv at h
  have e : d.pushmeta kv = { d with metas := d.metas ++ [(kv.key, [(kv.key.span, kv.value)])] } := by
    unfold PragmaData.pushmeta
    rw [h]
    dsimp only
    rw [insert_absent h]
  rw [e] at h2
  unfold PragmaData.augment at h1 h2
  dsimp only at h2
  rw [aug_snoc] at h2
  cases hk : augmentKeyValues x.metadata.item.keyValues d.metas with
  | none => rw [hk] at h1; cases h1
  | some kvs =>
    rw [hk] at h1 h2
    injection h1 with h1
    subst h1
    rw [Option.bind_some] at h2
    rw [withMeta_remeta]
    by_cases hm : kv.key.item ∈ kvs.map (·.1.item)
    · rw [if_pos ((has_iff _).mpr hm)] at h2
      injection h2 with h2
      subst h2
      rw [if_pos hm]
      exact ⟨⟨rfl, rfl⟩, rfl⟩
    · have hh : SMap.has kvs kv.key.item = false := by
        rw [← Bool.not_eq_true, has_iff]
        exact hm
      rw [if_neg (by rw [hh]; simp)] at h2
      injection h2 with h2
      subst h2
      rw [if_neg hm]
      refine ⟨⟨rfl, rfl⟩, ?_⟩
      have hi : SMap.insert kvs ⟨kv.key.item, kv.key.span⟩ kv.value = kvs ++ [(⟨kv.key.item, kv.key.span⟩, kv.value)] := by
        unfold SMap.insert
        rw [hh]
        rfl
      rw [hi]
      refine same_remeta (d := { x with metadata := ⟨{ x.metadata.item with tags := augmentTags x.metadata.item.tags d.tags, keyValues := kvs }, x.metadata.span⟩ }) rfl
        (same_append rfl ?_)
      change [(_, _)] = [(_, _)]
      congr 2
      change (⟨_, _⟩ : Spanned MetaValue) = ⟨_, _⟩
      rw [show move (fun _ => (⟨0, 0, 0⟩ : Span)) kv.value.item = _ from hv]

/-- Metadata, pushed and popped. -/
def metaBracket (k : Str) (v : MetaValue) : Pair where
  Inv := MetaInv k
  fine := fun p => ∀ kv, p = .pushmeta kv → kv.key.item ≠ k
  push := fun p => ∃ kv : MetaKeyValue, p = .pushmeta kv ∧ kv.key.item = k ∧ SameButPlaces kv.value.item v
  pop := fun p => ∃ g : Spanned Str, p = .popmeta g ∧ g.item = k
  Rel := fun y y' => (y'.date = y.date ∧ y'.variant = y.variant) ∧ SameButPlaces y' (withMeta k v y)
  init := fun _ => rfl
  same := fun _ _ _ h k => by unfold MetaInv at *; rw [h]; exact k
  keep := fun p _ hp h => meta_act p hp h
  pushes := by
    rintro p ⟨g, rfl, _⟩ _ h
    cases h
  pops := by
    rintro p ⟨g, rfl, _⟩ _ h
    cases h
  back := by
    rintro d p q h ⟨g, rfl, rfl, _⟩ ⟨g', rfl, h2⟩
    exact push_pop_meta h h2
  aug := by
    rintro d p x y y' h ⟨g, rfl, rfl, hv⟩ h1 h2
    exact aug_meta h hv h1 h2
  rank := fun _ _ h => h.1

/-- Having metadata does not depend on places. -/
theorem withMeta_same (k : Str) (v : MetaValue) {d d' : Directive} (h : SameButPlaces d d') : SameButPlaces (withMeta k v d) (withMeta k v d') := by
  have hs : SameButPlaces d.metadata.item.keyValues d'.metadata.item.keyValues :=
    congrArg (fun x : Directive => x.metadata.item.keyValues) h
  have hi : d.metadata.item.keyValues.map (·.1.item) = d'.metadata.item.keyValues.map (·.1.item) := by
    have := congrArg (List.map fun e : Spanned Str × Spanned MetaValue => e.1.item) hs
    have e : ∀ l : List (Spanned Str × Spanned MetaValue), (move (fun _ => (⟨0, 0, 0⟩ : Span)) l : List (Spanned Str × Spanned MetaValue)).map (·.1.item) = l.map (·.1.item) := by
      intro l
      change (l.map _).map _ = _
      rw [List.map_map]
      rfl
    rwa [e, e] at this
  rw [withMeta_remeta, withMeta_remeta, hi]
  split
  · exact h
  · exact same_remeta h (same_append hs rfl)

/-! ### Lines with metadata -/

section
variable [Unicode] [DecOps] {decimal : Str → Except LexerError Dec}

theorem long_none {cfg : ParseCfg} {o : ParserOptions} {P : List Ranged} (h : ∀ s, .stringLiteral s ∉ toks P) : longStrings cfg o P = [] := by
  unfold longStrings
  rw [List.filterMap_eq_nil_iff]
  intro t ht
  split
  · rename_i s hs
    exact absurd (hs ▸ List.mem_map_of_mem ht) (h s)
  · rfl

theorem last_snoc (a : Ranged) (v : List Ranged) (e : Ranged) : (a :: (v ++ [e])).getLast? = some e := by
  rw [← List.cons_append]
  exact List.getLast?_concat

theorem pushmeta_line {k : Str} {v : MetaValue} {vts : List Token} (hk : ValidKey k) (hv : MeansValue vts v) :
    Line decimal (∀ s, .stringLiteral s ∉ vts) (metaBracket k v).push (.pushmeta :: .key k :: .colon :: (vts ++ [.eol])) := by
  refine ⟨.inr ⟨.pushmeta :: .key k :: .colon :: vts, rfl⟩, ?_, ?_⟩
  · intro x hx
    cases hx
    simp
  · intro P hP id path o
    have hP0 := hP
    obtain ⟨a, P, rfl, ha, hP⟩ := List.map_eq_cons_iff.mp hP
    obtain ⟨b, P, rfl, hb, hP⟩ := List.map_eq_cons_iff.mp hP
    obtain ⟨c, P, rfl, hc, hP⟩ := List.map_eq_cons_iff.mp hP
    obtain ⟨V, E, rfl, hV, hE⟩ := List.map_eq_append_iff.mp hP
    obtain ⟨e, E, rfl, he, hE⟩ := List.map_eq_cons_iff.mp hE
    rw [List.map_eq_nil_iff] at hE
    subst hE
    obtain ⟨ka, a1, a2⟩ := a
    obtain ⟨kb, b1, b2⟩ := b
    obtain ⟨kc, c1, c2⟩ := c
    dsimp only at ha hb hc
    subst ha hb hc
    have quiet : (∀ s, .stringLiteral s ∉ vts) → longStrings (cfgAt decimal id path) o (⟨.pushmeta, a1, a2⟩ :: ⟨.key k, b1, b2⟩ :: ⟨.colon, c1, c2⟩ :: (V ++ [e])) ++ [] = [] := by
      intro hq
      rw [List.append_nil]
      refine long_none fun s hs => ?_
      rw [hP0] at hs
      simp only [List.mem_cons, List.mem_append, List.not_mem_nil, or_false, reduceCtorEq, false_or] at hs
      exact hq s hs
    have covers : Covers (cfgAt decimal id path) ((⟨.pushmeta, a1, a2⟩ :: ⟨.key k, b1, b2⟩ :: ⟨.colon, c1, c2⟩ :: (V ++ [e])) ++ []) [] ⟨id, a1, e.stop⟩ := by
      refine .inl ⟨⟨.pushmeta, a1, a2⟩, ⟨.pushmeta, a1, a2⟩ :: ⟨.key k, b1, b2⟩ :: ⟨.colon, c1, c2⟩ :: (V ++ [e]), e, rfl, rfl, ?_, rfl⟩
      exact last_snoc ⟨.pushmeta, a1, a2⟩ (⟨.key k, b1, b2⟩ :: ⟨.colon, c1, c2⟩ :: V) e
    have hkey : At (cfgAt decimal id path) KeyP (⟨.key k, b1, b2⟩ :: ⟨.colon, c1, c2⟩ :: (V ++ [e])) (⟨.colon, c1, c2⟩ :: (V ++ [e])) ⟨k, ⟨id, b1, b2⟩⟩ :=
      ⟨⟨⟨_, _, rfl⟩, hk⟩, .inl ⟨⟨.key k, b1, b2⟩, [⟨.key k, b1, b2⟩], _, rfl, rfl, rfl, rfl⟩⟩
    have key : ∃ vv : Spanned MetaValue, SameButPlaces vv.item v ∧ KeyValueP (cfgAt decimal id path) o (⟨.key k, b1, b2⟩ :: ⟨.colon, c1, c2⟩ :: (V ++ [e])) [e] ⟨⟨k, ⟨id, b1, b2⟩⟩, vv⟩ := by
      rcases hv.2 with ⟨h1, h2⟩ | h
      · rw [h1, List.map_eq_nil_iff] at hV
        subst hV
        exact ⟨⟨.simple .null, _⟩, by rw [h2]; rfl, .null hkey ⟨_, _, rfl⟩ (.inr ⟨rfl, rfl⟩)⟩
      · obtain ⟨vv, h1, h2⟩ := h (cfgAt decimal id path) o V [] e hV he
        exact ⟨vv, h2, .value hkey ⟨_, _, rfl⟩ h1⟩
    obtain ⟨vv, k1, k2⟩ := key
    refine ⟨⟨.pragma (.pushmeta ⟨⟨k, ⟨id, b1, b2⟩⟩, vv⟩), ⟨id, a1, e.stop⟩⟩, _, _, ?_, rfl, ⟨_, rfl, rfl, k1⟩, quiet⟩
    have eol : EndOfLine [e] [] := by
      obtain ⟨ke, e1, e2⟩ := e
      dsimp only at he
      subst he
      exact .inl ⟨_, _, rfl⟩
    have := FileP.cons (r := []) (es := []) (es' := []) (ws' := []) (o' := o) (.pragma (.pushmeta ⟨_, _, rfl⟩ (by simpa using k2)) eol covers) .nil
    rwa [List.append_nil] at this

theorem popmeta_line {k : Str} {v : MetaValue} (quiet : Prop) (hk : ValidKey k) : Line decimal quiet (metaBracket k v).pop [.popmeta, .key k, .colon, .eol] := by
  refine ⟨.inr ⟨[.popmeta, .key k, .colon], rfl⟩, ?_, ?_⟩
  · intro x hx
    cases hx
    simp
  · intro P hP id path o
    have hP0 := hP
    obtain ⟨a, P, rfl, ha, hP⟩ := List.map_eq_cons_iff.mp hP
    obtain ⟨b, P, rfl, hb, hP⟩ := List.map_eq_cons_iff.mp hP
    obtain ⟨c, P, rfl, hc, hP⟩ := List.map_eq_cons_iff.mp hP
    obtain ⟨e, P, rfl, he, hP⟩ := List.map_eq_cons_iff.mp hP
    rw [List.map_eq_nil_iff] at hP
    subst hP
    obtain ⟨ka, a1, a2⟩ := a
    obtain ⟨kb, b1, b2⟩ := b
    obtain ⟨kc, c1, c2⟩ := c
    obtain ⟨ke, e1, e2⟩ := e
    dsimp only at ha hb hc he
    subst ha hb hc he
    refine ⟨⟨.pragma (.popmeta ⟨k, ⟨id, a1, c2⟩⟩), ⟨id, a1, e2⟩⟩, _,
      longStrings (cfgAt decimal id path) o [⟨.popmeta, a1, a2⟩, ⟨.key k, b1, b2⟩, ⟨.colon, c1, c2⟩, ⟨.eol, e1, e2⟩] ++ [], ?_, rfl, ⟨_, rfl, rfl⟩, fun _ => rfl⟩
    exact FileP.cons (run := [⟨.popmeta, a1, a2⟩, ⟨.key k, b1, b2⟩, ⟨.colon, c1, c2⟩, ⟨.eol, e1, e2⟩]) (r := []) (es := []) (es' := []) (ws' := [])
        (o' := o) (.pragma (.popmeta ⟨⟨_, ⟨_, _, rfl⟩, ⟨_, ⟨⟨_, _, rfl⟩, hk⟩, ⟨_, _, rfl⟩⟩⟩,
            .inl ⟨⟨.popmeta, a1, a2⟩, [⟨.popmeta, a1, a2⟩, ⟨.key k, b1, b2⟩, ⟨.colon, c1, c2⟩], _, rfl, rfl, rfl, rfl⟩⟩)
          (.inl ⟨_, _, rfl⟩) (.inl ⟨_, _, _, rfl, rfl, rfl, rfl⟩)) .nil

/-- Metadata is pushed only where it says so. -/
theorem pushes_of {cfg : ParseCfg} {o o' : ParserOptions} {ts : List Ranged} {ds : List (Spanned Declaration)} {es : List PErr}
    {ws : List Report} (h : FileP cfg o ts ds o' es ws) : ∀ d ∈ ds, ∀ kv, d.item = .pragma (.pushmeta kv) → Pushes kv.key.item (toks ts) := by
  induction h with
  | nil => intro d hd; cases hd
  | @cons o o' o'' run r d ds es es' ws' hd _ ih =>
    intro y hy kv hx
    rcases List.mem_cons.mp hy with rfl | hy
    · cases hd with
      | directive => cases hx
      | pragma hp _ _ =>
        cases hx
        generalize run ++ r = ts at hp
        cases hp with
        | pushmeta hw hkv =>
          obtain ⟨a1, a2, rfl⟩ := hw
          have key : ∀ {i r : List Ranged}, KeyValueP cfg o i r kv → ∃ j, KeyP i j kv.key.item := by
            intro i r hkv
            cases hkv with
            | value hk _ _ => exact ⟨_, hk.1⟩
            | null hk _ _ => exact ⟨_, hk.1⟩
          obtain ⟨j, ⟨b1, b2, rfl⟩, _⟩ := key hkv
          exact ⟨[], toks j, rfl⟩
    · obtain ⟨a, b, e⟩ := ih y hy kv hx
      exact ⟨toks run ++ a, b, by rw [toks, List.map_append, List.append_assoc, ← e]⟩

end

end Lima.Surround
