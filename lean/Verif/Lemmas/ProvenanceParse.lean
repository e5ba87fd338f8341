import Verif.Lemmas.ProvenanceGrammar
import Verif.Lemmas.PragmaSplice
import Verif.Lemmas.FileSound
import Verif.Lemmas.WholeParse

/-! Provenance of the directives of a whole parse: what holds of the tokens of all texts holds of the directives. -/

set_option linter.unusedSectionVars false

namespace Lima
open Spec

section
variable [Categories] [Unicode] [DecOps]

/-! ### Declarations -/

def GoodDeclaration : Declaration → Prop
  | .directive d => GoodDirective d
  | .pragma (.pushtag t) => GoodTag t.item
  | .pragma (.pushmeta kv) => GoodKeyValue kv.key.item kv.value.item
  | _ => True

theorem keyword_ok {α : Type} {t : Token} {p : Phrase α} {G : α → Prop} (hp : Sound p G) : Sound (KeywordP t p) G := fun _ _ _ h hi => by
  obtain ⟨j, h1, h2⟩ := h
  exact hp _ _ _ h2 (word_ok h1 hi).1

theorem keyColon_ok : Sound KeyColonP (fun _ => True) := fun _ _ _ h hi => by
  obtain ⟨j, h1, h2⟩ := h
  exact ⟨(word_ok h2 (keyP_ok _ _ _ h1 hi).1).1, trivial⟩

theorem pragma_ok {cfg : ParseCfg} {o o' : ParserOptions} {i r : List Ranged} {p : Pragma} {es : List PErr}
    (h : PragmaP cfg o i r p o' es) (hi : AllOk i) : AllOk r ∧ GoodDeclaration (.pragma p) := by
  cases h with
  | pushtag h => exact (keyword_ok tag_ok).at _ _ _ h hi
  | poptag h => exact ⟨((keyword_ok tag_ok).at _ _ _ h hi).1, trivial⟩
  | pushmeta h1 h2 => exact keyValue_ok cfg o _ _ _ h2 (word_ok h1 hi).1
  | popmeta h => exact ⟨((keyword_ok keyColon_ok).at _ _ _ h hi).1, trivial⟩
  | «include» h1 h2 => exact ⟨(string_ok.at _ _ _ h2 (word_ok h1 hi).1).1, trivial⟩
  | option h1 h2 h3 _ => exact ⟨(string_ok.at _ _ _ h3 (string_ok.at _ _ _ h2 (word_ok h1 hi).1).1).1, trivial⟩
  | plugin h1 h2 h3 => exact ⟨(string_ok.at.maybe _ _ _ h3 (string_ok.at _ _ _ h2 (word_ok h1 hi).1).1).1, trivial⟩

theorem declaration_ok {cfg : ParseCfg} {o o' : ParserOptions} {i r : List Ranged} {d : Spanned Declaration} {es : List PErr}
    (h : DeclarationP cfg o i r d o' es) (hi : AllOk i) : AllOk r ∧ GoodDeclaration d.item := by
  cases h with
  | directive h _ => exact directive_ok h hi
  | pragma h h2 _ => exact ⟨eol_ok h2 (pragma_ok h hi).1, (pragma_ok h hi).2⟩

theorem file_ok {cfg : ParseCfg} {o o' : ParserOptions} {i : List Ranged} {ds : List (Spanned Declaration)} {es : List PErr} {ws : List Report}
    (h : FileP cfg o i ds o' es ws) (hi : AllOk i) : ∀ d ∈ ds, GoodDeclaration d.item := by
  induction h with
  | nil => intro d hd; cases hd
  | cons h _ ih =>
    obtain ⟨h1, h2⟩ := declaration_ok h hi
    intro d hd
    rcases List.mem_cons.mp hd with rfl | hd
    · exact h2
    · exact ih h1 d hd

/-! ### Pragmas -/

theorem SMap.mem_insert' {κ ν : Type} [DecidableEq κ] {m : List (Spanned κ × ν)} {k : Spanned κ} {v : ν}
    {e : Spanned κ × ν} (h : e ∈ SMap.insert m k v) : e ∈ m ∨ ((e.1 = k ∨ ∃ x ∈ m, x.1 = e.1) ∧ e.2 = v) := by
  unfold SMap.insert at h
  split at h
  · obtain ⟨x, hx, rfl⟩ := List.mem_map.mp h
    split
    · exact .inr ⟨.inr ⟨x, hx, rfl⟩, rfl⟩
    · exact .inl hx
  · rcases List.mem_append.mp h with h | h
    · exact .inl h
    · simp only [List.mem_singleton] at h
      subst h
      exact .inr ⟨.inl rfl, rfl⟩

theorem SMap.get_mem {κ ν : Type} [DecidableEq κ] {m : List (Spanned κ × ν)} {k : κ} {v : ν} (h : SMap.get m k = some v) :
    ∃ e ∈ m, e.1.item = k ∧ e.2 = v := by
  induction m with
  | nil => cases h
  | cons x m ih =>
    rw [SMap.get_cons] at h
    split at h
    · cases h
      exact ⟨x, by simp, by assumption, rfl⟩
    · obtain ⟨e, he, h⟩ := ih h
      exact ⟨e, by simp [he], h⟩

structure GoodData (d : PragmaData) : Prop where
  tag : ∀ e ∈ d.tags, GoodTag e.1.item ∧ ∀ t ∈ e.2, GoodTag t.item
  metadata : ∀ e ∈ d.metas, (ValidKey e.1.item ∧ LexOk (.key e.1.item)) ∧ ∀ v ∈ e.2, GoodMetaValue v.2.item

theorem GoodData.of {d d' : PragmaData} (h : GoodData d) (h1 : d'.metas = d.metas) (h2 : d'.tags = d.tags) : GoodData d' :=
  ⟨h2 ▸ h.tag, h1 ▸ h.metadata⟩

theorem GoodData.pushtag {d : PragmaData} (h : GoodData d) {t : Spanned Str} (ht : GoodTag t.item) : GoodData (d.pushtag t) := by
  unfold PragmaData.pushtag
  split
  · rename_i others hg
    obtain ⟨x, hx, _, rfl⟩ := SMap.get_mem hg
    refine ⟨?_, h.metadata⟩
    intro e he
    rcases SMap.mem_insert' he with he | ⟨he, hv⟩
    · exact h.tag e he
    · refine ⟨?_, ?_⟩
      · rcases he with he | ⟨y, hy, he⟩
        · rw [he]; exact ht
        · rw [← he]; exact (h.tag y hy).1
      · rw [hv]
        intro u hu
        rcases List.mem_append.mp hu with hu | hu
        · exact (h.tag x hx).2 u hu
        · rw [List.mem_singleton.mp hu]; exact ht
  · refine ⟨?_, h.metadata⟩
    intro e he
    rcases SMap.mem_insert' he with he | ⟨he, hv⟩
    · exact h.tag e he
    · refine ⟨?_, ?_⟩
      · rcases he with he | ⟨y, hy, he⟩
        · rw [he]; exact ht
        · rw [← he]; exact (h.tag y hy).1
      · rw [hv]; intro u hu; cases hu

theorem GoodData.poptag {d : PragmaData} (h : GoodData d) (t : Spanned Str) : GoodData (d.poptag t) := by
  unfold PragmaData.poptag
  split
  · rename_i others hg
    obtain ⟨x, hx, hxt, rfl⟩ := SMap.get_mem hg
    split
    · exact ⟨fun e he => h.tag e (SMap.mem_erase.mp he).1, h.metadata⟩
    · refine ⟨?_, h.metadata⟩
      intro e he
      rcases SMap.mem_insert' he with he | ⟨he, hv⟩
      · exact h.tag e he
      · refine ⟨?_, ?_⟩
        · rcases he with he | ⟨y, hy, he⟩
          · rw [he, ← hxt]; exact (h.tag x hx).1
          · rw [← he]; exact (h.tag y hy).1
        · rw [hv]
          intro u hu
          exact (h.tag x hx).2 u (List.dropLast_subset _ hu)
  · exact h.of rfl rfl

theorem GoodData.pushmeta {d : PragmaData} (h : GoodData d) {kv : MetaKeyValue} (ht : GoodKeyValue kv.key.item kv.value.item) :
    GoodData (d.pushmeta kv) := by
  unfold PragmaData.pushmeta
  split
  · rename_i others hg
    obtain ⟨x, hx, _, rfl⟩ := SMap.get_mem hg
    refine ⟨h.tag, ?_⟩
    intro e he
    rcases SMap.mem_insert' he with he | ⟨he, hv⟩
    · exact h.metadata e he
    · refine ⟨?_, ?_⟩
      · rcases he with he | ⟨y, hy, he⟩
        · rw [he]; exact ht.1
        · rw [← he]; exact (h.metadata y hy).1
      · rw [hv]
        intro u hu
        rcases List.mem_append.mp hu with hu | hu
        · exact (h.metadata x hx).2 u hu
        · rw [List.mem_singleton.mp hu]; exact ht.2
  · refine ⟨h.tag, ?_⟩
    intro e he
    rcases SMap.mem_insert' he with he | ⟨he, hv⟩
    · exact h.metadata e he
    · refine ⟨?_, ?_⟩
      · rcases he with he | ⟨y, hy, he⟩
        · rw [he]; exact ht.1
        · rw [← he]; exact (h.metadata y hy).1
      · rw [hv]; intro u hu; rw [List.mem_singleton.mp hu]; exact ht.2

theorem GoodData.popmeta {d : PragmaData} (h : GoodData d) (k : Spanned Str) : GoodData (d.popmeta k) := by
  unfold PragmaData.popmeta
  split
  · rename_i others hg
    obtain ⟨x, hx, hxt, rfl⟩ := SMap.get_mem hg
    split
    · exact ⟨h.tag, fun e he => h.metadata e (SMap.mem_erase.mp he).1⟩
    · refine ⟨h.tag, ?_⟩
      intro e he
      rcases SMap.mem_insert' he with he | ⟨he, hv⟩
      · exact h.metadata e he
      · refine ⟨?_, ?_⟩
        · rcases he with he | ⟨y, hy, he⟩
          · rw [he, ← hxt]; exact (h.metadata x hx).1
          · rw [← he]; exact (h.metadata y hy).1
        · rw [hv]
          intro u hu
          exact (h.metadata x hx).2 u (List.dropLast_subset _ hu)
  · exact h.of rfl rfl

theorem augmentTags_good {m : TagStacks} (hm : ∀ e ∈ m, GoodTag e.1.item ∧ ∀ t ∈ e.2, GoodTag t.item) {own : List (Spanned Str)}
    (ho : ∀ t ∈ own, GoodTag t.item) : ∀ t ∈ augmentTags own m, GoodTag t.item := by
  unfold augmentTags
  induction m generalizing own with
  | nil => exact ho
  | cons e m ih =>
    rw [List.foldl_cons]
    refine ih (fun e he => hm e (by simp [he])) ?_
    split
    · exact ho
    · have key : ∀ x, GoodTag x.item → ∀ t ∈ SSet.insert own x, GoodTag t.item := by
        intro x hx t ht
        unfold SSet.insert at ht
        split at ht
        · exact ho t ht
        · rcases List.mem_append.mp ht with ht | ht
          · exact ho t ht
          · rw [List.mem_singleton.mp ht]; exact hx
      refine key _ ?_
      split
      · exact (hm e (by simp)).2 _ (List.mem_of_getLast? (by assumption))
      · exact (hm e (by simp)).1

theorem augmentKeyValues_good {m : MetaStacks} (hm : ∀ e ∈ m, (ValidKey e.1.item ∧ LexOk (.key e.1.item)) ∧ ∀ v ∈ e.2, GoodMetaValue v.2.item)
    {own kvs : List (Spanned Str × Spanned MetaValue)} (ho : ∀ kv ∈ own, GoodKeyValue kv.1.item kv.2.item)
    (h : augmentKeyValues own m = some kvs) : ∀ kv ∈ kvs, GoodKeyValue kv.1.item kv.2.item := by
  unfold augmentKeyValues at h
  induction m generalizing own with
  | nil => cases h; exact ho
  | cons e m ih =>
    rw [List.foldlM_cons] at h
    split at h
    · exact ih (fun e he => hm e (by simp [he])) ho h
    · cases hl : e.2.getLast? with
      | none => rw [hl] at h; cases h
      | some y =>
        rw [hl] at h
        refine ih (fun e he => hm e (by simp [he])) ?_ h
        intro kv hkv
        obtain ⟨hk, hv⟩ := hm e (by simp)
        rcases SMap.mem_insert' hkv with hkv | ⟨he, hv'⟩
        · exact ho kv hkv
        · refine ⟨?_, ?_⟩
          · rcases he with he | ⟨x, hx, he⟩
            · rw [he]; exact hk
            · rw [← he]; exact (ho x hx).1
          · rw [hv']; exact hv y (List.mem_of_getLast? hl)

theorem GoodData.augment {d : PragmaData} (h : GoodData d) {x y : Directive} (hx : GoodDirective x) (hy : d.augment x = some y) : GoodDirective y := by
  unfold PragmaData.augment at hy
  split at hy
  · cases hy
  · rename_i kvs hk
    cases hy
    obtain ⟨h1, h2, h3⟩ := hx
    exact ⟨h1, ⟨nodup_augmentKeyValues _ _ _ h2.keys hk, nodup_augmentTags _ _ h2.tags, h2.links, augmentTags_good h.tag h2.tag, h2.link,
      augmentKeyValues_good h.metadata h2.keyValue hk⟩, h3⟩

def GoodAll (ds : List (Spanned Declaration)) : Prop := ∀ d ∈ ds, GoodDeclaration d.item

structure GoodState (st : PragmaState) : Prop where
  current : GoodAll st.current
  stacked : ∀ f ∈ st.stacked, GoodAll f.2
  remaining : ∀ f ∈ st.remaining, GoodAll f.2
  data : GoodData st.data

theorem GoodState.withData {st : PragmaState} (h : GoodState st) {d : PragmaData} (hd : GoodData d) : GoodState { st with data := d } :=
  ⟨h.current, h.stacked, h.remaining, hd⟩

theorem AMap.mem_erase_sub {κ ν : Type} [DecidableEq κ] {m : List (κ × ν)} {k : κ} {e : κ × ν} (h : e ∈ AMap.erase m k) : e ∈ m := by
  unfold AMap.erase at h
  exact (List.mem_filter.mp h).1

theorem GoodState.includeOne {env : PragmaEnv} {span : Span} {st : PragmaState} (h : GoodState st) (p : Path) :
    GoodState (st.includeOne env span p) := by
  unfold PragmaState.includeOne
  split
  · rename_i ds hg
    have ho := opened_metas env span st.data p
    refine ⟨h.remaining _ (AMap.mem_of_get hg), ?_, fun f hf => h.remaining f (AMap.mem_erase_sub hf), h.data.of ho.1 ho.2.1⟩
    intro f hf
    rcases List.mem_cons.mp hf with rfl | hf
    · exact h.current
    · exact h.stacked f hf
  · have ho := notOpened_metas env span st.data p
    exact h.withData (h.data.of ho.1 ho.2.1)

theorem GoodState.includeGlob {env : PragmaEnv} {st st' : PragmaState} (h : GoodState st) {g : Spanned Str}
    (hs : st.includeGlob env g = some st') : GoodState st' := by
  have fold : ∀ (ps : List Path) (st : PragmaState), GoodState st → GoodState (ps.foldl (PragmaState.includeOne env g.span) st) := by
    intro ps
    induction ps with
    | nil => intro st h; exact h
    | cons p ps ih => intro st h; exact ih _ (h.includeOne p)
  unfold PragmaState.includeGlob at hs
  split at hs
  · cases hs
  · cases hs
    refine fold _ _ ?_
    split
    · exact h.withData (h.data.of rfl rfl)
    · exact h
  · cases hs
    exact h.withData (h.data.of rfl rfl)

theorem GoodState.step {env : PragmaEnv} {st : PragmaState} (h : GoodState st) :
    match st.step env with
    | .yield d st' => GoodDirective d.item ∧ GoodState st'
    | .continue st' => GoodState st'
    | _ => True := by
  obtain ⟨path, current, stacked, remaining, data⟩ := st
  cases current with
  | nil =>
    cases stacked with
    | nil => trivial
    | cons f fs => exact ⟨h.stacked f (by simp), fun g hg => h.stacked g (by simp [hg]), h.remaining, h.data⟩
  | cons x rest =>
    have hx : GoodDeclaration x.item := h.current x (by simp)
    have hr : GoodState ⟨path, rest, stacked, remaining, data⟩ := ⟨fun d hd => h.current d (by simp [hd]), h.stacked, h.remaining, h.data⟩
    unfold PragmaState.step
    cases hd : x.item with
    | directive d =>
      rw [hd] at hx
      simp only [hd]
      cases ha : data.augment d with
      | none => trivial
      | some y => exact ⟨h.data.augment hx ha, hr⟩
    | pragma p =>
      rw [hd] at hx
      cases p with
      | pushtag t => simp only [hd]; exact hr.withData (h.data.pushtag hx)
      | poptag t => simp only [hd]; exact hr.withData (h.data.poptag t)
      | pushmeta kv => simp only [hd]; exact hr.withData (h.data.pushmeta hx)
      | popmeta k => simp only [hd]; exact hr.withData (h.data.popmeta k)
      | «include» g =>
        simp only [hd]
        cases hi : PragmaState.includeGlob env ⟨path, rest, stacked, remaining, data⟩ g with
        | none => trivial
        | some st' => exact hr.includeGlob hi
      | option o =>
        simp only [hd]
        refine hr.withData (h.data.of (option_metas _ _) ?_)
        unfold PragmaData.option
        dsimp only
        split <;> rfl
      | plugin p => simp only [hd]; exact hr.withData (h.data.of rfl rfl)

theorem GoodState.collect {env : PragmaEnv} {n : Nat} {st : PragmaState} (h : GoodState st) {r : List (Spanned Directive) × PragmaState}
    (hr : PragmaState.collectFuel env n st = .ok r) : ∀ d ∈ r.1, GoodDirective d.item := by
  induction n generalizing st r with
  | zero => cases hr
  | succ n ih =>
    have hs := h.step (env := env)
    unfold PragmaState.collectFuel at hr
    cases hst : st.step env with
    | yield d st' =>
      rw [hst] at hr hs
      simp only at hr hs
      cases hc : PragmaState.collectFuel env n st' with
      | ok r' =>
        rw [hc] at hr
        cases hr
        intro x hx
        rcases List.mem_cons.mp hx with rfl | hx
        · exact hs.1
        · exact ih hs.2 hc x hx
      | err e => rw [hc] at hr; cases hr
      | panic => rw [hc] at hr; cases hr
    | «continue» st' =>
      rw [hst] at hr hs
      exact ih hs hr
    | done => rw [hst] at hr; cases hr; intro d hd; cases hd
    | panic => rw [hst] at hr; cases hr

theorem process_good {env : PragmaEnv} {root : Option Path} {parsed : List (Option Path × List (Spanned Declaration))} {o : Options}
    (h : ∀ f ∈ parsed, GoodAll f.2) {ds : List (Spanned Directive)} {data : PragmaData} (hp : processPragmas env root parsed o = .ok (ds, data)) :
    ∀ d ∈ ds, GoodDirective d.item := by
  unfold processPragmas PragmaState.new at hp
  cases hg : AMap.get parsed root with
  | none => rw [hg] at hp; cases hp
  | some current =>
    rw [hg] at hp
    simp only at hp
    have hst : GoodState ⟨root, current, [], AMap.erase parsed root, ⟨[], [], [], o, [], []⟩⟩ :=
      ⟨h _ (AMap.mem_of_get hg), fun f hf => (by cases hf), fun f hf => h f (AMap.mem_erase_sub hf),
        ⟨fun e he => (by cases he), fun e he => (by cases he)⟩⟩
    unfold PragmaState.collect at hp
    generalize hn : PragmaState.size _ + 1 = n at hp
    cases hc : PragmaState.collectFuel env n ⟨root, current, [], AMap.erase parsed root, ⟨[], [], [], o, [], []⟩⟩ with
    | ok r => rw [hc] at hp; cases hp; exact hst.collect hc
    | err e => rw [hc] at hp; cases hp
    | panic => rw [hc] at hp; cases hp

end

end Lima
