import Verif.Lemmas.PrintParse

/-! The metadata of a printed directive is parsed as the metadata. -/

namespace Lima
open Spec

section
variable [Unicode] [DecOps]

/-! ### Lines of metadata -/

open Grammar (Metadatum)

def printedTokens : Metadatum → List Token
  | .tag t => [.tag t.item]
  | .link t => [.link t.item]
  | .keyValue kv => keyValueTokens (kv.item.key, kv.item.value)

/-- The same line but for locations. -/
def SameLine : Metadatum → Metadatum → Prop
  | .tag t, .tag u => t.item = u.item
  | .link t, .link u => t.item = u.item
  | .keyValue x, .keyValue y => x.item.key.item = y.item.key.item ∧ valueSaid x.item.value.item = valueSaid y.item.value.item
  | _, _ => False

def WfLine : Metadatum → Prop
  | .tag t | .link t => ∀ c ∈ t.item, TagChar c
  | .keyValue kv => ValidKey kv.item.key.item ∧ WfMetaValue kv.item.value.item

def lineAccounts : Metadatum → List Account
  | .keyValue kv => valueAccounts kv.item.value.item
  | _ => []

theorem lineP_of (cfg : ParseCfg) {o : ParserOptions} {x : Metadatum} (h : WfLine x) (hk : ∀ a ∈ lineAccounts x, KnowsAccount o a)
    {ind : Ranged} {rx k r : List Ranged} (hi : ind.tok = .indent) (hrun : rx.map (·.tok) = printedTokens x) (hr : EndOfLine k r) :
    ∃ y, LineP cfg o (ind :: rx ++ k) r y ∧ SameLine x y := by
  cases x with
  | tag t =>
    obtain ⟨y, h1, h2⟩ := at_of (cfg := cfg) (tagP_of (r := k) h hrun)
    exact ⟨.tag y, .tag (word_of hi _) h1 hr, h2.symm⟩
  | link t =>
    obtain ⟨y, h1, h2⟩ := at_of (cfg := cfg) (linkP_of (r := k) h hrun)
    exact ⟨.link y, .link (word_of hi _) h1 hr, h2.symm⟩
  | keyValue kv =>
    have key : ∃ kv', KeyValueP cfg o (rx ++ k) k kv' ∧ kv.item.key.item = kv'.key.item ∧
        valueSaid kv.item.value.item = valueSaid kv'.value.item := by
      obtain ⟨a, ra, rfl, ha, h1⟩ := run_cons hrun
      obtain ⟨b, rb, rfl, hb, h2⟩ := run_cons h1
      obtain ⟨y, hy1, hy2⟩ := at_of (cfg := cfg) (p := KeyP) (run := [a]) (r := b :: rb ++ k) ⟨word_of ha _, h.1⟩
      obtain ⟨v, hv1, hv2⟩ := at_of' (cfg := cfg) (metaValueP_of cfg h.2 hk h2
        (fun e _ => ⟨(NoOp.eol hr).not_continues, not_currency_eol hr⟩))
      exact ⟨⟨y, v⟩, .value hy1 (word_of hb _) hv1, hy2.symm, hv2⟩
    obtain ⟨y, hy1, hy2⟩ := at_of' (cfg := cfg) key
    exact ⟨.keyValue y, .keyValue (word_of hi _) hy1 hr, hy2⟩

omit [Unicode] [DecOps] in
/-- Phrases each in its own indented lines. -/
theorem many_lines {α β : Type} {Q : Phrase β} {g : α → List Token} {S : α → β → Prop} : ∀ (xs : List α),
    (∀ x ∈ xs, ∀ (ind : Ranged) (rx k r : List Ranged), ind.tok = .indent → rx.map (·.tok) = g x → EndOfLine k r →
      ∃ y, Q (ind :: rx ++ k) r y ∧ S x y) →
    ∀ {run k r : List Ranged}, run.map (·.tok) = xs.flatMap (fun x => .eol :: .indent :: g x) → EndOfLine k r →
    ∃ n ys, EndOfLine (run ++ k) n ∧ Many Q n r ys ∧ List.Forall₂ S xs ys ∧ ∃ sfx, n = sfx ++ r
  | [], _, run, k, r, hrun, hr => by
    rw [run_nil hrun]
    exact ⟨r, [], hr, .nil, .nil, [], rfl⟩
  | x :: xs, h, run, k, r, hrun, hr => by
    obtain ⟨e, ra, rfl, he, h1⟩ := run_cons hrun
    obtain ⟨ind, ra, rfl, hi, h2⟩ := run_cons h1
    obtain ⟨rx, rest, rfl, h3, h4⟩ := run_append h2
    obtain ⟨n, ys, h5, h6, h7, sfx, h8⟩ := many_lines xs (fun x hx => h x (by simp [hx])) h4 hr
    obtain ⟨y, hy1, hy2⟩ := h x (by simp) ind rx _ _ hi h3 h5
    obtain ⟨mid, h9⟩ := eol_suffix h5
    refine ⟨ind :: rx ++ (rest ++ k), y :: ys, ?_, .cons hy1 h6, .cons hy2 h7, ?_⟩
    · have : e :: ind :: (rx ++ rest) ++ k = e :: (ind :: rx ++ (rest ++ k)) := by simp
      rw [this]
      exact .inl (word_of he _)
    · rw [h9, h8]
      exact ⟨ind :: rx ++ mid ++ sfx, by simp⟩

/-! ### Metadata -/

structure WfMetadata (m : Metadata) : Prop where
  keys : (m.keyValues.map (·.1.item)).Nodup
  tags : (m.tags.map (·.item)).Nodup
  links : (m.links.map (·.item)).Nodup
  tag : ∀ t ∈ m.tags, ∀ c ∈ t.item, TagChar c
  link : ∀ t ∈ m.links, ∀ c ∈ t.item, TagChar c
  keyValue : ∀ kv ∈ m.keyValues, ValidKey kv.1.item ∧ WfMetaValue kv.2.item

/-- The lines of keys and values. -/
def keyItems (m : Metadata) : List Metadatum := m.keyValues.map (fun kv => .keyValue ⟨⟨kv.1, kv.2⟩, kv.1.span⟩)

/-- All lines. -/
def lineItems (m : Metadata) : List Metadatum := m.tags.map .tag ++ m.links.map .link ++ keyItems m

omit [Unicode] [DecOps] in
theorem block_keyItems (m : Metadata) : block (keyLines m) = (keyItems m).flatMap (fun x => .eol :: .indent :: printedTokens x) := by
  simp [block, keyLines, keyItems, List.flatMap_map, printedTokens]

omit [Unicode] [DecOps] in
theorem block_lineItems (m : Metadata) :
    block (tagLines m ++ keyLines m) = (lineItems m).flatMap (fun x => .eol :: .indent :: printedTokens x) := by
  rw [block_append, block_keyItems]
  simp [block, tagLines, lineItems, List.flatMap_map, printedTokens]

theorem wf_keyItems {m : Metadata} (h : WfMetadata m) : ∀ x ∈ keyItems m, WfLine x := by
  intro x hx
  obtain ⟨kv, hkv, rfl⟩ := List.mem_map.mp hx
  exact h.keyValue kv hkv

theorem wf_lineItems {m : Metadata} (h : WfMetadata m) : ∀ x ∈ lineItems m, WfLine x := by
  intro x hx
  simp only [lineItems, List.mem_append, List.mem_map] at hx
  rcases hx with (⟨t, ht, rfl⟩ | ⟨t, ht, rfl⟩) | hx
  · exact h.tag t ht
  · exact h.link t ht
  · exact wf_keyItems h x hx

omit [Unicode] [DecOps] in
theorem accounts_keyItems (m : Metadata) : ∀ x ∈ keyItems m, ∀ a ∈ lineAccounts x, a ∈ metadataAccounts m := by
  intro x hx a ha
  obtain ⟨kv, hkv, rfl⟩ := List.mem_map.mp hx
  exact List.mem_flatMap.mpr ⟨kv, hkv, ha⟩

omit [Unicode] [DecOps] in
theorem accounts_lineItems (m : Metadata) : ∀ x ∈ lineItems m, ∀ a ∈ lineAccounts x, a ∈ metadataAccounts m := by
  intro x hx a ha
  simp only [lineItems, List.mem_append, List.mem_map] at hx
  rcases hx with (⟨t, ht, rfl⟩ | ⟨t, ht, rfl⟩) | hx
  · cases ha
  · cases ha
  · exact accounts_keyItems m x hx a ha

omit [Unicode] [DecOps] in
theorem names_same {xs ys : List Metadatum} (h : List.Forall₂ SameLine xs ys) : ys.map lineName = xs.map lineName := by
  induction h with
  | nil => rfl
  | @cons x y _ _ h _ ih =>
    simp only [List.map_cons, ih]
    congr 1
    cases x <;> cases y <;> simp_all [SameLine, lineName]

omit [Unicode] [DecOps] in
theorem lines_same {xs ys : List Metadatum} (h : List.Forall₂ SameLine xs ys) :
    (lineKeyValues xs).map keyValueSaid = (lineKeyValues ys).map keyValueSaid ∧
    (lineTags xs).map (·.item) = (lineTags ys).map (·.item) ∧ (lineLinks xs).map (·.item) = (lineLinks ys).map (·.item) := by
  induction h with
  | nil => exact ⟨rfl, rfl, rfl⟩
  | @cons x y _ _ h _ ih =>
    cases x <;> cases y <;> simp_all [SameLine, lineKeyValues, lineTags, lineLinks, keyValueSaid]

omit [Unicode] [DecOps] in
theorem firsts_nodup {α κ : Type} [DecidableEq κ] (name : α → κ) : ∀ (xs : List α) (seen : List κ), (xs.map name).Nodup →
    (∀ x ∈ xs, name x ∉ seen) → firsts name seen xs = xs ∧ repeats name seen xs = []
  | [], _, _, _ => ⟨rfl, rfl⟩
  | x :: xs, seen, hn, hs => by
    simp only [List.map_cons, List.nodup_cons] at hn
    obtain ⟨h1, h2⟩ := firsts_nodup name xs (name x :: seen) hn.2 (by
      intro y hy h
      rcases List.mem_cons.mp h with h | h
      · exact hn.1 (h ▸ List.mem_map_of_mem hy)
      · exact hs y (by simp [hy]) h)
    simp [firsts, repeats, hs x (by simp), h1, h2]

theorem keyItems_nodup {m : Metadata} (h : WfMetadata m) : ((keyItems m).map lineName).Nodup := by
  have : (keyItems m).map lineName = (m.keyValues.map (·.1.item)).map (fun k => (DupKind.key, k)) := by
    simp [keyItems, lineName]
  rw [this]
  exact h.keys.map (fun a b e => by injection e)

theorem lineItems_nodup {m : Metadata} (h : WfMetadata m) : ((lineItems m).map lineName).Nodup := by
  have e : (lineItems m).map lineName = (m.tags.map (·.item)).map (fun k => (DupKind.tag, k)) ++
      (m.links.map (·.item)).map (fun k => (DupKind.link, k)) ++ (keyItems m).map lineName := by
    simp only [lineItems, List.map_append, List.map_map]; rfl
  rw [e]
  have hk : ∀ x ∈ (keyItems m).map lineName, x.1 = .key := by
    intro x hx
    simp only [keyItems, List.map_map, List.mem_map] at hx
    obtain ⟨kv, _, rfl⟩ := hx
    rfl
  refine List.nodup_append.mpr ⟨List.nodup_append.mpr ⟨h.tags.map (fun a b e => by injection e), h.links.map (fun a b e => by injection e), ?_⟩,
    keyItems_nodup h, ?_⟩
  · intro a ha b hb e
    obtain ⟨_, _, rfl⟩ := List.mem_map.mp ha
    obtain ⟨_, _, rfl⟩ := List.mem_map.mp hb
    injection e with e1 e2; cases e1
  · intro a ha b hb e
    subst e
    have := hk _ hb
    rcases List.mem_append.mp ha with ha | ha
    · obtain ⟨_, _, rfl⟩ := List.mem_map.mp ha; cases this
    · obtain ⟨_, _, rfl⟩ := List.mem_map.mp ha; cases this

omit [Unicode] [DecOps] in
theorem filterMap_all {α β : Type} (f : β → α) (g : α → Option β) (h : ∀ b, g (f b) = some b) (xs : List β) :
    (xs.map f).filterMap g = xs := by
  induction xs with
  | nil => rfl
  | cons x xs ih => simp [h, ih]

omit [Unicode] [DecOps] in
theorem filterMap_none {α β γ : Type} (f : γ → α) (g : α → Option β) (h : ∀ b, g (f b) = none) (xs : List γ) :
    (xs.map f).filterMap g = [] := by
  induction xs with
  | nil => rfl
  | cons x xs ih => simp [h]

omit [Unicode] [DecOps] in
theorem keyItems_parts (m : Metadata) : lineKeyValues (keyItems m) = m.keyValues ∧ lineTags (keyItems m) = [] ∧ lineLinks (keyItems m) = [] :=
  ⟨by
    unfold lineKeyValues keyItems
    exact filterMap_all (fun kv : Spanned Str × Spanned MetaValue => Metadatum.keyValue ⟨⟨kv.1, kv.2⟩, kv.1.span⟩) _ (fun _ => rfl) _,
    filterMap_none _ _ (fun _ => rfl) m.keyValues, filterMap_none _ _ (fun _ => rfl) m.keyValues⟩

omit [Unicode] [DecOps] in
theorem lineItems_parts (m : Metadata) :
    lineKeyValues (lineItems m) = m.keyValues ∧ lineTags (lineItems m) = m.tags ∧ lineLinks (lineItems m) = m.links := by
  obtain ⟨h1, h2, h3⟩ := keyItems_parts m
  unfold lineKeyValues at h1
  unfold lineTags at h2
  unfold lineLinks at h3
  unfold lineKeyValues lineTags lineLinks lineItems
  simp only [List.filterMap_append, h1, h2, h3]
  refine ⟨?_, ?_, ?_⟩
  · rw [filterMap_none _ _ (fun _ => rfl), filterMap_none _ _ (fun _ => rfl)]; rfl
  · rw [filterMap_all Metadatum.tag _ (fun _ => rfl), filterMap_none _ _ (fun _ => rfl)]; simp
  · rw [filterMap_none _ _ (fun _ => rfl), filterMap_all Metadatum.link _ (fun _ => rfl)]; simp

/-- Metadata on separate lines. -/
theorem lineMetadata_of {m : Metadata} (h : WfMetadata m) {ys : List Metadatum} (hy : List.Forall₂ SameLine (lineItems m) ys) :
    SameMetadata m (lineMetadata ys) ∧ lineErrors ys = [] := by
  obtain ⟨h1, h2⟩ := firsts_nodup lineName ys [] (by rw [names_same hy]; exact lineItems_nodup h) (by simp)
  obtain ⟨h3, h4, h5⟩ := lines_same hy
  obtain ⟨e1, e2, e3⟩ := lineItems_parts m
  rw [e1] at h3; rw [e2] at h4; rw [e3] at h5
  unfold lineMetadata lineErrors SameMetadata
  rw [h1, h2]
  exact ⟨⟨by rw [h3], by rw [h4], by rw [h5]⟩, rfl⟩

/-- The same tag or link but for locations. -/
def SameHead : TagOrLink → TagOrLink → Prop
  | .inl a, .inl b => a.item = b.item
  | .inr a, .inr b => a.item = b.item
  | _, _ => False

def headItems (m : Metadata) : List TagOrLink := m.tags.map .inl ++ m.links.map .inr

omit [DecOps] in
theorem head_of (cfg : ParseCfg) : ∀ (xs : List TagOrLink), (∀ x ∈ xs, ∀ c ∈ x.name.2, TagChar c) → ∀ {run r : List Ranged},
    run.map (·.tok) = xs.map (fun | .inl t => .tag t.item | .inr t => .link t.item) →
    ∃ ys, Many (TagOrLinkP cfg) (run ++ r) r ys ∧ List.Forall₂ SameHead xs ys
  | [], _, run, r, hrun => by
    rw [run_nil hrun]
    exact ⟨[], .nil, .nil⟩
  | x :: xs, h, run, r, hrun => by
    obtain ⟨t, rb, rfl, ht, h1⟩ := run_cons hrun
    obtain ⟨ys, h2, h3⟩ := head_of cfg xs (fun x hx => h x (by simp [hx])) (r := r) h1
    cases x with
    | inl x =>
      obtain ⟨y, hy1, hy2⟩ := at_of (cfg := cfg) (tagP_of (t := x.item) (run := [t]) (r := rb ++ r) (h (.inl x) (by simp)) (by simp [ht]))
      exact ⟨.inl y :: ys, .cons (.tag hy1) h2, .cons hy2.symm h3⟩
    | inr x =>
      obtain ⟨y, hy1, hy2⟩ := at_of (cfg := cfg) (linkP_of (t := x.item) (run := [t]) (r := rb ++ r) (h (.inr x) (by simp)) (by simp [ht]))
      exact ⟨.inr y :: ys, .cons (.link hy1) h2, .cons hy2.symm h3⟩

omit [Unicode] [DecOps] in
theorem heads_same {xs ys : List TagOrLink} (h : List.Forall₂ SameHead xs ys) : ys.map TagOrLink.name = xs.map TagOrLink.name ∧
    (headTags xs).map (·.item) = (headTags ys).map (·.item) ∧ (headLinks xs).map (·.item) = (headLinks ys).map (·.item) := by
  induction h with
  | nil => exact ⟨rfl, rfl, rfl⟩
  | @cons x y _ _ h _ ih =>
    cases x <;> cases y <;> simp_all [SameHead, TagOrLink.name, headTags, headLinks]

omit [Unicode] [DecOps] in
theorem headItems_parts (m : Metadata) : headTags (headItems m) = m.tags ∧ headLinks (headItems m) = m.links := by
  unfold headTags headLinks headItems
  simp only [List.filterMap_append]
  refine ⟨?_, ?_⟩
  · rw [filterMap_all Sum.inl _ (fun _ => rfl), filterMap_none _ _ (fun _ => rfl)]; simp
  · rw [filterMap_none _ _ (fun _ => rfl), filterMap_all Sum.inr _ (fun _ => rfl)]; simp

theorem headItems_nodup {m : Metadata} (h : WfMetadata m) : ((headItems m).map TagOrLink.name).Nodup := by
  have e : (headItems m).map TagOrLink.name = (m.tags.map (·.item)).map (fun k => (DupKind.tag, k)) ++
      (m.links.map (·.item)).map (fun k => (DupKind.link, k)) := by
    simp only [headItems, List.map_append, List.map_map]; rfl
  rw [e]
  refine List.nodup_append.mpr ⟨h.tags.map (fun a b e => by injection e), h.links.map (fun a b e => by injection e), ?_⟩
  intro a ha b hb e
  obtain ⟨_, _, rfl⟩ := List.mem_map.mp ha
  obtain ⟨_, _, rfl⟩ := List.mem_map.mp hb
  injection e with e1 e2; cases e1

/-- Metadata with tags and links in the first line. -/
theorem metadataOf_of {m : Metadata} (h : WfMetadata m) {ys : List Metadatum} (hy : List.Forall₂ SameLine (keyItems m) ys)
    {hs : List TagOrLink} (hh : List.Forall₂ SameHead (headItems m) hs) :
    SameMetadata m (metadataOf ys hs) ∧ headErrors hs = [] ∧ lineErrors ys = [] ∧ clashErrors ys hs = [] := by
  obtain ⟨h1, h2⟩ := firsts_nodup lineName ys [] (by rw [names_same hy]; exact keyItems_nodup h) (by simp)
  obtain ⟨h3, h4, h5⟩ := lines_same hy
  obtain ⟨e1, e2, e3⟩ := keyItems_parts m
  rw [e1] at h3; rw [e2] at h4; rw [e3] at h5
  obtain ⟨n1, n2, n3⟩ := heads_same hh
  obtain ⟨f1, f2⟩ := firsts_nodup TagOrLink.name hs [] (by rw [n1]; exact headItems_nodup h) (by simp)
  obtain ⟨g1, g2⟩ := headItems_parts m
  rw [g1] at n2; rw [g2] at n3
  have h4' : lineTags ys = [] := List.map_eq_nil_iff.mp h4.symm
  have h5' : lineLinks ys = [] := List.map_eq_nil_iff.mp h5.symm
  unfold headErrors lineErrors clashErrors metadataOf lineMetadata SameMetadata
  simp only [h1, h2, f1, f2, h4', h5']
  have both_nil : ∀ ts : List (Spanned Str), both [] ts = [] := by
    intro ts; unfold both; induction ts with
    | nil => rfl
    | cons t ts ih => simp
  have union_nil : ∀ ts : List (Spanned Str), union [] ts = ts := by
    intro ts; simp [union]
  simp only [both_nil, union_nil]
  exact ⟨⟨by rw [h3], by rw [n2], by rw [n3]⟩, rfl, rfl, rfl⟩

end

end Lima
