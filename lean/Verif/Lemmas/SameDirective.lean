import Verif.Lemmas.ProvenanceGrammar

/-! Being well-formed, and readable from a text, depends only on what a directive says. -/

set_option linter.unusedSectionVars false

namespace Lima
open Spec

section
variable [Categories] [Unicode] [DecOps]

theorem same_tokens {v w : MetaValue} (h : valueSaid v = valueSaid w) : metaValueTokens v = metaValueTokens w := by
  cases v <;> cases w <;> simp_all [valueSaid, metaValueTokens, amountTokens]

theorem same_wfValue {v w : MetaValue} (h : valueSaid v = valueSaid w) (hv : WfMetaValue v) : WfMetaValue w := by
  cases v <;> cases w <;> simp_all [valueSaid, WfMetaValue, WfAmount]

theorem same_goodValue {v w : MetaValue} (h : valueSaid v = valueSaid w) (hv : GoodMetaValue v) : GoodMetaValue w :=
  ⟨same_wfValue h hv.1, same_tokens h ▸ hv.2⟩

theorem perm_items {P : Str → Prop} {ts us : List (Spanned Str)} (h : (ts.map (·.item)).Perm (us.map (·.item))) (ht : ∀ t ∈ ts, P t.item) :
    ∀ u ∈ us, P u.item := by
  intro u hu
  obtain ⟨t, ht', e⟩ := List.mem_map.mp (h.symm.subset (List.mem_map_of_mem hu))
  exact e ▸ ht t ht'

theorem GoodMetadata.same {m n : Metadata} (h : GoodMetadata m) (hs : SameMetadata m n) : GoodMetadata n := by
  obtain ⟨h1, h2, h3⟩ := hs
  refine ⟨?_, (h2.nodup_iff).mp h.tags, (h3.nodup_iff).mp h.links, perm_items h2 h.tag, perm_items h3 h.link, ?_⟩
  · have e : ∀ m : Metadata, m.keyValues.map (·.1.item) = (m.keyValues.map keyValueSaid).map (·.1) := by
      intro m; rw [List.map_map]; rfl
    rw [e, ← (h1.map _).nodup_iff, ← e]
    exact h.keys
  · intro kv hkv
    obtain ⟨kv', h', e⟩ := List.mem_map.mp (h1.symm.subset (List.mem_map_of_mem hkv))
    have := h.keyValue kv' h'
    unfold keyValueSaid at e
    injection e with e1 e2
    exact ⟨e1 ▸ this.1, same_goodValue e2 this.2⟩

theorem same_costComps {c d : CostSpec} (h : SameCost c d) : costComps c = costComps d := by
  obtain ⟨p, t, u, da, l, m⟩ := c
  obtain ⟨p', t', u', da', l', m'⟩ := d
  obtain ⟨h1, h2, h3, h4, h5, h6⟩ := h
  simp only at h1 h2 h3 h4 h5 h6
  subst h6
  have a : costAmount ⟨p, t, u, da, l, m⟩ = costAmount ⟨p', t', u', da', l', m⟩ := by
    cases p <;> cases p' <;> cases t <;> cases t' <;> cases u <;> cases u' <;> simp_all [costAmount]
  have b : da.toList.map (fun d => CostComp.date d.item) = da'.toList.map (fun d => CostComp.date d.item) := by
    cases da <;> cases da' <;> simp_all
  have e : l.toList.map (fun d => CostComp.label d.item) = l'.toList.map (fun d => CostComp.label d.item) := by
    cases l <;> cases l' <;> simp_all
  simp only [costComps, a, b, e]

theorem same_costTokens {c d : CostSpec} (h : SameCost c d) : costTokens c = costTokens d := by
  unfold costTokens; rw [same_costComps h]

theorem some_of_same {α : Type} {x y : Option (Spanned α)} (h : x.map (·.item) = y.map (·.item)) {b : Spanned α} (hb : y = some b) :
    ∃ a, x = some a ∧ a.item = b.item := by
  subst hb
  cases x with
  | none => cases h
  | some a => exact ⟨a, rfl, by simpa using h⟩

theorem GoodCost.same {c d : CostSpec} (h : GoodCost c) (hs : SameCost c d) : GoodCost d := by
  refine ⟨⟨?_, ?_, ?_⟩, same_costTokens hs ▸ h.2⟩
  · intro x hx
    obtain ⟨a, ha, e⟩ := some_of_same hs.1 hx
    exact e ▸ h.1.1 a ha
  · intro x hx
    obtain ⟨a, ha, e⟩ := some_of_same hs.2.1 hx
    exact e ▸ h.1.2.1 a ha
  · intro x hx
    obtain ⟨a, ha, e⟩ := some_of_same hs.2.2.1 hx
    exact e ▸ h.1.2.2 a ha

theorem GoodPosting.same {p q : Posting} (h : GoodPosting p) (hs : SamePosting p q) : GoodPosting q := by
  obtain ⟨h1, h2, h3, h4, h5, h6, h7⟩ := hs
  refine ⟨?_, h2 ▸ h.account, ?_, ?_, ?_, ?_, h.metadata.same h7⟩
  · intro x hx
    obtain ⟨a, ha, e⟩ := some_of_same h1 hx
    exact e ▸ h.flag a ha
  · intro x hx
    obtain ⟨a, ha, e⟩ := some_of_same h3 hx
    exact e ▸ h.amount a ha
  · intro x hx
    obtain ⟨a, ha, e⟩ := some_of_same h4 hx
    exact e ▸ h.currency a ha
  · intro x hx
    rw [hx] at h5
    cases hc : p.costSpec with
    | none => rw [hc] at h5; exact h5.elim
    | some c => rw [hc] at h5; exact (h.cost c hc).same h5
  · intro x hx
    obtain ⟨a, ha, e⟩ := some_of_same h6 hx
    exact e ▸ h.price a ha

theorem GoodAmount.same {a b : Amount} (h : GoodAmount a) (hs : SameAmount a b) : GoodAmount b := by
  obtain ⟨h1, h2⟩ := hs
  obtain ⟨⟨h3, h4⟩, h5⟩ := h
  refine ⟨⟨h1 ▸ h3, h2 ▸ h4⟩, ?_⟩
  unfold amountTokens at h5 ⊢
  rw [← h1, ← h2]; exact h5

theorem Separate.same : ∀ {vs ws : List (Spanned MetaValue)}, Separate vs → vs.map (valueSaid ·.item) = ws.map (valueSaid ·.item) → Separate ws
  | [], [], _, _ => trivial
  | [_], [_], _, _ => trivial
  | [], _ :: _, _, h => by simp at h
  | _ :: _, [], _, h => by simp at h
  | [_], _ :: _ :: _, _, h => by simp at h
  | _ :: _ :: _, [_], _, h => by simp at h
  | v :: v' :: vs, w :: w' :: ws, hv, h => by
    have h0 := h
    simp only [List.map_cons, List.cons.injEq] at h
    obtain ⟨h1, h2, h3⟩ := h
    refine ⟨?_, Separate.same hv.2 (by simp [h2, h3])⟩
    rintro ⟨e, he⟩
    rw [← same_tokens h2]
    refine hv.1 ⟨e, ?_⟩
    rw [he] at h1
    cases hi : v.item with
    | simple x => rw [hi] at h1; simpa [valueSaid] using h1
    | amount a => rw [hi] at h1; simp [valueSaid] at h1

omit [Categories] [Unicode] [DecOps] in
theorem forall₂_mem {α β : Type} {R : α → β → Prop} {as : List α} {bs : List β} (h : List.Forall₂ R as bs) : ∀ b ∈ bs, ∃ a ∈ as, R a b := by
  induction h with
  | nil => simp
  | cons h _ ih =>
    intro b hb
    rcases List.mem_cons.mp hb with rfl | hb
    · exact ⟨_, by simp, h⟩
    · obtain ⟨a, ha, hr⟩ := ih b hb
      exact ⟨a, by simp [ha], hr⟩

theorem GoodDirective.same {d e : Directive} (h : GoodDirective d) (hs : Same d e) : GoodDirective e := by
  obtain ⟨h0, h1, h2⟩ := h
  obtain ⟨s0, s1, s2⟩ := hs
  refine ⟨s0 ▸ h0, h1.same s1, ?_⟩
  obtain ⟨_, _, v⟩ := d
  obtain ⟨_, _, w⟩ := e
  simp only at h2 s2 ⊢
  cases v <;> cases w <;> try exact s2.elim
  case transaction.transaction t u =>
    obtain ⟨a1, a2, a3, a4⟩ := s2
    refine ⟨a1 ▸ h2.1, ?_, ?_, ?_⟩
    · intro x hx
      obtain ⟨a, ha, e⟩ := some_of_same a2 hx
      exact e ▸ h2.2.1 a ha
    · intro x hx
      obtain ⟨a, ha, e⟩ := some_of_same a3 hx
      exact e ▸ h2.2.2.1 a ha
    · intro q hq
      obtain ⟨p, hp, hpq⟩ := forall₂_mem a4 q hq
      exact (h2.2.2.2 p hp).same hpq
  case price.price => exact ⟨s2.1 ▸ h2.1, h2.2.same s2.2⟩
  case balance.balance => exact ⟨s2.1 ▸ h2.1, h2.2.same s2.2.1⟩
  case open.open =>
    exact ⟨s2.1 ▸ h2.1, perm_items s2.2.1 h2.2.1, s2.2.1.nodup_iff.mp h2.2.2⟩
  case close.close => exact cast (congrArg GoodAccount s2) h2
  case commodity.commodity => exact cast (congrArg GoodCurrency s2) h2
  case pad.pad => exact ⟨s2.1 ▸ h2.1, s2.2 ▸ h2.2⟩
  case document.document => exact cast (congrArg GoodAccount s2.1) h2
  case note.note => exact cast (congrArg GoodAccount s2.1) h2
  case event.event => trivial
  case query.query => trivial
  case custom.custom =>
    refine ⟨?_, h2.2.same s2.2⟩
    intro w hw
    obtain ⟨v, hv, e⟩ := List.mem_map.mp (s2.2 ▸ List.mem_map_of_mem hw)
    exact same_goodValue e (h2.1 v hv)

end

end Lima
