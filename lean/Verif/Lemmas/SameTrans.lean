import Verif.Lemmas.PrintWhole

/-! The relation `Same` is transitive, and whether a directive can be printed depends only on what it says. -/

set_option linter.unusedSectionVars false

namespace Lima
open Spec

theorem SameMetadata.trans {a b c : Metadata} (h : SameMetadata a b) (k : SameMetadata b c) : SameMetadata a c :=
  ⟨h.1.trans k.1, h.2.1.trans k.2.1, h.2.2.trans k.2.2⟩

theorem SameCost.trans {a b c : CostSpec} (h : SameCost a b) (k : SameCost b c) : SameCost a c :=
  ⟨h.1.trans k.1, h.2.1.trans k.2.1, h.2.2.1.trans k.2.2.1, h.2.2.2.1.trans k.2.2.2.1, h.2.2.2.2.1.trans k.2.2.2.2.1,
    h.2.2.2.2.2.trans k.2.2.2.2.2⟩

theorem SamePosting.trans {a b c : Posting} (h : SamePosting a b) (k : SamePosting b c) : SamePosting a c := by
  obtain ⟨h1, h2, h3, h4, h5, h6, h7⟩ := h
  obtain ⟨k1, k2, k3, k4, k5, k6, k7⟩ := k
  refine ⟨h1.trans k1, h2.trans k2, h3.trans k3, h4.trans k4, ?_, h6.trans k6, SameMetadata.trans h7 k7⟩
  cases ha : a.costSpec <;> cases hb : b.costSpec <;> cases hc : c.costSpec <;> rw [ha, hb] at h5 <;> rw [hb, hc] at k5 <;>
    first | trivial | exact h5.elim | exact k5.elim | exact SameCost.trans h5 k5

theorem forall₂_trans {α : Type} {R : α → α → Prop} (hR : ∀ a b c, R a b → R b c → R a c) {as bs cs : List α}
    (h : List.Forall₂ R as bs) (k : List.Forall₂ R bs cs) : List.Forall₂ R as cs := by
  induction h generalizing cs with
  | nil => cases k; exact .nil
  | cons h _ ih =>
    cases k with
    | cons k ks => exact .cons (hR _ _ _ h k) (ih ks)

theorem Same.trans {a b c : Directive} (h : Same a b) (k : Same b c) : Same a c := by
  refine ⟨h.1.trans k.1, SameMetadata.trans h.2.1 k.2.1, ?_⟩
  have h := h.2.2
  have k := k.2.2
  generalize a.variant = a at *
  generalize b.variant = b at *
  generalize c.variant = c at *
  cases a <;> cases b <;> try exact h.elim
  all_goals cases c <;> try exact k.elim
  case transaction =>
    exact ⟨h.1.trans k.1, h.2.1.trans k.2.1, h.2.2.1.trans k.2.2.1,
      forall₂_trans (R := fun p q : Spanned Posting => SamePosting p.item q.item) (fun _ _ _ h k => SamePosting.trans h k) h.2.2.2 k.2.2.2⟩
  case price => exact ⟨h.1.trans k.1, h.2.1.trans k.2.1, h.2.2.trans k.2.2⟩
  case balance => exact ⟨h.1.trans k.1, ⟨h.2.1.1.trans k.2.1.1, h.2.1.2.trans k.2.1.2⟩, h.2.2.trans k.2.2⟩
  case «open» => exact ⟨h.1.trans k.1, h.2.1.trans k.2.1, h.2.2.trans k.2.2⟩
  case close => exact Eq.trans (b := _) h k
  case commodity => exact Eq.trans (b := _) h k
  all_goals exact ⟨h.1.trans k.1, h.2.trans k.2⟩

/-! ### Accounts and strings -/

theorem same_valueAccounts {v w : MetaValue} (h : valueSaid v = valueSaid w) : valueAccounts v = valueAccounts w := by
  cases v <;> cases w <;> simp_all [valueSaid, valueAccounts]

theorem same_valueStrings {v w : MetaValue} (h : valueSaid v = valueSaid w) : valueStrings v = valueStrings w := by
  cases v <;> cases w <;> simp_all [valueSaid, valueStrings]

theorem same_metadataAccounts {m n : Metadata} (h : SameMetadata m n) : metadataAccounts n ⊆ metadataAccounts m := by
  intro a ha
  obtain ⟨kv, hkv, ha⟩ := List.mem_flatMap.mp ha
  obtain ⟨kv', h', e⟩ := List.mem_map.mp (h.1.symm.subset (List.mem_map_of_mem hkv))
  exact List.mem_flatMap.mpr ⟨kv', h', same_valueAccounts (congrArg Prod.snd e) ▸ ha⟩

theorem same_metadataStrings {m n : Metadata} (h : SameMetadata m n) : metadataStrings n ⊆ metadataStrings m := by
  intro a ha
  obtain ⟨kv, hkv, ha⟩ := List.mem_flatMap.mp ha
  obtain ⟨kv', h', e⟩ := List.mem_map.mp (h.1.symm.subset (List.mem_map_of_mem hkv))
  exact List.mem_flatMap.mpr ⟨kv', h', same_valueStrings (congrArg Prod.snd e) ▸ ha⟩

theorem same_toList {x y : Option (Spanned α)} (h : x.map (·.item) = y.map (·.item)) :
    x.toList.map (·.item) = y.toList.map (·.item) := by
  cases x <;> cases y <;> simp_all

theorem same_postingStrings {p q : Posting} (h : SamePosting p q) : postingStrings q ⊆ postingStrings p := by
  obtain ⟨_, _, _, _, h5, _, h7⟩ := h
  have hm := same_metadataStrings h7
  intro a ha
  unfold postingStrings at ha ⊢
  rcases List.mem_append.mp ha with ha | ha
  · refine List.mem_append_left _ ?_
    cases hp : p.costSpec <;> cases hq : q.costSpec <;> rw [hp, hq] at h5 <;> rw [hq] at ha
    · exact ha
    · exact h5.elim
    · exact h5.elim
    · simp only at ha ⊢
      rw [same_toList h5.2.2.2.2.1]; exact ha
  · exact List.mem_append_right _ (hm ha)

theorem same_accountsOf {d e : Directive} (h : Same d e) : accountsOf e ⊆ accountsOf d := by
  intro a ha
  unfold accountsOf at ha ⊢
  rcases List.mem_append.mp ha with ha | ha
  · exact List.mem_append_left _ (same_metadataAccounts h.2.1 ha)
  · refine List.mem_append_right _ ?_
    have h := h.2.2
    generalize d.variant = d at *
    generalize e.variant = e at *
    cases d <;> cases e <;> try exact h.elim
    case transaction =>
      obtain ⟨q, hq, ha⟩ := List.mem_flatMap.mp ha
      obtain ⟨p, hp, hpq⟩ := forall₂_mem h.2.2.2 q hq
      refine List.mem_flatMap.mpr ⟨p, hp, ?_⟩
      rcases List.mem_cons.mp ha with rfl | ha
      · rw [hpq.2.1]; exact List.mem_cons_self
      · exact List.mem_cons_of_mem _ (same_metadataAccounts hpq.2.2.2.2.2.2 ha)
    case custom =>
      obtain ⟨w, hw, ha⟩ := List.mem_flatMap.mp ha
      obtain ⟨v, hv, e⟩ := List.mem_map.mp (h.2 ▸ List.mem_map_of_mem hw)
      exact List.mem_flatMap.mpr ⟨v, hv, same_valueAccounts e ▸ ha⟩
    case close => simp only [variantAccounts, SameVariant] at ha h ⊢; rw [h]; exact ha
    case pad => simp only [variantAccounts] at ha ⊢; rw [h.1, h.2]; exact ha
    all_goals first
      | exact ha
      | (simp only [variantAccounts] at ha ⊢; rw [h.1]; exact ha)

theorem same_stringsOf {d e : Directive} (h : Same d e) : stringsOf e ⊆ stringsOf d := by
  intro a ha
  unfold stringsOf at ha ⊢
  rcases List.mem_append.mp ha with ha | ha
  · exact List.mem_append_left _ (same_metadataStrings h.2.1 ha)
  · refine List.mem_append_right _ ?_
    have h := h.2.2
    generalize d.variant = d at *
    generalize e.variant = e at *
    cases d <;> cases e <;> try exact h.elim
    case transaction =>
      simp only [variantStrings] at ha ⊢
      rw [same_toList h.2.1, same_toList h.2.2.1]
      rcases List.mem_append.mp ha with ha | ha
      · exact List.mem_append_left _ ha
      · refine List.mem_append_right _ ?_
        obtain ⟨q, hq, ha⟩ := List.mem_flatMap.mp ha
        obtain ⟨p, hp, hpq⟩ := forall₂_mem h.2.2.2 q hq
        exact List.mem_flatMap.mpr ⟨p, hp, same_postingStrings hpq ha⟩
    case custom =>
      rcases List.mem_cons.mp ha with rfl | ha
      · simp only [variantStrings]; rw [h.1]; exact List.mem_cons_self
      · obtain ⟨w, hw, ha⟩ := List.mem_flatMap.mp ha
        obtain ⟨v, hv, e⟩ := List.mem_map.mp (h.2 ▸ List.mem_map_of_mem hw)
        exact List.mem_cons_of_mem _ (List.mem_flatMap.mpr ⟨v, hv, same_valueStrings e ▸ ha⟩)
    all_goals first
      | exact ha
      | (simp only [variantStrings] at ha ⊢; rw [h.2]; exact ha)
      | (simp only [variantStrings] at ha ⊢; rw [h.1, h.2]; exact ha)

theorem Printable.same {d e : Directive} (hp : Printable d) (h : Same d e) : Printable e := by
  obtain ⟨p1, p2, p3⟩ := hp
  refine ⟨?_, ?_, fun s hs => p3 s (same_stringsOf h hs)⟩
  · intro t ht q hq x hx
    have hv := h.2.2
    rw [ht] at hv
    cases hd : d.variant <;> rw [hd] at hv <;> try exact hv.elim
    rename_i u
    obtain ⟨p, hpm, hpq⟩ := forall₂_mem hv.2.2.2 q hq
    have hpr := hpq.2.2.2.2.2.1
    rw [hx] at hpr
    obtain ⟨y, hy, e⟩ := Option.map_eq_some_iff.mp hpr
    have e : y.item = x.item := e
    exact e ▸ p1 u hd p hpm y hy
  · intro a t ht
    have hv := h.2.2
    rw [ht] at hv
    cases hd : d.variant <;> rw [hd] at hv <;> try exact hv.elim
    rename_i x u
    have := p2 x u hd
    have hv := hv.2.2
    rw [this] at hv
    cases hk : t.item.tolerance with
    | none => rfl
    | some y => rw [hk] at hv; cases hv

end Lima
