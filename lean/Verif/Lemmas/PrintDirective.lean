import Verif.Lemmas.PrintMetadata

/-! The tokens of a printed directive are parsed as the directive. -/

namespace Lima
open Spec

section
variable [Unicode] [DecOps]

/-! ### Optional parts -/

omit [Unicode] [DecOps] in
theorem maybe_of {α : Type} {cfg : ParseCfg} {p : Phrase α} {x : Option (Spanned α)} {g : α → List Token} {S : α → α → Prop}
    {run r : List Ranged} (hrun : run.map (·.tok) = x.toList.flatMap (fun a => g a.item))
    (h : ∀ a, x = some a → run.map (·.tok) = g a.item → ∃ b, p (run ++ r) r b ∧ S a.item b) :
    ∃ y, Maybe (At cfg p) (run ++ r) r y ∧ BothOrNeither S x y := by
  cases x with
  | none =>
    rw [run_nil hrun]
    exact ⟨none, rfl, trivial⟩
  | some a =>
    obtain ⟨y, h1, h2⟩ := at_of' (cfg := cfg) (h a rfl (by simpa using hrun))
    exact ⟨some y, h1, h2⟩

omit [Unicode] [DecOps] in
theorem both_eq {α : Type} {x y : Option (Spanned α)} (h : BothOrNeither (fun a b => b = a) x y) :
    x.map (·.item) = y.map (·.item) := by
  cases x <;> cases y <;> simp_all [BothOrNeither]

/-- The token is not an operator. -/
def NotOp (t : Token) : Prop := t ≠ .plus ∧ t ≠ .minus ∧ t ≠ .asterisk ∧ t ≠ .slash

omit [Unicode] [DecOps] in
theorem NoOp.append {run k : List Ranged} (h : ∀ t ∈ (run.map (·.tok)).head?, NotOp t) (hk : NoOp k) : NoOp (run ++ k) := by
  cases run with
  | nil => exact hk
  | cons x run => exact NoOp.cons rfl (h x.tok (by simp))

/-! ### Postings -/

structure WfPosting (p : Posting) : Prop where
  account : NameOk p.account.item.name
  amount : ∀ e, p.amount = some e → WfValue e.item
  currency : ∀ c, p.currency = some c → ValidCurrency c.item
  cost : ∀ c, p.costSpec = some c → WfCost c.item
  price : ∀ x, p.priceAnnotation = some x → WfPrice x.item
  metadata : WfMetadata p.metadata.item

omit [Unicode] [DecOps] in
theorem priceTokens_head {x : PriceSpec} : ∀ t ∈ (priceTokens x).head?, NotOp t := by
  intro t ht
  rcases x with _ | c | s | ⟨s, c⟩ <;> simp [priceTokens] at ht <;> subst ht <;> simp [NotOp]

omit [Unicode] [DecOps] in
theorem head_flatMap {α : Type} {x : Option α} {g : α → List Token} {ts : List Token} (h : ∀ a, ∀ t ∈ (g a).head?, NotOp t)
    (hts : ∀ t ∈ ts.head?, NotOp t) (hg : ∀ a, g a ≠ []) : ∀ t ∈ (x.toList.flatMap g ++ ts).head?, NotOp t := by
  cases x with
  | none => simpa using hts
  | some a =>
    intro t ht
    refine h a t ?_
    cases hga : g a with
    | nil => exact absurd hga (hg a)
    | cons y l => simpa [hga] using ht

theorem postingLineP_of (cfg : ParseCfg) {o : ParserOptions} {p : Posting} (h : WfPosting p) (hk : KnowsAccount o p.account.item)
    {run k r : List Ranged} (hrun : run.map (·.tok) = postingLineTokens p) (hr : EndOfLine k r) :
    ∃ q, PostingLineP cfg o (run ++ k) k q ∧ p.flag.map (·.item) = q.flag.map (·.item) ∧ p.account.item = q.account.item ∧
      p.amount.map (·.item) = q.amount.map (·.item) ∧ p.currency.map (·.item) = q.currency.map (·.item) ∧
      BothOrNeither SameCost p.costSpec q.costSpec ∧ p.priceAnnotation.map (·.item) = q.priceAnnotation.map (·.item) := by
  obtain ⟨rf, r1, rfl, hf, h1⟩ := run_append hrun
  obtain ⟨xa, r2, rfl, ha, h2⟩ := run_cons h1
  obtain ⟨r3, rp, rfl, h3, hp⟩ := run_append h2
  obtain ⟨r4, rc, rfl, h4, hc⟩ := run_append h3
  obtain ⟨re, rcu, rfl, he, hcu⟩ := run_append h4
  obtain ⟨price, p1, p2⟩ := maybe_of (cfg := cfg) (p := PriceP) (S := fun a b => b = a) (g := priceTokens) (r := k) hp (fun a e ht =>
    ⟨_, priceP_of (h.price a e) ht (NoOp.eol hr).not_continues, rfl⟩)
  obtain ⟨cost, c1, c2⟩ := maybe_of (cfg := cfg) (p := CostSpecP cfg) (S := SameCost) (g := costTokens) (r := rp ++ k) hc (fun a e ht =>
    costSpecP_of cfg (h.cost a e) ht)
  obtain ⟨cur, u1, u2⟩ := maybe_of (cfg := cfg) (p := CurrencyP) (S := fun a b => b = a) (g := fun c => [.currency c]) (x := p.currency)
    (run := rcu) (r := rc ++ (rp ++ k)) (by rw [hcu]; cases p.currency <;> rfl) (fun a e ht => ⟨_, currencyP_of (h.currency a e) ht, rfl⟩)
  have hno : NoOp (rcu ++ (rc ++ (rp ++ k))) := by
    have : rcu ++ (rc ++ (rp ++ k)) = (rcu ++ (rc ++ rp)) ++ k := by simp
    rw [this]
    refine NoOp.append ?_ (NoOp.eol hr)
    have e : (rcu ++ (rc ++ rp)).map (·.tok) = p.currency.toList.flatMap (fun c => [.currency c.item]) ++
        (p.costSpec.toList.flatMap (fun c => costTokens c.item) ++ (p.priceAnnotation.toList.flatMap (fun x => priceTokens x.item) ++ [])) := by
      simp only [List.map_append, hcu, hc, hp, List.append_nil]
      congr 1
      cases p.currency <;> rfl
    rw [e]
    refine head_flatMap (by simp [NotOp]) (head_flatMap (by simp [NotOp, costTokens]) (head_flatMap (fun _ => priceTokens_head) (by simp) ?_) (by simp [costTokens])) (by simp)
    intro a
    rcases a.item with _ | c | s | ⟨s, c⟩ <;> simp [priceTokens]
  obtain ⟨am, m1, m2⟩ := maybe_of (cfg := cfg) (p := ValueP) (S := fun a b => b = a) (g := fun e => exprTokens e.expr)
    (r := rcu ++ (rc ++ (rp ++ k))) he (fun a e ht => ⟨_, valueP_of (h.amount a e) ht hno.not_continues, rfl⟩)
  obtain ⟨acc, a1, a2⟩ := at_of (cfg := cfg) (accountP_of (r := re ++ (rcu ++ (rc ++ (rp ++ k)))) (run := [xa]) h.account hk (by simp [ha]))
  obtain ⟨flag, f1, f2⟩ := maybe_of (cfg := cfg) (p := FlagP) (S := fun a b => b = a) (g := fun f => [flagToken f]) (x := p.flag)
    (run := rf) (r := [xa] ++ (re ++ (rcu ++ (rc ++ (rp ++ k))))) (by rw [hf]; cases p.flag <;> rfl) (fun a e ht => ⟨_, flagP_of ht, rfl⟩)
  refine ⟨⟨flag, acc, am, cur, cost, price⟩, ?_, both_eq f2, a2.symm, both_eq m2, both_eq u2, c2, both_eq p2⟩
  have e : rf ++ xa :: (re ++ rcu ++ rc ++ rp) ++ k = rf ++ ([xa] ++ (re ++ (rcu ++ (rc ++ (rp ++ k))))) := by simp
  rw [e]
  exact .mk f1 a1 m1 u1 c1 p1

theorem postingP_of (cfg : ParseCfg) {o : ParserOptions} {p : Posting} (h : WfPosting p)
    (hk : ∀ a ∈ p.account.item :: metadataAccounts p.metadata.item, KnowsAccount o a)
    {ind : Ranged} {rx k r : List Ranged} (hi : ind.tok = .indent) (hrun : rx.map (·.tok) = postingTokens p) (hr : EndOfLine k r) :
    ∃ y : Spanned Posting × List PErr, PostingP cfg o (ind :: rx ++ k) r y ∧ (SamePosting p y.1.item ∧ y.2 = []) := by
  obtain ⟨rl, rb, rfl, h1, h2⟩ := run_append hrun
  rw [block_lineItems] at h2
  obtain ⟨n, ys, e1, e2, e3, sfx, e4⟩ := many_lines (Q := LineP cfg o) (S := SameLine) (lineItems p.metadata.item)
    (fun x hx ind rx k r hi hrx hkr => lineP_of cfg (wf_lineItems h.metadata x hx)
      (fun a ha => hk a (List.mem_cons_of_mem _ (accounts_lineItems _ x hx a ha))) hi hrx hkr) h2 hr
  obtain ⟨q, q1, q2⟩ := at_of' (cfg := cfg) (postingLineP_of cfg h (hk _ (by simp)) h1 e1)
  obtain ⟨m1, m2⟩ := lineMetadata_of h.metadata e3
  obtain ⟨span, hspan⟩ := covers_of cfg sfx r
  rw [← e4] at hspan
  have ee : ind :: (rl ++ rb) ++ k = ind :: (rl ++ (rb ++ k)) := by simp
  rw [ee]
  refine ⟨_, .mk (word_of hi _) q1 e1 e2 hspan, ?_, m2⟩
  obtain ⟨w1, w2, w3, w4, w5, w6⟩ := q2
  exact ⟨w1, w2, w3, w4, w5, w6, m1⟩

/-! ### Directives -/

/-- A number is not followed by what could continue it or be its currency. -/
def Separate : List (Spanned MetaValue) → Prop
  | v :: w :: vs =>
    ((∃ e, v.item = .simple (.expr e)) → ∀ t ∈ (metaValueTokens w.item).head?, NotOp t ∧ ∀ c, t ≠ .currency c) ∧ Separate (w :: vs)
  | _ => True

def WfVariant : DirectiveVariant → Prop
  | .transaction t =>
    (∀ s, t.payee = some s → s.item ≠ []) ∧ (∀ s, t.narration = some s → s.item ≠ []) ∧ ∀ p ∈ t.postings, WfPosting p.item
  | .price c a => ValidCurrency c.item ∧ WfAmount a.item
  | .balance a t => NameOk a.item.name ∧ WfAmount t.item.amount.item ∧ t.item.tolerance = none
  | .open a cs _ => NameOk a.item.name ∧ (∀ c ∈ cs, ValidCurrency c.item) ∧ (cs.map (·.item)).Nodup
  | .close a | .document a _ | .note a _ => NameOk a.item.name
  | .commodity c => ValidCurrency c.item
  | .pad a b => NameOk a.item.name ∧ NameOk b.item.name
  | .event _ _ | .query _ _ => True
  | .custom _ vs => (∀ v ∈ vs, WfMetaValue v.item) ∧ Separate vs

def WfDirective (d : Directive) : Prop := WfMetadata d.metadata.item ∧ WfVariant d.variant

omit [Unicode] [DecOps] in
theorem booking_tryFrom (b : Booking) : Booking.tryFrom (Display.booking b) = some b := by
  cases b <;> decide

omit [Unicode] [DecOps] in
theorem commaCurrencies_of (cfg : ParseCfg) : ∀ (cs : List (Spanned Str)), (∀ c ∈ cs, ValidCurrency c.item) → ∀ {run r : List Ranged},
    run.map (·.tok) = cs.flatMap (fun c => [.comma, .currency c.item]) →
    ∃ ys, Many (CommaCurrencyP cfg) (run ++ r) r ys ∧ ys.map (·.item) = cs.map (·.item)
  | [], _, run, r, hrun => by
    rw [run_nil hrun]
    exact ⟨[], .nil, rfl⟩
  | c :: cs, h, run, r, hrun => by
    obtain ⟨a, r1, rfl, ha, h1⟩ := run_cons hrun
    obtain ⟨b, r2, rfl, hb, h2⟩ := run_cons h1
    obtain ⟨ys, h3, h4⟩ := commaCurrencies_of cfg cs (fun c hc => h c (by simp [hc])) (r := r) h2
    obtain ⟨y, y1, y2⟩ := at_of (cfg := cfg) (currencyP_of (run := [b]) (r := r2 ++ r) (h c (by simp)) (by simp [hb]))
    exact ⟨y :: ys, .cons ⟨_, word_of ha _, y1⟩ h3, by simp [y2, h4]⟩

omit [Unicode] [DecOps] in
theorem currenciesP_of (cfg : ParseCfg) (cs : List (Spanned Str)) (h : ∀ c ∈ cs, ValidCurrency c.item) {run r : List Ranged}
    (hrun : run.map (·.tok) = commaTokens (fun c : Spanned Str => [.currency c.item]) cs) :
    ∃ ys, CurrenciesP cfg (run ++ r) r ys ∧ (cs.map (·.item)).Perm (ys.map (·.item)) := by
  cases cs with
  | nil =>
    rw [run_nil hrun]
    exact ⟨[], .none, .refl _⟩
  | cons c cs =>
    obtain ⟨b, r2, rfl, hb, h2⟩ := run_cons hrun
    obtain ⟨ys, h3, h4⟩ := commaCurrencies_of cfg cs (fun c hc => h c (by simp [hc])) (r := r) h2
    obtain ⟨y, y1, y2⟩ := at_of (cfg := cfg) (currencyP_of (run := [b]) (r := r2 ++ r) (h c (by simp)) (by simp [hb]))
    refine ⟨ys ++ [y], .some y1 h3, ?_⟩
    simp only [List.map_append, List.map_cons, List.map_nil, y2, h4]
    exact (List.perm_append_singleton _ _).symm

theorem bodyP_of (cfg : ParseCfg) {o : ParserOptions} {v : DirectiveVariant} (h : WfVariant v) (hk : ∀ a ∈ variantAccounts v, KnowsAccount o a)
    (h1 : ∀ t, v ≠ .transaction t) (h2 : ∀ s vs, v ≠ .custom s vs) {run r : List Ranged} (hrun : run.map (·.tok) = bodyTokens v) :
    ∃ x rb v', run = x :: rb ∧ BodyP cfg o x.tok (rb ++ r) r v' [] ∧ SameVariant v v' := by
  cases v with
  | transaction t => exact absurd rfl (h1 t)
  | custom s vs => exact absurd rfl (h2 s vs)
  | price c a =>
    obtain ⟨x, r1, rfl, hx, h3⟩ := run_cons hrun
    obtain ⟨y, r2, rfl, hy, h4⟩ := run_cons h3
    obtain ⟨c', c1, c2⟩ := at_of (cfg := cfg) (currencyP_of (run := [y]) (r := r2 ++ r) h.1 (by simp [hy]))
    obtain ⟨a', a1, a2⟩ := at_of' (cfg := cfg) (amountP_of cfg (r := r) h.2 h4)
    exact ⟨x, y :: r2, .price c' a', rfl, by rw [hx]; exact .price c1 a1, c2.symm, a2⟩
  | balance a t =>
    obtain ⟨x, r1, rfl, hx, h3⟩ := run_cons hrun
    obtain ⟨y, r2, rfl, hy, h4⟩ := run_cons h3
    obtain ⟨c', c1, c2⟩ := at_of (cfg := cfg) (accountP_of (run := [y]) (r := r2 ++ r) h.1 (hk _ (by simp [variantAccounts])) (by simp [hy]))
    obtain ⟨a', a1, a2⟩ := at_of' (cfg := cfg) (amountP_of cfg (r := r) h.2.1 h4)
    obtain ⟨t', t1, t2⟩ := at_of (cfg := cfg) (p := TolerantP cfg) (run := r2) (r := r) (.exact a1)
    exact ⟨x, y :: r2, .balance c' t', rfl, by rw [hx]; exact .balance c1 t1, c2.symm, by rw [t2]; exact a2, by rw [t2, h.2.2]⟩
  | «open» a cs b =>
    obtain ⟨x, r1, rfl, hx, h3⟩ := run_cons hrun
    obtain ⟨y, r2, rfl, hy, h4⟩ := run_cons h3
    obtain ⟨r3, r4, rfl, h5, h6⟩ := run_append h4
    obtain ⟨c', c1, c2⟩ := at_of (cfg := cfg) (accountP_of (run := [y]) (r := r3 ++ (r4 ++ r)) h.1 (hk _ (by simp [variantAccounts])) (by simp [hy]))
    obtain ⟨ys, y1, y2⟩ := currenciesP_of cfg cs h.2.1 (r := r4 ++ r) h5
    obtain ⟨b', b1, b2⟩ := maybe_of (cfg := cfg) (p := BookingP) (S := fun a b => b = a) (g := fun b => [.stringLiteral (Display.booking b)])
      (x := b) (run := r4) (r := r) (by rw [h6]; cases b <;> rfl) (fun b _ ht => by
        obtain ⟨z, rz, rfl, hz, h7⟩ := run_cons ht
        rw [run_nil h7]
        exact ⟨b.item, ⟨_, word_of hz _, booking_tryFrom _⟩, rfl⟩)
    obtain ⟨f1, f2⟩ := firsts_nodup (·.item) ys [] (y2.nodup_iff.mp h.2.2) (by simp)
    have e := BodyP.open c1 y1 b1
    rw [currencyErrors, f1, f2] at e
    refine ⟨x, y :: (r3 ++ r4), .open c' ys b', rfl, by rw [hx]; simpa using e, c2.symm, y2, both_eq b2⟩
  | close a =>
    obtain ⟨x, r1, rfl, hx, h3⟩ := run_cons hrun
    obtain ⟨c', c1, c2⟩ := at_of (cfg := cfg) (accountP_of (r := r) h (hk _ (by simp [variantAccounts])) h3)
    exact ⟨x, r1, .close c', rfl, by rw [hx]; exact .close c1, c2.symm⟩
  | commodity c =>
    obtain ⟨x, r1, rfl, hx, h3⟩ := run_cons hrun
    obtain ⟨c', c1, c2⟩ := at_of (cfg := cfg) (currencyP_of (r := r) h h3)
    exact ⟨x, r1, .commodity c', rfl, by rw [hx]; exact .commodity c1, c2.symm⟩
  | pad a b =>
    obtain ⟨x, r1, rfl, hx, h3⟩ := run_cons hrun
    obtain ⟨y, r2, rfl, hy, h4⟩ := run_cons h3
    obtain ⟨c', c1, c2⟩ := at_of (cfg := cfg) (accountP_of (run := [y]) (r := r2 ++ r) h.1 (hk _ (by simp [variantAccounts])) (by simp [hy]))
    obtain ⟨d', d1, d2⟩ := at_of (cfg := cfg) (accountP_of (r := r) h.2 (hk _ (by simp [variantAccounts])) h4)
    exact ⟨x, y :: r2, .pad c' d', rfl, by rw [hx]; exact .pad c1 d1, c2.symm, d2.symm⟩
  | document a s =>
    obtain ⟨x, r1, rfl, hx, h3⟩ := run_cons hrun
    obtain ⟨y, r2, rfl, hy, h4⟩ := run_cons h3
    obtain ⟨c', c1, c2⟩ := at_of (cfg := cfg) (accountP_of (run := [y]) (r := r2 ++ r) h (hk _ (by simp [variantAccounts])) (by simp [hy]))
    obtain ⟨d', d1, d2⟩ := at_of (cfg := cfg) (stringP_of (r := r) h4)
    exact ⟨x, y :: r2, .document c' d', rfl, by rw [hx]; exact .document c1 d1, c2.symm, d2.symm⟩
  | note a s =>
    obtain ⟨x, r1, rfl, hx, h3⟩ := run_cons hrun
    obtain ⟨y, r2, rfl, hy, h4⟩ := run_cons h3
    obtain ⟨c', c1, c2⟩ := at_of (cfg := cfg) (accountP_of (run := [y]) (r := r2 ++ r) h (hk _ (by simp [variantAccounts])) (by simp [hy]))
    obtain ⟨d', d1, d2⟩ := at_of (cfg := cfg) (stringP_of (r := r) h4)
    exact ⟨x, y :: r2, .note c' d', rfl, by rw [hx]; exact .note c1 d1, c2.symm, d2.symm⟩
  | event s t =>
    obtain ⟨x, r1, rfl, hx, h3⟩ := run_cons hrun
    obtain ⟨y, r2, rfl, hy, h4⟩ := run_cons h3
    obtain ⟨c', c1, c2⟩ := at_of (cfg := cfg) (stringP_of (s := s.item) (run := [y]) (r := r2 ++ r) (by simp [hy]))
    obtain ⟨d', d1, d2⟩ := at_of (cfg := cfg) (stringP_of (r := r) h4)
    exact ⟨x, y :: r2, .event c' d', rfl, by rw [hx]; exact .event c1 d1, c2.symm, d2.symm⟩
  | query s t =>
    obtain ⟨x, r1, rfl, hx, h3⟩ := run_cons hrun
    obtain ⟨y, r2, rfl, hy, h4⟩ := run_cons h3
    obtain ⟨c', c1, c2⟩ := at_of (cfg := cfg) (stringP_of (s := s.item) (run := [y]) (r := r2 ++ r) (by simp [hy]))
    obtain ⟨d', d1, d2⟩ := at_of (cfg := cfg) (stringP_of (r := r) h4)
    exact ⟨x, y :: r2, .query c' d', rfl, by rw [hx]; exact .query c1 d1, c2.symm, d2.symm⟩

omit [Unicode] [DecOps] in
theorem exprTokens_ne_nil (e : Expr) : exprTokens e ≠ [] := by
  cases e <;> simp [exprTokens]

omit [Unicode] [DecOps] in
theorem metaValueTokens_ne_nil (v : MetaValue) : metaValueTokens v ≠ [] := by
  rcases v with v | a
  · cases v with
    | bool b => cases b <;> simp [metaValueTokens, simpleTokens]
    | expr e => exact exprTokens_ne_nil e.expr
    | _ => simp [metaValueTokens, simpleTokens]
  · simp [metaValueTokens, amountTokens]

/-- The values of a custom directive. -/
theorem values_of (cfg : ParseCfg) {o : ParserOptions} {k n : List Ranged} (hn : EndOfLine k n) : ∀ (vs : List (Spanned MetaValue)),
    (∀ v ∈ vs, WfMetaValue v.item) → Separate vs → (∀ v ∈ vs, ∀ a ∈ valueAccounts v.item, KnowsAccount o a) → ∀ {run : List Ranged},
    run.map (·.tok) = vs.flatMap (fun v => metaValueTokens v.item) →
    ∃ ys, Many (At cfg (MetaValueP cfg o)) (run ++ k) k ys ∧ vs.map (valueSaid ·.item) = ys.map (valueSaid ·.item)
  | [], _, _, _, run, hrun => by
    rw [run_nil hrun]
    exact ⟨[], .nil, rfl⟩
  | v :: vs, h, hs, hk, run, hrun => by
    obtain ⟨r1, r2, rfl, h1, h2⟩ := run_append hrun
    have hs' : Separate vs := by
      cases vs with
      | nil => trivial
      | cons w vs => exact hs.2
    obtain ⟨ys, h3, h4⟩ := values_of cfg hn vs (fun v hv => h v (by simp [hv])) hs' (fun v hv => hk v (by simp [hv])) h2
    have hr : ∀ e, v.item = .simple (.expr e) → ¬ Continues (r2 ++ k) ∧ ∀ j c, ¬ CurrencyP (r2 ++ k) j c := by
      intro e he
      cases vs with
      | nil =>
        rw [run_nil h2]
        exact ⟨(NoOp.eol hn).not_continues, not_currency_eol hn⟩
      | cons w vs =>
        have h5 := hs.1 ⟨e, he⟩
        cases hw : metaValueTokens w.item with
        | nil => exact absurd hw (metaValueTokens_ne_nil _)
        | cons t ts =>
          replace h2 : r2.map (·.tok) = t :: (ts ++ vs.flatMap (fun v => metaValueTokens v.item)) := by
            rw [h2]; simp [hw, List.flatMap]
          obtain ⟨x, r3, rfl, hx, _⟩ := run_cons h2
          obtain ⟨h6, h7⟩ := h5 t (by simp [hw])
          refine ⟨(NoOp.cons hx h6).not_continues, fun j c hc => ?_⟩
          obtain ⟨⟨s, e, hse⟩, _⟩ := hc
          simp only [List.cons_append, List.cons.injEq] at hse
          exact h7 c (by rw [← hx, hse.1])
    obtain ⟨y, y1, y2⟩ := at_of' (cfg := cfg) (metaValueP_of cfg (h v (by simp)) (hk v (by simp)) h1 hr)
    refine ⟨y :: ys, ?_, by simp [y2, h4]⟩
    rw [List.append_assoc]
    exact .cons y1 h3

/-- Tags and links in the first line and keys and values in further lines. -/
theorem tail_of (cfg : ParseCfg) {o : ParserOptions} {m : Metadata} (h : WfMetadata m) (hk : ∀ a ∈ metadataAccounts m, KnowsAccount o a)
    {run k r : List Ranged} (hrun : run.map (·.tok) = inlineTokens m ++ block (keyLines m)) (hr : EndOfLine k r) :
    ∃ head j n lines span, Many (TagOrLinkP cfg) (run ++ k) j head ∧ EndOfLine j n ∧ Many (LineP cfg o) n r lines ∧ Covers cfg n r span ∧
      SameMetadata m (metadataOf lines head) ∧ headErrors head = [] ∧ lineErrors lines = [] ∧ clashErrors lines head = [] := by
  obtain ⟨r1, r2, rfl, h1, h2⟩ := run_append hrun
  rw [block_keyItems] at h2
  obtain ⟨n, lines, e1, e2, e3, sfx, e4⟩ := many_lines (Q := LineP cfg o) (S := SameLine) (keyItems m)
    (fun x hx ind rx k r hi hrx hkr => lineP_of cfg (wf_keyItems h x hx) (fun a ha => hk a (accounts_keyItems _ x hx a ha)) hi hrx hkr) h2 hr
  obtain ⟨head, f1, f2⟩ := head_of cfg (headItems m) (by
    intro x hx c hc
    simp only [headItems, List.mem_append, List.mem_map] at hx
    rcases hx with ⟨t, ht, rfl⟩ | ⟨t, ht, rfl⟩
    · exact h.tag t ht c hc
    · exact h.link t ht c hc) (run := r1) (r := r2 ++ k) (by
    rw [h1]; simp only [inlineTokens, headItems, List.map_append, List.map_map]; rfl)
  obtain ⟨span, hspan⟩ := covers_of cfg sfx r
  rw [← e4] at hspan
  obtain ⟨g1, g2, g3, g4⟩ := metadataOf_of h e3 f2
  exact ⟨head, r2 ++ k, n, lines, span, by rw [List.append_assoc]; exact f1, e1, e2, hspan, g1, g2, g3, g4⟩

omit [Unicode] [DecOps] in
theorem nonEmpty_of {s : Spanned Str} (h : s.item ≠ []) : nonEmpty s = some s := by simp [nonEmpty, h]

omit [Unicode] [DecOps] in
/-- Payee and narration. -/
theorem strings_of (cfg : ParseCfg) {t : Transaction} (h1 : ∀ s, t.payee = some s → s.item ≠ []) (h2 : ∀ s, t.narration = some s → s.item ≠ [])
    {run r : List Ranged} (hrun : run.map (·.tok) = stringTokens t) :
    ∃ x, PayeeNarrationP cfg (run ++ r) r x ∧ t.payee.map (·.item) = x.1.map (·.item) ∧ t.narration.map (·.item) = x.2.map (·.item) := by
  unfold stringTokens at hrun
  rcases hp : t.payee with _ | p <;> rcases hn : t.narration with _ | n <;> rw [hp, hn] at hrun
  · rw [run_nil (run := run) (by simpa using hrun)]
    exact ⟨_, .neither, rfl, rfl⟩
  · obtain ⟨s, s1, s2⟩ := at_of (cfg := cfg) (stringP_of (s := n.item) (run := run) (r := r) (by simpa using hrun))
    refine ⟨_, .narration s1, rfl, ?_⟩
    rw [nonEmpty_of (by rw [s2]; exact h2 n hn)]
    simp [s2]
  · obtain ⟨x, r1, rfl, hx, h3⟩ := run_cons (t := .stringLiteral p.item) (bs := [.stringLiteral []]) (by simpa using hrun)
    obtain ⟨s, s1, s2⟩ := at_of (cfg := cfg) (stringP_of (s := p.item) (run := [x]) (r := r1 ++ r) (by simp [hx]))
    obtain ⟨u, u1, u2⟩ := at_of (cfg := cfg) (stringP_of (s := []) (run := r1) (r := r) h3)
    refine ⟨_, .both s1 u1, ?_, ?_⟩
    · rw [nonEmpty_of (s := s) (by rw [s2]; exact h1 p hp)]
      simp [s2]
    · simp [nonEmpty, u2]
  · obtain ⟨x, r1, rfl, hx, h3⟩ := run_cons (t := .stringLiteral p.item) (bs := [.stringLiteral n.item]) (by simpa using hrun)
    obtain ⟨s, s1, s2⟩ := at_of (cfg := cfg) (stringP_of (s := p.item) (run := [x]) (r := r1 ++ r) (by simp [hx]))
    obtain ⟨u, u1, u2⟩ := at_of (cfg := cfg) (stringP_of (s := n.item) (run := r1) (r := r) h3)
    refine ⟨_, .both s1 u1, ?_, ?_⟩
    · rw [nonEmpty_of (s := s) (by rw [s2]; exact h1 p hp)]
      simp [s2]
    · rw [nonEmpty_of (s := u) (by rw [u2]; exact h2 n hn)]
      simp [u2]

/-- The tokens of a printed directive are a directive, the same. -/
theorem directiveP_of (cfg : ParseCfg) {o : ParserOptions} {d : Directive} (h : WfDirective d) (hk : ∀ a ∈ accountsOf d, KnowsAccount o a)
    {run k r : List Ranged} (hrun : run.map (·.tok) = directiveTokens d) (hr : EndOfLine k r) :
    ∃ d', DirectiveP cfg o (run ++ k) r d' [] ∧ Same d d' := by
  obtain ⟨date, m, v⟩ := d
  have hkm : ∀ a ∈ metadataAccounts m.item, KnowsAccount o a := fun a ha => hk a (by simp [accountsOf, ha])
  have hkv : ∀ a ∈ variantAccounts v, KnowsAccount o a := fun a ha => hk a (by simp [accountsOf, ha])
  have other : (∀ t, v ≠ .transaction t) → (∀ s vs, v ≠ .custom s vs) →
      run.map (·.tok) = .date date.item :: bodyTokens v ++ inlineTokens m.item ++ block (keyLines m.item) →
      ∃ d', DirectiveP cfg o (run ++ k) r d' [] ∧ Same ⟨date, m, v⟩ d' := by
    intro hv1 hv2 hrun
    rw [List.append_assoc, List.cons_append] at hrun
    obtain ⟨x, r1, rfl, hx, h1⟩ := run_cons hrun
    obtain ⟨r2, r3, rfl, h2, h3⟩ := run_append h1
    obtain ⟨head, j, n, lines, span, t1, t2, t3, t4, t5, t6, t7, t8⟩ := tail_of cfg h.1 hkm h3 hr
    obtain ⟨y, rb, v', rfl, b1, b2⟩ := bodyP_of cfg h.2 hkv hv1 hv2 (r := r3 ++ k) h2
    obtain ⟨date', d1, d2⟩ := at_of (cfg := cfg) (dateP_of (d := date.item) (run := [x]) (r := y :: rb ++ (r3 ++ k)) (by simp [hx]))
    have e := DirectiveP.other d1 (word_of (x := y) rfl _) b1 t1 t2 t3 t4
    rw [t6, t7, t8] at e
    refine ⟨_, by simpa using e, d2.symm, t5, b2⟩
  cases v with
  | transaction t =>
    have hrun' : run.map (·.tok) = .date date.item :: flagToken t.flag.item :: (stringTokens t ++ (inlineTokens m.item ++
        block (keyLines m.item) ++ t.postings.flatMap (fun p => .eol :: .indent :: postingTokens p.item))) := by
      rw [hrun]; simp [directiveTokens]
    obtain ⟨x, r1, rfl, hx, h1⟩ := run_cons hrun'
    obtain ⟨y, r2, rfl, hy, h2⟩ := run_cons h1
    obtain ⟨r3, r4, rfl, h3, h4⟩ := run_append h2
    obtain ⟨r5, r6, rfl, h5, h6⟩ := run_append h4
    obtain ⟨p, ps, e1, e2, e3, _⟩ := many_lines (Q := PostingP cfg o) (S := fun (p : Spanned Posting) y => SamePosting p.item y.1.item ∧ y.2 = []) t.postings
      (fun p hp ind rx k r hi hrx hkr => postingP_of cfg (h.2.2.2 p hp)
        (fun a ha => hkv a (List.mem_flatMap.mpr ⟨p, hp, ha⟩)) hi hrx hkr) h6 hr
    obtain ⟨head, j, n, lines, span, t1, t2, t3, t4, t5, t6, t7, t8⟩ := tail_of cfg h.1 hkm h5 e1
    obtain ⟨strings, s1, s2, s3⟩ := strings_of cfg h.2.1 h.2.2.1 (r := r5 ++ (r6 ++ k)) h3
    obtain ⟨flag, f1, f2⟩ := at_of (cfg := cfg) (p := TxnP) (run := [y]) (r := r3 ++ (r5 ++ (r6 ++ k))) (.inr (flagP_of (f := t.flag.item) (by simp [hy])))
    obtain ⟨date', d1, d2⟩ := at_of (cfg := cfg) (dateP_of (d := date.item) (run := [x]) (r := [y] ++ (r3 ++ (r5 ++ (r6 ++ k)))) (by simp [hx]))
    have e := DirectiveP.transaction d1 f1 s1 t1 t2 t3 t4 e2
    have hps : ps.flatMap (·.2) = [] := by
      clear e e2 h6 hrun hrun' h1 h2 h4 hk hkv
      generalize t.postings = qs at e3
      induction e3 with
      | nil => rfl
      | cons h _ ih => simp [h.2, ih]
    have hps' : List.Forall₂ (fun p q => SamePosting p.item q.item) t.postings (ps.map (·.1)) := by
      clear e e2 h6 hrun hrun' h1 h2 h4 hk hkv hps
      generalize t.postings = qs at e3 ⊢
      induction e3 with
      | nil => exact .nil
      | cons h _ ih => exact .cons h.1 ih
    rw [t6, t7, t8, hps] at e
    exact ⟨⟨date', ⟨metadataOf lines head, span⟩, .transaction ⟨flag, strings.1, strings.2, ps.map (·.1)⟩⟩, by simpa using e, d2.symm, t5,
      f2.symm, s2, s3, hps'⟩
  | custom type vs =>
    have hrun' : run.map (·.tok) = .date date.item :: .custom :: .stringLiteral type.item :: (vs.flatMap (fun v => metaValueTokens v.item) ++
        block (tagLines m.item ++ keyLines m.item)) := by
      rw [hrun]; simp [directiveTokens]
    rw [block_lineItems] at hrun'
    obtain ⟨x, r1, rfl, hx, h1⟩ := run_cons hrun'
    obtain ⟨y, r2, rfl, hy, h2⟩ := run_cons h1
    obtain ⟨z, r3, rfl, hz, h3⟩ := run_cons h2
    obtain ⟨r4, r5, rfl, h4, h5⟩ := run_append h3
    obtain ⟨n, lines, e1, e2, e3, sfx, e4⟩ := many_lines (Q := LineP cfg o) (S := SameLine) (lineItems m.item)
      (fun x hx ind rx k r hi hrx hkr => lineP_of cfg (wf_lineItems h.1 x hx) (fun a ha => hkm a (accounts_lineItems _ x hx a ha)) hi hrx hkr) h5 hr
    obtain ⟨span, hspan⟩ := covers_of cfg sfx r
    rw [← e4] at hspan
    obtain ⟨values, v1, v2⟩ := values_of cfg (o := o) e1 vs h.2.1 h.2.2 (fun v hv a ha => hkv a (List.mem_flatMap.mpr ⟨v, hv, ha⟩)) h4
    obtain ⟨type', s1, s2⟩ := at_of (cfg := cfg) (stringP_of (s := type.item) (run := [z]) (r := r4 ++ (r5 ++ k)) (by simp [hz]))
    obtain ⟨date', d1, d2⟩ := at_of (cfg := cfg) (dateP_of (d := date.item) (run := [x]) (r := y :: ([z] ++ (r4 ++ (r5 ++ k)))) (by simp [hx]))
    obtain ⟨m1, m2⟩ := lineMetadata_of h.1 e3
    have e := DirectiveP.custom d1 (word_of hy _) s1 v1 e1 e2 hspan
    rw [m2] at e
    exact ⟨⟨date', ⟨lineMetadata lines, span⟩, .custom type' values⟩, by simpa using e, d2.symm, m1, s2.symm, v2⟩
  | _ => exact other (by simp) (by simp) hrun

end

end Lima
