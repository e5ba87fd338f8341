import Verif.Lemmas.Check
import Verif.Props.Parse
import Verif.Props.Display
import Verif.Lemmas.SwapPartition

/-!
# C69, C70: what the programs `check` and `check-postings-balance` report
-/

set_option linter.unusedSectionVars false

namespace Lima.Check
open Lima Spec

section
variable [DecOps] {before ds : List (Spanned Directive)} {es ws : List Report}

theorem inv_exists (before : List (Spanned Directive)) : ∃ accounts, Inv accounts before := by
  induction before using List.reverseRecOn with
  | nil => exact ⟨_, inv_nil⟩
  | append_singleton b d ih =>
    obtain ⟨accounts, h⟩ := ih
    by_cases ho : ∃ name, Opens name d
    · obtain ⟨name, ho⟩ := ho
      by_cases hg : accounts.get name = none
      · exact ⟨_, inv_open h ho hg⟩
      · refine ⟨accounts, inv_same h (fun n hn => ?_) (fun n hn => ?_)⟩
        · obtain ⟨_, _, _, e1, e2⟩ := hn
          obtain ⟨_, _, _, e3, e4⟩ := ho
          rw [e1] at e3
          cases e3
          rwa [← e2, e4]
        · obtain ⟨_, e1, _⟩ := hn
          obtain ⟨_, _, _, e3, _⟩ := ho
          rw [e1] at e3
          cases e3
    · by_cases hc : ∃ name, Closes name d
      · obtain ⟨name, hc⟩ := hc
        by_cases hg : ∃ o, accounts.get name = some ⟨o, none⟩
        · obtain ⟨o, hg⟩ := hg
          exact ⟨_, inv_close h hc hg⟩
        · refine ⟨accounts, inv_same h (fun n hn => absurd ⟨n, hn⟩ ho) (fun n hn o hg' => hg ⟨o, ?_⟩)⟩
          obtain ⟨_, e1, e2⟩ := hn
          obtain ⟨_, e3, e4⟩ := hc
          rw [e1] at e3
          cases e3
          rw [← e4, e2]
          exact hg'
      · exact ⟨accounts, inv_same h (fun n hn => absurd ⟨n, hn⟩ ho) (fun n hn => absurd ⟨n, hn⟩ hc)⟩

theorem all_mem (h : AllReported before ds es ws) (e : Report) :
    e ∈ es ↔ ∃ p d q es' ws', ds = p ++ d :: q ∧ Reported (before ++ p) d es' ws' ∧ e ∈ es' := by
  induction h with
  | nil => simp
  | @cons before ds d es es' ws ws' h1 h2 ih =>
    rw [List.mem_append, ih]
    constructor
    · rintro (h | ⟨p, x, q, a, b, rfl, h3, h4⟩)
      · exact ⟨[], d, ds, es, ws, rfl, by simpa using h1, h⟩
      · exact ⟨d :: p, x, q, a, b, rfl, by simpa using h3, h4⟩
    · rintro ⟨p, x, q, a, b, h3, h4, h5⟩
      cases p with
      | nil =>
        injection h3 with h31 h32
        subst h31 h32
        obtain ⟨accounts, hi⟩ := inv_exists before
        rw [List.append_nil] at h4
        exact .inl ((reported_unique hi h1 h4).1 ▸ h5)
      | cons y p =>
        injection h3 with h31 h32
        subst h31 h32
        exact .inr ⟨p, x, q, a, b, rfl, by simpa using h4, h5⟩

theorem each (h : AllReported before ds es ws) : ∀ p d q, ds = p ++ d :: q → ∃ es' ws', Reported (before ++ p) d es' ws' ∧ ∀ e ∈ es', e ∈ es := by
  induction h with
  | nil => intro p d q h; simp at h
  | @cons before ds d es es' ws ws' h1 _ ih =>
    intro p x q h
    cases p with
    | nil =>
      injection h with h3 h4
      subst h3
      exact ⟨es, ws, by simpa using h1, fun e he => by simp [he]⟩
    | cons y p =>
      injection h with h3 h4
      subst h3
      obtain ⟨a, b, c1, c2⟩ := ih p x q h4
      exact ⟨a, b, by simpa using c1, fun e he => by simp [c2 e he]⟩

theorem of_transaction {d : Spanned Directive} {t : Transaction} (hd : d.item.variant = .transaction t) (h : Reported before d es ws) :
    ∃ es1 es2, es = es1 ++ es2 ∧ AmountsReported d t.postings es1 ∧ AccountsReported before d t.postings es2 := by
  cases h with
  | transaction b1 b2 b3 =>
    rw [hd] at b1
    cases b1
    exact ⟨_, _, rfl, b2, b3⟩
  | first b _ => obtain ⟨_, _, _, b, _⟩ := b; rw [hd] at b; cases b
  | again b _ => obtain ⟨_, _, _, b, _⟩ := b; rw [hd] at b; cases b
  | reopened b _ => obtain ⟨_, _, _, b, _⟩ := b; rw [hd] at b; cases b
  | unopened b _ => rw [hd] at b; cases b
  | closes b _ => obtain ⟨_, b, _⟩ := b; rw [hd] at b; cases b
  | reclosed b _ => obtain ⟨_, b, _⟩ := b; rw [hd] at b; cases b
  | other b _ _ => exact absurd hd (b _)

/-! ### Dates -/

theorem notAfter_of {a b : Spanned Directive} (h : ¬ StrictlyBefore b.item a.item) : NotAfter a b := by
  unfold NotAfter Date.lt
  rw [decide_eq_false_iff_not]
  intro h'
  apply h
  unfold StrictlyBefore
  omega

/-- An open directive comes before a directive which is neither that nor a balance, unless its date is later. -/
theorem before_of {a b : Spanned Directive} {name : Str} (ho : Opens name a) (hb : kindRank b.item = 2) (h : NotAfter a b) :
    StrictlyBefore a.item b.item := by
  obtain ⟨_, _, _, e, _⟩ := ho
  have : kindRank a.item = 0 := by unfold kindRank; rw [e]
  unfold NotAfter Date.lt at h
  rw [decide_eq_false_iff_not] at h
  unfold StrictlyBefore
  rw [this, hb]
  omega

theorem unknown_iff {p q : List (Spanned Directive)} {d : Spanned Directive} {name : Str}
    (hs : (p ++ d :: q).Pairwise fun x y => ¬ StrictlyBefore y.item x.item) (hd : kindRank d.item = 2) (hn : ¬ Opens name d) :
    Unknown name p ↔ ∀ o ∈ p ++ d :: q, Opens name o → ¬ NotAfter o d := by
  rw [List.pairwise_append] at hs
  obtain ⟨_, h2, h3⟩ := hs
  rw [List.pairwise_cons] at h2
  constructor
  · intro h o ho hopen hna
    rcases List.mem_append.mp ho with ho | ho
    · exact h o ho hopen
    · rcases List.mem_cons.mp ho with rfl | ho
      · exact hn hopen
      · exact h2.1 o ho (before_of hopen hd hna)
  · intro h o ho hopen
    exact h o (by simp [ho]) hopen (notAfter_of (h3 o ho d (by simp)))

/-! ### Sums -/

theorem adds_exact {places : Nat} (hp : places ≤ 28) {ds : List Dec} (hd : ∀ d ∈ ds, d.Fits ∧ d.scale ≤ places) {t : Dec} (ht : t.Fits)
    (hts : t.scale ≤ places) (hb : (|t.val| + (ds.map fun d => |d.val|).sum) * 10 ^ places < 2 ^ 96) :
    ∃ u, Adds t ds u ∧ u.val = t.val + (ds.map Dec.val).sum := by
  induction ds generalizing t with
  | nil => exact ⟨t, .nil, by simp⟩
  | cons d ds ih =>
    obtain ⟨d1, d2⟩ := hd d (by simp)
    rw [List.map_cons, List.sum_cons] at hb
    have hnn : 0 ≤ (ds.map fun d : Dec => |d.val|).sum := by
      apply List.sum_nonneg
      intro x hx
      obtain ⟨y, _, rfl⟩ := List.mem_map.mp hx
      exact abs_nonneg _
    have hpow : (0 : ℚ) < 10 ^ places := by positivity
    have hm : max t.scale d.scale ≤ places := max_le hts d2
    have hf : (t.addExact d).Fits := by
      refine ⟨?_, le_trans hm hp⟩
      have e : ((t.addExact d).mant : ℚ) = (t.val + d.val) * 10 ^ (max t.scale d.scale) := by
        rw [← Dec.addExact_val]
        unfold Dec.val
        have : (10 : ℚ) ^ (t.addExact d).scale ≠ 0 := by positivity
        rw [show max t.scale d.scale = (t.addExact d).scale from rfl, div_mul_cancel₀ _ this]
      have h1 : |((t.addExact d).mant : ℚ)| < 2 ^ 96 := by
        rw [e, abs_mul, abs_of_nonneg (by positivity : (0 : ℚ) ≤ 10 ^ max t.scale d.scale)]
        have h2 : (10 : ℚ) ^ max t.scale d.scale ≤ 10 ^ places := pow_le_pow_right₀ (by norm_num) hm
        have h3 : |t.val + d.val| ≤ |t.val| + |d.val| := abs_add_le _ _
        calc |t.val + d.val| * 10 ^ max t.scale d.scale ≤ (|t.val| + |d.val|) * 10 ^ places :=
              mul_le_mul h3 h2 (by positivity) (by positivity)
          _ ≤ (|t.val| + (|d.val| + (ds.map fun d => |d.val|).sum)) * 10 ^ places := by
              apply mul_le_mul_of_nonneg_right _ hpow.le
              linarith
          _ < 2 ^ 96 := hb
      have h4 : ((t.addExact d).mant.natAbs : ℚ) = |((t.addExact d).mant : ℚ)| := by
        rw [Nat.cast_natAbs]
        simp
      rw [← h4] at h1
      exact_mod_cast h1
    obtain ⟨u, hu, huv, hus⟩ := DecOps.add_exact t d ht d1 hf
    have hu1 : |u.val| ≤ |t.val| + |d.val| := by rw [huv]; exact abs_add_le _ _
    obtain ⟨w, hw, hwv⟩ := ih (fun x hx => hd x (by simp [hx])) (DecOps.add_fits _ _ _ ht d1 hu) (le_trans hus hm) (lt_of_le_of_lt (by
      apply mul_le_mul_of_nonneg_right _ hpow.le
      linarith) hb)
    exact ⟨w, .cons hu hw, by rw [hwv, huv, List.map_cons, List.sum_cons]; ring⟩

theorem adds_of_fit {ds : List Dec} (h : FitTogether ds) : ∃ u, Adds ⟨0, 0⟩ ds u ∧ u.val = (ds.map Dec.val).sum := by
  obtain ⟨places, h1, h2, h3⟩ := h
  obtain ⟨u, h4, h5⟩ := adds_exact h1 h2 (t := ⟨0, 0⟩) ⟨by decide, by decide⟩ (by simp) (by simpa [Dec.val] using h3)
  exact ⟨u, h4, by simpa [Dec.val] using h5⟩

theorem amounts_exist {d : Spanned Directive} {t : Transaction} (hd : d.item.variant = .transaction t) {ps : List (Spanned Posting)}
    (h : FitTogether ((ps.filterMap (·.item.amount)).map (·.item.value))) : ∃ es, AmountsReported d ps es := by
  by_cases hne : ps = []
  · exact ⟨_, .none hne⟩
  · by_cases ha : ∀ p ∈ ps, p.item.amount ≠ none
    · obtain ⟨total, h1, _⟩ := adds_of_fit h
      have hm := map_some ha
      by_cases hz : total.val = 0
      · exact ⟨_, .zero hm h1 hz⟩
      · have : ps.filterMap (·.item.amount) ≠ [] := by
          intro e
          rw [e] at hm
          exact hne (List.map_eq_nil_iff.mp hm)
        have e := List.dropLast_append_getLast this
        exact ⟨_, .other (others := (ps.filterMap (·.item.amount)).dropLast) (last := (ps.filterMap (·.item.amount)).getLast this)
          (by rw [e]; exact hm) (by rw [e]; exact h1) hz⟩
    · push Not at ha
      obtain ⟨p, h1, h2⟩ := ha
      exact ⟨_, .missing h1 h2⟩

theorem goes {st : State} {d : Spanned Directive}
    (h : ∀ t, d.item.variant = .transaction t → FitTogether ((t.postings.filterMap (·.item.amount)).map (·.item.value))) :
    ∃ st', step st d = some st' := by
  unfold step
  cases hv : d.item.variant with
  | transaction t =>
    obtain ⟨es, he⟩ := amounts_exist hv (h t hv)
    simp only [(amounts_iff hv).mpr he]
    exact ⟨_, rfl⟩
  | _ => exact ⟨_, rfl⟩

theorem all_go {st : State} {ds : List (Spanned Directive)} (h : AddsUp ds) : ∃ st', steps ds st = some st' := by
  induction ds generalizing st with
  | nil => exact ⟨_, rfl⟩
  | cons d ds ih =>
    obtain ⟨st1, h1⟩ := goes (st := st) (d := d) (h d (by simp))
    unfold steps
    rw [h1]
    exact ih fun x hx => h x (by simp [hx])

end

end Lima.Check

namespace Lima.Props
open Lima Spec

section
variable [DecOps] {r : ParseSuccess}

/-- C69: after a successful parse the program `check` comes to exactly the errors and warnings specified, after the warnings of
the parser, in the order of the directives. -/
theorem C69_exact (r : ParseSuccess) (es ws : List Report) :
    Check.check r = some (es, ws) ↔ ∃ ws', ws = r.warnings ++ ws' ∧ AllReported [] r.directives es ws' := by
  unfold Check.check
  rw [Option.map_eq_some_iff]
  constructor
  · rintro ⟨st, h1, h2⟩
    cases h2
    have hg : ∃ ws', st.warnings = r.warnings ++ ws' := by
      have : ∀ {ds : List (Spanned Directive)} {st st' : Check.State} {before}, Check.Inv st.accounts before → Check.steps ds st = some st' →
          ∃ ws, st'.warnings = st.warnings ++ ws := by
        intro ds
        induction ds with
        | nil =>
          intro st st' _ _ e
          cases e
          exact ⟨[], by simp⟩
        | cons d ds ih =>
          intro st st' b hi e
          unfold Check.steps at e
          cases hs : Check.step st d with
          | none => simp [hs] at e
          | some st1 =>
            simp only [hs] at e
            obtain ⟨es1, ws1, _, _, k3, k4⟩ := Check.step_sound hi hs
            obtain ⟨ws2, k6⟩ := ih k4 e
            exact ⟨ws1 ++ ws2, by rw [k6, k3, List.append_assoc]⟩
      exact this Check.inv_nil h1
    obtain ⟨ws', hw⟩ := hg
    exact ⟨ws', hw, (Check.steps_iff (st := ⟨[], [], r.warnings⟩) Check.inv_nil).mp ⟨st, h1, by simp, hw⟩⟩
  · rintro ⟨ws', rfl, h⟩
    obtain ⟨st, h1, h2, h3⟩ := (Check.steps_iff (st := ⟨[], [], r.warnings⟩) Check.inv_nil).mpr h
    refine ⟨st, h1, ?_⟩
    rw [h2, h3]
    rfl

/-- C69: after any directives, an account was not opened, or it is open, or it was closed; and by which directives is determined. -/
theorem C69_standing (name : Str) (before : List (Spanned Directive)) :
    (Unknown name before ∧ (∀ o, ¬ OpenSince name before o) ∧ ∀ o c, ¬ ClosedSince name before o c) ∨
    (∃ o, ¬ Unknown name before ∧ (∀ o', OpenSince name before o' ↔ o' = o) ∧ ∀ o c, ¬ ClosedSince name before o c) ∨
    ∃ o c, ¬ Unknown name before ∧ (∀ o, ¬ OpenSince name before o) ∧ ∀ o' c', ClosedSince name before o' c' ↔ o' = o ∧ c' = c := by
  obtain ⟨accounts, h⟩ := Check.inv_exists before
  obtain ⟨k1, k2, k3⟩ := h name
  simp only [← k1, ← k2, ← k3]
  cases accounts.get name with
  | none => simp
  | some s =>
    obtain ⟨o, c⟩ := s
    cases c with
    | none => exact .inr (.inl ⟨o, by simp, fun o' => by simp [eq_comm], by simp⟩)
    | some c => exact .inr (.inr ⟨o, c, by simp, by simp, fun o' c' => by simp [eq_comm]⟩)

/-- C69: the program does not crash if the amounts of each transaction can be added up. -/
theorem C69_no_panic (h : AddsUp r.directives) : ∃ es ws, Check.check r = some (es, ws) := by
  obtain ⟨st, hs⟩ := Check.all_go (st := ⟨[], [], r.warnings⟩) h
  exact ⟨st.errors, st.warnings, by unfold Check.check; rw [hs]; rfl⟩

/-- C69: if all postings of a transaction have an amount, and these can be added up, then there is an error exactly if the exact sum
is not zero, and it tells the exact sum. -/
theorem C69_sum {d : Spanned Directive} {t : Transaction} {amounts : List (Spanned ExprValue)} (hd : d.item.variant = .transaction t)
    (ha : t.postings.map (·.item.amount) = amounts.map some) (hf : FitTogether (amounts.map (·.item.value))) {es : List Report}
    (h : AmountsReported d t.postings es) :
    ((amounts.map fun a => a.item.value.val).sum = 0 → es = []) ∧
    ((amounts.map fun a => a.item.value.val).sum ≠ 0 → ∃ total others last, amounts = others ++ [last] ∧
      total.val = (amounts.map fun a => a.item.value.val).sum ∧ es = [sumReport d total last others]) := by
  obtain ⟨total, h1, h2⟩ := Check.adds_of_fit hf
  rw [List.map_map] at h2
  constructor
  · intro hz
    exact Check.amounts_unique hd (.zero ha h1 (h2.trans hz)) h
  · intro hz
    have hne : amounts ≠ [] := by
      rintro rfl
      simp at hz
    have e := List.dropLast_append_getLast hne
    refine ⟨total, amounts.dropLast, amounts.getLast hne, e.symm, h2, ?_⟩
    refine Check.amounts_unique hd (.other (by rw [e]; exact ha) (by rw [e]; exact h1) ?_) h
    rw [h2]
    exact hz

end

section
variable [Unicode] [DecOps] {fs : FileSystem} {env : ParseEnv} {rootPath : Option Path} {rootContent : Str} {s : Sources}
  {r : ParseSuccess} {es ws : List Report}

/-- C69: an account is reported as unknown exactly where it is used, by a posting or a close directive, without an open directive for
it which is dated on or before that day, wherever in the files that may be. -/
theorem C69_unknown (hwf : GlobsWF fs) (hs : ReadInSomeOrder fs env.tokens rootPath rootContent s) (hr : parseSources env s = .ok r)
    (hc : Check.check r = some (es, ws)) (e : Report) :
    e ∈ es ∧ e.reason = str "no such account" ↔
      (∃ d ∈ r.directives, ∃ t, d.item.variant = .transaction t ∧ ∃ p ∈ t.postings,
        (∀ o ∈ r.directives, Opens p.item.account.item.name o → ¬ NotAfter o d) ∧ e = unknownReport d p) ∨
      (∃ d ∈ r.directives, ∃ account, d.item.variant = .close account ∧
        (∀ o ∈ r.directives, Opens account.item.name o → ¬ NotAfter o d) ∧ e = unopenedReport d account) := by
  obtain ⟨ws', _, hall⟩ := (C69_exact r es ws).mp hc
  have hsorted := C01_whole_parse hwf hs hr
  have posting : ∀ {before : List (Spanned Directive)} {d : Spanned Directive} {ps : List (Spanned Posting)} {es' : List Report},
      AccountsReported before d ps es' → ∀ e, (e ∈ es' ∧ e.reason = str "no such account" ↔
        ∃ p ∈ ps, Unknown p.item.account.item.name before ∧ e = unknownReport d p) := by
    intro before d ps es' h e
    induction h with
    | nil => simp
    | @fine p ps es' o h1 _ ih =>
      rw [ih]
      constructor
      · rintro ⟨p, h2, h3⟩
        exact ⟨p, by simp [h2], h3⟩
      · rintro ⟨p', h2, h3⟩
        rcases List.mem_cons.mp h2 with rfl | h2
        · rcases C69_standing p'.item.account.item.name before with h | ⟨o', h, _⟩ | ⟨o', c, h, _⟩
          · exact absurd h1 (h.2.1 o)
          · exact absurd h3.1 h
          · exact absurd h3.1 h
        · exact ⟨p', h2, h3⟩
    | @unknown p ps es' h1 _ ih =>
      rw [List.mem_cons, or_and_right, ih]
      constructor
      · rintro (⟨rfl, _⟩ | ⟨p', h2, h3⟩)
        · exact ⟨p, by simp, h1, rfl⟩
        · exact ⟨p', by simp [h2], h3⟩
      · rintro ⟨p', h2, h3⟩
        rcases List.mem_cons.mp h2 with rfl | h2
        · exact .inl ⟨h3.2, by rw [h3.2]; rfl⟩
        · exact .inr ⟨p', h2, h3⟩
    | @closed p ps es' o c h1 _ ih =>
      rw [List.mem_cons, or_and_right, ih]
      constructor
      · rintro (⟨rfl, h2⟩ | ⟨p', h2, h3⟩)
        · exact absurd h2 (show str "account is closed" ≠ str "no such account" by decide)
        · exact ⟨p', by simp [h2], h3⟩
      · rintro ⟨p', h2, h3⟩
        rcases List.mem_cons.mp h2 with rfl | h2
        · rcases C69_standing p'.item.account.item.name before with h | ⟨o', h, _⟩ | ⟨o', c, h, _⟩
          · exact absurd h1 (h.2.2 o c)
          · exact absurd h3.1 h
          · exact absurd h3.1 h
        · exact .inr ⟨p', h2, h3⟩
  constructor
  · rintro ⟨he, hre⟩
    obtain ⟨p, d, q, es', ws', e1, e2, e3⟩ := (Check.all_mem hall e).mp he
    rw [List.nil_append] at e2
    rw [e1] at hsorted ⊢
    cases e2 with
    | transaction a1 a2 a3 =>
      rcases List.mem_append.mp e3 with e3 | e3
      · exfalso
        cases a2 with
        | other =>
          rw [List.mem_singleton] at e3
          subst e3
          have := congrArg List.head? hre
          unfold sumReport at this
          simp [str] at this
        | _ => cases e3
      · obtain ⟨x, b1, b2, rfl⟩ := (posting a3 e).mp ⟨e3, hre⟩
        refine .inl ⟨d, by simp, _, a1, x, b1, ?_, rfl⟩
        refine (Check.unknown_iff hsorted (by unfold kindRank; rw [a1]) ?_).mp b2
        rintro ⟨_, _, _, a4, _⟩
        rw [a1] at a4
        cases a4
    | reopened => rw [List.mem_singleton] at e3; subst e3; exact absurd hre (show str "account was closed" ≠ str "no such account" by decide)
    | @unopened account a1 a2 =>
      rw [List.mem_singleton] at e3
      subst e3
      refine .inr ⟨d, by simp, account, a1, ?_, rfl⟩
      refine (Check.unknown_iff hsorted (by unfold kindRank; rw [a1]) ?_).mp a2
      rintro ⟨_, _, _, a4, _⟩
      rw [a1] at a4
      cases a4
    | reclosed => rw [List.mem_singleton] at e3; subst e3; exact absurd hre (show str "account already closed" ≠ str "no such account" by decide)
    | _ => cases e3
  · rintro (⟨d, hd, t, a1, x, hx, a2, rfl⟩ | ⟨d, hd, account, a1, a2, rfl⟩)
    · obtain ⟨p, q, e1⟩ := List.append_of_mem hd
      obtain ⟨es', ws', e2, e3⟩ := Check.each hall p d q e1
      rw [e1] at hsorted a2
      rw [List.nil_append] at e2
      have hn : ¬ Opens x.item.account.item.name d := by
        rintro ⟨_, _, _, a4, _⟩
        rw [a1] at a4
        cases a4
      have hu := (Check.unknown_iff hsorted (by unfold kindRank; rw [a1]) hn).mpr a2
      refine ⟨e3 _ ?_, rfl⟩
      obtain ⟨_, _, rfl, _, b3⟩ := Check.of_transaction a1 e2
      exact List.mem_append_right _ ((posting b3 _).mpr ⟨x, hx, hu, rfl⟩).1
    · obtain ⟨p, q, e1⟩ := List.append_of_mem hd
      obtain ⟨es', ws', e2, e3⟩ := Check.each hall p d q e1
      rw [e1] at hsorted a2
      rw [List.nil_append] at e2
      have hn : ¬ Opens account.item.name d := by
        rintro ⟨_, _, _, a4, _⟩
        rw [a1] at a4
        cases a4
      have hu := (Check.unknown_iff hsorted (by unfold kindRank; rw [a1]) hn).mpr a2
      refine ⟨e3 _ ?_, rfl⟩
      obtain ⟨accounts, hi⟩ := Check.inv_exists p
      rw [(Check.reported_unique hi (.unopened a1 hu) e2).1]
      simp

/-- C69: a posting to an account which was opened, closed on that day or later, all before the day of the transaction, is reported, with
a close directive for it. -/
theorem C69_closed (hwf : GlobsWF fs) (hs : ReadInSomeOrder fs env.tokens rootPath rootContent s) (hr : parseSources env s = .ok r)
    (hc : Check.check r = some (es, ws)) {d o c : Spanned Directive} {t : Transaction} {p : Spanned Posting} (hd : d ∈ r.directives)
    (ht : d.item.variant = .transaction t) (hp : p ∈ t.postings) (ho : o ∈ r.directives) (hcl : c ∈ r.directives)
    (h1 : Opens p.item.account.item.name o) (h2 : Closes p.item.account.item.name c) (h3 : NotAfter o c) (h4 : ¬ NotAfter d c) :
    ∃ c' ∈ r.directives, Closes p.item.account.item.name c' ∧ NotAfter c' d ∧ closedReport d p c' ∈ es := by
  obtain ⟨ws', _, hall⟩ := (C69_exact r es ws).mp hc
  have hsorted := C01_whole_parse hwf hs hr
  obtain ⟨pre, q, e1⟩ := List.append_of_mem hd
  rw [e1] at hsorted hcl ho ⊢
  obtain ⟨es', ws', e2, e3⟩ := Check.each hall pre d q e1
  rw [List.nil_append] at e2
  have hck : kindRank c.item = 2 := by
    obtain ⟨_, e, _⟩ := h2
    unfold kindRank
    rw [e]
  obtain ⟨s1, s2, s3⟩ := List.pairwise_append.mp hsorted
  have cpre : c ∈ pre := by
    rcases List.mem_append.mp hcl with h | h
    · exact h
    · exfalso
      rcases List.mem_cons.mp h with rfl | h
      · exact h4 (by simp [NotAfter, Date.lt])
      · exact h4 (Check.notAfter_of ((List.pairwise_cons.mp s2).1 c h))
  obtain ⟨a, b, rfl⟩ := List.append_of_mem cpre
  have oa : o ∈ a := by
    have hb := Check.before_of h1 hck h3
    have hss := hsorted
    rw [List.append_assoc, List.pairwise_append] at hss
    have h5 := (List.pairwise_cons.mp hss.2.1).1
    rw [List.append_assoc] at ho
    rcases List.mem_append.mp ho with h | h
    · exact h
    · exfalso
      rcases List.mem_cons.mp h with rfl | h
      · exact Check.not_both h1 h2
      · exact h5 o h hb
  have closed : ∃ o' c', ClosedSince p.item.account.item.name (a ++ c :: b) o' c' := by
    rcases C69_standing p.item.account.item.name a with h | ⟨o', _, h, _⟩ | ⟨o', c', _, _, h⟩
    · exact absurd h1 (h.1 o oa)
    · obtain ⟨x, y, rfl, k1, k2, k3⟩ := (h o').mpr rfl
      exact ⟨o', c, x, y, b, by simp, k1, k2, k3, h2⟩
    · obtain ⟨x, y, z, rfl, k⟩ := (h o' c').mpr ⟨rfl, rfl⟩
      exact ⟨o', c', x, y, z ++ c :: b, by simp, k⟩
  obtain ⟨o', c', hcs⟩ := closed
  have hcs' := hcs
  obtain ⟨x, y, z, e4, _, _, _, k4⟩ := hcs'
  have hm : c' ∈ a ++ c :: b := by rw [e4]; simp
  refine ⟨c', List.mem_append_left _ hm, k4, Check.notAfter_of (s3 c' hm d (by simp)), e3 _ ?_⟩
  obtain ⟨_, _, rfl, _, k5⟩ := Check.of_transaction ht e2
  refine List.mem_append_right _ ?_
  clear e2 e3
  generalize t.postings = postings at hp k5
  induction k5 with
  | nil => cases hp
  | @fine p' ps es2 o2 g1 _ ih =>
    rcases List.mem_cons.mp hp with rfl | hp
    · exfalso
      rcases C69_standing p.item.account.item.name (a ++ c :: b) with h | ⟨_, _, _, h⟩ | ⟨_, _, _, h, _⟩
      · exact h.2.1 _ g1
      · exact h _ _ hcs
      · exact h _ g1
    · exact ih hp
  | @unknown p' ps es2 g1 _ ih =>
    rcases List.mem_cons.mp hp with rfl | hp
    · exfalso
      rcases C69_standing p.item.account.item.name (a ++ c :: b) with h | ⟨_, _, _, h⟩ | ⟨_, _, h, _⟩
      · exact h.2.2 _ _ hcs
      · exact h _ _ hcs
      · exact h g1
    · exact List.mem_cons_of_mem _ (ih hp)
  | @closed p' ps es2 o2 c2 g1 _ ih =>
    rcases List.mem_cons.mp hp with rfl | hp
    · rcases C69_standing p.item.account.item.name (a ++ c :: b) with h | ⟨_, _, _, h⟩ | ⟨o3, c3, _, _, h⟩
      · exact absurd hcs (h.2.2 _ _)
      · exact absurd hcs (h _ _)
      · rw [((h _ _).mp hcs).2, ((h _ _).mp g1).2]
        simp
    · exact List.mem_cons_of_mem _ (ih hp)

end

/-! ### `check-postings-balance` -/

section
variable [DecOps] {r : ParseSuccess} {es ws : List Report} {partition : List (Spanned Posting) → List (Spanned Posting)}

/-- The postings without an amount come last. -/
theorem partition_drop (hp : Partitions partition) (ps : List (Spanned Posting)) :
    ((partition ps).drop (ps.filter (·.item.amount.isSome)).length).Perm (ps.filter (·.item.amount.isNone)) := by
  obtain ⟨a, b, h1, h2, h3⟩ := hp.first ps
  have hperm := hp.perm ps
  rw [h1] at hperm ⊢
  have fa : a.filter (·.item.amount.isSome) = a := List.filter_eq_self.mpr fun p h => Option.isSome_iff_ne_none.mpr (h2 p h)
  have fb : b.filter (·.item.amount.isSome) = [] := List.filter_eq_nil_iff.mpr fun p h => by simp [h3 p h]
  have na : a.filter (·.item.amount.isNone) = [] := List.filter_eq_nil_iff.mpr fun p h => by simpa using h2 p h
  have nb : b.filter (·.item.amount.isNone) = b := List.filter_eq_self.mpr fun p h => by simp [h3 p h]
  have l1 := (hperm.filter (·.item.amount.isSome)).length_eq
  rw [List.filter_append, fa, fb, List.append_nil] at l1
  rw [← l1, List.drop_left]
  have l2 := hperm.filter (·.item.amount.isNone)
  rwa [List.filter_append, na, nb, List.nil_append] at l2

theorem count_none (ps : List (Spanned Posting)) :
    (ps.filter (·.item.amount.isSome)).length + (ps.filter (·.item.amount.isNone)).length = ps.length := by
  induction ps with
  | nil => rfl
  | cons p ps ih =>
    cases h : p.item.amount <;> simp [h] <;> omega

theorem all_of_count {ps : List (Spanned Posting)} (h : (ps.filter (·.item.amount.isSome)).length = ps.length) :
    ∀ p ∈ ps, p.item.amount ≠ none := by
  intro p hm hn
  have h1 : p ∈ ps.filter (·.item.amount.isNone) := List.mem_filter.mpr ⟨hm, by simp [hn]⟩
  have h2 := List.length_pos_of_mem h1
  have h3 := count_none ps
  omega

theorem pair_map (d : Spanned Directive) (total : Option Dec) (last : Option (Spanned ExprValue)) (others : List (Spanned ExprValue)) :
    (match total with
    | none => none
    | some total =>
      if total.mant = 0 then some (([] : List Report), ([] : List Report))
      else
        match last with
        | none => none
        | some last => some ([Check.unbalanced d total last others], [])) =
    Option.map (fun es => (es, [])) (match total with
    | none => none
    | some total =>
      if total.mant = 0 then some []
      else
        match last with
        | none => none
        | some last => some [Check.unbalanced d total last others]) := by
  cases total with
  | none => rfl
  | some total =>
    cases last with
    | none => by_cases h : total.mant = 0 <;> simp [h]
    | some last => by_cases h : total.mant = 0 <;> simp [h]

theorem balance_step (hp : Partitions partition) {d : Spanned Directive} {out : List Report × List Report}
    (h : Balance.step partition d = some out) : BalanceReported d out.1 out.2 := by
  unfold Balance.step at h
  cases hv : d.item.variant with
  | transaction t =>
    simp only [hv] at h
    by_cases he : t.postings = []
    · have : (partition t.postings).isEmpty = true := by
        rw [List.isEmpty_iff, List.eq_nil_iff_length_eq_zero, (hp.perm _).length_eq, he]
        rfl
      rw [if_pos this] at h
      cases h
      have := BalanceReported.empty hv he
      simpa [Spanned.warning, Directive.elementType, hv, Report.new, str] using this
    · have : ¬ (partition t.postings).isEmpty = true := by
        rw [List.isEmpty_iff, List.eq_nil_iff_length_eq_zero, (hp.perm _).length_eq, ← List.eq_nil_iff_length_eq_zero]
        exact he
      rw [if_neg this] at h
      have hcount := count_none t.postings
      by_cases h2 : (t.postings.filter (·.item.amount.isSome)).length + 1 < t.postings.length
      · rw [if_pos h2] at h
        cases h
        have hperm := partition_drop hp t.postings
        have := BalanceReported.several hv hperm (by rw [hperm.length_eq]; omega)
        simpa [Spanned.error, Directive.elementType, hv, Report.new, Report.relatedToAll, orEmpty,
          show postingElement = fun p => (str "posting", p.span) from rfl, str] using this
      · rw [if_neg h2] at h
        by_cases h3 : (t.postings.filter (·.item.amount.isSome)).length = t.postings.length
        · rw [if_pos h3] at h
          have hall := all_of_count h3
          rw [hp.all _ hall] at h
          obtain ⟨es, k1, k2⟩ : ∃ es, AmountsReported d t.postings es ∧ out = (es, []) := by
            obtain ⟨es, k1, k2⟩ := Option.map_eq_some_iff.mp ((pair_map d _ _ _).symm.trans h)
            exact ⟨es, (Check.amounts_all hv he hall).mp k1, k2.symm⟩
          subst k2
          exact .all hv he hall k1
        · rw [if_neg h3] at h
          cases h
          exact .one hv (by omega)
  | _ =>
    simp only [hv, Option.some.injEq] at h
    subst h
    exact .other (by simp [hv])

theorem balance_goes (hp : Partitions partition) {d : Spanned Directive}
    (h : ∀ t, d.item.variant = .transaction t → FitTogether ((t.postings.filterMap (·.item.amount)).map (·.item.value))) :
    ∃ out, Balance.step partition d = some out := by
  unfold Balance.step
  cases hv : d.item.variant with
  | transaction t =>
    simp only
    split
    · exact ⟨_, rfl⟩
    split
    · exact ⟨_, rfl⟩
    split
    case isFalse => exact ⟨_, rfl⟩
    rename_i h1 _ h3
    have hall := all_of_count h3
    rw [hp.all _ hall] at h1 ⊢
    obtain ⟨es, h4⟩ := Check.amounts_exist hv (h t hv)
    have h5 := (Check.amounts_all hv (by simpa using h1) hall).mpr h4
    exact ⟨(es, []), (pair_map d _ _ _).trans (Option.map_eq_some_iff.mpr ⟨es, h5, rfl⟩)⟩
  | _ => exact ⟨_, rfl⟩

/-- C70: `check-postings-balance` reports what it should: a warning for each transaction without postings, an error for each with more
than one posting without amount, an error for each whose postings all have an amount where the total is not zero, and nothing else. -/
theorem C70_sound (hp : Partitions partition) (h : Balance.check partition r = some (es, ws)) :
    ∃ new, ws = r.warnings ++ new ∧ AllBalanceReported r.directives es new := by
  unfold Balance.check at h
  suffices ∀ ds out, Balance.steps partition ds out = some (es, ws) →
      ∃ es' ws', es = out.1 ++ es' ∧ ws = out.2 ++ ws' ∧ AllBalanceReported ds es' ws' by
    obtain ⟨es', ws', h1, h2, h3⟩ := this _ _ h
    exact ⟨ws', h2, by rw [h1]; exact h3⟩
  intro ds
  induction ds with
  | nil =>
    intro out h
    cases h
    exact ⟨[], [], by simp, by simp, .nil⟩
  | cons d ds ih =>
    intro out h
    unfold Balance.steps at h
    split at h
    · exact nomatch h
    · rename_i new hn
      obtain ⟨es', ws', h1, h2, h3⟩ := ih _ h
      exact ⟨new.1 ++ es', new.2 ++ ws', by simp [h1], by simp [h2], .cons (balance_step hp hn) h3⟩

/-- C70: `check-postings-balance` does not crash if the amounts of each transaction can be added up. -/
theorem C70_no_panic (hp : Partitions partition) (h : AddsUp r.directives) : ∃ es ws, Balance.check partition r = some (es, ws) := by
  unfold Balance.check
  suffices ∀ ds out, AddsUp ds → ∃ es ws, Balance.steps partition ds out = some (es, ws) from this _ _ h
  intro ds
  induction ds with
  | nil => exact fun out _ => ⟨_, _, rfl⟩
  | cons d ds ih =>
    intro out h
    obtain ⟨new, h1⟩ := balance_goes hp (h d (by simp))
    unfold Balance.steps
    rw [h1]
    exact ih _ fun d hd => h d (by simp [hd])

theorem all_balance_nil {ds : List (Spanned Directive)} {es new : List Report} (h : AllBalanceReported ds es new) (he : es = []) :
    ∀ d ∈ ds, ∃ ws, BalanceReported d [] ws := by
  induction h with
  | nil => exact fun d hd => nomatch hd
  | cons h1 _ ih =>
    have := List.append_eq_nil_iff.mp he
    intro d hd
    cases hd with
    | head =>
      rw [this.1] at h1
      exact ⟨_, h1⟩
    | tail _ hd => exact ih this.2 d hd

/-- C70: without errors, each transaction either has exactly one posting without an amount, or the exact sum of its amounts is zero, if
they can be added up. -/
theorem C70_balanced (hp : Partitions partition) (h : Balance.check partition r = some ([], ws)) {d : Spanned Directive}
    (hd : d ∈ r.directives) {t : Transaction} (ht : d.item.variant = .transaction t)
    (hf : FitTogether ((t.postings.filterMap (·.item.amount)).map (·.item.value))) :
    (t.postings.filter (·.item.amount.isNone)).length = 1 ∨
    (∀ p ∈ t.postings, p.item.amount ≠ none) ∧ ((t.postings.filterMap (·.item.amount)).map fun a => a.item.value.val).sum = 0 := by
  obtain ⟨new, _, h2⟩ := C70_sound hp h
  obtain ⟨ws', h3⟩ := all_balance_nil h2 rfl d hd
  generalize he : ([] : List Report) = es at h3
  cases h3 with
  | empty k1 k2 =>
    rw [ht] at k1
    cases k1
    exact .inr (by simp [k2])
  | several => exact nomatch he
  | one k1 k2 =>
    rw [ht] at k1
    cases k1
    exact .inl k2
  | all k1 k2 k3 k4 =>
    rw [ht] at k1
    cases k1
    subst he
    refine .inr ⟨k3, Classical.not_not.mp fun hn => ?_⟩
    obtain ⟨total, others, last, _, _, k5⟩ := (C69_sum ht (Check.map_some k3) hf k4).2 hn
    exact nomatch k5
  | other k1 => exact absurd ht (k1 t)

end

/-! ### Examples -/

section
attribute [local instance] Categories.asciiOnly Grammar.Sample.unicode Grammar.Sample.decOps

namespace Checked

/-- An account which is opened and closed, used before and after it is closed, and one which is not opened. -/
def text : Str :=
  "2024-01-03 * \"after\"\n  Assets:A 1 EUR\n  Assets:B 2 EUR\n  Assets:A -1 EUR\n2024-01-01 open Assets:A\n2024-01-01 * \"before\"\n  Assets:A 5 EUR\n  Assets:A -5 EUR\n2024-01-02 close Assets:A\n2024-01-04 * \"two\"\n  Assets:A\n  Assets:B\n  Assets:B 1 EUR\n2024-01-05 * \"nothing\"\n".toList

theorem includes : getIncludes Printed.env.tokens text = [] := by decide +kernel

theorem read_of {text : Str} (h : getIncludes Printed.env.tokens text = []) :
    ReadInSomeOrder Whole.files Printed.env.tokens none text (Printed.inline text) := by
  rw [← Printed.inline_read Whole.files h]
  exact ⟨_, .refl _, rfl⟩

/-- The amounts of the postings of a directive. -/
def amounts (d : Spanned Directive) : List Dec :=
  match d.item.variant with
  | .transaction t => (t.postings.filterMap (·.item.amount)).map (·.item.value)
  | _ => []

/-- Small whole numbers, and not many. -/
def small (ds : List Dec) : Bool := decide (ds.length ≤ 10) && ds.all fun d => decide (d.scale = 0) && decide (d.mant.natAbs ≤ 10)

theorem fit_of_small {ds : List Dec} (h : small ds = true) : FitTogether ds := by
  unfold small at h
  rw [Bool.and_eq_true, decide_eq_true_eq, List.all_eq_true] at h
  have h2 : ∀ d ∈ ds, d.scale = 0 ∧ d.mant.natAbs ≤ 10 := fun d hd => by simpa using h.2 d hd
  refine ⟨0, by decide, fun d hd => ⟨⟨?_, ?_⟩, ?_⟩, ?_⟩
  · have := h2 d hd
    omega
  · have := h2 d hd
    omega
  · have := h2 d hd
    omega
  · have : (ds.map fun d => |d.val|).sum ≤ ds.length * 10 := by
      have h3 := List.sum_le_card_nsmul (ds.map fun d => |d.val|) 10 (by
        intro x hx
        obtain ⟨d, hd, rfl⟩ := List.mem_map.mp hx
        obtain ⟨k1, k2⟩ := h2 d hd
        simp only [Dec.val, k1, pow_zero, div_one]
        have : ((d.mant.natAbs : ℤ) : ℚ) ≤ 10 := by exact_mod_cast k2
        rwa [Int.natCast_natAbs, Int.cast_abs] at this)
      simpa using h3
    have h4 : (ds.length : ℚ) ≤ 10 := by exact_mod_cast h.1
    norm_num
    linarith

/-- A way to partition. -/
def partition (ps : List (Spanned Posting)) : List (Spanned Posting) :=
  ps.filter (·.item.amount.isSome) ++ ps.filter (!·.item.amount.isSome)

theorem partitions : Partitions partition where
  perm ps := List.filter_append_perm _ ps
  first ps := ⟨_, _, rfl, fun p h => Option.isSome_iff_ne_none.mp (List.mem_filter.mp h).2, fun p h => by
    have := (List.mem_filter.mp h).2
    simpa using this⟩
  all ps h := by
    have h1 : ps.filter (·.item.amount.isSome) = ps := List.filter_eq_self.mpr fun p hp => Option.isSome_iff_ne_none.mpr (h p hp)
    have h2 : ps.filter (!·.item.amount.isSome) = [] := List.filter_eq_nil_iff.mpr fun p hp => by
      simpa [Option.isSome_iff_ne_none] using h p hp
    unfold partition
    rw [h1, h2, List.append_nil]

/-- A partition by swapping in place meets `Partitions` as well, and the index it comes to is the count of `Balance.step`. -/
example : Partitions (fun ps => (SwapPartition.run (fun q : Spanned Posting => q.item.amount.isSome) ps).1) ∧
    ∀ ps : List (Spanned Posting), (SwapPartition.run (fun q => q.item.amount.isSome) ps).2 = (ps.filter (·.item.amount.isSome)).length :=
  ⟨SwapPartition.partitions, SwapPartition.run_index _⟩

/-- The reasons of errors and warnings, and where these are. -/
def shown (text : Str) (out : Option (List Report × List Report)) : Option (List (Str × Option Str) × List (Str × Option Str)) :=
  out.map fun x => (x.1.map fun e => (e.reason, slice text e.span.start e.span.stop),
    x.2.map fun e => (e.reason, slice text e.span.start e.span.stop))

end Checked
open Checked

/-- What `check` reports. -/
example : (match parseSources Printed.env (Printed.inline text) with | .ok r => shown text (Check.check r) | _ => none) = some
    ([(str "sum is 2, expected zero", some (str "-1")), (str "account is closed", some (str "Assets:A")),
      (str "no such account", some (str "Assets:B")), (str "account is closed", some (str "Assets:A")),
      (str "account is closed", some (str "Assets:A")), (str "no such account", some (str "Assets:B")),
      (str "no such account", some (str "Assets:B"))], []) := by decide +kernel

/-- What `check-postings-balance` reports. -/
example : (match parseSources Printed.env (Printed.inline text) with | .ok r => shown text (Balance.check partition r) | _ => none) = some
    ([(str "sum is 2, expected zero", some (str "-1")),
      (str "multiple postings without amount specified", some (str "2024-01-04 * \"two\"\n  Assets:A\n  Assets:B\n  Assets:B 1 EUR\n"))],
     [(str "no postings", some (str "2024-01-05 * \"nothing\"\n"))]) := by decide +kernel

namespace Checked

/-- The directives are as the theorems want them. -/
def fine (r : ParseSuccess) : Bool :=
  r.directives.all (fun d => small (amounts d)) && r.directives.any fun o => r.directives.any fun c => r.directives.any fun d =>
    match o.item.variant, c.item.variant, d.item.variant with
    | .open x _ _, .close y, .transaction t => decide (x.item.name = y.item.name) &&
      (!Date.lt c.item.date.item o.item.date.item) && Date.lt c.item.date.item d.item.date.item &&
      t.postings.any (fun p => decide (p.item.account.item.name = y.item.name))
    | _, _, _ => false

theorem key {x : Res ParseError ParseSuccess} {f : ParseSuccess → Bool} (h : (match x with | .ok r => f r | _ => false) = true) :
    ∃ r, x = .ok r ∧ f r = true := by
  cases x with
  | ok r => exact ⟨r, rfl, h⟩
  | err _ => cases h
  | panic => cases h

theorem addsUp {ds : List (Spanned Directive)} (h : ds.all (fun d => small (amounts d)) = true) : AddsUp ds := by
  intro d hd t ht
  have := fit_of_small (List.all_eq_true.mp h d hd)
  unfold amounts at this
  rw [ht] at this
  exact this

theorem fine_iff {r : ParseSuccess} (h : fine r = true) : AddsUp r.directives ∧ ∃ d o c t p, d ∈ r.directives ∧
    d.item.variant = .transaction t ∧ p ∈ t.postings ∧ o ∈ r.directives ∧ c ∈ r.directives ∧ Opens p.item.account.item.name o ∧
    Closes p.item.account.item.name c ∧ NotAfter o c ∧ ¬ NotAfter d c := by
  unfold fine at h
  rw [Bool.and_eq_true] at h
  refine ⟨addsUp h.1, ?_⟩
  obtain ⟨o, ho, h⟩ := List.any_eq_true.mp h.2
  obtain ⟨c, hc, h⟩ := List.any_eq_true.mp h
  obtain ⟨d, hd, h⟩ := List.any_eq_true.mp h
  split at h
  · rename_i x cs b y t e1 e2 e3
    simp only [Bool.and_eq_true, decide_eq_true_eq, Bool.not_eq_true', List.any_eq_true] at h
    obtain ⟨⟨⟨k1, k2⟩, k3⟩, p, k4, k5⟩ := h
    exact ⟨d, o, c, t, p, hd, e3, k4, ho, hc, ⟨x, cs, b, e1, k1.trans k5.symm⟩, ⟨y, e2, k5.symm⟩, k2, by simp [NotAfter, k3]⟩
  · cases h

end Checked

/-- The hypotheses of the theorems about C69 are met: the program does not crash, and there is a posting to a closed account. -/
example : ∃ r es ws, parseSources Printed.env (Printed.inline text) = .ok r ∧ Check.check r = some (es, ws) ∧
    (∃ d p c, closedReport d p c ∈ es) ∧
    ∀ e, e ∈ es ∧ e.reason = str "no such account" ↔
      (∃ d ∈ r.directives, ∃ t, d.item.variant = .transaction t ∧ ∃ p ∈ t.postings,
        (∀ o ∈ r.directives, Opens p.item.account.item.name o → ¬ NotAfter o d) ∧ e = unknownReport d p) ∨
      (∃ d ∈ r.directives, ∃ account, d.item.variant = .close account ∧
        (∀ o ∈ r.directives, Opens account.item.name o → ¬ NotAfter o d) ∧ e = unopenedReport d account) := by
  obtain ⟨r, hr, hf⟩ := key (x := parseSources Printed.env (Printed.inline text)) (f := fine) (by decide +kernel)
  obtain ⟨h1, d, o, c, t, p, hd, ht, hp, ho, hc, k1, k2, k3, k4⟩ := fine_iff hf
  obtain ⟨es, ws, hes⟩ := C69_no_panic h1
  obtain ⟨c', _, _, _, h2⟩ := C69_closed Whole.files_wf (read_of includes) hr hes hd ht hp ho hc k1 k2 k3 k4
  exact ⟨r, es, ws, hr, hes, ⟨d, p, c', h2⟩, C69_unknown Whole.files_wf (read_of includes) hr hes⟩

/-- The hypotheses of the theorems about C70 are met. -/
example : ∃ r es ws new, parseSources Printed.env (Printed.inline text) = .ok r ∧ Balance.check partition r = some (es, ws) ∧
    ws = r.warnings ++ new ∧ AllBalanceReported r.directives es new := by
  obtain ⟨r, hr, hf⟩ := key (x := parseSources Printed.env (Printed.inline text)) (f := fine) (by decide +kernel)
  obtain ⟨es, ws, hes⟩ := C70_no_panic partitions (fine_iff hf).1
  obtain ⟨new, h1, h2⟩ := C70_sound partitions hes
  exact ⟨r, es, ws, new, hr, hes, h1, h2⟩

namespace Checked

/-- A transaction with a posting without amount, and one which balances. -/
def balanced : Str := "2024-01-03 * \"a\"\n  Assets:A 1 EUR\n  Assets:B\n2024-01-03 * \"b\"\n  Assets:A 5 EUR\n  Assets:A -5 EUR\n".toList

/-- There are two transactions with small amounts, and no errors. -/
def good (r : ParseSuccess) : Bool :=
  r.directives.all (fun d => small (amounts d)) && decide ((r.directives.filter fun d => !(amounts d).isEmpty).length = 2) &&
    (match Balance.check partition r with | some ([], _) => true | _ => false)

end Checked

/-- The hypotheses of `C70_balanced` are met. -/
example : ∃ r ws, parseSources Printed.env (Printed.inline balanced) = .ok r ∧ (r.directives.filter fun d => !(amounts d).isEmpty).length = 2 ∧
    Balance.check partition r = some ([], ws) ∧ ∀ d ∈ r.directives, ∀ t, d.item.variant = .transaction t →
      (t.postings.filter (·.item.amount.isNone)).length = 1 ∨
      (∀ p ∈ t.postings, p.item.amount ≠ none) ∧ ((t.postings.filterMap (·.item.amount)).map fun a => a.item.value.val).sum = 0 := by
  obtain ⟨r, hr, hf⟩ := key (x := parseSources Printed.env (Printed.inline balanced)) (f := good) (by decide +kernel)
  unfold good at hf
  rw [Bool.and_eq_true, Bool.and_eq_true, decide_eq_true_eq] at hf
  obtain ⟨⟨h1, h2⟩, h3⟩ := hf
  split at h3
  · rename_i ws h4
    exact ⟨r, ws, hr, h2, h4, fun d hd t ht => C70_balanced partitions h4 hd ht (addsUp h1 d hd t ht)⟩
  · cases h3

end

end Lima.Props
