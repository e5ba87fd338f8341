import Verif.Lemmas.SameDirective
import Verif.Lemmas.FileComplete

/-! A text of printed directives is read back as the directives. -/

set_option linter.unusedSectionVars false

namespace Lima
open Spec

section
variable [Categories] [Unicode] [DecOps]

/-! ### What is printed as it is -/

theorem notTotal_of {x : PriceSpec} (h : ¬ IsTotal x) : NotTotal x := by
  rcases x with _ | c | s | ⟨s, c⟩
  · trivial
  · trivial
  · cases s with
    | perUnit => trivial
    | total => exact absurd trivial h
  · cases s with
    | perUnit => trivial
    | total => exact absurd trivial h

theorem noTotals_of {d : Directive} (h : Printable d) : NoTotals d :=
  ⟨fun t ht p hp x hx => notTotal_of (h.1 t ht p hp x hx), h.2.1⟩

/-- Not the first token of a pragma. -/
abbrev NotPragma (t : Token) : Prop :=
  t ≠ .option ∧ t ≠ .include ∧ t ≠ .plugin ∧ t ≠ .pushtag ∧ t ≠ .poptag ∧ t ≠ .pushmeta ∧ t ≠ .popmeta

attribute [local simp] NotPragma

/-- The strings among tokens are among those given, empty, or name a booking method; there are no pragmas. -/
def StringsIn (ss : List Str) (ts : List Token) : Prop :=
  ∀ t ∈ ts, NotPragma t ∧ ∀ s, t = .stringLiteral s → s ∈ ss ∨ s = [] ∨ ∃ b, s = Display.booking b

theorem StringsIn.nil (ss : List Str) : StringsIn ss [] := fun _ h => by cases h

theorem stringsIn_cons {ss : List Str} {t : Token} {ts : List Token} (h : StringsIn ss [t]) (hs : StringsIn ss ts) : StringsIn ss (t :: ts) := by
  intro s hm
  rcases List.mem_cons.mp hm with e | hm
  · exact h s (by simp [e])
  · exact hs s hm

theorem stringsIn_append {ss : List Str} {as bs : List Token} (h : StringsIn ss as) (hs : StringsIn ss bs) : StringsIn ss (as ++ bs) := by
  intro s hm
  rcases List.mem_append.mp hm with hm | hm
  · exact h s hm
  · exact hs s hm

theorem stringsIn_flatMap {α : Type} {ss : List Str} {f : α → List Token} {xs : List α} (h : ∀ x ∈ xs, StringsIn ss (f x)) :
    StringsIn ss (xs.flatMap f) := by
  intro s hm
  obtain ⟨x, hx, hm⟩ := List.mem_flatMap.mp hm
  exact h x hx s hm

theorem stringsIn_map {α : Type} {ss : List Str} {f : α → Token} {xs : List α} (h : ∀ x ∈ xs, StringsIn ss [f x]) : StringsIn ss (xs.map f) := by
  intro s hm
  obtain ⟨x, hx, e⟩ := List.mem_map.mp hm
  exact h x hx s (by simp [e])

theorem stringsIn_other {ss : List Str} {t : Token} (h : NotPragma t ∧ ∀ s, t ≠ .stringLiteral s) : StringsIn ss [t] := by
  intro u hm
  rw [List.mem_singleton.mp hm]
  exact ⟨h.1, fun s e => absurd e (h.2 s)⟩

theorem stringsIn_one {ss : List Str} {s : Str} (h : s ∈ ss) : StringsIn ss [.stringLiteral s] := by
  intro x hx
  rw [List.mem_singleton.mp hx]
  refine ⟨by simp, ?_⟩
  rintro _ ⟨⟩
  exact .inl h

theorem stringsIn_expr (ss : List Str) (e : Expr) : StringsIn ss (exprTokens e) := by
  induction e with
  | value d => exact stringsIn_other (by simp)
  | add a b ha hb | sub a b ha hb | mul a b ha hb | div a b ha hb =>
    exact stringsIn_append (stringsIn_append ha (stringsIn_other (by simp))) hb
  | neg a ha => exact stringsIn_append (stringsIn_other (by simp)) ha
  | paren a ha => exact stringsIn_append (stringsIn_append (stringsIn_other (by simp)) ha) (stringsIn_other (by simp))

theorem stringsIn_amount (ss : List Str) (a : Amount) : StringsIn ss (amountTokens a) :=
  stringsIn_append (stringsIn_expr ss _) (stringsIn_other (by simp))

theorem stringsIn_metaValue {ss : List Str} {v : MetaValue} (h : ∀ s ∈ valueStrings v, s ∈ ss) : StringsIn ss (metaValueTokens v) := by
  cases v with
  | amount a => exact stringsIn_amount ss a
  | simple v =>
    cases v with
    | string s => exact stringsIn_one (h s (by simp [valueStrings]))
    | expr e => exact stringsIn_expr ss _
    | bool b => cases b <;> exact stringsIn_other (by simp)
    | _ => exact stringsIn_other (by simp)

theorem stringsIn_block {ss : List Str} {ls : List (List Token)} (h : ∀ l ∈ ls, StringsIn ss l) : StringsIn ss (block ls) :=
  stringsIn_flatMap fun l hl => stringsIn_cons (stringsIn_other (by simp)) (stringsIn_cons (stringsIn_other (by simp)) (h l hl))

theorem stringsIn_keyLines {ss : List Str} {m : Metadata} (h : ∀ s ∈ metadataStrings m, s ∈ ss) : ∀ l ∈ keyLines m, StringsIn ss l := by
  intro l hl
  obtain ⟨kv, hkv, rfl⟩ := List.mem_map.mp hl
  exact stringsIn_cons (stringsIn_other (by simp)) (stringsIn_cons (stringsIn_other (by simp))
    (stringsIn_metaValue fun s hs => h s (List.mem_flatMap.mpr ⟨kv, hkv, hs⟩)))

theorem stringsIn_tagLines {ss : List Str} {m : Metadata} : ∀ l ∈ tagLines m, StringsIn ss l := by
  intro l hl
  rcases List.mem_append.mp hl with hl | hl
  · obtain ⟨kv, hkv, rfl⟩ := List.mem_map.mp hl
    exact stringsIn_other (by simp)
  · obtain ⟨kv, hkv, rfl⟩ := List.mem_map.mp hl
    exact stringsIn_other (by simp)

theorem stringsIn_lines {ss : List Str} {m : Metadata} (h : ∀ s ∈ metadataStrings m, s ∈ ss) : StringsIn ss (block (tagLines m ++ keyLines m)) :=
  stringsIn_block fun l hl => (List.mem_append.mp hl).elim (stringsIn_tagLines l) (stringsIn_keyLines h l)

theorem stringsIn_inline {ss : List Str} {m : Metadata} : StringsIn ss (inlineTokens m) :=
  stringsIn_append (stringsIn_map fun _ _ => stringsIn_other (by simp)) (stringsIn_map fun _ _ => stringsIn_other (by simp))

theorem stringsIn_cost {ss : List Str} {c : CostSpec} (h : ∀ s ∈ c.label.toList.map (·.item), s ∈ ss) : StringsIn ss (costTokens c) := by
  have ce : ∀ a, StringsIn ss (compoundExprTokens a) := by
    intro a
    cases a with
    | perUnit e => exact stringsIn_expr ss _
    | total e => exact stringsIn_cons (stringsIn_other (by simp)) (stringsIn_expr ss _)
    | perUnitAndTotal e f => exact stringsIn_append (stringsIn_expr ss _) (stringsIn_cons (stringsIn_other (by simp)) (stringsIn_expr ss _))
  have comp : ∀ x ∈ costComps c, StringsIn ss (costCompTokens x) := by
    intro x hx
    simp only [costComps, List.mem_append, List.mem_map] at hx
    rcases hx with ((⟨a, _, rfl⟩ | ⟨x, _, rfl⟩) | ⟨x, hx, rfl⟩) | hx
    · cases a with
      | bareCurrency c => exact stringsIn_other (by simp)
      | bareAmount a => exact ce a
      | currencyAmount a c => exact stringsIn_append (ce a) (stringsIn_other (by simp))
    · exact stringsIn_other (by simp)
    · exact stringsIn_one (h _ (List.mem_map_of_mem hx))
    · split at hx
      · rw [List.mem_singleton.mp hx]; exact stringsIn_other (by simp)
      · cases hx
  unfold costTokens
  refine stringsIn_append (stringsIn_cons (stringsIn_other (by simp)) ?_) (stringsIn_other (by simp))
  generalize costComps c = xs at comp
  cases xs with
  | nil => exact .nil ss
  | cons x xs =>
    exact stringsIn_append (comp x (by simp)) (stringsIn_flatMap fun y hy => stringsIn_cons (stringsIn_other (by simp)) (comp y (by simp [hy])))

theorem stringsIn_price (ss : List Str) (p : PriceSpec) : StringsIn ss (priceTokens p) := by
  have se : ∀ a, StringsIn ss (scopedTokens a) := by
    intro a
    cases a with
    | perUnit e => exact stringsIn_expr ss _
    | total e => exact stringsIn_cons (stringsIn_other (by simp)) (stringsIn_expr ss _)
  cases p with
  | unspecified => exact stringsIn_other (by simp)
  | bareCurrency c => exact stringsIn_cons (stringsIn_other (by simp)) (stringsIn_other (by simp))
  | bareAmount a => exact stringsIn_cons (stringsIn_other (by simp)) (se a)
  | currencyAmount a c => exact stringsIn_append (stringsIn_cons (stringsIn_other (by simp)) (se a)) (stringsIn_other (by simp))

theorem stringsIn_flag (ss : List Str) (f : Flag) : StringsIn ss [flagToken f] := stringsIn_other (by cases f <;> simp [flagToken])

theorem stringsIn_posting {ss : List Str} {p : Posting} (h : ∀ s ∈ postingStrings p, s ∈ ss) : StringsIn ss (postingTokens p) := by
  unfold postingTokens postingLineTokens
  refine stringsIn_append (stringsIn_append ?_ (stringsIn_cons (stringsIn_other (by simp)) (stringsIn_append (stringsIn_append (stringsIn_append ?_ ?_) ?_) ?_))) ?_
  · exact stringsIn_map fun f _ => stringsIn_flag ss _
  · exact stringsIn_flatMap fun e _ => stringsIn_expr ss _
  · exact stringsIn_map fun _ _ => stringsIn_other (by simp)
  · refine stringsIn_flatMap fun c hc => stringsIn_cost fun s hs => h s ?_
    have : p.costSpec = some c := by simpa using hc
    simp only [postingStrings, this]
    exact List.mem_append_left _ hs
  · exact stringsIn_flatMap fun x _ => stringsIn_price ss _
  · exact stringsIn_lines fun s hs => h s (List.mem_append_right _ hs)

theorem stringsIn_directive (d : Directive) : StringsIn (stringsOf d) (directiveTokens d) := by
  have hm : ∀ s ∈ metadataStrings d.metadata.item, s ∈ stringsOf d := fun s hs => List.mem_append_left _ hs
  have hv : ∀ s ∈ variantStrings d.variant, s ∈ stringsOf d := fun s hs => List.mem_append_right _ hs
  generalize hss : stringsOf d = ss at hm hv
  clear hss
  obtain ⟨date, m, v⟩ := d
  simp only at hm hv
  have no : ∀ t, (NotPragma t ∧ ∀ s, t ≠ Token.stringLiteral s) → StringsIn ss [t] := fun t h => stringsIn_other h
  have tail : ∀ ts, StringsIn ss ts → StringsIn ss (.date date.item :: ts ++ inlineTokens m.item ++ block (keyLines m.item)) := by
    intro ts h
    exact stringsIn_append (stringsIn_append (stringsIn_cons (no _ (by simp)) h) stringsIn_inline) (stringsIn_block (stringsIn_keyLines hm))
  cases v with
  | transaction t =>
    simp only [directiveTokens, stringTokens]
    refine stringsIn_append (stringsIn_append (stringsIn_cons (no _ (by simp)) (stringsIn_cons (stringsIn_flag ss _)
      (stringsIn_append (stringsIn_append (stringsIn_append ?_ ?_) ?_) stringsIn_inline))) (stringsIn_block (stringsIn_keyLines hm))) ?_
    · exact stringsIn_map fun s hs => stringsIn_one (hv _ (by simp only [variantStrings, List.mem_append]; exact .inl (.inl (List.mem_map_of_mem hs))))
    · exact stringsIn_map fun s hs => stringsIn_one (hv _ (by simp only [variantStrings, List.mem_append]; exact .inl (.inr (List.mem_map_of_mem hs))))
    · intro s hs
      split at hs
      · rw [List.mem_singleton.mp hs]
        refine ⟨by simp, ?_⟩
        rintro _ ⟨⟩
        exact .inr (.inl rfl)
      · cases hs
    · refine stringsIn_flatMap fun p hp => stringsIn_cons (no _ (by simp)) (stringsIn_cons (no _ (by simp)) (stringsIn_posting fun s hs => hv s ?_))
      simp only [variantStrings, List.mem_append]
      exact .inr (List.mem_flatMap.mpr ⟨p, hp, hs⟩)
  | price c a => exact tail (bodyTokens (.price c a)) (stringsIn_cons (no _ (by simp)) (stringsIn_cons (no _ (by simp)) (stringsIn_amount ss _)))
  | balance a t => exact tail (bodyTokens (.balance a t)) (stringsIn_cons (no _ (by simp)) (stringsIn_cons (no _ (by simp)) (stringsIn_amount ss _)))
  | «open» a cs b =>
    refine tail (bodyTokens (.open a cs b)) (stringsIn_cons (no _ (by simp)) (stringsIn_cons (no _ (by simp)) (stringsIn_append ?_ ?_)))
    · cases cs with
      | nil => exact .nil ss
      | cons c cs => exact stringsIn_append (no _ (by simp)) (stringsIn_flatMap fun _ _ => stringsIn_cons (no _ (by simp)) (no _ (by simp)))
    · refine stringsIn_map fun b _ s hs => ?_
      rw [List.mem_singleton.mp hs]
      refine ⟨by simp, ?_⟩
      rintro _ ⟨⟩
      exact .inr (.inr ⟨_, rfl⟩)
  | close a => exact tail (bodyTokens (.close a)) (stringsIn_cons (no _ (by simp)) (no _ (by simp)))
  | commodity c => exact tail (bodyTokens (.commodity c)) (stringsIn_cons (no _ (by simp)) (no _ (by simp)))
  | pad a b => exact tail (bodyTokens (.pad a b)) (stringsIn_cons (no _ (by simp)) (stringsIn_cons (no _ (by simp)) (no _ (by simp))))
  | document a s =>
    exact tail (bodyTokens (.document a s)) (stringsIn_cons (no _ (by simp)) (stringsIn_cons (no _ (by simp)) (stringsIn_one (hv _ (by simp [variantStrings])))))
  | note a s =>
    exact tail (bodyTokens (.note a s)) (stringsIn_cons (no _ (by simp)) (stringsIn_cons (no _ (by simp)) (stringsIn_one (hv _ (by simp [variantStrings])))))
  | event s t =>
    exact tail (bodyTokens (.event s t)) (stringsIn_cons (no _ (by simp)) (stringsIn_cons (stringsIn_one (hv _ (by simp [variantStrings])))
      (stringsIn_one (hv _ (by simp [variantStrings])))))
  | query s t =>
    exact tail (bodyTokens (.query s t)) (stringsIn_cons (no _ (by simp)) (stringsIn_cons (stringsIn_one (hv _ (by simp [variantStrings])))
      (stringsIn_one (hv _ (by simp [variantStrings])))))
  | custom s vs =>
    simp only [directiveTokens]
    refine stringsIn_append (stringsIn_cons (no _ (by simp)) (stringsIn_cons (no _ (by simp)) (stringsIn_cons (stringsIn_one (hv _ (by simp [variantStrings]))) ?_)))
      (stringsIn_lines hm)
    refine stringsIn_flatMap fun v hv' => stringsIn_metaValue fun x hx => hv x ?_
    simp only [variantStrings, List.mem_cons]
    exact .inr (List.mem_flatMap.mpr ⟨v, hv', hx⟩)

theorem GoodDirective.printOk {d : Directive} (h : GoodDirective d) (hp : Printable d) : ∀ t ∈ directiveTokens d, PrintOk t := by
  intro t ht
  refine ⟨h.ok (noTotals_of hp) t ht, ?_⟩
  rintro s rfl
  rcases (stringsIn_directive d _ ht).2 s rfl with hs | rfl | ⟨b, rfl⟩
  · obtain ⟨h1, h2⟩ := hp.2.2 s hs
    intro c hc
    exact ⟨fun e => h1 (e ▸ hc), fun e => h2 (e ▸ hc)⟩
  · intro c hc; cases hc
  · have : ∀ b : Booking, ∀ c ∈ Display.booking b, c ≠ '"' ∧ c ≠ '\\' := by intro b; cases b <;> decide
    exact this b

/-! ### Texts -/

/-- The tokens of printed directives. -/
def allTokens (ds : List Directive) : List Token := ds.flatMap (fun d => directiveTokens d ++ [.eol])

theorem directive_date (d : Directive) : ∃ w, Display.directive d = Display.date d.date.item ++ w := by
  unfold Display.directive
  split
  · unfold Display.transaction
    simp only [List.append_assoc]
    exact ⟨_, rfl⟩
  · simp only [List.append_assoc]
    exact ⟨_, rfl⟩
  · simp only [List.append_assoc]
    exact ⟨_, rfl⟩

theorem directive_digit (d : Directive) : ∃ c w, Display.directive d = c :: w ∧ isAsciiDigit c = true := by
  obtain ⟨w, e⟩ := directive_date d
  have h1 := zeroPad_digits 4 d.date.item.year
  have h2 := zeroPad_length_le 4 d.date.item.year
  rw [e]
  unfold Display.date
  cases hz : Display.zeroPad 4 (Nat.toDigits 10 d.date.item.year) with
  | nil => rw [hz] at h2; simp at h2
  | cons c r => exact ⟨c, _, rfl, h1 c (by simp [hz])⟩

theorem directiveTokens_head (d : Directive) : ∃ ts, directiveTokens d = .date d.date.item :: ts := by
  unfold directiveTokens
  split
  · exact ⟨_, rfl⟩
  · exact ⟨_, rfl⟩
  · exact ⟨_, rfl⟩

theorem digit_line : ∀ c, isAsciiDigit c = true → c ≠ ' ' ∧ c ≠ '\t' ∧ oneOf ['*', '!', '&', '#', '?', '%', ':'] c = false := by
  intro c hc
  have h : ∀ x ∈ [' ', '\t', '*', '!', '&', '#', '?', '%', ':'], isAsciiDigit x = false := by decide
  have ne : ∀ x ∈ [' ', '\t', '*', '!', '&', '#', '?', '%', ':'], c ≠ x := by
    intro x hx e
    rw [e, h x hx] at hc; cases hc
  refine ⟨ne _ (by simp), ne _ (by simp), ?_⟩
  simp only [oneOf, List.contains_eq_mem, decide_eq_false_iff_not]
  intro hm
  exact ne c (by simp only [List.mem_cons] at hm ⊢; tauto) rfl

theorem lexed_all {l : Logos} (hl : NumberThenComma l) (ds : List Directive) (h : ∀ d ∈ ds, GoodDirective d ∧ Printable d) :
    Lexed l (printAll ds) (allTokens ds) ∧ Lexed l (printAllApart ds) (allTokens ds) := by
  induction ds with
  | nil => exact ⟨.nil l, .nil l⟩
  | cons d ds ih =>
    have ih := ih (fun d hd => h d (by simp [hd]))
    have hts : ∀ t ∈ (allTokens ds).head?, t ≠ .eol := by
      cases ds with
      | nil => simp [allTokens]
      | cons d' ds =>
        obtain ⟨ts, e⟩ := directiveTokens_head d'
        simp [allTokens, e]
    have e : Lexed l ('\n' :: printAll ds) (.eol :: allTokens ds) := by
      refine Lexed.eol ?_ hts ih.1
      cases ds with
      | nil => simp [printAll]
      | cons d' ds =>
        obtain ⟨c, w, e, hc⟩ := directive_digit d'
        intro x hx
        simp only [printAll, List.flatMap_cons, e, List.cons_append, List.head?_cons, Option.mem_def, Option.some.injEq] at hx
        exact hx ▸ digit_line c hc
    have e' : Lexed l ('\n' :: '\n' :: printAllApart ds) (.eol :: allTokens ds) := by
      refine Lexed.eols ?_ hts ih.2
      cases ds with
      | nil => simp [printAllApart]
      | cons d' ds =>
        obtain ⟨c, w, e, hc⟩ := directive_digit d'
        intro x hx
        simp only [printAllApart, List.flatMap_cons, e, List.cons_append, List.head?_cons, Option.mem_def, Option.some.injEq] at hx
        exact hx ▸ digit_line c hc
    have hd := (h d (by simp)).1.printOk (h d (by simp)).2
    have h1 := (Lexed.directive hl (noTotals_of (h d (by simp)).2) hd (.inr rfl) e).1
    have h2 := (Lexed.directive hl (noTotals_of (h d (by simp)).2) hd (.inr rfl) e').1
    exact ⟨by simpa [printAll, allTokens] using h1, by simpa [printAllApart, allTokens] using h2⟩

/-- The tokens of printed directives are declarations, one for each. -/
theorem file_of (cfg : ParseCfg) {o : ParserOptions} (ds : List Directive) (h : ∀ d ∈ ds, GoodDirective d ∧ Printable d)
    (hk : ∀ d ∈ ds, ∀ a ∈ accountsOf d, KnowsAccount o a) {i : List Ranged} (hi : i.map (·.tok) = allTokens ds) :
    ∃ decls ws, FileP cfg o i decls o [] ws ∧
      List.Forall₂ (fun d x => ∃ e, x.item = Declaration.directive e ∧ Same d e) ds decls := by
  induction ds generalizing i with
  | nil =>
    rw [run_nil hi]
    exact ⟨[], [], .nil, .nil⟩
  | cons d ds ih =>
    have hi' : i.map (·.tok) = directiveTokens d ++ (.eol :: allTokens ds) := by
      rw [hi]; simp [allTokens]
    obtain ⟨run, k, rfl, h1, h2⟩ := run_append hi'
    obtain ⟨x, r, rfl, hx, h3⟩ := run_cons h2
    obtain ⟨decls, ws, h4, h5⟩ := ih (fun d hd => h d (by simp [hd])) (fun d hd => hk d (by simp [hd])) h3
    obtain ⟨d', h6, h7⟩ := directiveP_of cfg ((h d (by simp)).1.wf (noTotals_of (h d (by simp)).2)) (hk d (by simp)) h1
      (k := x :: r) (.inl (word_of hx r))
    have e : run ++ x :: r = (run ++ [x]) ++ r := by simp
    rw [e] at h6 ⊢
    obtain ⟨span, hc⟩ := covers_of cfg (run ++ [x]) r
    exact ⟨⟨.directive d', span⟩ :: decls, _, .cons (.directive h6 hc) h4, .cons ⟨d', rfl, h7⟩ h5⟩

/-- A text which is lexed as printed directives is parsed as the directives. -/
theorem print_parse {l : Logos} (cfg : ParseCfg) {o : ParserOptions} (ds : List Directive) {text : Str}
    (hl : Lexed l text (allTokens ds))
    (h : ∀ d ∈ ds, GoodDirective d ∧ Printable d) (hk : ∀ d ∈ ds, ∀ a ∈ accountsOf d, KnowsAccount o a) :
    ∃ toks decls ws, lexText l text = some toks ∧ toks.map (·.tok) = allTokens ds ∧ FileP cfg o toks decls o [] ws ∧
      List.Forall₂ (fun d x => ∃ e, x.item = Declaration.directive e ∧ Same d e) ds decls := by
  obtain ⟨toks, h1, _, h2⟩ := lexed_lexText hl (by
    cases ds with
    | nil => simp [allTokens]
    | cons d ds =>
      obtain ⟨ts, e⟩ := directiveTokens_head d
      simp [allTokens, e])
  have h2 := h2 (by
    cases ds with
    | nil => exact .inr rfl
    | cons d ds => exact .inl (by simp [allTokens]))
  obtain ⟨decls, ws, h3, h4⟩ := file_of cfg ds h hk h2
  exact ⟨toks, decls, ws, h1, h2, h3, h4⟩

end

end Lima
