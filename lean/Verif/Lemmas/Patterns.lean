import Verif.Spec.Logos
import Verif.Lemmas.Regex
import Mathlib.Tactic.Tauto
import Mathlib.Tactic.ClearExcept

/-! What the patterns of the lexer match. -/

namespace Lima
open Spec

/-- The fixed texts. -/
def literals : List (Token × Str) :=
  [(.true_, str "TRUE"), (.false_, str "FALSE"), (.null, str "NULL"),
   (.pipe, str "|"), (.atAt, str "@@"), (.at, str "@"),
   (.lcurlCurl, str "{{"), (.rcurlCurl, str "}}"), (.lcurl, str "{"),
   (.rcurl, str "}"), (.comma, str ","), (.tilde, str "~"),
   (.plus, str "+"), (.minus, str "-"), (.slash, str "/"),
   (.lparen, str "("), (.rparen, str ")"), (.hash, str "#"),
   (.asterisk, str "*"), (.colon, str ":"),
   (.dedicatedFlag .exclamation, str "!"), (.dedicatedFlag .ampersand, str "&"),
   (.dedicatedFlag .question, str "?"), (.dedicatedFlag .percent, str "%"),
   (.txn, str "txn"), (.balance, str "balance"), (.open, str "open"),
   (.close, str "close"), (.commodity, str "commodity"), (.pad, str "pad"),
   (.event, str "event"), (.query, str "query"), (.custom, str "custom"),
   (.price, str "price"), (.note, str "note"), (.document, str "document"),
   (.pushtag, str "pushtag"), (.poptag, str "poptag"),
   (.pushmeta, str "pushmeta"), (.popmeta, str "popmeta"),
   (.option, str "option"), (.options, str "options"),
   (.plugin, str "plugin"), (.include, str "include")]

namespace Re

theorem matches_currency {w : Str} : Matches Re.currency w ↔
    (∃ a rest, w = a :: rest ∧ isAsciiUpper a = true ∧ ∀ c ∈ rest, isCurrencyChar c = true) ∨
    (∃ mid a rest, w = '/' :: (mid ++ a :: rest) ∧ (∀ c ∈ mid, (isAsciiDigit c || oneOf ['\'', '.', '_', '-'] c) = true) ∧
      isAsciiUpper a = true ∧ ∀ c ∈ rest, isCurrencyChar c = true) := by
  unfold Re.currency
  simp only [matches_alt, matches_seq, matches_cls, matches_star_cls, matches_chr]
  constructor
  · rintro (⟨_, rest, rfl, ⟨a, rfl, ha⟩, hr⟩ | ⟨_, _, rfl, rfl, mid, _, rfl, hm, _, rest, rfl, ⟨a, rfl, ha⟩, hr⟩)
    · exact .inl ⟨a, rest, rfl, ha, hr⟩
    · exact .inr ⟨mid, a, rest, rfl, hm, ha, hr⟩
  · rintro (⟨a, rest, rfl, ha, hr⟩ | ⟨mid, a, rest, rfl, hm, ha, hr⟩)
    · exact .inl ⟨[a], rest, rfl, ⟨a, rfl, ha⟩, hr⟩
    · exact .inr ⟨['/'], _, rfl, rfl, mid, _, rfl, hm, [a], rest, rfl, ⟨a, rfl, ha⟩, hr⟩

section
variable [Categories]

theorem matches_date {w : Str} : Matches Re.date w ↔
    ∃ y s1 m s2 d, w = y ++ s1 :: (m ++ s2 :: d) ∧ y.length = 4 ∧ m.length = 2 ∧ d.length = 2 ∧
      (s1 = '-' ∨ s1 = '/') ∧ (s2 = '-' ∨ s2 = '/') ∧
      (∀ c ∈ y ++ m ++ d, Categories.decimalDigit c = true) := by
  unfold Re.date Re.digit
  simp only [matches_seq, matches_cls, matches_times_cls]
  constructor
  · rintro ⟨y, _, rfl, ⟨hy, hy'⟩, _, _, rfl, ⟨s1, rfl, hs1⟩, m, _, rfl, ⟨hm, hm'⟩, _, d, rfl, ⟨s2, rfl, hs2⟩, hd, hd'⟩
    refine ⟨y, s1, m, s2, d, rfl, hy, hm, hd, by simpa [oneOf] using hs1, by simpa [oneOf] using hs2, ?_⟩
    intro c hc
    simp only [List.mem_append] at hc
    rcases hc with (hc | hc) | hc
    · exact hy' c hc
    · exact hm' c hc
    · exact hd' c hc
  · rintro ⟨y, s1, m, s2, d, rfl, hy, hm, hd, hs1, hs2, h⟩
    exact ⟨y, _, rfl, ⟨hy, fun c hc => h c (by simp [hc])⟩, [s1], _, rfl, ⟨s1, rfl, by simpa [oneOf] using hs1⟩,
      m, _, rfl, ⟨hm, fun c hc => h c (by simp [hc])⟩, [s2], d, rfl, ⟨s2, rfl, by simpa [oneOf] using hs2⟩,
      hd, fun c hc => h c (by simp [hc])⟩

theorem matches_time {w : Str} : Matches Re.time w ↔
    ∃ h m s, (w = h ++ ':' :: m ++ s) ∧ (h.length = 1 ∨ h.length = 2) ∧ m.length = 2 ∧
      (∀ c ∈ h ++ m, Categories.decimalDigit c = true) ∧
      (s = [] ∨ ∃ x, s = ':' :: x ∧ x.length = 2 ∧ ∀ c ∈ x, Categories.decimalDigit c = true) := by
  unfold Re.time Re.digit
  simp only [matches_seq, matches_opt, matches_cls, matches_times_cls, matches_chr]
  constructor
  · rintro ⟨_, _, rfl, ⟨a, rfl, ha⟩, b, _, rfl, hb, _, _, rfl, rfl, m, s, rfl, ⟨hm, hm'⟩, hs⟩
    refine ⟨a :: b, m, s, by simp, ?_, hm, ?_, ?_⟩
    · rcases hb with ⟨b', rfl, _⟩ | rfl <;> simp
    · intro c hc
      simp only [List.cons_append, List.mem_cons, List.mem_append] at hc
      rcases hc with rfl | hc | hc
      · exact ha
      · rcases hb with ⟨b', rfl, hb⟩ | rfl
        · rw [List.mem_singleton.mp hc]; exact hb
        · cases hc
      · exact hm' c hc
    · rcases hs with ⟨_, x, rfl, rfl, hx⟩ | rfl
      · exact .inr ⟨x, rfl, hx⟩
      · exact .inl rfl
  · rintro ⟨h, m, s, rfl, hh, hm, hd, hs⟩
    have hs' : (∃ u v, s = u ++ v ∧ u = [':'] ∧ v.length = 2 ∧ ∀ c ∈ v, Categories.decimalDigit c = true) ∨ s = [] := by
      rcases hs with rfl | ⟨x, rfl, hx⟩
      · exact .inr rfl
      · exact .inl ⟨[':'], x, rfl, rfl, hx⟩
    match h, hh with
    | [a], _ =>
      exact ⟨[a], _, by simp, ⟨a, rfl, hd a (by simp)⟩, [], ':' :: m ++ s, rfl, .inr rfl, [':'], m ++ s, by simp, rfl,
        m, s, rfl, ⟨hm, fun c hc => hd c (by simp [hc])⟩, hs'⟩
    | [a, b], _ =>
      exact ⟨[a], b :: ':' :: m ++ s, by simp, ⟨a, rfl, hd a (by simp)⟩, [b], ':' :: m ++ s, rfl,
        .inl ⟨b, rfl, hd b (by simp)⟩, [':'], m ++ s, by simp, rfl,
        m, s, rfl, ⟨hm, fun c hc => hd c (by simp [hc])⟩, hs'⟩

end

/-- The characters a regular expression can match. -/
def alphabet : Re → Char → Bool
  | void, _ => false
  | eps, _ => false
  | cls p, c => p c
  | seq a b, c => a.alphabet c || b.alphabet c
  | alt a b, c => a.alphabet c || b.alphabet c
  | star a, c => a.alphabet c

theorem mem_alphabet {r : Re} {w : Str} (h : Matches r w) : ∀ c ∈ w, r.alphabet c = true := by
  induction h with
  | eps => simp
  | cls h => simpa [alphabet] using h
  | seq _ _ ih1 ih2 =>
    intro c hc
    simp only [alphabet, Bool.or_eq_true]
    rcases List.mem_append.mp hc with hc | hc
    · exact .inl (ih1 c hc)
    · exact .inr (ih2 c hc)
  | left _ ih => intro c hc; simp [alphabet, ih c hc]
  | right _ ih => intro c hc; simp [alphabet, ih c hc]
  | none => simp
  | more _ _ ih1 ih2 =>
    intro c hc
    rcases List.mem_append.mp hc with hc | hc
    · exact ih1 c hc
    · exact ih2 c hc

section
variable [Categories]

theorem matches_account_head {w : Str} (h : Matches Re.account w) :
    ∃ a rest, w = a :: rest ∧ (Categories.upper a || Categories.otherLetter a) = true ∧ ':' ∈ rest ∧
      ∀ c ∈ rest, isAccountChar c = true ∨ c = ':' ∨ (Categories.upper c || Categories.otherLetter c || Categories.number c) = true := by
  have hal := mem_alphabet h
  unfold Re.account Re.accountType Re.plus at h
  simp only [matches_seq, matches_cls, matches_chr] at h
  obtain ⟨_, v, rfl, ⟨_, t, rfl, ⟨a, rfl, ha⟩, ht⟩, _, s, rfl, ⟨_, n, rfl, rfl, hn⟩, hs⟩ := h
  refine ⟨a, t ++ ([':'] ++ n ++ s), by simp, ha, by simp, ?_⟩
  intro c hc
  have := hal c (by simp only [List.cons_append, List.nil_append, List.mem_cons] at hc ⊢; exact .inr hc)
  simp only [Re.account, Re.accountType, Re.accountName, Re.plus, alphabet, Re.chr, Bool.or_eq_true, decide_eq_true_eq] at this ⊢
  tauto

theorem matches_number_head {w : Str} (h : Matches Re.number w) :
    ∃ a rest, w = a :: rest ∧ Categories.decimalDigit a = true ∧
      ∀ c ∈ rest, Categories.decimalDigit c = true ∨ c = ',' ∨ c = '.' := by
  have hal := mem_alphabet h
  unfold Re.number Re.plus Re.digit at h
  simp only [matches_seq, matches_cls] at h
  obtain ⟨_, v, rfl, ⟨_, t, rfl, ⟨a, rfl, ha⟩, ht⟩, _⟩ := h
  refine ⟨a, t ++ v, by simp, ha, ?_⟩
  intro c hc
  have := hal c (by simp only [List.cons_append, List.nil_append, List.mem_cons] at hc ⊢; exact .inr hc)
  simp only [Re.number, Re.plus, Re.digit, Re.times, Re.opt, alphabet, Re.chr, Bool.or_eq_true, decide_eq_true_eq,
    Bool.or_false] at this ⊢
  tauto

theorem matches_number_last {w : Str} (h : Matches Re.number w) : ∃ init z, w = init ++ [z] ∧ Categories.decimalDigit z = true := by
  unfold Re.number Re.digit at h
  simp only [matches_seq, matches_opt, matches_plus_cls, matches_chr] at h
  have key : ∀ u : Str, u ≠ [] → (∀ c ∈ u, Categories.decimalDigit c = true) →
      ∃ init z, u = init ++ [z] ∧ Categories.decimalDigit z = true := by
    intro u hu hd
    exact ⟨u.dropLast, u.getLast hu, (List.dropLast_concat_getLast hu).symm, hd _ (List.getLast_mem hu)⟩
  have hgroups : ∀ g : Str, Matches (.star (.seq (.chr ',') (.times (.cls Categories.decimalDigit) 3))) g →
      g = [] ∨ ∃ init z, g = init ++ [z] ∧ Categories.decimalDigit z = true := by
    intro g hg
    generalize hr : Re.star _ = r at hg
    induction hg with
    | none => exact .inl rfl
    | @more a u v h1 h2 _ ih =>
      cases hr
      right
      simp only [matches_seq, matches_times_cls] at h1
      obtain ⟨x, d, rfl, _, hd, hd'⟩ := h1
      rcases ih rfl with rfl | ⟨init, z, rfl, hz⟩
      · obtain ⟨init, z, rfl, hz⟩ := key d (by intro h; rw [h] at hd; simp at hd) hd'
        exact ⟨x ++ init, z, by simp, hz⟩
      · exact ⟨x ++ d ++ init, z, by simp, hz⟩
    | _ => cases hr
  obtain ⟨u, _, rfl, ⟨hu, hu'⟩, g, f, rfl, hg, hf⟩ := h
  rcases hf with ⟨_, d, rfl, rfl, hd, hd'⟩ | rfl
  · obtain ⟨init, z, rfl, hz⟩ := key d hd hd'
    exact ⟨u ++ (g ++ ([] ++ '.' :: init)), z, by simp, hz⟩
  · rcases hgroups g hg with rfl | ⟨init, z, rfl, hz⟩
    · obtain ⟨init, z, rfl, hz⟩ := key u hu hu'
      exact ⟨init, z, by simp, hz⟩
    · exact ⟨u ++ init, z, by simp, hz⟩

end

theorem matches_key {w : Str} : Matches Re.key w ↔
    ∃ a rest, w = a :: rest ∧ isAsciiLower a = true ∧ rest ≠ [] ∧ ∀ c ∈ rest, isKeyChar c = true := by
  unfold Re.key
  simp only [matches_seq, matches_cls, matches_plus_cls]
  constructor
  · rintro ⟨_, rest, rfl, ⟨a, rfl, ha⟩, h0, h⟩; exact ⟨a, rest, rfl, ha, h0, h⟩
  · rintro ⟨a, rest, rfl, ha, h0, h⟩; exact ⟨[a], rest, rfl, ⟨a, rfl, ha⟩, h0, h⟩

theorem matches_tag {x : Char} {w : Str} : Matches (.seq (.chr x) .tagOrLinkIdentifier) w ↔
    ∃ rest, w = x :: rest ∧ rest ≠ [] ∧ ∀ c ∈ rest, isTagChar c = true := by
  unfold Re.tagOrLinkIdentifier
  simp only [matches_seq, matches_chr, matches_plus_cls]
  constructor
  · rintro ⟨_, rest, rfl, rfl, h0, h⟩; exact ⟨rest, rfl, h0, h⟩
  · rintro ⟨rest, rfl, h0, h⟩; exact ⟨[x], rest, rfl, rfl, h0, h⟩

theorem matches_string_ends {w : Str} (h : Matches Re.stringLiteral w) : ∃ body, w = '"' :: body ++ ['"'] := by
  unfold Re.stringLiteral at h
  simp only [matches_seq, matches_chr] at h
  obtain ⟨_, _, rfl, rfl, body, _, rfl, _, rfl⟩ := h
  exact ⟨body, by simp⟩

theorem matches_plain_string {s : Str} (h : ∀ c ∈ s, c ≠ '"' ∧ c ≠ '\\') : Matches Re.stringLiteral ('"' :: s ++ ['"']) := by
  unfold Re.stringLiteral
  simp only [matches_seq, matches_chr]
  refine ⟨['"'], s ++ ['"'], rfl, rfl, s, ['"'], rfl, ?_, rfl⟩
  induction s with
  | nil => exact .none
  | cons c s ih =>
    refine Matches.more (u := [c]) (.left (.cls ?_)) (ih (fun d hd => h d (by simp [hd])))
    have := h c (by simp)
    simp [this.1, this.2]

theorem string_stops {s v : Str} (h : ∀ c ∈ s, c ≠ '"' ∧ c ≠ '\\') (hm : Matches Re.stringLiteral ('"' :: s ++ '"' :: v)) :
    v = [] := by
  unfold Re.stringLiteral at hm
  simp only [matches_seq, matches_chr] at hm
  obtain ⟨_, _, e, rfl, body, _, rfl, hb, rfl⟩ := hm
  rw [List.cons_append, List.cons_append, List.nil_append] at e
  injection e with _ e
  clear * - h e hb
  induction s generalizing body with
  | nil =>
    cases body with
    | nil => simpa using e
    | cons c b =>
      rw [List.nil_append, List.cons_append] at e
      injection e with e1 e2
      subst e1
      obtain ⟨u, v', _, hu, _⟩ := matches_star_cons.mp hb
      rcases matches_alt.mp hu with h1 | h1
      · obtain ⟨d, e3, hd⟩ := matches_cls.mp h1
        injection e3 with e4; subst e4; simp at hd
      · obtain ⟨u', v'', e3, h2, _⟩ := matches_seq.mp h1
        rw [matches_chr.mp h2] at e3
        injection e3 with e4
        exact absurd e4 (by decide)
  | cons c s ih =>
    cases body with
    | nil =>
      rw [List.nil_append, List.cons_append] at e
      injection e with e1 _
      exact absurd e1 (h c (by simp)).1
    | cons d b =>
      rw [List.cons_append, List.cons_append] at e
      injection e with e1 e2
      subst e1
      obtain ⟨u, v', rfl, hu, hv⟩ := matches_star_cons.mp hb
      rcases matches_alt.mp hu with h1 | h1
      · obtain ⟨d, e3, _⟩ := matches_cls.mp h1
        injection e3 with _ e4
        subst e4
        exact ih (fun d hd => h d (by simp [hd])) v' hv (by simpa using e2)
      · obtain ⟨u', v'', e3, h2, _⟩ := matches_seq.mp h1
        rw [matches_chr.mp h2] at e3
        injection e3 with e4
        exact absurd e4 (h c (by simp)).2

theorem matches_flag {w : Str} : Matches (.seq (.chr '\'') (.cls isAsciiUpper)) w ↔
    ∃ c, w = ['\'', c] ∧ isAsciiUpper c = true := by
  simp only [matches_seq, matches_chr, matches_cls]
  constructor
  · rintro ⟨_, _, rfl, rfl, c, rfl, h⟩; exact ⟨c, rfl, h⟩
  · rintro ⟨c, rfl, h⟩; exact ⟨['\''], [c], rfl, rfl, c, rfl, h⟩

/-- What follows the optional comment and the newline. -/
theorem matches_eol {b : Re} {w : Str} (h : Matches (.seq (.opt .commentToEol) (.seq .newline b)) w) :
    '\n' ∈ w ∧ ((∃ rest, w = ';' :: rest) ∨ (∃ rest, w = '\r' :: rest) ∨ ∃ rest, w = '\n' :: rest ∧ Matches b rest) := by
  unfold Re.newline at h
  simp only [matches_seq, matches_opt, matches_chr] at h
  obtain ⟨c, _, rfl, hc, _, v, rfl, ⟨r, _, rfl, hr, rfl⟩, hv⟩ := h
  refine ⟨by simp, ?_⟩
  rcases hc with hc | rfl
  · unfold Re.commentToEol at hc
    simp only [matches_seq, matches_chr] at hc
    obtain ⟨_, c', rfl, rfl, _⟩ := hc
    exact .inl ⟨_, rfl⟩
  · rcases hr with rfl | rfl
    · exact .inr (.inl ⟨_, rfl⟩)
    · exact .inr (.inr ⟨v, by simp, hv⟩)

end Re

end Lima
