import Verif.Model.Check

/-!
# Specification of the programs `check` and `check-postings-balance` (C69, C70)

An account is known by its name.  Where an account stands is said in terms of the directives before, without any table.
-/

namespace Lima.Spec
open Lima

/-- An open directive for the account. -/
def Opens (name : Str) (d : Spanned Directive) : Prop := ∃ account currencies booking, d.item.variant = .open account currencies booking ∧ account.item.name = name

/-- A close directive for the account. -/
def Closes (name : Str) (d : Spanned Directive) : Prop := ∃ account, d.item.variant = .close account ∧ account.item.name = name

/-- The account was not opened. -/
def Unknown (name : Str) (before : List (Spanned Directive)) : Prop := ∀ d ∈ before, ¬ Opens name d

/-- The account was first opened by `o`, and not closed since. -/
def OpenSince (name : Str) (before : List (Spanned Directive)) (o : Spanned Directive) : Prop :=
  ∃ p q, before = p ++ o :: q ∧ Unknown name p ∧ Opens name o ∧ ∀ d ∈ q, ¬ Closes name d

/-- The account was first opened by `o`, and after that first closed by `c`. -/
def ClosedSince (name : Str) (before : List (Spanned Directive)) (o c : Spanned Directive) : Prop :=
  ∃ p q r, before = p ++ o :: (q ++ c :: r) ∧ Unknown name p ∧ Opens name o ∧ (∀ d ∈ q, ¬ Closes name d) ∧ Closes name c

/-- The decimals added one after the other, as far as `rust_decimal` can. -/
inductive Adds [DecOps] : Dec → List Dec → Dec → Prop
  | nil {t : Dec} : Adds t [] t
  | cons {t t' u d : Dec} {ds : List Dec} : DecOps.add t d = some t' → Adds t' ds u → Adds t (d :: ds) u

/-- What is reported for a total which is not zero: it is at the last amount, with the others and the transaction. -/
def sumReport (d : Spanned Directive) (total : Dec) (last : Spanned ExprValue) (others : List (Spanned ExprValue)) : Report :=
  ⟨str "invalid amount", str "sum is " ++ Display.decimal total ++ str ", expected zero", last.span,
    some [(str "transaction", d.span)], some (others.map fun a => (str "amount", a.span))⟩

/-- The errors for the amounts of the postings of a transaction: one, if all have an amount and the total is not zero. -/
inductive AmountsReported [DecOps] (d : Spanned Directive) (postings : List (Spanned Posting)) : List Report → Prop
  | none : postings = [] → AmountsReported d postings []
  | missing {p : Spanned Posting} : p ∈ postings → p.item.amount = none → AmountsReported d postings []
  | zero {amounts : List (Spanned ExprValue)} {total : Dec} : postings.map (·.item.amount) = amounts.map some →
      Adds ⟨0, 0⟩ (amounts.map (·.item.value)) total → total.val = 0 → AmountsReported d postings []
  | other {others : List (Spanned ExprValue)} {last : Spanned ExprValue} {total : Dec} :
      postings.map (·.item.amount) = (others ++ [last]).map some →
      Adds ⟨0, 0⟩ ((others ++ [last]).map (·.item.value)) total → total.val ≠ 0 →
      AmountsReported d postings [sumReport d total last others]

/-- What is reported for a posting to an account which was not opened. -/
def unknownReport (d : Spanned Directive) (p : Spanned Posting) : Report :=
  ⟨str "invalid account", str "no such account", p.item.account.span, some [(str "posting", p.span), (str "transaction", d.span)], none⟩

/-- What is reported for a posting to an account closed by `c`. -/
def closedReport (d : Spanned Directive) (p : Spanned Posting) (c : Spanned Directive) : Report :=
  ⟨str "invalid account", str "account is closed", p.item.account.span, some [(str "posting", p.span), (str "transaction", d.span)],
    some [(str "close", c.span)]⟩

/-- The errors for the accounts of postings. -/
inductive AccountsReported (before : List (Spanned Directive)) (d : Spanned Directive) : List (Spanned Posting) → List Report → Prop
  | nil : AccountsReported before d [] []
  | fine {p : Spanned Posting} {ps : List (Spanned Posting)} {es : List Report} {o : Spanned Directive} :
      OpenSince p.item.account.item.name before o → AccountsReported before d ps es → AccountsReported before d (p :: ps) es
  | unknown {p : Spanned Posting} {ps : List (Spanned Posting)} {es : List Report} :
      Unknown p.item.account.item.name before → AccountsReported before d ps es →
      AccountsReported before d (p :: ps) (unknownReport d p :: es)
  | closed {p : Spanned Posting} {ps : List (Spanned Posting)} {es : List Report} {o c : Spanned Directive} :
      ClosedSince p.item.account.item.name before o c → AccountsReported before d ps es →
      AccountsReported before d (p :: ps) (closedReport d p c :: es)

/-- What is reported for an open directive, when the account is open since `o`. -/
def againReport (d o : Spanned Directive) : Report :=
  ⟨str "questionable open", str "duplicate open", d.span, none, some [(str "open", o.span)]⟩

/-- What is reported for an open directive, when the account was closed by `c`. -/
def reopenReport (d c : Spanned Directive) : Report :=
  ⟨str "invalid open", str "account was closed", d.span, none, some [(str "close", c.span)]⟩

/-- What is reported for a close directive, when the account was not opened. -/
def unopenedReport (d : Spanned Directive) (account : Spanned Account) : Report :=
  ⟨str "invalid account", str "no such account", account.span, some [(str "close", d.span)], none⟩

/-- What is reported for a close directive, when the account was closed by `c`. -/
def recloseReport (d c : Spanned Directive) : Report :=
  ⟨str "invalid close", str "account already closed", d.span, none, some [(str "close", c.span)]⟩

/-- The errors and warnings of `check` for a directive, after those before. -/
inductive Reported [DecOps] (before : List (Spanned Directive)) (d : Spanned Directive) : List Report → List Report → Prop
  | transaction {t : Transaction} {es es' : List Report} : d.item.variant = .transaction t → AmountsReported d t.postings es →
      AccountsReported before d t.postings es' → Reported before d (es ++ es') []
  | first {name : Str} : Opens name d → Unknown name before → Reported before d [] []
  | again {name : Str} {o : Spanned Directive} : Opens name d → OpenSince name before o → Reported before d [] [againReport d o]
  | reopened {name : Str} {o c : Spanned Directive} : Opens name d → ClosedSince name before o c →
      Reported before d [reopenReport d c] []
  | unopened {account : Spanned Account} : d.item.variant = .close account → Unknown account.item.name before →
      Reported before d [unopenedReport d account] []
  | closes {name : Str} {o : Spanned Directive} : Closes name d → OpenSince name before o → Reported before d [] []
  | reclosed {name : Str} {o c : Spanned Directive} : Closes name d → ClosedSince name before o c →
      Reported before d [recloseReport d c] []
  | other : (∀ t, d.item.variant ≠ .transaction t) → (∀ name, ¬ Opens name d) → (∀ name, ¬ Closes name d) → Reported before d [] []

/-- The errors and warnings of `check` for directives one after the other. -/
inductive AllReported [DecOps] : List (Spanned Directive) → List (Spanned Directive) → List Report → List Report → Prop
  | nil {before : List (Spanned Directive)} : AllReported before [] [] []
  | cons {before ds : List (Spanned Directive)} {d : Spanned Directive} {es es' ws ws' : List Report} : Reported before d es ws →
      AllReported (before ++ [d]) ds es' ws' → AllReported before (d :: ds) (es ++ es') (ws ++ ws')

/-- The date of the first directive is not after that of the second. -/
def NotAfter (a b : Spanned Directive) : Prop := Date.lt b.item.date.item a.item.date.item = false

/-- With some number of places, as many as the decimals have, all magnitudes together are a decimal. -/
def FitTogether (ds : List Dec) : Prop :=
  ∃ places ≤ 28, (∀ d ∈ ds, d.Fits ∧ d.scale ≤ places) ∧ (ds.map fun d => |d.val|).sum * 10 ^ places < 2 ^ 96

/-- What `itertools::partition` does to the postings of a transaction: the same, in some order, with an amount first; nothing, if
all have an amount. -/
structure Partitions (partition : List (Spanned Posting) → List (Spanned Posting)) : Prop where
  perm : ∀ ps, (partition ps).Perm ps
  first : ∀ ps, ∃ a b, partition ps = a ++ b ∧ (∀ p ∈ a, p.item.amount ≠ none) ∧ ∀ p ∈ b, p.item.amount = none
  all : ∀ ps, (∀ p ∈ ps, p.item.amount ≠ none) → partition ps = ps

/-- The errors and warnings of `check-postings-balance` for a directive. -/
inductive BalanceReported [DecOps] (d : Spanned Directive) : List Report → List Report → Prop
  | empty {t : Transaction} : d.item.variant = .transaction t → t.postings = [] →
      BalanceReported d [] [⟨str "questionable transaction", str "no postings", d.span, none, none⟩]
  | several {t : Transaction} {without : List (Spanned Posting)} : d.item.variant = .transaction t →
      without.Perm (t.postings.filter (·.item.amount.isNone)) → 2 ≤ without.length →
      BalanceReported d [⟨str "invalid transaction", str "multiple postings without amount specified", d.span, none,
        some (without.map fun p => (str "posting", p.span))⟩] []
  | one {t : Transaction} : d.item.variant = .transaction t → (t.postings.filter (·.item.amount.isNone)).length = 1 →
      BalanceReported d [] []
  | all {t : Transaction} {es : List Report} : d.item.variant = .transaction t → t.postings ≠ [] →
      (∀ p ∈ t.postings, p.item.amount ≠ none) → AmountsReported d t.postings es → BalanceReported d es []
  | other : (∀ t, d.item.variant ≠ .transaction t) → BalanceReported d [] []

/-- The errors and warnings of `check-postings-balance` for directives one after the other. -/
inductive AllBalanceReported [DecOps] : List (Spanned Directive) → List Report → List Report → Prop
  | nil : AllBalanceReported [] [] []
  | cons {d : Spanned Directive} {ds : List (Spanned Directive)} {es es' ws ws' : List Report} : BalanceReported d es ws →
      AllBalanceReported ds es' ws' → AllBalanceReported (d :: ds) (es ++ es') (ws ++ ws')

/-- The amounts of the transactions can be added up without too large a number coming up. -/
def AddsUp (ds : List (Spanned Directive)) : Prop :=
  ∀ d ∈ ds, ∀ t, d.item.variant = .transaction t → FitTogether ((t.postings.filterMap (·.item.amount)).map (·.item.value))

end Lima.Spec
