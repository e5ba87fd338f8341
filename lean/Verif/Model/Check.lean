import Verif.Model.Parse
import Verif.Model.Display

/-!
# The programs `check` and `check-postings-balance`, `/repo/examples/check.rs`, `/repo/examples/check-postings-balance.rs`

What they do after a successful parse: the errors and warnings they come to.  After a parse which fails they write what it
reported.  Writing is not part of this model, see `Model/WriteReport.lean`.
-/

namespace Lima

/-- `ElementType for Directive`, `/repo/src/types.rs:751-770`. -/
def Directive.elementType (d : Directive) : Str :=
  match d.variant with
  | .transaction _ => str "transaction"
  | .price _ _ => str "price"
  | .balance _ _ => str "balance"
  | .open _ _ _ => str "open"
  | .close _ => str "close"
  | .commodity _ => str "commodity"
  | .pad _ _ => str "pad"
  | .document _ _ => str "document"
  | .note _ _ => str "note"
  | .event _ _ => str "event"
  | .query _ _ => str "query"
  | .custom _ _ => str "custom"

/-- `Spanned<Directive>` as an element reports may refer to, `/repo/src/types.rs:117-125`. -/
def directiveElement (d : Spanned Directive) : Str × Span := (d.item.elementType, d.span)

/-- `Spanned<Posting>` as an element, `/repo/src/types.rs:1776-1780`. -/
def postingElement (p : Spanned Posting) : Str × Span := (str "posting", p.span)

/-- `Spanned<ExprValue>` as an element, `/repo/src/types.rs:2238-2242`. -/
def amountElement (a : Spanned ExprValue) : Str × Span := (str "amount", a.span)

namespace Check

/-- `AccountStatus`, `/repo/examples/check.rs:119-122`. -/
structure AccountStatus where
  opened : Spanned Directive
  closed : Option (Spanned Directive)

/-- The `accounts` of `parse`, `/repo/examples/check.rs:46`: the latest entry for a key counts. -/
abbrev Accounts := List (Str × AccountStatus)

/-- `HashMap::get`. -/
def Accounts.get (m : Accounts) (key : Str) : Option AccountStatus := m.lookup key

/-- `HashMap::insert`; also an update in place, `/repo/examples/check.rs:88-91`. -/
def Accounts.insert (m : Accounts) (key : Str) (s : AccountStatus) : Accounts := (key, s) :: m

section
variable [DecOps]

/-- `Sum for Decimal`: addition from left to right, from zero; `none` is a panic. -/
def sum : List Dec → Dec → Option Dec
  | [], total => some total
  | d :: ds, total =>
    match DecOps.add total d with
    | none => none
    | some t => sum ds t

/-- The error about a total which is not zero, `/repo/examples/check.rs:147-152` and
`/repo/examples/check-postings-balance.rs:67-72`. -/
def unbalanced (d : Spanned Directive) (total : Dec) (last : Spanned ExprValue) (others : List (Spanned ExprValue)) : Report :=
  ((last.error (str "amount") (str "sum is " ++ Display.decimal total ++ str ", expected zero")).relatedToAll
    (others.map amountElement)).inContext (directiveElement d).1 (directiveElement d).2

/-- `check_postings_amounts`, `/repo/examples/check.rs:133-155`: the errors pushed; `none` is a panic.  That the last amount
cannot be missing is part of the pattern. -/
def postingsAmounts (d : Spanned Directive) (postings : List (Spanned Posting)) : Option (List Report) :=
  let amounts := postings.filterMap (·.item.amount)
  if 0 < postings.length ∧ amounts.length = postings.length then
    match sum (amounts.map (·.item.value)) ⟨0, 0⟩ with
    | none => none
    | some total =>
      if total.mant = 0 then some []
      else
        match amounts.getLast? with
        | none => none
        | some last => some [unbalanced d total last amounts.dropLast]
  else some []

/-- The body of the loop of `check_postings_accounts`, `/repo/examples/check.rs:164-189`. -/
def postingAccount (d : Spanned Directive) (accounts : Accounts) (posting : Spanned Posting) : List Report :=
  let account := posting.item.account
  match accounts.get (Display.account account.item) with
  | none =>
    [((account.error (str "account") (str "no such account")).inContext (postingElement posting).1 (postingElement posting).2).inContext
      (directiveElement d).1 (directiveElement d).2]
  | some ⟨_, some closed⟩ =>
    [(((account.error (str "account") (str "account is closed")).inContext (postingElement posting).1 (postingElement posting).2).inContext
      (directiveElement d).1 (directiveElement d).2).relatedTo (directiveElement closed).1 (directiveElement closed).2]
  | some ⟨_, none⟩ => []

/-- `check_postings_accounts`, `/repo/examples/check.rs:157-191`. -/
def postingsAccounts (d : Spanned Directive) (accounts : Accounts) (postings : List (Spanned Posting)) : List Report :=
  postings.flatMap (postingAccount d accounts)

/-- `accounts`, `errors` and `warnings` of `parse`, `/repo/examples/check.rs:44-47`. -/
structure State where
  accounts : Accounts
  errors : List Report
  warnings : List Report

/-- The arm for `Open`, `/repo/examples/check.rs:58-78`. -/
def onOpen (st : State) (d : Spanned Directive) (account : Spanned Account) : State :=
  let key := Display.account account.item
  match st.accounts.get key with
  | none => { st with accounts := st.accounts.insert key ⟨d, none⟩ }
  | some ⟨opened, none⟩ =>
    { st with warnings := st.warnings ++
        [(d.warning d.item.elementType (str "duplicate open")).relatedTo (directiveElement opened).1 (directiveElement opened).2] }
  | some ⟨_, some closed⟩ =>
    { st with errors := st.errors ++
        [(d.error d.item.elementType (str "account was closed")).relatedTo (directiveElement closed).1 (directiveElement closed).2] }

/-- The arm for `Close`, `/repo/examples/check.rs:80-99`. -/
def onClose (st : State) (d : Spanned Directive) (account : Spanned Account) : State :=
  let key := Display.account account.item
  match st.accounts.get key with
  | none =>
    { st with errors := st.errors ++
        [(account.error (str "account") (str "no such account")).inContext (directiveElement d).1 (directiveElement d).2] }
  | some ⟨opened, none⟩ => { st with accounts := st.accounts.insert key ⟨opened, some d⟩ }
  | some ⟨_, some closed⟩ =>
    { st with errors := st.errors ++
        [(d.error d.item.elementType (str "account already closed")).relatedTo (directiveElement closed).1 (directiveElement closed).2] }

/-- The body of the loop of `parse`, `/repo/examples/check.rs:50-102`; `none` is a panic. -/
def step (st : State) (d : Spanned Directive) : Option State :=
  match d.item.variant with
  | .transaction x =>
    match postingsAmounts d x.postings with
    | none => none
    | some es => some { st with errors := st.errors ++ es ++ postingsAccounts d st.accounts x.postings }
  | .open account _ _ => some (onOpen st d account)
  | .close account => some (onClose st d account)
  | _ => some st

/-- The loop of `parse`, `/repo/examples/check.rs:49-103`. -/
def steps : List (Spanned Directive) → State → Option State
  | [], st => some st
  | d :: ds, st =>
    match step st d with
    | none => none
    | some st => steps ds st

/-- `parse` of the program `check` after a successful parse, `/repo/examples/check.rs:39-110`: the errors and the warnings;
`none` is a panic. -/
def check (r : ParseSuccess) : Option (List Report × List Report) :=
  (steps r.directives ⟨[], [], r.warnings⟩).map fun st => (st.errors, st.warnings)

end

end Check

namespace Balance

section
variable [DecOps]

/-- The body of the loop of `parse`, `/repo/examples/check-postings-balance.rs:46-75`: errors and warnings pushed; `none` is a
panic.  `partition` is `itertools::partition` for having an amount: the postings in some other order, those with an amount
first. -/
def step (partition : List (Spanned Posting) → List (Spanned Posting)) (d : Spanned Directive) : Option (List Report × List Report) :=
  match d.item.variant with
  | .transaction x =>
    let postings := partition x.postings
    let count := (x.postings.filter (·.item.amount.isSome)).length
    if postings.isEmpty then some ([], [d.warning d.item.elementType (str "no postings")])
    else if count + 1 < x.postings.length then
      some ([(d.error d.item.elementType (str "multiple postings without amount specified")).relatedToAll
        ((postings.drop count).map postingElement)], [])
    else if count = x.postings.length then
      match Check.sum (postings.filterMap (·.item.amount) |>.map (·.item.value)) ⟨0, 0⟩ with
      | none => none
      | some total =>
        if total.mant = 0 then some ([], [])
        else
          let amounts := postings.filterMap (·.item.amount)
          match amounts.getLast? with
          | none => none
          | some last => some ([Check.unbalanced d total last amounts.dropLast], [])
    else some ([], [])
  | _ => some ([], [])

/-- The loop of `parse`, `/repo/examples/check-postings-balance.rs:45-76`. -/
def steps (partition : List (Spanned Posting) → List (Spanned Posting)) :
    List (Spanned Directive) → List Report × List Report → Option (List Report × List Report)
  | [], out => some out
  | d :: ds, out =>
    match step partition d with
    | none => none
    | some new => steps partition ds (out.1 ++ new.1, out.2 ++ new.2)

/-- `parse` of the program after a successful parse, `/repo/examples/check-postings-balance.rs:36-80`: the errors and the
warnings; `none` is a panic. -/
def check (partition : List (Spanned Posting) → List (Spanned Posting)) (r : ParseSuccess) : Option (List Report × List Report) :=
  steps partition r.directives ([], r.warnings)

end

end Balance

end Lima
