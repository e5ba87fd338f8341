import Verif.Model.Names

/-!
# Account type names, `/repo/src/types.rs:2752-2859`, and `Account::new`
-/

namespace Lima

/-- The discriminant `account_type as usize`, `/repo/src/types.rs:330-338`. -/
def AccountType.idx : AccountType → Nat
  | .assets => 0
  | .liabilities => 1
  | .equity => 2
  | .income => 3
  | .expenses => 4

/-- `AccountTypeNames`, `/repo/src/types.rs:2753-2757`. -/
structure AccountTypeNames where
  nameByType : List Str
  typeByName : List (Str × AccountType)
deriving Repr, DecidableEq

/-- `AccountTypeNames::name`, `/repo/src/types.rs:2760-2762`; `none` is an index panic. -/
def AccountTypeNames.name (n : AccountTypeNames) (t : AccountType) : Option Str := n.nameByType[t.idx]?

/-- `AccountTypeNames::get`, `/repo/src/types.rs:2764-2766`. -/
def AccountTypeNames.get (n : AccountTypeNames) (name : Str) : Option AccountType :=
  AMap.get n.typeByName name

/-- `AccountTypeNames::update`, `/repo/src/types.rs:2768-2795`.  The error is the type using the name; the
outcome `panic` is the index panic of `name_by_type[..]`.  Returns the new state in every case. -/
def AccountTypeNames.update (n : AccountTypeNames) (t : AccountType) (name : Str) :
    Res AccountType Unit × AccountTypeNames :=
  match AMap.get n.typeByName name with
  | none =>
    match n.nameByType[t.idx]? with
    | none => (.panic, { n with typeByName := AMap.insert n.typeByName name t })
    | some oldName =>
      (.ok (), { nameByType := n.nameByType.set t.idx name
                 typeByName := AMap.erase (AMap.insert n.typeByName name t) oldName })
  | some existing =>
    if existing = t then (.ok (), n) else (.err existing, n)

/-- `Default for AccountTypeNames`, `/repo/src/types.rs:2798-2832`; the list is already in discriminant
order. -/
def AccountTypeNames.default : AccountTypeNames :=
  { nameByType := [str "Assets", str "Liabilities", str "Equity", str "Income", str "Expenses"]
    typeByName := [(str "Assets", .assets), (str "Liabilities", .liabilities), (str "Equity", .equity),
      (str "Income", .income), (str "Expenses", .expenses)] }

/-- `AccountErrorKind`, `/repo/src/types.rs:1273-1278`; of an unknown account type, what its message is made of
instead of the message. -/
inductive AccountError where
  | missingColon
  | typeName (e : NameError)
  | accountName (e : NameError)
  | unknownAccountType (root : Str) (names : List Str)
deriving Repr, DecidableEq

variable [Unicode]

/-- The loop over the remaining components in `Account::new`, `/repo/src/types.rs:1230-1233`. -/
def checkSubaccounts : List Str → Except AccountError Unit
  | [] => .ok ()
  | s :: ss =>
    match AccountName.tryFrom s with
    | .error e => .error (.accountName e)
    | .ok _ => checkSubaccounts ss

/-- `Account::new`, `/repo/src/types.rs:1218-1245`. -/
def Account.new (s : Str) (names : AccountTypeNames) : Except AccountError Account :=
  match splitColon s with
  | [] => .error .missingColon
  | root :: subs =>
    match AccountTypeName.tryFrom root with
    | .error e => .error (.typeName e)
    | .ok root =>
      match checkSubaccounts subs with
      | .error e => .error e
      | .ok () =>
        match names.get root with
        | some t => .ok ⟨t, s⟩
        | none => .error (.unknownAccountType root names.nameByType)

end Lima
