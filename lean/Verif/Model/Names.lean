import Verif.Model.Chars
import Verif.Model.Ast

/-!
# Validated names, `/repo/src/types.rs`
-/

namespace Lima

/-! ### Currency -/

/-- `CurrencyErrorKind`, `/repo/src/types.rs:1638-1644`. -/
inductive CurrencyError where
  | empty
  | initial (c : Char)
  | intermediate (cs : List Char)
  | final (c : Char)
  | missingLetter
deriving Repr, DecidableEq

/-- `Currency::is_valid_initial`, `/repo/src/types.rs:1582-1584`. -/
def Currency.isValidInitial (c : Char) : Bool := isAsciiUpper c || decide (c = '/')

/-- `Currency::is_valid_intermediate`, `/repo/src/types.rs:1579,1586-1590`. -/
def Currency.isValidIntermediate (c : Char) : Bool :=
  isAsciiUpper c || isAsciiDigit c || ['\'', '.', '_', '-'].contains c

/-- `Currency::is_valid_final`, `/repo/src/types.rs:1592-1594`. -/
def Currency.isValidFinal (c : Char) : Bool := isAsciiUpper c || isAsciiDigit c

/-- The checks at the end of `Currency::try_from`, `/repo/src/types.rs:1706-1722`. -/
def Currency.check (s : Str) (first : Char) (intermediate : List Char) (last : Char) :
    Res CurrencyError Str :=
  if !Currency.isValidInitial first then .err (.initial first)
  else if !Currency.isValidFinal last then .err (.final last)
  else
    let bad := intermediate.filter (fun c => !Currency.isValidIntermediate c)
    if !bad.isEmpty then .err (.intermediate bad)
    else if (s.find? isAsciiUpper).isNone then .err .missingLetter
    else .ok s

/-- `Currency::try_from`, `/repo/src/types.rs:1687-1724`.  `s.len()` is the byte length, `chars` iterates over
characters; `chars.next().unwrap()` panics when the iterator is exhausted. -/
def Currency.tryFrom (s : Str) : Res CurrencyError Str :=
  match s with
  | [] => .err .empty
  | first :: chars =>
    let len := byteLen s
    let taken := if len > 2 then len - 2 else 0
    let intermediate := chars.take taken
    let chars := chars.drop taken
    if len > 1 then
      match chars with
      | [] => .panic
      | last :: _ => Currency.check s first intermediate last
    else Currency.check s first intermediate first

/-! ### Names with an initial and subsequent characters -/

/-- `AccountTypeNameErrorKind`, `AccountNameErrorKind` and `KeyErrorKind` have the same shape,
`/repo/src/types.rs:1429-1433, 1516-1520, 2143-2147`. -/
inductive NameError where
  | empty
  | initial (c : Char)
  | subsequent (cs : List Char)
deriving Repr, DecidableEq

/-- The common shape of `AccountTypeName::try_from`, `AccountName::try_from` and `Key::try_from`,
`/repo/src/types.rs:1365-1385, 1551-1571, 2178-2198`: the three bodies differ only in the predicates. -/
def nameTryFrom (isInitial isSubsequent : Char → Bool) (s : Str) : Except NameError Str :=
  match s with
  | [] => .error .empty
  | initial :: chars =>
    if !isInitial initial then .error (.initial initial)
    else
      let bad := chars.filter (fun c => !isSubsequent c)
      if bad.isEmpty then .ok s else .error (.subsequent bad)

variable [Unicode]

/-- `AccountTypeName::is_valid_subsequent` and `AccountName::is_valid_subsequent`,
`/repo/src/types.rs:1357-1359, 1470-1472`. -/
def accountSubsequent (c : Char) : Bool := isAlphanumeric c || decide (c = '-')

/-- `AccountTypeName::try_from`, `/repo/src/types.rs:1362-1386`, initial from 1353-1355. -/
def AccountTypeName.tryFrom (s : Str) : Except NameError Str :=
  nameTryFrom isAsciiUpper accountSubsequent s

/-- `AccountName::is_valid_initial`, `/repo/src/types.rs:1466-1468`. -/
def AccountName.isValidInitial (c : Char) : Bool :=
  isAsciiUpper c || isAsciiDigit c || (!isAscii c && Unicode.isAlphabetic c)

/-- `AccountName::try_from`, `/repo/src/types.rs:1548-1572`. -/
def AccountName.tryFrom (s : Str) : Except NameError Str :=
  nameTryFrom AccountName.isValidInitial accountSubsequent s

/-- `Key::is_valid_subsequent`, `/repo/src/types.rs:2097-2099`. -/
def Key.isValidSubsequent (c : Char) : Bool := isAlphanumeric c || decide (c = '-') || decide (c = '_')

/-- `Key::try_from`, `/repo/src/types.rs:2175-2199`, initial from 2093-2095. -/
def Key.tryFrom (s : Str) : Except NameError Str :=
  nameTryFrom isAsciiLower Key.isValidSubsequent s

/-- `is_valid_tag_or_link_identifier_char`, `/repo/src/types.rs:2051-2055`. -/
def isValidTagOrLinkChar (c : Char) : Bool := isAlphanumeric c || ['-', '_', '/', '.'].contains c

/-- `Tag::try_from` and `Link::try_from` through `validate_tag_or_link_identifier`,
`/repo/src/types.rs:1956-1959, 2008-2011, 2076-2086`; the error is the list of bad characters. -/
def tagOrLinkTryFrom (s : Str) : Except (List Char) Str :=
  let bad := s.filter (fun c => !isValidTagOrLinkChar c)
  if bad.isEmpty then .ok s else .error bad

omit [Unicode] in
/-- `FlagLetter::try_from`, `/repo/src/types.rs:395-397, 416-426`; the error is the bad character. -/
def FlagLetter.tryFrom (c : Char) : Except Char Char := if isAsciiUpper c then .ok c else .error c

/-! ### Accounts -/

omit [Unicode] in
/-- `str::split(':')`: always at least one piece. -/
def splitColon : Str → List Str
  | [] => [[]]
  | c :: cs =>
    if c = ':' then [] :: splitColon cs
    else
      match splitColon cs with
      | [] => [[c]]
      | w :: ws => (c :: w) :: ws

/-- `Subaccount::try_from`, `/repo/src/types.rs:1330-1346`. -/
def Subaccount.tryFrom (s : Str) : Except NameError Str :=
  let rec go : List Str → Bool → Except NameError Str
    | [], empty => if empty then .error .empty else .ok s
    | n :: ns, _ =>
      match AccountName.tryFrom n with
      | .error e => .error e
      | .ok _ => go ns false
  go (splitColon s) true

end Lima
