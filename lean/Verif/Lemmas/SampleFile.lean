import Verif.Lemmas.FirstLine
import Verif.Lemmas.Decimal

/-!
A file with a transaction and an `open` directive, for the examples:

    2024-01-02 * "" "n
    m" #-
      #-
    2024-01-02 open Assets:A A,A
-/

namespace Lima.Grammar.Sample

open Spec

def tx : List Ranged :=
  [⟨.date ⟨2024, 1, 2⟩, 0, 10⟩, ⟨.asterisk, 11, 12⟩, ⟨.stringLiteral [], 13, 15⟩,
   ⟨.stringLiteral ['n', '\n', 'm'], 16, 21⟩, ⟨.tag ['-'], 22, 24⟩, ⟨.eol, 24, 25⟩,
   ⟨.indent, 25, 27⟩, ⟨.tag ['-'], 27, 29⟩, ⟨.eol, 29, 30⟩]

def opening : List Ranged :=
  [⟨.date ⟨2024, 1, 2⟩, 30, 40⟩, ⟨.open, 41, 45⟩, ⟨.account (str "Assets:A"), 46, 54⟩,
   ⟨.currency ['A'], 55, 56⟩, ⟨.comma, 56, 57⟩, ⟨.currency ['A'], 57, 58⟩, ⟨.eol, 58, 59⟩]

def cfg : ParseCfg := ⟨7, none, fun _ => ⟨7, 0, 0⟩, fun _ => .error ⟨[]⟩⟩

/-- Strings of more than one line are long. -/
def opts : ParserOptions := ⟨AccountTypeNames.default, some (sourced 1 ⟨⟨7, 0, 0⟩, ⟨7, 0, 0⟩⟩)⟩

def txDirective : Directive :=
  ⟨⟨⟨2024, 1, 2⟩, ⟨7, 0, 10⟩⟩, ⟨⟨[], [⟨['-'], ⟨7, 27, 29⟩⟩], []⟩, ⟨7, 25, 30⟩⟩,
    .transaction ⟨⟨.asterisk, ⟨7, 11, 12⟩⟩, none, some ⟨['n', '\n', 'm'], ⟨7, 16, 21⟩⟩, []⟩⟩

def openDirective : Directive :=
  ⟨⟨⟨2024, 1, 2⟩, ⟨7, 30, 40⟩⟩, ⟨⟨[], [], []⟩, ⟨7, 0, 0⟩⟩,
    .open ⟨⟨.assets, str "Assets:A"⟩, ⟨7, 46, 54⟩⟩ [⟨['A'], ⟨7, 57, 58⟩⟩] none⟩

def declarations : List (Spanned Declaration) :=
  [⟨.directive txDirective, ⟨7, 0, 30⟩⟩, ⟨.directive openDirective, ⟨7, 30, 59⟩⟩]

def errors : List PErr := [.duplicate .tag ['-'] ⟨7, 27, 29⟩, .duplicate .currency ['A'] ⟨7, 55, 56⟩]

@[reducible] def unicode : Unicode := Unicode.asciiOnly

@[reducible] def decOps : DecOps := DecOps.simple

attribute [local instance] unicode decOps

theorem word (t : Token) (x y : Nat) (r : List Ranged) : Word t (⟨t, x, y⟩ :: r) r := ⟨x, y, rfl⟩

theorem covers (f : Ranged) (l r : List Ranged) :
    Covers cfg (f :: l ++ r) r ⟨7, f.start, ((f :: l).getLast (by simp)).stop⟩ :=
  .inl ⟨f, f :: l, (f :: l).getLast (by simp), rfl, rfl, List.getLast?_eq_some_getLast (by simp), rfl⟩

theorem at_one {α : Type} {p : Phrase α} {x : Ranged} {r : List Ranged} {a : α} (h : p (x :: r) r a) :
    At cfg p (x :: r) r ⟨a, ⟨7, x.start, x.stop⟩⟩ := ⟨h, covers x [] r⟩

theorem tx_directive (r : List Ranged) :
    DirectiveP cfg opts (tx ++ r) r txDirective [.duplicate .tag ['-'] ⟨7, 27, 29⟩] :=
  .transaction (head := [.inl ⟨['-'], ⟨7, 22, 24⟩⟩]) (lines := [.tag ⟨['-'], ⟨7, 27, 29⟩⟩]) (postings := [])
    (strings := (none, some _))
    (at_one (word _ _ _ _)) (at_one (.inr (.inr (.inl ⟨rfl, word _ _ _ _⟩))))
    (.both (s := ⟨[], ⟨7, 13, 15⟩⟩) (t := ⟨['n', '\n', 'm'], ⟨7, 16, 21⟩⟩) (at_one (word _ _ _ _)) (at_one (word _ _ _ _)))
    (.cons (.tag (at_one ⟨word _ _ _ _, by simp [TagChar]⟩)) .nil)
    (.inl (word _ _ _ _))
    (.cons (.tag (word _ _ _ _) (at_one ⟨word _ _ _ _, by simp [TagChar]⟩) (.inl (word _ _ _ _))) .nil)
    (covers _ [_, _] _) .nil

theorem account (r : List Ranged) :
    AccountP opts (⟨.account (str "Assets:A"), 46, 54⟩ :: r) r ⟨.assets, str "Assets:A"⟩ :=
  ⟨word _ _ _ _, str "Assets", [str "A"], rfl, ⟨'A', str "ssets", rfl, by simp [Upper],
    by
      simp only [str, Alnum]
      decide⟩,
    by
      intro s hs
      simp only [List.mem_singleton] at hs
      subst hs
      exact ⟨'A', [], rfl, .inl (by simp [Upper]), by simp⟩, rfl⟩

theorem currency (x y : Nat) (r : List Ranged) : CurrencyP (⟨.currency ['A'], x, y⟩ :: r) r ['A'] :=
  ⟨word _ _ _ _, .inl ⟨'A', rfl, by simp [Upper]⟩⟩

theorem open_directive : DirectiveP cfg opts opening [] openDirective [.duplicate .currency ['A'] ⟨7, 55, 56⟩] :=
  .other (keyword := .open) (es := [.duplicate .currency ['A'] ⟨7, 55, 56⟩]) (head := []) (lines := [])
    (at_one (word _ _ _ _)) (word _ _ _ _)
    (.open (cs := [⟨['A'], ⟨7, 57, 58⟩⟩, ⟨['A'], ⟨7, 55, 56⟩⟩]) (b := none) (at_one (account _))
      (.some (cs := [⟨['A'], ⟨7, 57, 58⟩⟩]) (at_one (currency _ _ _))
        (.cons ⟨_, word _ _ _ _, at_one (currency _ _ _)⟩ .nil)) rfl)
    .nil (.inl (word _ _ _ _)) .nil (.inr ⟨rfl, rfl⟩)

theorem file : FileP cfg opts (tx ++ opening) declarations opts errors
    [longStringWarning opts 2 ⟨7, 16, 21⟩] :=
  .cons (es := [_]) (.directive (tx_directive _) (covers _ [_, _, _, _, _, _, _, _] _))
    (.cons (run := opening) (r := []) (es := [_]) (.directive open_directive (covers _ [_, _, _, _, _, _] _)) .nil)

theorem parsed : parseFile cfg (tx ++ opening) opts [] =
    some ⟨some declarations, errors, opts, [longStringWarning opts 2 ⟨7, 16, 21⟩]⟩ :=
  parseFile_complete [] file

theorem no_syntax : PErr.syntax ∉ errors := by simp [errors]

theorem ordered : Ordered (tx ++ opening) := by
  unfold Ordered
  decide

end Lima.Grammar.Sample
