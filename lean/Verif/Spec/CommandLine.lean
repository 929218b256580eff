import Verif.Model.DaemonMain

/-!
# The daemon's command line, as documented by its option table

What a user asks for, the words that say so, and the settings that should result.
-/

namespace Mctp

/-- How an option with a value is written: `--name value`, `--name=value`, `-c value`, `-cvalue`. -/
inductive Form
  | long
  | longEq
  | short
  | shortJoined
  deriving DecidableEq, Repr

/-- What a user asks for. -/
inductive Ask
  | captureBinding (file : List Char)
  | captureSocket (file : List Char)
  | eid (n : Nat)
  | verbose
  deriving DecidableEq, Repr

/-- The option's names and value. -/
def Ask.spelling : Ask → List Char × Char × Option (List Char)
  | .captureBinding f => ("capture-binding".toList, 'b', some f)
  | .captureSocket f => ("capture-socket".toList, 's', some f)
  | .eid n => ("eid".toList, 'e', some (Nat.toDigits 10 n))
  | .verbose => ("verbose".toList, 'v', none)

/-- The words on the command line. -/
def Ask.words (a : Ask) (form : Form) : List (List Char) :=
  match a.spelling, form with
  | (name, _, some v), .long => ['-' :: '-' :: name, v]
  | (name, _, some v), .longEq => ['-' :: '-' :: (name ++ '=' :: v)]
  | (_, c, some v), .short => [['-', c], v]
  | (_, c, some v), .shortJoined => ['-' :: c :: v]
  | (name, _, none), .long => ['-' :: '-' :: name]
  | (name, _, none), .longEq => ['-' :: '-' :: name]
  | (_, c, none), .short => [['-', c]]
  | (_, c, none), .shortJoined => [['-', c]]

/-- What it means. -/
def Ask.apply (s : Settings) : Ask → Settings
  | .captureBinding f => { s with capBinding := some f }
  | .captureSocket f => { s with capSocket := some f }
  | .eid n => { s with localEid := n }
  | .verbose => { s with verbose := true }

/-- A word that does not look like an option. -/
def PlainWord (word : List Char) : Prop := word.head? ≠ some '-' 

/-- A command line: options, in any form, among words that are not options. -/
abbrev Item := (Ask × Form) ⊕ List Char

def Item.words : Item → List (List Char)
  | .inl (a, form) => a.words form
  | .inr word => [word]

def askedOf (items : List Item) : List Ask := items.filterMap fun i => match i with | .inl (a, _) => some a | .inr _ => none

def plainOf (items : List Item) : List (List Char) := items.filterMap fun i => match i with | .inl _ => none | .inr w => some w

end Mctp
