/-! # The textual notation for the legs of a tensor

A leg is written as its name followed by its dimension, if given.  A name of one character may be written bare, longer
ones are put in braces; a dimension of one digit may be written bare, longer ones are put in braces; an unknown
dimension is written as nothing or as empty braces. -/

namespace CTL

inductive SizeText where
  | absent
  | emptyBraces
  | bare
  | braced
deriving DecidableEq, Repr

/-- A leg together with the way it is written. -/
structure LegText where
  name : List Char
  size : Option Nat
  nameBraces : Bool
  sizeText : SizeText
deriving DecidableEq, Repr

/-- The notation can express this leg in this way. -/
def LegText.Valid (x : LegText) : Prop :=
  (∃ c cs, x.name = c :: cs ∧ c.isDigit = false) ∧ '{' ∉ x.name ∧ '}' ∉ x.name ∧
  (x.nameBraces = false → x.name.length = 1) ∧
  (match x.sizeText with
    | .absent => x.size = none
    | .emptyBraces => x.size = none
    | .bare => ∃ d, x.size = some d ∧ d < 10
    | .braced => ∃ d, x.size = some d)

/-- How the leg is written; dimensions are in decimal. -/
def LegText.write (x : LegText) : List Char :=
  (if x.nameBraces then '{' :: x.name ++ ['}'] else x.name) ++
  (match x.sizeText with
    | .absent => []
    | .emptyBraces => ['{', '}']
    | .bare => Nat.toDigits 10 (x.size.getD 0)
    | .braced => '{' :: Nat.toDigits 10 (x.size.getD 0) ++ ['}'])

end CTL
