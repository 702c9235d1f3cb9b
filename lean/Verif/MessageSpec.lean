import Mathlib.Data.Rat.Defs
import Mathlib.Algebra.Field.Rat

/-
Reading numbers from the text of a message.
-/

namespace HL

/-- the value of a decimal digit -/
def digitVal (c : Char) : Nat := c.toNat - 48

/-- the value of a decimal numeral -/
def readNat (t : List Char) : Nat := t.foldl (fun n c => 10 * n + digitVal c) 0

/-- the value of a decimal numeral with an optional minus sign -/
def readInt (t : List Char) : Int := if t.head? = some '-' then -(readNat t.tail : Int) else readNat t

/-- the value of a decimal fraction without sign: the digits before the point and those after it -/
def readFraction (t : List Char) : ℚ :=
  readNat (t.takeWhile (· ≠ '.')) + (readNat (t.dropWhile (· ≠ '.')).tail : ℚ) / 10 ^ (t.dropWhile (· ≠ '.')).tail.length

/-- the value of a decimal fraction with an optional minus sign -/
def readFixed (t : List Char) : ℚ := if t.head? = some '-' then -readFraction t.tail else readFraction t

end HL
