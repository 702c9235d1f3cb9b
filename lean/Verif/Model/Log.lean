import Mathlib.Data.Nat.Digits.Defs

/-
Model of the message formatting in src/Log.h.  A string is a list of characters.
-/

namespace HL
namespace Log

/-- `std::to_string` of an unsigned integer: decimal digits. -/
def natText (n : Nat) : List Char := if n = 0 then ['0'] else ((Nat.digits 10 n).map Nat.digitChar).reverse

/-- Log.h:9-13, `to_string_impl` of an integer. -/
def intText (z : Int) : List Char := if z < 0 then '-' :: natText z.natAbs else natText z.natAbs

/-- Log.h:36-48, `to_string_impl` of a vector whose elements print as the given texts. -/
def vecText : List (List Char) → List Char
  | [] => ['[', ']']
  | x :: xs => '[' :: x ++ xs.flatMap (fun y => [',', ' '] ++ y) ++ [']']

/-- Log.h:55, `str.find("%%")`: the position of the first occurrence. -/
def find : List Char → Option Nat
  | [] => none
  | [_] => none
  | a :: b :: s => if a = '%' ∧ b = '%' then some 0 else (find (b :: s)).map (· + 1)

/-- Log.h:52-61, `operator%` with an argument that prints as `v`. -/
def subst (s v : List Char) : List Char :=
  match find s with
  | none => s
  | some i => s.take i ++ v ++ s.drop (i + 2)

/-- `s % v1 % v2 % ...` -/
def format (s : List Char) (args : List (List Char)) : List Char := args.foldl subst s

end Log
end HL
