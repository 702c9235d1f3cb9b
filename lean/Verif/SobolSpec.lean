import Verif.Model.SobolData

/-
What a Sobol sequence is: direction numbers and points, stated without reference to how the code
generates them.  (The tables are data of the code base and are shared.)
-/

namespace HL

/-- `f 0 xor f 1 xor ... xor f (k-1)`. -/
def xorSum (f : Nat → BitVec 32) : Nat → BitVec 32
  | 0 => 0
  | k + 1 => xorSum f k ^^^ f k

/-- `m 0, m 1, ..., m 31` are the direction numbers of coordinate `i`: all 1 for the first coordinate; for
coordinate `i + 1`, whose polynomial `a` has degree `d`, the first `d` come from the table and the others
satisfy `m_j = m_(j-d) xor XOR_{k<d} a_k 2^(d-k) m_(j-d+k)`. -/
def IsDirection (i : Nat) (m : Nat → BitVec 32) : Prop :=
  match i with
  | 0 => ∀ j < 32, m j = 1
  | i + 1 =>
    let a := sobolA.getD i 0
    let d := Nat.log2 a
    (∀ j < d, m j = BitVec.ofNat 32 ((sobolMinit.getD j []).getD i 0)) ∧
    ∀ j < 32, d ≤ j → m j = m (j - d) ^^^
      xorSum (fun k => if a.testBit k then m (j - d + k) <<< (d - k) else 0) d

/-- The Gray code of `n`. -/
def gray (n : Nat) : Nat := n ^^^ (n >>> 1)

/-- The `n`-th value of the coordinate with direction numbers `m`, in units of 2^-32: the XOR of the
direction numbers `m_c`, placed with their last bit at position 2^-(c+1), over the bits `c` of the Gray
code of `n`. -/
def sobolValue (m : Nat → BitVec 32) (n : Nat) : BitVec 32 :=
  xorSum (fun c => if (gray n).testBit c then m c <<< (31 - c) else 0) 32

/-- `p` is the point number `n` of the `dim`-dimensional sequence -/
def PointAt (dim n : Nat) (p : List (BitVec 32)) : Prop :=
  p.length = dim ∧ ∀ i < dim, ∀ m, IsDirection i m → p.getD i 0 = sobolValue m n

/-- The degree of the polynomial of coordinate `i` (1 for the first coordinate, whose polynomial is `x`). -/
def coordDegree (i : Nat) : Nat := if i = 0 then 1 else Nat.log2 (sobolA.getD (i - 1) 0)

end HL
