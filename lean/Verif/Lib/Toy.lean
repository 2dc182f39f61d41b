import Verif.Model.Scalar
import Mathlib.Data.Rat.Cast.Defs

/-! A computable integer scalar used only in non-vacuity examples for the theorems that hold for every
scalar type (it satisfies no real-arithmetic law that matters). -/

namespace Ellalgo.Toy

/-- Integer "scalars" with truncating division; only for examples. -/
scoped instance : Scalar Int where
  sqrt x := (Nat.sqrt x.toNat : Int)
  exp x := x
  ln x := x
  cos x := x
  abs x := (x.natAbs : Int)
  round x := x
  log10 x := x
  powf x _ := x
  pi := 3
  dec m e := (m : Int) / 10 ^ e
  toUsize x := x.toNat
  floorI32 x := x
  ofInt k := k
  ltInf _ := true
  gtNegInf _ := true
  lt a b := decide (a < b)
  le a b := decide (a ≤ b)
  beq a b := decide (a = b)

/-- integer square root by search (reduces in the kernel) -/
def isqrt (n : Nat) : Nat := ((List.range (n + 1)).filter fun k => k * k ≤ n).length - 1

/-- rational scalars; `sqrt` is exact on squares of rationals -/
scoped instance instScalarRat : Scalar Rat where
  sqrt x := mkRat (isqrt x.num.toNat) (isqrt x.den)
  exp x := x
  ln x := x
  cos x := x
  abs x := if x < 0 then -x else x
  round x := x
  log10 x := x
  powf x _ := x
  pi := 3
  dec m e := mkRat m (10 ^ e)
  toUsize x := x.floor.toNat
  floorI32 x := x.floor
  ofInt k := (k : Rat)
  ltInf _ := true
  gtNegInf _ := true
  lt a b := decide (a < b)
  le a b := decide (a ≤ b)
  beq a b := decide (a = b)

end Ellalgo.Toy
