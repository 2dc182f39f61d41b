import Verif.Spec.Ellipsoid

/-!
# Rounded arithmetic

The theorems over `ℝ` say what the program does in exact arithmetic.  Here the same model is run in an
arithmetic that rounds every single operation, the way `f64` does.  `Rounding u` is the standard model
of floating-point rounding with unit roundoff `u` (for `f64`, `u = 2⁻⁵³`): a monotone projection with
relative error at most `u` that commutes with doubling (the radix is two).  Overflow, underflow and NaN
are not modelled: the exponent range is unbounded.
-/

namespace Ellalgo
open Matrix

/-- Round-to-nearest style rounding in radix two with relative error at most `u`. -/
structure Rounding (u : ℝ) where
  rnd : ℝ → ℝ
  err : ∀ x, |rnd x - x| ≤ u * |x|
  mono : ∀ x y, x ≤ y → rnd x ≤ rnd y
  idem : ∀ x, rnd (rnd x) = rnd x
  double : ∀ x, rnd (2 * x) = 2 * rnd x
  one : rnd 1 = 1

variable {u : ℝ}

/-- A number computed with rounding `R`; `val` is the real number it stands for. -/
@[ext] structure Fl (R : Rounding u) where
  val : ℝ

/-- every operation is the exact one followed by a rounding; comparisons are exact -/
noncomputable instance instScalarFl (R : Rounding u) : Scalar (Fl R) where
  add x y := ⟨R.rnd (x.val + y.val)⟩
  sub x y := ⟨R.rnd (x.val - y.val)⟩
  mul x y := ⟨R.rnd (x.val * y.val)⟩
  div x y := ⟨R.rnd (x.val / y.val)⟩
  neg x := ⟨-x.val⟩
  zero := ⟨0⟩
  one := ⟨1⟩
  natCast k := ⟨R.rnd (k : ℝ)⟩
  sqrt x := ⟨R.rnd (Real.sqrt x.val)⟩
  exp x := ⟨R.rnd (Real.exp x.val)⟩
  ln x := ⟨R.rnd (Real.log x.val)⟩
  cos x := ⟨R.rnd (Real.cos x.val)⟩
  abs x := ⟨|x.val|⟩
  round x := ⟨Scalar.round x.val⟩
  log10 x := ⟨R.rnd (Real.logb 10 x.val)⟩
  powf x y := ⟨R.rnd (x.val ^ y.val)⟩
  pi := ⟨R.rnd Real.pi⟩
  dec m e := ⟨R.rnd (Scalar.dec m e)⟩
  toUsize x := Scalar.toUsize x.val
  floorI32 x := Scalar.floorI32 x.val
  ofInt k := ⟨R.rnd (k : ℝ)⟩
  ltInf _ := true
  gtNegInf _ := true
  lt a b := decide (a.val < b.val)
  le a b := decide (a.val ≤ b.val)
  beq a b := decide (a.val = b.val)

/-- a real number that rounding leaves alone: a floating-point number -/
def Rounding.Rep (R : Rounding u) (x : ℝ) : Prop := R.rnd x = x

/-- the real matrix a rounded array stands for -/
noncomputable def Arr.flMat {R : Rounding u} (a : Arr (Fl R)) (n : Nat) : Matrix (Fin n) (Fin n) ℝ :=
  fun i j => (a.mat i j).val
/-- the real vector a rounded array stands for -/
noncomputable def Arr.flVec {R : Rounding u} (a : Arr (Fl R)) (n : Nat) : Fin n → ℝ := fun i => (a.vec i).val

/-- `|g|ᵀ |M| |g|`: the size of the terms that make up `gᵀ M g` -/
def absQuad {n : Nat} (M : Matrix (Fin n) (Fin n) ℝ) (g : Fin n → ℝ) : ℝ :=
  ∑ i, ∑ j, |g i| * |M i j| * |g j|

end Ellalgo
