import Verif.Model.Ldlt
import Verif.Spec.Mat
import Mathlib.LinearAlgebra.Matrix.PosDef

/-! Specification side of the LDLᵀ properties. -/

namespace Ellalgo

/-- the symmetric matrix whose lower triangle is `A` (`A i j` with `j ≤ i`) -/
def lowerSym (n : Nat) (A : Nat → Nat → ℝ) : Matrix (Fin n) (Fin n) ℝ :=
  Matrix.of fun i j => if j ≤ i then A i j else A j i

/-- A manager of dimension `n`, in any state: buffers of the right sizes, arbitrary contents. -/
def LDLTMgr.Ready (m : LDLTMgr ℝ) (n : Nat) : Prop :=
  m.ndim = n ∧ m.storage.IsMatShape n n ∧ m.wit.IsVecShape n

/-- the public `wit` buffer, restricted to the public range `pos.0..pos.1` (zero elsewhere) -/
def LDLTMgr.witVec (n : Nat) (m : LDLTMgr ℝ) : Fin n → ℝ :=
  fun i => if m.pos.1 ≤ (i : Nat) ∧ (i : Nat) < m.pos.2 then m.wit.vec i else 0

end Ellalgo
