import Verif.Spec.Mat

/-! Cuts of weighted graphs, in textbook form. -/

namespace Ellalgo
open Matrix

/-- the side of the partition on which a vector puts vertex `i` -/
def onLeft {n : Nat} (x : Fin n → ℝ) (i : Fin n) : Prop := 0 ≤ x i

open Classical in
/-- total weight of the edges `{i, j}`, `i < j`, that cross the partition -/
noncomputable def cutWeight {n : Nat} (W : Matrix (Fin n) (Fin n) ℝ) (x : Fin n → ℝ) : ℝ :=
  ∑ i, ∑ j, if i < j ∧ ¬(onLeft x i ↔ onLeft x j) then W i j else 0

open Classical in
/-- weight of the edges crossing the partition at vertex `i` -/
noncomputable def crossingAt {n : Nat} (W : Matrix (Fin n) (Fin n) ℝ) (x : Fin n → ℝ) (i : Fin n) : ℝ :=
  ∑ j, if ¬(onLeft x i ↔ onLeft x j) then W i j else 0

end Ellalgo
