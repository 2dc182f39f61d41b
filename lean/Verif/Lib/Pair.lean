import Verif.Lib.VecOps
import Verif.Lib.RoundRobinLemmas

/-! Two-dimensional arrays given by literals. -/

namespace Ellalgo
open Matrix

theorem rv_pair (a b : ℝ) : RV (Arr.ofList [a, b]) ![a, b] := by
  refine ⟨⟨rfl, rfl, rfl⟩, ?_⟩
  funext i
  fin_cases i <;> rfl

theorem pair_toVec (a b : ℝ) : (Arr.ofList [a, b]).toVec 2 = ![a, b] := (rv_pair a b).2
theorem pair_shape (a b : ℝ) : (Arr.ofList [a, b]).IsVecShape 2 := (rv_pair a b).1

theorem idx_pair {x : Arr ℝ} (hx : x.IsVecShape 2) : x.idx 0 = .ok (x.toVec 2 0) ∧ x.idx 1 = .ok (x.toVec 2 1) :=
  ⟨RV.idx (⟨hx, rfl⟩ : RV x (x.toVec 2)) 0, RV.idx (⟨hx, rfl⟩ : RV x (x.toVec 2)) 1⟩

theorem pair_dot (a b : ℝ) (v : Fin 2 → ℝ) : ![a, b] ⬝ᵥ v = a * v 0 + b * v 1 := by
  simp [dotProduct, Fin.sum_univ_two]

end Ellalgo
