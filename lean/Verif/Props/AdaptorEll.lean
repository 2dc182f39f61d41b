import Verif.Props.Loops
import Verif.Model.Ell
import Verif.Model.EllStable
import Verif.Lib.Toy

/-! C05 for the two search spaces of the crate: what a probe of the binary search leaves behind. -/

namespace Ellalgo
variable {Ω T α : Type} [Scalar α] [CutType T α]

/-- **C05** for `Ell`: after `assess_bs` the adaptor's ellipsoid has the point found as its centre (or its
old centre, if none was found); its matrix, `kappa`, `tsq` and flags are those it had before. -/
theorem C05_adaptor_ell (orc : OracleFeas Ω (Arr α) T α) (a a' : BSearchAdaptor Ω (Ell α) α) (gamma : α)
    (b : Bool) (h : BSearchAdaptor.assessBs orc Ell.space a gamma = .ok (b, a')) :
    a'.space.mq = a.space.mq ∧ a'.space.kappa = a.space.kappa ∧ a'.space.tsq = a.space.tsq ∧
    a'.space.helper = a.space.helper ∧ a'.space.noDeferTrick = a.space.noDeferTrick ∧
    (b = false → a'.space.xc = a.space.xc) ∧
    (b = true → ∃ w k w' s', orc.update a.omega gamma = .ok w ∧
      cuttingPlaneFeas orc Ell.space w a.space a.options = .ok ((some a'.space.xc, k), w', s')) := by
  obtain ⟨w, r, k, w', s', hw, hf, rfl, -, -, h1, h2⟩ := (C05_assessBs_iff _ _ _ _ _ _).1 h
  cases r with
  | none => rw [h2 rfl]; simp
  | some x => rw [h1 x rfl]; exact ⟨rfl, rfl, rfl, rfl, rfl, by simp, fun _ => ⟨w, k, w', s', hw, hf⟩⟩

/-- **C05** for `EllStable`, likewise. -/
theorem C05_adaptor_ell_stable (orc : OracleFeas Ω (Arr α) T α) (a a' : BSearchAdaptor Ω (EllStable α) α)
    (gamma : α) (b : Bool) (h : BSearchAdaptor.assessBs orc EllStable.space a gamma = .ok (b, a')) :
    a'.space.mq = a.space.mq ∧ a'.space.kappa = a.space.kappa ∧ a'.space.tsq = a.space.tsq ∧
    a'.space.helper = a.space.helper ∧
    (b = false → a'.space.xc = a.space.xc) ∧
    (b = true → ∃ w k w' s', orc.update a.omega gamma = .ok w ∧
      cuttingPlaneFeas orc EllStable.space w a.space a.options = .ok ((some a'.space.xc, k), w', s')) := by
  obtain ⟨w, r, k, w', s', hw, hf, rfl, -, -, h1, h2⟩ := (C05_assessBs_iff _ _ _ _ _ _).1 h
  cases r with
  | none => rw [h2 rfl]; simp
  | some x => rw [h1 x rfl]; exact ⟨rfl, rfl, rfl, rfl, by simp, fun _ => ⟨w, k, w', s', hw, hf⟩⟩

section Example
open Toy

/-- accepts when the level is positive, otherwise asks for `x₀ ≤ xc₀ - 10` -/
def adaptorExOracle : OracleFeas Int (Arr Int) (SingleCut Int) Int where
  assess t _ := .ok (if 0 < t then none else some (Arr.ofList [1, 0], ⟨10⟩), t)
  update _ g := .ok g

/-- A probe that is accepted and one that is refused, on a two-dimensional ellipsoid. -/
example :
    (match BSearchAdaptor.assessBs adaptorExOracle Ell.space
        ⟨0, Ell.newWithMatrix 1 ⟨[1, 0, 0, 1], 2, 2⟩ (Arr.ofList [3, 4]), ⟨10, 0⟩⟩ 1 with
      | .ok (b, a') => b && a'.space.xc.data == [3, 4] | _ => false) = true ∧
    (match BSearchAdaptor.assessBs adaptorExOracle Ell.space
        ⟨0, Ell.newWithMatrix 1 ⟨[1, 0, 0, 1], 2, 2⟩ (Arr.ofList [3, 4]), ⟨10, 0⟩⟩ 0 with
      | .ok (b, a') => !b && a'.space.xc.data == [3, 4] | _ => false) = true ∧
    (match BSearchAdaptor.assessBs adaptorExOracle EllStable.space
        ⟨0, EllStable.newWithMatrix 1 ⟨[1, 0, 0, 1], 2, 2⟩ (Arr.ofList [3, 4]), ⟨10, 0⟩⟩ 0 with
      | .ok (b, a') => !b && a'.space.xc.data == [3, 4] | _ => false) = true := by
  decide +kernel

end Example

end Ellalgo
