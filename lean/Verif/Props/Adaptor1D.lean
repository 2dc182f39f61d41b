import Verif.Props.AdaptorEll
import Verif.Model.Ell1D
import Verif.Model.Lowpass

/-! C101 and C130 for `BSearchAdaptor`: what a probe does to an interval, and that a low-pass oracle ignores the level. -/

namespace Ellalgo
variable {Ω α S : Type} [Scalar α]

/-- **C101** (`set_xc`)  A probe of the binary search over an interval: its radius stays, and its centre becomes the point found (or stays, if none
was found). -/
theorem C101_adaptor (orc : OracleFeas Ω α α α) (a a' : BSearchAdaptor Ω (Ell1D α × α) α) (gamma : α) (b : Bool)
    (h : BSearchAdaptor.assessBs orc Ell1D.space a gamma = .ok (b, a')) :
    a'.space.1.r = a.space.1.r ∧ a'.space.2 = a.space.2 ∧ (b = false → a'.space.1.xc = a.space.1.xc) ∧
    (b = true → ∃ w k w' s', orc.update a.omega gamma = .ok w ∧
      cuttingPlaneFeas orc Ell1D.space w a.space a.options = .ok ((some a'.space.1.xc, k), w', s')) := by
  obtain ⟨w, r, k, w', s', hw, hf, rfl, -, -, h1, h2⟩ := (C05_assessBs_iff _ _ _ _ _ _).1 h
  cases r with
  | none => rw [h2 rfl]; simp
  | some x => rw [h1 x rfl]; exact ⟨rfl, rfl, by simp, fun _ => ⟨w, k, w', s', hw, hf⟩⟩

/-- **C130** (`update`)  `LowpassOracle` ignores the level that `BSearchAdaptor` hands it, in any arithmetic: a probe at any level is a plain run of
`cutting_plane_feas` with the oracle as it is, so all levels get the same answer. -/
theorem C130_level_ignored (sp : Space S (Arr α) (ParallelCut α) α) (a : BSearchAdaptor (LowpassOracle α) S α) (γ : α) :
    BSearchAdaptor.assessBs LowpassOracle.oracleFeas sp a γ =
      (cuttingPlaneFeas LowpassOracle.oracleFeas sp a.omega a.space a.options >>= fun r => match r.1.1 with
        | some x => .ok (true, { a with omega := r.2.1, space := sp.setXc a.space x })
        | none => .ok (false, { a with omega := r.2.1 })) := by
  unfold BSearchAdaptor.assessBs
  have h : LowpassOracle.oracleFeas.update a.omega γ = .ok a.omega := rfl
  rw [h, Res.ok_bind]
  cases cuttingPlaneFeas LowpassOracle.oracleFeas sp a.omega a.space a.options with
  | panic => rfl
  | ok r =>
    obtain ⟨⟨x, k⟩, w, s⟩ := r
    cases x <;> rfl

section Example
open Toy

/-- accepts a level that is at least the centre, otherwise asks for `x ≤ xc - 2` -/
def adaptorEx1D : OracleFeas Int Int Int Int where
  assess t x := .ok (if x ≤ t then none else some (1, 2), t)
  update _ g := .ok g

/-- C101: a probe of `[0, 8]` at level 3, which moves the centre from 4 to 1, and one at level -9, which is refused -/
example :
    (match BSearchAdaptor.assessBs adaptorEx1D Ell1D.space ⟨0, (Ell1D.new 0 8, 0), ⟨10, 0⟩⟩ 3 with
      | .ok (b, a') => b && a'.space.1.xc == 1 && a'.space.1.r == 4 | _ => false) = true ∧
    (match BSearchAdaptor.assessBs adaptorEx1D Ell1D.space ⟨0, (Ell1D.new 0 8, 0), ⟨10, 0⟩⟩ (-9) with
      | .ok (b, a') => !b && a'.space.1.xc == 4 && a'.space.1.r == 4 | _ => false) = true := by
  decide

/-- C130: probes at two levels get the same answer -/
example (sp : Space S (Arr α) (ParallelCut α) α) (a : BSearchAdaptor (LowpassOracle α) S α) :
    BSearchAdaptor.assessBs LowpassOracle.oracleFeas sp a (nat 5) = BSearchAdaptor.assessBs LowpassOracle.oracleFeas sp a 0 := by
  rw [C130_level_ignored, C130_level_ignored]

end Example
end Ellalgo
