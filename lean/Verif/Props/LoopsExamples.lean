import Verif.Props.Loops
import Verif.Lib.Toy

/-! Non-vacuity of C01-C05: concrete runs of the loops in which every kind of outcome occurs.  The
search space is an integer interval `(centre, radius)`; a cut is a direction. -/

namespace Ellalgo.Toy

/-- toy space: state (centre, half width); a cut `(dir, depth)` moves by `dir` and halves the width -/
def sp : Space (Int × Int) Int Int Int where
  xc s := s.1
  tsq s := s.2
  updateBias s c := .ok (if s.2 < c.2 then .noSoln else .success, (s.1 + c.1, s.2 / 2))
  updateCentral s c := .ok (.success, (s.1 + c.1, s.2 / 2))
  updateQ s c := .ok (if s.2 < c.2 then .noEffect else .success, (s.1 + c.1, s.2 / 2))
  setXc s x := (x, s.2)

/-- toy oracle: accepts `x ≥ target`; the state is the target -/
def orc : OracleFeas Int Int Int Int where
  assess t x := .ok (if x < t then some (1, 0) else none, t)
  update _ g := .ok g

example : cuttingPlaneFeas orc sp 2 (0, 64) ⟨10, 1⟩ = .ok ((some 2, 2), 2, (2, 16)) := by decide +kernel
example : cuttingPlaneFeas orc sp 9 (0, 64) ⟨3, 1⟩ = .ok ((none, 3), 9, (3, 8)) := by decide +kernel
example : cuttingPlaneFeas orc sp 9 (0, 4) ⟨10, 2⟩ = .ok ((none, 1), 9, (2, 1)) := by decide +kernel
example : cuttingPlaneFeas orc.record sp (2, []) (0, 64) ⟨10, 1⟩ =
    .ok ((some 2, 2), (2, [0, 1, 2]), (2, 16)) := by decide +kernel
example : BSearchAdaptor.assessBs orc sp ⟨0, (0, 64), ⟨10, 1⟩⟩ 2 = .ok (true, ⟨2, (2, 64), ⟨10, 1⟩⟩) := by
  rfl

/-- toy optimisation oracle: maximise `x`, improvement whenever `x > gamma`, alternating steps -/
def oopt : OracleOptim Nat Int Int Int where
  assess k x g := .ok (((if k % 2 = 0 then 2 else -1, 0), decide (g < x)), (if g < x then x else g), k + 1)

example : (cuttingPlaneOptim oopt sp 0 (1, 1024) 0 ⟨4, 1⟩) = .ok ((some 4, 4), 4, 4, (3, 64)) := by
  decide +kernel

/-- toy quantised oracle -/
def oq : OracleOptimQ Nat Int Int Int where
  assess k x g retry := .ok (((1, if retry then 0 else 10), decide (g < x), x * 10, true),
    (if g < x then x else g), k + 1)

example : (cuttingPlaneOptimQ oq.record sp.recordQ (0, []) ((1, 9), []) 0 ⟨2, 1⟩ >>= fun r =>
    .ok (r.1, r.2.2.1.2.map (·.retry), r.2.2.2.2)) =
    .ok ((some 20, 2), [false, true], [.noEffect, .success]) := by decide +kernel

end Ellalgo.Toy
