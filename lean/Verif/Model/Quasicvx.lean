import Verif.Model.RoundRobin

/-! # Model of `src/quasicvx.rs` -/

namespace Ellalgo
variable {α : Type} [Scalar α]

/-- `quasicvx::MyOracle` (quasicvx.rs:6-8) -/
structure QcvxOracle where
  idx : Int

/-- `MyOracle::default` (quasicvx.rs:10-14) -/
def QcvxOracle.default : QcvxOracle := ⟨-1⟩

/-- one round of the loop (quasicvx.rs:31-50) -/
def qcvxBody (sqrtx logy gamma : α) (idx : Int) (_ : Unit) : Res (Option (Arr α × SingleCut α) × Unit) :=
  if idx = 0 then
    let f := sqrtx * sqrtx - logy
    if Scalar.gt f 0 then .ok (some (Arr.ofList [nat 2 * sqrtx, -1], ⟨f⟩), ()) else .ok (none, ())
  else if idx = 1 then
    let f := -sqrtx + gamma * Scalar.exp logy
    if Scalar.gt f 0 then .ok (some (Arr.ofList [-1, gamma * Scalar.exp logy], ⟨f⟩), ()) else .ok (none, ())
  else .panic

/-- `MyOracle::assess_optim` (quasicvx.rs:19-54) -/
def QcvxOracle.assess (o : QcvxOracle) (xc : Arr α) (gamma : α) :
    Res (((Arr α × SingleCut α) × Bool) × α × QcvxOracle) := do
  let sqrtx ← xc.idx 0
  let logy ← xc.idx 1
  let (r, idx, _) ← rrLoop 0 2 (qcvxBody sqrtx logy gamma) 2 o.idx ()
  match r with
  | some cut => .ok ((cut, false), gamma, ⟨idx⟩)
  | none => .ok (((Arr.ofList [-1, sqrtx], ⟨0⟩), true), sqrtx / Scalar.exp logy, ⟨idx⟩)

/-- as a trait object (quasicvx.rs:16-51) -/
def QcvxOracle.oracle : OracleOptim QcvxOracle (Arr α) (SingleCut α) α := ⟨QcvxOracle.assess⟩

end Ellalgo
