import Verif.Model.Examples

/-! # Models of the oracles in `tests/cutting_plane_tests.rs` -/

namespace Ellalgo
variable {α : Type} [Scalar α]

/-- `MyOracleFeas::assess_feas` (tests/cutting_plane_tests.rs:18-27); `MyOracleFeas2` (:340-349) has the same code -/
def cptFeasAssess (o : Unit) (xc : Arr α) : Res (Option (Arr α × SingleCut α) × Unit) := do
  let x ← xc.idx 0
  let y ← xc.idx 1
  let fj := x + y - nat 3
  if Scalar.gt fj 0 then .ok (some (Arr.ofList [1, 1], ⟨fj⟩), o) else .ok (none, o)

/-- `MyOracleFeas` / `MyOracleFeas2` as trait objects; `update` is the trait's default, which does nothing
(cutting_plane.rs:123-125) -/
def cptFeas : OracleFeas Unit (Arr α) (SingleCut α) α := ⟨cptFeasAssess, fun o _ => .ok o⟩

/-- `MyOracleInfeas` (tests/cutting_plane_tests.rs:39-41): always the cut `((1, 1), SingleCut(1.0))` -/
def cptInfeas : OracleFeas Unit (Arr α) (SingleCut α) α :=
  ⟨fun o _ => .ok (some (Arr.ofList [1, 1], ⟨1⟩), o), fun o _ => .ok o⟩

/-- `MyOracleOptim::assess_optim` (tests/cutting_plane_tests.rs:53-71); `gamma` is only read -/
def cptOptimAssess (o : Unit) (xc : Arr α) (gamma : α) : Res (((Arr α × SingleCut α) × Bool) × α × Unit) := do
  let x ← xc.idx 0
  let y ← xc.idx 1
  let f0 := x + y
  let f1 := x - 1
  if Scalar.gt f1 0 then .ok (((Arr.ofList [1, 0], ⟨f1⟩), false), gamma, o)
  else
    let f2 := y - 1
    if Scalar.gt f2 0 then .ok (((Arr.ofList [0, 1], ⟨f2⟩), false), gamma, o)
    else
      let f3 := f0 - gamma
      if Scalar.lt f3 0 then .ok (((Arr.ofList [-1, -1], ⟨-f3⟩), false), gamma, o)
      else .ok (((Arr.ofList [-1, -1], ⟨0⟩), true), gamma, o)

/-- `MyOracleOptim` as a trait object (cutting_plane_tests.rs:50-72) -/
def cptOptim : OracleOptim Unit (Arr α) (SingleCut α) α := ⟨cptOptimAssess⟩

/-- `MyOracleOptim2` (tests/cutting_plane_tests.rs:95-97): always the cut `((1, 1), SingleCut(1.0))`, no improvement -/
def cptOptim2 : OracleOptim Unit (Arr α) (SingleCut α) α :=
  ⟨fun o _ gamma => .ok (((Arr.ofList [1, 1], ⟨1⟩), false), gamma, o)⟩

/-- `MyOracleOptimQ2` (tests/cutting_plane_tests.rs:109-121) -/
def cptOptimQ2 : OracleOptimQ Unit (Arr α) (SingleCut α) α :=
  ⟨fun o xc gamma _ => .ok (((Arr.ofList [1, 1], ⟨1⟩), false, xc, true), gamma, o)⟩

/-- `MyOracleOptimQ3::assess_optim_q` (tests/cutting_plane_tests.rs:199-272) -/
def cptOptimQ3Assess (o : Unit) (xc : Arr α) (gamma : α) (retry : Bool) :
    Res (((Arr α × SingleCut α) × Bool × Arr α × Bool) × α × Unit) := do
  let x ← xc.idx 0
  let y ← xc.idx 1
  let f0 := x + y
  let f1 := x - 1
  if Scalar.gt f1 0 then .ok (((Arr.ofList [1, 0], ⟨f1⟩), false, xc, true), gamma, o)
  else
    let f2 := y - 1
    if Scalar.gt f2 0 then .ok (((Arr.ofList [0, 1], ⟨f2⟩), false, xc, true), gamma, o)
    else
      let f3 := f0 - gamma
      if Scalar.lt f3 0 then .ok (((Arr.ofList [-1, -1], ⟨-f3⟩), false, xc, true), gamma, o)
      else
        let xq0 := Scalar.round x
        let xq1 := Scalar.round y
        let xq : Arr α := Arr.ofList [xq0, xq1]
        let f1q := xq0 - 1
        if Scalar.gt f1q 0 then .ok (((Arr.ofList [1, 0], ⟨f1q⟩), false, xq, !retry), gamma, o)
        else
          let f2q := xq1 - 1
          if Scalar.gt f2q 0 then .ok (((Arr.ofList [0, 1], ⟨f2q⟩), false, xq, !retry), gamma, o)
          else
            let f3q := xq0 + xq1 - gamma
            if Scalar.lt f3q 0 then .ok (((Arr.ofList [-1, -1], ⟨-f3q⟩), false, xq, !retry), gamma, o)
            else .ok (((Arr.ofList [-1, -1], ⟨0⟩), true, xq, !retry), xq0 + xq1, o)

/-- `MyOracleOptimQ3` as a trait object (cutting_plane_tests.rs:196-273) -/
def cptOptimQ3 : OracleOptimQ Unit (Arr α) (SingleCut α) α := ⟨cptOptimQ3Assess⟩

/-- `MyOracleBS2` (tests/cutting_plane_tests.rs:81-83), and the `OracleBS` of `MyOracleFeas2` (:353-355) -/
def cptBS : OracleBS Unit α := ⟨fun o gamma => .ok (Scalar.gt gamma 0, o)⟩

end Ellalgo
