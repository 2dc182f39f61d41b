import Verif.Model.Arr
import Verif.Model.CuttingPlane

/-! # Model of `src/oracles/svm_oracle.rs` -/

namespace Ellalgo
variable {α : Type} [Scalar α]

/-- `SvmOracle` (svm_oracle.rs:4-8) -/
structure SvmOracle (α : Type) where
  data : Arr α
  labels : List Int
  nfeat : Nat

omit [Scalar α] in
/-- `SvmOracle::new` (svm_oracle.rs:11-18) -/
def SvmOracle.new (data : Arr α) (labels : List Int) : SvmOracle α := ⟨data, labels, data.cols⟩

/-- the search for the smallest margin (svm_oracle.rs:29-40).  `min_val` starts at `f64::INFINITY`, here `none`. -/
def SvmOracle.search (o : SvmOracle α) (w : Arr α) (b : α) : Res (Option α × Nat) :=
  forRange 0 o.data.rows (none, 0) fun i (minVal, minIdx) => do
    let y ← Res.ofOption o.labels[i]?
    let xi ← o.data.row i
    let d ← w.dot xi
    let margin := Scalar.ofInt y * (d + b)
    let smaller := match minVal with
      | none => Scalar.ltInf margin
      | some m => Scalar.lt margin m
    if smaller then .ok (some margin, i) else .ok (minVal, minIdx)

/-- `SvmOracle::assess_optim` (svm_oracle.rs:24-59); `gamma` is only written -/
def SvmOracle.assess (o : SvmOracle α) (xc : Arr α) (_gamma : α) :
    Res (((Arr α × SingleCut α) × Bool) × α × SvmOracle α) := do
  let n := o.nfeat
  let wd ← (List.range n).mapM fun i => xc.idx i
  let w : Arr α := ⟨wd, n, 0⟩
  let b ← xc.idx n
  let (minVal, minIdx) ← o.search w b
  match minVal with
  | none => .ok (((Arr.new (n + 1), ⟨0⟩), true), 0, o)
  | some m =>
    if Scalar.ge m 1 then .ok (((Arr.new (n + 1), ⟨0⟩), true), 0, o)
    else do
      let y ← Res.ofOption o.labels[minIdx]?
      let xi ← o.data.row minIdx
      let yi : α := Scalar.ofInt y
      let grad := Arr.ofList (xi.data.map (fun x => -yi * x) ++ [-yi])
      .ok (((grad, ⟨m⟩), true), m, o)

/-- as a trait object (svm_oracle.rs:21-59) -/
def SvmOracle.oracle : OracleOptim (SvmOracle α) (Arr α) (SingleCut α) α := ⟨SvmOracle.assess⟩

end Ellalgo
