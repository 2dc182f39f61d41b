import Verif.Model.Ldlt
import Verif.Model.CuttingPlane

/-! # Model of `src/oracles/lmi_oracle.rs`, `lmi_old_oracle.rs`, `lmi0_oracle.rs` -/

namespace Ellalgo
variable {α : Type} [Scalar α]

/-- `LMIOracle` (lmi_oracle.rs:5-9) and `LMIOldOracle` (lmi_old_oracle.rs:5-9) have the same fields -/
structure LMIOracle (α : Type) where
  matF : List (Arr α)
  matB : Arr α
  mgr : LDLTMgr α

/-- `mat_f[k]` (lmi_oracle.rs:31, 41; lmi_old_oracle.rs:35, 46; lmi0_oracle.rs:21, 31) -/
def nthMat (fs : List (Arr α)) (k : Nat) : Res (Arr α) := Res.ofOption fs[k]?

/-- `LMIOracle::new` (lmi_oracle.rs:12-20), `LMIOldOracle::new` (lmi_old_oracle.rs:12-20) -/
def LMIOracle.new (matF : List (Arr α)) (matB : Arr α) : LMIOracle α := ⟨matF, matB, LDLTMgr.new matB.rows⟩

/-- the closure `|i, j| B[i,j] - sum_k F_k[i,j] x[k]` (lmi_oracle.rs:28-34) -/
def LMIOracle.elem (o : LMIOracle α) (x : Arr α) (i j : Nat) : Res α := do
  let s ← o.matB.get i j
  forRange 0 x.len s fun k s => do
    let f ← nthMat o.matF k
    let fij ← f.get i j
    let xk ← x.idx k
    .ok (s - fij * xk)

/-- `g[k] = sym_quad(F_k)` for all `k`, in a fresh vector (lmi_oracle.rs:39-42, lmi_old_oracle.rs:44-47) -/
def lmiGrad (mgr : LDLTMgr α) (matF : List (Arr α)) (n : Nat) : Res (Arr α) :=
  forRange 0 n (Arr.new n) fun k g => do
    let f ← nthMat matF k
    let v ← mgr.symQuad f
    g.setIdx k v

/-- `LMIOracle::assess_feas` (lmi_oracle.rs:26-44) -/
def LMIOracle.assess (o : LMIOracle α) (x : Arr α) :
    Res (Option (Arr α × SingleCut α) × LMIOracle α) := do
  let (feas, mgr) ← o.mgr.factor (o.elem x)
  if feas then .ok (none, { o with mgr := mgr })
  else do
    let (ep, mgr) ← mgr.witness
    let g ← lmiGrad mgr o.matF x.len
    .ok (some (g, ⟨ep⟩), { o with mgr := mgr })

/-- `LMIOracle` as a feasibility oracle; `update` is the trait's default (cutting_plane.rs:125: does nothing) -/
def LMIOracle.oracle : OracleFeas (LMIOracle α) (Arr α) (SingleCut α) α := ⟨LMIOracle.assess, fun o _ => .ok o⟩

/-- the matrix `B - sum_k x_k F_k` built eagerly (lmi_old_oracle.rs:28-39) -/
def LMIOracle.buildOld (o : LMIOracle α) (x : Arr α) : Res (Arr α) := do
  let ndim := o.matB.rows
  forRange 0 x.len o.matB fun k a => do
    let xk ← x.idx k
    forRange 0 ndim a fun i a =>
      forRange 0 ndim a fun j a => do
        let old ← a.get i j
        let f ← nthMat o.matF k
        let fij ← f.get i j
        a.set i j (old - fij * xk)

/-- `LMIOldOracle::assess_feas` (lmi_old_oracle.rs:26-49) -/
def LMIOracle.assessOld (o : LMIOracle α) (x : Arr α) :
    Res (Option (Arr α × SingleCut α) × LMIOracle α) := do
  let a ← o.buildOld x
  let (feas, mgr) ← o.mgr.factorize a
  if feas then .ok (none, { o with mgr := mgr })
  else do
    let (ep, mgr) ← mgr.witness
    let g ← lmiGrad mgr o.matF x.len
    .ok (some (g, ⟨ep⟩), { o with mgr := mgr })

/-- `LMIOldOracle` as a feasibility oracle (lmi_old_oracle.rs:23-50) -/
def LMIOracle.oracleOld : OracleFeas (LMIOracle α) (Arr α) (SingleCut α) α :=
  ⟨LMIOracle.assessOld, fun o _ => .ok o⟩

/-- `LMI0Oracle` (lmi0_oracle.rs:4-7) -/
structure LMI0Oracle (α : Type) where
  matF : List (Arr α)
  mgr : LDLTMgr α

/-- `LMI0Oracle::new` (lmi0_oracle.rs:10-14); panics on an empty list -/
def LMI0Oracle.new (matF : List (Arr α)) : Res (LMI0Oracle α) := do
  let f0 ← nthMat matF 0
  .ok ⟨matF, LDLTMgr.new f0.rows⟩

/-- the closure `|i, j| sum_k F_k[i,j] x[k]` (lmi0_oracle.rs:18-24) -/
def LMI0Oracle.elem (o : LMI0Oracle α) (x : Arr α) (i j : Nat) : Res α :=
  forRange 0 x.len (0 : α) fun k s => do
    let f ← nthMat o.matF k
    let fij ← f.get i j
    let xk ← x.idx k
    .ok (s + fij * xk)

/-- `g[k] = -sym_quad(F_k)` (lmi0_oracle.rs:29-32) -/
def lmi0Grad (mgr : LDLTMgr α) (matF : List (Arr α)) (n : Nat) : Res (Arr α) :=
  forRange 0 n (Arr.new n) fun k g => do
    let f ← nthMat matF k
    let v ← mgr.symQuad f
    g.setIdx k (-v)

/-- `LMI0Oracle::assess_feas` (lmi0_oracle.rs:16-34); returns a bare `f64` instead of a `SingleCut` -/
def LMI0Oracle.assess (o : LMI0Oracle α) (x : Arr α) : Res (Option (Arr α × α) × LMI0Oracle α) := do
  let (feas, mgr) ← o.mgr.factor (o.elem x)
  if feas then .ok (none, { o with mgr := mgr })
  else do
    let (ep, mgr) ← mgr.witness
    let g ← lmi0Grad mgr o.matF x.len
    .ok (some (g, ep), { o with mgr := mgr })

end Ellalgo
