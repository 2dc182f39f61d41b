import Verif.Model.Ell
import Verif.Model.EllStable
import Verif.Model.Lmi
import Verif.Model.ConjGrad
import Verif.Model.PowerIter
import Verif.Model.Maxcut
import Verif.Model.Svm
import Verif.Model.Quasicvx
import Verif.Model.Profit
import Verif.Model.Lowpass
import Verif.Model.Examples
import Verif.Model.TestOracles

/-! # Sanity tests of the model, not proofs

The model run on IEEE doubles, against the numbers asserted by the repository's own unit tests.  No theorem
depends on this file. -/

namespace Ellalgo.FloatTests

/-- IEEE doubles.  The second field only keeps the compiler from unboxing the structure. -/
structure F64 where
  v : Float
  pad : Unit := ()

instance : OfScientific F64 := ⟨fun m s e => ⟨OfScientific.ofScientific m s e, ()⟩⟩
instance (n : Nat) : OfNat F64 n := ⟨⟨Float.ofNat n, ()⟩⟩

/-- the `f64` operations -/
instance : Scalar F64 where
  add a b := ⟨a.v + b.v, ()⟩
  sub a b := ⟨a.v - b.v, ()⟩
  mul a b := ⟨a.v * b.v, ()⟩
  div a b := ⟨a.v / b.v, ()⟩
  neg a := ⟨-a.v, ()⟩
  zero := ⟨0, ()⟩
  one := ⟨1, ()⟩
  natCast n := ⟨Float.ofNat n, ()⟩
  sqrt a := ⟨a.v.sqrt, ()⟩
  exp a := ⟨a.v.exp, ()⟩
  ln a := ⟨a.v.log, ()⟩
  cos a := ⟨a.v.cos, ()⟩
  abs a := ⟨a.v.abs, ()⟩
  round a := ⟨a.v.round, ()⟩
  log10 a := ⟨a.v.log10, ()⟩
  powf a b := ⟨a.v.pow b.v, ()⟩
  pi := ⟨3.14159265358979323846, ()⟩
  dec m e := ⟨OfScientific.ofScientific m true e, ()⟩
  toUsize a := a.v.toUInt64.toNat
  floorI32 a := a.v.floor.toInt64.toInt
  ofInt k := ⟨Float.ofInt k, ()⟩
  ltInf a := a.v < 1.0 / 0.0
  gtNegInf a := a.v > -1.0 / 0.0
  lt a b := a.v < b.v
  le a b := a.v ≤ b.v
  beq a b := a.v == b.v

def negInf : F64 := -1.0 / 0.0
def near (a b : F64) (eps : F64 := 1e-6) : Bool := Scalar.lt (Scalar.abs (a - b)) eps
/-- run a computation and test its value; a panic fails the test -/
def chk {β : Type} (r : Res β) (p : β → Bool) : Bool := match r with
  | .ok b => p b
  | .panic => false
def vec (l : List F64) : Arr F64 := Arr.ofList l
def mat (r c : Nat) (l : List F64) : Arr F64 := ⟨l, r, c⟩
def ellS (k : F64) (x : List F64) : Res (Ell F64) := Ell.newWithScalar k (vec x)
def ellD (v x : List F64) : Res (Ell F64) := Ell.new (vec v) (vec x)
def optim {Ω : Type} (orc : OracleOptim Ω (Arr F64) (SingleCut F64) F64) (w : Ω) (e : Res (Ell F64))
    (g tol : F64) (iters : Nat := 2000) : Res ((Option (Arr F64) × Nat) × F64 × Ω × Ell F64) := do
  let e ← e
  cuttingPlaneOptim orc Ell.space w e g ⟨iters, tol⟩

-- example1.rs, example1_rr.rs, example4.rs
#guard chk (optim ex1Oracle () (ellS 10 [0, 0]) negInf 1e-10) fun r => r.1.1.isSome && r.1.2 == 25
#guard chk (optim ex1Oracle () (ellD [10, 10] [100, 100]) negInf 1e-20) fun r => r.1.1.isNone
#guard chk (optim ex1Oracle () (ellD [10, 10] [0, 0]) 100 1e-20) fun r => r.1.1.isNone
#guard chk (optim ex1rrOracle (-1) (ellS 10 [0, 0]) negInf 1e-10) fun r => r.1.1.isSome && r.1.2 == 25
#guard chk (optim ex4Oracle (-1) (ellS 10 [0, 0]) negInf 1e-10) fun r => r.1.1.isSome && r.1.2 == 82
-- example3.rs
#guard chk (do
  let e ← ellS 100 [0, 0]
  bsearch (BSearchAdaptor.oracle Ex3.oracle Ell.space) ⟨Ex3.default, e, ⟨2000, 1e-8⟩⟩ (-100, 100) ⟨2000, 1e-8⟩)
  fun r => r.1.1 && r.1.2 == 34
-- quasicvx.rs
#guard chk (optim QcvxOracle.oracle QcvxOracle.default (ellD [10, 10] [0, 0]) 0 1e-8) fun r =>
  r.1.2 == 35 && match r.1.1 with
    | some x => chk (x.idx 0) (fun a => Scalar.ge (a * a) 0.49 && Scalar.le (a * a) 0.51) &&
                chk (x.idx 1) (fun b => Scalar.ge (Scalar.exp b) 1.6 && Scalar.le (Scalar.exp b) 1.7)
    | none => false
#guard chk (optim QcvxOracle.oracle QcvxOracle.default (ellS 10 [100, 100]) 0 1e-20) fun r => r.1.1.isNone
-- profit_oracle.rs
#guard chk (optim ProfitOracle.oracle (ProfitOracle.new 20 40 30.5 (vec [0.1, 0.4]) (vec [10, 35]))
  (ellD [100, 100] [0, 0]) 0 1e-20) fun r => r.1.1.isSome && r.1.2 == 83
#guard chk (do
  let o ← ProfitRbOracle.new 20 40 30.5 (vec [0.1, 0.4]) (vec [10, 35]) 0.003 0.007 1 1 1
  optim ProfitRbOracle.oracle o (ellD [100, 100] [0, 0]) 0 1e-20) fun r => r.1.1.isSome && r.1.2 == 90
#guard chk (do
  let e ← ellD [100, 100] [0, 0]
  cuttingPlaneOptimQ ProfitOracleQ.oracle Ell.space (ProfitOracleQ.new 20 40 30.5 (vec [0.1, 0.4]) (vec [10, 35])) e
    (0 : F64) Options.default) fun r => r.1.1.isSome && r.1.2 == 29
-- power_iteration.rs
def pm : Arr F64 := mat 3 3 [3.7, -3.6, 0.7, -3.6, 4.3, -2.8, 0.7, -2.8, 5.4]
#guard chk (powerIteration pm (vec [0.3, 0.5, 0.4]) ⟨2000, 1e-7⟩) fun r => r.1.2 == 22
#guard chk (powerIteration4 pm (vec [0.3, 0.5, 0.4]) ⟨2000, 1e-7⟩) fun r => r.1.2 == 21
#guard chk (powerIteration2 pm (vec [0.3, 0.5, 0.4]) ⟨2000, 1e-14⟩) fun r => r.1.2 == 23
#guard chk (powerIteration3 pm (vec [0.3, 0.5, 0.4]) ⟨2000, 1e-14⟩) fun r => r.1.2 == 23
#guard chk (powerIteration4 pm (vec [0.3, 0.5, 0.4]) ⟨5, 1e-14⟩) fun r => r.1.2 == 5
-- conjugate_gradient.rs
#guard chk (conjugateGradient (mat 2 2 [4, 1, 1, 3]) (vec [1, 2]) none 1e-5 1000) fun r => match r with
  | .ok x => chk (x.idx 0) (near 0.0909091 · 1e-5) && chk (x.idx 1) (near 0.6363636 · 1e-5)
  | .error _ => false
#guard chk (conjugateGradient (mat 2 2 [0, 0, 0, 0]) (vec [1, 1]) none 1e-5 10) fun r => match r with
  | .ok _ => false
  | .error _ => true
-- ell.rs, ell_stable.rs: single steps
def half4 : Arr F64 := vec [0.5, 0.5, 0.5, 0.5]
def step {T : Type} [CutType T F64]
    (f : Ell F64 → Arr F64 × T → Res (CutStatus × Ell F64))
    (h : EllStable F64 → Arr F64 × T → Res (CutStatus × EllStable F64)) (c : T) (x0 kappa : F64) : Bool :=
  chk (do let e ← ellS 0.01 [0, 0, 0, 0]; f e (half4, c)) (fun r => r.1 == .success && near r.2.kappa kappa &&
    near r.2.tsq 0.01 && chk (r.2.xc.idx 0) (near x0)) &&
  chk (do let e ← EllStable.newWithScalar 0.01 (vec [0, 0, 0, 0]); h e (half4, c)) (fun r => r.1 == .success &&
    near r.2.kappa kappa && near r.2.tsq 0.01 && chk (r.2.xc.idx 0) (near x0))
#guard step Ell.updateCentral EllStable.updateCentral (⟨0⟩ : SingleCut F64) (-0.01) (0.16 / 15)
#guard step Ell.updateBias EllStable.updateBias (⟨0.05⟩ : SingleCut F64) (-0.03) 0.008
#guard step Ell.updateCentral EllStable.updateCentral (⟨0, some 0.05⟩ : ParallelCut F64) (-0.01) 0.012
#guard step Ell.updateBias EllStable.updateBias (⟨0.01, some 0.04⟩ : ParallelCut F64) (-0.0116) 0.01232
#guard step Ell.updateQ EllStable.updateQ (⟨0.01, some 0.04⟩ : ParallelCut F64) (-0.0116) 0.01232
#guard step Ell.updateBias EllStable.updateBias (⟨-0.04, some 0.0625⟩ : ParallelCut F64) 0 0.01
-- ldlt_mgr.rs
def chol1 : Arr F64 := mat 3 3 [25, 15, -5, 15, 18, 0, -5, 0, 11]
def chol2 : Arr F64 := mat 4 4 [18, 22, 54, 42, 22, -70, 86, 62, 54, 86, -174, 134, 42, 62, 134, -106]
def chol3 : Arr F64 := mat 3 3 [0, 15, -5, 15, 18, 0, -5, 0, 11]
#guard chk ((LDLTMgr.new 3).factorize chol1) (·.1)
#guard chk ((LDLTMgr.new 4).factorize chol2) fun r => !r.1 && r.2.pos == (0, 2)
#guard chk (do let (b, m) ← (LDLTMgr.new 3).factorize chol3; let (ep, m) ← m.witness; .ok (b, ep, m)) fun r =>
  !r.1 && near r.2.1 0 && r.2.2.pos == (0, 1) && chk (r.2.2.wit.idx 0) (near 1)
-- svm_oracle.rs, maxcut_oracle.rs
#guard chk ((SvmOracle.new (mat 4 2 [0, 0, 1, 1, 0, 1, 1, 0]) [1, 1, -1, -1]).assess (vec [0, 0, 0]) negInf) fun r => r.1.2
#guard chk ((SvmOracle.new (mat 2 2 [1, 0, -1, 0]) [1, -1]).assess (vec [1, 0, 0]) negInf) fun r => r.1.2 && Scalar.beq r.2.1 0
#guard chk (do
  let o ← MaxcutOracle.new (mat 2 2 [0, 1, 1, 0])
  let (r1, g, o) ← o.assess (vec [1, 1]) negInf
  let (r2, _, _) ← o.assess (vec [1, 1]) g
  .ok (r1.2, r2.2, g)) fun r => r.1 && !r.2.1 && Scalar.gt r.2.2 negInf
-- lowpass_oracle.rs
#guard chk (do
  let o ← createLowpassCase (α := F64) 32
  let (r, _) ← o.assessFeas (Arr.new 32)
  .ok r) fun r => r.isSome

-- tests/lmi_tests.rs: run_lmi ends with a value 1.0 below the cost of the point it returns (C74)
def lmiTest : MyLmi (LMIOracle F64) F64 :=
  ⟨-1, vec [1, -1, 1],
    LMIOracle.new [mat 2 2 [-7, -11, -11, 3], mat 2 2 [7, -18, -18, 8], mat 2 2 [-2, -8, -8, 1]] (mat 2 2 [33, -9, -9, 26]),
    LMIOracle.new [mat 3 3 [-21, -11, 0, -11, 10, 8, 0, 8, 5], mat 3 3 [0, 10, 16, 10, -10, -10, 16, -10, 3],
      mat 3 3 [-5, 2, -17, 2, -6, 8, -17, 8, 6]] (mat 3 3 [14, 9, 40, 9, 91, 10, 40, 10, 15])⟩
#guard chk (do
  let e ← ellS 10 [0, 0, 0]
  let ((xb, k), g, _, _) ← cuttingPlaneOptim (MyLmi.oracle LMIOracle.oracle) Ell.space lmiTest e (1 / 0) ⟨2000, 1e-20⟩
  let x ← Res.ofOption xb
  let f ← lmiTest.c.dot x
  .ok (k, g, f)) fun r => r.1 == 11 && Scalar.lt r.2.1 (-3.7) && Scalar.gt r.2.2 (-2.7)

-- examples/portfolio_optimization.rs stops in the sixth round with return 0.02226, where 0.02623 is feasible, and leaves NaN (C75)
#guard chk (do
  let r ← Arr.eye 4
  let e ← ellS 1 [0, 0, 0, 0]
  let ((_, k), g, _, e) ← cuttingPlaneOptim Portfolio.oracle Ell.space ⟨vec [0.08, 0.12, 0.10, 0.06], r, 0.02, 1⟩ e (1 / 0)
    ⟨1000, 1e-8⟩
  let x0 ← e.xc.idx 0
  .ok (k, g, x0)) fun r => r.1 == 5 && Scalar.gt r.2.1 (-0.0223) && !Scalar.beq r.2.2 r.2.2

-- one-dimensional ellipsoids: infinite after one cut, NaN after two (C89)
#guard chk (do
  let e ← ellS 100 [0]
  let (_, e1) ← Ell.updateBias e (vec [-1], (⟨6⟩ : SingleCut F64))
  let (st, e2) ← Ell.updateBias e1 (vec [1], (⟨1⟩ : SingleCut F64))
  let x1 ← e1.xc.idx 0
  let x2 ← e2.xc.idx 0
  .ok (st, x1, e1.kappa, x2)) fun r => r.1 == .success && near r.2.1 8 && Scalar.beq r.2.2.1 (1 / 0) && !Scalar.beq r.2.2.2 r.2.2.2

end Ellalgo.FloatTests
