import Verif.Spec.Binary64
import Verif.Spec.Rounded
import Verif.Spec.Affine
import Verif.Lib.Bin53
import Verif.Lib.EllLemmas

/-! When a run in `f64` is the run in arithmetic rounded to 53 bits: vocabulary.

`B64` is IEEE-754 binary64 (bounded exponents, infinities, NaN, gradual underflow, signed zeros), `Fl bin53` is arithmetic rounded to
53 bits with unbounded exponents.  The predicates below follow the operations of the code one by one and say, of the run in `Fl bin53`
only, that nothing overflows, no product or quotient underflows, no divisor is zero and no square root is taken of a negative
number. -/

namespace Ellalgo

/-- the `f64` number `a` is finite and stands for the same real number as `x` -/
def Same (a : B64) (x : Fl bin53) : Prop := a.Finite ∧ a.val = x.val

/-- the real number `x`, rounded, is below the overflow threshold of `f64` -/
def NoOver (x : ℝ) : Prop := |rnd53 x| < (2 : ℝ) ^ (1024 : ℤ)
/-- the real number `x` is zero or at least the least normal number of `f64` -/
def NoUnder (x : ℝ) : Prop := x = 0 ∨ (2 : ℝ) ^ (-1022 : ℤ) ≤ |x|

/-- `x + y` does not overflow -/
def AddOk (x y : Fl bin53) : Prop := NoOver (x.val + y.val)
/-- `x - y` does not overflow -/
def SubOk (x y : Fl bin53) : Prop := NoOver (x.val - y.val)
/-- `x * y` neither overflows nor underflows -/
def MulOk (x y : Fl bin53) : Prop := NoUnder (x.val * y.val) ∧ NoOver (x.val * y.val)
/-- `x / y` has a nonzero divisor and neither overflows nor underflows -/
def DivOk (x y : Fl bin53) : Prop := y.val ≠ 0 ∧ NoUnder (x.val / y.val) ∧ NoOver (x.val / y.val)
/-- the root of `x` is defined -/
def SqrtOk (x : Fl bin53) : Prop := 0 ≤ x.val
/-- no partial sum of `f 0 + ... + f (n - 1)` overflows -/
def SumOk (n : Nat) (f : Nat → Fl bin53) : Prop := ∀ k < n, AddOk (sumTo k f) (f k)

/-- same shape, same numbers -/
structure Arr.Same (a : Arr B64) (b : Arr (Fl bin53)) : Prop where
  rows : a.rows = b.rows
  cols : a.cols = b.cols
  data : List.Forall₂ Ellalgo.Same a.data b.data

/-- same constants -/
structure EllCalcCore.Same (a : EllCalcCore B64) (b : EllCalcCore (Fl bin53)) : Prop where
  nF : Ellalgo.Same a.nF b.nF
  nPlus1 : Ellalgo.Same a.nPlus1 b.nPlus1
  halfN : Ellalgo.Same a.halfN b.halfN
  invN : Ellalgo.Same a.invN b.invN
  cst1 : Ellalgo.Same a.cst1 b.cst1
  cst2 : Ellalgo.Same a.cst2 b.cst2

/-- same constants and flag -/
structure EllCalc.Same (a : EllCalc B64) (b : EllCalc (Fl bin53)) : Prop where
  nF : Ellalgo.Same a.nF b.nF
  core : a.helper.Same b.helper
  flag : a.useParallelCut = b.useParallelCut

/-- same search space, number by number -/
structure Ell.Same64 (a : Ell B64) (b : Ell (Fl bin53)) : Prop where
  flag : a.noDeferTrick = b.noDeferTrick
  mq : a.mq.Same b.mq
  xc : a.xc.Same b.xc
  kappa : Ellalgo.Same a.kappa b.kappa
  helper : a.helper.Same b.helper
  tsq : Ellalgo.Same a.tsq b.tsq

/-- same offset -/
def SingleCut.Same (a : SingleCut B64) (b : SingleCut (Fl bin53)) : Prop := Ellalgo.Same a.beta b.beta
/-- same offsets -/
def ParallelCut.Same (a : ParallelCut B64) (b : ParallelCut (Fl bin53)) : Prop :=
  Ellalgo.Same a.beta0 b.beta0 ∧ OptRel Ellalgo.Same a.beta1 b.beta1

/-- a kind of cut: when two cuts are the same, and when choosing the parameters of an update stays in range -/
class Cut64 (T : outParam Type) (T' : Type) where
  same : T → T' → Prop
  safe : UpdateKind → T' → EllCalc (Fl bin53) → Fl bin53 → Prop

namespace EllCalcCore
variable (c : EllCalcCore (Fl bin53))

/-- `calc_bias_cut_fast` stays in range (ell_calc.rs:453-459) -/
def BiasFastSafe (beta tau eta : Fl bin53) : Prop :=
  DivOk eta c.nPlus1 ∧ MulOk (nat 2) (eta / c.nPlus1) ∧ AddOk tau beta ∧ DivOk (nat 2 * (eta / c.nPlus1)) (tau + beta) ∧
  DivOk beta tau ∧ MulOk (beta / tau) (beta / tau) ∧ SubOk 1 (beta / tau * (beta / tau)) ∧
  MulOk c.cst1 (1 - beta / tau * (beta / tau))

/-- `calc_bias_cut` stays in range (ell_calc.rs:550-553) -/
def BiasSafe (beta tau : Fl bin53) : Prop :=
  MulOk c.nF beta ∧ AddOk tau (c.nF * beta) ∧ c.BiasFastSafe beta tau (tau + c.nF * beta)

/-- `calc_central_cut` stays in range (ell_calc.rs:605-611) -/
def CentralSafe (tsq : Fl bin53) : Prop := SqrtOk tsq ∧ DivOk (Scalar.sqrt tsq) c.nPlus1

/-- `calc_parallel_bias_cut_fast` stays in range (ell_calc.rs:218-240) -/
def ParallelFastSafe (beta0 beta1 tsq b0b1 eta : Fl bin53) : Prop :=
  let b0sq := beta0 * beta0
  let b1sq := beta1 * beta1
  let zeta0 := tsq - b0sq
  let zeta1 := tsq - b1sq
  let temp := c.halfN * (b1sq - b0sq)
  let xi := Scalar.sqrt (zeta0 * zeta1 + temp * temp)
  let bsum := beta0 + beta1
  let den := tsq + b0b1 + c.halfN * (bsum * bsum) + xi
  let sigma := nat 2 * eta / den
  MulOk beta0 beta0 ∧ MulOk beta1 beta1 ∧ SubOk tsq b0sq ∧ SubOk tsq b1sq ∧ SubOk b1sq b0sq ∧ MulOk c.halfN (b1sq - b0sq) ∧
  MulOk zeta0 zeta1 ∧ MulOk temp temp ∧ AddOk (zeta0 * zeta1) (temp * temp) ∧ SqrtOk (zeta0 * zeta1 + temp * temp) ∧
  AddOk beta0 beta1 ∧ MulOk bsum bsum ∧ MulOk c.halfN (bsum * bsum) ∧ AddOk tsq b0b1 ∧
  AddOk (tsq + b0b1) (c.halfN * (bsum * bsum)) ∧ AddOk (tsq + b0b1 + c.halfN * (bsum * bsum)) xi ∧ MulOk (nat 2) eta ∧
  DivOk (nat 2 * eta) den ∧ MulOk sigma bsum ∧ DivOk (sigma * bsum) (nat 2) ∧
  AddOk zeta0 zeta1 ∧ DivOk (zeta0 + zeta1) (nat 2) ∧ DivOk xi c.nF ∧ AddOk ((zeta0 + zeta1) / nat 2) (xi / c.nF) ∧
  MulOk c.cst1 ((zeta0 + zeta1) / nat 2 + xi / c.nF) ∧ DivOk (c.cst1 * ((zeta0 + zeta1) / nat 2 + xi / c.nF)) tsq

/-- `calc_parallel_bias_cut` stays in range (ell_calc.rs:316-320) -/
def ParallelSafe (beta0 beta1 tsq : Fl bin53) : Prop :=
  MulOk beta0 beta1 ∧ MulOk c.nF (beta0 * beta1) ∧ AddOk tsq (c.nF * (beta0 * beta1)) ∧
  c.ParallelFastSafe beta0 beta1 tsq (beta0 * beta1) (tsq + c.nF * (beta0 * beta1))

/-- `calc_parallel_central_cut` stays in range (ell_calc.rs:383-394) -/
def ParallelCentralSafe (beta1 tsq : Fl bin53) : Prop :=
  let b1sq := beta1 * beta1
  let a1sq := b1sq / tsq
  let halfVal := c.halfN * a1sq
  let root := halfVal + Scalar.sqrt (1 - a1sq + halfVal * halfVal)
  MulOk beta1 beta1 ∧ DivOk b1sq tsq ∧ MulOk c.halfN a1sq ∧ SubOk 1 a1sq ∧ MulOk halfVal halfVal ∧
  AddOk (1 - a1sq) (halfVal * halfVal) ∧ SqrtOk (1 - a1sq + halfVal * halfVal) ∧
  AddOk halfVal (Scalar.sqrt (1 - a1sq + halfVal * halfVal)) ∧ AddOk root 1 ∧ DivOk beta1 (root + 1) ∧
  DivOk (nat 2) (root + 1) ∧ SubOk root c.invN ∧ DivOk root (root - c.invN)

end EllCalcCore

namespace EllCalc
variable (c : EllCalc (Fl bin53))

/-- `calc_bias_cut` stays in range (ell_calc.rs:870-877) -/
def BiasSafe (beta tsq : Fl bin53) : Prop :=
  MulOk beta beta ∧ (Scalar.lt tsq (beta * beta) = false → SqrtOk tsq ∧ c.helper.BiasSafe beta (Scalar.sqrt tsq))

/-- `calc_bias_cut_q` stays in range (ell_calc.rs:892-908) -/
def BiasQSafe (beta tsq : Fl bin53) : Prop :=
  SqrtOk tsq ∧ (Scalar.lt (Scalar.sqrt tsq) beta = false →
    MulOk c.nF beta ∧ AddOk (Scalar.sqrt tsq) (c.nF * beta) ∧
    (Scalar.lt (Scalar.sqrt tsq + c.nF * beta) 0 = false →
      c.helper.BiasFastSafe beta (Scalar.sqrt tsq) (Scalar.sqrt tsq + c.nF * beta)))

/-- `calc_parallel_bias_cut` stays in range (ell_calc.rs:751-769) -/
def ParallelSafe (beta0 beta1 tsq : Fl bin53) : Prop :=
  Scalar.lt beta1 beta0 = false → (Scalar.gt beta1 0 = true → MulOk beta1 beta1) ∧
    (if (Scalar.gt beta1 0 && Scalar.le tsq (beta1 * beta1)) || !c.useParallelCut then c.BiasSafe beta0 tsq
     else c.helper.ParallelSafe beta0 beta1 tsq)

/-- `calc_parallel_q` stays in range (ell_calc.rs:787-812) -/
def ParallelQSafe (beta0 beta1 tsq : Fl bin53) : Prop :=
  Scalar.lt beta1 beta0 = false → (Scalar.gt beta1 0 = true → MulOk beta1 beta1) ∧
    (if (Scalar.gt beta1 0 && Scalar.ge (beta1 * beta1) tsq) || !c.useParallelCut then c.BiasQSafe beta0 tsq
     else MulOk beta0 beta1 ∧ MulOk c.nF (beta0 * beta1) ∧ AddOk tsq (c.nF * (beta0 * beta1)) ∧
      (Scalar.le (tsq + c.nF * (beta0 * beta1)) 0 = false →
        c.helper.ParallelFastSafe beta0 beta1 tsq (beta0 * beta1) (tsq + c.nF * (beta0 * beta1))))

/-- `calc_parallel_central_cut` stays in range (ell_calc.rs:836-847) -/
def ParallelCentralSafe (beta1 tsq : Fl bin53) : Prop :=
  Scalar.lt beta1 0 = false → MulOk beta1 beta1 ∧
    (if Scalar.le tsq (beta1 * beta1) || !c.useParallelCut then c.helper.CentralSafe tsq
     else c.helper.ParallelCentralSafe beta1 tsq)

end EllCalc

/-- one cut: which operations the strategy of each update kind executes (ell.rs:188-198) -/
instance : Cut64 (SingleCut B64) (SingleCut (Fl bin53)) where
  same := SingleCut.Same
  safe
    | .bias, c, h, tsq => h.BiasSafe c.beta tsq
    | .central, _, h, tsq => h.helper.CentralSafe tsq
    | .q, c, h, tsq => h.BiasQSafe c.beta tsq

/-- one or two cuts: which operations the strategy of each update kind executes (ell.rs:200-210, ell_calc.rs:671-719) -/
instance : Cut64 (ParallelCut B64) (ParallelCut (Fl bin53)) where
  same := ParallelCut.Same
  safe
    | .bias, ⟨b0, some b1⟩, h, tsq => h.ParallelSafe b0 b1 tsq
    | .bias, ⟨b0, none⟩, h, tsq => h.BiasSafe b0 tsq
    | .central, ⟨_, some b1⟩, h, tsq => h.ParallelCentralSafe b1 tsq
    | .central, ⟨_, none⟩, h, tsq => h.helper.CentralSafe tsq
    | .q, ⟨b0, some b1⟩, h, tsq => h.ParallelQSafe b0 b1 tsq
    | .q, ⟨b0, none⟩, h, tsq => h.BiasQSafe b0 tsq

/-- the operations of one update stay in range (`update_core`, ell.rs:97-137): `m`, `x`, `g` are the entries of the matrix, of the
centre and of the gradient, `w` is the computed `M g` and `om` the computed `gᵀ M g` -/
structure Ell.UpdateSafe {T T' : Type} [Cut64 T T'] [CutType T' (Fl bin53)] (n : Nat) (k : UpdateKind) (e : Ell (Fl bin53))
    (cut : Arr (Fl bin53) × T') (w : Nat → Fl bin53) (om : Fl bin53) : Prop where
  /-- the products and sums of `M g` -/
  prod : ∀ i < n, ∀ j < n, MulOk (e.mq.mat i j) (cut.1.vec j)
  sums : ∀ i < n, SumOk n fun j => e.mq.mat i j * cut.1.vec j
  /-- the products and sums of `gᵀ M g` -/
  gprod : ∀ i < n, MulOk (cut.1.vec i) (w i)
  gsum : SumOk n fun i => cut.1.vec i * w i
  tsq : MulOk e.kappa om
  /-- the choice of the parameters -/
  strategy : Cut64.safe k cut.2 e.helper (e.kappa * om)
  /-- the change of centre, matrix and `kappa`, with the parameters `ρ`, `σ`, `δ` chosen -/
  step : ∀ ρ σ δ, CutType.call k cut.2 e.helper (e.kappa * om) = (.success, ρ, σ, δ) →
    DivOk ρ om ∧ DivOk σ om ∧ MulOk e.kappa δ ∧
    (∀ i < n, MulOk (ρ / om) (w i) ∧ SubOk (e.xc.vec i) (ρ / om * w i)) ∧
    (∀ i < n, MulOk (σ / om) (w i)) ∧
    (∀ i < n, ∀ j ≤ i, MulOk (σ / om * w i) (w j) ∧ SubOk (e.mq.mat i j) (σ / om * w i * w j) ∧
      (e.noDeferTrick = true → MulOk (e.mq.mat i j - σ / om * w i * w j) (e.kappa * δ)))

variable {T T' Ω Ω' : Type} [Cut64 T T'] [CutType T (B64)] [CutType T' (Fl bin53)]

/-- one update stays in range -/
def Ell.Safe (n : Nat) (k : UpdateKind) (e : Ell (Fl bin53)) (cut : Arr (Fl bin53) × T') : Prop :=
  Ell.UpdateSafe n k e cut (Ell.gt n e.mq.mat cut.1.vec) (Ell.om n e.mq.mat cut.1.vec)

/-- same gradient, same offsets -/
def SameCut (c : Arr B64 × T) (c' : Arr (Fl bin53) × T') : Prop := c.1.Same c'.1 ∧ Cut64.same c.2 c'.2

/-- on the same points (those with `P`) two feasibility oracles answer the same -/
def SameFeas (orc : OracleFeas Ω (Arr B64) T B64) (orc' : OracleFeas Ω' (Arr (Fl bin53)) T' (Fl bin53)) (RΩ : Ω → Ω' → Prop)
    (P : Ω' → Arr (Fl bin53) → Prop) : Prop :=
  ∀ w w' x x', RΩ w w' → x.Same x' → P w' x' →
    Res.Rel (fun p q => OptRel SameCut p.1 q.1 ∧ RΩ p.2 q.2) (orc.assess w x) (orc'.assess w' x')

/-- on the same points and the same best value (those with `P`) two optimisation oracles answer the same -/
def SameOptim (orc : OracleOptim Ω (Arr B64) T B64) (orc' : OracleOptim Ω' (Arr (Fl bin53)) T' (Fl bin53)) (RΩ : Ω → Ω' → Prop)
    (P : Ω' → Arr (Fl bin53) → Fl bin53 → Prop) : Prop :=
  ∀ w w' x x' g g', RΩ w w' → x.Same x' → Same g g' → P w' x' g' →
    Res.Rel (fun p q => SameCut p.1.1 q.1.1 ∧ p.1.2 = q.1.2 ∧ Same p.2.1 q.2.1 ∧ RΩ p.2.2 q.2.2)
      (orc.assess w x g) (orc'.assess w' x' g')

/-- every step of a run of the feasibility loop in `Fl bin53` stays in range: the oracle's (`P`) and the update's -/
def FeasSafe (orc' : OracleFeas Ω' (Arr (Fl bin53)) T' (Fl bin53)) (n : Nat) (P : Ω' → Arr (Fl bin53) → Prop) (tol : Fl bin53) :
    Nat → Ω' → Ell (Fl bin53) → Prop
  | 0, _, _ => True
  | k + 1, w, e => P w e.xc ∧ ∀ c w', orc'.assess w e.xc = .ok (some c, w') → c.1.IsVecShape n ∧ Ell.Safe n .bias e c ∧
      ∀ e', Ell.space.updateBias e c = .ok (.success, e') → Scalar.lt e'.tsq tol = false → FeasSafe orc' n P tol k w' e'

/-- every step of a run of the optimisation loop in `Fl bin53` stays in range: the oracle's (`P`) and the update's -/
def OptimSafe (orc' : OracleOptim Ω' (Arr (Fl bin53)) T' (Fl bin53)) (n : Nat) (P : Ω' → Arr (Fl bin53) → Fl bin53 → Prop)
    (tol : Fl bin53) : Nat → Ω' → Ell (Fl bin53) → Fl bin53 → Prop
  | 0, _, _, _ => True
  | k + 1, w, e, g => P w e.xc g ∧ ∀ c s g' w', orc'.assess w e.xc g = .ok ((c, s), g', w') → c.1.IsVecShape n ∧
      Ell.Safe n (if s then .central else .bias) e c ∧
      ∀ e', Ell.space.update (if s then .central else .bias) e c = .ok (.success, e') → Scalar.lt e'.tsq tol = false →
        OptimSafe orc' n P tol k w' e' g'

end Ellalgo
