import Verif.Spec.Binary64Run
import Verif.Spec.CgIter
import Verif.Spec.PowerIter

/-! When conjugate gradients and the power iterations stay in the range of `f64`: vocabulary.  Everything is said of the textbook
iterates in arithmetic rounded to 53 bits, and only of operations that the methods carry out. -/

namespace Ellalgo
variable (n : Nat) (A : Nat → Nat → Fl bin53) (tol : Fl bin53)

/-- no product underflows or overflows and no partial sum overflows in `vᵀ w` -/
def DotSafe (v w : Nat → Fl bin53) : Prop := (∀ i < n, MulOk (v i) (w i)) ∧ SumOk n fun i => v i * w i
/-- the same of `A v` -/
def MulVSafe (v : Nat → Fl bin53) : Prop := ∀ i < n, DotSafe n (A i) v
/-- the same of the scaled sum `v + s w` -/
def AxpySafe (s : Fl bin53) (v w : Nat → Fl bin53) : Prop := ∀ i < n, MulOk s (w i) ∧ AddOk (v i) (s * w i)
/-- the same of the scaled difference `v - s w` -/
def AxmySafe (s : Fl bin53) (v w : Nat → Fl bin53) : Prop := ∀ i < n, MulOk s (w i) ∧ SubOk (v i) (s * w i)

/-- what conjugate gradients compute before the loop: `r = b - A x` and `rᵀ r` -/
def CgFirstSafe (b x : Nat → Fl bin53) : Prop :=
  MulVSafe n A x ∧ (∀ i < n, SubOk (b i) (mulV n A x i)) ∧ DotSafe n (cgFirst n A b x).r (cgFirst n A b x).r

/-- one pass of the loop: `A p` and `pᵀ A p`; unless this is zero the step, the new point and residual and the square of the latter; and
unless that passes the test the new direction -/
def CgIt.NextSafe (s : CgIt (Fl bin53)) : Prop :=
  MulVSafe n A s.p ∧ DotSafe n s.p (mulV n A s.p) ∧
  (s.stuck n A = false →
    DivOk s.rr (s.curv n A) ∧ AxpySafe n (s.rr / s.curv n A) s.x s.p ∧ AxmySafe n (s.rr / s.curv n A) s.r (mulV n A s.p) ∧
    DotSafe n (cgNext n A s).r (cgNext n A s).r ∧
    ((cgNext n A s).done tol = false →
      DivOk (cgNext n A s).rr s.rr ∧ AxpySafe n ((cgNext n A s).rr / s.rr) (cgNext n A s).r s.p))

/-- iterate `j` is reached: none up to it passed the test, and none before it was stuck -/
def CgLive (it : Nat → CgIt (Fl bin53)) (j : Nat) : Prop :=
  (∀ i, 1 ≤ i → i ≤ j → (it i).done tol = false) ∧ ∀ i < j, (it i).stuck n A = false

/-- all that conjugate gradients compute with at most `m` iterations stays in range -/
def CgSafe (b x : Nat → Fl bin53) (m : Nat) : Prop :=
  CgFirstSafe n A b x ∧ ∀ j < m, CgLive n A tol (cgAt n A b x) j → (cgAt n A b x j).NextSafe n A tol

/-- scaling by the reciprocal of `s` -/
def OverSafe (v : Nat → Fl bin53) (s : Fl bin53) : Prop := DivOk 1 s ∧ ∀ i < n, MulOk (v i) (1 / s)
/-- scaling to Euclidean norm one, to 1-norm one -/
def UnitSafe (v : Nat → Fl bin53) : Prop := DotSafe n v v ∧ OverSafe n v (Scalar.sqrt (dotV n v v))
def Unit1Safe (v : Nat → Fl bin53) : Prop := (SumOk n fun i => Scalar.abs (v i)) ∧ OverSafe n v (norm1V n v)
/-- `vᵀ A v` -/
def RaySafe (v : Nat → Fl bin53) : Prop := MulVSafe n A v ∧ DotSafe n v (mulV n A v)
/-- the test of two consecutive vectors; the sum is only looked at when the difference does not pass -/
def CloseSafe (v w : Nat → Fl bin53) : Prop :=
  (∀ i < n, SubOk (v i) (w i)) ∧ (SumOk n fun i => Scalar.abs (v i - w i)) ∧
  (Scalar.le (norm1V n fun i => v i - w i) tol = false → (∀ i < n, AddOk (v i) (w i)) ∧ SumOk n fun i => Scalar.abs (v i + w i))

variable (x : Nat → Fl bin53) (m : Nat)

/-- all that `power_iteration` computes with at most `m` iterations stays in range -/
def PowSafe : Prop :=
  UnitSafe n x ∧
  (∀ j < m, (∀ i < j, closeV n tol (powSeq n A x (i + 1)) (powSeq n A x i) = false) →
    MulVSafe n A (powSeq n A x j) ∧ UnitSafe n (mulV n A (powSeq n A x j)) ∧
    CloseSafe n tol (powSeq n A x (j + 1)) (powSeq n A x j)) ∧
  ∀ j, FirstBelow (fun j => closeV n tol (powSeq n A x (j + 1)) (powSeq n A x j) = true) m j →
    RaySafe n A (powSeq n A x (min (j + 1) m))

/-- all that `power_iteration4` computes -/
def Pow4Safe : Prop :=
  Unit1Safe n x ∧
  (∀ j < m, (∀ i < j, closeV n tol (pow1Seq n A x (i + 1)) (pow1Seq n A x i) = false) →
    MulVSafe n A (pow1Seq n A x j) ∧ Unit1Safe n (mulV n A (pow1Seq n A x j)) ∧
    CloseSafe n tol (pow1Seq n A x (j + 1)) (pow1Seq n A x j)) ∧
  ∀ j, FirstBelow (fun j => closeV n tol (pow1Seq n A x (j + 1)) (pow1Seq n A x j) = true) m j →
    UnitSafe n (pow1Seq n A x (min (j + 1) m)) ∧ RaySafe n A (unitV n (pow1Seq n A x (min (j + 1) m)))

/-- two consecutive values agree within `tol` -/
noncomputable def valTest (val : Nat → Fl bin53) (j : Nat) : Bool := Scalar.le (Scalar.abs (val j - val (j + 1))) tol

/-- all that `power_iteration2` computes -/
def Pow2Safe : Prop :=
  UnitSafe n x ∧ RaySafe n A (powSeq n A x 0) ∧
  ∀ j < m, (∀ i < j, valTest tol (fun k => rayV n A (powSeq n A x k)) i = false) →
    UnitSafe n (mulV n A (powSeq n A x j)) ∧ RaySafe n A (powSeq n A x (j + 1)) ∧
    SubOk (rayV n A (powSeq n A x j)) (rayV n A (powSeq n A x (j + 1)))

/-- all that `power_iteration3` computes: `vᵀ v` of every vector, the scaling of the big ones, `vᵀ A v / vᵀ v` of the others, and the
scaling at the end when it stops on a vector that was not scaled -/
def Pow3Safe : Prop :=
  RaySafe n A x ∧ DotSafe n x x ∧ DivOk (rayV n A x) (dotV n x x) ∧
  (∀ j < m, (∀ i < j, valTest tol (pow3Val n A x) i = false) →
    DotSafe n (mulV n A (pow3Seq n A x j)) (mulV n A (pow3Seq n A x j)) ∧
    (bigV n (mulV n A (pow3Seq n A x j)) = true → UnitSafe n (mulV n A (pow3Seq n A x j))) ∧
    RaySafe n A (pow3Seq n A x (j + 1)) ∧
    (bigV n (mulV n A (pow3Seq n A x j)) = false →
      DivOk (rayV n A (pow3Seq n A x (j + 1))) (dotV n (pow3Seq n A x (j + 1)) (pow3Seq n A x (j + 1)))) ∧
    SubOk (pow3Val n A x j) (pow3Val n A x (j + 1)) ∧
    (valTest tol (pow3Val n A x) j = true → bigV n (mulV n A (pow3Seq n A x j)) = false → UnitSafe n (pow3Seq n A x (j + 1))))

/-- same value, same number of iterations, same vector -/
def SamePower (p : (B64 × Nat) × Arr B64) (q : (Fl bin53 × Nat) × Arr (Fl bin53)) : Prop :=
  Same p.1.1 q.1.1 ∧ p.1.2 = q.1.2 ∧ p.2.Same q.2

/-- the real matrix and vector that arrays of `f64` numbers stand for -/
noncomputable def Arr.mat64 (n : Nat) (a : Arr B64) : Matrix (Fin n) (Fin n) ℝ := fun i j => (a.mat i j).val
noncomputable def Arr.vec64 (n : Nat) (a : Arr B64) : Fin n → ℝ := fun i => (a.vec i).val

/-- same error, or same solution -/
def SameCg (p : Except CgErr (Arr B64)) (q : Except CgErr (Arr (Fl bin53))) : Prop :=
  match p, q with
  | .ok x, .ok y => x.Same y
  | .error e, .error f => e = f
  | _, _ => False

end Ellalgo
