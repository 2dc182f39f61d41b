import Verif.Spec.Cuts
import Verif.Model.CuttingPlane

/-! Checked arithmetic: real numbers, the two infinities of `f64` and one "undefined" value.  Division by zero, the square root
of a negative number and the logarithm of a non-positive number are undefined, as are the invalid operations of IEEE 754
(`∞ - ∞`, `0 * ∞`, `∞ / ∞`, `cos ∞`); undefinedness spreads and comparisons with it are false (as with NaN).  Arithmetic and
comparisons with an infinity are those of IEEE 754; nothing is rounded, so a finite operation never yields an infinity.
Running the model over `Chk` shows whether the exact-arithmetic run ever executes an undefined operation, and what a run
does whose first `gamma` is `f64::INFINITY` or `f64::NEG_INFINITY`.
Simplified: there is no signed zero, so `1 / 0` and `ln 0` (infinities in IEEE 754) are undefined here; `powf` with an infinite
argument is undefined. -/

namespace Ellalgo
open Matrix

/-- a real number, an infinity (`inf true` is `+∞`, `inf false` is `-∞`) or "undefined" -/
inductive Chk where
  | bad
  | val (x : ℝ)
  | inf (pos : Bool)

namespace Chk
/-- apply a total operation to a real number; `p` and `m` are its values at `+∞` and `-∞` -/
def map (f : ℝ → ℝ) (p m : Chk) : Chk → Chk
  | val x => val (f x)
  | inf s => if s then p else m
  | bad => bad
/-- apply an operation defined on `P` only; `p` is its value at `+∞`, `-∞` is outside its domain -/
noncomputable def mapIf (P : ℝ → Prop) (f : ℝ → ℝ) (p : Chk) : Chk → Chk
  | val x => by classical exact if P x then val (f x) else bad
  | inf s => if s then p else bad
  | bad => bad
/-- addition -/
noncomputable def add : Chk → Chk → Chk
  | val x, val y => val (x + y)
  | val _, inf t => inf t
  | inf s, val _ => inf s
  | inf s, inf t => if s = t then inf s else bad
  | _, _ => bad
/-- subtraction -/
noncomputable def sub : Chk → Chk → Chk
  | val x, val y => val (x - y)
  | val _, inf t => inf (!t)
  | inf s, val _ => inf s
  | inf s, inf t => if s = t then bad else inf s
  | _, _ => bad
/-- an infinity times a real number, or divided by it -/
noncomputable def scaleInf (s : Bool) (y : ℝ) : Chk := by
  classical exact if 0 < y then inf s else if y < 0 then inf (!s) else bad
/-- multiplication -/
noncomputable def mul : Chk → Chk → Chk
  | val x, val y => val (x * y)
  | val x, inf t => scaleInf t x
  | inf s, val y => scaleInf s y
  | inf s, inf t => inf (s == t)
  | _, _ => bad
/-- division, undefined at divisor 0 -/
noncomputable def div : Chk → Chk → Chk
  | val x, val y => by classical exact if y = 0 then bad else val (x / y)
  | val _, inf _ => val 0
  | inf s, val y => scaleInf s y
  | _, _ => bad
/-- `<`, false on undefined values -/
noncomputable def lt : Chk → Chk → Bool
  | val x, val y => by classical exact decide (x < y)
  | val _, inf t => t
  | inf s, val _ => !s
  | inf s, inf t => !s && t
  | _, _ => false
/-- `<=`, false on undefined values -/
noncomputable def le : Chk → Chk → Bool
  | val x, val y => by classical exact decide (x ≤ y)
  | val _, inf t => t
  | inf s, val _ => !s
  | inf s, inf t => !s || t
  | _, _ => false
/-- `==`, false on undefined values -/
noncomputable def beq : Chk → Chk → Bool
  | val x, val y => by classical exact decide (x = y)
  | inf s, inf t => s == t
  | _, _ => false

noncomputable instance : Scalar Chk where
  add := add
  sub := sub
  mul := mul
  div := div
  neg := map (- ·) (inf false) (inf true)
  zero := val 0
  one := val 1
  natCast k := val k
  sqrt := mapIf (0 ≤ ·) Real.sqrt (inf true)
  exp := map Real.exp (inf true) (val 0)
  ln := mapIf (0 < ·) Real.log (inf true)
  cos := map Real.cos bad bad
  abs := map (|·|) (inf true) (inf true)
  round := map Scalar.round (inf true) (inf false)
  log10 := mapIf (0 < ·) Scalar.log10 (inf true)
  powf x y := match x, y with
    | val x, val y => by classical exact if 0 < x then val (x ^ y) else bad
    | _, _ => bad
  pi := val Real.pi
  dec m e := val (dec m e)
  toUsize
    | val x => Scalar.toUsize x
    | inf true => 2 ^ 64 - 1
    | inf false => 0
    | bad => 0
  floorI32
    | val x => Scalar.floorI32 x
    | inf true => 2 ^ 31 - 1
    | inf false => -2 ^ 31
    | bad => 0
  ofInt k := val k
  ltInf
    | val _ => true
    | inf s => !s
    | bad => false
  gtNegInf
    | val _ => true
    | inf s => s
    | bad => false
  lt := lt
  le := le
  beq := beq

section
variable (a b : ℝ) (k : Nat)
@[simp] theorem add_val : val a + val b = val (a + b) := rfl
@[simp] theorem sub_val : val a - val b = val (a - b) := rfl
@[simp] theorem mul_val : val a * val b = val (a * b) := rfl
@[simp] theorem neg_val : -val a = val (-a) := rfl
@[simp] theorem zero_val : (0 : Chk) = val 0 := rfl
@[simp] theorem one_val : (1 : Chk) = val 1 := rfl
@[simp] theorem nat_val : ((k : Nat) : Chk) = val k := rfl
@[simp] theorem ofNat_val [k.AtLeastTwo] : (nat (OfNat.ofNat k) : Chk) = val (OfNat.ofNat k : ℝ) := rfl
@[simp] theorem two_val : (2 : Chk) = val 2 := rfl
theorem div_val {b : ℝ} (h : b ≠ 0) : val a / val b = val (a / b) := by
  show div (val a) (val b) = _
  simp [div, h]
theorem div_zero_bad : val a / val 0 = bad := by
  show div (val a) (val 0) = _
  simp [div]
theorem sqrt_val {a : ℝ} (h : 0 ≤ a) : Scalar.sqrt (val a) = val (√a) := by
  show mapIf _ _ _ _ = _
  simp [mapIf, h]
@[simp] theorem lt_val : Scalar.lt (val a) (val b) = Scalar.lt a b := by
  show Chk.lt _ _ = _
  simp [Chk.lt]
@[simp] theorem le_val : Scalar.le (val a) (val b) = Scalar.le a b := by
  show Chk.le _ _ = _
  simp [Chk.le]
@[simp] theorem gt_val : Scalar.gt (val a) (val b) = Scalar.gt a b := lt_val b a
@[simp] theorem ge_val : Scalar.ge (val a) (val b) = Scalar.ge a b := le_val b a
@[simp] theorem beq_val : Scalar.beq (val a) (val b) = Scalar.beq a b := by
  show Chk.beq _ _ = _
  simp [Chk.beq]
@[simp] theorem dec_val (m e : Nat) : (dec m e : Chk) = val (dec m e) := rfl
end

end Chk

/-- the same array, read as checked numbers -/
def Arr.lift (a : Arr ℝ) : Arr Chk := ⟨a.data.map .val, a.rows, a.cols⟩

/-- the same strategy parameters, read as checked numbers -/
def EllCalc.lift (c : EllCalc ℝ) : EllCalc Chk :=
  ⟨.val c.nF, ⟨.val c.helper.nF, .val c.helper.nPlus1, .val c.helper.halfN, .val c.helper.invN, .val c.helper.cst1,
    .val c.helper.cst2⟩, c.useParallelCut⟩

/-- the same ellipsoid, read as checked numbers -/
def Ell.lift (e : Ell ℝ) : Ell Chk :=
  ⟨e.noDeferTrick, e.mq.lift, e.xc.lift, .val e.kappa, e.helper.lift, .val e.tsq⟩

/-- cuts that can be read as checked numbers -/
class LiftCut (T : Type) (T' : outParam Type) [CutType T ℝ] [CutType T' Chk] where
  lift : T → T'

noncomputable instance : LiftCut (SingleCut ℝ) (SingleCut Chk) where
  lift c := ⟨.val c.beta⟩
noncomputable instance : LiftCut (ParallelCut ℝ) (ParallelCut Chk) where
  lift c := ⟨.val c.beta0, c.beta1.map .val⟩

/-- change the value of an outcome -/
def Res.map {β γ : Type} (f : β → γ) : Res β → Res γ
  | .ok b => .ok (f b)
  | .panic => .panic

/-- Every cut of the list has a nonzero gradient and is admissible for the ellipsoid it is applied to. -/
def Ell.AdmRun {T : Type} [Cut T] (n : Nat) : Ell ℝ → List (UpdateKind × Arr ℝ × T) → Prop
  | _, [] => True
  | e, (k, g, c) :: rest => g.IsVecShape n ∧ g.toVec n ≠ 0 ∧ Cut.Adm n k c (e.tsqOf n (g.toVec n)) ∧
      ∀ st e', Ell.space.update k e (g, c) = .ok (st, e') → Ell.AdmRun n e' rest

/-- a cut, read as checked numbers -/
def liftPair {T T' : Type} [CutType T ℝ] [CutType T' Chk] [LiftCut T T'] (c : Arr ℝ × T) : Arr Chk × T' :=
  (c.1.lift, LiftCut.lift c.2)

/-- `orc'` is an implementation of `orc` in checked arithmetic whose own computations are all defined in the states `I`; `L`
reads a state of `orc` as checked numbers -/
def OracleFeas.CheckedBy {Ω Ω' T T' : Type} [CutType T ℝ] [CutType T' Chk] [LiftCut T T'] (n : Nat) (I : Ω → Prop) (L : Ω → Ω')
    (orc : OracleFeas Ω (Arr ℝ) T ℝ) (orc' : OracleFeas Ω' (Arr Chk) T' Chk) : Prop :=
  ∀ w x, I w → x.IsVecShape n →
    orc'.assess (L w) x.lift = (orc.assess w x).map (fun p => (p.1.map liftPair, L p.2))

/-- the same for optimisation oracles -/
def OracleOptim.CheckedBy {Ω Ω' T T' : Type} [CutType T ℝ] [CutType T' Chk] [LiftCut T T'] (n : Nat) (I : Ω → ℝ → Prop)
    (L : Ω → Ω') (orc : OracleOptim Ω (Arr ℝ) T ℝ) (orc' : OracleOptim Ω' (Arr Chk) T' Chk) : Prop :=
  ∀ w x γ, I w γ → x.IsVecShape n →
    orc'.assess (L w) x.lift (.val γ) = (orc.assess w x γ).map (fun p => ((liftPair p.1.1, p.1.2), .val p.2.1, L p.2.2))

/-- the options, read as checked numbers -/
def Options.lift (o : Options ℝ) : Options Chk := ⟨o.maxIters, .val o.tolerance⟩

end Ellalgo
