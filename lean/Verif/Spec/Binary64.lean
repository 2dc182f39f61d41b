import Verif.Lib.Rnd64
import Verif.Model.CuttingPlane

/-! IEEE-754 binary64 arithmetic (`f64`), with rounding to nearest (ties to even), gradual underflow, overflow to infinity, signed
zeros, infinities and NaN.  `+ - * /` and `sqrt` are the operations of the standard.  `exp`, `ln`, `cos`, `log10` are taken to be
correctly rounded, which `f64` does not promise.  Simplified: one NaN; `powf` is modelled for a positive finite base and a finite
exponent (the only use in the crate) and is NaN otherwise. -/

namespace Ellalgo

/-- a nonzero finite binary64 number -/
structure Num64 where
  x : ℝ
  ne : x ≠ 0
  rep : rnd64 x = x
  lt : |x| < (2 : ℝ) ^ (1024 : ℤ)

/-- a binary64 number: NaN, an infinity, a zero (`neg` is the sign) or a nonzero finite number -/
inductive B64 where
  | nan
  | inf (neg : Bool)
  | zero (neg : Bool)
  | num (a : Num64)

namespace B64

/-- the finite value; `0` for infinities and NaN -/
def val : B64 → ℝ
  | num a => a.x
  | _ => 0

/-- the sign bit -/
noncomputable def sgn : B64 → Bool
  | nan => false
  | inf s => s
  | zero s => s
  | num a => by classical exact decide (a.x < 0)

/-- the number a real result is rounded to; `s` is the sign of a zero result -/
noncomputable def ofReal (s : Bool) (x : ℝ) : B64 := by
  classical exact if h : rnd64 x = 0 then zero s
    else if h' : |rnd64 x| < (2 : ℝ) ^ (1024 : ℤ) then num ⟨rnd64 x, h, rnd64_idem x, h'⟩ else inf (decide (x < 0))

noncomputable def add : B64 → B64 → B64
  | nan, _ => nan
  | _, nan => nan
  | inf s, inf t => if s = t then inf s else nan
  | inf s, _ => inf s
  | _, inf t => inf t
  | a, b => ofReal (a.sgn && b.sgn) (a.val + b.val)

noncomputable def neg : B64 → B64
  | nan => nan
  | inf s => inf (!s)
  | zero s => zero (!s)
  | num a => num ⟨-a.x, neg_ne_zero.2 a.ne, by rw [rnd64_neg, a.rep], by rw [abs_neg]; exact a.lt⟩

noncomputable def mul : B64 → B64 → B64
  | nan, _ => nan
  | _, nan => nan
  | inf _, zero _ => nan
  | zero _, inf _ => nan
  | inf s, b => inf (s ^^ b.sgn)
  | a, inf t => inf (a.sgn ^^ t)
  | a, b => ofReal (a.sgn ^^ b.sgn) (a.val * b.val)

noncomputable def div : B64 → B64 → B64
  | nan, _ => nan
  | _, nan => nan
  | inf _, inf _ => nan
  | zero _, zero _ => nan
  | inf s, b => inf (s ^^ b.sgn)
  | a, inf t => zero (a.sgn ^^ t)
  | a, zero t => inf (a.sgn ^^ t)
  | a, b => ofReal (a.sgn ^^ b.sgn) (a.val / b.val)

noncomputable def sqrt : B64 → B64
  | nan => nan
  | inf s => if s then nan else inf false
  | zero s => zero s
  | num a => by classical exact if a.x < 0 then nan else ofReal false (Real.sqrt a.x)

noncomputable def exp : B64 → B64
  | nan => nan
  | inf s => if s then zero false else inf false
  | a => ofReal false (Real.exp a.val)

/-- a logarithm `f` -/
noncomputable def log (f : ℝ → ℝ) : B64 → B64
  | nan => nan
  | inf s => if s then nan else inf false
  | zero _ => inf true
  | num a => by classical exact if a.x < 0 then nan else ofReal false (f a.x)

noncomputable def cos : B64 → B64
  | nan => nan
  | inf _ => nan
  | a => ofReal false (Real.cos a.val)

noncomputable def abs : B64 → B64
  | nan => nan
  | inf _ => inf false
  | zero _ => zero false
  | num a => num ⟨|a.x|, abs_ne_zero.2 a.ne, by
      rcases abs_choice a.x with h | h <;> rw [h]
      · exact a.rep
      · rw [rnd64_neg, a.rep], by rw [abs_abs]; exact a.lt⟩

noncomputable def round : B64 → B64
  | num a => ofReal (num a).sgn (Scalar.round a.x)
  | a => a

noncomputable def powf : B64 → B64 → B64
  | num a, num b => by classical exact if 0 < a.x then ofReal false (a.x ^ b.x) else nan
  | num a, zero _ => by classical exact if 0 < a.x then ofReal false 1 else nan
  | _, _ => nan

/-- `x as usize`, saturating -/
noncomputable def toUsize : B64 → Nat
  | nan => 0
  | inf s => if s then 0 else 2 ^ 64 - 1
  | a => min (Scalar.toUsize a.val) (2 ^ 64 - 1)

/-- `x.floor() as i32`, saturating -/
noncomputable def floorI32 : B64 → Int
  | nan => 0
  | inf s => if s then -2 ^ 31 else 2 ^ 31 - 1
  | a => max (-2 ^ 31) (min (Scalar.floorI32 a.val) (2 ^ 31 - 1))

noncomputable def lt : B64 → B64 → Bool
  | nan, _ => false
  | _, nan => false
  | inf s, inf t => s && !t
  | inf s, _ => s
  | _, inf t => !t
  | a, b => by classical exact decide (a.val < b.val)

noncomputable def beq : B64 → B64 → Bool
  | nan, _ => false
  | _, nan => false
  | inf s, inf t => s == t
  | inf _, _ => false
  | _, inf _ => false
  | a, b => by classical exact decide (a.val = b.val)

/-- `f64` -/
noncomputable instance : Scalar B64 where
  add := add
  sub a b := add a (neg b)
  mul := mul
  div := div
  neg := neg
  zero := zero false
  one := ofReal false 1
  natCast k := ofReal false k
  sqrt := sqrt
  exp := exp
  ln := log Real.log
  cos := cos
  abs := abs
  round := round
  log10 := log (Real.logb 10)
  powf := powf
  pi := ofReal false Real.pi
  dec m e := ofReal false (Scalar.dec m e)
  toUsize := toUsize
  floorI32 := floorI32
  ofInt k := ofReal false k
  ltInf
    | nan => false
    | inf s => s
    | _ => true
  gtNegInf
    | nan => false
    | inf s => !s
    | _ => true
  lt := lt
  le a b := lt a b || beq a b
  beq := beq

/-- a number that is neither an infinity nor a NaN -/
def Finite : B64 → Prop
  | nan => False
  | inf _ => False
  | _ => True

/-- a finite number of absolute value at most `2^t` -/
def Small (t : ℤ) (a : B64) : Prop := a.Finite ∧ |a.val| ≤ (2 : ℝ) ^ t

end B64

/-- The gradient `g` is too small for the ellipsoid matrix `mq`: with the entries of `mq` at most `2^s` and those of `g` at most
`2^t`, every product that makes up `gᵀ mq g` is below half of the least positive `f64`.  (The other two conditions keep the
products that make up `mq g` in range.) -/
def TinyGrad (s t : ℤ) (mq g : Arr B64) : Prop :=
  (∀ v ∈ mq.data, v.Small s) ∧ (∀ v ∈ g.data, v.Small t) ∧ s + 2 * t + 54 ≤ -1075 ∧ -1022 ≤ s + t ∧ s + t + 54 < 1024

/-- The same for `EllStable`, whose `mq` holds a diagonal and, above it, the triangular factor that forward substitution
reads: the diagonal is at most `2^s`, the
entries above it at most `2^r`, and the gradient at most `2^t`; forward substitution multiplies the gradient by at most
`2^(n(r+1))`. -/
def TinyGradStable (n : Nat) (s r t : ℤ) (mq g : Arr B64) : Prop :=
  (∀ i < n, (mq.mat i i).Small s) ∧ (∀ i j, i < j → j < n → (mq.mat i j).Small r) ∧ (∀ i < n, (g.vec i).Small t) ∧
    0 ≤ r ∧ s + 2 * (t + n * (r + 1)) ≤ -1075 ∧ -1074 ≤ t ∧ -1074 ≤ s + t ∧ t + n * (r + 1) < 1024 ∧ s + t + n * (r + 1) < 1024

end Ellalgo
