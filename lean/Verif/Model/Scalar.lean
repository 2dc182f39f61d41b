import Mathlib.Analysis.Real.Sqrt
import Mathlib.Analysis.SpecialFunctions.Log.Basic
import Mathlib.Analysis.SpecialFunctions.Log.Base
import Mathlib.Analysis.SpecialFunctions.Pow.Real
import Mathlib.Analysis.SpecialFunctions.Trigonometric.Basic

/-!
# Scalars and outcomes

The Rust code computes in `f64`.  The model is written over an arbitrary type `α` with the
operations below and *no laws*.  Instances: `ℝ` (exact arithmetic) here, `Float` (executable) in
`Verif/FloatTests.lean`.
-/

namespace Ellalgo

/-- The `f64` operations the crate uses beyond `+ - * /`, negation and literals (for instance arr.rs `abs`, `sqrt`, `exp`, `ln`, `cos`;
lowpass_oracle.rs:31-36, 156-161 `cos`, `floor`, `log10`, `powf`, `PI`; profit_oracle.rs:150 `round`; svm_oracle.rs:29 `INFINITY`). No laws. -/
class Scalar (α : Type) extends Add α, Sub α, Mul α, Div α, Neg α, Zero α, One α, NatCast α where
  sqrt : α → α
  exp : α → α
  ln : α → α
  cos : α → α
  abs : α → α
  /-- `f64::round` (half away from zero) -/
  round : α → α
  log10 : α → α
  powf : α → α → α
  pi : α
  /-- literal `m * 10^(-e)` -/
  dec : Nat → Nat → α
  /-- `(x as usize)`: truncation, saturating at 0 -/
  toUsize : α → Nat
  /-- `x.floor() as i32` (saturation of the cast is not modelled) -/
  floorI32 : α → Int
  /-- `i32 as f64` -/
  ofInt : Int → α
  /-- `x < f64::INFINITY` -/
  ltInf : α → Bool
  /-- `x > f64::NEG_INFINITY` -/
  gtNegInf : α → Bool
  /-- Boolean comparisons (`<`, `<=`, `==` of Rust; all false on NaN in `f64`) -/
  lt : α → α → Bool
  le : α → α → Bool
  beq : α → α → Bool

export Scalar (dec)

/-- `a > b` on `f64` in Rust (for instance lowpass_oracle.rs:101) -/
def Scalar.gt {α} [Scalar α] (a b : α) : Bool := Scalar.lt b a
/-- `a >= b` on `f64` in Rust (for instance in ell_calc.rs) -/
def Scalar.ge {α} [Scalar α] (a b : α) : Bool := Scalar.le b a

/-- Natural number literal / `usize as f64` (for instance lowpass_oracle.rs:31) -/
abbrev nat {α} [Scalar α] (k : Nat) : α := ((k : Nat) : α)

/-- exact arithmetic: the `f64` operations of the crate (arr.rs, ell_calc.rs, …) read as operations on the reals.  Not a model of rounding;
for that see the instances of rounded and of binary64 arithmetic -/
noncomputable instance instScalarReal : Scalar ℝ where
  sqrt := Real.sqrt
  exp := Real.exp
  ln := Real.log
  cos := Real.cos
  abs x := |x|
  round x := if 0 ≤ x then (⌊x + 1/2⌋ : ℝ) else (⌈x - 1/2⌉ : ℝ)
  log10 := Real.logb 10
  powf x y := x ^ y
  pi := Real.pi
  dec m e := (m : ℝ) / (10 : ℝ) ^ e
  toUsize x := ⌊x⌋.toNat
  floorI32 x := ⌊x⌋
  ofInt k := (k : ℝ)
  ltInf _ := true
  gtNegInf _ := true
  lt a b := decide (a < b)
  le a b := decide (a ≤ b)
  beq a b := decide (a = b)

section RealSimp
variable (a b : ℝ)
@[simp] theorem Scalar.real_sqrt : Scalar.sqrt a = Real.sqrt a := rfl
@[simp] theorem Scalar.real_exp : Scalar.exp a = Real.exp a := rfl
@[simp] theorem Scalar.real_ln : Scalar.ln a = Real.log a := rfl
@[simp] theorem Scalar.real_cos : Scalar.cos a = Real.cos a := rfl
@[simp] theorem Scalar.real_abs : Scalar.abs a = |a| := rfl
@[simp] theorem Scalar.real_pi : (Scalar.pi : ℝ) = Real.pi := rfl
@[simp] theorem Scalar.real_powf : Scalar.powf a b = a ^ b := rfl
@[simp] theorem Scalar.real_log10 : Scalar.log10 a = Real.logb 10 a := rfl
theorem Scalar.real_dec (m e : Nat) : (Scalar.dec m e : ℝ) = (m : ℝ) / (10 : ℝ) ^ e := rfl
@[simp] theorem Scalar.real_floorI32 : Scalar.floorI32 a = ⌊a⌋ := rfl
@[simp] theorem Scalar.real_ofInt (k : Int) : (Scalar.ofInt k : ℝ) = (k : ℝ) := rfl
@[simp] theorem Scalar.real_ltInf : Scalar.ltInf a = true := rfl
@[simp] theorem Scalar.real_gtNegInf : Scalar.gtNegInf a = true := rfl
@[simp] theorem Scalar.real_lt : Scalar.lt a b = decide (a < b) := rfl
@[simp] theorem Scalar.real_le : Scalar.le a b = decide (a ≤ b) := rfl
@[simp] theorem Scalar.real_gt : Scalar.gt a b = decide (b < a) := rfl
@[simp] theorem Scalar.real_ge : Scalar.ge a b = decide (b ≤ a) := rfl
@[simp] theorem Scalar.real_beq : Scalar.beq a b = decide (a = b) := rfl
end RealSimp

/-- Outcome of a piece of Rust code: a value or a panic (for instance the `assert!`s of arr.rs:48, 86, 96-97) -/
inductive Res (β : Type) : Type where
  | ok (b : β)
  | panic
  deriving Repr, DecidableEq

namespace Res
/-- Sequencing of Rust statements: a panic aborts (all `.rs` files) -/
def bind {β γ : Type} (x : Res β) (f : β → Res γ) : Res γ :=
  match x with
  | ok b => f b
  | panic => panic

/-- `do` blocks are Rust blocks (all `.rs` files) -/
instance : Monad Res where
  pure := ok
  bind := bind

/-- `assert!(c)` / `debug_assert!(c)` (for instance arr.rs:86, 155): debug assertions are taken to be on -/
def assert (c : Bool) : Res Unit := if c then ok () else panic

/-- Indexing into an optional value: `None` panics (slice index out of bounds as in lmi_oracle.rs:31, `unwrap`) -/
def ofOption {β : Type} : Option β → Res β
  | some b => ok b
  | none => panic

variable {β γ δ : Type}
@[simp] theorem pure_eq (b : β) : (pure b : Res β) = ok b := rfl
@[simp] theorem ok_bind (b : β) (f : β → Res γ) : (ok b >>= f) = f b := rfl
@[simp] theorem panic_bind (f : β → Res γ) : ((panic : Res β) >>= f) = panic := rfl
@[simp] theorem map_ok (f : β → γ) (b : β) : (f <$> (ok b : Res β)) = ok (f b) := rfl
@[simp] theorem map_panic (f : β → γ) : (f <$> (panic : Res β)) = panic := rfl
@[simp] theorem assert_true : assert true = ok () := rfl
@[simp] theorem assert_false : assert false = panic := rfl
@[simp] theorem ofOption_some (b : β) : ofOption (some b) = ok b := rfl
@[simp] theorem ofOption_none : ofOption (none : Option β) = panic := rfl

theorem bind_eq_ok {x : Res β} {f : β → Res γ} {c : γ} :
    (x >>= f) = ok c ↔ ∃ b, x = ok b ∧ f b = ok c := by
  cases x <;> simp

theorem bind_eq_panic {x : Res β} {f : β → Res γ} :
    (x >>= f) = panic ↔ x = panic ∨ ∃ b, x = ok b ∧ f b = panic := by
  cases x <;> simp

theorem assert_eq_ok {c : Bool} {u : Unit} : assert c = ok u ↔ c = true := by
  cases c <;> simp

theorem ofOption_eq_ok {o : Option β} {b : β} : ofOption o = ok b ↔ o = some b := by
  cases o <;> simp

/-- the monad laws of `Res`; no `.rs` counterpart -/
instance : LawfulMonad Res := LawfulMonad.mk' _
  (id_map := by intro α x; cases x <;> rfl)
  (pure_bind := by intros; rfl)
  (bind_assoc := by intro α β γ x f g; cases x <;> rfl)
end Res

/-- `for i in lo..lo+k { s = f(i, s) }` (the `for` loops of arr.rs, ell.rs and others) -/
def forN {σ : Type} (k lo : Nat) (s : σ) (f : Nat → σ → Res σ) : Res σ :=
  match k with
  | 0 => .ok s
  | k + 1 => do
    let s' ← f lo s
    forN k (lo + 1) s' f

/-- `for i in lo..hi { s = f(i, s) }` (empty when `hi ≤ lo`; the `for` loops of arr.rs, ell.rs and others) -/
def forRange {σ : Type} (lo hi : Nat) (s : σ) (f : Nat → σ → Res σ) : Res σ :=
  forN (hi - lo) lo s f

/-- `for i in (lo..lo+k).rev() { s = f(i, s) }` (ell_stable.rs:94, ldlt_mgr.rs:103) -/
def forDownN {σ : Type} (k lo : Nat) (s : σ) (f : Nat → σ → Res σ) : Res σ :=
  match k with
  | 0 => .ok s
  | k + 1 => do
    let s' ← f (lo + k) s
    forDownN k lo s' f

/-- `for i in (lo..hi).rev() { s = f(i, s) }` (ell_stable.rs:94, ldlt_mgr.rs:103) -/
def forDown {σ : Type} (lo hi : Nat) (s : σ) (f : Nat → σ → Res σ) : Res σ :=
  forDownN (hi - lo) lo s f

end Ellalgo
