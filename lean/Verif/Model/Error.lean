import Verif.Model.Scalar

/-! # Model of `/repo/src/error.rs`

`format!("{}", x)` of an `f64` is a parameter `fmt`; `usize` is printed as `toString` prints a `Nat`.  Writing to the formatter is
taken to succeed, as it does for `to_string` and `format!`. -/

namespace Ellalgo

/-- `EllipsoidError` (error.rs:10-46) -/
inductive EllipsoidError (α : Type) where
  | nonConvergence (iterations maxIters : Nat) (finalValue : Option α)
  | infeasible (reason : String)
  | numericalInstability (details : String) (value : Option α)
  | invalidParameters (details : String)
  | matrixError (details : String)

namespace EllipsoidError
variable {α : Type}

/-- `if let Some(val) = value { write!(f, ...) }` (error.rs:60-62, 70-72) -/
def ifSome (text : α → String) : Option α → String
  | some val => text val
  | none => ""

/-- `impl fmt::Display for EllipsoidError` (error.rs:48-83): consecutive `write!`s append -/
def display (fmt : α → String) : EllipsoidError α → String
  | nonConvergence iterations maxIters finalValue =>
    "Algorithm failed to converge after " ++ toString iterations ++ " iterations (max: " ++ toString maxIters ++ ")" ++
      ifSome (fun val => ". Final objective value: " ++ fmt val) finalValue
  | infeasible reason => "Problem is infeasible: " ++ reason
  | numericalInstability details value =>
    "Numerical instability detected: " ++ details ++ ifSome (fun val => " (value: " ++ fmt val ++ ")") value
  | invalidParameters details => "Invalid parameters: " ++ details
  | matrixError details => "Matrix operation failed: " ++ details

/-- `Option<f64> == Option<f64>` (derived by the standard library; the fields of error.rs:18, 32) -/
def optEq [Scalar α] : Option α → Option α → Bool
  | some a, some b => Scalar.beq a b
  | none, none => true
  | _, _ => false

/-- `#[derive(PartialEq)]` (error.rs:9): same variant and all fields equal, `f64` fields compared as `f64` -/
def eq [Scalar α] : EllipsoidError α → EllipsoidError α → Bool
  | nonConvergence i m v, nonConvergence i' m' v' => i == i' && m == m' && optEq v v'
  | infeasible r, infeasible r' => r == r'
  | numericalInstability d v, numericalInstability d' v' => d == d' && optEq v v'
  | invalidParameters d, invalidParameters d' => d == d'
  | matrixError d, matrixError d' => d == d'
  | _, _ => false

/-- `#[derive(Clone)]` (error.rs:9): field by field; cloning an `f64` or a `String` gives the same value -/
def clone : EllipsoidError α → EllipsoidError α
  | nonConvergence i m v => nonConvergence i m v
  | infeasible r => infeasible r
  | numericalInstability d v => numericalInstability d v
  | invalidParameters d => invalidParameters d
  | matrixError d => matrixError d

end EllipsoidError
end Ellalgo
