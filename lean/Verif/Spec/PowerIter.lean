import Verif.Spec.CgIter
import Verif.Spec.PowerSeq

/-! The power iterations as sequences, evaluated in whatever arithmetic `α` stands for.  Nothing here refers to the model of the code;
vectors and matrices are functions of their indices, `mulV` and `dotV` are in `Spec/CgIter.lean`. -/

namespace Ellalgo
variable {α : Type} [Scalar α]

/-- the sum of the absolute values -/
def norm1V (n : Nat) (v : Nat → α) : α := sumTo n fun i => Scalar.abs (v i)
/-- `v` times the reciprocal of `s` -/
def overV (v : Nat → α) (s : α) (i : Nat) : α := v i * (1 / s)
/-- `v` scaled to Euclidean norm one, and to 1-norm one -/
def unitV (n : Nat) (v : Nat → α) : Nat → α := overV v (Scalar.sqrt (dotV n v v))
def unit1V (n : Nat) (v : Nat → α) : Nat → α := overV v (norm1V n v)
/-- `vᵀ A v` -/
def rayV (n : Nat) (A : Nat → Nat → α) (v : Nat → α) : α := dotV n v (mulV n A v)
/-- `v` and `w` agree up to sign within `tol` in the 1-norm -/
def closeV (n : Nat) (tol : α) (v w : Nat → α) : Bool :=
  Scalar.le (norm1V n fun i => v i - w i) tol || Scalar.le (norm1V n fun i => v i + w i) tol

/-- multiply and scale to Euclidean norm one, again and again -/
def powSeq (n : Nat) (A : Nat → Nat → α) (x : Nat → α) : Nat → Nat → α
  | 0 => unitV n x
  | k + 1 => unitV n (mulV n A (powSeq n A x k))

/-- multiply and scale to 1-norm one -/
def pow1Seq (n : Nat) (A : Nat → Nat → α) (x : Nat → α) : Nat → Nat → α
  | 0 => unit1V n x
  | k + 1 => unit1V n (mulV n A (pow1Seq n A x k))

/-- is the square of the norm at least `10^150`? -/
def bigV (n : Nat) (v : Nat → α) : Bool := Scalar.ge (dotV n v v) (nat (10 ^ 150))

/-- multiply, and scale to Euclidean norm one only if the vector is big -/
def pow3Seq (n : Nat) (A : Nat → Nat → α) (x : Nat → α) : Nat → Nat → α
  | 0 => x
  | k + 1 => if bigV n (mulV n A (pow3Seq n A x k)) then unitV n (mulV n A (pow3Seq n A x k)) else mulV n A (pow3Seq n A x k)

/-- the value that goes with the `k`-th of these: `vᵀ A v`, divided by `vᵀ v` unless the vector was just scaled -/
def pow3Val (n : Nat) (A : Nat → Nat → α) (x : Nat → α) : Nat → α
  | 0 => rayV n A x / dotV n x x
  | k + 1 => if bigV n (mulV n A (pow3Seq n A x k)) then rayV n A (pow3Seq n A x (k + 1))
      else rayV n A (pow3Seq n A x (k + 1)) / dotV n (pow3Seq n A x (k + 1)) (pow3Seq n A x (k + 1))

/-- the vector the third variant leaves: scaled when it stops on a vector that was not just scaled, and left as it is otherwise -/
def pow3Out (n : Nat) (A : Nat → Nat → α) (x : Nat → α) (stopped : Bool) (k : Nat) : Nat → α :=
  match k with
  | 0 => pow3Seq n A x 0
  | k + 1 => if stopped && !bigV n (mulV n A (pow3Seq n A x k)) then unitV n (pow3Seq n A x (k + 1)) else pow3Seq n A x (k + 1)

end Ellalgo
