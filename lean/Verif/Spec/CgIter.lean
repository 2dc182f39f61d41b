import Verif.Lib.Loop
import Verif.Spec.RoundedPower
import Verif.Model.ConjGrad

/-! The textbook conjugate gradient iterates, evaluated in whatever arithmetic `α` stands for.  Nothing here refers to the model of
the code except the names of its two errors; vectors and matrices are functions of their indices. -/

namespace Ellalgo
variable {α : Type} [Scalar α]

/-- an iterate: the point, the residual the recurrence carries, the search direction and the square of that residual -/
structure CgIt (α : Type) where
  x : Nat → α
  r : Nat → α
  p : Nat → α
  rr : α

/-- `A v` and `vᵀ w`, summed from left to right -/
def mulV (n : Nat) (A : Nat → Nat → α) (v : Nat → α) (i : Nat) : α := sumTo n fun j => A i j * v j
def dotV (n : Nat) (v w : Nat → α) : α := sumTo n fun i => v i * w i

/-- `pᵀ A p` of an iterate -/
def CgIt.curv (n : Nat) (A : Nat → Nat → α) (s : CgIt α) : α := dotV n s.p (mulV n A s.p)

/-- `r₀ = b - A x₀`, `p₀ = r₀` -/
def cgFirst (n : Nat) (A : Nat → Nat → α) (b x : Nat → α) : CgIt α :=
  let r := fun i => b i - mulV n A x i
  ⟨x, r, r, dotV n r r⟩

/-- `x' = x + s p`, `r' = r - s A p` with `s = rᵀr / pᵀAp`; then `p' = r' + (r'ᵀr' / rᵀr) p` -/
def cgNext (n : Nat) (A : Nat → Nat → α) (s : CgIt α) : CgIt α :=
  let step := s.rr / s.curv n A
  let r' := fun i => s.r i - step * mulV n A s.p i
  let rr' := dotV n r' r'
  ⟨fun i => s.x i + step * s.p i, r', fun i => r' i + rr' / s.rr * s.p i, rr'⟩

/-- the `k`-th iterate -/
def cgAt (n : Nat) (A : Nat → Nat → α) (b x : Nat → α) : Nat → CgIt α
  | 0 => cgFirst n A b x
  | k + 1 => cgNext n A (cgAt n A b x k)

/-- the test that ends the method: the Euclidean norm of the carried residual is below the tolerance -/
def CgIt.done (tol : α) (s : CgIt α) : Bool := Scalar.lt (Scalar.sqrt s.rr) tol
/-- the test that gives up: `pᵀ A p = 0` -/
def CgIt.stuck (n : Nat) (A : Nat → Nat → α) (s : CgIt α) : Bool := Scalar.beq (s.curv n A) 0

/-- how the method ends when iterates `0, 1, …` are produced, the test is applied to iterates `1, 2, …`, and at most `m` are made -/
inductive CgEnds (n : Nat) (A : Nat → Nat → α) (tol : α) (it : Nat → CgIt α) (m : Nat) : Except CgErr (Nat → α) → Prop where
  /-- iterate `k` is the first to pass the test -/
  | done (k : Nat) (h1 : 1 ≤ k) (h2 : k ≤ m) (h3 : (it k).done tol = true) (h4 : ∀ j, 1 ≤ j → j < k → (it j).done tol = false)
      (h5 : ∀ j < k, (it j).stuck n A = false) : CgEnds n A tol it m (.ok (it k).x)
  /-- iterate `k` has no curvature along its direction, and none before passed the test -/
  | stuck (k : Nat) (h2 : k < m) (h3 : (it k).stuck n A = true) (h4 : ∀ j, 1 ≤ j → j ≤ k → (it j).done tol = false)
      (h5 : ∀ j < k, (it j).stuck n A = false) : CgEnds n A tol it m (.error .breakdown)
  /-- none of the `m` iterates passes -/
  | out (h4 : ∀ j, 1 ≤ j → j ≤ m → (it j).done tol = false) (h5 : ∀ j < m, (it j).stuck n A = false) :
      CgEnds n A tol it m (.error .maxIters)

section
variable {u : ℝ} {R : Rounding u}
/-- the real vector a rounded vector stands for -/
noncomputable def realVec (n : Nat) (v : Nat → Fl R) : Fin n → ℝ := fun i => (v i).val
/-- the real matrix a rounded matrix stands for -/
noncomputable def realMat (n : Nat) (A : Nat → Nat → Fl R) : Matrix (Fin n) (Fin n) ℝ := fun i j => (A i j).val
end

end Ellalgo
