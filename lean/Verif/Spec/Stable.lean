import Verif.Spec.Ellipsoid

/-! Vocabulary for `EllStable`. -/

namespace Ellalgo
open Matrix

/-- the stored matrix of an `EllStable` -/
def EllStable.M (n : Nat) (s : EllStable ℝ) : Matrix (Fin n) (Fin n) ℝ := s.mq.toMat n n
/-- the centre of an `EllStable` -/
def EllStable.c (n : Nat) (s : EllStable ℝ) : Fin n → ℝ := s.xc.toVec n
/-- the region an `EllStable` stands for (documentation of `EllStable`, ell_stable.rs:5-7).  The matrix is read
as `M` itself; the code reads it as the factors of `M`.  For the diagonal matrices of the theorems the two
readings are the same. -/
def EllStable.region (n : Nat) (s : EllStable ℝ) : Set (Fin n → ℝ) := ellipsoid (s.M n) s.kappa (s.c n)
/-- squared volume, as `Ell.vol2` -/
noncomputable def EllStable.vol2 (n : Nat) (s : EllStable ℝ) : ℝ := (s.kappa • s.M n).det

/-- well-shaped, with a diagonal matrix (as `EllStable::new` and `EllStable::new_with_scalar` build it) -/
structure EllStable.Diagonal (n : Nat) (s : EllStable ℝ) : Prop where
  shaped : s.Shaped n
  off : ∀ i j : Fin n, i ≠ j → s.M n i j = 0

/-- the `Ell` with the same matrix, centre, `kappa` and calculator -/
def EllStable.asEll (s : EllStable ℝ) : Ell ℝ :=
  { noDeferTrick := false, mq := s.mq, xc := s.xc, kappa := s.kappa, helper := s.helper, tsq := s.tsq }

/-- the observable state of an `EllStable` and of an `Ell` is the same: centre, matrix, `kappa` and `tsq` -/
def EllStable.SameAs (n : Nat) (s : EllStable ℝ) (e : Ell ℝ) : Prop :=
  s.M n = e.M n ∧ s.c n = e.c n ∧ s.kappa = e.kappa ∧ s.tsq = e.tsq

end Ellalgo
