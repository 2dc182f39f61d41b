import Verif.Spec.Oracles64
import Verif.Spec.Profit64
import Verif.Spec.Svm

/-! The SVM oracle in IEEE `f64`: vocabulary. -/

namespace Ellalgo

/-- `m` samples with `n ≥ 1` features each, and `m` labels -/
structure SvmOracle.Shaped {α : Type} (o : SvmOracle α) (m n : Nat) : Prop where
  pos : 0 < n
  data : o.data.IsMatShape m n
  labels : o.labels.length = m
  nfeat : o.nfeat = n

/-- the margin `y_i (w · x_i + b)` of sample `i` as computed in the arithmetic `α`, for the classifier `x = (w, b)` (svm_oracle.rs:31-35) -/
def SvmOracle.marginOf {α : Type} [Scalar α] (o : SvmOracle α) (n : Nat) (x : Arr α) (i : Nat) : α :=
  Scalar.ofInt (o.labels.getD i 0) * ((sumTo n fun j => x.vec j * o.data.mat i j) + x.vec n)

/-- an `SvmOracle` in `f64` with labels `y` of type `i32` and finite samples -/
structure SvmOracle.For64 (o : SvmOracle B64) (m n : Nat) (y : Fin m → ℤ) : Prop where
  pos : 0 < n
  data : o.data.IsMatShape m n
  finite : o.data.AllFinite
  labels : o.labels = List.ofFn y
  i32 : ∀ i, |y i| ≤ 2 ^ 31
  nfeat : o.nfeat = n

/-- a classifier `z = (w, b)` of ordinary size for the samples `X`: the terms `X i j * w j` and `b` are not beyond 2⁹⁰⁰, and no term is below the
smallest normal number -/
structure SvmTameAt {m n : Nat} (X : Matrix (Fin m) (Fin n) ℝ) (z : Fin (n + 1) → ℝ) : Prop where
  under : ∀ i j, NoUnder (X i j * z j.castSucc)
  over : ∀ i j, |X i j * z j.castSucc| ≤ (2 : ℝ) ^ (900 : ℤ)
  bias : |z (Fin.last n)| ≤ (2 : ℝ) ^ (900 : ℤ)

/-- what the answer of the SVM oracle in `f64` says about the computed margins -/
def SvmOracle.Verdict (o : SvmOracle B64) (m n : Nat) (x : Arr B64) (v : B64) : Prop :=
  (v = 0 ∧ ∀ j < m, Scalar.lt (o.marginOf n x j) 1 = false) ∨
    (Scalar.lt v 1 = true ∧ (∃ i < m, v = o.marginOf n x i) ∧ ∀ j < m, Scalar.lt (o.marginOf n x j) v = false)

end Ellalgo
