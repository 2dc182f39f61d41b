import Verif.Spec.Ldlt

/-! Specification side of the exact acceptance criterion of `factor_with_allow_semidefinite` (C32). -/

namespace Ellalgo

/-- the diagonal block of rows and columns `s, …, e - 1` of the symmetric matrix with lower triangle `A` -/
def diagBlock (A : Nat → Nat → ℝ) (s e : Nat) : Matrix (Fin (e - s)) (Fin (e - s)) ℝ :=
  lowerSym (e - s) fun i j => A (s + i) (s + j)

/-- The rows `s, …, n - 1` split into consecutive diagonal blocks: the last one positive definite (or empty), every
other one positive semidefinite, not positive definite, and positive definite without its last row. -/
inductive SemiBlocks (A : Nat → Nat → ℝ) (n : Nat) : Nat → Prop
  | last {s : Nat} : s ≤ n → (diagBlock A s n).PosDef → SemiBlocks A n s
  | block {s e : Nat} : s ≤ e → e < n → (diagBlock A s e).PosDef → (diagBlock A s (e + 1)).PosSemidef →
      ¬ (diagBlock A s (e + 1)).PosDef → SemiBlocks A n (e + 1) → SemiBlocks A n s

end Ellalgo
