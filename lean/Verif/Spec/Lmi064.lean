import Verif.Spec.Lmi64

/-! The homogeneous LMI oracle in any arithmetic: vocabulary. -/

namespace Ellalgo
variable {α : Type} [Scalar α]

/-- the entries that are factored: `F_0ij x_0 + F_1ij x_1 + ...`, left to right from 0 (lmi0_oracle.rs:18-24) -/
def LMI0Oracle.entryOf (o : LMI0Oracle α) (d : Nat) (x : Arr α) (i j : Nat) : α :=
  sumTo d fun k => fEntry o.matF k i j * x.vec k

/-- `d` matrices, all `n × n`, and a manager for `n × n` matrices in any state -/
structure LMI0Oracle.ForSize (o : LMI0Oracle α) (d n : Nat) : Prop where
  mats : ∀ f ∈ o.matF, f.IsMatShape n n
  count : o.matF.length = d
  mgr : o.mgr.Sized n

/-- the real matrix `Σ_k x_k F_k` that `f64` data stand for, and the sizes of the terms of its entries -/
noncomputable def lmi0Mat64 (d n : Nat) (fs : List (Arr B64)) (x : Arr B64) : Matrix (Fin n) (Fin n) ℝ :=
  ∑ k : Fin d, x.vec64 d k • (fs.getD k (Arr.new 0)).mat64 n
noncomputable def lmi0Size64 (d n : Nat) (fs : List (Arr B64)) (x : Arr B64) (i j : Fin n) : ℝ :=
  ∑ k : Fin d, |x.vec64 d k| * |(fs.getD k (Arr.new 0)).mat64 n i j|

end Ellalgo
