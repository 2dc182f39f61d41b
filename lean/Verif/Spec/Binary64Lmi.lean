import Verif.Spec.Binary64Iter
import Verif.Spec.RoundedLmi
import Verif.Lib.LdltGeneric
import Verif.Lib.LmiOld

/-! When the LMI oracles stay in the range of `f64`: vocabulary.  Everything is said of arithmetic rounded to 53 bits, and only of
operations that the factorisation, the witness and the gradient carry out. -/

namespace Ellalgo

section
variable {α : Type} [Scalar α]

/-- `r + t 0 + t 1 + ... + t (j-1)`, left to right -/
def addFrom (r : α) (t : Nat → α) : Nat → α
  | 0 => r
  | j + 1 => addFrom r t j + t j

/-- the running value of `Σ_i Σ_j v_i f_ij v_j` (`i, j < q`) before row `i` -/
def quadTo (q : Nat) (v : Nat → α) (f : Nat → Nat → α) : Nat → α
  | 0 => 0
  | i + 1 => addFrom (quadTo q v f i) (fun j => v i * f i j * v j) q

/-- `v` is the vector that back substitution computes from the rejected pivot `p`: `v_p = 1` and `v_i = - Σ_{i < k ≤ p} S_ki v_k` -/
def IsWit (p : Nat) (S : Nat → Nat → α) (v : Nat → α) : Prop :=
  v p = 1 ∧ ∀ i < p, v i = - sumTo (p - i) fun j => S (i + 1 + j) i * v (i + 1 + j)

end

/-- row `p` of the factorisation stays in range: the sums, the differences from the entries, the quotients by the earlier pivots -/
def RowSafe (A S : Nat → Nat → Fl bin53) (p : Nat) : Prop :=
  ∀ b ≤ p, (∀ k < b, MulOk (S p k) (S k b)) ∧ (SumOk b fun k => S p k * S k b) ∧
    (0 < b → SubOk (A p b) (sumTo b fun k => S p k * S k b)) ∧ (b < p → DivOk (S b p) (S b b))

/-- the back substitution stays in range -/
def WitSafe (p : Nat) (S : Nat → Nat → Fl bin53) (v : Nat → Fl bin53) : Prop :=
  ∀ i < p, (∀ j < p - i, MulOk (S (i + 1 + j) i) (v (i + 1 + j))) ∧ SumOk (p - i) fun j => S (i + 1 + j) i * v (i + 1 + j)

/-- the quadratic form `Σ_ij v_i f_ij v_j` stays in range -/
def QuadSafe (q : Nat) (v : Nat → Fl bin53) (f : Nat → Nat → Fl bin53) : Prop :=
  ∀ i < q, ∀ j < q, MulOk (v i) (f i j) ∧ MulOk (v i * f i j) (v j) ∧
    AddOk (addFrom (quadTo q v f i) (fun j => v i * f i j * v j) j) (v i * f i j * v j)

/-- factoring the `n × n` matrix `A` and, when a pivot is rejected, computing the witness and the quadratic forms of the matrices
`F 0, ..., F (d-1)` stays in range.  `E i j` says that computing the entry `A i j` does; `S` is the table of the factorisation. -/
structure LdlSafe (n d : Nat) (A : Nat → Nat → Fl bin53) (E : Nat → Nat → Prop) (F : Nat → Nat → Nat → Fl bin53) : Prop where
  /-- a row that is reached: no earlier pivot was rejected -/
  row : ∀ S p, p < n → LDLTMgr.BlkG A S (p + 1) → (∀ a < p, Scalar.le (S a a) 0 = false) → (∀ j ≤ p, E p j) ∧ RowSafe A S p
  /-- pivot `p` is the first one rejected -/
  cut : ∀ S p v, p < n → LDLTMgr.BlkG A S (p + 1) → (∀ a < p, Scalar.le (S a a) 0 = false) → Scalar.le (S p p) 0 = true →
    IsWit p S v → WitSafe p S v ∧ ∀ k < d, QuadSafe (p + 1) v (F k)

/-- a query of `LMIOracle` (or of `LMIOldOracle`) at `x` stays in range; the entries factored are `B_ij - F_0ij x_0 - F_1ij x_1 - ...` -/
def LMIOracle.Safe (n d : Nat) (o : LMIOracle (Fl bin53)) (x : Arr (Fl bin53)) : Prop :=
  LdlSafe n d (fun i j => subTo (o.matB.mat i j) (fun k => fEntry o.matF k i j * x.vec k) d)
    (fun i j => ∀ k < d, MulOk (fEntry o.matF k i j) (x.vec k) ∧
      SubOk (subTo (o.matB.mat i j) (fun k => fEntry o.matF k i j * x.vec k) k) (fEntry o.matF k i j * x.vec k))
    (fEntry o.matF)

/-- a query of `LMI0Oracle` at `x` stays in range; the entries factored are `0 + F_0ij x_0 + F_1ij x_1 + ...` -/
def LMI0Oracle.Safe (n d : Nat) (o : LMI0Oracle (Fl bin53)) (x : Arr (Fl bin53)) : Prop :=
  LdlSafe n d (fun i j => sumTo d fun k => fEntry o.matF k i j * x.vec k)
    (fun i j => (∀ k < d, MulOk (fEntry o.matF k i j) (x.vec k)) ∧ SumOk d fun k => fEntry o.matF k i j * x.vec k)
    (fEntry o.matF)

/-- the same `d` matrices, `n × n` -/
structure SameMats (d n : Nat) (fs : List (Arr B64)) (fs' : List (Arr (Fl bin53))) : Prop where
  same : List.Forall₂ Arr.Same fs fs'
  length : fs'.length = d
  shape : ∀ f ∈ fs', f.IsMatShape n n

/-- the same matrices, with managers for `n × n` matrices in any state -/
structure LMIOracle.Same64 (d n : Nat) (o : LMIOracle B64) (o' : LMIOracle (Fl bin53)) : Prop where
  mats : SameMats d n o.matF o'.matF
  matB : o.matB.Same o'.matB
  shape : o'.matB.IsMatShape n n
  mgr : o.mgr.Sized n
  mgr' : o'.mgr.Sized n

structure LMI0Oracle.Same64 (d n : Nat) (o : LMI0Oracle B64) (o' : LMI0Oracle (Fl bin53)) : Prop where
  mats : SameMats d n o.matF o'.matF
  mgr : o.mgr.Sized n
  mgr' : o'.mgr.Sized n

/-- the real matrix `B - Σ_k x_k F_k` that `f64` data stand for, and the sizes of the terms of its entries -/
noncomputable def lmiMat64 (d n : Nat) (fs : List (Arr B64)) (b x : Arr B64) : Matrix (Fin n) (Fin n) ℝ :=
  b.mat64 n - ∑ k : Fin d, x.vec64 d k • (fs.getD k (Arr.new 0)).mat64 n
noncomputable def lmiSize64 (d n : Nat) (fs : List (Arr B64)) (b x : Arr B64) (i j : Fin n) : ℝ :=
  |b.mat64 n i j| + ∑ k : Fin d, |x.vec64 d k| * |(fs.getD k (Arr.new 0)).mat64 n i j|

end Ellalgo
