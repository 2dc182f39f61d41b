import Verif.Spec.Binary64Lmi

/-! The LMI oracles in any arithmetic: vocabulary. -/

namespace Ellalgo
variable {α : Type} [Scalar α]

/-- the entries that are factored: `B_ij - F_0ij x_0 - F_1ij x_1 - ...`, left to right (lmi_oracle.rs:28-34) -/
def LMIOracle.entryOf (o : LMIOracle α) (d : Nat) (x : Arr α) (i j : Nat) : α :=
  subTo (o.matB.mat i j) (fun k => fEntry o.matF k i j * x.vec k) d

/-- `d` matrices and a constant one, all `n × n`, and a manager for `n × n` matrices in any state -/
structure LMIOracle.ForSize (o : LMIOracle α) (d n : Nat) : Prop where
  mats : ∀ f ∈ o.matF, f.IsMatShape n n
  count : o.matF.length = d
  matB : o.matB.IsMatShape n n
  mgr : o.mgr.Sized n

/-- `o'` has the same matrices as `o` -/
def LMIOracle.SameMatrices (o o' : LMIOracle α) : Prop := o'.matF = o.matF ∧ o'.matB = o.matB

/-- `S` holds the first `q` rows of the factorisation of `A` as computed: the pivots `S_aa` on the diagonal, the multipliers below it -/
structure LdlTable (A S : Nat → Nat → α) (q : Nat) : Prop where
  first : ∀ a < q, S 0 a = A a 0
  upper : ∀ a < q, ∀ b ≤ a, 0 < b → S b a = A a b - sumTo b fun k => S a k * S k b
  lower : ∀ a < q, ∀ b < a, S a b = S b a / S b b

/-- factoring `A` meets no pivot that compares as `≤ 0` -/
def LdlPasses (A : Nat → Nat → α) (n : Nat) : Prop := ∃ S, LdlTable A S n ∧ ∀ a < n, Scalar.le (S a a) 0 = false

/-- factoring `A` stops at the pivot `S_pp`, the first that compares as `≤ 0`, and `v` is the vector found by back substitution -/
structure LdlStops (A : Nat → Nat → α) (n p : Nat) (S : Nat → Nat → α) (v : Nat → α) : Prop where
  row : p < n
  table : LdlTable A S (p + 1)
  before : ∀ a < p, Scalar.le (S a a) 0 = false
  stop : Scalar.le (S p p) 0 = true
  wit : IsWit p S v

end Ellalgo
