import Verif.Spec.Binary64Iter
import Verif.Model.Lowpass
import Verif.Model.Svm

/-! When the low-pass and the SVM oracle stay in the range of `f64`: vocabulary. -/

namespace Ellalgo

/-- a low-pass oracle in `f64` and one in `Fl bin53` with the same table, bounds and positions -/
structure LowpassOracle.Same64 (o : LowpassOracle B64) (o' : LowpassOracle (Fl bin53)) : Prop where
  moreAlt : o.moreAlt = o'.moreAlt
  idx1 : o.idx1 = o'.idx1
  idx2 : o.idx2 = o'.idx2
  idx3 : o.idx3 = o'.idx3
  nwpass : o.nwpass = o'.nwpass
  nwstop : o.nwstop = o'.nwstop
  kmax : o.kmax = o'.kmax
  spectrum : List.Forall₂ Arr.Same o.spectrum o'.spectrum
  lpSq : Same o.lpSq o'.lpSq
  upSq : Same o.upSq o'.upSq
  spSq : Same o.spSq o'.spSq
  fmax : OptRel Same o.fmax o'.fmax

/-- the response at one frequency and its distances from the bounds (lowpass_oracle.rs:68-119), stopband bound `sp` -/
def LowpassOracle.RowSafe (n : Nat) (o : LowpassOracle (Fl bin53)) (sp : Fl bin53) (x col : Arr (Fl bin53)) : Prop :=
  col.IsVecShape n ∧ DotSafe n col.vec x.vec ∧
  SubOk (dotV n col.vec x.vec) o.upSq ∧ SubOk (dotV n col.vec x.vec) o.lpSq ∧ SubOk (dotV n col.vec x.vec) sp ∧
  AddOk (-dotV n col.vec x.vec) o.lpSq ∧ AddOk (-dotV n col.vec x.vec) o.upSq ∧ AddOk (-dotV n col.vec x.vec) sp

/-- a query at `x` with stopband bound `sp` stays in range at every frequency of the table -/
def LowpassOracle.Safe (n : Nat) (o : LowpassOracle (Fl bin53)) (sp : Fl bin53) (x : Arr (Fl bin53)) : Prop :=
  x.IsVecShape n ∧ ∀ col ∈ o.spectrum, o.RowSafe n sp x col

/-- the real `m × n` matrix that an array of `f64` numbers stands for -/
noncomputable def Arr.rect64 (m n : Nat) (a : Arr B64) : Matrix (Fin m) (Fin n) ℝ := fun i j => (a.mat i j).val

/-- an SVM oracle in `f64` and one in `Fl bin53` with the same samples, labels and number of features -/
structure SvmOracle.Same64 (o : SvmOracle B64) (o' : SvmOracle (Fl bin53)) : Prop where
  data : o.data.Same o'.data
  labels : o.labels = o'.labels
  nfeat : o.nfeat = o'.nfeat

/-- a query at `x = (w, b)` stays in range: samples and labels are as many as rows, labels are `i32`, and so does `y_i (w · x_i + b)` and the
gradient `-y_i x_i` of every sample (svm_oracle.rs:29-56) -/
structure SvmOracle.Safe (m n : Nat) (o : SvmOracle (Fl bin53)) (x : Arr (Fl bin53)) : Prop where
  pos : 0 < n
  point : x.IsVecShape (n + 1)
  data : o.data.IsMatShape m n
  nfeat : o.nfeat = n
  labels : o.labels.length = m ∧ ∀ y ∈ o.labels, |y| ≤ 2 ^ 31
  dot : ∀ i < m, DotSafe n x.vec (o.data.mat i)
  bias : ∀ i < m, AddOk (dotV n x.vec (o.data.mat i)) (x.vec n)
  margin : ∀ i < m, MulOk (Scalar.ofInt (o.labels.getD i 0)) (dotV n x.vec (o.data.mat i) + x.vec n)
  grad : ∀ i < m, ∀ j < n, MulOk (-Scalar.ofInt (o.labels.getD i 0)) (o.data.mat i j)

end Ellalgo
