import Verif.Model.Ell
import Verif.Model.EllStable
import Verif.Lib.Rep

/-! Vocabulary for statements about sequences of ellipsoid updates. -/

namespace Ellalgo

/-- the three update methods of a search space -/
inductive UpdateKind where
  | bias | central | q
  deriving DecidableEq, Repr

/-- apply one update method of a search space -/
def Space.update {S X T α : Type} (sp : Space S X T α) (k : UpdateKind) (s : S) (cut : X × T) :
    Res (CutStatus × S) :=
  match k with
  | .bias => sp.updateBias s cut
  | .central => sp.updateCentral s cut
  | .q => sp.updateQ s cut

/-- apply a sequence of updates; the trace lists every status together with the state it left -/
def Space.run {S X T α : Type} (sp : Space S X T α) : S → List (UpdateKind × X × T) →
    Res (List (CutStatus × S))
  | _, [] => .ok []
  | s, (k, cut) :: rest => do
    let (st, s') ← sp.update k s cut
    let tr ← sp.run s' rest
    .ok ((st, s') :: tr)

variable {α : Type} {T : Type} [CutType T α]

/-- the strategy (status and parameters `(rho, sigma, delta)`) a cut chooses for an update kind -/
def CutType.call (k : UpdateKind) (c : T) (h : EllCalc α) (tsq : α) : CutStatus × Triple α :=
  match k with
  | .bias => CutType.callBias c h tsq
  | .central => CutType.callCentral c h tsq
  | .q => CutType.callQ c h tsq

/-- shapes of an `n`-dimensional ellipsoid: `mq` is `n × n`, `xc` has length `n` -/
def Ell.Shaped (e : Ell α) (n : Nat) : Prop := e.mq.IsMatShape n n ∧ e.xc.IsVecShape n
/-- same for `EllStable` -/
def EllStable.Shaped (e : EllStable α) (n : Nat) : Prop :=
  e.mq.IsMatShape n n ∧ e.xc.IsVecShape n

/-- the stored matrix is exactly symmetric -/
def Arr.Symm [Zero α] (a : Arr α) (n : Nat) : Prop :=
  ∀ i j, i < n → j < n → a.mat i j = a.mat j i

end Ellalgo
