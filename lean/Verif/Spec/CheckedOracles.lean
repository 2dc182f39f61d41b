import Verif.Spec.Checked
import Verif.Model.Lmi
import Verif.Model.Lowpass
import Verif.Model.Profit
import Verif.Model.Svm
import Verif.Model.Maxcut
import Verif.Model.Examples
import Verif.Model.ConjGrad
import Verif.Model.PowerIter

/-! The oracles' states, read as checked numbers (specification for C76). -/

namespace Ellalgo

/-- the same factorisation, read as checked numbers -/
def LDLTMgr.lift (m : LDLTMgr ℝ) : LDLTMgr Chk := ⟨m.pos, m.wit.lift, m.ndim, m.storage.lift⟩

/-- the same LMI oracle, read as checked numbers -/
def LMIOracle.lift (o : LMIOracle ℝ) : LMIOracle Chk := ⟨o.matF.map Arr.lift, o.matB.lift, o.mgr.lift⟩

/-- the same LMI0 oracle, read as checked numbers -/
def LMI0Oracle.lift (o : LMI0Oracle ℝ) : LMI0Oracle Chk := ⟨o.matF.map Arr.lift, o.mgr.lift⟩

/-- the same low-pass oracle, read as checked numbers -/
def LowpassOracle.lift (o : LowpassOracle ℝ) : LowpassOracle Chk :=
  ⟨o.moreAlt, o.idx1, o.spectrum.map Arr.lift, o.nwpass, o.nwstop, .val o.lpSq, .val o.upSq, .val o.spSq, o.idx2, o.idx3,
    o.fmax.map .val, o.kmax⟩

/-- the same cache, read as checked numbers -/
def ProfitCache.lift (c : ProfitCache ℝ) : ProfitCache Chk := ⟨.val c.logCobb, .val c.vx, c.q.lift⟩

/-- the same profit oracle, read as checked numbers -/
def ProfitOracle.lift (o : ProfitOracle ℝ) : ProfitOracle Chk :=
  ⟨o.idx, .val o.logPScale, .val o.logK, o.priceOut.lift, o.elasticities.lift, o.cache.lift⟩

/-- the same robust profit oracle, read as checked numbers -/
def ProfitRbOracle.lift (o : ProfitRbOracle ℝ) : ProfitRbOracle Chk :=
  ⟨.val o.uie0, .val o.uie1, o.omega.lift, o.elasticities.lift⟩

/-- the same discrete profit oracle, read as checked numbers -/
def ProfitOracleQ.lift (o : ProfitOracleQ ℝ) : ProfitOracleQ Chk := ⟨o.omega.lift, o.yd.lift⟩

/-- the same SVM oracle, read as checked numbers -/
def SvmOracle.lift (o : SvmOracle ℝ) : SvmOracle Chk := ⟨o.data.lift, o.labels, o.nfeat⟩

/-- the same max-cut oracle, read as checked numbers -/
def MaxcutOracle.lift (o : MaxcutOracle ℝ) : MaxcutOracle Chk := ⟨o.weights.lift, o.n⟩

/-- the same `MyOracle3`, read as checked numbers -/
def Ex3.lift (o : Ex3 ℝ) : Ex3 Chk := ⟨o.idx, .val o.target⟩

/-- the outcome of conjugate gradient, read as checked numbers -/
def liftCg : Except CgErr (Arr ℝ) → Except CgErr (Arr Chk)
  | .ok x => .ok x.lift
  | .error e => .error e

/-- the outcome of power iteration, read as checked numbers -/
def liftPow (p : (ℝ × Nat) × Arr ℝ) : (Chk × Nat) × Arr Chk := ((.val p.1.1, p.1.2), p.2.lift)

/-- the answer of the discrete profit oracle, read as checked numbers -/
noncomputable def liftOptQ (p : ((Arr ℝ × SingleCut ℝ) × Bool × Arr ℝ × Bool) × ℝ × ProfitOracleQ ℝ) :
    ((Arr Chk × SingleCut Chk) × Bool × Arr Chk × Bool) × Chk × ProfitOracleQ Chk :=
  ((liftPair p.1.1, p.1.2.1, p.1.2.2.1.lift, p.1.2.2.2), .val p.2.1, p.2.2.lift)

end Ellalgo
