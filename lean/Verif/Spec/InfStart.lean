import Verif.Spec.Checked
import Verif.Model.EllStable
import Verif.Model.TestOracles
import Mathlib.Order.Filter.AtTopBot.Basic

/-! Specification for C85: runs whose first `gamma` is `f64::NEG_INFINITY` or `f64::INFINITY`. -/

namespace Ellalgo

/-- `f64::INFINITY` -/
abbrev Chk.posInf : Chk := .inf true
/-- `f64::NEG_INFINITY` -/
abbrev Chk.negInf : Chk := .inf false

/-- neither `+∞` nor `-∞` -/
def Chk.NoInf (a : Chk) : Prop := ∀ s, a ≠ .inf s

/-- every entry satisfies `P` -/
def Arr.All {α : Type} (P : α → Prop) (a : Arr α) : Prop := ∀ v ∈ a.data, P v

/-- every number of the strategy parameters satisfies `P` -/
def EllCalc.All {α : Type} (P : α → Prop) (c : EllCalc α) : Prop :=
  P c.nF ∧ P c.helper.nF ∧ P c.helper.nPlus1 ∧ P c.helper.halfN ∧ P c.helper.invN ∧ P c.helper.cst1 ∧ P c.helper.cst2

/-- every number of the ellipsoid satisfies `P` (`tsq` is left out: it is written before it is read) -/
def Ell.All {α : Type} (P : α → Prop) (e : Ell α) : Prop := e.mq.All P ∧ e.xc.All P ∧ P e.kappa ∧ e.helper.All P

/-- every number of the stable ellipsoid satisfies `P` -/
def EllStable.All {α : Type} (P : α → Prop) (e : EllStable α) : Prop :=
  e.mq.All P ∧ e.xc.All P ∧ P e.kappa ∧ e.helper.All P

/-- every number of the portfolio satisfies `P` -/
def Portfolio.All (P : Chk → Prop) (p : Portfolio Chk) : Prop :=
  p.expectedReturns.All P ∧ p.riskMatrix.All P ∧ P p.maxRisk ∧ P p.budget

/-- The outcome of a run that started at `top`, read off from the outcome of a run that started at a finite value: the same
`x_best`, iteration count, oracle and space, and the same `gamma` unless no point was found, where `gamma` is still `top`. -/
def fromTop {X Ω S : Type} (top : Chk) (r : (Option X × Nat) × Chk × Ω × S) : (Option X × Nat) × Chk × Ω × S :=
  if r.1.1.isSome then r else (r.1, top, r.2.2)

/-- The answer of an oracle asked with `gamma = top`, read off from its answer to a finite `gamma`: the same cut, and the same new
`gamma` unless no better point was found, where `gamma` is still `top`. -/
def answerFromTop {C Ω : Type} (top : Chk) (r : (C × Bool) × Chk × Ω) : (C × Bool) × Chk × Ω :=
  if r.1.2 then r else (r.1, top, r.2.2)

/-- Asked with `gamma = top`, the oracle answers as with every finite `gamma` far enough in the direction `l` (`atBot` or
`atTop`), at every point of which no coordinate is infinite; its cuts contain no infinite numbers. -/
def OracleOptim.BlankAt {Ω : Type} (l : Filter ℝ) (top : Chk) (orc : OracleOptim Ω (Arr Chk) (SingleCut Chk) Chk)
    (J : Ω → Prop) : Prop :=
  ∀ w x, J w → x.All Chk.NoInf →
    (∀ᶠ γ in l, orc.assess w x top = (orc.assess w x (.val γ)).map (answerFromTop top) ∧
      ∀ c s γ' w', orc.assess w x (.val γ) = .ok ((c, s), γ', w') → s = false → γ' = .val γ) ∧
    ∀ c s γ' w', orc.assess w x top = .ok ((c, s), γ', w') → J w' ∧ c.1.All Chk.NoInf ∧ c.2.beta.NoInf

end Ellalgo
