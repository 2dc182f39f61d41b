import Verif.Spec.Binary64RunQ
import Verif.Spec.Binary64Lmi
import Verif.Model.EllStable

/-! When updates and runs of `EllStable` stay in the range of `f64`.  As for `Ell` (`Spec/Binary64Run.lean`), the predicates follow the
operations of the code one by one and speak only about the run in `Fl bin53`. -/

namespace Ellalgo
namespace EllStable

section
variable {α : Type} [Scalar α]

/-- `w` is what the forward substitution (ell_stable.rs:61-69) leaves of the gradient `g`: `w_i = g_i - m_0i w_0 - m_1i w_1 - …`, `m` the
entries above the diagonal -/
def IsFwd (n : Nat) (m : Nat → Nat → α) (g w : Nat → α) : Prop := ∀ i < n, w i = subTo (g i) (fun j => m j i * w j) i

/-- `h` is what the backward substitution (ell_stable.rs:93-98) makes of `z`: `h_i = z_i - s_{i+1,i} h_{i+1} - s_{i+2,i} h_{i+2} - …` with
the entries `s_li = m_il w_i` the forward substitution has left below the diagonal -/
def IsBwd (n : Nat) (m : Nat → Nat → α) (w z h : Nat → α) : Prop :=
  ∀ i < n, h i = subTo (z i) (fun k => m i (i + 1 + k) * w i * h (i + 1 + k)) (n - 1 - i)

end

/-- an `EllStable` in `f64` and one in `Fl bin53` with the same numbers -/
structure Same64 (a : EllStable B64) (b : EllStable (Fl bin53)) : Prop where
  mq : a.mq.Same b.mq
  xc : a.xc.Same b.xc
  kappa : Ellalgo.Same a.kappa b.kappa
  helper : a.helper.Same b.helper
  tsq : Ellalgo.Same a.tsq b.tsq

/-- the rank-one update of the factors stays in range (ell_stable.rs:107-121): `t_0 = ω / (σ / (1 - σ))`, `t_{j+1} = t_j + p_j`; row `j`
uses `z_j / t_{j+1}` and `t_j / t_{j+1}` -/
structure FactorSafe (n : Nat) (m : Nat → Nat → Fl bin53) (w z p : Nat → Fl bin53) (om σ : Fl bin53) (t : Nat → Fl bin53) : Prop where
  mu : SubOk 1 σ ∧ DivOk σ (1 - σ) ∧ DivOk om (σ / (1 - σ))
  diag : ∀ j < n, AddOk (t j) (p j) ∧ DivOk (t j) (t (j + 1)) ∧ MulOk (m j j) (t j / t (j + 1))
  upper : ∀ j l, j < l → l < n → DivOk (z j) (t (j + 1)) ∧ MulOk (z j / t (j + 1)) (m j l * w j) ∧
    AddOk (m j l) (z j / t (j + 1) * (m j l * w j))

variable {T T' Ω Ω' : Type} [Cut64 T T'] [CutType T B64] [CutType T' (Fl bin53)]

/-- the operations of one update stay in range (`update_core`, ell_stable.rs:52-125): `m`, `x`, `g` are the entries of the stored factors,
of the centre and of the gradient, `w` and `h` the results of the forward and the backward substitution -/
structure UpdateSafe (n : Nat) (k : UpdateKind) (e : EllStable (Fl bin53)) (cut : Arr (Fl bin53) × T') (w h : Nat → Fl bin53) (om : Fl bin53) :
    Prop where
  /-- forward substitution -/
  fwd : ∀ i < n, ∀ j < i, MulOk (e.mq.mat j i) (w j) ∧
    SubOk (subTo (cut.1.vec i) (fun j => e.mq.mat j i * w j) j) (e.mq.mat j i * w j)
  /-- multiplication by the diagonal, products and sum of `ω` -/
  scale : ∀ i < n, MulOk (w i) (e.mq.mat i i)
  gprod : ∀ i < n, MulOk (w i * e.mq.mat i i) (w i)
  gsum : SumOk n fun i => w i * e.mq.mat i i * w i
  tsq : MulOk e.kappa om
  /-- the choice of the parameters -/
  strategy : Cut64.safe k cut.2 e.helper (e.kappa * om)
  /-- backward substitution, change of centre, factors and `kappa`, with the parameters `ρ`, `σ`, `δ` chosen -/
  step : ∀ ρ σ δ, CutType.call k cut.2 e.helper (e.kappa * om) = (.success, ρ, σ, δ) →
    (∀ i < n, ∀ k < n - 1 - i, MulOk (e.mq.mat i (i + 1 + k) * w i) (h (i + 1 + k)) ∧
      SubOk (subTo (w i * e.mq.mat i i) (fun k => e.mq.mat i (i + 1 + k) * w i * h (i + 1 + k)) k)
        (e.mq.mat i (i + 1 + k) * w i * h (i + 1 + k))) ∧
    DivOk ρ om ∧ (∀ i < n, MulOk (ρ / om) (h i) ∧ SubOk (e.xc.vec i) (ρ / om * h i)) ∧ MulOk e.kappa δ ∧
    FactorSafe n e.mq.mat w (fun i => w i * e.mq.mat i i) (fun i => w i * e.mq.mat i i * w i) om σ
      (addFrom (om / (σ / (1 - σ))) fun i => w i * e.mq.mat i i * w i)

/-- one update stays in range -/
def Safe (n : Nat) (k : UpdateKind) (e : EllStable (Fl bin53)) (cut : Arr (Fl bin53) × T') : Prop :=
  ∀ w h, IsFwd n e.mq.mat cut.1.vec w → IsBwd n e.mq.mat w (fun i => w i * e.mq.mat i i) h →
    UpdateSafe n k e cut w h (sumTo n fun i => w i * e.mq.mat i i * w i)

/-- every step of a run of the feasibility loop stays in range: the oracle's (`P`) and the update's -/
def FeasSafe (orc' : OracleFeas Ω' (Arr (Fl bin53)) T' (Fl bin53)) (n : Nat) (P : Ω' → Arr (Fl bin53) → Prop) (tol : Fl bin53) :
    Nat → Ω' → EllStable (Fl bin53) → Prop
  | 0, _, _ => True
  | k + 1, w, e => P w e.xc ∧ ∀ c w', orc'.assess w e.xc = .ok (some c, w') → c.1.IsVecShape n ∧ Safe n .bias e c ∧
      ∀ e', space.updateBias e c = .ok (.success, e') → Scalar.lt e'.tsq tol = false → FeasSafe orc' n P tol k w' e'

/-- every step of a run of the optimisation loop stays in range: the oracle's (`P`) and the update's -/
def OptimSafe (orc' : OracleOptim Ω' (Arr (Fl bin53)) T' (Fl bin53)) (n : Nat) (P : Ω' → Arr (Fl bin53) → Fl bin53 → Prop)
    (tol : Fl bin53) : Nat → Ω' → EllStable (Fl bin53) → Fl bin53 → Prop
  | 0, _, _, _ => True
  | k + 1, w, e, g => P w e.xc g ∧ ∀ c s g' w', orc'.assess w e.xc g = .ok ((c, s), g', w') → c.1.IsVecShape n ∧
      Safe n (if s then .central else .bias) e c ∧
      ∀ e', space.update (if s then .central else .bias) e c = .ok (.success, e') → Scalar.lt e'.tsq tol = false →
        OptimSafe orc' n P tol k w' e' g'

/-- every step of a run of the discrete optimisation loop stays in range: the oracle's (`P`) and the update's.  The flag is `retry`. -/
def OptimQSafe (orc' : OracleOptimQ Ω' (Arr (Fl bin53)) T' (Fl bin53)) (n : Nat) (P : Ω' → Arr (Fl bin53) → Fl bin53 → Bool → Prop)
    (tol : Fl bin53) : Nat → Ω' → EllStable (Fl bin53) → Fl bin53 → Bool → Prop
  | 0, _, _, _, _ => True
  | k + 1, w, e, g, retry => P w e.xc g retry ∧ ∀ c s x more g' w', orc'.assess w e.xc g retry = .ok ((c, s, x, more), g', w') →
      c.1.IsVecShape n ∧ Safe n .q e c ∧
      ∀ st e', space.updateQ e c = .ok (st, e') → Scalar.lt e'.tsq tol = false →
        (st = .success → OptimQSafe orc' n P tol k w' e' g' false) ∧
        (st = .noEffect → more = true → OptimQSafe orc' n P tol k w' e' g' true) ∧
        (st = .unknown → OptimQSafe orc' n P tol k w' e' g' (if s then false else retry))

end EllStable
end Ellalgo
