import Verif.Spec.RoundedConverge

/-! Specification for C110: parallel cuts in rounded arithmetic. -/

namespace Ellalgo
open Matrix
variable {u : ℝ} {R : Rounding u}

/-- A search space of dimension `n` whose ellipsoid `{x | (x - xc)ᵀ M⁻¹ (x - xc) ≤ κ}` is not too flat and not too large: `κM` is at least
`l` times the identity and its entries are at most `H`; the centre has norm at most `P`. -/
structure Ell.Held (n : Nat) (l H P : ℝ) (e : Ell (Fl R)) : Prop where
  shaped : e.Shaped n
  dim : 2 ≤ n
  helper : e.helper = EllCalc.new n
  kappa : 0 < e.kappa.val
  symm : (e.mq.flMat n).IsSymm
  low_pos : 0 < l
  lower : ∀ v : Fin n → ℝ, l * (v ⬝ᵥ v) ≤ e.kappa.val * (v ⬝ᵥ (e.mq.flMat n *ᵥ v))
  entries : ∀ i j, e.kappa.val * |e.mq.flMat n i j| ≤ H
  centre : norm2 (e.xc.flVec n) ≤ P

/-- The update from `e` to `e'` for a cut with gradient `g` that keeps the points of `S`: no point of `S` in the old ellipsoid, enlarged by
`1 + a`, is outside the new one, enlarged by `1 + A a + ε`; the volume (`det κM`) falls by the factor `e^(-1/(n+1))` of exact arithmetic up
to `1 + ε`; the new ellipsoid is not much larger than the old one, and `tsq` is at least half of `κ gᵀMg`. -/
structure Ell.CutTo (n : Nat) (H ε A : ℝ) (g : Fin n → ℝ) (S : Set (Fin n → ℝ)) (e e' : Ell (Fl R)) : Prop where
  shaped : e'.Shaped n
  helper : e'.helper = EllCalc.new n
  kappa : 0 < e'.kappa.val
  pos : (e'.mq.flMat n).PosDef
  entries : ∀ i j, e'.kappa.val * |e'.mq.flMat n i j| ≤ 5 * H
  vol : (e'.kappa.val • e'.mq.flMat n).det ≤ (1 + ε) * (Real.exp (-(1 / ((n : ℝ) + 1))) * (e.kappa.val • e.mq.flMat n).det)
  tsq : e.kappa.val * (g ⬝ᵥ (e.mq.flMat n *ᵥ g)) / 2 ≤ e'.tsq.val
  keep : ∀ a, 0 ≤ a → a ≤ 1 → ∀ x ∈ S, x ∈ ellipsoid (e.mq.flMat n) ((1 + a) * e.kappa.val) (e.xc.flVec n) →
    x ∈ ellipsoid (e'.mq.flMat n) ((1 + A * a + ε) * e'.kappa.val) (e'.xc.flVec n)

/-- the points between the two planes of a cut at `c`; without an upper bound, those behind the lower plane -/
def slab {n : Nat} (g c : Fin n → ℝ) (β0 : ℝ) (β1 : Option ℝ) : Set (Fin n → ℝ) :=
  {x | g ⬝ᵥ (x - c) + β0 ≤ 0 ∧ ∀ b ∈ β1, 0 ≤ g ⬝ᵥ (x - c) + b}

/-- error of one update: of the computed `gᵀMg` and of the computed parameters of the cut -/
noncomputable def slabUnit (u : ℝ) (n : Nat) (l H w : ℝ) : ℝ := quadErr u n H l + 32 * (u * (n : ℝ) ^ 2) / w ^ 2

/-- how much the error of one update is amplified -/
noncomputable def slabE (n : Nat) (l H w : ℝ) : ℝ := 2496 * ((n : ℝ) ^ 2 * (H / l)) / w ^ 2
noncomputable def slabF (n : Nat) (l H P w : ℝ) : ℝ := 12 * n * (P + 208 * √(n * H)) / (w * √l)
noncomputable def slabL (n : Nat) (l H P w : ℝ) : ℝ :=
  n * (10 + 6 * slabF n l H P w / w ^ 3 + slabF n l H P w ^ 2 + 3 * (slabE n l H w + 24) * (2 + 3 / w ^ 4))

/-- An oracle with parallel cuts in rounded arithmetic for the set `K`, at points of norm at most `X`.  `I` is an invariant of its internal
state.  It never panics; whenever it rejects a point it returns a nonzero gradient of norm at least `G` and a cut with `beta0 ≥ 0` such that all
points of `K` lie between its planes. -/
def FlHonestPar {Ω : Type} (n : Nat) (orc : OracleFeas Ω (Arr (Fl R)) (ParallelCut (Fl R)) (Fl R)) (I : Ω → Prop)
    (K : Set (Fin n → ℝ)) (G X : ℝ) : Prop :=
  ∀ w x, I w → x.IsVecShape n → norm2 (x.flVec n) ≤ X → ∃ r w', orc.assess w x = .ok (r, w') ∧ I w' ∧
    ∀ g cut, r = some (g, cut) → g.IsVecShape n ∧ g.flVec n ≠ 0 ∧ G ^ 2 ≤ normSq (g.flVec n) ∧ 0 ≤ cut.beta0.val ∧
      K ⊆ slab (g.flVec n) (x.flVec n) cut.beta0.val (cut.beta1.map Fl.val)

/-- An optimisation oracle with parallel cuts in rounded arithmetic for the sets `S γ` of points better than `γ`.  `I` is an invariant of its
internal state and the bound.  It never panics and never makes the bound worse; at points of norm at most `X` its gradients are nonzero and of norm
at least `G`, and all points better than the new bound lie between the planes of the cut: through the point itself when the bound was improved, with
`beta0 ≥ 0` otherwise. -/
def FlHonestParOptim {Ω : Type} (n : Nat) (orc : OracleOptim Ω (Arr (Fl R)) (ParallelCut (Fl R)) (Fl R)) (I : Ω → Fl R → Prop)
    (S : ℝ → Set (Fin n → ℝ)) (G X : ℝ) : Prop :=
  ∀ w x γ, I w γ → x.IsVecShape n → ∃ g cut shrunk γ' w',
    orc.assess w x γ = .ok (((g, cut), shrunk), γ', w') ∧ I w' γ' ∧ S γ'.val ⊆ S γ.val ∧ g.IsVecShape n ∧
    (norm2 (x.flVec n) ≤ X → g.flVec n ≠ 0 ∧ G ^ 2 ≤ normSq (g.flVec n) ∧
      (shrunk = true → S γ'.val ⊆ slab (g.flVec n) (x.flVec n) 0 (cut.beta1.map Fl.val)) ∧
      (shrunk = false → 0 ≤ cut.beta0.val ∧ S γ'.val ⊆ slab (g.flVec n) (x.flVec n) cut.beta0.val (cut.beta1.map Fl.val)))

/-- The numbers of a run with parallel cuts: at most `N` cuts from an ellipsoid with `κ |M i j| ≤ H`, for a set that contains a ball of radius
`r` around a point of norm at most `P`; `ε` bounds the errors of one cut. -/
structure ParPlan where
  N : Nat
  H : ℝ
  r : ℝ
  P : ℝ
  ε : ℝ

namespace ParPlan
variable (p : ParPlan) (n : Nat) (u : ℝ)

/-- bound on the entries of `κM` in the run; -/
noncomputable def top : ℝ := 5 ^ p.N * p.H
/-- no ellipsoid of the run extends further than this from its centre in any direction, -/
noncomputable def reach : ℝ := √(n * p.top)
/-- the centres have at most this norm, -/
noncomputable def far : ℝ := p.P + 2 * p.reach n
/-- the planes of a cut leave at least this part of the diameter, -/
noncomputable def width : ℝ := p.r / (2 * p.reach n)
/-- and errors are amplified at most by this factor. -/
noncomputable def amp : ℝ := (3 / p.width n ^ 4 + 1) ^ p.N

/-- the unit `u` is small enough for a run from an ellipsoid with `det(κM) ≤ D` -/
structure EnoughPrecision (D : ℝ) : Prop where
  unit : u ≤ 1 / 64
  nonneg : 0 ≤ p.ε
  error : slabUnit u n (p.r ^ 2 / 2) p.top (p.width n) * slabL n (p.r ^ 2 / 2) p.top (p.far n) (p.width n) ≤ p.ε / 3 * (p.width n / 2)
  inflated : p.ε * p.amp n ≤ p.width n
  volume : (1 + p.ε * p.amp n) ^ n * ((1 + p.ε) ^ p.N * (Real.exp (-(p.N / ((n : ℝ) + 1))) * D)) < (p.r ^ 2) ^ n

end ParPlan

end Ellalgo
