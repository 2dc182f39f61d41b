import Verif.Lib.EllMath
import Verif.Lib.CutMath
import Verif.Lib.PowerFlMath
import Mathlib.Algebra.Order.Chebyshev
import Verif.Lib.DetMono

/-! Linear algebra for inflated ellipsoids: what a cut does to a slightly larger ellipsoid, and what a perturbed shape matrix and
centre do to the set (no model code). -/

namespace Ellalgo
open Matrix
open scoped ComplexOrder

variable {n : Nat} {M N : Matrix (Fin n) (Fin n) ℝ}

/-- a single cut applied to an ellipsoid inflated by `s` in every direction -/
theorem inflate_exact (hM : M.PosDef) {g : Fin n → ℝ} {κ β τ ρ σ δ s : ℝ} (hg : g ≠ 0) (hκ : 0 ≤ κ)
    (hgood : GoodCut (κ * (g ⬝ᵥ (M *ᵥ g))) β τ ρ σ δ) (hτ : 0 ≤ τ) (hτ2 : τ * τ = κ * (g ⬝ᵥ (M *ᵥ g)))
    (hβ : 0 ≤ β) (hs : 1 ≤ s) {x c : Fin n → ℝ} (hx : x ∈ ellipsoid M (s ^ 2 * κ) c) (h0 : g ⬝ᵥ (x - c) + β ≤ 0) :
    x ∈ ellipsoid (cutM M g σ) (κ * (s ^ 2 - 1 + δ + σ / (1 - σ) * (s * (s - 1))))
      (c - (ρ / (g ⬝ᵥ (M *ᵥ g))) • (M *ᵥ g)) := by
  have hω := quad_pos hM hg
  show (x - _) ⬝ᵥ (_ *ᵥ (x - _)) ≤ _
  rw [cut_quad hM ρ hg hgood.sig1, hgood.identity]
  have hx' : (x - c) ⬝ᵥ (M⁻¹ *ᵥ (x - c)) ≤ s ^ 2 * κ := hx
  have ht := dot_abs_le hM hx g (τ := s * τ) (by positivity) (by rw [mul_mul_mul_comm, hτ2]; ring)
  have hmu := hgood.mu_nonneg
  set ω := g ⬝ᵥ (M *ᵥ g)
  set t := g ⬝ᵥ (x - c)
  set q := (x - c) ⬝ᵥ (M⁻¹ *ᵥ (x - c))
  have ht1 := (abs_le.1 ht).1
  have hprod : (t + β) * (t + τ) ≤ s * (s - 1) * (τ * τ) := by
    by_cases hc : 0 ≤ t + τ
    · have h1 : (t + β) * (t + τ) ≤ 0 := mul_nonpos_of_nonpos_of_nonneg h0 hc
      have h2 : 0 ≤ s * (s - 1) * (τ * τ) := by
        have : 0 ≤ s - 1 := by linarith
        positivity
      linarith
    · have h1 : -(t + τ) ≤ (s - 1) * τ := by nlinarith
      have h2 : -(t + β) ≤ s * τ := by linarith
      have h3 := mul_le_mul h2 h1 (by linarith) (by positivity : (0:ℝ) ≤ s * τ)
      nlinarith
  have h3 := mul_le_mul_of_nonneg_left hprod hmu
  have h4 : (σ / (1 - σ) * ((t + β) * (t + τ)) + (δ - 1) * (κ * ω)) / ω ≤
      κ * (δ - 1 + σ / (1 - σ) * (s * (s - 1))) := by
    rw [div_le_iff₀ hω]
    rw [hτ2] at h3
    linarith
  linarith

/-- `N ⪰ a M` gives `N⁻¹ ⪯ M⁻¹ / a` -/
theorem inv_quad_anti (hM : M.PosDef) (hN : N.PosDef) {a : ℝ} (ha : 0 < a)
    (h : ∀ v, a * (v ⬝ᵥ (M *ᵥ v)) ≤ v ⬝ᵥ (N *ᵥ v)) (v : Fin n → ℝ) :
    v ⬝ᵥ (N⁻¹ *ᵥ v) ≤ (v ⬝ᵥ (M⁻¹ *ᵥ v)) / a := by
  set y := N⁻¹ *ᵥ v with hy
  have h1 := cs_inv hM v y
  have h2 := h y
  have h3 : N *ᵥ y = v := mulVec_inv_mulVec hN v
  rw [h3] at h2
  have h4 : v ⬝ᵥ y = y ⬝ᵥ v := dotProduct_comm _ _
  rw [h4]
  have h5 := quad_nonneg hM.inv v
  have h6 : 0 ≤ y ⬝ᵥ v := by
    have := quad_nonneg hN y
    rwa [h3] at this
  have h7 := quad_nonneg hM y
  set S := y ⬝ᵥ v
  set w := v ⬝ᵥ (M⁻¹ *ᵥ v)
  set q := y ⬝ᵥ (M *ᵥ y)
  rw [le_div_iff₀ ha]
  by_cases hS : S = 0
  · rw [hS]; simpa using h5
  have hS' : 0 < S := lt_of_le_of_ne h6 (Ne.symm hS)
  have h8 : S * (S * a) ≤ S * w := by
    calc S * (S * a) = a * S ^ 2 := by ring
      _ ≤ a * (q * w) := mul_le_mul_of_nonneg_left h1 ha.le
      _ = a * q * w := by ring
      _ ≤ S * w := mul_le_mul_of_nonneg_right h2 h5
  exact le_of_mul_le_mul_left h8 hS'

/-- a lower bound on `M` bounds the inverse form -/
theorem inv_quad_le (hM : M.PosDef) {m : ℝ} (hm : 0 < m) (h : ∀ v, m * (v ⬝ᵥ v) ≤ v ⬝ᵥ (M *ᵥ v)) (v : Fin n → ℝ) :
    v ⬝ᵥ (M⁻¹ *ᵥ v) ≤ (v ⬝ᵥ v) / m := by
  have h1 : (1 : Matrix (Fin n) (Fin n) ℝ).PosDef := PosDef.one
  have := inv_quad_anti h1 hM hm (fun w => by rw [one_mulVec]; exact h w) v
  rwa [inv_one, one_mulVec] at this

/-- triangle inequality for the square root of a positive definite form -/
theorem sqrt_quad_add (hM : M.PosDef) (v w : Fin n → ℝ) :
    √((v + w) ⬝ᵥ (M *ᵥ (v + w))) ≤ √(v ⬝ᵥ (M *ᵥ v)) + √(w ⬝ᵥ (M *ᵥ w)) := by
  have h1 := quad_add (isSymm_of_posDef hM) v w 1
  rw [one_smul] at h1
  rw [h1]
  have hv := quad_nonneg hM v
  have hw := quad_nonneg hM w
  have hcs := cs_self hM v w
  set a := v ⬝ᵥ (M *ᵥ v)
  set b := w ⬝ᵥ (M *ᵥ w)
  set t := v ⬝ᵥ (M *ᵥ w)
  rw [Real.sqrt_le_left (by positivity)]
  have ha := Real.mul_self_sqrt hv
  have hb := Real.mul_self_sqrt hw
  have ht : t ≤ √a * √b := by
    apply le_of_sq_le_sq _ (by positivity)
    calc t ^ 2 ≤ b * a := hcs
      _ = (√a * √b) ^ 2 := by rw [mul_pow, Real.sq_sqrt hv, Real.sq_sqrt hw, mul_comm]
  nlinarith
where
  le_of_sq_le_sq {a b : ℝ} (h : a ^ 2 ≤ b ^ 2) (hb : 0 ≤ b) : a ≤ b := abs_le_of_sq_le_sq' h hb |>.2

/-- replacing the matrix and the centre by nearby ones inflates the ellipsoid -/
theorem ellipsoid_perturb (hM : M.PosDef) (hN : N.PosDef) {a K d : ℝ} (ha : 0 < a) (hd : 0 ≤ d)
    (h : ∀ v, a * (v ⬝ᵥ (M *ᵥ v)) ≤ v ⬝ᵥ (N *ᵥ v)) {c c' x : Fin n → ℝ}
    (hc : (c - c') ⬝ᵥ (M⁻¹ *ᵥ (c - c')) ≤ d ^ 2) (hx : x ∈ ellipsoid M K c) :
    x ∈ ellipsoid N ((√K + d) ^ 2 / a) c' := by
  show (x - c') ⬝ᵥ (N⁻¹ *ᵥ (x - c')) ≤ _
  refine (inv_quad_anti hM hN ha h _).trans (div_le_div_of_nonneg_right ?_ ha.le)
  have hx' : (x - c) ⬝ᵥ (M⁻¹ *ᵥ (x - c)) ≤ K := hx
  have e : x - c' = (x - c) + (c - c') := by abel
  have h1 := sqrt_quad_add hM.inv (x - c) (c - c')
  rw [← e] at h1
  have h2 : √((x - c) ⬝ᵥ (M⁻¹ *ᵥ (x - c))) ≤ √K := Real.sqrt_le_sqrt hx'
  have h3 : √((c - c') ⬝ᵥ (M⁻¹ *ᵥ (c - c'))) ≤ d := (Real.sqrt_le_sqrt hc).trans (by rw [Real.sqrt_sq hd])
  have h4 := quad_nonneg hM.inv (x - c')
  calc _ = √((x - c') ⬝ᵥ (M⁻¹ *ᵥ (x - c'))) ^ 2 := (Real.sq_sqrt h4).symm
    _ ≤ _ := pow_le_pow_left₀ (Real.sqrt_nonneg _) (by linarith) 2

/-- `‖v‖₁² ≤ n ‖v‖²` -/
theorem sum_abs_sq_le (v : Fin n → ℝ) : (∑ i, |v i|) ^ 2 ≤ n * (v ⬝ᵥ v) := by
  have h := sq_sum_le_card_mul_sum_sq (s := Finset.univ) (f := fun i => |v i|)
  simp only [sq_abs, Finset.card_univ, Fintype.card_fin] at h
  refine h.trans (le_of_eq ?_)
  congr 1
  exact Finset.sum_congr rfl fun i _ => by ring

/-- a matrix with small entries has a small form -/
theorem entries_quad {D : Matrix (Fin n) (Fin n) ℝ} {ε : ℝ} (hε : 0 ≤ ε) (h : ∀ i j, |D i j| ≤ ε) (v : Fin n → ℝ) :
    |v ⬝ᵥ (D *ᵥ v)| ≤ ε * n * (v ⬝ᵥ v) := by
  have h1 : |v ⬝ᵥ (D *ᵥ v)| ≤ ε * (∑ i, |v i|) ^ 2 := by
    rw [pow_two, Finset.sum_mul_sum, Finset.mul_sum]
    refine (Finset.abs_sum_le_sum_abs _ _).trans (Finset.sum_le_sum fun i _ => ?_)
    rw [abs_mul, Finset.mul_sum]
    have h2 : |(D *ᵥ v) i| ≤ ∑ j, ε * |v j| := by
      refine (Finset.abs_sum_le_sum_abs (fun j => D i j * v j) Finset.univ).trans (Finset.sum_le_sum fun j _ => ?_)
      rw [abs_mul]
      exact mul_le_mul_of_nonneg_right (h i j) (abs_nonneg _)
    refine (mul_le_mul_of_nonneg_left h2 (abs_nonneg _)).trans (le_of_eq ?_)
    rw [Finset.mul_sum]
    exact Finset.sum_congr rfl fun j _ => by ring
  refine h1.trans ?_
  rw [mul_assoc]
  exact mul_le_mul_of_nonneg_left (sum_abs_sq_le v) hε

/-- a small entrywise perturbation of a well-conditioned matrix keeps a fixed fraction of it -/
theorem perturb_quad (hm : ∀ v, m * (v ⬝ᵥ v) ≤ v ⬝ᵥ (M *ᵥ v)) {ε η : ℝ} (hε : 0 ≤ ε) (hη : 0 ≤ η)
    (h : ∀ i j, |N i j - M i j| ≤ ε) (hεη : ε * n ≤ η * m) (v : Fin n → ℝ) :
    (1 - η) * (v ⬝ᵥ (M *ᵥ v)) ≤ v ⬝ᵥ (N *ᵥ v) := by
  have h1 := entries_quad (D := N - M) hε (fun i j => by rw [Matrix.sub_apply]; exact h i j) v
  rw [sub_mulVec, dotProduct_sub] at h1
  have h2 := (abs_le.1 h1).1
  have hv : 0 ≤ v ⬝ᵥ v := dot_self_nonneg' v
  have h3 := mul_le_mul_of_nonneg_right hεη hv
  have h4 := mul_le_mul_of_nonneg_left (hm v) hη
  nlinarith

theorem perturb_quad_upper {m : ℝ} (hm : ∀ v, m * (v ⬝ᵥ v) ≤ v ⬝ᵥ (M *ᵥ v)) {ε η : ℝ} (hε : 0 ≤ ε)
    (h : ∀ i j, |N i j - M i j| ≤ ε) (hεη : ε * n ≤ η * m) (hη : 0 ≤ η) (v : Fin n → ℝ) :
    v ⬝ᵥ (N *ᵥ v) ≤ (1 + η) * (v ⬝ᵥ (M *ᵥ v)) := by
  have h1 := entries_quad (D := N - M) hε (fun i j => by rw [Matrix.sub_apply]; exact h i j) v
  rw [sub_mulVec, dotProduct_sub] at h1
  have h2 := (abs_le.1 h1).2
  have hv : 0 ≤ v ⬝ᵥ v := dot_self_nonneg' v
  have h3 := mul_le_mul_of_nonneg_right hεη hv
  have h4 := mul_le_mul_of_nonneg_left (hm v) hη
  linarith

theorem det_perturb (hM : M.PosDef) (hN : N.PosDef) {a : ℝ} (h : ∀ v, v ⬝ᵥ (N *ᵥ v) ≤ a * (v ⬝ᵥ (M *ᵥ v))) :
    N.det ≤ a ^ n * M.det := by
  have hB : (a • M - N).PosSemidef := by
    refine PosSemidef.of_dotProduct_mulVec_nonneg ?_ fun v => ?_
    · have h1 := hM.isHermitian
      have h2 := hN.isHermitian
      exact (IsHermitian.sub (by
        unfold IsHermitian
        rw [conjTranspose_smul, h1.eq]; simp) h2)
    · rw [star_trivial, sub_mulVec, dotProduct_sub, smul_mulVec, dotProduct_smul, smul_eq_mul]
      linarith [h v]
  have := det_le_det_add hN hB
  rw [add_sub_cancel, det_smul, Fintype.card_fin] at this
  exact this

/-- the cut matrix keeps the fraction `1 - σ` of the old one -/
theorem cutM_lower (hM : M.PosDef) {g : Fin n → ℝ} {σ : ℝ} (hg : g ≠ 0) (hσ : 0 ≤ σ) (v : Fin n → ℝ) :
    (1 - σ) * (v ⬝ᵥ (M *ᵥ v)) ≤ v ⬝ᵥ (cutM M g σ *ᵥ v) := by
  rw [cutM_quad]
  have hω := quad_pos hM hg
  have hcs := cs_self hM v g
  set ω := g ⬝ᵥ (M *ᵥ g)
  set q := v ⬝ᵥ (M *ᵥ v)
  set s := v ⬝ᵥ (M *ᵥ g)
  have h1 : s ^ 2 / ω ≤ q := by rw [div_le_iff₀ hω]; linarith
  have h2 : σ / ω * s ^ 2 = σ * (s ^ 2 / ω) := by ring
  rw [h2]
  nlinarith

/-- entries of `M g / √(gᵀMg)` are at most `√(Mᵢᵢ)` -/
theorem dir_sq_le (hM : M.PosDef) {g : Fin n → ℝ} (i : Fin n) :
    ((M *ᵥ g) i) ^ 2 ≤ (g ⬝ᵥ (M *ᵥ g)) * M i i := by
  have h := cs_self hM (Pi.single i 1) g
  simpa using h

/-- the entries do not grow -/
theorem cutM_entry (hM : M.PosDef) {g : Fin n → ℝ} {σ B : ℝ} (hg : g ≠ 0) (hσ : 0 ≤ σ) (hσ1 : σ < 1) (hB0 : 0 ≤ B)
    (hB : ∀ i j, |M i j| ≤ B) (i j : Fin n) : |cutM M g σ i j| ≤ B := by
  have hc := cutM_posDef hM hg hσ1
  have hω := quad_pos hM hg
  have hdiag : ∀ i, cutM M g σ i i ≤ B := fun i => by
    have h := cutM_quad M g (Pi.single i 1) σ
    simp at h
    rw [h]
    have : 0 ≤ σ / (g ⬝ᵥ (M *ᵥ g)) * (M *ᵥ g) i ^ 2 := by positivity
    have := (le_abs_self _).trans (hB i i)
    linarith
  have h0 : ∀ i, 0 ≤ cutM M g σ i i := fun i => by
    have := quad_nonneg hc (Pi.single i 1)
    simpa using this
  have hcs := cs_self hc (Pi.single i 1) (Pi.single j 1)
  simp at hcs
  apply abs_le_of_sq_le_sq _ hB0
  refine hcs.trans ?_
  rw [pow_two]
  exact mul_le_mul (hdiag j) (hdiag i) (h0 i) hB0

end Ellalgo
