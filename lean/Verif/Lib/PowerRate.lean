import Verif.Lib.PowerSeq

/-! # How fast the sequence `A^k x` turns into the dominant eigenvector -/

namespace Ellalgo
open Matrix

variable {n : Nat} {A : Matrix (Fin n) (Fin n) ℝ} {x0 : Fin n → ℝ}

/-- what is needed of a dominant eigenpair `(mu, u)` -/
structure Dominant (A : Matrix (Fin n) (Fin n) ℝ) (u : Fin n → ℝ) (mu rho : ℝ) : Prop where
  symm : A.IsSymm
  unit : u ⬝ᵥ u = 1
  eig : A *ᵥ u = mu • u
  mu_ne : mu ≠ 0
  rho_nonneg : 0 ≤ rho
  rho_le : rho ≤ 1
  sq : ∀ w : Fin n → ℝ, u ⬝ᵥ w = 0 → (A *ᵥ w) ⬝ᵥ (A *ᵥ w) ≤ rho ^ 2 * mu ^ 2 * (w ⬝ᵥ w)
  quad : ∀ w : Fin n → ℝ, u ⬝ᵥ w = 0 → |w ⬝ᵥ (A *ᵥ w)| ≤ |mu| * (w ⬝ᵥ w)

theorem eigVec_unit (hA : A.IsHermitian) (i : Fin n) : eigVec hA i ⬝ᵥ eigVec hA i = 1 := by
  have h := hA.eigenvectorBasis.inner_eq_ite i i
  rw [EuclideanSpace.inner_eq_star_dotProduct, star_trivial, if_pos rfl] at h
  exact h

theorem Dominant.of_eigenvalues (hA : A.IsHermitian) (i : Fin n) {rho : ℝ} (hi0 : hA.eigenvalues i ≠ 0) (hr0 : 0 ≤ rho)
    (hr1 : rho ≤ 1) (hdom : ∀ j, j ≠ i → |hA.eigenvalues j| ≤ rho * |hA.eigenvalues i|) :
    Dominant A (eigVec hA i) (hA.eigenvalues i) rho := by
  have hs : A.IsSymm := by
    have := hA
    rw [IsHermitian, conjTranspose_eq_transpose_of_trivial] at this; exact this
  refine ⟨hs, eigVec_unit hA i, hA.mulVec_eigenvectorBasis i, hi0, hr0, hr1, ?_, ?_⟩
  · intro w hw
    rw [eig_parseval hA (A *ᵥ w), eig_parseval hA w, Finset.mul_sum]
    refine Finset.sum_le_sum fun j _ => ?_
    rw [eig_mulVec]
    by_cases hj : j = i
    · rw [hj, hw]; simp
    · have h1 : hA.eigenvalues j ^ 2 ≤ rho ^ 2 * hA.eigenvalues i ^ 2 := by
        rw [← mul_pow, ← sq_abs, ← sq_abs (rho * _), abs_mul, abs_of_nonneg hr0]
        exact pow_le_pow_left₀ (abs_nonneg _) (hdom j hj) 2
      nlinarith [mul_le_mul_of_nonneg_right h1 (mul_self_nonneg (eigVec hA j ⬝ᵥ w))]
  · intro w hw
    rw [eig_quad hA, eig_parseval hA w, Finset.mul_sum]
    refine (Finset.abs_sum_le_sum_abs _ _).trans (Finset.sum_le_sum fun j _ => ?_)
    rw [abs_mul, abs_of_nonneg (sq_nonneg (eigVec hA j ⬝ᵥ w)), ← pow_two]
    refine mul_le_mul_of_nonneg_right ?_ (sq_nonneg _)
    by_cases hj : j = i
    · rw [hj]
    · exact (hdom j hj).trans (by nlinarith [abs_nonneg (hA.eigenvalues i)])

section
variable {u : Fin n → ℝ} {mu rho : ℝ} (D : Dominant A u mu rho)
include D

theorem Dominant.comp (x : Fin n → ℝ) (k : Nat) : u ⬝ᵥ ((A ^ k) *ᵥ x) = mu ^ k * (u ⬝ᵥ x) := by
  induction k with
  | zero => simp
  | succ k ih => rw [pow_succ', ← mulVec_mulVec, (off_mulVec D.symm D.eig _).1, ih]; ring

theorem Dominant.pow_ne {x : Fin n → ℝ} (hx : u ⬝ᵥ x ≠ 0) (k : Nat) : (A ^ k) *ᵥ x ≠ 0 := by
  intro h
  have := D.comp x k
  rw [h, dotProduct_zero] at this
  exact mul_ne_zero (pow_ne_zero _ D.mu_ne) hx this.symm

theorem Dominant.off_pow (x : Fin n → ℝ) (k : Nat) :
    offPart u ((A ^ k) *ᵥ x) ⬝ᵥ offPart u ((A ^ k) *ᵥ x) ≤ (rho ^ 2 * mu ^ 2) ^ k * (offPart u x ⬝ᵥ offPart u x) := by
  induction k with
  | zero => simp
  | succ k ih =>
    rw [pow_succ', ← mulVec_mulVec, (off_mulVec D.symm D.eig _).2]
    refine (D.sq _ (off_orth D.unit _)).trans ?_
    have := mul_le_mul_of_nonneg_left ih (show 0 ≤ rho ^ 2 * mu ^ 2 by positivity)
    rw [pow_succ' (rho ^ 2 * mu ^ 2)]
    linarith

theorem tanSq_eq (x : Fin n → ℝ) : tanSq u x = (offPart u x ⬝ᵥ offPart u x) / (u ⬝ᵥ x) ^ 2 := by
  rw [tanSq, off_norm D.unit x, add_sub_cancel_left]

theorem tanSq_nonneg (x : Fin n → ℝ) : 0 ≤ tanSq u x := by
  rw [tanSq_eq D]
  exact div_nonneg (Finset.sum_nonneg fun _ _ => mul_self_nonneg _) (sq_nonneg _)

theorem Dominant.tan_pow {x : Fin n → ℝ} (hx : u ⬝ᵥ x ≠ 0) (k : Nat) :
    tanSq u ((A ^ k) *ᵥ x) ≤ (rho ^ 2) ^ k * tanSq u x := by
  have h1 := D.off_pow x k
  rw [tanSq_eq D, tanSq_eq D, D.comp x k]
  have hx2 : 0 < (u ⬝ᵥ x) ^ 2 := by positivity
  have hm : 0 < (mu ^ 2) ^ k := by have := D.mu_ne; positivity
  rw [mul_pow, ← pow_mul, mul_comm k 2, pow_mul, div_le_iff₀ (by positivity)]
  calc _ ≤ _ := h1
    _ = _ := by rw [mul_pow]; field_simp

/-- the unit vector in the direction of `v` misses the eigenvector by at most the tangent -/
theorem Dominant.rq_err {v : Fin n → ℝ} (hv : u ⬝ᵥ v ≠ 0) : |rq A v - mu| ≤ 2 * |mu| * tanSq u v := by
  have hv2 : 0 < (u ⬝ᵥ v) ^ 2 := by positivity
  set w := offPart u v with hw
  have hw0 : u ⬝ᵥ w = 0 := off_orth D.unit v
  have hpw : 0 ≤ w ⬝ᵥ w := Finset.sum_nonneg fun _ _ => mul_self_nonneg _
  have hvv : v ⬝ᵥ v = (u ⬝ᵥ v) ^ 2 + w ⬝ᵥ w := off_norm D.unit v
  have hq : v ⬝ᵥ (A *ᵥ v) = mu * (u ⬝ᵥ v) ^ 2 + w ⬝ᵥ (A *ᵥ w) := by
    have e : v = (u ⬝ᵥ v) • u + w := by rw [hw, offPart]; abel
    have h1 : u ⬝ᵥ (A *ᵥ w) = 0 := by rw [(off_mulVec D.symm D.eig w).1, hw0, mul_zero]
    calc v ⬝ᵥ (A *ᵥ v) = ((u ⬝ᵥ v) • u + w) ⬝ᵥ (A *ᵥ ((u ⬝ᵥ v) • u + w)) := by rw [← e]
      _ = _ := by
        rw [mulVec_add, mulVec_smul, D.eig]
        simp only [add_dotProduct, dotProduct_add, smul_dotProduct, dotProduct_smul, smul_eq_mul, D.unit, h1,
          dotProduct_comm w u, hw0]
        ring
  have e : rq A v - mu = (w ⬝ᵥ (A *ᵥ w) - mu * (w ⬝ᵥ w)) / (v ⬝ᵥ v) := by
    have : v ⬝ᵥ v ≠ 0 := by rw [hvv]; positivity
    rw [rq, div_sub' this, hq, hvv]; congr 1; ring
  rw [e, abs_div, abs_of_pos (show 0 < v ⬝ᵥ v by rw [hvv]; positivity), tanSq_eq D, ← mul_div_assoc]
  have h1 : |w ⬝ᵥ (A *ᵥ w) - mu * (w ⬝ᵥ w)| ≤ 2 * |mu| * (w ⬝ᵥ w) := by
    refine (abs_sub _ _).trans ?_
    rw [abs_mul, abs_of_nonneg hpw]
    linarith [D.quad w hw0]
  exact div_le_div₀ (by positivity) h1 hv2 (by rw [hvv]; linarith)

theorem Dominant.ray_err {x : Fin n → ℝ} (hx : u ⬝ᵥ x ≠ 0) (k : Nat) :
    |rayAt A x k - mu| ≤ 2 * |mu| * ((rho ^ 2) ^ k * tanSq u x) := by
  have h0 : u ⬝ᵥ ((A ^ k) *ᵥ x) ≠ 0 := by
    rw [D.comp]; exact mul_ne_zero (pow_ne_zero _ D.mu_ne) hx
  exact (D.rq_err h0).trans (mul_le_mul_of_nonneg_left (D.tan_pow hx k) (by positivity))

/-- the squared component of the normalised iterate along the eigenvector -/
theorem Dominant.dir_err {x : Fin n → ℝ} (hx : u ⬝ᵥ x ≠ 0) (k : Nat) :
    1 - (rho ^ 2) ^ k * tanSq u x ≤ (u ⬝ᵥ dirAt A x k) ^ 2 := by
  have h0 : u ⬝ᵥ ((A ^ k) *ᵥ x) ≠ 0 := by
    rw [D.comp]; exact mul_ne_zero (pow_ne_zero _ D.mu_ne) hx
  have h1 := D.tan_pow hx k
  have hn0 := D.pow_ne hx k
  set v := (A ^ k) *ᵥ x with hv
  have hvv := dot_self_pos hn0
  have hv2 : 0 < (u ⬝ᵥ v) ^ 2 := by positivity
  have e : (u ⬝ᵥ dirAt A x k) ^ 2 = (u ⬝ᵥ v) ^ 2 / (v ⬝ᵥ v) := by
    rw [dirAt, ← hv, dotProduct_smul, smul_eq_mul, mul_pow, inv_pow, Real.sq_sqrt hvv.le, div_eq_inv_mul]
  refine le_trans (sub_le_sub_left h1 1) ?_
  rw [e, tanSq]
  set a := (u ⬝ᵥ v) ^ 2
  set b := v ⬝ᵥ v
  have hab : a ≤ b := by
    have := off_norm D.unit v
    have hp : 0 ≤ offPart u v ⬝ᵥ offPart u v := Finset.sum_nonneg fun _ _ => mul_self_nonneg _
    simp only [a, b]; linarith
  rw [sub_div, div_self hv2.ne', le_div_iff₀ hvv]
  have : b / a * b ≥ 2 * b - a := by
    rw [ge_iff_le, div_mul_eq_mul_div, le_div_iff₀ hv2]; nlinarith [sq_nonneg (a - b)]
  linarith

/-- the normalised iterates settle, up to sign -/
theorem Dominant.dir_close {x : Fin n → ℝ} (hx : u ⬝ᵥ x ≠ 0) (k : Nat) {t : ℝ} (ht : (rho ^ 2) ^ k * tanSq u x ≤ t) :
    ∃ s : ℝ, (s = 1 ∨ s = -1) ∧
      (dirAt A x (k + 1) - s • dirAt A x k) ⬝ᵥ (dirAt A x (k + 1) - s • dirAt A x k) ≤ t ^ 2 + 4 * t := by
  have hd0 := dirAt_dir (D.pow_ne hx k)
  have hd1 := dirAt_dir (D.pow_ne hx (k + 1))
  have ht0 : 0 ≤ t := le_trans (mul_nonneg (by positivity) (tanSq_nonneg D x)) ht
  have htan : ∀ j, k ≤ j → offPart u (dirAt A x j) ⬝ᵥ offPart u (dirAt A x j) ≤ t * (u ⬝ᵥ dirAt A x j) ^ 2 := by
    intro j hj
    have h0 : u ⬝ᵥ ((A ^ j) *ᵥ x) ≠ 0 := by
      rw [D.comp]; exact mul_ne_zero (pow_ne_zero _ D.mu_ne) hx
    have h1 := (D.tan_pow hx j).trans (mul_le_mul_of_nonneg_right
      (pow_le_pow_of_le_one (by positivity) (pow_le_one₀ D.rho_nonneg D.rho_le) hj) (tanSq_nonneg D x))
    have h2 := h1.trans ht
    rw [tanSq_eq D, div_le_iff₀ (by positivity)] at h2
    rw [dirAt, off_smul, smul_dotProduct, dotProduct_smul, dotProduct_smul]
    simp only [smul_eq_mul]
    set c := (Real.sqrt (((A ^ j) *ᵥ x) ⬝ᵥ ((A ^ j) *ᵥ x)))⁻¹
    nlinarith [mul_le_mul_of_nonneg_left h2 (mul_self_nonneg c)]
  obtain ⟨c0, hc0, e0⟩ := hd0
  obtain ⟨c1, hc1, e1⟩ := hd1
  have s0 : u ⬝ᵥ dirAt A x k = c0 * (mu ^ k * (u ⬝ᵥ x)) := by rw [e0, dotProduct_smul, D.comp, smul_eq_mul]
  have s1 : u ⬝ᵥ dirAt A x (k + 1) = c1 * (mu ^ (k + 1) * (u ⬝ᵥ x)) := by
    rw [e1, dotProduct_smul, D.comp, smul_eq_mul]
  have hq : 0 < (mu ^ k * (u ⬝ᵥ x)) ^ 2 := by have := D.mu_ne; positivity
  have hprod : (u ⬝ᵥ dirAt A x (k + 1)) * (u ⬝ᵥ dirAt A x k) = mu * (c1 * c0 * (mu ^ k * (u ⬝ᵥ x)) ^ 2) := by
    rw [s0, s1, pow_succ]; ring
  have hpos : 0 < c1 * c0 * (mu ^ k * (u ⬝ᵥ x)) ^ 2 := by positivity
  rcases lt_or_gt_of_ne D.mu_ne with hneg | hp
  · refine ⟨-1, Or.inr rfl, close_of_tangent D.unit (dirAt_unit (D.pow_ne hx k)) (dirAt_unit (D.pow_ne hx (k + 1)))
      (Or.inr rfl) ?_ ht0 (htan k le_rfl) (htan (k + 1) (by omega))⟩
    have := mul_neg_of_neg_of_pos hneg hpos
    nlinarith
  · refine ⟨1, Or.inl rfl, close_of_tangent D.unit (dirAt_unit (D.pow_ne hx k)) (dirAt_unit (D.pow_ne hx (k + 1)))
      (Or.inl rfl) ?_ ht0 (htan k le_rfl) (htan (k + 1) (by omega))⟩
    have := mul_pos hp hpos
    nlinarith

end

end Ellalgo
