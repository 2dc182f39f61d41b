import Verif.Lib.PowerRate

/-! # When the stop tests of the power iterations are met -/

namespace Ellalgo
open Matrix

variable {n : Nat} {A : Matrix (Fin n) (Fin n) ℝ} {x : Fin n → ℝ}

theorem norm1_nonneg (v : Fin n → ℝ) : 0 ≤ norm1 v := Finset.sum_nonneg fun _ _ => abs_nonneg _

theorem norm1_add_le (v w : Fin n → ℝ) : norm1 (v + w) ≤ norm1 v + norm1 w := by
  unfold norm1
  rw [← Finset.sum_add_distrib]
  exact Finset.sum_le_sum fun i _ => abs_add_le _ _

theorem norm1_neg (v : Fin n → ℝ) : norm1 (-v) = norm1 v := by
  have := norm1_smul (-1) v
  simpa using this

theorem norm1_eq_zero {v : Fin n → ℝ} (h : norm1 v ≤ 0) : v = 0 := by
  by_contra h0
  exact absurd (norm1_pos h0) (not_lt.2 h)

/-- scaling to 1-norm one at most doubles the distance of two unit vectors -/
theorem unit1_close {v w : Fin n → ℝ} {s : ℝ} (hw : w ⬝ᵥ w = 1) (hv : v ⬝ᵥ v = 1) (hs : s = 1 ∨ s = -1) :
    norm1 (unit1 w - s • unit1 v) ≤ 2 * norm1 (w - s • v) := by
  have h1 : ∀ v : Fin n → ℝ, v ⬝ᵥ v = 1 → 1 ≤ norm1 v := by
    intro v hv
    have := sq_le_norm1 v
    rw [hv] at this
    nlinarith [norm1_nonneg v]
  have ha := h1 w hw
  have hb := h1 v hv
  have hss : |s| = 1 := by rcases hs with h | h <;> rw [h] <;> simp
  set a := norm1 w with hadef
  set b := norm1 v with hbdef
  set d := norm1 (w - s • v) with hd
  have hd0 : 0 ≤ d := norm1_nonneg _
  have hsv : norm1 (s • v) = b := by rw [norm1_smul, hss, one_mul]
  have hab : |b - a| ≤ d := by
    rw [abs_le]
    constructor
    · have := norm1_add_le (w - s • v) (s • v)
      rw [sub_add_cancel, hsv] at this
      linarith
    · have := norm1_add_le (-(w - s • v)) w
      rw [norm1_neg, show -(w - s • v) + w = s • v by abel, hsv] at this
      linarith
  have e : unit1 w - s • unit1 v = a⁻¹ • (w - s • v) + (a⁻¹ - b⁻¹) • (s • v) := by
    unfold unit1
    rw [← hadef, ← hbdef, smul_sub, sub_smul, smul_comm s b⁻¹ v]; abel
  rw [e]
  refine (norm1_add_le _ _).trans ?_
  rw [norm1_smul, norm1_smul, hsv, abs_of_pos (inv_pos.2 (by linarith))]
  have ha0 : (0 : ℝ) < a := by linarith
  have hb0 : (0 : ℝ) < b := by linarith
  have e2 : |a⁻¹ - b⁻¹| * b = a⁻¹ * |b - a| := by
    rw [inv_sub_inv ha0.ne' hb0.ne', abs_div, abs_of_pos (mul_pos ha0 hb0)]
    field_simp
  rw [e2]
  have hai : a⁻¹ ≤ 1 := inv_le_one_of_one_le₀ ha
  have hai0 : 0 ≤ a⁻¹ := by positivity
  nlinarith [abs_nonneg (b - a)]

theorem dir1At_eq {k : Nat} (h : (A ^ k) *ᵥ x ≠ 0) : dir1At A x k = unit1 (dirAt A x k) := (unit1_eq (dirAt_dir h)).symm

theorem closeUpToSign_of_scaled {v w : Fin n → ℝ} {s tol : ℝ} (hs : s = 1 ∨ s = -1) (h : norm1 (v - s • w) ≤ tol) :
    CloseUpToSign tol v w := by
  rcases hs with rfl | rfl
  · left; simpa using h
  · right; simpa using h

section
variable {u : Fin n → ℝ} {mu rho : ℝ} (D : Dominant A u mu rho)
include D

theorem Dominant.settle2 (hx : u ⬝ᵥ x ≠ 0) {k : Nat} {tol : ℝ} (htol : 0 ≤ tol)
    (h : (n : ℝ) * (((rho ^ 2) ^ k * tanSq u x) ^ 2 + 4 * ((rho ^ 2) ^ k * tanSq u x)) ≤ tol ^ 2) :
    CloseUpToSign tol (dirAt A x (k + 1)) (dirAt A x k) := by
  obtain ⟨s, hs, h1⟩ := D.dir_close hx k le_rfl
  refine closeUpToSign_of_scaled hs ?_
  have h2 := (norm1_sq_le _).trans ((mul_le_mul_of_nonneg_left h1 (Nat.cast_nonneg n)).trans h)
  exact (abs_le_of_sq_le_sq' h2 htol).2

theorem Dominant.settle1 (hx : u ⬝ᵥ x ≠ 0) {k : Nat} {tol : ℝ} (htol : 0 ≤ tol)
    (h : 4 * (n : ℝ) * (((rho ^ 2) ^ k * tanSq u x) ^ 2 + 4 * ((rho ^ 2) ^ k * tanSq u x)) ≤ tol ^ 2) :
    CloseUpToSign tol (dir1At A x (k + 1)) (dir1At A x k) := by
  obtain ⟨s, hs, h1⟩ := D.dir_close hx k le_rfl
  refine closeUpToSign_of_scaled hs ?_
  have h0 := D.pow_ne hx k
  have h0' := D.pow_ne hx (k + 1)
  rw [dir1At_eq h0, dir1At_eq h0']
  refine (unit1_close (dirAt_unit h0') (dirAt_unit h0) hs).trans ?_
  have h2 := (norm1_sq_le _).trans (mul_le_mul_of_nonneg_left h1 (Nat.cast_nonneg n))
  have h3 : (2 * norm1 (dirAt A x (k + 1) - s • dirAt A x k)) ^ 2 ≤ tol ^ 2 := by rw [mul_pow]; linarith
  exact (abs_le_of_sq_le_sq' h3 htol).2

theorem Dominant.settle_ray (hx : u ⬝ᵥ x ≠ 0) {k : Nat} {tol : ℝ}
    (h : 4 * |mu| * ((rho ^ 2) ^ k * tanSq u x) ≤ tol) : |rayAt A x k - rayAt A x (k + 1)| ≤ tol := by
  have h1 := D.ray_err hx k
  have h2 := D.ray_err hx (k + 1)
  have h3 : (rho ^ 2) ^ (k + 1) * tanSq u x ≤ (rho ^ 2) ^ k * tanSq u x :=
    mul_le_mul_of_nonneg_right (pow_le_pow_of_le_one (by positivity) (pow_le_one₀ D.rho_nonneg D.rho_le)
      (Nat.le_succ k)) (tanSq_nonneg D x)
  have h4 := mul_le_mul_of_nonneg_left h3 (show 0 ≤ 2 * |mu| by positivity)
  have h5 := abs_sub_le (rayAt A x k) mu (rayAt A x (k + 1))
  rw [abs_sub_comm mu] at h5
  linarith

/-- an eigenvector with a component along `u` belongs to `mu` -/
theorem Dominant.eig_eq {v : Fin n → ℝ} {c : ℝ} (hv : u ⬝ᵥ v ≠ 0) (h : A *ᵥ v = c • v) : c = mu := by
  have := (off_mulVec D.symm D.eig v).1
  rw [h, dotProduct_smul, smul_eq_mul] at this
  exact mul_right_cancel₀ hv this

theorem Dominant.comp_ne (hx : u ⬝ᵥ x ≠ 0) (k : Nat) : u ⬝ᵥ ((A ^ k) *ᵥ x) ≠ 0 := by
  rw [D.comp]; exact mul_ne_zero (pow_ne_zero _ D.mu_ne) hx

/-- if the direction of `A^k x` does not change any more the next quotient is exact -/
theorem Dominant.exact_of_dir (hx : u ⬝ᵥ x ≠ 0) {k : Nat} {v w : Fin n → ℝ} (hv : Dir A x k v) (hw : Dir A x (k + 1) w)
    (h : CloseUpToSign 0 w v) : rayAt A x (k + 1) = mu := by
  obtain ⟨c, hc, rfl⟩ := hv
  obtain ⟨d, hd, rfl⟩ := hw
  obtain ⟨s, hs⟩ : ∃ s : ℝ, d • ((A ^ (k + 1)) *ᵥ x) = s • ((A ^ k) *ᵥ x) := by
    rcases h with h | h
    · exact ⟨c, sub_eq_zero.1 (norm1_eq_zero h)⟩
    · exact ⟨-c, by rw [neg_smul]; exact eq_neg_of_add_eq_zero_left (norm1_eq_zero h)⟩
  have hA : A *ᵥ ((A ^ k) *ᵥ x) = (d⁻¹ * s) • ((A ^ k) *ᵥ x) := by
    rw [mulVec_mulVec, ← pow_succ', mul_smul, ← hs, smul_smul, inv_mul_cancel₀ hd.ne', one_smul]
  have hmu := D.eig_eq (D.comp_ne hx k) hA
  rw [hmu] at hA
  have h1 : (A ^ (k + 1)) *ᵥ x = mu • ((A ^ k) *ᵥ x) := by rw [pow_succ', ← mulVec_mulVec, hA]
  have h2 : A *ᵥ ((A ^ (k + 1)) *ᵥ x) = mu • ((A ^ (k + 1)) *ᵥ x) := by rw [h1, mulVec_smul, hA]
  rw [rayAt, h2, dotProduct_smul, smul_eq_mul, mul_div_cancel_right₀ _ (dot_self_pos (D.pow_ne hx (k + 1))).ne']

/-- for a positive semidefinite matrix an unchanged Rayleigh quotient is exact -/
theorem Dominant.exact_of_ray (hx : u ⬝ᵥ x ≠ 0) (hpsd : ∀ w : Fin n → ℝ, 0 ≤ w ⬝ᵥ (A *ᵥ w)) {k : Nat}
    (h : rayAt A x k = rayAt A x (k + 1)) : rayAt A x (k + 1) = mu := by
  have hvne := D.pow_ne hx k
  have hwne := D.pow_ne hx (k + 1)
  have huv := D.comp_ne hx k
  rw [← h]
  unfold rayAt at h ⊢
  rw [pow_succ', ← mulVec_mulVec] at h hwne
  set v := (A ^ k) *ᵥ x with hv
  have hmu : 0 < mu := by
    have := hpsd u
    rw [D.eig, dotProduct_smul, D.unit, smul_eq_mul, mul_one] at this
    exact lt_of_le_of_ne this D.mu_ne.symm
  have hvv := dot_self_pos hvne
  have hww := dot_self_pos hwne
  have hq : 0 < v ⬝ᵥ (A *ᵥ v) := by
    have hq : v ⬝ᵥ (A *ᵥ v) = mu * (u ⬝ᵥ v) ^ 2 + offPart u v ⬝ᵥ (A *ᵥ offPart u v) := by
      have hw0 := off_orth D.unit v
      have e : v = (u ⬝ᵥ v) • u + offPart u v := by rw [offPart]; abel
      have h1 : u ⬝ᵥ (A *ᵥ offPart u v) = 0 := by rw [(off_mulVec D.symm D.eig _).1, hw0, mul_zero]
      calc v ⬝ᵥ (A *ᵥ v) = ((u ⬝ᵥ v) • u + offPart u v) ⬝ᵥ (A *ᵥ ((u ⬝ᵥ v) • u + offPart u v)) := by rw [← e]
        _ = _ := by
          rw [mulVec_add, mulVec_smul, D.eig]
          simp only [add_dotProduct, dotProduct_add, smul_dotProduct, dotProduct_smul, smul_eq_mul, D.unit, h1,
            dotProduct_comm (offPart u v) u, hw0]
          ring
    rw [hq]
    have := hpsd (offPart u v)
    have : 0 < mu * (u ⬝ᵥ v) ^ 2 := by positivity
    linarith
  set r := v ⬝ᵥ (A *ᵥ v) / (v ⬝ᵥ v) with hr
  have hr0 : 0 < r := div_pos hq hvv
  have hrv : v ⬝ᵥ (A *ᵥ v) = r * (v ⬝ᵥ v) := by rw [hr, div_mul_cancel₀ _ hvv.ne']
  set e := A *ᵥ v - r • v with he
  have hAv : A *ᵥ v = r • v + e := by rw [he]; abel
  have hve : v ⬝ᵥ e = 0 := by rw [he, dotProduct_sub, dotProduct_smul, hrv, smul_eq_mul, sub_self]
  have hev : e ⬝ᵥ v = 0 := by rw [dotProduct_comm, hve]
  have hee : 0 ≤ e ⬝ᵥ e := Finset.sum_nonneg fun _ _ => mul_self_nonneg _
  have h1 : (A *ᵥ v) ⬝ᵥ (A *ᵥ v) = r ^ 2 * (v ⬝ᵥ v) + e ⬝ᵥ e := by
    rw [hAv]
    simp only [add_dotProduct, dotProduct_add, smul_dotProduct, dotProduct_smul, smul_eq_mul, hve, hev]; ring
  have heAv : e ⬝ᵥ (A *ᵥ v) = e ⬝ᵥ e := by
    rw [hAv, dotProduct_add, dotProduct_smul, hev, smul_zero, zero_add]
  have hvAe : v ⬝ᵥ (A *ᵥ e) = e ⬝ᵥ e := by rw [sym_dot D.symm, heAv]
  have h2 : (A *ᵥ v) ⬝ᵥ (A *ᵥ (A *ᵥ v)) = r ^ 3 * (v ⬝ᵥ v) + 2 * r * (e ⬝ᵥ e) + e ⬝ᵥ (A *ᵥ e) := by
    have : A *ᵥ (A *ᵥ v) = r • (A *ᵥ v) + A *ᵥ e := by
      conv_lhs => rw [hAv]
      rw [mulVec_add, mulVec_smul]
    rw [this, dotProduct_add, dotProduct_smul, h1, hAv, add_dotProduct, smul_dotProduct, hvAe]
    simp only [smul_eq_mul]; ring
  have h3 : (A *ᵥ v) ⬝ᵥ (A *ᵥ (A *ᵥ v)) = r * ((A *ᵥ v) ⬝ᵥ (A *ᵥ v)) := by
    rw [h, div_mul_cancel₀ _ hww.ne']
  rw [h1, h2] at h3
  have h4 : r * (e ⬝ᵥ e) ≤ 0 := by
    have := hpsd e
    nlinarith
  have h5 : e ⬝ᵥ e = 0 := by
    have := mul_nonneg hr0.le hee
    rcases mul_eq_zero.1 (le_antisymm h4 this) with h | h
    · exact absurd h hr0.ne'
    · exact h
  have h6 : e = 0 := dotProduct_self_eq_zero.1 h5
  rw [h6, add_zero] at hAv
  exact D.eig_eq huv hAv

end

/-- a tolerance below all positive entries of a finite part of a sequence -/
theorem exists_tol (d : Nat → ℝ) (J : Nat) : ∃ t : ℝ, 0 < t ∧ ∀ j, j < J → d j ≤ t → d j ≤ 0 := by
  induction J with
  | zero => exact ⟨1, one_pos, fun j hj => absurd hj (Nat.not_lt_zero _)⟩
  | succ J ih =>
    obtain ⟨t, ht, h⟩ := ih
    by_cases hJ : d J ≤ 0
    · refine ⟨t, ht, fun j hj hd => ?_⟩
      rcases Nat.lt_succ_iff_lt_or_eq.1 hj with h1 | h1
      · exact h j h1 hd
      · rw [h1]; exact hJ
    · refine ⟨min t (d J / 2), lt_min ht (by linarith), fun j hj hd => ?_⟩
      rcases Nat.lt_succ_iff_lt_or_eq.1 hj with h1 | h1
      · exact h j h1 (hd.trans (min_le_left _ _))
      · rw [h1] at hd
        have := hd.trans (min_le_right _ _)
        linarith

/-- a contracting sequence gets below every positive bound -/
theorem exists_pow_small {rho b c : ℝ} (hr0 : 0 ≤ rho) (hr1 : rho < 1) (hc : 0 < c) :
    ∃ K : Nat, ∀ k, K ≤ k → (rho ^ 2) ^ k * b ≤ c := by
  have hlim : Filter.Tendsto (fun K : Nat => (rho ^ 2) ^ K * b) Filter.atTop (nhds (0 * b)) :=
    (tendsto_pow_atTop_nhds_zero_of_lt_one (sq_nonneg rho) (by nlinarith)).mul_const b
  rw [zero_mul] at hlim
  obtain ⟨K, hK⟩ := Filter.eventually_atTop.1 (hlim.eventually (gt_mem_nhds hc))
  exact ⟨K, fun k hk => (hK k hk).le⟩

end Ellalgo
