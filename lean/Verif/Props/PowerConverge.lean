import Verif.Props.PowerProps

/-! # Property C55: power iteration terminates when there is a dominant eigenvalue -/

namespace Ellalgo
open Matrix

variable {n : Nat}

section
variable {A : Matrix (Fin n) (Fin n) ℝ} {u : Fin n → ℝ} {mu rho : ℝ}

/-- the part of `v` orthogonal to the unit vector `u` -/
def offPart (u v : Fin n → ℝ) : Fin n → ℝ := v - (u ⬝ᵥ v) • u

theorem off_orth (hu : u ⬝ᵥ u = 1) (v : Fin n → ℝ) : u ⬝ᵥ offPart u v = 0 := by
  rw [offPart, dotProduct_sub, dotProduct_smul, hu, smul_eq_mul, mul_one, sub_self]

theorem off_norm (hu : u ⬝ᵥ u = 1) (v : Fin n → ℝ) :
    v ⬝ᵥ v = (u ⬝ᵥ v) ^ 2 + offPart u v ⬝ᵥ offPart u v := by
  simp only [offPart, sub_dotProduct, dotProduct_sub, smul_dotProduct, dotProduct_smul, hu, smul_eq_mul,
    dotProduct_comm v u]
  ring

theorem off_smul (c : ℝ) (v : Fin n → ℝ) : offPart u (c • v) = c • offPart u v := by
  simp only [offPart, dotProduct_smul, smul_sub, smul_smul, smul_eq_mul]

theorem off_mulVec (hA : A.IsSymm) (hAu : A *ᵥ u = mu • u) (v : Fin n → ℝ) :
    u ⬝ᵥ (A *ᵥ v) = mu * (u ⬝ᵥ v) ∧ offPart u (A *ᵥ v) = A *ᵥ offPart u v := by
  have h1 : u ⬝ᵥ (A *ᵥ v) = mu * (u ⬝ᵥ v) := by
    rw [sym_dot hA, hAu, dotProduct_smul, smul_eq_mul, dotProduct_comm]
  refine ⟨h1, ?_⟩
  rw [offPart, h1, offPart, mulVec_sub, mulVec_smul, hAu, smul_smul, mul_comm]

/-- one normalised step: the component along `u` keeps its sign up to that of `mu`, the tangent contracts -/
theorem tangent_step (hA : A.IsSymm) (hu : u ⬝ᵥ u = 1) (hAu : A *ᵥ u = mu • u) (hmu : mu ≠ 0)
    (hgap : ∀ w : Fin n → ℝ, u ⬝ᵥ w = 0 → (A *ᵥ w) ⬝ᵥ (A *ᵥ w) ≤ rho * mu ^ 2 * (w ⬝ᵥ w))
    {v : Fin n → ℝ} {c t : ℝ} (hc : 0 < c) (ha : u ⬝ᵥ v ≠ 0)
    (ht : offPart u v ⬝ᵥ offPart u v ≤ t * (u ⬝ᵥ v) ^ 2) (hrho : 0 ≤ rho) :
    u ⬝ᵥ (c • (A *ᵥ v)) ≠ 0 ∧ 0 < (u ⬝ᵥ (c • (A *ᵥ v))) * (mu * (u ⬝ᵥ v)) ∧
    offPart u (c • (A *ᵥ v)) ⬝ᵥ offPart u (c • (A *ᵥ v)) ≤ (rho * t) * (u ⬝ᵥ (c • (A *ᵥ v))) ^ 2 := by
  obtain ⟨h1, h2⟩ := off_mulVec hA hAu v
  have h3 : u ⬝ᵥ (c • (A *ᵥ v)) = c * (mu * (u ⬝ᵥ v)) := by rw [dotProduct_smul, smul_eq_mul, h1]
  have hm : mu * (u ⬝ᵥ v) ≠ 0 := mul_ne_zero hmu ha
  refine ⟨by rw [h3]; exact mul_ne_zero hc.ne' hm, ?_, ?_⟩
  · rw [h3, mul_assoc]
    exact mul_pos hc (mul_self_pos.2 hm)
  · rw [off_smul, h2, h3, smul_dotProduct, dotProduct_smul, smul_eq_mul, smul_eq_mul]
    have h4 := hgap _ (off_orth hu v)
    have h5 : rho * mu ^ 2 * (offPart u v ⬝ᵥ offPart u v) ≤ rho * mu ^ 2 * (t * (u ⬝ᵥ v) ^ 2) :=
      mul_le_mul_of_nonneg_left ht (mul_nonneg hrho (sq_nonneg _))
    have h6 := mul_le_mul_of_nonneg_left (h4.trans h5) (mul_nonneg hc.le hc.le)
    calc c * (c * _) = c * c * ((A *ᵥ offPart u v) ⬝ᵥ (A *ᵥ offPart u v)) := by ring
      _ ≤ _ := h6
      _ = _ := by ring

/-- two unit vectors with small tangents and components of matching sign are close -/
theorem close_of_tangent (hu : u ⬝ᵥ u = 1) {v w : Fin n → ℝ} {t s : ℝ} (hv : v ⬝ᵥ v = 1) (hw : w ⬝ᵥ w = 1)
    (hs : s = 1 ∨ s = -1) (hsign : 0 < (u ⬝ᵥ w) * (s * (u ⬝ᵥ v))) (ht : 0 ≤ t)
    (htv : offPart u v ⬝ᵥ offPart u v ≤ t * (u ⬝ᵥ v) ^ 2) (htw : offPart u w ⬝ᵥ offPart u w ≤ t * (u ⬝ᵥ w) ^ 2) :
    (w - s • v) ⬝ᵥ (w - s • v) ≤ t ^ 2 + 4 * t := by
  have hss : s ^ 2 = 1 := by rcases hs with h | h <;> rw [h] <;> norm_num
  rw [off_norm hu] at hv hw
  have e1 : u ⬝ᵥ (w - s • v) = u ⬝ᵥ w - s * (u ⬝ᵥ v) := by rw [dotProduct_sub, dotProduct_smul, smul_eq_mul]
  have e2 : offPart u (w - s • v) = offPart u w - s • offPart u v := by
    simp only [offPart, dotProduct_sub, dotProduct_smul, smul_eq_mul, smul_sub, sub_smul, smul_smul]
    abel
  rw [off_norm hu, e1, e2]
  have pv : 0 ≤ offPart u v ⬝ᵥ offPart u v := Finset.sum_nonneg fun _ _ => mul_self_nonneg _
  have pw : 0 ≤ offPart u w ⬝ᵥ offPart u w := Finset.sum_nonneg fun _ _ => mul_self_nonneg _
  have pvw : 0 ≤ (offPart u w + s • offPart u v) ⬝ᵥ (offPart u w + s • offPart u v) :=
    Finset.sum_nonneg fun _ _ => mul_self_nonneg _
  have e3 : (offPart u w + s • offPart u v) ⬝ᵥ (offPart u w + s • offPart u v)
      + (offPart u w - s • offPart u v) ⬝ᵥ (offPart u w - s • offPart u v)
      = 2 * (offPart u w ⬝ᵥ offPart u w) + 2 * (offPart u v ⬝ᵥ offPart u v) := by
    simp only [add_dotProduct, dotProduct_add, sub_dotProduct, dotProduct_sub, smul_dotProduct, dotProduct_smul,
      smul_eq_mul]
    linear_combination 2 * (offPart u v ⬝ᵥ offPart u v) * hss
  set a := u ⬝ᵥ w with ha
  set b := s * (u ⬝ᵥ v) with hb
  have hb2 : b ^ 2 = (u ⬝ᵥ v) ^ 2 := by rw [hb, mul_pow, hss, one_mul]
  rw [← hb2] at hv htv
  set pV := offPart u v ⬝ᵥ offPart u v
  set pW := offPart u w ⬝ᵥ offPart u w
  have hpv : pV ≤ t := by nlinarith
  have hpw : pW ≤ t := by nlinarith
  -- |a - b| ≤ t
  have ha1 : a ^ 2 ≤ 1 := by linarith
  have hb1 : b ^ 2 ≤ 1 := by linarith
  have ha2 : 1 - t ≤ a ^ 2 := by linarith
  have hb2' : 1 - t ≤ b ^ 2 := by linarith
  have hab : (a - b) ^ 2 ≤ t ^ 2 := by
    have hle : |a - b| ≤ t := by
      have haabs : |a| ≤ 1 := abs_le_one_iff_mul_self_le_one.2 (by nlinarith)
      have hbabs : |b| ≤ 1 := abs_le_one_iff_mul_self_le_one.2 (by nlinarith)
      have ha3 : 1 - t ≤ |a| := by nlinarith [sq_abs a, abs_nonneg a]
      have hb3 : 1 - t ≤ |b| := by nlinarith [sq_abs b, abs_nonneg b]
      rcases lt_or_gt_of_ne (show a ≠ 0 by intro h; rw [h, zero_mul] at hsign; exact lt_irrefl _ hsign) with h | h
      · have hbn : b < 0 := by nlinarith
        rw [abs_of_neg h] at haabs ha3
        rw [abs_of_neg hbn] at hbabs hb3
        rw [abs_le]; constructor <;> linarith
      · have hbp : 0 < b := by nlinarith
        rw [abs_of_pos h] at haabs ha3
        rw [abs_of_pos hbp] at hbabs hb3
        rw [abs_le]; constructor <;> linarith
    rw [← sq_abs]
    exact pow_le_pow_left₀ (abs_nonneg _) hle 2
  linarith

end

/-- the loop stops no later than step `K` when the tangent at step `K` is small enough -/
theorem powerLoop_stops {a : Arr ℝ} {A : Matrix (Fin n) (Fin n) ℝ} {u : Fin n → ℝ} {mu rho t0 : ℝ} {opts : Options ℝ}
    (hn : 0 < n) (ha : RM a A) (hA : A.IsSymm) (hu : u ⬝ᵥ u = 1) (hAu : A *ᵥ u = mu • u) (hmu : mu ≠ 0)
    (hrho : 0 ≤ rho) (hrho1 : rho ≤ 1) (ht0 : 0 ≤ t0)
    (hgap : ∀ w : Fin n → ℝ, u ⬝ᵥ w = 0 → (A *ᵥ w) ⬝ᵥ (A *ᵥ w) ≤ rho * mu ^ 2 * (w ⬝ᵥ w)) {K : Nat}
    (htol : 0 ≤ opts.tolerance)
    (hK : (n : ℝ) * ((rho ^ K * t0) ^ 2 + 4 * (rho ^ K * t0)) ≤ opts.tolerance ^ 2) (k j : Nat)
    (hjK : j ≤ K) (hKk : K < j + k) {x : Arr ℝ} {v : Fin n → ℝ} (hx : RV x v) (hv : v ⬝ᵥ v = 1) (hav : u ⬝ᵥ v ≠ 0)
    (htv : offPart u v ⬝ᵥ offPart u v ≤ (rho ^ j * t0) * (u ⬝ᵥ v) ^ 2) :
    ∃ l niter xf, powerLoop a opts k j x = .ok ((l, niter), xf) ∧ niter ≤ K := by
  induction k generalizing j x v with
  | zero => omega
  | succ k ih =>
    have h0 : A *ᵥ v ≠ 0 := by
      intro h
      have := (off_mulVec hA hAu v).1
      rw [h, dotProduct_zero] at this
      exact mul_ne_zero hmu hav this.symm
    obtain ⟨y, z, c, h1, hy, h2, hc, hz, hzu⟩ := power_mul_normalize hn ha hx h0
    obtain ⟨b, h3, hb⟩ := closeUpToSign_spec opts.tolerance hz hx
    obtain ⟨g1, g2, g3⟩ := tangent_step hA hu hAu hmu hgap hc hav htv hrho
    cases b with
    | true =>
      refine ⟨(c • (A *ᵥ v)) ⬝ᵥ (A *ᵥ (c • (A *ᵥ v))), j, z, ?_, hjK⟩
      simp only [powerLoop, h1, h2, h3, Res.ok_bind, if_true, rayleigh_spec hn ha hz]
    | false =>
      rcases Nat.lt_or_ge j K with hlt | hge
      · obtain ⟨l, niter, xf, h4, h5⟩ := ih (j + 1) (by omega) (by omega) hz hzu g1
          (by rw [pow_succ']; rw [mul_assoc rho]; exact g3)
        refine ⟨l, niter, xf, ?_, h5⟩
        simp only [powerLoop, h1, h2, h3, Res.ok_bind]
        exact h4
      · -- at step K the test succeeds
        exfalso
        obtain rfl : j = K := by omega
        have hrK : 0 ≤ rho ^ j * t0 := mul_nonneg (pow_nonneg hrho _) ht0
        have g3' : offPart u (c • (A *ᵥ v)) ⬝ᵥ offPart u (c • (A *ᵥ v)) ≤ (rho ^ j * t0) * (u ⬝ᵥ (c • (A *ᵥ v))) ^ 2 := by
          refine g3.trans (mul_le_mul_of_nonneg_right ?_ (sq_nonneg _))
          calc rho * (rho ^ j * t0) ≤ 1 * (rho ^ j * t0) := mul_le_mul_of_nonneg_right hrho1 hrK
            _ = _ := one_mul _
        have hnorm : ∀ s : ℝ, s = 1 ∨ s = -1 → 0 < (u ⬝ᵥ (c • (A *ᵥ v))) * (s * (u ⬝ᵥ v)) →
            norm1 (c • (A *ᵥ v) - s • v) ≤ opts.tolerance := by
          intro s hs hsg
          have h6 := close_of_tangent hu hv hzu hs hsg hrK htv g3'
          have h7 := norm1_sq_le (c • (A *ᵥ v) - s • v)
          have h8 : norm1 (c • (A *ᵥ v) - s • v) ^ 2 ≤ opts.tolerance ^ 2 :=
            h7.trans ((mul_le_mul_of_nonneg_left h6 (Nat.cast_nonneg n)).trans hK)
          exact abs_le_of_sq_le_sq' h8 htol |>.2
        have : norm1 (c • (A *ᵥ v) - v) ≤ opts.tolerance ∨ norm1 (c • (A *ᵥ v) + v) ≤ opts.tolerance := by
          rcases lt_or_gt_of_ne hmu with hneg | hpos
          · right
            have := hnorm (-1) (Or.inr rfl) (by nlinarith)
            simpa using this
          · left
            have := hnorm 1 (Or.inl rfl) (by rw [one_mul]; by_contra h; nlinarith)
            simpa using this
        simpa using hb.2 this

/-- **C55** Let `A` be symmetric with an eigenvalue `λ_i ≠ 0` that dominates all others in absolute value, let the start
have a component along its eigenvector, and let `tol > 0`.  Then `power_iteration` meets its stop criterion: there is
one bound `N` such that whatever larger number of iterations is allowed, the call returns having used at most `N`. -/
theorem C55_power_iteration_terminates {a x : Arr ℝ} {tol : ℝ} (ha : a.IsMatShape n n) (hx : x.IsVecShape n)
    (hA : (a.toMat n n).IsHermitian) (i : Fin n) (hi0 : hA.eigenvalues i ≠ 0)
    (hdom : ∀ j, j ≠ i → |hA.eigenvalues j| < |hA.eigenvalues i|)
    (hstart : (hA.eigenvectorBasis i).ofLp ⬝ᵥ x.toVec n ≠ 0) (htol : 0 < tol) :
    ∃ N, ∀ m, N < m → ∃ l niter xf, powerIteration a x ⟨m, tol⟩ = .ok ((l, niter), xf) ∧ niter ≤ N := by
  have hn : 0 < n := i.pos
  have hs : (a.toMat n n).IsSymm := by
    have := hA
    rw [IsHermitian, conjTranspose_eq_transpose_of_trivial] at this; exact this
  set u := (hA.eigenvectorBasis i).ofLp with hudef
  set mu := hA.eigenvalues i with hmudef
  have hAu : a.toMat n n *ᵥ u = mu • u := hA.mulVec_eigenvectorBasis i
  have hort : ∀ k, eigVec hA k ⬝ᵥ u = if k = i then 1 else 0 := by
    intro k
    have h := hA.eigenvectorBasis.inner_eq_ite k i
    rw [EuclideanSpace.inner_eq_star_dotProduct, star_trivial, dotProduct_comm] at h
    exact h
  have hu : u ⬝ᵥ u = 1 := by
    have := hort i
    rw [if_pos rfl] at this
    exact this
  -- the spectral gap
  obtain ⟨rho, hr0, hr1, hr⟩ : ∃ rho : ℝ, 0 ≤ rho ∧ rho < 1 ∧ ∀ j, j ≠ i → hA.eigenvalues j ^ 2 ≤ rho * mu ^ 2 := by
    have hmu2 : 0 < mu ^ 2 := by positivity
    by_cases hne : (Finset.univ.erase i : Finset (Fin n)).Nonempty
    · obtain ⟨j0, hj0, hmax⟩ := Finset.exists_max_image (Finset.univ.erase i) (fun j => hA.eigenvalues j ^ 2) hne
      refine ⟨hA.eigenvalues j0 ^ 2 / mu ^ 2, by positivity, ?_, ?_⟩
      · rw [div_lt_one hmu2]
        exact sq_lt_sq.2 (hdom j0 (Finset.ne_of_mem_erase hj0))
      · intro j hj
        rw [div_mul_cancel₀ _ hmu2.ne']
        exact hmax j (Finset.mem_erase.2 ⟨hj, Finset.mem_univ _⟩)
    · refine ⟨0, le_rfl, one_pos, fun j hj => ?_⟩
      exact absurd ⟨j, Finset.mem_erase.2 ⟨hj, Finset.mem_univ _⟩⟩ hne
  have hgap : ∀ w : Fin n → ℝ, u ⬝ᵥ w = 0 →
      (a.toMat n n *ᵥ w) ⬝ᵥ (a.toMat n n *ᵥ w) ≤ rho * mu ^ 2 * (w ⬝ᵥ w) := by
    intro w hw
    rw [eig_parseval hA (a.toMat n n *ᵥ w), eig_parseval hA w, Finset.mul_sum]
    refine Finset.sum_le_sum fun j _ => ?_
    rw [eig_mulVec]
    by_cases hj : j = i
    · have : eigVec hA j ⬝ᵥ w = 0 := by rw [hj]; exact hw
      rw [this]; simp
    · nlinarith [hr j hj, mul_self_nonneg (eigVec hA j ⬝ᵥ w),
        mul_le_mul_of_nonneg_right (hr j hj) (mul_self_nonneg (eigVec hA j ⬝ᵥ w))]
  -- the start
  have hx0 : x.toVec n ≠ 0 := by intro h; rw [h, dotProduct_zero] at hstart; exact hstart rfl
  obtain ⟨z, h1, hz⟩ := normalize2_spec (⟨hx, rfl⟩ : RV x (x.toVec n))
  obtain ⟨hc, hzu⟩ := unit_normalize hx0
  set v := (Real.sqrt (x.toVec n ⬝ᵥ x.toVec n))⁻¹ • x.toVec n with hv
  have hav : u ⬝ᵥ v ≠ 0 := by
    rw [hv, dotProduct_smul]; exact mul_ne_zero hc.ne' hstart
  have hav2 : 0 < (u ⬝ᵥ v) ^ 2 := by positivity
  set t0 := offPart u v ⬝ᵥ offPart u v / (u ⬝ᵥ v) ^ 2 with ht0
  have ht0n : 0 ≤ t0 := div_nonneg (Finset.sum_nonneg fun _ _ => mul_self_nonneg _) hav2.le
  have htv : offPart u v ⬝ᵥ offPart u v ≤ (rho ^ 0 * t0) * (u ⬝ᵥ v) ^ 2 := by
    rw [pow_zero, one_mul, ht0, div_mul_cancel₀ _ hav2.ne']
  -- a step count after which the tangent is small
  obtain ⟨K, hK⟩ : ∃ K : Nat, (n : ℝ) * ((rho ^ K * t0) ^ 2 + 4 * (rho ^ K * t0)) ≤ tol ^ 2 := by
    have hlim : Filter.Tendsto (fun K : Nat => (n : ℝ) * ((rho ^ K * t0) ^ 2 + 4 * (rho ^ K * t0))) Filter.atTop
        (nhds ((n : ℝ) * ((0 * t0) ^ 2 + 4 * (0 * t0)))) := by
      have h := tendsto_pow_atTop_nhds_zero_of_lt_one hr0 hr1
      have h2 := h.mul_const t0
      exact ((h2.pow 2).add (h2.const_mul 4)).const_mul _
    have hpos : (n : ℝ) * ((0 * t0) ^ 2 + 4 * (0 * t0)) < tol ^ 2 := by
      have : 0 < tol ^ 2 := by positivity
      simpa using this
    exact ((hlim.eventually (gt_mem_nhds hpos)).exists).imp fun K h => h.le
  refine ⟨K, fun m hm => ?_⟩
  obtain ⟨l, niter, xf, h4, h5⟩ := powerLoop_stops (opts := ⟨m, tol⟩) hn ⟨ha, rfl⟩ hs hu hAu hi0 hr0 hr1.le ht0n hgap
    htol.le hK m 0 (Nat.zero_le _) (by omega) hz hzu hav htv
  refine ⟨l, niter, xf, ?_, h5⟩
  simp only [powerIteration, h1, Res.ok_bind]
  exact h4

/-! ## The matrix of the documentation example meets the hypotheses -/

namespace ExPow

theorem a2_herm : (a2.toMat 2 2).IsHermitian := by
  rw [IsHermitian, conjTranspose_eq_transpose_of_trivial, a2_mat]
  ext i j; fin_cases i <;> fin_cases j <;> rfl

theorem a2_eig : ∃ i, a2_herm.eigenvalues i = 4 ∧ ∀ j, j ≠ i → a2_herm.eigenvalues j = 2 := by
  have h1 := a2_herm.trace_eq_sum_eigenvalues
  have h2 := a2_herm.det_eq_prod_eigenvalues
  have e1 : (a2.toMat 2 2).trace = 6 := by rw [a2_mat]; simp [Matrix.trace, Fin.sum_univ_two]; norm_num
  have e2 : (a2.toMat 2 2).det = 8 := by rw [a2_mat]; simp [Matrix.det_fin_two]; norm_num
  rw [e1] at h1
  rw [e2] at h2
  simp [Fin.sum_univ_two] at h1
  simp [Fin.prod_univ_two] at h2
  have h3 : (a2_herm.eigenvalues 0 - 4) * (a2_herm.eigenvalues 0 - 2) = 0 := by
    linear_combination -a2_herm.eigenvalues 0 * h1 + h2
  rcases mul_eq_zero.1 h3 with h | h
  · refine ⟨0, by linarith, fun j hj => ?_⟩
    fin_cases j
    · exact absurd rfl hj
    · show a2_herm.eigenvalues 1 = 2
      linarith
  · refine ⟨1, by linarith, fun j hj => ?_⟩
    fin_cases j
    · show a2_herm.eigenvalues 0 = 2
      linarith
    · exact absurd rfl hj

/-- C55 applies to `[[3,1],[1,3]]` started at `(1,0)` with tolerance `1e-6` -/
example : ∃ N, ∀ m, N < m → ∃ l niter xf, powerIteration a2 x2 ⟨m, 1 / 1000000⟩ = .ok ((l, niter), xf) ∧ niter ≤ N := by
  obtain ⟨i, hi, hj⟩ := a2_eig
  refine C55_power_iteration_terminates a2_shape x2_shape a2_herm i (by rw [hi]; norm_num)
    (fun j h => by rw [hj j h, hi]; norm_num) ?_ (by norm_num)
  intro h0
  have hAu := a2_herm.mulVec_eigenvectorBasis i
  have hu : eigVec a2_herm i ⬝ᵥ eigVec a2_herm i = 1 := by
    have h := a2_herm.eigenvectorBasis.inner_eq_ite i i
    rw [EuclideanSpace.inner_eq_star_dotProduct, star_trivial, if_pos rfl] at h
    exact h
  rw [hi] at hAu
  change a2.toMat 2 2 *ᵥ eigVec a2_herm i = (4 : ℝ) • eigVec a2_herm i at hAu
  change eigVec a2_herm i ⬝ᵥ x2.toVec 2 = 0 at h0
  generalize eigVec a2_herm i = u at *
  rw [x2_vec] at h0
  rw [a2_mat] at hAu
  have e0 := congrFun hAu 0
  simp [mulVec, dotProduct, Fin.sum_univ_two] at e0 h0 hu
  have : u 1 = 0 := by linarith
  rw [h0, this] at hu
  simp at hu

end ExPow
end Ellalgo
