import Verif.Lib.QcvxFl
import Verif.Props.RoundedDrift
import Verif.Props.RoundedBsearchSolve

/-! # C120: the quasiconvex example in rounded arithmetic of high enough precision -/

namespace Ellalgo
open Matrix
open scoped ComplexOrder

/-- a disc of points that are clearly better than any level below the optimum -/
theorem qcvx_disc {ε : ℝ} (hε : 0 < ε) : ∃ m : Fin 2 → ℝ, ∃ r > 0, ∃ δ > 0, norm2 m ≤ 2 ∧ ∀ z ∈ ball m r, z ∈ ball qcvxOpt 1 ∧
    z 0 ^ 2 - z 1 ≤ -δ ∧ -z 0 + (Real.exp (-(1 / 2)) / √2 - ε) * Real.exp (z 1) ≤ -δ := by
  obtain ⟨q, hq⟩ : ∃ q : ℝ, q = 1 / √2 := ⟨_, rfl⟩
  have hq0 : 0 < q := by rw [hq]; positivity
  have hqs : q ^ 2 = 1 / 2 := by rw [hq, div_pow, Real.sq_sqrt (by norm_num)]; norm_num
  have hq1 : q ≤ 1 := by nlinarith
  have hopt : qcvxOpt = ![q, 1 / 2] := by rw [qcvxOpt, hq]
  obtain ⟨G, hG⟩ : ∃ G, G = Real.exp (-(1 / 2)) / √2 - ε := ⟨_, rfl⟩
  -- at height 1/2 + t
  have hcont : Continuous fun t : ℝ => q - G * Real.exp (1 / 2 + t) := by fun_prop
  have h0 : 0 < q - G * Real.exp (1 / 2 + 0) := by
    have e1 : Real.exp (-(1 / 2)) / √2 * Real.exp (1 / 2) = q := by
      rw [hq, div_mul_eq_mul_div, ← Real.exp_add]; simp
    have e2 : 0 < ε * Real.exp (1 / 2) := by positivity
    rw [hG, add_zero]
    nlinarith
  obtain ⟨t0, ht0, ht⟩ := Metric.continuousAt_iff.1 (hcont.continuousAt (x := (0 : ℝ))) _ h0
  obtain ⟨t, htt⟩ : ∃ t, t = min (t0 / 2) (1 / 4) := ⟨_, rfl⟩
  have t0p : 0 < t := by rw [htt]; positivity
  have t1 : t ≤ 1 / 4 := htt ▸ min_le_right _ _
  have t2 : t < t0 := by
    have : t ≤ t0 / 2 := htt ▸ min_le_left _ _
    linarith
  have hpos : 0 < q - G * Real.exp (1 / 2 + t) := by
    have := ht (show dist t 0 < t0 by rw [Real.dist_eq, sub_zero, abs_of_pos t0p]; exact t2)
    rw [Real.dist_eq, abs_lt] at this
    linarith
  obtain ⟨a, ha⟩ : ∃ a, a = min t (q - G * Real.exp (1 / 2 + t)) := ⟨_, rfl⟩
  have a0 : 0 < a := by rw [ha]; positivity
  -- a neighbourhood
  have hopen : IsOpen {z : Fin 2 → ℝ | z 0 ^ 2 - z 1 < -(a / 2) ∧ -z 0 + G * Real.exp (z 1) < -(a / 2)} := by
    have k1 : Continuous fun z : Fin 2 → ℝ => z 0 ^ 2 - z 1 := by fun_prop
    have k2 : Continuous fun z : Fin 2 → ℝ => -z 0 + G * Real.exp (z 1) := by fun_prop
    exact (isOpen_lt k1 continuous_const).inter (isOpen_lt k2 continuous_const)
  have hm : (![q, 1 / 2 + t] : Fin 2 → ℝ) ∈ {z : Fin 2 → ℝ | z 0 ^ 2 - z 1 < -(a / 2) ∧ -z 0 + G * Real.exp (z 1) < -(a / 2)} := by
    constructor
    · show q ^ 2 - (1 / 2 + t) < -(a / 2)
      have : a ≤ t := ha ▸ min_le_left _ _
      linarith
    · show -q + G * Real.exp (1 / 2 + t) < -(a / 2)
      have : a ≤ q - G * Real.exp (1 / 2 + t) := ha ▸ min_le_right _ _
      linarith
  obtain ⟨r0, hr0, hr⟩ := Metric.isOpen_iff.1 hopen _ hm
  refine ⟨![q, 1 / 2 + t], min (r0 / 2) (1 / 4), by positivity, a / 2, by positivity, ?_, fun z hz => ?_⟩
  · refine Real.sqrt_le_iff.2 ⟨by norm_num, ?_⟩
    rw [dotProduct, Fin.sum_univ_two]
    simp only [cons_val_zero, cons_val_one]
    nlinarith
  · have c0 := ball_coord (by positivity) hz 0
    have c1 := ball_coord (by positivity) hz 1
    simp only [cons_val_zero, cons_val_one] at c0 c1
    have hmem := hr (show z ∈ Metric.ball _ r0 by
      rw [Metric.mem_ball, dist_pi_lt_iff hr0]
      intro i
      rw [Real.dist_eq]
      have h1 : min (r0 / 2) (1 / 4) < r0 := (min_le_left _ _).trans_lt (by linarith)
      fin_cases i
      · exact c0.trans_lt h1
      · exact c1.trans_lt h1)
    refine ⟨?_, hmem.1.le, by rw [← hG]; exact hmem.2.le⟩
    have h1 : min (r0 / 2) (1 / 4) ≤ 1 / 4 := min_le_right _ _
    have c0' := abs_le.1 (c0.trans h1)
    have c1' := abs_le.1 (c1.trans h1)
    show normSq (z - qcvxOpt) ≤ 1 ^ 2
    rw [hopt, normSq, dotProduct, Fin.sum_univ_two]
    simp only [Pi.sub_apply, cons_val_zero, cons_val_one]
    nlinarith

/-- nearly optimal, nearly feasible points lie near the maximiser: with logarithms -/
theorem qcvx_near_log {q V θ s y : ℝ} (hq0 : 0 < q) (hqs : q ^ 2 = 1 / 2) (hV : V = q * Real.exp (-(1 / 2))) (hs0 : 0 < s)
    (hys : s ^ 2 - θ / 4 ≤ y) : Real.log s - y + (s - q) ^ 2 ≤ Real.log V + θ / 4 ∧ Real.log s ≤ Real.log V + 1 / 2 + 2 * q * (s - q) := by
  have l2 : Real.log V = Real.log q - 1 / 2 := by
    rw [hV, Real.log_mul hq0.ne' (Real.exp_pos _).ne', Real.log_exp]; ring
  have l3 : Real.log s ≤ Real.log q + 2 * q * (s - q) := by
    have h1 := Real.log_le_sub_one_of_pos (show 0 < s / q by positivity)
    rw [Real.log_div hs0.ne' hq0.ne'] at h1
    have h2 : s / q - 1 = 2 * q * (s - q) := by
      rw [div_sub_one hq0.ne', div_eq_iff hq0.ne', show 2 * q * (s - q) * q = 2 * q ^ 2 * (s - q) by ring, hqs]; ring
    linarith
  constructor
  · have : (s - q) ^ 2 = s ^ 2 - 2 * q * (s - q) - q ^ 2 := by ring
    rw [this, l2, hqs]
    linarith
  · rw [l2]; linarith

theorem qcvx_near_bound {V s y : ℝ} (hV1 : 1 / 4 ≤ V) (hs : 0 ≤ s) (hy2 : 7 / 8 * s ^ 2 ≤ y)
    (hobj1 : V - 1 / 8 ≤ s / Real.exp y) : s ≤ 16 := by
  have hey := Real.add_one_le_exp y
  rw [le_div_iff₀ (Real.exp_pos y)] at hobj1
  have h1 : 1 / 8 * Real.exp y ≤ (V - 1 / 8) * Real.exp y := mul_le_mul_of_nonneg_right (by linarith) (Real.exp_pos y).le
  by_contra hcon
  rw [not_le] at hcon
  have h2 : 16 * s ≤ s ^ 2 := by rw [pow_two]; exact mul_le_mul_of_nonneg_right hcon.le hs
  linarith

theorem qcvx_near_point {q V θ s y ε : ℝ} (hε : 0 < ε) (hq0 : 0 < q) (hq1 : q ≤ 1) (hqs : q ^ 2 = 1 / 2)
    (hV : V = q * Real.exp (-(1 / 2))) (hV0 : 0 < V) (hθ0 : 0 < θ) (hθ1 : θ ≤ ε / 4) (hθ2 : 2 * θ ≤ (min 1 (ε / 8)) ^ 2) (hs0 : 0 < s)
    (hys : s ^ 2 - θ / 4 ≤ y) (hobj2 : V * Real.exp (-θ) ≤ s / Real.exp y) :
    |s - q| ≤ ε ∧ |y - 1 / 2| ≤ ε := by
  obtain ⟨l1, l3⟩ := qcvx_near_log hq0 hqs hV hs0 hys
  have l2 : Real.log V - θ ≤ Real.log s - y := by
    have h1 := Real.log_le_log (by positivity) hobj2
    rw [Real.log_mul hV0.ne' (Real.exp_pos _).ne', Real.log_exp, Real.log_div hs0.ne' (Real.exp_pos _).ne', Real.log_exp] at h1
    linarith
  have hd : (s - q) ^ 2 ≤ 2 * θ := by linarith
  have hd2 : |s - q| ≤ min 1 (ε / 8) := abs_le_of_sq_le_sq (hd.trans hθ2) (by positivity)
  have hd3 := hd2.trans (min_le_left _ _)
  have hd4 := hd2.trans (min_le_right _ _)
  refine ⟨hd4.trans (by linarith), ?_⟩
  have hsq : |s ^ 2 - q ^ 2| ≤ 3 * |s - q| := by
    rw [show s ^ 2 - q ^ 2 = (s + q) * (s - q) by ring, abs_mul]
    refine mul_le_mul_of_nonneg_right ?_ (abs_nonneg _)
    rw [abs_of_pos (by linarith)]
    linarith [(abs_le.1 hd3).2]
  have hqd : 2 * q * (s - q) ≤ 2 * (ε / 8) := by
    have h1 : q * (s - q) ≤ q * (ε / 8) := mul_le_mul_of_nonneg_left ((le_abs_self _).trans hd4) hq0.le
    have h2 : q * (ε / 8) ≤ 1 * (ε / 8) := mul_le_mul_of_nonneg_right hq1 (by positivity)
    linarith
  rw [hqs] at hsq
  have hsq' := abs_le.1 hsq
  rw [abs_le]
  constructor
  · linarith [hsq'.1]
  · linarith

theorem qcvx_near_value {q V θ s y ε : ℝ} (hq0 : 0 < q) (hq1 : q ≤ 1) (hqs : q ^ 2 = 1 / 2)
    (hV : V = q * Real.exp (-(1 / 2))) (hV0 : 0 < V) (hθ0 : 0 < θ) (hθ1 : θ ≤ ε / 4) (hθ3 : θ ≤ 1 / 2) (hs0 : 0 < s)
    (hys : s ^ 2 - θ / 4 ≤ y) : s / Real.exp y ≤ V + ε / 2 := by
  obtain ⟨l1, -⟩ := qcvx_near_log hq0 hqs hV hs0 hys
  have hV2 : V ≤ 1 := by
    have h1 : Real.exp (-(1 / 2)) ≤ 1 := Real.exp_le_one_iff.2 (by norm_num)
    rw [hV]
    exact mul_le_one₀ hq1 (Real.exp_pos _).le h1
  have h3 := Real.abs_exp_sub_one_le (x := θ / 4) (by rw [abs_of_pos (by positivity)]; linarith)
  rw [abs_of_pos (show 0 < θ / 4 by positivity)] at h3
  have h4 := (abs_le.1 h3).2
  have h5 : s / Real.exp y ≤ V * Real.exp (θ / 4) := by
    rw [← Real.log_le_log_iff (by positivity) (by positivity), Real.log_mul hV0.ne' (Real.exp_pos _).ne', Real.log_exp,
      Real.log_div hs0.ne' (Real.exp_pos _).ne', Real.log_exp]
    linarith [sq_nonneg (s - q)]
  have h6 : V * (Real.exp (θ / 4) - 1) ≤ 1 * (2 * (θ / 4)) :=
    mul_le_mul hV2 h4 (by have := Real.add_one_le_exp (θ / 4); linarith) (by norm_num)
  linarith

/-- nearly optimal, nearly feasible points lie near the maximiser -/
theorem qcvx_near {ε : ℝ} (hε : 0 < ε) : ∃ τ > 0, ∀ s y u : ℝ, 0 ≤ u → u ≤ τ → 0 ≤ s → (1 - u) * s ^ 2 ≤ y →
    Real.exp (-(1 / 2)) / √2 - τ ≤ s / Real.exp y →
    |s - 1 / √2| ≤ ε ∧ |y - 1 / 2| ≤ ε ∧ s / Real.exp y ≤ Real.exp (-(1 / 2)) / √2 + ε / 2 := by
  obtain ⟨q, hq⟩ : ∃ q : ℝ, q = 1 / √2 := ⟨_, rfl⟩
  have hq0 : 0 < q := by rw [hq]; positivity
  have hqs : q ^ 2 = 1 / 2 := by rw [hq, div_pow, Real.sq_sqrt (by norm_num)]; norm_num
  have hq1 : q ≤ 1 := by nlinarith
  obtain ⟨V, hV⟩ : ∃ V, V = Real.exp (-(1 / 2)) / √2 := ⟨_, rfl⟩
  have hVq : V = q * Real.exp (-(1 / 2)) := by rw [hV, hq]; ring
  have hV0 : 0 < V := by rw [hVq]; positivity
  have hV1 : 1 / 4 ≤ V := by
    have h1 : (1 / 2 : ℝ) ≤ Real.exp (-(1 / 2)) := by
      have := Real.add_one_le_exp (-(1 / 2) : ℝ)
      linarith
    have h2 : 1 / 2 ≤ q := by nlinarith
    rw [hVq]; nlinarith
  obtain ⟨θ, hθ⟩ : ∃ θ, θ = min (ε / 4) ((min 1 (ε / 8)) ^ 2 / 2) := ⟨_, rfl⟩
  have hθ0 : 0 < θ := by rw [hθ]; positivity
  have hθ1 : θ ≤ ε / 4 := hθ ▸ min_le_left _ _
  have hθ2 : 2 * θ ≤ (min 1 (ε / 8)) ^ 2 := by
    have : θ ≤ (min 1 (ε / 8)) ^ 2 / 2 := hθ ▸ min_le_right _ _
    linarith
  have hθ3 : θ ≤ 1 / 2 := by
    have : (min 1 (ε / 8)) ^ 2 ≤ 1 := pow_le_one₀ (by positivity) (min_le_left _ _)
    linarith
  refine ⟨min (min (1 / 8) (θ / 1024)) (V * (1 - Real.exp (-θ))), ?_, fun s y u hu0 hu hs hy hobj => ?_⟩
  · have h1 : Real.exp (-θ) < 1 := by rw [Real.exp_lt_one_iff]; linarith
    have h2 : 0 < 1 - Real.exp (-θ) := by linarith
    positivity
  have hu1 := hu.trans ((min_le_left _ _).trans (min_le_left _ _))
  have hu2 := hu.trans ((min_le_left _ _).trans (min_le_right _ _))
  rw [← hV] at hobj ⊢
  rw [← hq]
  have hobj1 : V - 1 / 8 ≤ s / Real.exp y := le_trans (sub_le_sub_left ((min_le_left _ _).trans (min_le_left _ _)) _) hobj
  have hobj2 : V * Real.exp (-θ) ≤ s / Real.exp y := by
    refine le_trans ?_ hobj
    have := min_le_right (min (1 / 8) (θ / 1024)) (V * (1 - Real.exp (-θ)))
    linarith
  have hy2 : 7 / 8 * s ^ 2 ≤ y := le_trans (mul_le_mul_of_nonneg_right (by linarith) (sq_nonneg s)) hy
  have hs16 : s ≤ 16 := qcvx_near_bound hV1 hs hy2 hobj1
  have hs0 : 0 < s := by
    rcases hs.lt_or_eq with h | h
    · exact h
    · rw [← h, zero_div] at hobj2
      exact absurd (mul_pos hV0 (Real.exp_pos _)) (not_lt.2 hobj2)
  have hys : s ^ 2 - θ / 4 ≤ y := by
    have : u * s ^ 2 ≤ θ / 1024 * 16 ^ 2 := mul_le_mul hu2 (pow_le_pow_left₀ hs hs16 2) (sq_nonneg s) (by positivity)
    linarith
  obtain ⟨h1, h2⟩ := qcvx_near_point hε hq0 hq1 hqs hVq hV0 hθ0 hθ1 hθ2 hs0 hys hobj2
  exact ⟨h1, h2, qcvx_near_value hq0 hq1 hqs hVq hV0 hθ0 hθ1 hθ3 hs0 hys⟩

/-- **C120** The quasiconvex example in floating point.  Fix bounds `B` for the entries of the first ellipsoid's matrix, its scale `κ`, a bound `D` for
the determinant of the scaled matrix, a bound `Γ` for the starting level and an accuracy `ε`.  Then there is a number `N` of steps and,
for any larger bound `K` on them, a unit roundoff `u0` such that in any arithmetic at least this accurate: `cutting_plane_optim` with the oracle of
`quasicvx.rs`, its counter anywhere, started from a level `0 ≤ γ ≤ Γ` and an ellipsoid that contains the disc of radius 1 around the maximiser
`(1/√2, 1/2)`, with `N ≤ max_iters ≤ K` and a tolerance at most some `τ`, does not panic; its final value is at least the optimum
`e^(-1/2)/√2` minus `ε`.  A returned point is feasible up to one rounding, the final value is its value up to `ε` and so at most the optimum
plus `ε`, and it lies within `ε` of the maximiser in both coordinates.  If the start is not above the optimum minus `ε`, a point is returned. -/
theorem C120_quasicvx_solved (B κ D Γ ε : ℝ) (hB : 0 < B) (hκ : 0 < κ) (hD : 0 < D) (hε : 0 < ε) :
    ∃ N : Nat, ∃ τ > 0, ∀ K : Nat, ∃ u0 > 0, ∀ u ≤ u0, ∀ (R : Rounding u) (o : QcvxOracle) (e : Ell (Fl R)) (γ : Fl R)
      (opts : Options (Fl R)), o.Reach → e.Shaped 2 → e.helper = EllCalc.new 2 → e.kappa.val = κ →
      (e.mq.flMat 2).PosDef → (∀ i j, |e.mq.flMat 2 i j| ≤ B) → (κ • e.mq.flMat 2).det ≤ D →
      ball ![1 / √2, 1 / 2] 1 ⊆ ellipsoid (e.mq.flMat 2) κ (e.xc.flVec 2) →
      0 ≤ γ.val → γ.val ≤ Γ → opts.tolerance.val ≤ τ → N ≤ opts.maxIters → opts.maxIters ≤ K →
      ∃ xb k γ' o' e', cuttingPlaneOptim QcvxOracle.oracle Ell.space o e γ opts = .ok ((xb, k), γ', o', e') ∧
        Real.exp (-(1 / 2)) / √2 - ε ≤ γ'.val ∧ γ.val - ε ≤ γ'.val ∧ (γ.val < Real.exp (-(1 / 2)) / √2 - ε → xb ≠ none) ∧
        (xb = none → γ' = γ) ∧
        ∀ x, xb = some x → x.IsVecShape 2 ∧ 0 ≤ x.flVec 2 0 ∧ (1 - u) * x.flVec 2 0 ^ 2 ≤ x.flVec 2 1 ∧
          |γ'.val - x.flVec 2 0 / Real.exp (x.flVec 2 1)| ≤ ε ∧ γ'.val ≤ Real.exp (-(1 / 2)) / √2 + ε ∧
          |x.flVec 2 0 - 1 / √2| ≤ ε ∧ |x.flVec 2 1 - 1 / 2| ≤ ε := by
  obtain ⟨ε0, hε0, hnear⟩ := qcvx_near hε
  obtain ⟨ε1, hε1⟩ : ∃ ε1, ε1 = min (ε / 2) (ε0 / 2) := ⟨_, rfl⟩
  have hε1p : 0 < ε1 := by rw [hε1]; positivity
  have hε1a : ε1 ≤ ε / 2 := hε1 ▸ min_le_left _ _
  have hε1b : ε1 ≤ ε0 / 2 := hε1 ▸ min_le_right _ _
  obtain ⟨m, r, hr, δ, hδ, hm2, hdisc⟩ := qcvx_disc (half_pos hε1p)
  obtain ⟨N, hN⟩ := exists_nat_gt (6 * Real.log (16 * D / r ^ 4))
  refine ⟨N, r ^ 2 * 1 ^ 2 / 8, by positivity, fun K => ?_⟩
  obtain ⟨Γ', hΓ'⟩ : ∃ Γ', Γ' = max Γ 2 := ⟨_, rfl⟩
  have hΓ2 : 2 ≤ Γ' := hΓ' ▸ le_max_right _ _
  have hΓΓ : Γ ≤ Γ' := hΓ' ▸ le_max_left _ _
  obtain ⟨F, hF⟩ : ∃ F, F = 2 + 2 * √(2 ^ N * κ * ((2 : ℕ) * (2 * B))) := ⟨_, rfl⟩
  have hF0 : 0 ≤ F := by rw [hF]; positivity
  obtain ⟨Z, hZ⟩ : ∃ Z, Z = 2 + r := ⟨_, rfl⟩
  have hZ0 : 0 < Z := by rw [hZ]; positivity
  obtain ⟨δ', hδ'⟩ : ∃ δ', δ' = δ / (Z + F + 1) := ⟨_, rfl⟩
  have hδ'0 : 0 < δ' := by rw [hδ']; positivity
  have hδ1 : δ' * (Z + F + 1) ≤ δ := by rw [hδ', div_mul_cancel₀ _ (by positivity)]
  obtain ⟨u1, p1, hclose⟩ := qcvx_close F Γ' hδ'0
  obtain ⟨u2, p2, hloop⟩ := optim_drift_high_precision 2 N B κ r 2 le_rfl hB hκ hr
  refine ⟨min (min u1 u2) (min (min (1 / 4) (ε1 / 8)) (min (δ / (4 * Real.exp Z)) (ε1 / (4 * ((K + 1) * Γ'))))), by positivity,
    fun u hu R o e γ opts ho he hh hek hM hEB hdet hE hγ0 hγ htol hit hK => ?_⟩
  simp only [le_min_iff] at hu
  obtain ⟨⟨hu1, hu2⟩, ⟨hu3, hu4⟩, hu5, hu6⟩ := hu
  have hu0 := R.unit_nonneg
  rw [le_div_iff₀ (by positivity)] at hu5 hu6
  have hη0 : 0 ≤ 2 * u * Γ' := by positivity
  have hMη : (opts.maxIters : ℝ) * (2 * u * Γ') ≤ ε1 / 2 := by
    have h1 : (opts.maxIters : ℝ) ≤ K := by exact_mod_cast hK
    have h2 := mul_le_mul_of_nonneg_right h1 hη0
    nlinarith
  obtain ⟨S, hS⟩ : ∃ S : ℝ → Set (Fin 2 → ℝ), S = fun γ => {z | (∀ i, |z i| ≤ Z) ∧ z 0 ^ 2 - z 1 ≤ -δ ∧
    -z 0 + γ * Real.exp (z 1) ≤ -δ} := ⟨_, rfl⟩
  have hanti : Antitone S := by
    intro s t hst z hz
    rw [hS] at hz ⊢
    have := mul_le_mul_of_nonneg_right hst (Real.exp_pos (z 1)).le
    exact ⟨hz.1, hz.2.1, by linarith [hz.2.2]⟩
  have hdrift : FlDriftOptim 2 QcvxOracle.oracle (fun _ o (γ : Fl R) => o.Reach ∧ 0 ≤ γ.val ∧ γ.val ≤ Γ') S
      (fun x γ' => 0 ≤ x.flVec 2 0 ∧ (1 - u) * x.flVec 2 0 ^ 2 ≤ x.flVec 2 1 ∧
        |γ'.val - x.flVec 2 0 / Real.exp (x.flVec 2 1)| ≤ 4 * u) 1 (2 * u * Γ')
      (2 + 2 * √(2 ^ N * κ * ((2 : ℕ) * (2 * B)))) opts.maxIters := by
    rintro i hi o x γ ⟨ho, hγ0, hγ⟩ hx
    obtain ⟨g, β, sh, γ', o', q1, q2, q3⟩ := qcvx_answers o ho x hx γ
    obtain ⟨g1, g2⟩ := qcvx_grad q3
    have hγs : sh = false → γ' = γ ∧ 0 ≤ β.val := by
      intro hs
      cases q3 with
      | first h => exact ⟨rfl, h.le⟩
      | second h => exact ⟨rfl, h.le⟩
      | better h1 h2 => simp at hs
    have hbet : sh = true → QcvxBetter u Γ' (x.flVec 2 0) (x.flVec 2 1) γ.val γ'.val := by
      intro hs
      cases q3 with
      | first h => simp at hs
      | second h => simp at hs
      | better h1 h2 => exact qcvx_better hu3 hγ0 hγ h1 h2
    have hI : 0 ≤ γ'.val ∧ γ'.val ≤ Γ' ∧ γ.val ≤ γ'.val + 2 * u * Γ' := by
      cases hsh : sh with
      | false => rw [(hγs hsh).1]; exact ⟨hγ0, hγ, by linarith⟩
      | true => exact ⟨(hbet hsh).nonneg, (hbet hsh).le_two.trans hΓ2, (hbet hsh).drift⟩
    refine ⟨_, β, sh, γ', o', q1, ⟨q2, hI.1, hI.2.1⟩, hI.2.2, g2, fun hs => ⟨(hbet hs).pos, (hbet hs).feasible, (hbet hs).value⟩,
      fun hs => (hγs hs).1, fun hxn _ => ?_⟩
    have hxF : norm2 (x.flVec 2) ≤ F := by rw [hF]; exact hxn
    have x0 := (norm2_coord (x.flVec 2) 0).trans hxF
    have x1 := (norm2_coord (x.flVec 2) 1).trans hxF
    have hxe : x.flVec 2 = ![x.flVec 2 0, x.flVec 2 1] := by ext i; fin_cases i <;> rfl
    have hcut : ∀ z ∈ S γ'.val, (Arr.ofList g).flVec 2 ⬝ᵥ (z - x.flVec 2) + (if sh = true then 0 else β.val) ≤ 0 := by
      intro z hz
      rw [hS] at hz
      rw [hxe]
      exact qcvx_cuts ⟨x0, x1⟩ hγ0 hδ1 (by linarith) hu3 hγ
        (hclose u hu1 R _ _ _ x0 x1 (by rw [abs_of_nonneg hγ0]; exact hγ)) q3 hz.1 hz.2.1 hz.2.2
    refine ⟨fun h0 => ?_, g1, fun hs z hz => ?_, fun hs => ⟨(hγs hs).2, fun z hz => ?_⟩⟩
    · rw [h0] at g1
      simp [normSq] at g1
      linarith
    · have := hcut z hz
      rw [if_pos hs, add_zero] at this
      exact this
    · have := hcut z hz
      rw [hs, if_neg (by simp)] at this
      exact this
  have hdet0 : 0 < (κ • e.mq.flMat 2).det := (hM.smul hκ).det_pos
  have hN' : 2 * (((2 : ℕ) : ℝ) + 1) * Real.log (4 ^ 2 * (κ • e.mq.flMat 2).det / (r ^ 2) ^ 2) < N := by
    rw [show (2 : ℝ) * (((2 : ℕ) : ℝ) + 1) = 6 by norm_num, show (4 : ℝ) ^ 2 = 16 by norm_num, ← pow_mul]
    refine lt_of_le_of_lt (mul_le_mul_of_nonneg_left (Real.log_le_log (by positivity) ?_) (by norm_num)) hN
    exact div_le_div_of_nonneg_right (by linarith) (by positivity)
  obtain ⟨xb, k, γ', o', e', r1, r2, r3, r4⟩ := hloop u hu2 R QcvxOracle QcvxOracle.oracle _ S _ 1 (2 * u * Γ') m o e γ opts hanti hη0 he hh hek hM hEB
    hm2 (fun z hz => hE (hdisc z hz).1) ⟨ho, hγ0, hγ.trans hΓΓ⟩ hdrift htol hN' hit
  have hlev : Real.exp (-(1 / 2)) / √2 - ε1 ≤ γ'.val := by
    by_contra hcon
    rw [not_le] at hcon
    refine r4 fun z hz => ?_
    obtain ⟨v1, v2, v3⟩ := hdisc z hz
    have hzZ : ∀ i, |z i| ≤ Z := by
      intro i
      have h1 := norm2_coord z i
      have h2 : norm2 (z - m) ≤ r := Real.sqrt_le_iff.2 ⟨hr.le, hz⟩
      have h3 := norm2_sub_le z m
      rw [hZ]
      linarith
    rw [hS]
    refine ⟨hzZ, v2, le_trans ?_ v3⟩
    have := mul_le_mul_of_nonneg_right (show γ'.val + opts.maxIters * (2 * u * Γ') ≤ Real.exp (-(1 / 2)) / √2 - ε1 / 2 by linarith)
      (Real.exp_pos (z 1)).le
    linarith
  refine ⟨xb, k, γ', o', e', r1, by linarith, by linarith, fun hlt hnone => ?_, fun hnone => ?_, fun x hx => ?_⟩
  · rcases r3 with ⟨-, r3⟩ | ⟨x, x1, -⟩
    · rw [r3] at hlev; linarith
    · rw [hnone] at x1; simp at x1
  · rcases r3 with ⟨-, r3⟩ | ⟨x, x1, -⟩
    · exact r3
    · rw [hnone] at x1; simp at x1
  · rcases r3 with ⟨r3, -⟩ | ⟨x', x1, x2, x3, x4, x5⟩
    · rw [r3] at hx; simp at hx
    · rw [x1] at hx
      obtain rfl := Option.some.inj hx
      have x5' : |γ'.val - x'.flVec 2 0 / Real.exp (x'.flVec 2 1)| ≤ ε1 / 2 := x5.trans (by linarith)
      have hn := hnear (x'.flVec 2 0) (x'.flVec 2 1) u hu0 (by linarith) x3 x4 (by linarith [(abs_le.1 x5').2])
      have hup : γ'.val ≤ Real.exp (-(1 / 2)) / √2 + ε := by
        linarith [(abs_le.1 x5').2, hn.2.2]
      exact ⟨x2, x3, x4, x5'.trans (by linarith), hup, hn.1, hn.2.1⟩

/-- the hypotheses can be met: from the disc of radius `√10` around the origin, the level 0, in an arithmetic of high enough precision, a point within
1/100 of the maximiser is found -/
example : ∃ (u : ℝ) (R : Rounding u) (N : ℕ) (τ : ℝ) (e : Ell (Fl R)) (x : Arr (Fl R)) (k : Nat) (γ' : Fl R) (o' : QcvxOracle)
    (e' : Ell (Fl R)), 0 < τ ∧ Ell.newWithScalar ⟨10⟩ (Arr.ofList [0, 0]) = .ok e ∧
    cuttingPlaneOptim QcvxOracle.oracle Ell.space QcvxOracle.default e ⟨0⟩ ⟨N, ⟨τ⟩⟩ = .ok ((some x, k), γ', o', e') ∧
    |x.flVec 2 0 - 1 / √2| ≤ 1 / 100 ∧ |x.flVec 2 1 - 1 / 2| ≤ 1 / 100 := by
  obtain ⟨N, τ, hτ, hN⟩ := C120_quasicvx_solved 1 10 (((10 : ℝ) • (1 : Matrix (Fin 2) (Fin 2) ℝ)).det) 1 (1 / 100) one_pos (by norm_num)
    (by simp) (by norm_num)
  obtain ⟨u0, h0, h⟩ := hN N
  obtain ⟨u, hu, R, -⟩ := fine_int u0 h0
  obtain ⟨e, he, he1, he2, -, he3, he4, he5⟩ := disc_new_fl (R := R) ⟨10⟩
  obtain ⟨xb, k, γ', o', e', r1, -, -, r4, -, r5⟩ := h u hu R QcvxOracle.default e ⟨0⟩ ⟨N, ⟨τ⟩⟩ qcvx_default_reach he1 he2 (by rw [he3])
    (by rw [he4]; exact PosDef.one) (by rw [he4]; intro i j; fin_cases i <;> fin_cases j <;> simp) (by rw [he4]) (by
      intro z hz
      refine disc_ellipsoid he4 he5 ?_
      have c0 := ball_coord zero_le_one hz 0
      have c1 := ball_coord zero_le_one hz 1
      simp only [cons_val_zero, cons_val_one] at c0 c1
      have hq : (1 / √2 : ℝ) ≤ 1 := by
        rw [div_le_one (by positivity)]
        exact Real.one_le_sqrt.2 (by norm_num)
      have hq0 : (0 : ℝ) < 1 / √2 := by positivity
      rw [abs_le] at c0 c1
      nlinarith) le_rfl zero_le_one le_rfl le_rfl le_rfl
  have hpos : (0 : ℝ) < Real.exp (-(1 / 2)) / √2 - 1 / 100 := by
    have h1 : (1 / 2 : ℝ) ≤ Real.exp (-(1 / 2)) := by
      have := Real.add_one_le_exp (-(1 / 2) : ℝ)
      linarith
    have h2 : √2 ≤ 2 := Real.sqrt_le_iff.2 ⟨by norm_num, by norm_num⟩
    have h3 : (1 / 2 : ℝ) / 2 ≤ Real.exp (-(1 / 2)) / √2 := div_le_div₀ (by linarith) h1 (by positivity) h2
    linarith
  cases xb with
  | none => exact absurd rfl (r4 hpos)
  | some x =>
    obtain ⟨-, -, -, -, -, x1, x2⟩ := r5 x rfl
    exact ⟨u, R, N, τ, e, x, k, γ', o', e', hτ, he, r1, x1, x2⟩

end Ellalgo
