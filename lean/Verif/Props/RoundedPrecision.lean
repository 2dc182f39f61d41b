import Verif.Spec.RoundedConverge
import Verif.Props.RoundedConverge
import Mathlib.Topology.MetricSpace.Pseudo.Defs
import Mathlib.Analysis.SpecialFunctions.Sqrt

/-! C104: a small enough unit roundoff is always enough precision. -/

namespace Ellalgo
open Filter Topology Matrix
open scoped ComplexOrder

variable {n : Nat} {p : Plan}

theorem Plan.err_cont : Continuous (fun u => p.err n u) := by
  unfold Plan.err quadErr
  fun_prop

theorem Plan.loss_cont : Continuous (fun u => p.loss n u) := by
  have h : Continuous (fun u => quadErr u n (2 * p.B) p.low) := Plan.err_cont
  unfold Plan.loss deepLoss
  exact continuous_const.mul (((continuous_const.mul h).mul continuous_const).div_const _)

theorem Plan.drift_cont : Continuous (fun u => p.drift n u) := by
  have h : Continuous (fun u => quadErr u n (2 * p.B) p.low) := Plan.err_cont
  unfold Plan.drift deepDrift
  exact continuous_const.mul (((continuous_id.mul continuous_const).div_const _).add ((continuous_const.mul h).mul continuous_const))

theorem Plan.err_zero : p.err n 0 = 0 := by simp [Plan.err, quadErr]
theorem Plan.loss_zero : p.loss n 0 = 0 := by simp [Plan.loss, deepLoss, quadErr]
theorem Plan.drift_zero : p.drift n 0 = 0 := by simp [Plan.drift, deepDrift, quadErr]

theorem Plan.inflated_succ (u : ℝ) (i : Nat) : p.inflated n u (i + 1) = (1 + (1 + 1 / (n : ℝ)) / p.γ ^ 2 * (p.inflated n u i - 1) +
    p.drift n u) / √((1 - p.loss n u) * ((1 - 3 * p.err n u / p.γ) * (1 - u) ^ 13)) := by
  unfold Plan.inflated
  rw [Function.iterate_succ_apply']
  rfl

theorem Plan.inflated_cont (i : Nat) : p.inflated n 0 i = 1 ∧ ContinuousAt (fun u => p.inflated n u i) 0 := by
  induction i with
  | zero => exact ⟨rfl, continuousAt_const⟩
  | succ i ih =>
    obtain ⟨h1, h2⟩ := ih
    have hl := (Plan.loss_cont (n := n) (p := p)).continuousAt (x := 0)
    have hr := (Plan.err_cont (n := n) (p := p)).continuousAt (x := 0)
    have hd := (Plan.drift_cont (n := n) (p := p)).continuousAt (x := 0)
    constructor
    · rw [Plan.inflated_succ, h1, Plan.err_zero, Plan.loss_zero, Plan.drift_zero]
      norm_num
    · simp only [Plan.inflated_succ]
      refine ContinuousAt.div ?_ ?_ ?_
      · exact (continuousAt_const.add (continuousAt_const.mul (h2.sub continuousAt_const))).add hd
      · refine (ContinuousAt.sqrt ?_)
        exact (continuousAt_const.sub hl).mul ((continuousAt_const.sub ((continuousAt_const.mul hr).div_const _)).mul
          ((continuousAt_const.sub continuousAt_id).pow 13))
      · rw [Plan.err_zero, Plan.loss_zero]
        norm_num

/-- **C104**.  Whatever the numbers of a run, if the size may grow a little faster and the volume shrink a little slower than in exact
arithmetic, there is a unit roundoff below which the precision is enough. -/
theorem C104_precision_exists (n : Nat) (p : Plan) (hγ0 : 0 < p.γ) (hγ1 : p.γ ≤ 1) (ht : 1 < p.t) (hz1 : 1 ≤ p.z)
    (hz : (n : ℝ) * n / (n * n - 1) < p.z) (hρ : p.ρ < 1 / ((n : ℝ) + 1)) : ∃ u0 > 0, ∀ u, 0 ≤ u → u ≤ u0 → p.EnoughPrecision n u := by
  have hl := (Plan.loss_cont (n := n) (p := p)).continuousAt (x := 0)
  have hr := (Plan.err_cont (n := n) (p := p)).continuousAt (x := 0)
  have h1 : ∀ᶠ u in 𝓝 (0 : ℝ), u < 1 / 64 := eventually_lt_nhds (by norm_num)
  have h2 : ∀ᶠ u in 𝓝 (0 : ℝ), p.loss n u < 1 / 2 := hl.eventually_lt continuousAt_const (by rw [Plan.loss_zero]; norm_num)
  have h3 : ∀ᶠ u in 𝓝 (0 : ℝ), (1 + 33 * p.err n u) ^ p.N < 2 := by
    have hc : Continuous (fun u => (1 + 33 * p.err n u) ^ p.N) := (continuous_const.add (continuous_const.mul Plan.err_cont)).pow p.N
    exact hc.continuousAt.eventually_lt continuousAt_const (by rw [Plan.err_zero]; norm_num)
  have h4 : ∀ᶠ u in 𝓝 (0 : ℝ), ∀ i ∈ {i | i ≤ p.N}, p.inflated n u i < p.t := by
    rw [eventually_all_finite (Set.finite_le_nat p.N)]
    intro i _
    exact (Plan.inflated_cont i).2.eventually_lt continuousAt_const (by rw [(Plan.inflated_cont i).1]; exact ht)
  have h5 : ∀ᶠ u in 𝓝 (0 : ℝ), (1 + 3 * p.err n u / p.γ) * ((n : ℝ) * n / (n * n - 1)) < (1 - u) ^ 13 * p.z := by
    refine ContinuousAt.eventually_lt ((continuousAt_const.add ((continuousAt_const.mul hr).div_const _)).mul continuousAt_const)
      (((continuousAt_const.sub continuousAt_id).pow _).mul continuousAt_const) ?_
    rw [Plan.err_zero]
    simpa using hz
  have h6 : ∀ᶠ u in 𝓝 (0 : ℝ), ((1 + 3 * p.err n u / p.γ) * (1 + p.loss n u)) ^ n <
      (1 - u) ^ (13 * n) * Real.exp (1 / ((n : ℝ) + 1) - p.ρ) := by
    refine ContinuousAt.eventually_lt (((continuousAt_const.add ((continuousAt_const.mul hr).div_const _)).mul
      (continuousAt_const.add hl)).pow n) (((continuousAt_const.sub continuousAt_id).pow _).mul continuousAt_const) ?_
    rw [Plan.err_zero, Plan.loss_zero]
    have : 1 < Real.exp (1 / ((n : ℝ) + 1) - p.ρ) := Real.one_lt_exp_iff.2 (by linarith)
    simpa using this
  obtain ⟨ε, hε, h⟩ := Metric.eventually_nhds_iff.1 (h1.and (h2.and (h3.and (h4.and (h5.and h6)))))
  refine ⟨ε / 2, by positivity, fun u hu0 hu => ?_⟩
  obtain ⟨a, b, c, d, f, g⟩ := h (y := u) (by rw [Real.dist_eq, sub_zero, abs_of_nonneg hu0]; linarith)
  exact ⟨hγ0, hγ1, ht.le, hz1, a.le, b.le, c.le, fun i hi => (d i hi).le, f.le, g.le⟩

/-- a plan that fits every oracle with `beta ≥ 0`: the size at most doubles, the volume shrinks at half of the exact rate -/
noncomputable def Plan.standard (n N : Nat) (B κ r P : ℝ) : Plan :=
  { N, B, κ, r, P, z := 2, γ := min 1 (r / √(2 ^ N * κ * (n * (2 * B)))), t := 1 + min 1 (r / √(2 ^ N * κ * (n * (2 * B)))),
    ρ := 1 / (2 * ((n : ℝ) + 1)) }

theorem FlHonest.anti {u : ℝ} {R : Rounding u} {Ω : Type} {n : Nat} {orc : OracleFeas Ω (Arr (Fl R)) (SingleCut (Fl R)) (Fl R)}
    {I : Ω → Prop} {K : Set (Fin n → ℝ)} {G X X' : ℝ} (h : FlHonest n orc I K G X) (hX : X' ≤ X) : FlHonest n orc I K G X' :=
  fun w x hI hs hx => h w x hI hs (hx.trans hX)

theorem Plan.far_le {n N : Nat} {B κ r P γ s ρ : ℝ} (hs : s = √(2 ^ N * κ * (n * (2 * B)))) (hs0 : 0 < s) (hγ1 : γ ≤ 1) :
    Plan.far { N, B, κ, r, P, z := 2, γ := γ, t := 1 + γ, ρ := ρ } n ≤ P + 2 * √(2 ^ N * κ * (n * (2 * B))) := by
  show P + (1 + γ) * √(2 ^ N * κ * (n * (2 * B))) ≤ _
  rw [← hs]
  nlinarith

/-- **C104**, without a plan.  For every dimension `n ≥ 2`, bounds `κ`, `B`, `r`, `P` and number of cuts `N` there is a unit roundoff
`u0` such that in every arithmetic with at most this unit: if the oracle is honest for a set with a ball of radius `r` around a point
of norm at most `P` inside the first ellipsoid `{κ, M}` (entries of `M` at most `B`), at least when it is asked about points of norm at
most `P + 2√(2^(N+1) κ n B)`, the tolerance is at most `r²G²/8` and
`2(n+1) ln(4ⁿ det(κM)/r^(2n)) < N ≤ max_iters`, then `cutting_plane_feas` returns a point that the oracle accepted, after at most
`2(n+1) ln(4ⁿ det(κM)/r^(2n))` cuts. -/
theorem C104_high_precision (n N : Nat) (B κ r P : ℝ) (hn : 2 ≤ n) (hB : 0 < B) (hκ : 0 < κ) (hr : 0 < r) :
    ∃ u0 > 0, ∀ u ≤ u0, ∀ (R : Rounding u) (Ω : Type) (orc : OracleFeas Ω (Arr (Fl R)) (SingleCut (Fl R)) (Fl R)) (I : Ω → Prop)
      (K : Set (Fin n → ℝ)) (G : ℝ) (m : Fin n → ℝ) (w : Ω) (e : Ell (Fl R)) (opts : Options (Fl R)),
      e.Shaped n → e.helper = EllCalc.new n → e.kappa.val = κ → (e.mq.flMat n).PosDef →
      (∀ i j, |e.mq.flMat n i j| ≤ B) → norm2 m ≤ P → ball m r ⊆ K → ball m r ⊆ ellipsoid (e.mq.flMat n) κ (e.xc.flVec n) → I w →
      FlHonest n orc I K G (P + 2 * √(2 ^ N * κ * (n * (2 * B)))) → opts.tolerance.val ≤ r ^ 2 * G ^ 2 / 8 →
      2 * ((n : ℝ) + 1) * Real.log (4 ^ n * (κ • e.mq.flMat n).det / (r ^ 2) ^ n) < N → N ≤ opts.maxIters →
      ∃ x k w1 w' e', cuttingPlaneFeas orc Ell.space w e opts = .ok ((some x, k), w', e') ∧
        orc.assess w1 x = .ok (none, w') ∧ I w1 ∧ x.IsVecShape n ∧
        (k : ℝ) ≤ 2 * ((n : ℝ) + 1) * Real.log (4 ^ n * (κ • e.mq.flMat n).det / (r ^ 2) ^ n) := by
  have hn2 : (2 : ℝ) ≤ n := by exact_mod_cast hn
  obtain ⟨s, hs⟩ : ∃ s, s = √(2 ^ N * κ * (n * (2 * B))) := ⟨_, rfl⟩
  have hs0 : 0 < s := hs ▸ Real.sqrt_pos.2 (by positivity)
  obtain ⟨γ, hγ⟩ : ∃ γ, γ = min 1 (r / s) := ⟨_, rfl⟩
  have hγ0 : 0 < γ := by rw [hγ]; positivity
  have hγ1 : γ ≤ 1 := hγ ▸ min_le_left _ _
  have hγr : γ ≤ r / s := hγ ▸ min_le_right _ _
  have hpl : Plan.standard n N B κ r P = { N, B, κ, r, P, z := 2, γ := γ, t := 1 + γ, ρ := 1 / (2 * ((n : ℝ) + 1)) } := by
    rw [Plan.standard, hγ, hs]
  obtain ⟨u0, h0, h⟩ := C104_precision_exists n (Plan.standard n N B κ r P) (by rw [hpl]; exact hγ0) (by rw [hpl]; exact hγ1)
    (by rw [hpl]; exact lt_add_of_pos_right 1 hγ0) (by rw [hpl]; norm_num) (by
      rw [hpl]
      rw [div_lt_iff₀ (by nlinarith)]
      nlinarith) (by
      rw [hpl]
      exact one_div_lt_one_div_of_lt (by positivity) (by linarith))
  refine ⟨u0, h0, fun u hu R Ω orc I K G m w e opts he hh hek hM hEB hmP hK hE hw hor htol hN hit => ?_⟩
  subst hek
  have hp := h u R.unit_nonneg hu
  have hdet : 0 < (e.kappa.val • e.mq.flMat n).det := (hM.smul hκ).det_pos
  have ht2 : ((1 + γ) ^ 2) ^ n ≤ 4 ^ n := pow_le_pow_left₀ (by positivity) (by nlinarith) n
  have hlog : Real.log (((1 + γ) ^ 2) ^ n * (e.kappa.val • e.mq.flMat n).det / (r ^ 2) ^ n) ≤
      Real.log (4 ^ n * (e.kappa.val • e.mq.flMat n).det / (r ^ 2) ^ n) :=
    Real.log_le_log (by positivity) (div_le_div_of_nonneg_right (mul_le_mul_of_nonneg_right ht2 hdet.le) (by positivity))
  have hn1 : (0 : ℝ) < 2 * ((n : ℝ) + 1) := by positivity
  have key : ∀ k L : ℝ, k * (1 / (2 * ((n : ℝ) + 1))) ≤ L → k ≤ 2 * ((n : ℝ) + 1) * L := by
    intro k L hk
    rw [mul_one_div, div_le_iff₀ hn1] at hk
    linarith
  obtain ⟨x, k, w1, w', e', a1, a2, a3, a4, a5⟩ := C104_feas_converges orc I K G m w e opts (Plan.standard n N B e.kappa.val r P) he hn hh
    hκ hM (by rw [hpl]; exact hEB) (by rw [hpl]; exact hr) (by rw [hpl]; exact hK) (by rw [hpl]; exact hE) hw (by rw [hpl])
    (by rw [hpl]; exact hmP) (hor.anti (by rw [hpl]; exact Plan.far_le hs hs0 hγ1)) (.inr (by
      rw [hpl]
      show γ ≤ 1 - (1 + γ) + 2 * (r / √(2 ^ N * e.kappa.val * (n * (2 * B))))
      rw [← hs]
      linarith)) (by
      rw [hpl]
      refine htol.trans ?_
      have : 0 ≤ r ^ 2 * G ^ 2 := by positivity
      exact div_le_div_of_nonneg_left this (by positivity) (show 2 * (1 + γ) ^ 2 ≤ 8 by nlinarith)) (by
      rw [hpl]
      refine lt_of_le_of_lt hlog ?_
      show _ < (N : ℝ) * (1 / (2 * ((n : ℝ) + 1)))
      rw [mul_one_div, lt_div_iff₀ hn1]
      linarith) (by rw [hpl]; exact hit) hp
  refine ⟨x, k, w1, w', e', a1, a2, a3, a4, ?_⟩
  rw [hpl] at a5
  exact key _ _ (le_trans a5 hlog)

end Ellalgo
