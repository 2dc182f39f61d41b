import Verif.Lib.StratOpt
import Verif.Lib.Volume
import Verif.Props.EllRealExamples

/-! C66: a successful cut yields the least-volume ellipsoid containing what the cut leaves.
C20 again, with Lebesgue measure instead of determinants. -/

namespace Ellalgo
open Matrix MeasureTheory
open scoped ComplexOrder

variable {n : Nat} {T : Type}

/-- the Lebesgue measure of the region of a valid ellipsoid; `ball 0 1` is the Euclidean unit ball -/
theorem Ell.volume_region {e : Ell ℝ} (he : e.Valid n) :
    volume (e.region n) = ENNReal.ofReal (√(e.vol2 n)) * volume (ball (0 : Fin n → ℝ) 1) :=
  volume_ellipsoid he.posDef he.kappa _

/-- **C66**.  Let a cut whose near plane meets the ellipsoid (`-τ ≤ lo`) be admissible, and let the update succeed.  Then
the new ellipsoid contains every point of the old one that satisfies the cut, and no ellipsoid
`{x | (x-p)ᵀN⁻¹(x-p) ≤ κ'}` that contains all of them has a smaller volume. -/
theorem C66_least_volume [Cut T] {e : Ell ℝ} (he : e.Valid n) (k : UpdateKind) (cut : Arr ℝ × T)
    (hsh : cut.1.IsVecShape n) (hg : cut.1.toVec n ≠ 0)
    (hadm : Cut.Adm n k cut.2 (e.tsqOf n (cut.1.toVec n))) (hlo : -e.tau n (cut.1.toVec n) ≤ k.lo (Cut.lo cut.2))
    {e' : Ell ℝ} (h : Ell.space.update k e cut = .ok (.success, e')) :
    (∀ x ∈ e.region n, Cut.Sat k cut.2 (cut.1.toVec n ⬝ᵥ (x - e.c n)) → x ∈ e'.region n) ∧
    ∀ (N : Matrix (Fin n) (Fin n) ℝ) (κ' : ℝ) (p : Fin n → ℝ), N.PosDef → 0 < κ' →
      (∀ x ∈ e.region n, Cut.Sat k cut.2 (cut.1.toVec n ⬝ᵥ (x - e.c n)) → x ∈ ellipsoid N κ' p) →
      volume (e'.region n) ≤ volume (ellipsoid N κ' p) := by
  obtain ⟨hv', hkeep, -⟩ := Ell.step_good he k cut hsh hg hadm h
  refine ⟨hkeep, fun N κ' p hN hκ' hcon => ?_⟩
  obtain ⟨ρ, σ, δ, hc, h2⟩ := Ell.update_real he.shaped he.symm he.pos k cut hsh h
  rcases h2 with ⟨h2, _⟩ | ⟨_, ha⟩
  · exact absurd rfl h2
  have htp := he.tsq_pos hg
  rw [he.helper] at hc
  obtain ⟨b0, b1, ho⟩ := strat_opt he.dim htp k cut.2 hadm hlo hc
  obtain ⟨hv, hr, hvol⟩ := ha.valid he hg ho.good.sig1 ho.del
  have hvol' : e'.vol2 n = ((e.kappa * δ) • cutM (e.M n) (cut.1.toVec n) σ).det := by
    rw [hvol, det_smul, Fintype.card_fin, cutM_det he.posDef σ hg, Ell.vol2, det_smul, Fintype.card_fin, mul_pow]
    ring
  rw [Ell.volume_region hv', volume_ellipsoid hN hκ']
  gcongr
  rw [hvol']
  refine minvol_core he.dim he.posDef he.kappa hg ho.good ho.del ho.quad ho.lt ho.in0 ho.in1 (hN.smul hκ') (c := e.c n)
    (c' := p) ?_
  intro x hx h0 h1
  have := hcon x hx (ho.sat _ h0 h1)
  rwa [ellipsoid_smul hN hκ', mul_one]

/-- C66 for one plane: among all ellipsoids containing `{x ∈ E | gᵀ(x - xc) + β ≤ 0}`, where `-τ/n ≤ β < τ`, the update
finds one of least volume. -/
theorem C66_bias_least_volume {e : Ell ℝ} (he : e.Valid n) (grad : Arr ℝ) (β : ℝ) (hs : grad.IsVecShape n)
    (hg : grad.toVec n ≠ 0) (h1 : -(e.tau n (grad.toVec n) / n) ≤ β) (h2 : β < e.tau n (grad.toVec n)) :
    ∃ e', Ell.space.update .bias e (grad, (⟨β⟩ : SingleCut ℝ)) = .ok (.success, e') ∧
      (∀ x ∈ e.region n, grad.toVec n ⬝ᵥ (x - e.c n) + β ≤ 0 → x ∈ e'.region n) ∧
      ∀ (N : Matrix (Fin n) (Fin n) ℝ) (κ' : ℝ) (p : Fin n → ℝ), N.PosDef → 0 < κ' →
        (∀ x ∈ e.region n, grad.toVec n ⬝ᵥ (x - e.c n) + β ≤ 0 → x ∈ ellipsoid N κ' p) →
        volume (e'.region n) ≤ volume (ellipsoid N κ' p) := by
  obtain ⟨e', h, hk⟩ := C15_bias_keeps_halfspace e grad β he hs hg h1 h2
  refine ⟨e', h, hk, fun N κ' p hN hκ' hcon => ?_⟩
  have hn0 : (1 : ℝ) < n := by exact_mod_cast (by have := he.dim; omega : 1 < n)
  have hτ : 0 < e.tau n (grad.toVec n) := Real.sqrt_pos.mpr (he.tsq_pos hg)
  have h1' : 0 ≤ e.tau n (grad.toVec n) + n * β := by
    have : (n : ℝ) * -(e.tau n (grad.toVec n) / n) = -e.tau n (grad.toVec n) := by field_simp
    nlinarith
  refine (C66_least_volume he .bias (grad, (⟨β⟩ : SingleCut ℝ)) hs hg ((Cut.adm_single ..).mpr ⟨h1', h2⟩) ?_ h).2 N κ' p
    hN hκ' (fun x hx hsat => hcon x hx ?_)
  · rw [UpdateKind.lo_bias]
    show -_ ≤ β
    have : e.tau n (grad.toVec n) / n ≤ e.tau n (grad.toVec n) := div_le_self hτ.le hn0.le
    linarith
  · simpa using hsat.1

/-- C66 for two planes: among all ellipsoids containing the slab `{x ∈ E | -β1 ≤ gᵀ(x - xc) ≤ -β0}`, where
`-τ ≤ β0 < β1 < τ` and `0 ≤ τ² + n β0 β1`, the update finds one of least volume. -/
theorem C66_parallel_least_volume {e : Ell ℝ} (he : e.Valid n) (grad : Arr ℝ) (β0 β1 : ℝ) (hs : grad.IsVecShape n)
    (hg : grad.toVec n ≠ 0) (h01 : β0 < β1) (h0 : -e.tau n (grad.toVec n) ≤ β0) (h1 : β1 < e.tau n (grad.toVec n))
    (hη : 0 ≤ e.tau n (grad.toVec n) ^ 2 + n * (β0 * β1)) :
    ∃ e', Ell.space.update .bias e (grad, (⟨β0, some β1⟩ : ParallelCut ℝ)) = .ok (.success, e') ∧
      (∀ x ∈ e.region n, -β1 ≤ grad.toVec n ⬝ᵥ (x - e.c n) → grad.toVec n ⬝ᵥ (x - e.c n) ≤ -β0 →
        x ∈ e'.region n) ∧
      ∀ (N : Matrix (Fin n) (Fin n) ℝ) (κ' : ℝ) (p : Fin n → ℝ), N.PosDef → 0 < κ' →
        (∀ x ∈ e.region n, -β1 ≤ grad.toVec n ⬝ᵥ (x - e.c n) → grad.toVec n ⬝ᵥ (x - e.c n) ≤ -β0 →
          x ∈ ellipsoid N κ' p) →
        volume (e'.region n) ≤ volume (ellipsoid N κ' p) := by
  have htp := he.tsq_pos hg
  obtain ⟨e', h, hk⟩ := C16_parallel_keeps_slab e grad β0 β1 he hs hg h01 (by linarith) (by linarith) hη
  refine ⟨e', h, hk, fun N κ' p hN hκ' hcon => ?_⟩
  have ht2 : e.tau n (grad.toVec n) ^ 2 = e.tsqOf n (grad.toVec n) := Real.sq_sqrt htp.le
  refine (C66_least_volume he .bias (grad, (⟨β0, some β1⟩ : ParallelCut ℝ)) hs hg ?_ (by simpa using h0) h).2 N κ' p
    hN hκ' (fun x hx hsat => hcon x hx ?_ ?_)
  · simp only [Cut.Adm, Cut.hi_parallel, Cut.lo_parallel]
    rw [if_neg (by simp)]
    refine ⟨h01, fun hc => absurd h1 (not_lt.mpr hc), fun _ => ⟨?_, fun _ => by rw [← ht2]; exact hη⟩⟩
    show -e.tau n (grad.toVec n) < β1
    linarith
  · have := hsat.2 β1 rfl
    simp only at this
    linarith
  · have := hsat.1
    simp only [UpdateKind.lo_bias, Cut.lo_parallel] at this
    linarith

/-- **C20** with Lebesgue measure: `m` successful central, deep or parallel cuts leave at most the fraction
`exp(-m / (2(n+1)))` of the volume. -/
theorem C20_lebesgue [Cut T] (m : Nat) (e e' : Ell ℝ) (he : e.Valid n)
    (h : Ell.Steps (T := T) n (fun k e g c => g ≠ 0 ∧ Cut.Adm n k c (e.tsqOf n g) ∧
      (k = .central ∨ 0 ≤ Cut.lo c)) m e e') :
    volume (e'.region n) ≤ ENNReal.ofReal (Real.exp (-((m : ℝ) / (2 * ((n : ℝ) + 1))))) * volume (e.region n) := by
  have hv : e'.Valid n := by
    clear * - h he
    induction h with
    | nil => exact he
    | success _ hs hP hu ih => exact (C13_posDef_step _ _ _ _ (ih he) hs hP.1 (Or.inl hP.2.1) hu).2.2
    | rejected _ hs hP hu hst ih =>
      have ih := ih he
      obtain ⟨ρ, σ, δ, _, h2⟩ := Ell.update_real ih.shaped ih.symm ih.pos _ _ hs hu
      rcases h2 with ⟨_, rfl⟩ | ⟨h2, _⟩
      · exact ih.setTsq _
      · exact absurd h2 hst
  have h20 := C20_volume_sequence m e e' he h
  rw [Ell.volume_region hv, Ell.volume_region he, ← mul_assoc, ← ENNReal.ofReal_mul (Real.exp_pos _).le]
  gcongr
  refine (Real.sqrt_le_sqrt h20).trans (le_of_eq ?_)
  rw [Real.sqrt_mul (Real.exp_pos _).le, Ell.vol2]
  congr 1
  rw [Real.sqrt_eq_iff_mul_self_eq (Real.exp_pos _).le (Real.exp_pos _).le, ← Real.exp_add]
  congr 1
  have : (n : ℝ) + 1 ≠ 0 := by positivity
  field_simp
  ring

/-- the hypotheses of C66 hold for the disc of radius 2, a deep cut `β = 1` and a slab `1/2 ≤ -t ≤ 1`; the measure of the
disc is positive, so the claim is not about null sets -/
example : (∃ e', Ell.space.update .bias ExR.disc (ExR.g, (⟨1⟩ : SingleCut ℝ)) = .ok (.success, e')) ∧
    (∃ e', Ell.space.update .bias ExR.disc (ExR.g, (⟨1/2, some 1⟩ : ParallelCut ℝ)) = .ok (.success, e')) ∧
    0 < volume (ExR.disc.region 2) := by
  refine ⟨?_, ?_, ?_⟩
  · obtain ⟨e', h, -⟩ := C66_bias_least_volume ExR.disc_valid ExR.g 1 ExR.g_shape ExR.g_ne
      (by rw [ExR.disc_tau]; norm_num) (by rw [ExR.disc_tau]; norm_num)
    exact ⟨e', h⟩
  · obtain ⟨e', h, -⟩ := C66_parallel_least_volume ExR.disc_valid ExR.g (1/2) 1 ExR.g_shape ExR.g_ne (by norm_num)
      (by rw [ExR.disc_tau]; norm_num) (by rw [ExR.disc_tau]; norm_num) (by rw [ExR.disc_tau]; norm_num)
    exact ⟨e', h⟩
  · refine (Metric.measure_ball_pos volume (0 + ExR.disc.c 2) (by norm_num : (0 : ℝ) < 1)).trans_le (measure_mono ?_)
    intro x hx
    rw [Ell.region, ellipsoid, Set.mem_ofPred_eq, ExR.disc_M, inv_one, one_mulVec, dotProduct, Fin.sum_univ_two]
    rw [zero_add, mem_ball_iff_norm, pi_norm_lt_iff (by norm_num)] at hx
    have h0 := abs_lt.mp (hx 0)
    have h1 := abs_lt.mp (hx 1)
    simp only [ExR.disc, Ell.newWithMatrix] at *
    nlinarith

end Ellalgo
