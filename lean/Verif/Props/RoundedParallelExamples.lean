import Verif.Props.RoundedParallelLowpass
import Verif.Props.RoundedBsearchSolve

/-! C110 and C111: the hypotheses can be met. -/

namespace Ellalgo
open Matrix
open scoped ComplexOrder

/-- C110: a cut of the disc of radius 4 to the points with `-1 ≤ x₀ ≤ 0` in some arithmetic, deep or central -/
example (kd : UpdateKind) (hkd : kd = .bias ∨ kd = .central) : ∃ (u : ℝ) (R : Rounding u) (e e' : Ell (Fl R)),
    Ell.space.update kd e (Arr.ofList [1, 0], ParallelCut.mk (⟨0⟩ : Fl R) (some ⟨1⟩)) = .ok (.success, e') ∧
      (e.kappa.val • e.mq.flMat 2).det = 256 ∧ (e'.kappa.val • e'.mq.flMat 2).det ≤ 2 * (Real.exp (-(1 / 3)) * 256) ∧
      ∀ x : Fin 2 → ℝ, -1 ≤ x 0 → x 0 ≤ 0 → x 0 ^ 2 + x 1 ^ 2 ≤ 16 →
        x ∈ ellipsoid (e'.mq.flMat 2) (2 * e'.kappa.val) (e'.xc.flVec 2) := by
  have hc : Continuous fun u : ℝ => slabUnit u 2 16 16 (1 / 8) * slabL 2 16 16 0 (1 / 8) := by
    unfold slabUnit quadErr
    fun_prop
  have h1 := (hc.tendsto 0).eventually (gt_mem_nhds (show slabUnit 0 2 16 16 (1 / 8) * slabL 2 16 16 0 (1 / 8) < 1 / 3 * (1 / 8 / 2) by
    have : slabUnit 0 2 16 16 (1 / 8) = 0 := by simp [slabUnit, quadErr]
    rw [this, zero_mul]
    norm_num))
  obtain ⟨δ, hδ, hball⟩ := Metric.eventually_nhds_iff.1 h1
  obtain ⟨u, hu, R, -⟩ := fine_int (min (δ / 2) (1 / 64)) (lt_min (by linarith) (by norm_num))
  have h0 := R.unit_nonneg
  have hu2 := hu.trans (min_le_left _ _)
  have hsm := (hball (show dist u 0 < δ by rw [Real.dist_eq, sub_zero, abs_of_nonneg h0]; linarith)).le
  obtain ⟨e, b1, b2, b3, -, b4, b5, b6⟩ := disc_new_fl (R := R) ⟨16⟩
  have hκ : e.kappa.val = 16 := by rw [b4]
  have hg : (Arr.ofList [(1 : Fl R), 0]).flVec 2 = ![1, 0] := by
    ext i
    fin_cases i <;> rfl
  have hτ : √(e.kappa.val * ((Arr.ofList [(1 : Fl R), 0]).flVec 2 ⬝ᵥ (e.mq.flMat 2 *ᵥ (Arr.ofList [(1 : Fl R), 0]).flVec 2))) = 4 := by
    rw [hκ, hg, b5, one_mulVec, dotProduct, Fin.sum_univ_two]
    simp only [cons_val_zero, cons_val_one]
    rw [show (16 : ℝ) * (1 * 1 + 0 * 0) = 4 ^ 2 by norm_num]
    exact Real.sqrt_sq (by norm_num)
  obtain ⟨e', c1, c2⟩ := C110_parallel_step (l := 16) (H := 16) (P := 0) (w := 1 / 8) (ε := 1) (hu.trans (min_le_right _ _)) e
    ⟨b2, le_rfl, b3, by rw [hκ]; norm_num, by rw [b5]; exact isSymm_one, by norm_num, fun v => by rw [hκ, b5, one_mulVec],
      fun i j => by rw [hκ, b5, one_apply]; split <;> norm_num, by rw [b6]; simp [norm2]⟩
    (Arr.ofList [1, 0]) ⟨rfl, rfl, rfl⟩ (by
      rw [hg]
      intro h
      have := congrFun h 0
      simp at this) kd ⟨0⟩ (some ⟨1⟩) 0 (hkd.elim (fun h => .inr ⟨.inl h, rfl⟩) (fun h => .inl ⟨h, rfl⟩)) le_rfl (by norm_num) (by norm_num) (by rw [hτ]; norm_num)
    (by
      intro b hb
      simp only [Option.mem_some] at hb
      subst hb
      rw [hτ]
      norm_num) (by norm_num) le_rfl hsm
  have hdet : (e.kappa.val • e.mq.flMat 2).det = 256 := by rw [hκ, b5, det_smul, det_one, Fintype.card_fin]; norm_num
  refine ⟨u, R, e, e', c1, hdet, ?_, fun x hx1 hx2 hx => ?_⟩
  · have := c2.vol
    rw [hdet] at this
    refine this.trans (le_of_eq ?_)
    norm_num
  · have := c2.keep 0 le_rfl zero_le_one x ⟨?_, ?_⟩ (by
      rw [hκ]
      exact disc_ellipsoid b5 b6 (by linarith))
    · rw [mul_zero, add_zero, one_add_one_eq_two] at this
      exact this
    · rw [hg, b6, sub_zero, dotProduct, Fin.sum_univ_two]
      simp only [cons_val_zero, cons_val_one]
      linarith
    · intro b hb
      simp only [Option.map_some, Option.mem_some] at hb
      rw [hg, b6, sub_zero, dotProduct, Fin.sum_univ_two, ← hb]
      simp only [cons_val_zero, cons_val_one]
      linarith

/-- C111: with band edges `1/8` and `1/4` a filter is found in some arithmetic -/
example : ∃ (u : ℝ) (R : Rounding u) (N : Nat) (o : LowpassOracle (Fl R)) (e : Ell (Fl R)) (x : Arr (Fl R)) (k : Nat) (o' : LowpassOracle (Fl R))
    (e' : Ell (Fl R)), LowpassOracle.new 2 ⟨1 / 8⟩ ⟨1 / 4⟩ ⟨1⟩ ⟨3⟩ ⟨2⟩ = .ok o ∧
      cuttingPlaneFeas LowpassOracle.oracleFeas Ell.space o e ⟨N, ⟨1 / 10 ^ 20⟩⟩ = .ok ((some x, k), o', e') ∧
      9 / 10 ≤ lpResponse (x.flVec 2) 0 ∧ lpResponse (x.flVec 2) 0 ≤ 31 / 10 := by
  obtain ⟨u0, h0, N, h⟩ := C111_lowpass_example
  obtain ⟨u, hu, R, hR⟩ := fine_int u0 h0
  obtain ⟨o, d, e, x, k, o', e', a1, -, -, a3, a4, a5, -, a6, -, a7⟩ := h u hu R
    (fun k hk => by simpa using hR (k : ℤ) (by rw [abs_of_nonneg (by positivity)]; omega)) ⟨1 / 8⟩ ⟨1 / 4⟩ ⟨1⟩ ⟨3⟩ ⟨2⟩ ⟨16⟩
    (by norm_num) (by norm_num) (by norm_num) rfl rfl rfl rfl ⟨N, ⟨1 / 10 ^ 20⟩⟩ (by norm_num) le_rfl
  have hp := a7.1 0 (a5 0 (by norm_num))
  rw [a3, a4] at hp
  have hf : d.freq 0 = 0 := by simp [LpData.freq]
  rw [hf] at hp
  exact ⟨u, R, N, o, e, x, k, o', e', a1, a6, by linarith [hp.1], by linarith [hp.2]⟩

end Ellalgo
