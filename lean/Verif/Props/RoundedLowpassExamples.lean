import Verif.Props.RoundedLowpassRuns
import Verif.Props.RoundedLoss
import Verif.Props.RoundedPlaneExamples
import Mathlib.Analysis.Real.Pi.Bounds

/-! Property C88 in `f64`: the constructor's table is right up to `10⁻¹³` for 32 taps, and whole runs. -/

namespace Ellalgo
open Matrix

variable {n : Nat}

/-- with margin zero, the specification as written -/
example (d : LpData) (σ : ℝ) : d.feasibleWith (n := n) σ 0 = d.feasible σ := by
  ext x; simp [LpData.feasibleWith, LpData.feasible]

/-- a smaller margin is easier -/
theorem feasibleWith_mono {d : LpData} {σ m m' : ℝ} (h : m' ≤ m) {x : Fin n → ℝ} (hx : x ∈ d.feasibleWith σ m) :
    x ∈ d.feasibleWith σ m' :=
  ⟨fun i hi => ⟨by linarith [(hx.1 i hi).1], by linarith [(hx.1 i hi).2]⟩,
    fun i h1 h2 => ⟨by linarith [(hx.2.1 i h1 h2).1], by linarith [(hx.2.1 i h1 h2).2]⟩,
    fun i h1 h2 => by linarith [hx.2.2.1 i h1 h2], fun j hj => by linarith [hx.2.2.2 j hj]⟩

theorem bin53_nat (k : Nat) (hk : k ≤ 2 ^ 53) : bin53.Rep (k : ℝ) := by
  refine Loss.r_int (k : ℤ) 0 _ (by simp) ?_
  rw [abs_of_nonneg (by positivity)]
  exact_mod_cast hk

theorem table32 : lpTableErr (2 ^ (-53 : ℤ)) 32 ≤ 1 / 10 ^ 13 := by
  have hpi := Real.pi_lt_d2
  have h : ((1 + (2 : ℝ) ^ (-53 : ℤ)) ^ 4 - 1) ≤ 4.000001 * 2 ^ (-53 : ℤ) := by norm_num
  have h0 : (0 : ℝ) ≤ ((1 + (2 : ℝ) ^ (-53 : ℤ)) ^ 4 - 1) := by norm_num
  rw [lpTableErr]
  have h1 : Real.pi * ((32 : Nat) : ℝ) * ((1 + (2 : ℝ) ^ (-53 : ℤ)) ^ 4 - 1) ≤ 3.15 * 32 * (4.000001 * 2 ^ (-53 : ℤ)) := by
    push_cast
    have a : Real.pi * 32 ≤ 3.15 * 32 := by linarith
    exact mul_le_mul a h h0 (by norm_num)
  have h2 : (2 : ℝ) * (3.15 * 32 * (4.000001 * 2 ^ (-53 : ℤ)) + 2 ^ (-53 : ℤ)) ≤ 1 / 10 ^ 13 := by norm_num
  linarith

/-- the slack of an accepted 32-tap filter in `f64` -/
theorem slack32 (x : Fin 32 → ℝ) :
    lpErr (2 ^ (-53 : ℤ)) (lpTableErr (2 ^ (-53 : ℤ)) 32) 32 0 x x ≤ 1 / 10 ^ 12 * norm1 x := by
  have h1 := table32
  have h0 : (0 : ℝ) ≤ lpTableErr (2 ^ (-53 : ℤ)) 32 := by
    have := Real.pi_pos
    have h6 : (0 : ℝ) ≤ (1 + (2 : ℝ) ^ (-53 : ℤ)) ^ 4 - 1 := by norm_num
    rw [lpTableErr]; positivity
  have h2 := norm1_nonneg' x
  have h3 : ((1 + (2 : ℝ) ^ (-53 : ℤ)) ^ (32 + 2) - 1) ≤ 1 / 10 ^ 14 := by norm_num
  generalize lpTableErr (2 ^ (-53 : ℤ)) 32 = ε at h0 h1 ⊢
  have h6 : 2 + ε ≤ 3 := by
    have : (1 : ℝ) / 10 ^ 13 ≤ 1 := by norm_num
    linarith
  have h5 := mul_le_mul h3 h6 (by linarith) (by norm_num : (0 : ℝ) ≤ 1 / 10 ^ 14)
  rw [lpErr, mul_zero, add_zero, ← add_mul]
  refine mul_le_mul_of_nonneg_right ?_ h2
  have : (1 : ℝ) / 10 ^ 14 * 3 + 1 / 10 ^ 13 ≤ 1 / 10 ^ 12 := by norm_num
  linarith

theorem eps32 : lpTableErr (2 ^ (-53 : ℤ)) 32 < 1 := table32.trans_lt (by norm_num)

/-- **C88** (`f64`, 32 taps)  `create_lowpass_case(32)` in `f64` yields an oracle with which every run of
`cutting_plane_optim`, over any `Ell` of dimension 32 and with any options and starting bound, ends without a panic; a returned
filter misses the specification, with the final bound for the stopband, by at most `10⁻¹² ‖x‖₁` at any grid point, and its
largest stopband value is the final bound up to `10⁻¹² ‖x‖₁`. -/
theorem C88_f64_lowpass32 : ∃ (o : LowpassOracle (Fl bin53)) (d : LpData), createLowpassCase 32 = .ok o ∧ d.Ok ∧ d.m = 480 ∧
    d.pass = 58 ∧ d.stop = 96 ∧ d.lp = o.lpSq.val ∧ d.up = o.upSq.val ∧
    ∀ (e : Ell (Fl bin53)), e.Shaped 32 → ∀ (γ : Fl bin53) (opts : Options (Fl bin53)), ∃ r k γ' o' e',
      cuttingPlaneOptim LowpassOracle.oracle Ell.space o e γ opts = .ok ((r, k), γ', o', e') ∧ γ'.val ≤ γ.val ∧
      (r = none → γ' = γ) ∧ ∀ x, r = some x → x.IsVecShape 32 ∧
        x.flVec 32 ∈ d.feasibleWith γ'.val (-(1 / 10 ^ 12 * norm1 (x.flVec 32))) ∧
        ∃ i, d.stop ≤ i ∧ i < d.m ∧
          |γ'.val - lpResponse (x.flVec 32) (d.freq i)| ≤ 1 / 10 ^ 12 * norm1 (x.flVec 32) := by
  have hdec : ∀ a b : Nat, (Scalar.dec a b : Fl bin53).val = bin53.rnd ((a : ℝ) / 10 ^ b) := fun a b => rfl
  have w1 : (0 : ℝ) ≤ (Scalar.dec 12 2 : Fl bin53).val := by rw [hdec]; exact bin53.nonneg (by norm_num)
  have w2 : (Scalar.dec 12 2 : Fl bin53).val ≤ (Scalar.dec 20 2 : Fl bin53).val := by
    rw [hdec, hdec]; exact bin53.mono _ _ (by norm_num)
  have w3 : (Scalar.dec 20 2 : Fl bin53).val ≤ 1 := by
    rw [hdec, ← bin53.one]; exact bin53.mono _ _ (by norm_num)
  obtain ⟨lp, up, sp, hcase⟩ : ∃ lp up sp, createLowpassCase (α := Fl bin53) 32 =
      LowpassOracle.new 32 (dec 12 2) (dec 20 2) lp up sp := by
    unfold createLowpassCase
    exact ⟨_, _, _, rfl⟩
  obtain ⟨o, d, h1, h2, h3, h4, h5, h6, h7, h8, h9, h10, h11⟩ := C88_lowpass_new (n := 32) (R := bin53) (by norm_num)
    (fun k hk => bin53_nat k (hk.trans (by norm_num))) (Scalar.dec 12 2) (Scalar.dec 20 2) lp up sp w1 w2 w3
  have hp := abs_le.1 (bin53.err ((12 : Nat) / 10 ^ 2))
  have hs := abs_le.1 (bin53.err ((20 : Nat) / 10 ^ 2))
  rw [← hdec 12 2] at hp
  rw [← hdec 20 2] at hs
  have hpass : d.pass = 58 := by
    have a := h8 57 (by norm_num at hp ⊢; linarith)
    have b : ¬ 58 < d.pass := fun h => by
      have := h9 58 h
      norm_num at hp this
      linarith
    omega
  have hstop : d.stop = 96 := by
    have a := h10 95 (by norm_num) (by norm_num at hs ⊢; linarith)
    have b : ¬ 96 < d.stop := fun h => by
      have := h11 96 h
      norm_num at hs this
      linarith
    omega
  refine ⟨o, d, hcase.trans h1, h3, h5, hpass, hstop, ?_, ?_, ?_⟩
  · exact h2.lp.symm
  · exact h2.up.symm
  intro e he γ opts
  obtain ⟨r, k, γ', o', e', a1, a2, a3, a4⟩ := C88_lowpass_optim_run h3 (by omega) u53_small eps32
    (C86_ell_steady (by norm_num)).1 h2 he γ opts
  refine ⟨r, k, γ', o', e', a1, a2, a3, fun x hx => ?_⟩
  obtain ⟨b1, b2, i, b3, b4, b5⟩ := a4 x hx
  have hsl := slack32 (x.flVec 32)
  exact ⟨b1, feasibleWith_mono (neg_le_neg hsl) b2, i, b3, b4, b5.trans hsl⟩

end Ellalgo
