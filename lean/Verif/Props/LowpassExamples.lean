import Verif.Props.LowpassSolve
import Verif.Props.SolveExamples

/-! Concrete cases meeting the hypotheses of C45, C46, C64. -/

namespace Ellalgo
open Matrix

theorem resp2 (x : Fin 2 → ℝ) (ω : ℝ) : lpResponse x ω = x 0 + 2 * Real.cos ω * x 1 := by
  simp [lpResponse, Fin.sum_univ_two]

theorem ball_entries {p z : Fin 2 → ℝ} {r : ℝ} (hr : 0 ≤ r) (hz : z ∈ ball p r) (i : Fin 2) : |z i - p i| ≤ r := by
  have h : normSq (z - p) ≤ r ^ 2 := hz
  rw [normSq, dotProduct, Fin.sum_univ_two] at h
  simp only [Pi.sub_apply] at h
  refine abs_le_of_sq_le_sq ?_ hr
  fin_cases i <;> simp <;> nlinarith [mul_self_nonneg (z 0 - p 0), mul_self_nonneg (z 1 - p 1)]

/-- two-tap filters; passband response in [1, 3], stopband response at most 2 is achievable around `(3/2, 0)` -/
theorem ball_feasible : ball (![3 / 2, 0] : Fin 2 → ℝ) (1 / 10) ⊆ (lpOf 2 (12 / 100) (20 / 100) 1 3).feasible 2 := by
  intro z hz
  have h0 := abs_le.1 (ball_entries (by norm_num) hz 0)
  have h1 := abs_le.1 (ball_entries (by norm_num) hz 1)
  simp only [cons_val_zero, cons_val_one, sub_zero] at h0 h1
  have key : ∀ ω, 1 ≤ lpResponse z ω ∧ lpResponse z ω ≤ 2 := by
    intro ω
    rw [resp2]
    have a := Real.neg_one_le_cos ω
    have b := Real.cos_le_one ω
    constructor <;> nlinarith
  refine ⟨fun i _ => ⟨(key _).1, (key _).2.trans (by simp [lpOf]; norm_num)⟩, fun i _ _ => ⟨by linarith [(key ((lpOf 2 (12 / 100) (20 / 100) 1 3).freq i)).1], (key _).2⟩,
    fun i _ _ => by linarith [(key ((lpOf 2 (12 / 100) (20 / 100) 1 3).freq i)).1], fun j hj => ?_⟩
  have : j = 0 := Fin.ext hj
  subst this
  linarith

/-- C45, C46, C64: two taps, the disc of radius 10, initial bound 100, enough iterations -/
example : ∃ o e, LowpassOracle.new (α := ℝ) 2 (12 / 100) (20 / 100) 1 3 100 = .ok o ∧
    Ell.newWithScalar (100 : ℝ) (Arr.ofList [0, 0]) = .ok e ∧ ∃ N : Nat, ∃ xb k γ' o' e',
      cuttingPlaneOptim LowpassOracle.oracle Ell.space o e 100 ⟨N, 1 / 100⟩ = .ok ((some xb, k), γ', o', e') ∧ γ' ≤ 2 := by
  obtain ⟨o, h1, h2, h3, h4, -⟩ := C45_lowpass_new (n := 2) (by norm_num) (12 / 100) (20 / 100) 1 3 100 (by norm_num)
    (by norm_num) (by norm_num)
  obtain ⟨e, h5, h6, h7⟩ := C13_valid_with_scalar (n := 2) 100 (Arr.ofList [0, 0]) le_rfl (pair_shape _ _) (by norm_num)
  obtain ⟨N, hN⟩ := exists_nat_gt (((2 : ℕ) + 1 : ℝ) * Real.log ((e.kappa • e.M 2).det / ((1 / 10) ^ 2) ^ 2))
  obtain ⟨xb, k, γ', o', e', h8, h9, h10⟩ := C64_lowpass_designed h3 (h4 (by norm_num)) o h2 e h6 100 2 (1 / 10)
    ![3 / 2, 0] (by norm_num) ball_feasible (fun z hz => by
      have h0 := abs_le.1 (ball_entries (by norm_num) hz 0)
      have h1 := abs_le.1 (ball_entries (by norm_num) hz 1)
      simp only [cons_val_zero, cons_val_one, sub_zero] at h0 h1
      rw [h7]
      show normSq (z - _) ≤ 100
      rw [pair_toVec, normSq, dotProduct, Fin.sum_univ_two]
      simp only [Pi.sub_apply, cons_val_zero, cons_val_one]
      nlinarith) ⟨N, 1 / 100⟩ (by norm_num) (by simpa using hN)
  rcases h10 with ⟨-, h⟩ | ⟨x, rfl, -⟩
  · linarith
  · exact ⟨o, e, h1, h5, N, x, k, γ', o', e', h8, h9⟩

/-- C46 (empty stopband): `wstop = 1`, and the filter `(3/2, 0)` -/
example : ∃ o, LowpassOracle.new (α := ℝ) 2 0 1 1 3 100 = .ok o ∧
    LowpassOracle.oracle.assess o (Arr.ofList [3 / 2, 0]) 100 = .panic := by
  obtain ⟨o, h1, h2, h3, -⟩ := C45_lowpass_new (n := 2) (by norm_num) 0 1 1 3 100 le_rfl zero_le_one le_rfl
  refine ⟨o, h1, C46_lowpass_empty_stopband h3 (by simp only [lpOf, one_mul, Nat.floor_natCast]) o h2 _ (pair_shape _ _)
    100 ?_⟩
  rw [pair_toVec]
  have key : ∀ ω, lpResponse (![3 / 2, 0] : Fin 2 → ℝ) ω = 3 / 2 := by intro ω; simp [resp2]
  refine ⟨fun i _ => ?_, fun i _ _ => ?_, fun i _ _ => ?_, fun j hj => ?_⟩
  · rw [key]; constructor <;> simp only [lpOf] <;> norm_num
  · rw [key]; norm_num
  · rw [key]; norm_num
  · have : j = 0 := Fin.ext hj
    subst this
    simp
    norm_num

end Ellalgo
