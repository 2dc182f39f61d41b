import Verif.Props.LmiProps
import Verif.Props.LmiRate
import Verif.Props.ConvergeExamples

/-! Non-vacuity of C33-C36: the disc of radius 1 around (2,1) as a 2×2 LMI. -/

namespace Ellalgo.ExR
open Matrix Ellalgo

noncomputable def lmiF : List (Arr ℝ) := [⟨[1, 0, 0, -1], 2, 2⟩, ⟨[0, 1, 1, 0], 2, 2⟩]
noncomputable def lmiB : Arr ℝ := ⟨[3, 1, 1, -1], 2, 2⟩

theorem lmiF_ok : SymMats 2 2 lmiF := by
  refine ⟨rfl, ?_⟩
  intro f hf
  simp only [lmiF, List.mem_cons, List.not_mem_nil, or_false] at hf
  rcases hf with rfl | rfl
  · refine ⟨⟨rfl, rfl, rfl⟩, ?_⟩
    ext i j; fin_cases i <;> fin_cases j <;> simp [Arr.toMat, Arr.mat]
  · refine ⟨⟨rfl, rfl, rfl⟩, ?_⟩
    ext i j; fin_cases i <;> fin_cases j <;> simp [Arr.toMat, Arr.mat]

theorem lmiB_shape : lmiB.IsMatShape 2 2 := ⟨rfl, rfl, rfl⟩
theorem lmiB_symm : (lmiB.toMat 2 2).IsSymm := by
  ext i j; fin_cases i <;> fin_cases j <;> simp [Arr.toMat, Arr.mat, lmiB]

theorem lmi_quad (y v : Fin 2 → ℝ) : v ⬝ᵥ (lmiMat 2 lmiF lmiB y *ᵥ v) =
    v 0 ^ 2 + v 1 ^ 2 - (y 0 - 2) * (v 0 ^ 2 - v 1 ^ 2) - 2 * (y 1 - 1) * (v 0 * v 1) := by
  simp [lmiMat, linMat, matAt, lmiF, lmiB, Arr.toMat, Arr.mat, dotProduct, mulVec, Fin.sum_univ_two]
  ring

theorem lmi_pd {y : Fin 2 → ℝ} (hy : y ∈ ball ![2, 1] (1/2 : ℝ)) : (lmiMat 2 lmiF lmiB y).PosDef := by
  rw [posDef_iff_real]
  refine ⟨lmiMat_isSymm lmiF_ok lmiB_symm y, fun v hv => ?_⟩
  have hy : normSq (y - ![2, 1]) ≤ (1/2 : ℝ) ^ 2 := hy
  simp only [normSq, dotProduct, Fin.sum_univ_two, Pi.sub_apply, cons_val_zero, cons_val_one] at hy
  rw [lmi_quad]
  have hpos : 0 < v 0 ^ 2 + v 1 ^ 2 := by
    have h01 : v 0 ≠ 0 ∨ v 1 ≠ 0 := by
      by_contra h
      push Not at h
      exact hv (by funext i; fin_cases i; exact h.1; exact h.2)
    rcases h01 with h | h <;> positivity
  set a := y 0 - 2
  set b := y 1 - 1
  set s := v 0 ^ 2 + v 1 ^ 2
  set p := v 0 ^ 2 - v 1 ^ 2
  set q := 2 * (v 0 * v 1)
  have hpq : p ^ 2 + q ^ 2 = s ^ 2 := by simp only [p, q, s]; ring
  have e : s - a * p - 2 * b * (v 0 * v 1) = s - (a * p + b * q) := by simp only [q]; ring
  rw [e]
  have hcs : (a * p + b * q) ^ 2 ≤ (1/4) * s ^ 2 := by
    have h1 : (a * p + b * q) ^ 2 ≤ (a * a + b * b) * (p ^ 2 + q ^ 2) := by nlinarith [sq_nonneg (a * q - b * p)]
    rw [hpq] at h1
    nlinarith [sq_nonneg s]
  nlinarith [sq_nonneg (a * p + b * q), abs_le_of_sq_le_sq' (a := a * p + b * q) (b := (1/2) * s) (by nlinarith) (by linarith)]

/-- C36 (and with it C33): all hypotheses hold for a concrete LMI and ellipsoid -/
example : ∃ tol0 x k o e', 0 < tol0 ∧ (lmiMat 2 lmiF lmiB (x.toVec 2)).PosDef ∧
    ∀ tol ≤ tol0, cuttingPlaneFeas LMIOracle.oracle Ell.space (LMIOracle.new lmiF lmiB) disc ⟨2000, tol⟩
      = .ok ((some x, k), o, e') := by
  obtain ⟨tol0, x, k, o, e', h0, _, h2, h3⟩ := C36_lmi_solved lmiF_ok lmiB_shape lmiB_symm
    (p := ![2, 1]) (r := 1/2) (by norm_num) (fun y hy => lmi_pd hy) disc_valid (fun y hy => (ball_facts y hy).1)
  exact ⟨tol0, x, k, o, e', h0, h2, fun tol ht => h3 ⟨2000, tol⟩ ht disc_bound⟩

/-- C36, explicit: here `λ = 1`, so the default options are fine -/
example : ∃ x k o e', cuttingPlaneFeas LMIOracle.oracle Ell.space (LMIOracle.new lmiF lmiB) disc Options.default
      = .ok ((some x, k), o, e') ∧ (lmiMat 2 lmiF lmiB (x.toVec 2)).PosDef := by
  obtain ⟨x, k, o, e', h1, _, h3, _⟩ := C36_lmi_solved_explicit lmiF_ok lmiB_shape lmiB_symm
    (p := ![2, 1]) (r := 1/2) (lam := 1) (by norm_num) (by norm_num) (fun y hy => lmi_pd hy)
    (by
      refine PosSemidef.of_dotProduct_mulVec_nonneg ?_ fun v => ?_
      · refine IsHermitian.sub ?_ (by simp [IsHermitian, conjTranspose_smul])
        exact lmiMat_isSymm lmiF_ok lmiB_symm _
      · simp only [star_trivial, one_smul, sub_mulVec, one_mulVec, dotProduct_sub]
        rw [lmi_quad]
        simp [dotProduct, Fin.sum_univ_two]
        ring_nf
        exact le_rfl)
    disc_valid (fun y hy => (ball_facts y hy).1) Options.default
    (by simp only [Options.default, Scalar.real_dec]; norm_num) disc_bound
  exact ⟨x, k, o, e', h1, h3⟩

/-- C33: the centre (1,1) of the disc is rejected, so the cut part of C33 is not empty -/
example : ∃ g c o', (LMIOracle.new lmiF lmiB).assess disc.xc = .ok (some (g, c), o') ∧
    ∀ y ∈ ball ![2, 1] (1/2 : ℝ), g.toVec 2 ⬝ᵥ (y - disc.c 2) + c.beta ≤ 0 := by
  obtain ⟨r, o', h1, _, h3, h4⟩ := C33_lmi_exact lmiF_ok lmiB_shape lmiB_symm (LMIOracle.for_new lmiB_shape)
    disc_valid.shaped.2
  have hnot : ¬ (lmiMat 2 lmiF lmiB (disc.xc.toVec 2)).PosDef := by
    intro h
    have := (posDef_iff_real.1 h).2 ![0, 1] (by intro h; have := congrFun h 1; norm_num at this)
    rw [lmi_quad, show disc.xc.toVec 2 = ![1, 1] from disc_c] at this
    norm_num at this
  cases r with
  | none => exact absurd (h3.1 rfl) hnot
  | some gc =>
    obtain ⟨g, c⟩ := gc
    exact ⟨g, c, o', h1, fun y hy => (h4 g c rfl).2.2 y (lmi_pd hy).posSemidef⟩

/-- C35: hypotheses met, and both answers occur -/
example : ∃ o, LMI0Oracle.new [lmiB, ⟨[1, 0, 0, 1], 2, 2⟩] = .ok o ∧
    o.For 2 [lmiB, ⟨[1, 0, 0, 1], 2, 2⟩] ∧ SymMats 2 2 [lmiB, ⟨[1, 0, 0, 1], 2, 2⟩] := by
  have h : SymMats 2 2 [lmiB, ⟨[1, 0, 0, 1], 2, 2⟩] := by
    refine ⟨rfl, ?_⟩
    intro f hf
    simp only [List.mem_cons, List.not_mem_nil, or_false] at hf
    rcases hf with rfl | rfl
    · exact ⟨lmiB_shape, lmiB_symm⟩
    · refine ⟨⟨rfl, rfl, rfl⟩, ?_⟩
      ext i j; fin_cases i <;> fin_cases j <;> simp [Arr.toMat, Arr.mat]
  obtain ⟨o, h1, h2⟩ := LMI0Oracle.for_new h (by norm_num)
  exact ⟨o, h1, h2, h⟩

/-- C34: hypotheses met -/
example (xs : List (Arr ℝ)) (hx : ∀ x ∈ xs, x.len ≤ 2) :
    askAll LMIOracle.oracleOld (LMIOracle.new lmiF lmiB) xs = askAll LMIOracle.oracle (LMIOracle.new lmiF lmiB) xs :=
  C34_old_eq_new lmiF lmiB (fun f hf => (lmiF_ok.2 f hf).1) lmiB_shape xs hx

end Ellalgo.ExR
