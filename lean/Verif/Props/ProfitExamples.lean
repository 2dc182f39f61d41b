import Verif.Props.ProfitSolve
import Verif.Props.ProfitQProps
import Verif.Props.SolveExamples

/-! Non-vacuity of C48, C49, C60, C62. -/

namespace Ellalgo
open Matrix

/-- the data of the repository's test (profit_oracle.rs:178-187) -/
noncomputable def repoData : ProfitData := ⟨20, 40, 61 / 2, ![1 / 10, 4 / 10], ![10, 35]⟩
noncomputable def repoUnc : ProfitUncertainty := ⟨3 / 1000, 7 / 1000, 1, 1, 1⟩

theorem repoData_pos : repoData.Pos :=
  ⟨by norm_num [repoData], by norm_num [repoData], by norm_num [repoData],
    fun i => by fin_cases i <;> norm_num [repoData]⟩

/-- C48: a fresh oracle queried at `(0, 0)` with `γ = 0` reports the profit 755 -/
example : ∃ g beta o', ProfitOracle.oracle.assess
    (ProfitOracle.new 20 40 (61 / 2) (Arr.ofList [1 / 10, 4 / 10]) (Arr.ofList [10, 35])) (Arr.ofList [0, 0]) 0 =
      .ok (((g, (⟨beta⟩ : SingleCut ℝ)), true), 755, o') := by
  obtain ⟨g, b, s, γ', o', h1, -, hm⟩ := C48_profit repoData_pos _
    (C48_profit_new (d := repoData) _ _ (rv_pair _ _) (rv_pair _ _)) (Arr.ofList [0, 0]) (pair_shape _ _) le_rfl
  rw [pair_toVec] at hm
  have hp : repoData.profit ![0, 0] = 755 := by
    rw [ProfitData.profit, ProfitData.revenue_eq, ProfitData.expense]
    simp [repoData]; norm_num
  have hs : s = true := hm.improves.2 ⟨by show Real.exp 0 ≤ 61 / 2; rw [Real.exp_zero]; norm_num, by rw [hp]; norm_num⟩
  subst hs
  have : γ' = 755 := by have := hm.value; simpa [hp] using this
  subst this
  exact ⟨g, b, o', h1⟩

/-- C60: the repository's robust test data meet the hypotheses -/
example : repoData.Pos ∧ repoUnc.Ok repoData ∧ ∃ o, ProfitRbOracle.new 20 40 (61 / 2) (Arr.ofList [1 / 10, 4 / 10])
    (Arr.ofList [10, 35]) (3 / 1000) (7 / 1000) 1 1 1 = .ok o ∧ o.For repoData repoUnc :=
  ⟨repoData_pos, by constructor <;> norm_num [repoUnc, repoData],
    C60_robust_new (d := repoData) (u := repoUnc) _ _ (rv_pair _ _) (rv_pair _ _)⟩

/-- a problem with a known maximiser: revenue `4 (x₀ x₁)^(1/4)`, input prices 1, maximum 2 at `x = (1, 1)` -/
noncomputable def easyData : ProfitData := ⟨4, 1, 10, ![1 / 4, 1 / 4], ![1, 1]⟩

theorem easyData_pos : easyData.Pos :=
  ⟨by norm_num [easyData], by norm_num [easyData], by norm_num [easyData],
    fun i => by fin_cases i <;> norm_num [easyData]⟩

theorem easy_bound (s t : ℝ) : 4 * Real.exp (1 / 4 * s + 1 / 4 * t) - (Real.exp s + Real.exp t) ≤ 2 := by
  have h1 : Real.exp s = Real.exp (s / 2) ^ 2 := by rw [← Real.exp_nat_mul]; congr 1; ring
  have h2 : Real.exp t = Real.exp (t / 2) ^ 2 := by rw [← Real.exp_nat_mul]; congr 1; ring
  have h3 : Real.exp (1 / 4 * s + 1 / 4 * t) ^ 2 = Real.exp (s / 2) * Real.exp (t / 2) := by
    rw [← Real.exp_nat_mul, ← Real.exp_add]; congr 1; push_cast; ring
  rw [h1, h2]
  nlinarith [sq_nonneg (Real.exp (s / 2) - Real.exp (t / 2)), sq_nonneg (Real.exp (1 / 4 * s + 1 / 4 * t) - 1)]

theorem easy_max : ∀ z, easyData.profit z ≤ easyData.profit ![0, 0] := by
  intro z
  have h0 : easyData.profit ![0, 0] = 2 := by
    rw [ProfitData.profit, ProfitData.revenue_eq, ProfitData.expense]
    simp [easyData]; norm_num
  rw [h0, ProfitData.profit, ProfitData.revenue_eq, ProfitData.expense, dotProduct, Fin.sum_univ_two]
  have := easy_bound (z 0) (z 1)
  simpa [easyData] using this

/-- C62: all hypotheses hold; the solver finds the profit 2 up to 1/1000 -/
example : ∃ e, Ell.newWithScalar (100 : ℝ) (Arr.ofList [0, 0]) = .ok e ∧
    ∃ (N : Nat) (tol0 : ℝ), 0 < tol0 ∧ ∀ opts : Options ℝ, N ≤ opts.maxIters → opts.tolerance ≤ tol0 →
      ∃ xb k γ' o' e', cuttingPlaneOptim ProfitOracle.oracle Ell.space
        (ProfitOracle.new 4 1 10 (Arr.ofList [1 / 4, 1 / 4]) (Arr.ofList [1, 1])) e 0 opts =
        .ok ((xb, k), γ', o', e') ∧ easyData.profit ![0, 0] - 1 / 1000 ≤ γ' := by
  obtain ⟨e, h1, h2, h3⟩ := disc100
  refine ⟨e, h1, ?_⟩
  obtain ⟨N, t, ht, h⟩ := C62_profit_solved easyData_pos _
    (C48_profit_new (d := easyData) (Arr.ofList [1 / 4, 1 / 4]) (Arr.ofList [1, 1]) (rv_pair _ _) (rv_pair _ _)) e h2
    (xs := ![0, 0]) (by show Real.exp 0 ≤ 10; rw [Real.exp_zero]; norm_num) (fun z _ => easy_max z)
    (h3 _ (by norm_num)) (γ := 0) le_rfl
    (by
      rw [ProfitData.profit, ProfitData.revenue_eq, ProfitData.expense]
      simp [easyData]; norm_num) (ε := 1 / 1000) (by norm_num)
  refine ⟨N, t, ht, fun opts a b => ?_⟩
  obtain ⟨xb, k, γ', w', e', c, d, -⟩ := h opts a b
  exact ⟨xb, k, γ', w', e', c, d⟩

/-- C62 (robust): nominal price 5 ± 1, input prices 3/4 ± 1/4, elasticities 1/4 ± 1/8, limit 10 ± 1: the point `(0, 0)`
maximises the guaranteed profit -/
noncomputable def easyNominal : ProfitData := ⟨5, 1, 10, ![1 / 4, 1 / 4], ![3 / 4, 3 / 4]⟩
noncomputable def easyUnc : ProfitUncertainty := ⟨1 / 8, 1 / 8, 1, 1, 1 / 4⟩

example : easyNominal.Pos ∧ easyUnc.Ok easyNominal ∧ ![0, 0] ∈ easyNominal.robustFeasible easyUnc ∧
    0 ≤ easyNominal.robustProfit easyUnc ![0, 0] ∧
    ∀ z ∈ easyNominal.robustFeasible easyUnc, easyNominal.robustProfit easyUnc z ≤ easyNominal.robustProfit easyUnc ![0, 0] := by
  have hpos : easyNominal.Pos := ⟨by norm_num [easyNominal], by norm_num [easyNominal], by norm_num [easyNominal],
    fun i => by fin_cases i <;> norm_num [easyNominal]⟩
  have hu : easyUnc.Ok easyNominal := by constructor <;> norm_num [easyUnc, easyNominal]
  have h0 : easyNominal.robustProfit easyUnc ![0, 0] = 2 := by
    rw [robustProfit_eq hpos hu, ProfitData.profit, ProfitData.revenue_eq, ProfitData.expense]
    simp [ProfitData.worstAt, easyNominal, easyUnc]; norm_num
  refine ⟨hpos, hu, ?_, by rw [h0]; norm_num, fun z _ => ?_⟩
  · rw [robustFeasible_eq hu 0]
    show Real.exp 0 ≤ (10 : ℝ) - 1
    rw [Real.exp_zero]; norm_num
  · rw [h0]
    have hmem : (⟨4, 1, 10, ![1 / 4, 1 / 4], ![1, 1]⟩ : ProfitData) ∈ easyNominal.within easyUnc := by
      refine ⟨?_, ?_, ?_, ?_, fun i => ?_, rfl⟩
      · simp [easyNominal, easyUnc]
      · simp [easyNominal, easyUnc]
      · simp [easyNominal, easyUnc]; norm_num
      · simp [easyNominal, easyUnc]
      · fin_cases i <;> simp [easyNominal, easyUnc] <;> norm_num
    refine (robustProfit_le hpos hu z hmem).trans ?_
    rw [ProfitData.profit, ProfitData.revenue_eq, ProfitData.expense, dotProduct, Fin.sum_univ_two]
    have := easy_bound (z 0) (z 1)
    simpa using this

end Ellalgo
