import Verif.Props.StableWrong

/-! Non-vacuity of the C28 theorems: the unit disc. -/

namespace Ellalgo
open Matrix StableEx

/-- C28 (one step, and runs): the unit disc satisfies the hypotheses -/
example : ∃ s : EllStable ℝ, EllStable.newWithScalar (1 : ℝ) (Arr.ofList [0, 0]) = .ok s ∧ s.Diagonal 2 ∧
    (∀ i, 0 < s.M 2 i i) ∧
    ∃ tr, EllStable.space.run s [(.central, Arr.ofList [3, 4], (⟨0⟩ : SingleCut ℝ)), (.q, Arr.ofList [1, -1], ⟨1 / 10⟩)] =
      .ok tr ∧ tr.length = 2 ∧ ∀ p ∈ tr, p.2.Diagonal 2 := by
  obtain ⟨s, h1, h2, h3, -⟩ := start
  refine ⟨s, h1, h2, fun i => by rw [h3, one_apply_eq]; exact one_pos, ?_⟩
  refine C28_stable_stays_diagonal (n := 2) (by norm_num) _ s h2 ?_
  intro c hc
  simp only [List.mem_cons, List.not_mem_nil, or_false] at hc
  rcases hc with rfl | rfl
  · exact pair_shape 3 4
  · exact pair_shape 1 (-1)

/-- C28 (axis): the cut `2 x₀ ≤ 0` -/
example : ∃ s : EllStable ℝ, EllStable.newWithScalar (1 : ℝ) (Arr.ofList [0, 0]) = .ok s ∧
    ∃ st s' e', EllStable.space.update .central s (Arr.ofList [2, 0], (⟨0⟩ : SingleCut ℝ)) = .ok (st, s') ∧
      Ell.space.update .central s.asEll (Arr.ofList [2, 0], (⟨0⟩ : SingleCut ℝ)) = .ok (st, e') ∧
      s'.M 2 = e'.M 2 ∧ s'.c 2 = e'.c 2 ∧ s'.tsq = e'.tsq ∧ s'.kappa = e'.kappa := by
  obtain ⟨s, h1, h2, h3, -, -, h6, -⟩ := start
  refine ⟨s, h1, C28_stable_axis_partial (n := 2) (by norm_num) .central s (Arr.ofList [2, 0], (⟨0⟩ : SingleCut ℝ)) h2
    (pair_shape 2 0) 0 (by rw [h3, one_apply_eq]; norm_num) (by rw [pair_toVec]; simp) ?_ ?_⟩
  · intro i hi
    fin_cases i
    · exact absurd rfl hi
    · rw [pair_toVec]; rfl
  · intro st ρ σ δ hc _
    rw [h6] at hc
    have hc : (EllCalc.new 2).calcCentralCut _ = _ := hc
    rw [calcCentralS_real, calcCentralCut_real] at hc
    simp only [Prod.mk.injEq] at hc
    obtain ⟨-, -, rfl, -⟩ := hc
    norm_num

/-- C28 (volume): the cut of `C28_stable_loses_points` -/
example : ∃ s : EllStable ℝ, EllStable.newWithScalar (1 : ℝ) (Arr.ofList [0, 0]) = .ok s ∧
    ∃ s' e', EllStable.space.update .central s (Arr.ofList [3, 4], (⟨0⟩ : SingleCut ℝ)) = .ok (.success, s') ∧
      Ell.space.update .central s.asEll (Arr.ofList [3, 4], (⟨0⟩ : SingleCut ℝ)) = .ok (.success, e') ∧
      (∀ i, 0 < s'.M 2 i i) ∧ s'.vol2 2 = e'.vol2 2 ∧
      s'.vol2 2 = (4 / 3) ^ 2 * (1 - 2 / 3) * s.vol2 2 := by
  obtain ⟨s, h1, h2, h3, -, h5, h6, -⟩ := start
  refine ⟨s, h1, C28_stable_volume_partial (n := 2) (by norm_num) .central s (Arr.ofList [3, 4], (⟨0⟩ : SingleCut ℝ)) h2
    (fun i => by rw [h3, one_apply_eq]; exact one_pos) (pair_shape 3 4) (by rw [pair_toVec]; exact pair_ne (by norm_num))
    (ρ := 5 / 3) ?_ (by norm_num) (by norm_num)⟩
  simp only [pair_toVec]
  rw [quad1 h3, h5, h6, one_mul]
  exact call1 .central (Or.inl rfl)

end Ellalgo
