import Verif.Props.SvmSolve
import Verif.Props.MaxcutProps

/-! Concrete cases meeting the hypotheses of C50, C51, C63. -/

namespace Ellalgo
open Matrix

/-- samples `1` (label 1) and `-1` (label -1) on the line -/
noncomputable def svmEx : SvmOracle ℝ := SvmOracle.new ⟨[1, -1], 2, 1⟩ [1, -1]

theorem svmEx_for : svmEx.For (m := 2) (n := 1) !![1; -1] ![1, -1] := by
  refine ⟨one_pos, ⟨⟨rfl, rfl, rfl⟩, ?_⟩, by simp [svmEx, SvmOracle.new], rfl⟩
  ext i j
  fin_cases i <;> fin_cases j <;> rfl

theorem svmEx_labels : ∀ i, (![1, -1] : Fin 2 → ℤ) i ≠ 0 := by intro i; fin_cases i <;> simp

/-- C50: at `(w, b) = (0, 0)` both margins are 0, so the oracle returns value 0 and a proper cut -/
example : ∃ g, SvmOracle.oracle.assess svmEx (Arr.ofList [0, 0]) 5 = .ok (((g, ⟨0⟩), true), 0, svmEx) ∧
    g.toVec 2 ≠ 0 := by
  obtain ⟨g, b, γ', h1, -, -, h2⟩ := C50_svm svmEx svmEx_for (Arr.ofList [0, 0]) (pair_shape _ _) 5
  have hz : ∀ i, svmMargin !![1; -1] ![1, -1] ((Arr.ofList [(0 : ℝ), 0]).toVec 2) i = 0 := by
    intro i
    rw [pair_toVec]
    fin_cases i <;> simp [svmMargin]
  obtain ⟨i, h3, -, -, h4, h5, -⟩ := h2 (fun h => by have := h 0; rw [hz] at this; norm_num at this)
  rw [hz] at h3
  subst h3
  subst h4
  exact ⟨g, h1, fun h => by
    have := svm_grad_norm (svmEx_labels i) h5
    rw [h] at this
    simp [normSq] at this
    linarith⟩

/-- C63: the two samples are separated from the disc of radius 10 (the classifier `(2, 0)` has margins 2) -/
example : ∃ e, Ell.newWithScalar (100 : ℝ) (Arr.ofList [0, 0]) = .ok e ∧
    ∃ (N : Nat) (tol0 : ℝ), 0 < tol0 ∧ ∀ opts : Options ℝ, N ≤ opts.maxIters → 0 < opts.tolerance →
      opts.tolerance ≤ tol0 →
      ∃ x k e', cuttingPlaneOptim SvmOracle.oracle Ell.space svmEx e 0 opts = .ok ((some x, k), 0, svmEx, e') ∧
        x.IsVecShape 2 ∧ ∀ i, 1 ≤ svmMargin !![1; -1] ![1, -1] (x.toVec 2) i := by
  obtain ⟨e, h1, h2, h3⟩ := disc100
  refine ⟨e, h1, C63_svm_separable svmEx_labels svmEx svmEx_for e 0 h2 (z := ![2, 0]) (h3 _ (by norm_num)) ?_⟩
  intro i
  fin_cases i <;> simp [svmMargin]

/-- one edge of weight 3 -/
noncomputable def edge3 : Arr ℝ := ⟨[0, 3, 3, 0], 2, 2⟩

theorem edge3_rm : RM edge3 (!![0, 3; 3, 0] : Matrix (Fin 2) (Fin 2) ℝ) := by
  refine ⟨⟨rfl, rfl, rfl⟩, ?_⟩
  ext i j
  fin_cases i <;> fin_cases j <;> rfl

/-- C51: querying `(1, 1)` then `(1, -1)` raises `γ` from 0 to 3 -/
example : ∃ o, MaxcutOracle.new edge3 = .ok o ∧
    o.history [Arr.ofList [1, 1], Arr.ofList [1, -1]] 0 = .ok (3, o) := by
  obtain ⟨o, h1, h2⟩ := C51_maxcut_new (by norm_num) edge3_rm
  refine ⟨o, h1, ?_⟩
  have w1 : cutWeight (!![0, 3; 3, 0] : Matrix (Fin 2) (Fin 2) ℝ) ((Arr.ofList [(1 : ℝ), 1]).toVec 2) = 0 := by
    rw [pair_toVec]; simp [cutWeight, Fin.sum_univ_two, onLeft]
  have w2 : cutWeight (!![0, 3; 3, 0] : Matrix (Fin 2) (Fin 2) ℝ) ((Arr.ofList [(1 : ℝ), -1]).toVec 2) = 3 := by
    rw [pair_toVec]; simp [cutWeight, Fin.sum_univ_two, onLeft]
  obtain ⟨γ', h, h0, hub, hin⟩ := C51_maxcut_history o h2 [Arr.ofList [1, 1], Arr.ofList [1, -1]]
    (by intro x hx; simp only [List.mem_cons, List.not_mem_nil, or_false] at hx; rcases hx with rfl | rfl <;> exact pair_shape _ _) 0
  rw [h]
  have h3 := hub (Arr.ofList [1, -1]) (by simp)
  rw [w2] at h3
  have : γ' = 3 := by
    rcases hin with h | ⟨x, hx, h⟩
    · linarith
    · simp only [List.mem_cons, List.not_mem_nil, or_false] at hx
      rcases hx with rfl | rfl
      · rw [w1] at h; linarith
      · rw [w2] at h; exact h
  rw [this]

/-- C51 (stuck): the disc around the origin, the usual start -/
example : ∃ e, Ell.newWithScalar (100 : ℝ) (Arr.ofList [0, 0]) = .ok e ∧ ∃ o, MaxcutOracle.new edge3 = .ok o ∧
    ∃ e', cuttingPlaneOptim MaxcutOracle.oracle Ell.space o e 0 ⟨2000, 1⟩ = .ok ((none, 0), 0, o, e') := by
  obtain ⟨e, h1, h2, -⟩ := C13_valid_with_scalar (n := 2) 100 (Arr.ofList [0, 0]) le_rfl (pair_shape _ _) (by norm_num)
  obtain ⟨o, h3, h4⟩ := C51_maxcut_new (by norm_num) edge3_rm
  refine ⟨e, h1, o, h3, C51_maxcut_stuck (by norm_num) o h4 e h2 le_rfl ⟨2000, 1⟩ one_pos (by norm_num) (Or.inl ?_)⟩
  obtain ⟨y, hy, -⟩ := eye_spec (α := ℝ) 2
  have hl : (Arr.ofList [(0 : ℝ), 0]).len = 2 := rfl
  have he : e = Ell.newWithMatrix 100 y (Arr.ofList [0, 0]) := by
    have h := h1
    rw [Ell.newWithScalar, hl, hy] at h
    exact (Res.ok.inj h).symm
  intro i
  rw [he]
  show 0 ≤ (Arr.ofList [(0 : ℝ), 0]).toVec 2 i
  rw [pair_toVec]
  fin_cases i <;> simp

end Ellalgo
