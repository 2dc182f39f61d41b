import Verif.Props.EllReal2

/-! Non-vacuity of C12-C21, C27, C53: a concrete disc of radius 2 (shape matrix `I`, `κ = 4`) and a
concrete gradient `(3/5, 4/5)`, so that `τ = 2`. -/

namespace Ellalgo.ExR
open Matrix Ellalgo
open scoped ComplexOrder

noncomputable def disc : Ell ℝ := Ell.newWithMatrix 4 ⟨[1, 0, 0, 1], 2, 2⟩ ⟨[1, 1], 2, 0⟩
noncomputable def g : Arr ℝ := ⟨[3/5, 4/5], 2, 0⟩

theorem disc_M : disc.M 2 = 1 := by
  ext i j
  fin_cases i <;> fin_cases j <;> simp [Ell.M, Arr.toMat, disc, Ell.newWithMatrix, Arr.mat]

theorem g_shape : g.IsVecShape 2 := ⟨rfl, rfl, rfl⟩
theorem g_vec : g.toVec 2 = ![3/5, 4/5] := by
  ext i; fin_cases i <;> simp [Arr.toVec, Arr.vec, g]
theorem g_ne : g.toVec 2 ≠ 0 := by
  rw [g_vec]; intro h
  have := congrFun h 0
  norm_num at this

theorem disc_valid : disc.Valid 2 := by
  refine C13_valid_with_matrix 4 _ _ le_rfl ⟨rfl, rfl, rfl⟩ ⟨rfl, rfl, rfl⟩ ?_ (by norm_num)
  have h := disc_M
  have h : Arr.toMat 2 2 ⟨[1, 0, 0, 1], 2, 2⟩ = 1 := h
  rw [h]; exact PosDef.one

theorem disc_tsq : disc.tsqOf 2 (g.toVec 2) = 4 := by
  rw [Ell.tsqOf, disc_M, g_vec]
  simp [disc, Ell.newWithMatrix, dotProduct, Fin.sum_univ_two]
  norm_num

theorem disc_tau : disc.tau 2 (g.toVec 2) = 2 := by
  rw [Ell.tau, disc_tsq, show (4 : ℝ) = 2 ^ 2 by norm_num, Real.sqrt_sq (by norm_num)]

theorem sqrt4 : √(4 : ℝ) = 2 := by
  rw [show (4 : ℝ) = 2 ^ 2 by norm_num, Real.sqrt_sq (by norm_num)]

/-- C12 -/
example : disc.Shaped 2 ∧ (disc.M 2).IsSymm ∧ g.IsVecShape 2 :=
  ⟨disc_valid.shaped, disc_valid.symm, g_shape⟩

/-- C13, C20 (one step): a deep cut `β = 1` is admissible and succeeds -/
example : Cut.Adm 2 .bias (⟨1⟩ : SingleCut ℝ) (disc.tsqOf 2 (g.toVec 2)) ∧
    Cut.NonDegenerate 2 .bias (⟨1⟩ : SingleCut ℝ) (disc.tsqOf 2 (g.toVec 2)) ∧
    ∃ e', Ell.space.update .bias disc (g, (⟨1⟩ : SingleCut ℝ)) = .ok (.success, e') := by
  have h : Cut.Adm 2 .bias (⟨1⟩ : SingleCut ℝ) (disc.tsqOf 2 (g.toVec 2)) := by
    rw [disc_tsq]
    refine (Cut.adm_single ..).mpr ⟨?_, ?_⟩ <;> rw [sqrt4] <;> norm_num
  refine ⟨h, Or.inl h, ?_⟩
  obtain ⟨e', h, -⟩ := C15_bias_keeps_halfspace disc g 1 disc_valid g_shape g_ne
    (by rw [disc_tau]; norm_num) (by rw [disc_tau]; norm_num)
  exact ⟨e', h⟩

/-- C13, C20 (histories): one central cut is a history with `m = 1` -/
example : ∃ e' : Ell ℝ, Ell.Steps (T := SingleCut ℝ) 2 (fun k e g c => g ≠ 0 ∧ Cut.Adm 2 k c (e.tsqOf 2 g) ∧
      (k = .central ∨ 0 ≤ Cut.lo c)) 1 disc e' := by
  obtain ⟨e', h, -⟩ := C14_central_keeps_half disc g 0 disc_valid g_shape g_ne
  have ha : Cut.Adm 2 .central (⟨0⟩ : SingleCut ℝ) (disc.tsqOf 2 (g.toVec 2)) :=
    (Cut.adm_single ..).mpr trivial
  exact ⟨e', .success (k := .central) (.nil _) g_shape ⟨g_ne, ha, Or.inl rfl⟩ h⟩

/-- C14, C15: the hypotheses hold and the half-spaces contain points of the disc -/
example : -(disc.tau 2 (g.toVec 2) / (2 : ℕ)) ≤ 1 ∧ 1 < disc.tau 2 (g.toVec 2) := by
  rw [disc_tau]; norm_num

/-- C16 -/
example : (1/2 : ℝ) < disc.tau 2 (g.toVec 2) ∧ -disc.tau 2 (g.toVec 2) < (1 : ℝ) ∧
    0 ≤ disc.tau 2 (g.toVec 2) ^ 2 + (2 : ℕ) * ((1/2 : ℝ) * 1) := by
  rw [disc_tau]; norm_num

/-- C18: a cut that is reported `NoSoln` -/
example : ∃ e', Ell.space.update .bias disc (g, (⟨3⟩ : SingleCut ℝ)) = .ok (.noSoln, e') := by
  obtain ⟨e', h⟩ := Ell.update_exists disc_valid.shaped disc_valid.symm disc_valid.pos .bias
    ((g, ⟨3⟩) : Arr ℝ × SingleCut ℝ) g_shape
  refine ⟨e', ?_⟩
  rw [h]
  have : (CutType.call .bias (⟨3⟩ : SingleCut ℝ) disc.helper (disc.tsqOf 2 (g.toVec 2))).1 = .noSoln := by
    show (EllCalc.calcBiasCut _ _ _).1 = _
    rw [disc_valid.helper, calcBias_real, disc_tsq, if_pos (by norm_num)]
  rw [← this]

/-- C19 -/
example : (1 : ℝ) ≠ disc.tau 2 (g.toVec 2) ∧ -disc.tau 2 (g.toVec 2) < (3/2 : ℝ) := by
  rw [disc_tau]; norm_num

/-- C53: `β = -3` is below `-τ`; `β = -3/2` lies between `-τ` and `-τ/n`; `β = -1/2` above -/
example : (-3 : ℝ) < -disc.tau 2 (g.toVec 2) ∧ -disc.tau 2 (g.toVec 2) < -3/2 ∧
    (-3/2 : ℝ) < -(disc.tau 2 (g.toVec 2) / (2 : ℕ)) ∧ -(disc.tau 2 (g.toVec 2) / (2 : ℕ)) ≤ -1/2 := by
  rw [disc_tau]; norm_num

end Ellalgo.ExR
