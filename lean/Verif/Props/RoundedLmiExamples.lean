import Verif.Props.RoundedLmiCut
import Verif.Lib.Bin53

/-! Cases that meet the hypotheses of C82, in `f64` rounding (`bin53`). -/

namespace Ellalgo.ExFlLmi
open Ellalgo Matrix

/-- `F = [[1, 1], [1, -1]]` -/
noncomputable def F : Arr (Fl bin53) := ⟨[1, 1, 1, -1], 2, 2⟩
/-- `B = I` -/
noncomputable def B : Arr (Fl bin53) := ⟨[1, 0, 0, 1], 2, 2⟩
/-- the points `0` (feasible) and `1` (not feasible) -/
noncomputable def x0 : Arr (Fl bin53) := ⟨[0], 1, 0⟩
noncomputable def x1 : Arr (Fl bin53) := ⟨[1], 1, 0⟩
noncomputable def o : LMIOracle (Fl bin53) := LMIOracle.new [F] B

theorem F_mat : F.flMat 2 = !![1, 1; 1, -1] := by
  ext i j
  fin_cases i <;> fin_cases j <;> rfl
theorem B_mat : B.flMat 2 = 1 := by
  ext i j
  fin_cases i <;> fin_cases j <;> rfl
theorem F_at (k : Fin 1) : flMatAt 2 [F] k = !![1, 1; 1, -1] := by
  rw [← F_mat, Subsingleton.elim k 0]; rfl
theorem syms : FlSymMats 1 2 [F] := by
  refine ⟨rfl, fun f hf => ?_⟩
  rw [List.mem_singleton] at hf
  subst hf
  refine ⟨⟨rfl, rfl, rfl⟩, ?_⟩
  rw [F_mat, IsSymm]
  ext i j
  fin_cases i <;> fin_cases j <;> rfl
theorem B_symm : (B.flMat 2).IsSymm := by rw [B_mat]; exact isSymm_one
theorem B_shape : B.IsMatShape 2 2 := ⟨rfl, rfl, rfl⟩
theorem o_sized : o.mgr.Sized 2 := ⟨rfl, ⟨rfl, rfl, rfl⟩, ⟨rfl, rfl, rfl⟩⟩
theorem u_small : 16 * ((2 * 2 + 2 + 1 + 2 : Nat) * (2 : ℝ) ^ (-53 : ℤ)) ≤ 1 := by norm_num
theorem u_small' : 16 * ((2 + 1 + 1 : Nat) * (2 : ℝ) ^ (-53 : ℤ)) ≤ 1 := by norm_num
theorem F_bound (k : Fin 1) (i j : Fin 2) : |flMatAt 2 [F] k i j| ≤ (fun _ => 1 : Fin 1 → ℝ) k := by
  rw [F_at]
  fin_cases i <;> fin_cases j <;> simp
theorem size (x : Arr (Fl bin53)) (hx : |x.flVec 1 0| ≤ 1) (i j : Fin 2) :
    |B.flMat 2 i j| + flLinSize 2 [F] (x.flVec 1) i j ≤ 2 := by
  unfold flLinSize
  rw [B_mat, Fin.sum_univ_one, F_at]
  have h : |(!![1, 1; 1, -1] : Matrix (Fin 2) (Fin 2) ℝ) i j| ≤ 1 := by fin_cases i <;> fin_cases j <;> simp
  have h1 : |(1 : Matrix (Fin 2) (Fin 2) ℝ) i j| ≤ 1 := by fin_cases i <;> fin_cases j <;> simp
  have := mul_le_mul hx h (abs_nonneg _) zero_le_one
  linarith
theorem lmi_at (x : Arr (Fl bin53)) : flLmiMat 2 [F] B (x.flVec 1) = 1 - x.flVec 1 0 • !![1, 1; 1, -1] := by
  unfold flLmiMat flLinMat
  rw [B_mat, Fin.sum_univ_one, F_at]

theorem v0 : x0.flVec 1 = fun _ => 0 := by funext i; rw [Subsingleton.elim i 0]; rfl
theorem v1 : x1.flVec 1 = fun _ => 1 := by funext i; rw [Subsingleton.elim i 0]; rfl

/-- C82: `x = 0` has a margin of one, so it is accepted -/
example : ∃ o', o.assess x0 = .ok (none, o') := by
  refine (C82_lmi_rounded syms B_shape B_symm rfl rfl ⟨o_sized.1, o_sized.2.1⟩ ⟨rfl, rfl, rfl⟩ u_small'
    (size x0 (by simp [v0]))).2 ⟨1, by norm_num, ?_⟩
  rw [lmi_at, v0]
  simp only [zero_smul, sub_zero, one_smul, sub_self]
  exact PosSemidef.zero

/-- C82: `x = 1` is far from feasible, so it gets a cut, and the cut keeps `y = 0` -/
example : ∃ g c o', o.assess x1 = .ok (some (g, c), o') ∧
    g.flVec 1 ⬝ᵥ ((fun _ => 0) - x1.flVec 1) + (1 - 12 * (2 * (2 : ℝ) ^ (-53 : ℤ))) * c.beta.val ≤ 0 := by
  obtain ⟨r, o', h, -, -, -, hc⟩ := C82_lmi_cut (f := fun _ => 1) syms B_shape B_symm (o := o) rfl rfl o_sized (x := x1)
    ⟨rfl, rfl, rfl⟩ u_small (size x1 (by simp [v1])) F_bound
  rcases r with _ | ⟨g, c⟩
  · exfalso
    have hp := (C82_lmi_rounded syms B_shape B_symm rfl rfl ⟨o_sized.1, o_sized.2.1⟩ ⟨rfl, rfl, rfl⟩ u_small'
      (size x1 (by simp [v1]))).1 o' h
    rw [posDef_iff_real] at hp
    have h2 := hp.2 ![2, 1] (by intro h; have := congrFun h 0; norm_num at this)
    rw [lmi_at, v1, quad_shift] at h2
    norm_num [dotProduct, mulVec, Fin.sum_univ_two, Matrix.one_apply] at h2
  · refine ⟨g, c, o', h, ?_⟩
    refine (hc g c rfl).2.2 (fun _ => 0) 1 ?_ ?_
    · rw [v1]; norm_num
    · have : flLmiMat 2 [F] B (fun _ : Fin 1 => (0 : ℝ)) = 1 := by
        rw [← v0, lmi_at, v0]; simp
      rw [this, one_smul, sub_self]
      exact PosSemidef.zero

/-- C82 (homogeneous form): `F_1 = I`, `x = 1` is accepted -/
example : ∃ o', (LMI0Oracle.mk [B] (LDLTMgr.new 2) : LMI0Oracle (Fl bin53)).assess x1 = .ok (none, o') := by
  have hat : ∀ k : Fin 1, flMatAt 2 [B] k = 1 := fun k => by rw [← B_mat, Subsingleton.elim k 0]; rfl
  have h1 : ∀ i j : Fin 2, |(1 : Matrix (Fin 2) (Fin 2) ℝ) i j| ≤ 1 := by
    intro i j; fin_cases i <;> fin_cases j <;> simp
  obtain ⟨r, o', h, -, -, -, ha, -⟩ := C82_lmi0_rounded (d := 1) (n := 2) (fs := [B]) (x := x1) (s := 1) (f := fun _ => 1)
    (o := ⟨[B], LDLTMgr.new 2⟩)
    ⟨rfl, fun f hf => by rw [List.mem_singleton] at hf; subst hf; exact ⟨B_shape, B_symm⟩⟩ rfl
    ⟨rfl, ⟨rfl, rfl, rfl⟩, ⟨rfl, rfl, rfl⟩⟩ ⟨rfl, rfl, rfl⟩ u_small
    (fun i j => by unfold flLinSize; rw [Fin.sum_univ_one, hat, v1]; simpa using h1 i j)
    (fun k i j => by rw [hat]; exact h1 i j)
  have : r = none := ha ⟨1, by norm_num, by
    unfold flLinMat
    rw [Fin.sum_univ_one, hat, v1, one_smul, sub_self]
    exact PosSemidef.zero⟩
  rw [this] at h
  exact ⟨o', h⟩

/-- C82 (factorisation): `F` itself, which is indefinite, is rejected, and `I` is accepted -/
example : (∃ m', (LDLTMgr.new 2 : LDLTMgr (Fl bin53)).factorize B = .ok (true, m')) ∧
    ∃ m', (LDLTMgr.new 2 : LDLTMgr (Fl bin53)).factorize F = .ok (false, m') := by
  have hB : ∀ i j, j ≤ i → i < 2 → B.get i j = .ok (B.mat i j) := fun i j hj hi => B_shape.isMat.getij hi (by omega)
  have hF : ∀ i j, j ≤ i → i < 2 → F.get i j = .ok (F.mat i j) := fun i j hj hi =>
    (show F.IsMatShape 2 2 from ⟨rfl, rfl, rfl⟩).isMat.getij hi (by omega)
  have hu : 16 * ((2 : Nat) * (2 : ℝ) ^ (-53 : ℤ)) ≤ 1 := by norm_num
  have lB : lowerSym 2 (fun i j => (B.mat i j).val) = 1 := by
    ext i j; fin_cases i <;> fin_cases j <;> rfl
  have lF : lowerSym 2 (fun i j => (F.mat i j).val) = !![1, 1; 1, -1] := by
    ext i j; fin_cases i <;> fin_cases j <;> rfl
  constructor
  · obtain ⟨b, m', h1, h2⟩ := C82_factor_margin (n := 2) (m := LDLTMgr.new 2) rfl ⟨rfl, rfl, rfl⟩ hB hu
    rw [h2 ⟨1, zero_le_one, by rw [lB]; norm_num [Matrix.trace, Fin.sum_univ_two], by
      rw [lB, one_smul, sub_self]; exact PosSemidef.zero⟩] at h1
    exact ⟨m', h1⟩
  · obtain ⟨b, m', h1, -⟩ := C82_factor_margin (n := 2) (m := LDLTMgr.new 2) rfl ⟨rfl, rfl, rfl⟩ hF hu
    cases b with
    | false => exact ⟨m', h1⟩
    | true =>
      exfalso
      have hp := C82_factor_accepts (n := 2) rfl ⟨rfl, rfl, rfl⟩ hF hu h1
      rw [lF, posDef_iff_real] at hp
      have h2 := hp.2 ![0, 1] (by intro h; have := congrFun h 1; norm_num at this)
      rw [quad_shift] at h2
      norm_num [dotProduct, mulVec, Fin.sum_univ_two, Matrix.trace] at h2

end Ellalgo.ExFlLmi
