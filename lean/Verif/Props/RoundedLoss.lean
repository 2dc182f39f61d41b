import Verif.Props.RoundedProps

/-! # C71: positive definiteness does not survive rounding -/

namespace Ellalgo
open Matrix
open scoped ComplexOrder

namespace Loss

/-- `2⁻⁵²` -/
noncomputable abbrev ε : ℝ := (2 : ℝ) ^ (-52 : ℤ)
/-- `f64` value of `1/3` -/
noncomputable abbrev third : ℝ := 6004799503160661 * (2 : ℝ) ^ (-54 : ℤ)

/-- a badly conditioned but positive definite ellipsoid; every number is an `f64` -/
noncomputable def e0 : Ell (Fl bin53) :=
  { noDeferTrick := false, mq := ⟨[⟨1⟩, ⟨1 - ε⟩, ⟨1 - ε⟩, ⟨1⟩], 2, 2⟩, xc := ⟨[⟨0⟩, ⟨0⟩], 2, 0⟩, kappa := ⟨1⟩,
    helper := EllCalc.new 2, tsq := ⟨0⟩ }
/-- gradient `(1, -1)` -/
noncomputable def g : Arr (Fl bin53) := ⟨[⟨1⟩, ⟨-1⟩], 2, 0⟩

theorem e0_shaped : e0.Shaped 2 := ⟨⟨rfl, rfl, rfl⟩, ⟨rfl, rfl, rfl⟩⟩
theorem g_shape : g.IsVecShape 2 := ⟨rfl, rfl, rfl⟩

theorem r_int (m e : ℤ) (x : ℝ) (hx : x = m * (2 : ℝ) ^ e) (hm : |m| ≤ 2 ^ 53) : bin53.rnd x = x := by
  rw [hx]; exact rnd53_rep m e hm

theorem r1 : bin53.rnd 1 = 1 := bin53.one
theorem rm1 : bin53.rnd (-1) = -1 := r_int (-1) 0 _ (by norm_num) (by norm_num)
theorem rε : bin53.rnd ε = ε := r_int 1 (-52) _ (by norm_num) (by norm_num)
theorem rmε : bin53.rnd (-ε) = -ε := r_int (-1) (-52) _ (by norm_num) (by norm_num)
theorem r1ε : bin53.rnd (1 - ε) = 1 - ε := r_int (2 ^ 52 - 1) (-52) _ (by norm_num) (by norm_num)
theorem rm1ε : bin53.rnd (-(1 - ε)) = -(1 - ε) := r_int (-(2 ^ 52 - 1)) (-52) _ (by norm_num) (by norm_num)
theorem r2ε : bin53.rnd (2 * ε) = 2 * ε := r_int 2 (-52) _ (by norm_num) (by norm_num)
theorem r3 : bin53.rnd 3 = 3 := r_int 3 0 _ (by norm_num) (by norm_num)
theorem rthird : bin53.rnd (1 / 3) = third := by
  have := rnd53_eq (x := 1 / 3) (-2) 6004799503160661 (by norm_num [abs_of_pos]) (by norm_num [abs_of_pos])
    (by norm_num [abs_lt])
  show rnd53 _ = _
  rw [this]; norm_num
theorem rthird' : bin53.rnd third = third := r_int 6004799503160661 (-54) _ (by norm_num) (by norm_num)
theorem r2third : bin53.rnd (2 * third) = 2 * third := r_int 6004799503160661 (-53) _ (by norm_num) (by norm_num)

theorem gt0 : (Ell.gt 2 e0.mq.mat g.vec 0).val = ε := by
  simp only [Ell.gt, sumTo, Fl.add_val, Fl.mul_val, Fl.zero_val]
  simp only [e0, g, Arr.mat, Arr.vec, List.getD_cons_zero, List.getD_cons_succ, Nat.zero_mul, mul_one, mul_neg,
    zero_add, r1, rm1ε]
  rw [show (1 : ℝ) + -(1 - ε) = ε by ring, rε]

theorem gt1 : (Ell.gt 2 e0.mq.mat g.vec 1).val = -ε := by
  simp only [Ell.gt, sumTo, Fl.add_val, Fl.mul_val, Fl.zero_val]
  simp only [e0, g, Arr.mat, Arr.vec, List.getD_cons_zero, List.getD_cons_succ, Nat.add_zero, mul_one, mul_neg,
    one_mul, zero_add, rm1, r1ε, Nat.reduceAdd]
  rw [show (1 : ℝ) - ε + -1 = -ε by ring, rmε]

theorem om : (Ell.om 2 e0.mq.mat g.vec).val = 2 * ε := by
  simp only [Ell.om, sumTo, Fl.add_val, Fl.mul_val, Fl.zero_val, gt0, gt1]
  simp only [g, Arr.vec, List.getD_cons_zero, List.getD_cons_succ, one_mul, zero_add, neg_mul, neg_neg, rε]
  rw [show ε + ε = 2 * ε by ring, r2ε]

theorem cst2 : (e0.helper.helper.cst2).val = 2 * third := by
  have h2 : bin53.rnd ((2 : ℕ) : ℝ) = 2 := by exact_mod_cast bin53.two
  simp only [e0, EllCalc.new, EllCalcCore.new, Fl.mul_val, Fl.div_val, Fl.add_val, Fl.one_val, Fl.natCast_val, h2]
  rw [show (2 : ℝ) + 1 = 3 by norm_num, r3, rthird, r2third]

/-- the entry every cell of the matrix ends up with, `1 - 2⁻⁵³` -/
noncomputable abbrev d : ℝ := 1 - (2 : ℝ) ^ (-53 : ℤ)

theorem rdiag : bin53.rnd (1 - third * ε) = d := by
  have := rnd53_eq (x := 1 - third * ε) (-1) (2 ^ 53 - 1) (by norm_num [abs_of_pos]) (by norm_num [abs_of_pos])
    (by norm_num [abs_lt])
  show rnd53 _ = _
  rw [this]; norm_num

theorem roff : bin53.rnd (1 - ε + third * ε) = d := by
  have := rnd53_eq (x := 1 - ε + third * ε) (-1) (2 ^ 53 - 1) (by norm_num [abs_of_pos]) (by norm_num [abs_of_pos])
    (by norm_num [abs_lt])
  show rnd53 _ = _
  rw [this]; norm_num

theorem rte : bin53.rnd (third * ε) = third * ε :=
  r_int 6004799503160661 (-106) _ (by norm_num) (by norm_num)
theorem rnte : bin53.rnd (-(third * ε)) = -(third * ε) :=
  r_int (-6004799503160661) (-106) _ (by norm_num) (by norm_num)
theorem rnthird : bin53.rnd (-third) = -third := r_int (-6004799503160661) (-54) _ (by norm_num) (by norm_num)

theorem ratio : (e0.helper.helper.cst2 / Ell.om 2 e0.mq.mat g.vec).val = third / ε := by
  rw [Fl.div_val, cst2, om, mul_div_mul_left _ _ (by norm_num : (2 : ℝ) ≠ 0)]
  exact r_int 6004799503160661 (-2) _ (by norm_num) (by norm_num)

theorem mq_val (i j : Nat) (hi : i < 2) (hj : j < 2) :
    (newMq e0.mq.mat (Ell.gt 2 e0.mq.mat g.vec) (e0.helper.helper.cst2 / Ell.om 2 e0.mq.mat g.vec) i j).val = d := by
  have hε : ε ≠ 0 := by positivity
  have q0 : third / ε * ε = third := div_mul_cancel₀ _ hε
  have c00 : (e0.mq.mat 0 0).val = 1 := rfl
  have c10 : (e0.mq.mat 1 0).val = 1 - ε := rfl
  have c11 : (e0.mq.mat 1 1).val = 1 := rfl
  have h00 : (newMq e0.mq.mat (Ell.gt 2 e0.mq.mat g.vec) (e0.helper.helper.cst2 / Ell.om 2 e0.mq.mat g.vec) 0 0).val = d := by
    rw [newMq, if_pos le_rfl, Fl.sub_val, Fl.mul_val, Fl.mul_val, ratio, gt0, c00, q0, rthird', rte, rdiag]
  have h10 : (newMq e0.mq.mat (Ell.gt 2 e0.mq.mat g.vec) (e0.helper.helper.cst2 / Ell.om 2 e0.mq.mat g.vec) 1 0).val = d := by
    rw [newMq, if_pos (by norm_num), Fl.sub_val, Fl.mul_val, Fl.mul_val, ratio, gt0, gt1, c10, mul_neg, q0, rnthird, neg_mul,
      rnte, sub_neg_eq_add, roff]
  have h11 : (newMq e0.mq.mat (Ell.gt 2 e0.mq.mat g.vec) (e0.helper.helper.cst2 / Ell.om 2 e0.mq.mat g.vec) 1 1).val = d := by
    rw [newMq, if_pos le_rfl, Fl.sub_val, Fl.mul_val, Fl.mul_val, ratio, gt1, c11, mul_neg (Loss.third / Loss.ε), q0, rnthird, neg_mul, mul_neg,
      neg_neg, rte, rdiag]
  interval_cases i <;> interval_cases j
  · exact h00
  · rw [newMq_symm]; exact h10
  · exact h10
  · exact h11

end Loss

/-- **C71** (negation of C13 in `f64`) Positive definiteness does not survive rounding: there is an ellipsoid whose stored `f64`
numbers form a symmetric positive definite matrix, and a central cut with gradient `(1, -1)`, after which the update reports
success and the stored matrix is singular: `gᵀ M' g = 0`, so cutting again with the same gradient divides by zero. -/
theorem C71_posDef_lost : ∃ (e e' : Ell (Fl bin53)) (g : Arr (Fl bin53)) (c : SingleCut (Fl bin53)),
    e.Shaped 2 ∧ e.helper = EllCalc.new 2 ∧ 0 < e.kappa.val ∧ (∀ i j, bin53.Rep (e.mq.flMat 2 i j)) ∧
    (e.mq.flMat 2).PosDef ∧ g.IsVecShape 2 ∧ g.flVec 2 ≠ 0 ∧
    Ell.space.update .central e (g, c) = .ok (.success, e') ∧
    ¬ (e'.mq.flMat 2).PosDef ∧ g.flVec 2 ⬝ᵥ (e'.mq.flMat 2 *ᵥ g.flVec 2) = 0 := by
  have hε : (0 : ℝ) < Loss.ε := by positivity
  have hε1 : Loss.ε < 1 := by norm_num
  have hg0 : Loss.g.flVec 2 = ![1, -1] := by
    ext i; fin_cases i <;> rfl
  have hM : Loss.e0.mq.flMat 2 = !![1, 1 - Loss.ε; 1 - Loss.ε, 1] := by
    ext i j; fin_cases i <;> fin_cases j <;> rfl
  rcases Ell.updateCore_spec Loss.e0_shaped.1.isMat Loss.e0_shaped.2.isVec Loss.g_shape.isVec (by norm_num)
    (CutType.call .central (SingleCut.mk (0 : Fl bin53)) Loss.e0.helper)
    (show CutType.call .central (SingleCut.mk (0 : Fl bin53)) Loss.e0.helper _ =
      (.success, Loss.e0.helper.helper.calcCentralCut _) from rfl) with ⟨h, _⟩ | ⟨_, e', hrun, hmat, -⟩
  · exact absurd rfl h
  have hM' : e'.mq.flMat 2 = fun _ _ => Loss.d := by
    ext i j
    show (e'.mq.mat i j).val = _
    rw [hmat.mat i.2 j.2]
    exact Loss.mq_val i j i.2 j.2
  have hzero : Loss.g.flVec 2 ⬝ᵥ (e'.mq.flMat 2 *ᵥ Loss.g.flVec 2) = 0 := by
    rw [hM', hg0]
    simp [dotProduct, Matrix.mulVec, Fin.sum_univ_two]
  have hgne : Loss.g.flVec 2 ≠ 0 := by
    intro h
    have := congrFun h 0
    rw [hg0] at this
    simp at this
  refine ⟨Loss.e0, e', Loss.g, ⟨0⟩, Loss.e0_shaped, rfl, one_pos, ?_, ?_, Loss.g_shape, hgne, hrun, ?_, hzero⟩
  · intro i j
    fin_cases i <;> fin_cases j
    · exact Loss.r1
    · exact Loss.r1ε
    · exact Loss.r1ε
    · exact Loss.r1
  · rw [posDef_iff_real]
    constructor
    · rw [hM]; ext i j; fin_cases i <;> fin_cases j <;> rfl
    · intro x hx
      rw [hM]
      simp only [dotProduct, Matrix.mulVec, Fin.sum_univ_two, Matrix.of_apply, Matrix.cons_val', Matrix.cons_val_zero,
        Matrix.cons_val_one, Matrix.cons_val_fin_one, Matrix.empty_val']
      have hne : x 0 ≠ 0 ∨ x 1 ≠ 0 := by
        by_contra hno
        push Not at hno
        exact hx (by ext i; fin_cases i; exacts [hno.1, hno.2])
      have hs : 0 < x 0 ^ 2 + x 1 ^ 2 := by
        rcases hne with h | h
        · have := pow_pos (abs_pos.2 h) 2
          rw [sq_abs] at this
          nlinarith [sq_nonneg (x 1)]
        · have := pow_pos (abs_pos.2 h) 2
          rw [sq_abs] at this
          nlinarith [sq_nonneg (x 0)]
      nlinarith [mul_pos hε hs, mul_nonneg (sub_pos.2 hε1).le (sq_nonneg (x 0 + x 1))]
  · intro hpd
    have := quad_pos hpd hgne
    linarith

end Ellalgo
