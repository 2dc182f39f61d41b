import Verif.Props.StableProps
import Verif.Props.Converge
import Verif.Lib.Pair

/-! C28, continued: the concrete failures of `EllStable`. -/

namespace Ellalgo
open Matrix

namespace StableEx

theorem start : ∃ s : EllStable ℝ, EllStable.newWithScalar (1 : ℝ) (Arr.ofList [0, 0]) = .ok s ∧ s.Diagonal 2 ∧
    s.M 2 = 1 ∧ s.c 2 = 0 ∧ s.kappa = 1 ∧ s.helper = EllCalc.new 2 ∧ s.region 2 = {x | normSq x ≤ 1} ∧
    Ell.newWithScalar (1 : ℝ) (Arr.ofList [0, 0]) = .ok s.asEll := by
  obtain ⟨y, h1, h2⟩ := eye_spec (α := ℝ) 2
  have hy : y.toMat 2 2 = 1 := by
    rw [h2.toMat]
    ext i j
    simp only [of_apply, one_apply, Fin.ext_iff]
  have hc : (Arr.ofList [(0 : ℝ), 0]).toVec 2 = 0 := by rw [pair_toVec]; ext i; fin_cases i <;> rfl
  have hl : (Arr.ofList [(0 : ℝ), 0]).len = 2 := rfl
  refine ⟨EllStable.newWithMatrix 1 y (Arr.ofList [0, 0]), ?_, ⟨⟨h2.shape, pair_shape 0 0⟩, ?_⟩, hy, hc, rfl, rfl, ?_, ?_⟩
  · simp [EllStable.newWithScalar, hl, h1]
  · intro i j hij
    have : (EllStable.newWithMatrix 1 y (Arr.ofList [0, 0])).M 2 = 1 := hy
    rw [this, one_apply_ne hij]
  · have e1 : (EllStable.newWithMatrix 1 y (Arr.ofList [0, 0])).M 2 = 1 := hy
    have e2 : (EllStable.newWithMatrix 1 y (Arr.ofList [0, 0])).c 2 = 0 := hc
    rw [EllStable.region, e1, e2]
    ext x
    simp [ellipsoid, normSq, EllStable.newWithMatrix]
  · simp [Ell.newWithScalar, hl, h1]
    rfl

/-- the cut `3 x₀ + 4 x₁ ≤ 0` through the centre of the unit disc -/
noncomputable def cut1 : Arr ℝ × SingleCut ℝ := (Arr.ofList [3, 4], ⟨0⟩)

theorem quad1 {M : Matrix (Fin 2) (Fin 2) ℝ} (hM : M = 1) :
    ![(3 : ℝ), 4] ⬝ᵥ (M *ᵥ ![3, 4]) = 25 := by
  rw [hM, one_mulVec, pair_dot]
  norm_num [cons_val_zero, cons_val_one]

theorem call1 (k : UpdateKind) (hk : k = .central ∨ k = .bias) :
    CutType.call k (⟨0⟩ : SingleCut ℝ) (EllCalc.new 2) 25 = (.success, 5 / 3, 2 / 3, 4 / 3) := by
  have h5 : √(25 : ℝ) = 5 := by
    rw [show (25 : ℝ) = 5 ^ 2 by norm_num]; exact Real.sqrt_sq (by norm_num)
  rcases hk with rfl | rfl
  · show (EllCalc.new 2).calcCentralCut (25 : ℝ) = _
    rw [calcCentralS_real, calcCentralCut_real, h5]
    norm_num
  · show (EllCalc.new 2).calcBiasCut (0 : ℝ) (25 : ℝ) = _
    rw [calcBias_real, if_neg (by norm_num), calcBiasCutFast_real, h5]
    norm_num

/-- one cut of the unit disc, central or bias -/
theorem step1 (k : UpdateKind) (hk : k = .central ∨ k = .bias) {s : EllStable ℝ} (hd : s.Diagonal 2) (hM : s.M 2 = 1)
    (hc : s.c 2 = 0) (hκ : s.kappa = 1) (hh : s.helper = EllCalc.new 2) :
    ∃ s', EllStable.space.update k s cut1 = .ok (.success, s') ∧ s'.Diagonal 2 ∧
      s'.M 2 = diagonal ![25 / 43, 43 / 75] ∧ s'.c 2 = ![-1 / 5, -4 / 15] ∧ s'.kappa = 4 / 3 ∧
      s'.helper = EllCalc.new 2 ∧ s'.tsq = 25 := by
  obtain ⟨st, ρ, σ, δ, s', h1, h2, h3, h4, h5, -, h7⟩ := EllStable.update_both (n := 2) (by norm_num) k s cut1 hd
    (pair_shape 3 4)
  have hg : cut1.1.toVec 2 = ![3, 4] := pair_toVec 3 4
  rw [hg] at h1 h5 h7
  rw [quad1 hM, hκ, one_mul] at h1 h5
  rw [hh, show cut1.2 = ⟨0⟩ from rfl, call1 k hk] at h1
  simp only [Prod.mk.injEq] at h1
  obtain ⟨rfl, rfl, rfl, rfl⟩ := h1
  obtain ⟨a1, a2, a3⟩ := h7 rfl
  rw [quad1 hM] at a1 a2
  refine ⟨s', h2, h3, ?_, ?_, ?_, h4.trans hh, h5⟩
  · have m0 : s.mq.mat 0 0 = 1 := by
      have := congrFun (congrFun hM 0) 0
      simpa [EllStable.M, Arr.toMat] using this
    have m1 : s.mq.mat 1 1 = 1 := by
      have := congrFun (congrFun hM 1) 1
      simpa [EllStable.M, Arr.toMat] using this
    have g0 : cut1.1.vec 0 = 3 := rfl
    have g1 : cut1.1.vec 1 = 4 := rfl
    rw [a1, hM]
    congr 1
    ext i
    fin_cases i
    · simp [EllStable.tt, sumTo, m0, g0]; norm_num
    · simp [EllStable.tt, sumTo, m0, g0, m1, g1]; norm_num
  · rw [a2, hc, hM, one_mulVec]
    ext i
    fin_cases i <;> simp <;> norm_num
  · rw [a3, hκ]; norm_num

theorem quad_diag2 (a b : ℝ) (ha : a ≠ 0) (hb : b ≠ 0) (v : Fin 2 → ℝ) :
    v ⬝ᵥ ((diagonal ![a, b])⁻¹ *ᵥ v) = v 0 ^ 2 / a + v 1 ^ 2 / b := by
  have : (diagonal ![a, b])⁻¹ = diagonal ![a⁻¹, b⁻¹] := by
    apply inv_eq_left_inv
    rw [diagonal_mul_diagonal]
    ext i j
    fin_cases i <;> fin_cases j <;> simp [ha, hb]
  rw [this, dotProduct, Fin.sum_univ_two, mulVec_diagonal, mulVec_diagonal]
  simp
  ring

end StableEx

open StableEx

/-- **C28** (the defect, first consequence).  One central cut `3 x₀ + 4 x₁ ≤ 0` of the unit disc: the update
succeeds, and the point `(4/5, -3/5)` of the disc, which the cut keeps, is outside the new ellipsoid.  (`Ell`
keeps every such point, `C14_central_keeps_half`.) -/
theorem C28_stable_loses_points :
    ∃ s s' : EllStable ℝ, EllStable.newWithScalar (1 : ℝ) (Arr.ofList [0, 0]) = .ok s ∧
      EllStable.space.update .central s (Arr.ofList [3, 4], (⟨0⟩ : SingleCut ℝ)) = .ok (.success, s') ∧
      ∃ x ∈ s.region 2, (![3, 4] : Fin 2 → ℝ) ⬝ᵥ (x - s.c 2) ≤ 0 ∧ x ∉ s'.region 2 := by
  obtain ⟨s, h1, h2, h3, h4, h5, h6, h7, -⟩ := start
  obtain ⟨s', a1, a2, a3, a4, a5, -, -⟩ := step1 .central (Or.inl rfl) h2 h3 h4 h5 h6
  refine ⟨s, s', h1, a1, ![4 / 5, -3 / 5], ?_, ?_, ?_⟩
  · rw [h7]
    show normSq _ ≤ 1
    simp [normSq, dotProduct, Fin.sum_univ_two]
    norm_num
  · rw [h4, pair_dot]; simp; norm_num
  · rw [EllStable.region, a3, a4, a5]
    rw [ellipsoid, Set.mem_ofPred_eq]
    rw [quad_diag2 _ _ (by norm_num) (by norm_num)]
    simp
    norm_num

/-- **C28** (the defect, second consequence).  Two central cuts, `(3, 4)` and then `(4, -3)`, of the unit disc:
`EllStable` and `Ell` report different `tsq`. -/
theorem C28_stable_differs_from_ell :
    ∃ (s s1 s2 : EllStable ℝ) (e1 e2 : Ell ℝ), EllStable.newWithScalar (1 : ℝ) (Arr.ofList [0, 0]) = .ok s ∧
      Ell.newWithScalar (1 : ℝ) (Arr.ofList [0, 0]) = .ok s.asEll ∧
      EllStable.space.run s [(.central, Arr.ofList [3, 4], (⟨0⟩ : SingleCut ℝ)), (.central, Arr.ofList [4, -3], ⟨0⟩)] =
        .ok [(.success, s1), (.success, s2)] ∧
      Ell.space.run s.asEll [(.central, Arr.ofList [3, 4], (⟨0⟩ : SingleCut ℝ)), (.central, Arr.ofList [4, -3], ⟨0⟩)] =
        .ok [(.success, e1), (.success, e2)] ∧
      s2.tsq ≠ e2.tsq := by
  obtain ⟨s, h1, h2, h3, h4, h5, h6, h7, h8⟩ := start
  obtain ⟨s1, a1, a2, a3, a4, a5, a6, -⟩ := step1 .central (Or.inl rfl) h2 h3 h4 h5 h6
  obtain ⟨st2, ρ2, σ2, δ2, s2, b1, b2, -, -, b5, -⟩ := EllStable.update_both (n := 2) (by norm_num) .central s1
    (Arr.ofList [4, -3], (⟨0⟩ : SingleCut ℝ)) a2 (pair_shape 4 (-3))
  have hst2 : st2 = .success := by
    rw [a6] at b1
    have := congrArg Prod.fst b1
    exact this.symm
  subst hst2
  obtain ⟨st, ρ, σ, δ, e1, c1, c2, c3, -, c5⟩ := C12_rank_one_update (n := 2) .central s.asEll
    (Arr.ofList [3, 4], (⟨0⟩ : SingleCut ℝ)) (by norm_num) h2.shaped (EllStable.asEll_symm h2) (pair_shape 3 4)
  have hM0 : s.asEll.M 2 = 1 := h3
  simp only [pair_toVec] at c1 c3 c5
  rw [quad1 hM0, show s.asEll.kappa = 1 from h5, one_mul, show s.asEll.helper = EllCalc.new 2 from h6,
    call1 .central (Or.inl rfl)] at c1
  simp only [Prod.mk.injEq] at c1
  obtain ⟨rfl, rfl, rfl, rfl⟩ := c1
  obtain ⟨-, -, c6, -⟩ := c5 rfl
  obtain ⟨c6, c7⟩ := c6 rfl
  rw [quad1 hM0, hM0, one_mulVec] at c6
  have hsh : e1.Shaped 2 := shape_of_update (e := s.asEll) (by norm_num) .central h2.shaped (pair_shape 3 4) c2
  have he1M : e1.M 2 = !![19 / 25, -8 / 25; -8 / 25, 43 / 75] := by
    rw [c6]
    ext i j
    fin_cases i <;> fin_cases j <;> simp [vecMulVec_apply] <;> norm_num
  have hsym : (e1.M 2).IsSymm := by
    rw [he1M]
    ext i j
    fin_cases i <;> fin_cases j <;> rfl
  obtain ⟨st2, ρ2, σ2, δ2, e2, d1, d2, d3, -⟩ := C12_rank_one_update (n := 2) .central e1
    (Arr.ofList [4, -3], (⟨0⟩ : SingleCut ℝ)) (by norm_num) hsh hsym (pair_shape 4 (-3))
  have hst2 : st2 = .success := by
    have := congrArg Prod.fst d1
    exact this.symm.trans (by
      obtain ⟨_, -, -, -, hh⟩ : ∃ x : Nat, True ∧ True ∧ True ∧ e1.helper = EllCalc.new 2 := ⟨0, trivial, trivial, trivial, by
        obtain ⟨ρ, σ, δ, _, hx⟩ := Ell.update_real (e := s.asEll) h2.shaped (EllStable.asEll_symm h2) (by norm_num : 0 < 2) .central
          (Arr.ofList [3, 4], (⟨0⟩ : SingleCut ℝ)) (pair_shape 3 4) c2
        rcases hx with ⟨h, -⟩ | ⟨-, h⟩
        · exact absurd rfl h
        · exact h.helper.trans h6⟩
      rw [hh]; rfl)
  subst hst2
  refine ⟨s, s1, s2, e1, e2, h1, h8, ?_, ?_, ?_⟩
  · have a1' : EllStable.space.update .central s (Arr.ofList [3, 4], (⟨0⟩ : SingleCut ℝ)) = .ok (.success, s1) := a1
    simp only [Space.run, a1', Res.ok_bind, b2]
  · simp only [Space.run, c2, Res.ok_bind, d2]
  · rw [b5, d3, a5, a3, he1M, c7, show s.asEll.kappa = 1 from h5]
    simp only [pair_toVec, pair_dot, mulVec_diagonal]
    simp [mulVec, dotProduct, Fin.sum_univ_two]
    norm_num

namespace StableEx
open Classical

/-- centre of the target disc -/
noncomputable def tgt : Fin 2 → ℝ := ![7 / 10, -3 / 5]

/-- An honest oracle for the disc of radius 1/20 around `(7/10, -3/5)`. -/
noncomputable def orc : OracleFeas Unit (Arr ℝ) (SingleCut ℝ) ℝ where
  assess _ x :=
    if x.toVec 2 ∈ ball tgt (1 / 20) then .ok (none, ())
    else if x.toVec 2 = 0 then .ok (some (Arr.ofList [3, 4], ⟨0⟩), ())
    else if x.toVec 2 = ![-1 / 5, -4 / 15] then .ok (some (Arr.ofList [-2, 1], ⟨2⟩), ())
    else .ok (some (Arr.ofList [x.toVec 2 0 - 7 / 10, x.toVec 2 1 + 3 / 5], ⟨0⟩), ())
  update w _ := .ok w

theorem mem_tgt (y : Fin 2 → ℝ) : y ∈ ball tgt (1 / 20) ↔ (y 0 - 7 / 10) ^ 2 + (y 1 + 3 / 5) ^ 2 ≤ 1 / 400 := by
  show normSq (y - tgt) ≤ _ ↔ _
  simp only [normSq, dotProduct, Fin.sum_univ_two, Pi.sub_apply, tgt, cons_val_zero, cons_val_one]
  constructor <;> intro h <;> nlinarith

theorem pair_ne {a b : ℝ} (h : ¬ (a = 0 ∧ b = 0)) : (![a, b] : Fin 2 → ℝ) ≠ 0 := fun h' =>
  h ⟨by simpa using congrFun h' 0, by simpa using congrFun h' 1⟩

theorem honest : HonestFeas 2 orc (fun _ => True) (ball tgt (1 / 20)) (1 / 20) := by
  intro w x _ hx
  by_cases h0 : x.toVec 2 ∈ ball tgt (1 / 20)
  · exact ⟨none, (), by simp only [orc, h0, if_true], trivial, by simp⟩
  by_cases h1 : x.toVec 2 = 0
  · refine ⟨some (Arr.ofList [3, 4], ⟨0⟩), (), by show ite _ _ _ = _; rw [if_neg h0, if_pos h1], trivial, ?_⟩
    intro g c hc
    simp only [Option.some.injEq, Prod.mk.injEq] at hc
    obtain ⟨rfl, rfl⟩ := hc
    rw [pair_toVec, h1]
    refine ⟨pair_shape _ _, pair_ne (by norm_num), ?_, by simp, fun y hy => ⟨?_, by simp⟩⟩
    · rw [normSq, pair_dot]; simp; norm_num
    · rw [mem_tgt] at hy
      rw [pair_dot]
      simp
      nlinarith [sq_nonneg (y 0 - 7 / 10), sq_nonneg (y 1 + 3 / 5),
        sq_nonneg (4 * (y 0 - 7 / 10) - 3 * (y 1 + 3 / 5)),
        sq_nonneg (3 * (y 0 - 7 / 10) + 4 * (y 1 + 3 / 5) - 1 / 4)]
  by_cases h2 : x.toVec 2 = ![-1 / 5, -4 / 15]
  · refine ⟨some (Arr.ofList [-2, 1], ⟨2⟩), (), by show ite _ _ _ = _; rw [if_neg h0, if_neg h1, if_pos h2], trivial, ?_⟩
    intro g c hc
    simp only [Option.some.injEq, Prod.mk.injEq] at hc
    obtain ⟨rfl, rfl⟩ := hc
    rw [pair_toVec, h2]
    refine ⟨pair_shape _ _, pair_ne (by norm_num), ?_, by simp, fun y hy => ⟨?_, by simp⟩⟩
    · rw [normSq, pair_dot]; simp; norm_num
    · rw [mem_tgt] at hy
      rw [pair_dot]
      simp
      nlinarith [sq_nonneg (y 0 - 7 / 10), sq_nonneg (y 1 + 3 / 5),
        sq_nonneg ((y 0 - 7 / 10) + 2 * (y 1 + 3 / 5)),
        sq_nonneg (-2 * (y 0 - 7 / 10) + (y 1 + 3 / 5) - 1 / 8)]
  · refine ⟨some (Arr.ofList [x.toVec 2 0 - 7 / 10, x.toVec 2 1 + 3 / 5], ⟨0⟩), (),
      by simp only [orc, h0, h1, h2, if_false], trivial, ?_⟩
    intro g c hc
    simp only [Option.some.injEq, Prod.mk.injEq] at hc
    obtain ⟨rfl, rfl⟩ := hc
    rw [mem_tgt] at h0
    rw [pair_toVec]
    refine ⟨pair_shape _ _, pair_ne ?_, ?_, by simp, fun y hy => ⟨?_, by simp⟩⟩
    · rintro ⟨ha, hb⟩
      rw [ha, hb] at h0
      norm_num at h0
    · rw [normSq, pair_dot]; simp; nlinarith
    · rw [mem_tgt] at hy
      rw [pair_dot]
      simp
      nlinarith [sq_nonneg (y 0 - x.toVec 2 0), sq_nonneg (y 1 - x.toVec 2 1)]

theorem complete : CompleteFeas 2 orc (fun _ => True) (ball tgt (1 / 20)) := by
  intro w x g c w' _ _ hq
  by_cases h0 : x.toVec 2 ∈ ball tgt (1 / 20)
  · simp only [orc, h0, if_true, Res.ok.injEq, Prod.mk.injEq, reduceCtorEq, false_and] at hq
  · exact ⟨h0, by simp⟩

theorem target_in : ball tgt (1 / 20) ⊆ {x : Fin 2 → ℝ | normSq x ≤ 1} := by
  intro y hy
  rw [mem_tgt] at hy
  show normSq y ≤ 1
  simp only [normSq, dotProduct, Fin.sum_univ_two]
  nlinarith [sq_nonneg (y 0 - 7 / 10), sq_nonneg (y 1 + 3 / 5),
    sq_nonneg (6 * (y 0 - 7 / 10) + 7 * (y 1 + 3 / 5)),
    sq_nonneg (14 / 10 * (y 0 - 7 / 10) - 12 / 10 * (y 1 + 3 / 5) - 1 / 10)]

end StableEx

/-- **C28** (the defect, third consequence).  There is an honest and complete feasibility oracle for a disc that
lies inside the unit disc, such that `cutting_plane_feas` started on the unit disc stops with "no solution" in its
second iteration when the search space is an `EllStable`, for every tolerance up to 25 and every iteration limit
from 2 on; with `Ell` the same run finds a point of the disc (for enough iterations and a tolerance up to
`1/160000`). -/
theorem C28_stable_wrong_infeasible :
    ∃ (orc : OracleFeas Unit (Arr ℝ) (SingleCut ℝ) ℝ) (K : Set (Fin 2 → ℝ)) (s : EllStable ℝ),
      HonestFeas 2 orc (fun _ => True) K (1 / 20) ∧ CompleteFeas 2 orc (fun _ => True) K ∧
      EllStable.newWithScalar (1 : ℝ) (Arr.ofList [0, 0]) = .ok s ∧
      Ell.newWithScalar (1 : ℝ) (Arr.ofList [0, 0]) = .ok s.asEll ∧ K.Nonempty ∧ K ⊆ s.region 2 ∧
      (∀ opts : Options ℝ, 2 ≤ opts.maxIters → opts.tolerance ≤ 25 →
        ∃ s', cuttingPlaneFeas orc EllStable.space () s opts = .ok ((none, 1), (), s')) ∧
      ∃ N : Nat, ∀ opts : Options ℝ, N ≤ opts.maxIters → opts.tolerance ≤ 1 / 160000 →
        ∃ x k e', cuttingPlaneFeas orc Ell.space () s.asEll opts = .ok ((some x, k), (), e') ∧ x.toVec 2 ∈ K := by
  obtain ⟨s, h1, h2, h3, h4, h5, h6, h7, h8⟩ := start
  obtain ⟨s1, a1, a2, a3, a4, a5, a6, a7⟩ := step1 .bias (Or.inr rfl) h2 h3 h4 h5 h6
  refine ⟨StableEx.orc, ball tgt (1 / 20), s, honest, complete, h1, h8, ⟨tgt, ?_⟩, h7 ▸ target_in, ?_, ?_⟩
  · rw [mem_tgt]; norm_num [tgt]
  · intro opts hm ht
    obtain ⟨k, hk⟩ : ∃ k, opts.maxIters = k + 1 + 1 := ⟨opts.maxIters - 2, by omega⟩
    obtain ⟨st2, ρ2, σ2, δ2, s2, b1, b2, -⟩ := EllStable.update_both (n := 2) (by norm_num) .bias s1
      (Arr.ofList [-2, 1], (⟨2⟩ : SingleCut ℝ)) a2 (pair_shape (-2) 1)
    have hst2 : st2 = .noSoln := by
      rw [a6, a5, a3] at b1
      have hq : (Arr.ofList [(-2 : ℝ), 1]).toVec 2 ⬝ᵥ (diagonal ![25 / 43, 43 / 75] *ᵥ (Arr.ofList [(-2 : ℝ), 1]).toVec 2) =
          9349 / 3225 := by
        simp only [pair_toVec, pair_dot, mulVec_diagonal]
        simp
        norm_num
      simp only [hq] at b1
      have hb : (EllCalc.new 2).calcBiasCut (2 : ℝ) (4 / 3 * (9349 / 3225)) = _ := b1
      rw [calcBias_real, if_pos (by norm_num)] at hb
      exact (congrArg Prod.fst hb).symm
    subst hst2
    have x0 : s.xc.toVec 2 = 0 := h4
    have x1 : s1.xc.toVec 2 = ![-1 / 5, -4 / 15] := a4
    have q0 : StableEx.orc.assess () s.xc = .ok (some (Arr.ofList [3, 4], ⟨0⟩), ()) := by
      have : (0 : Fin 2 → ℝ) ∉ ball tgt (1 / 20) := by rw [mem_tgt]; norm_num
      simp only [StableEx.orc, x0, this, if_false, if_true]
    have q1 : StableEx.orc.assess () s1.xc = .ok (some (Arr.ofList [-2, 1], ⟨2⟩), ()) := by
      have n1 : (![-1 / 5, -4 / 15] : Fin 2 → ℝ) ∉ ball tgt (1 / 20) := by rw [mem_tgt]; norm_num
      have n2 : (![-1 / 5, -4 / 15] : Fin 2 → ℝ) ≠ 0 := pair_ne (by norm_num)
      simp only [StableEx.orc, x1, n1, n2, if_false, if_true]
    have u0 : EllStable.space.updateBias s (Arr.ofList [3, 4], (⟨0⟩ : SingleCut ℝ)) = .ok (.success, s1) := a1
    have u1 : EllStable.space.updateBias s1 (Arr.ofList [-2, 1], (⟨2⟩ : SingleCut ℝ)) = .ok (.noSoln, s2) := b2
    have ht' : Scalar.lt s1.tsq opts.tolerance = false := by
      rw [a7, Scalar.real_lt]; simpa using ht
    refine ⟨s2, ?_⟩
    rw [cuttingPlaneFeas, hk]
    simp only [feasLoop]
    show (StableEx.orc.assess () s.xc >>= _) = _
    simp only [q0, Res.ok_bind, u0]
    show (if (CutStatus.success != .success || Scalar.lt s1.tsq opts.tolerance) = true then _ else
      (StableEx.orc.assess () s1.xc >>= _)) = _
    rw [ht']
    simp [q1, u1]
  · obtain ⟨e, f1, f2, f3⟩ := C13_valid_with_scalar (n := 2) 1 (Arr.ofList [0, 0]) le_rfl (pair_shape 0 0) one_pos
    obtain rfl : s.asEll = e := by
      have := h8.symm.trans f1
      simpa using this
    refine ⟨Nat.floor (((2 : ℕ) + 1 : ℝ) * Real.log ((s.asEll.kappa • s.asEll.M 2).det / ((1 / 20 : ℝ) ^ 2) ^ 2)) + 1, ?_⟩
    intro opts hm ht
    obtain ⟨x, k, w1, w', e', g1, g2, -, g4, -⟩ := C22_feas_converges StableEx.orc (fun _ => True) (ball tgt (1 / 20))
      (1 / 20) (1 / 20) tgt () s.asEll opts honest trivial f2 (by norm_num) subset_rfl
      (by
        have hr : s.asEll.region 2 = s.region 2 := rfl
        rw [hr, h7]; exact target_in)
      (by norm_num at ht ⊢; linarith)
      (lt_of_lt_of_le (Nat.lt_floor_add_one _) (by exact_mod_cast hm))
    refine ⟨x, k, e', g1, ?_⟩
    by_contra hx
    simp only [StableEx.orc, hx, if_false] at g2
    split at g2
    · simp at g2
    · split at g2 <;> simp at g2

end Ellalgo
