import Verif.Props.CheckedOracleProps
import Verif.Props.CheckedExamples
import Verif.Props.LmiExamples
import Verif.Props.LowpassExamples

/-! Concrete cases meeting the hypotheses of C76. -/

namespace Ellalgo.ExR
open Matrix Ellalgo

/-- C76 (`sqrt`): the 1×1 matrix `(4)` is factored -/
example : ∃ m' : LDLTMgr ℝ, (LDLTMgr.new 1).factor (fun _ _ => .ok 4) = .ok (true, m') := by
  refine ⟨⟨(0, 0), Arr.new 1, 1, ⟨[4], 1, 1⟩⟩, ?_⟩
  simp [LDLTMgr.new, LDLTMgr.factor, LDLTMgr.factorLoop, LDLTMgr.factorRow, LDLTMgr.isSpd, forRange, forN, Arr.zeros,
      Arr.setIdx]
  rw [if_neg (by norm_num)]
  rfl

/-- C76 (power iterations): the matrix `((2, 1), (1, 2))` is invertible, the start `(1, 0)` is not zero -/
example : (⟨[2, 1, 1, 2], 2, 2⟩ : Arr ℝ).IsMatShape 2 2 ∧ ((⟨[2, 1, 1, 2], 2, 2⟩ : Arr ℝ).toMat 2 2).det ≠ 0 ∧
    (Arr.ofList [1, 0] : Arr ℝ).IsVecShape 2 ∧ (Arr.ofList [1, 0] : Arr ℝ).toVec 2 ≠ 0 := by
  refine ⟨⟨rfl, rfl, rfl⟩, ?_, pair_shape _ _, ?_⟩
  · rw [det_fin_two]
    simp [Arr.toMat, Arr.mat]
    norm_num
  · rw [pair_toVec]
    intro h
    have := congrFun h 0
    simp at this

/-- C76 (profit oracle): a new oracle with price 20, scale 40, limit 30 and input prices 10, 35 at value 0 -/
example : (fun (o : ProfitOracle ℝ) γ => 0 ≤ γ ∧ ∀ v ∈ o.priceOut.data, 0 < v)
    (ProfitOracle.new 20 40 30 (Arr.ofList [1 / 10, 2 / 5]) (Arr.ofList [10, 35])) 0 := by
  refine ⟨le_rfl, fun v hv => ?_⟩
  simp only [ProfitOracle.new, Arr.ofList, List.mem_cons, List.not_mem_nil, or_false] at hv
  rcases hv with rfl | rfl <;> norm_num

/-- C76 (LMI run): a two-variable LMI, the disc, default options -/
example : cuttingPlaneFeas LMIOracle.oracle Ell.space (LMIOracle.new (lmiF.map Arr.lift) lmiB.lift) disc.lift
      (Options.lift Options.default) =
    (cuttingPlaneFeas LMIOracle.oracle Ell.space (LMIOracle.new lmiF lmiB) disc Options.default).map
      (fun q => ((q.1.1.map Arr.lift, q.1.2), q.2.1.lift, q.2.2.lift)) :=
  C76_lmi_run_defined lmiF_ok lmiB_shape lmiB_symm disc disc_valid (p := ![2, 1]) (r := 1 / 2) (by norm_num)
    (fun y hy => ⟨lmi_pd hy, (ball_facts y hy).1⟩) _

/-- C76 (low-pass run): two taps, the disc of radius 10, initial bound 100, one iteration (the first centre is rejected) -/
example : ∃ o e xb k o' e', LowpassOracle.new (α := ℝ) 2 (12 / 100) (20 / 100) 1 3 100 = .ok o ∧
    Ell.newWithScalar (100 : ℝ) (Arr.ofList [0, 0]) = .ok e ∧
    cuttingPlaneOptim LowpassOracle.oracle Ell.space o e 100 ⟨1, 1 / 100⟩ = .ok ((xb, k), 100, o', e') ∧
    cuttingPlaneOptim LowpassOracle.oracle Ell.space o.lift e.lift (.val 100) (Options.lift ⟨1, 1 / 100⟩) =
      .ok ((xb.map Arr.lift, k), .val 100, o'.lift, e'.lift) := by
  obtain ⟨o, h1, h2, h3, h4, -⟩ := C45_lowpass_new (n := 2) (by norm_num) (12 / 100) (20 / 100) 1 3 100 (by norm_num)
    (by norm_num) (by norm_num)
  obtain ⟨e, h5, h6, h7⟩ := C13_valid_with_scalar (n := 2) 100 (Arr.ofList [0, 0]) le_rfl (pair_shape _ _) (by norm_num)
  have hxc : e.xc = Arr.ofList [0, 0] := by
    simp only [Ell.newWithScalar, Res.bind_eq_ok] at h5
    obtain ⟨_, -, h5⟩ := h5
    simp only [Res.ok.injEq] at h5
    rw [← h5]; rfl
  obtain ⟨g, b0, b1, s, γ', o1, q1, q2, q3, q4, q5, q6, q7, q8⟩ := C46_lowpass_optim h3 (h4 (by norm_num)) o h2 e.xc
    h6.shaped.2 100
  have hs : s = false := by
    by_contra hc
    have hf := q6.1 (by simpa using hc)
    rw [hxc, pair_toVec] at hf
    have := (hf.1 0 (by simp [lpOf])).1
    rw [resp2] at this
    simp [lpOf] at this
    linarith
  obtain ⟨rfl, -⟩ := q8 hs
  subst hs
  obtain ⟨st, e1, hu, hsh1, -⟩ := Ell.update_shape (by norm_num : 0 < 2) .bias e (g, (⟨b0, b1⟩ : ParallelCut ℝ)) h6.shaped q3
  have hu' : Ell.space.updateBias e (g, (⟨b0, b1⟩ : ParallelCut ℝ)) = .ok (st, e1) := hu
  have hq : LowpassOracle.oracle.assess o (Ell.space (T := ParallelCut ℝ).xc e) 100 = .ok (((g, ⟨b0, b1⟩), false), 100, o1) := q1
  obtain ⟨k, hrun⟩ : ∃ k, cuttingPlaneOptim LowpassOracle.oracle Ell.space o e 100 ⟨1, 1 / 100⟩ = .ok ((none, k), 100, o1, e1) := by
    simp only [cuttingPlaneOptim, optimLoop, hq, Res.ok_bind, Bool.false_eq_true, if_false, hu']
    split
    · exact ⟨_, rfl⟩
    · exact ⟨_, rfl⟩
  refine ⟨o, e, none, k, o1, e1, h1, h5, hrun, ?_⟩
  refine C76_lowpass_run_defined h3 (h4 (by norm_num)) o h2 e h6 ⟨1, 1 / 100⟩ (p := ![3 / 2, 0]) (r := 1 / 10) (by norm_num) ?_ hrun
    fun x hx => ?_
  · intro z hz
    have h0 := abs_le.1 (ball_entries (by norm_num) hz 0)
    have h1 := abs_le.1 (ball_entries (by norm_num) hz 1)
    simp only [cons_val_zero, cons_val_one, sub_zero] at h0 h1
    rw [h7]
    show normSq (z - _) ≤ 100
    rw [pair_toVec, normSq, dotProduct, Fin.sum_univ_two]
    simp only [Pi.sub_apply, cons_val_zero, cons_val_one]
    nlinarith
  · obtain ⟨f1, f2, f3⟩ := ball_feasible hx
    exact ⟨⟨f1, fun i a b => ⟨(f2 i a b).1, (f2 i a b).2.trans (by norm_num)⟩, f3⟩, fun i a b => (f2 i a b).2.trans_lt (by norm_num)⟩

end Ellalgo.ExR
