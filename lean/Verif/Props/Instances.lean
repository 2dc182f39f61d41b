import Verif.Props.ConvergeExamples
import Verif.Props.SolveExamples
import Verif.Props.ProfitExamples
import Verif.Props.SvmExamples
import Verif.Props.EllReal2
import Verif.Props.EllGeneric
import Verif.Props.LdltSemi
import Verif.Props.ConjGradProps
import Verif.Props.PowerProps
import Verif.Props.Bsearch
import Verif.Props.ArrProps
import Verif.Props.Loops
import Verif.Props.Invariance
import Verif.Props.RateExamples
import Verif.Props.QuadExamples
import Verif.Props.TerminationExamples
import Verif.Props.CpTestsRuns
import Verif.Props.CpTestsRuns2
import Verif.Props.QuickcheckProps
import Verif.Props.StableShapes
import Verif.Props.CheckedOracleProps
import Verif.Props.RoundedPower
import Verif.Props.RoundedExamples
import Verif.Props.PortfolioProps
import Verif.Props.MyLmiProps

/-! # Instances of the property theorems on concrete data

Each example applies a theorem to concrete, non-trivial data, so all of its hypotheses are met there. -/

namespace Ellalgo
open Matrix
open scoped ComplexOrder

section Spaces
open ExR

theorem cutsG : ∀ c ∈ [(UpdateKind.bias, g, (⟨1⟩ : SingleCut ℝ)), (.central, gm, ⟨0⟩), (.q, g, ⟨-1⟩)], c.2.1.IsVecShape 2 := by
  intro c hc
  simp only [List.mem_cons, List.not_mem_nil, or_false] at hc
  rcases hc with rfl | rfl | rfl
  · exact g_shape
  · exact gm_shape
  · exact g_shape

theorem disc_symm : disc.mq.Symm 2 := by
  intro i j hi hj
  interval_cases i <;> interval_cases j <;> rfl

/-- three updates of the disc of radius 2 around (1, 1): they do not panic, keep the shape and the symmetry -/
example : ∃ tr, (Ell.space (T := SingleCut ℝ)).run disc [(UpdateKind.bias, g, ⟨1⟩), (.central, gm, ⟨0⟩), (.q, g, ⟨-1⟩)] = .ok tr ∧
    tr.length = 3 ∧ ∀ p ∈ tr, p.2.Shaped 2 ∧ p.2.mq.Symm 2 := by
  obtain ⟨tr, h1, h2, h3⟩ := C11_no_panic_and_shapes 2 (by norm_num) disc disc_valid.shaped _ cutsG
  exact ⟨tr, h1, h2, fun p hp => ⟨h3 p hp, C10_symmetric_sequences 2 (by norm_num) disc disc_valid.shaped disc_symm _ cutsG tr h1 p hp⟩⟩

example := C21_no_defer_trick disc (by norm_num) disc_valid.shaped disc_valid.symm (by show (4 : ℝ) ≠ 0; norm_num) _ cutsG
example := C13_valid_new (n := 2) (Arr.ofList [1, 4]) (Arr.ofList [3, 5]) le_rfl (pair_shape _ _) (pair_shape _ _)
  (by intro i; rw [pair_toVec]; fin_cases i <;> norm_num)
example := C17_parallel_central_keeps_slab disc g 0 (1 / 2) disc_valid g_shape g_ne (by norm_num)
example := C19_q_sound disc g (1 / 2) disc_valid g_shape g_ne (by rw [disc_tau]; norm_num)
example := C19_q_parallel_sound disc g (1 / 2) 1 disc_valid g_shape g_ne (by norm_num) (by rw [disc_tau]; norm_num) (by rw [disc_tau]; norm_num)
example := C27_fast_eq_old (tsq := 4) (β0 := 1 / 2) (β1 := 1) 2 (by norm_num) (by norm_num) (by norm_num) (by norm_num)
example := C27_parallel_at_tau_eq_single (τ := 2) (β0 := 1 / 2) 2 (by norm_num) (by norm_num) (by norm_num) (by norm_num)
example := C53_inactive_cut_reported_noSoln disc g (-3) disc_valid g_shape (by rw [disc_tau]; norm_num)
example := C53_shallow_cut_loses_points disc g (-3 / 2) disc_valid g_shape g_ne (by rw [disc_tau]; norm_num) (by rw [disc_tau]; norm_num)
example := C53_shallow_cut_partial disc g (-1 / 2) disc_valid g_shape g_ne (by norm_num)
example := C26_parallel_far_is_single (α := ℝ) .bias g 1 3 (by simp) (by simp) (by simp)

/-- a central update of the disc succeeds and leaves a symmetric matrix -/
example : ∃ e', Ell.space.update .central disc (g, (⟨0, some (1 / 2)⟩ : ParallelCut ℝ)) = .ok (.success, e') ∧ e'.mq.Symm 2 := by
  obtain ⟨e', h, -⟩ := C17_parallel_central_keeps_slab disc g 0 (1 / 2) disc_valid g_shape g_ne (by norm_num)
  exact ⟨e', h, C10_symmetric_after_success 2 .central disc e' _ (by norm_num) disc_valid.shaped g_shape h⟩

end Spaces

section Numeric

example := C29_factorize_iff_posDef (m := LDLTMgr.new 2) (mat := ExCg.a2) (LDLTMgr.ready_new 2) ExCg.a2_shape
  (by rw [ExCg.a2_mat]; ext i j; fin_cases i <;> fin_cases j <;> rfl)
example := C39_no_wrong_answer_partial (a := ExCg.a2) (b := Arr.new 2) (x0 := none) (tol := 1 / 1000) (maxIter := 10) (by norm_num)
  ExCg.a2_shape (isVec_new 2).shape (fun y h => by simp at h) (by rw [Option.getD_none, rv_new.2, mulVec_zero])
example (opts : Options ℝ) := C40_power_iteration4 (opts := opts) ExPow.a2_shape ExPow.x2_shape fun k _ => ExPow.a2_powers k
example (opts : Options ℝ) := C40_power_iteration2 (opts := opts) ExPow.a2_shape ExPow.x2_shape fun k _ => ExPow.a2_powers k
example (opts : Options ℝ) := C40_power_iteration3_partial (opts := opts) ExPow.a2_shape ExPow.x2_shape fun k _ => ExPow.a2_powers k
example := C43_get_after_set 2 2 ExCg.a2 ExCg.a2_shape 1 0 (by norm_num) (by norm_num) 7
example := C43_row 2 2 (by norm_num) ExCg.a2 ExCg.a2_shape 1 (by norm_num)
example := C58_example1_agree 1 (by norm_num) (by norm_num) (Arr.ofList [3, 5]) (pair_shape _ _) 2

example := C76_power_defined (n := 2) (by norm_num) ExPow.a2 ExPow.x2 ExPow.a2_shape (by rw [ExPow.a2_mat, det_fin_two_of]; norm_num)
  ExPow.x2_shape (by simpa using ExPow.a2_powers 0) ⟨100, 1 / 1000⟩

end Numeric

section Runs
open ExR

example := C67_scaled_cut_single disc_valid.shaped disc_valid.symm (by norm_num) disc_valid.helper .bias g (Arr.ofList [6 / 5, 8 / 5]) (1 / 2)
  g_shape (pair_shape _ _) (s := 2) (by norm_num) (by rw [pair_toVec, g_vec]; ext i; fin_cases i <;> norm_num)
example := C67_scaled_cut_parallel disc_valid.shaped disc_valid.symm (by norm_num) disc_valid.helper .q g (Arr.ofList [6 / 5, 8 / 5]) (1 / 2)
  (some 1) g_shape (pair_shape _ _) (s := 2) (by norm_num) (by rw [pair_toVec, g_vec]; ext i; fin_cases i <;> norm_num)
example := C72_example1_rr (-1) (by norm_num) (by norm_num) (γ := -100) (by norm_num) ⟨2000, 1 / 10 ^ 20⟩ (by norm_num) (by norm_num)
example := C72_example4 (-1) (by norm_num) (by norm_num) (-100) ⟨2000, 1 / 10 ^ 20⟩ (by norm_num) (by norm_num)
example := C73_ill_conditioned_test (10 ^ 6) (by norm_num) (by norm_num) 100 (by norm_num)
example := C78_example1 (γ := -100) (by norm_num) ⟨2000, 1 / 10 ^ 20⟩ (by norm_num) (by norm_num) (by norm_num)
example := C90_tests_count (xc := Arr.ofList [1, 2]) (pair_shape _ _) 5 (opts := ⟨2000, 1 / 10 ^ 20⟩) (by norm_num) (by norm_num)
example := C92_bias_kappa disc_valid rfl g 1 g_shape g_ne
example := C91_bsearch_adaptor (e := disc) disc_valid.shaped (by rw [disc_c]; norm_num [cptHalf]) (inner := ⟨20, 1 / 1000⟩) (by norm_num) (l := 0) (u := 1)
  (by norm_num) ⟨20, 1 / 1000⟩

end Runs

end Ellalgo
