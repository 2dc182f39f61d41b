import Verif.Props.Certificates
import Verif.Props.RateExamples
import Verif.Props.ConvergeExamples

/-! C77 applied to the repository's first example, and non-vacuity. -/

namespace Ellalgo
open Matrix

/-- **C77** `example1` from its test's disc: a run that stops before `max_iters` has found the optimal value `3` to within
`8 √tol`, for every tolerance up to `1/4`. -/
theorem C77_example1 {γ : ℝ} (opts : Options ℝ) (ht : 0 < opts.tolerance) (htol : opts.tolerance ≤ 1 / 4)
    {e : Ell ℝ} (he : Ell.newWithScalar (10 : ℝ) (Arr.ofList [0, 0]) = .ok e) {xb k γ' w' e'}
    (h : cuttingPlaneOptim ex1Oracle Ell.space () e γ opts = .ok ((xb, k), γ', w', e')) (hk : k < opts.maxIters) :
    3 - 8 * √opts.tolerance ≤ γ' := by
  obtain ⟨e₀, he₀, hv, hreg, -⟩ := disc10
  obtain rfl : e₀ = e := by simpa [he₀] using he
  have := C77_stop_gap C58_example1 (by norm_num) () e₀ γ trivial hv ex1_concave (p := ![1, -1]) (r := 1 / 2) (V := 4)
    (by norm_num) (fun z hz => (ex1_ball z hz).1) (fun z hz => by rw [hreg]; exact (ex1_ball z hz).2.1)
    (fun x hx _ z hz => by have := (ex1_ball z hz).2.2; have : ex1Obj x ≤ 3 := hx.1; linarith) (by norm_num) opts ht
    (by
      rw [Real.sqrt_le_left (by norm_num)]
      refine htol.trans (by norm_num)) xb k γ' w' e' h hk ![2, 1] ⟨by norm_num, by norm_num⟩ (by rw [hreg]; norm_num)
  norm_num [ex1Obj] at this
  linarith

namespace ExR

/-- Feasibility: with tolerance 5 the search for `y₀ ≥ 3/2` in the disc of radius 2 around (1,1) gives up in its first
iteration although solutions exist; the certificate is that none of them has a ball of radius `√5` around it. -/
example : (∃ w' e', cuttingPlaneFeas (half (3/2)) Ell.space () disc ⟨9, 5⟩ = .ok ((none, 0), w', e')) ∧
    ∀ (p : Fin 2 → ℝ) (r : ℝ), 0 < r → ball p r ⊆ halfK (3/2) ∩ disc.region 2 → r ^ 2 < 5 := by
  have hrun : ∃ w' e', cuttingPlaneFeas (half (3/2)) Ell.space () disc ⟨9, 5⟩ = .ok ((none, 0), w', e') := by
    have hx : disc.xc.toVec 2 0 = 1 := by have := congrFun disc_c 0; simpa [Ell.c] using this
    have htsq : disc.tsqOf 2 (gm.toVec 2) = 4 := by
      rw [Ell.tsqOf, disc_M, one_mulVec]
      have := gm_norm
      rw [normSq] at this
      rw [this]; show (4 : ℝ) * 1 = 4; norm_num
    obtain ⟨st, -, -, -, e', -, h, ht, -⟩ := C12_rank_one_update .bias disc ((gm, ⟨3/2 - 1⟩) : Arr ℝ × SingleCut ℝ)
      disc_valid.pos disc_valid.shaped disc_valid.symm gm_shape
    have h' : Ell.space.updateBias disc ((gm, ⟨3/2 - 1⟩) : Arr ℝ × SingleCut ℝ) = .ok (st, e') := h
    have ht' : e'.tsq = 4 := by rw [ht]; exact htsq
    have hq' : (half (3/2)).assess () (Ell.space (T := SingleCut ℝ).xc disc) = .ok (some (gm, ⟨3/2 - 1⟩), ()) := by
      show (half (3/2)).assess () disc.xc = _
      rw [half]
      simp only [hx]
      rw [if_neg (by norm_num)]
    have hlt : Scalar.lt (Ell.space (T := SingleCut ℝ).tsq e') 5 = true := by
      show Scalar.lt e'.tsq 5 = true
      rw [Scalar.real_lt, ht']; norm_num
    refine ⟨(), e', ?_⟩
    simp only [cuttingPlaneFeas, feasLoop, hq', Res.ok_bind, h', hlt]
    simp
  refine ⟨hrun, fun p r hr hb => ?_⟩
  obtain ⟨w', e', h⟩ := hrun
  have := C77_none_excludes_balls (half (3/2)) _ _ 1 () disc ⟨9, 5⟩ (half_honest _ (by norm_num)) trivial disc_valid 0 w' e' h
    (by norm_num) p r hr hb
  linarith

end ExR
end Ellalgo
