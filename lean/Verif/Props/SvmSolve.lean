import Verif.Props.SvmProps
import Verif.Props.Solve
import Verif.Props.SolveExamples

/-! C63: training a linear classifier with the SVM oracle. -/

namespace Ellalgo
open Matrix

variable {m n : Nat} {X : Matrix (Fin m) (Fin n) ℝ} {y : Fin m → ℤ}

/-- the bias entry of a cut's gradient alone has size at least one when labels are nonzero -/
theorem svm_grad_norm {g : Fin (n + 1) → ℝ} {i : Fin m} (hy : y i ≠ 0) (h : ∀ z, g ⬝ᵥ z = -svmMargin X y z i) :
    1 ≤ normSq g := by
  have h1 := h (Pi.single (Fin.last n) 1)
  simp only [dotProduct_single, mul_one, svmMargin, Pi.single_eq_same] at h1
  have h2 : ∑ j : Fin n, X i j * (Pi.single (Fin.last n) 1 : Fin (n + 1) → ℝ) j.castSucc = 0 := by
    refine Finset.sum_eq_zero fun j _ => ?_
    rw [Pi.single_eq_of_ne (Fin.castSucc_lt_last j).ne, mul_zero]
  rw [h2, zero_add, mul_one] at h1
  have h3 : (1 : ℝ) ≤ (y i : ℝ) ^ 2 := by
    have : (1 : ℤ) ≤ y i ^ 2 := by
      have := sq_nonneg (y i)
      have := pow_ne_zero 2 hy
      omega
    exact_mod_cast this
  have h4 := Finset.single_le_sum (f := fun j => g j * g j) (fun j _ => mul_self_nonneg _) (Finset.mem_univ (Fin.last n))
  rw [normSq, dotProduct]
  refine le_trans ?_ h4
  simp only [h1]
  nlinarith

/-- main induction -/
theorem svm_loop (hy : ∀ i, y i ≠ 0) (o : SvmOracle ℝ) (ho : o.For X y) {p : Fin (n + 1) → ℝ} {r tol : ℝ} (hr : 0 < r)
    (hp : ball p r ⊆ svmSep X y) (ht0 : 0 < tol) (ht : tol ≤ r ^ 2) (N : Nat) :
    ∀ (n0 : Nat) (xb : Option (Arr ℝ)) (e : Ell ℝ) (γ : ℝ), e.Valid (n + 1) → ball p r ⊆ e.region (n + 1) →
      iterBound (n + 1) e r < N →
      ∃ x k e', optimLoop SvmOracle.oracle Ell.space tol N n0 xb o e γ = .ok ((some x, k), 0, o, e') ∧
        x.IsVecShape (n + 1) ∧ x.toVec (n + 1) ∈ svmSep X y := by
  induction N with
  | zero =>
    intro n0 xb e γ he hb hit
    have := iterBound_nonneg he hr hb
    simp only [Nat.cast_zero] at hit
    linarith
  | succ N ih =>
    intro n0 xb e γ he hb hit
    obtain ⟨g, b, γ', h1, h2, h3, h4⟩ := C50_svm o ho e.xc he.shaped.2 γ
    have h1' : SvmOracle.oracle.assess o (Ell.space (T := SingleCut ℝ).xc e) γ = .ok (((g, ⟨b⟩), true), γ', o) := h1
    unfold optimLoop
    simp only [h1', Res.ok_bind]
    by_cases hsep : e.xc.toVec (n + 1) ∈ svmSep X y
    · obtain ⟨rfl, rfl, hg⟩ := h3 hsep
      obtain ⟨st, -, -, -, e1, -, hu, htsq, -⟩ := C12_rank_one_update (n := n + 1) .central e (g, (⟨0⟩ : SingleCut ℝ))
        (Nat.succ_pos n) he.shaped he.symm h2
      have hu' : Ell.space.updateCentral e (g, (⟨0⟩ : SingleCut ℝ)) = .ok (st, e1) := hu
      have htsq0 : e1.tsq = 0 := by
        rw [htsq]
        show e.kappa * (g.toVec (n + 1) ⬝ᵥ (e.M (n + 1) *ᵥ g.toVec (n + 1))) = 0
        rw [hg, zero_dotProduct, mul_zero]
      have hstop : Scalar.lt (Ell.space (T := SingleCut ℝ).tsq e1) tol = true := by
        show Scalar.lt e1.tsq tol = true
        rw [htsq0, Scalar.real_lt]
        simpa using ht0
      simp only [if_true, hu', Res.ok_bind, hstop, Bool.or_true]
      exact ⟨_, _, _, rfl, he.shaped.2, hsep⟩
    · obtain ⟨i, -, -, -, -, hg, hkeep⟩ := h4 hsep
      have hG := svm_grad_norm (hy i) hg
      have hg0 : g.toVec (n + 1) ≠ 0 := by
        intro h
        rw [h] at hG
        simp [normSq] at hG
        linarith
      obtain ⟨e2, hu, hv, hb', hvol, -, htsq⟩ := Ell.step_ball he .central (g, (⟨b⟩ : SingleCut ℝ)) h2 hg0 (by simp) hr hb
        (fun z hz => ⟨by
          have : g.toVec (n + 1) ⬝ᵥ (z - e.c (n + 1)) < 0 := hkeep z (hp hz)
          simpa using this.le, by simp⟩)
      have hu' : Ell.space.updateCentral e (g, (⟨b⟩ : SingleCut ℝ)) = .ok (.success, e2) := hu
      have hgo : Scalar.lt (Ell.space (T := SingleCut ℝ).tsq e2) tol = false := by
        show Scalar.lt e2.tsq tol = false
        rw [Scalar.real_lt]
        have : tol ≤ e2.tsq := ht.trans ((le_mul_of_one_le_right (by positivity) hG).trans htsq)
        simpa using this
      simp only [if_true, hu', Res.ok_bind, hgo, Bool.or_false, bne_self_eq_false, Bool.false_eq_true, if_false]
      have hit' := iterBound_step he hv hr hvol
      exact ih (n0 + 1) _ e2 γ' hv hb' (by push_cast at hit; linarith)

/-- **C63** Labels nonzero, and the initial ellipsoid contains a ball of radius `r` of separating classifiers.  With
`0 < tolerance ≤ r²` and more than `(d+1) ln (vol²/r^{2d})` iterations allowed (`d = n+1` unknowns), `cutting_plane_optim`
returns a classifier whose margins are all at least 1, and the value 0. -/
theorem C63_svm_trained (hy : ∀ i, y i ≠ 0) (o : SvmOracle ℝ) (ho : o.For X y) (e : Ell ℝ) (γ : ℝ) (opts : Options ℝ)
    (he : e.Valid (n + 1)) {p : Fin (n + 1) → ℝ} {r : ℝ} (hr : 0 < r) (hp : ball p r ⊆ svmSep X y)
    (hb : ball p r ⊆ e.region (n + 1)) (ht0 : 0 < opts.tolerance) (ht : opts.tolerance ≤ r ^ 2)
    (hN : ((n : ℝ) + 2) * Real.log ((e.kappa • e.M (n + 1)).det / (r ^ 2) ^ (n + 1)) < opts.maxIters) :
    ∃ x k e', cuttingPlaneOptim SvmOracle.oracle Ell.space o e γ opts = .ok ((some x, k), 0, o, e') ∧
      x.IsVecShape (n + 1) ∧ ∀ i, 1 ≤ svmMargin X y (x.toVec (n + 1)) i := by
  refine svm_loop hy o ho hr hp ht0 ht opts.maxIters 0 none e γ he hb ?_
  have : ((n + 1 : ℕ) : ℝ) + 1 = (n : ℝ) + 2 := by push_cast; ring
  show (((n + 1 : ℕ) : ℝ) + 1) * _ < _
  rw [this]
  exact hN

/-- **C63** For separable data: if the initial ellipsoid has a classifier with all margins above 1 in its interior, some
iteration limit and tolerance suffice. -/
theorem C63_svm_separable (hy : ∀ i, y i ≠ 0) (o : SvmOracle ℝ) (ho : o.For X y) (e : Ell ℝ) (γ : ℝ)
    (he : e.Valid (n + 1)) {z : Fin (n + 1) → ℝ} (hz : z ∈ interior (e.region (n + 1)))
    (hm : ∀ i, 1 < svmMargin X y z i) :
    ∃ (N : Nat) (tol0 : ℝ), 0 < tol0 ∧ ∀ opts : Options ℝ, N ≤ opts.maxIters → 0 < opts.tolerance →
      opts.tolerance ≤ tol0 →
      ∃ x k e', cuttingPlaneOptim SvmOracle.oracle Ell.space o e γ opts = .ok ((some x, k), 0, o, e') ∧
        x.IsVecShape (n + 1) ∧ ∀ i, 1 ≤ svmMargin X y (x.toVec (n + 1)) i := by
  have hopen : {z | ∀ i, 1 < svmMargin X y z i} ∈ nhds z := by
    refine IsOpen.mem_nhds ?_ hm
    have : {z | ∀ i, 1 < svmMargin X y z i} = ⋂ i, {z | 1 < svmMargin X y z i} := by
      ext z; simp [Set.mem_iInter]
    rw [this]
    refine isOpen_iInter_of_finite fun i => ?_
    refine isOpen_lt continuous_const ?_
    unfold svmMargin
    fun_prop
  have hU := Filter.inter_mem hopen (mem_interior_iff_mem_nhds.1 hz)
  obtain ⟨p, r, hr, -, hb⟩ := exists_ball_near (F := Set.univ) convex_univ ⟨0, by simp⟩ (Set.mem_univ z) hU
  refine ⟨Nat.floor (((n : ℝ) + 2) * Real.log ((e.kappa • e.M (n + 1)).det / (r ^ 2) ^ (n + 1))) + 1, r ^ 2,
    by positivity, fun opts hN h0 ht => ?_⟩
  refine C63_svm_trained hy o ho e γ opts he hr (fun w hw i => ((hb hw).1 i).le) (fun w hw => (hb hw).2) h0 ht ?_
  have := Nat.lt_floor_add_one (((n : ℝ) + 2) * Real.log ((e.kappa • e.M (n + 1)).det / (r ^ 2) ^ (n + 1)))
  have hN' : ((Nat.floor (((n : ℝ) + 2) * Real.log ((e.kappa • e.M (n + 1)).det / (r ^ 2) ^ (n + 1))) + 1 : ℕ) : ℝ) ≤
    opts.maxIters := by exact_mod_cast hN
  push_cast at hN'
  linarith

end Ellalgo
