import Verif.Props.PortfolioProps
import Verif.Props.Converge
import Verif.Props.Solve

/-! C75: the portfolio example is solved unless it stops early, which the caller can tell from `tsq() == 0`. -/

namespace Ellalgo
open Matrix Finset

variable {n : Nat} {p : Portfolio ℝ} {r : Fin n → ℝ} {R : Matrix (Fin n) (Fin n) ℝ}

theorem portfolio_goal_loop (hn : 0 < n) (hp : p.Data n r R) (hR : ∀ v : Fin n → ℝ, 0 ≤ v ⬝ᵥ (R *ᵥ v)) {c : Fin n → ℝ} {ρ lam G : ℝ}
    (hρ : 0 < ρ) (hr : r ≠ 0) (hK : ∀ y ∈ ball c ρ, p.Feasible R y ∧ -(r ⬝ᵥ y) ≤ G)
    (hlam : c ⬝ᵥ (R *ᵥ c) + lam ≤ p.maxRisk) (hl0 : 0 ≤ lam) {tol : ℝ} (ht0 : 0 < tol) (ht1 : tol ≤ ρ ^ 2 * n)
    (ht2 : tol ≤ ρ ^ 2 * normSq r) (ht3 : tol ≤ lam ^ 2) (m : Nat) :
    ∀ (n0 : Nat) (xb : Option (Arr ℝ)) (e : Ell ℝ) (γ : ℝ), e.Valid n → ball c ρ ⊆ e.region n → iterBound n e ρ < m →
      ∃ xb' k γ' e', optimLoop Portfolio.oracle Ell.space tol m n0 xb p e γ = .ok ((xb', k), γ', p, e') ∧
        (γ' ≤ G ∨ e'.tsq = 0) := by
  induction m with
  | zero =>
    intro n0 xb e γ he hb hit
    have := iterBound_nonneg he hρ hb
    simp only [Nat.cast_zero] at hit
    linarith
  | succ m ih =>
    intro n0 xb e γ he hb hit
    have hcb : c ∈ ball c ρ := by
      show normSq (c - c) ≤ ρ ^ 2
      simp [normSq]; positivity
    obtain ⟨g, b, s, γ1, q1, q2, q3, q4, q5, q6, q7, q8, q9, q10⟩ := C75_answers hp he.shaped.2 γ
    have q1' : Portfolio.oracle.assess p (Ell.space (T := SingleCut ℝ).xc e) γ = .ok (((g, ⟨b⟩), s), γ1, p) := q1
    by_cases hγ : γ1 ≤ G
    · -- the goal is met; `γ` never increases
      obtain ⟨st, e1, hu, hsh1⟩ : ∃ st e1, (if s then Ell.space.updateCentral e (g, (⟨b⟩ : SingleCut ℝ))
          else Ell.space.updateBias e (g, (⟨b⟩ : SingleCut ℝ))) = .ok (st, e1) ∧ e1.Shaped n := by
        cases s
        · obtain ⟨st, e1, h1, h2, _⟩ := Ell.update_shape hn .bias e (g, (⟨b⟩ : SingleCut ℝ)) he.shaped q2
          exact ⟨st, e1, h1, h2⟩
        · obtain ⟨st, e1, h1, h2, _⟩ := Ell.update_shape hn .central e (g, (⟨b⟩ : SingleCut ℝ)) he.shaped q2
          exact ⟨st, e1, h1, h2⟩
      unfold optimLoop
      simp only [q1', Res.ok_bind, hu]
      split
      · exact ⟨_, _, _, _, rfl, Or.inl hγ⟩
      · obtain ⟨xb', k, γ', e', h1, h2⟩ := portfolio_mono hn hp (tol := tol) m (n0 + 1)
          (if s = true then some (Ell.space (T := SingleCut ℝ).xc e) else xb) e1 γ1 hsh1
        exact ⟨xb', k, γ', e', h1, Or.inl (h2.trans hγ)⟩
    rw [not_le] at hγ
    by_cases hstop : s = false ∧ p.Feasible R (e.xc.toVec n)
    · obtain ⟨e', h1, h2⟩ := portfolio_stop hp hn he.shaped he.symm hstop.2 (γ := γ)
        (by
          by_contra hc
          have := q4.2 ⟨hstop.2, not_le.1 hc⟩
          rw [hstop.1] at this; simp at this) ht0 m n0 xb
      exact ⟨_, _, _, _, h1, Or.inr h2⟩
    -- a cut that keeps the ball
    obtain ⟨kd, hkd, hlo, hsat, hg, hlong⟩ : ∃ kd : UpdateKind, (kd = if s then .central else .bias) ∧
        0 ≤ kd.lo (Cut.lo (⟨b⟩ : SingleCut ℝ)) ∧
        (∀ y ∈ ball c ρ, Cut.Sat kd (⟨b⟩ : SingleCut ℝ) (g.toVec n ⬝ᵥ (y - e.c n))) ∧ g.toVec n ≠ 0 ∧
        (tol ≤ ρ ^ 2 * normSq (g.toVec n) ∨ tol ≤ (g.toVec n ⬝ᵥ (c - e.c n)) ^ 2) := by
      cases hs : s with
      | true =>
        obtain ⟨hg, rfl⟩ := q6 hs
        have hγ1 : γ1 = -(r ⬝ᵥ e.c n) := by rw [q5, hs]; rfl
        refine ⟨.central, rfl, by simp, ?_, by rw [hg]; exact neg_ne_zero.2 hr, Or.inl ?_⟩
        · intro y hy
          refine ⟨?_, by intro b hb; cases hb⟩
          rw [hg, neg_dotProduct, dotProduct_sub]
          simp only [UpdateKind.lo_central, add_zero]
          linarith [(hK y hy).2]
        · rw [hg, normSq, neg_dotProduct_neg]; exact ht2
      | false =>
        have hnf : ¬ p.Feasible R (e.xc.toVec n) := fun h => hstop ⟨hs, h⟩
        have hkeep := q8 hs hR
        refine ⟨.bias, rfl, by simpa using q3, ?_, ?_⟩
        · intro y hy
          refine ⟨?_, by intro b hb; cases hb⟩
          simpa using (show g.toVec n ⬝ᵥ (y - e.c n) + b ≤ 0 from hkeep y (hK y hy).1)
        by_cases hbud : p.budget < ∑ i, e.xc.toVec n i
        · obtain ⟨hg, -⟩ := q10 hs hbud
          have hgn : normSq (g.toVec n) = n := by rw [hg]; simp [normSq, dotProduct]
          refine ⟨?_, Or.inl (by rw [hgn]; exact ht1)⟩
          intro h0
          rw [h0] at hgn
          simp only [normSq, dotProduct_zero] at hgn
          have : (0 : ℝ) < n := by exact_mod_cast hn
          linarith
        · rw [not_lt] at hbud
          have hrisk : p.maxRisk < e.xc.toVec n ⬝ᵥ (R *ᵥ e.xc.toVec n) := by
            by_contra hc
            exact hnf ⟨hbud, not_lt.1 hc⟩
          obtain ⟨hg, hb⟩ := q9 hs hbud hrisk
          have hmargin : g.toVec n ⬝ᵥ (c - e.c n) < -lam := by
            have h1 := hR (c - e.c n)
            have e0 : e.c n = e.xc.toVec n := rfl
            rw [e0] at h1 ⊢
            generalize e.xc.toVec n = v at *
            rw [mulVec_sub, dotProduct_sub, sub_dotProduct, sub_dotProduct] at h1
            rw [hg, add_mulVec, add_dotProduct, dotProduct_sub, dotProduct_sub]
            have e1 : (Rᵀ *ᵥ v) ⬝ᵥ c = v ⬝ᵥ (R *ᵥ c) := by rw [mulVec_transpose, dotProduct_mulVec]
            have e2 : (Rᵀ *ᵥ v) ⬝ᵥ v = v ⬝ᵥ (R *ᵥ v) := by rw [mulVec_transpose, dotProduct_mulVec]
            have e3 : (R *ᵥ v) ⬝ᵥ c = c ⬝ᵥ (R *ᵥ v) := dotProduct_comm _ _
            have e4 : (R *ᵥ v) ⬝ᵥ v = v ⬝ᵥ (R *ᵥ v) := dotProduct_comm _ _
            rw [e1, e2, e3, e4]
            linarith
          refine ⟨?_, Or.inr (ht3.trans (by nlinarith))⟩
          intro h0
          rw [h0, zero_dotProduct] at hmargin
          linarith
    obtain ⟨e1, hu, hv, hb', hvol, htsq, hball⟩ := Ell.step_ball he kd (g, (⟨b⟩ : SingleCut ℝ)) q2 hg hlo hρ hb hsat
    have hu' : (if s then Ell.space.updateCentral e (g, (⟨b⟩ : SingleCut ℝ))
        else Ell.space.updateBias e (g, (⟨b⟩ : SingleCut ℝ))) = .ok (.success, e1) := by
      rw [← hu, hkd]
      cases s <;> rfl
    have hle : tol ≤ e1.tsq := by
      rcases hlong with h | h
      · exact h.trans hball
      · rw [htsq]; exact h.trans (dot_sq_le he.posDef (hb hcb) (g.toVec n))
    have hlt : Scalar.lt (Ell.space (T := SingleCut ℝ).tsq e1) tol = false := by
      show Scalar.lt e1.tsq tol = false
      rw [Scalar.real_lt]
      simpa using hle
    have hstep := iterBound_step he hv hρ hvol
    unfold optimLoop
    simp only [q1', Res.ok_bind, hu', hlt]
    exact ih _ _ e1 γ1 hv hb' (by push_cast at hit; linarith)

/-- **C75** The portfolio example, up to its early stop.  Let the risk matrix satisfy `vᵀRv ≥ 0`, and let the initial ellipsoid
contain a ball of radius `ρ` of feasible portfolios of return at least `G`, with risk at most `maxRisk - λ` at its centre.  With
more than `(n+1) ln(det(κM)/ρ^(2n))` iterations and a positive tolerance of at most `nρ²`, `ρ²|r|²` and `λ²`, the run returns a
feasible portfolio of return at least `G`, or it has stopped early at a feasible portfolio that was no improvement; this can be
seen from `tsq() == 0`.  (Missing: without the last clause the claim is false, see `C75_example_returns_zero`.) -/
theorem C75_near_optimal_partial (hp : p.Data n r R) (hR : ∀ v : Fin n → ℝ, 0 ≤ v ⬝ᵥ (R *ᵥ v)) {c : Fin n → ℝ} {ρ lam G : ℝ}
    (hρ : 0 < ρ) (hr : r ≠ 0) (hK : ∀ y ∈ ball c ρ, p.Feasible R y ∧ G ≤ r ⬝ᵥ y)
    (hlam : c ⬝ᵥ (R *ᵥ c) + lam ≤ p.maxRisk) (hl0 : 0 ≤ lam) {e : Ell ℝ} (he : e.Valid n) (hE : ball c ρ ⊆ e.region n)
    {γ : ℝ} (hγ : -G < γ) {opts : Options ℝ} (ht0 : 0 < opts.tolerance) (ht1 : opts.tolerance ≤ ρ ^ 2 * n)
    (ht2 : opts.tolerance ≤ ρ ^ 2 * normSq r) (ht3 : opts.tolerance ≤ lam ^ 2)
    (hit : ((n : ℝ) + 1) * Real.log ((e.kappa • e.M n).det / (ρ ^ 2) ^ n) < opts.maxIters) :
    ∃ xb k γ' e', cuttingPlaneOptim Portfolio.oracle Ell.space p e γ opts = .ok ((xb, k), γ', p, e') ∧
      (e'.tsq = 0 ∨ ∃ x, xb = some x ∧ x.IsVecShape n ∧ p.Feasible R (x.toVec n) ∧ γ' = -(r ⬝ᵥ x.toVec n) ∧
        G ≤ r ⬝ᵥ x.toVec n) := by
  obtain ⟨xb, k, γ', e', h1, h2⟩ := portfolio_goal_loop he.pos hp hR hρ hr (G := -G)
    (fun y hy => ⟨(hK y hy).1, neg_le_neg (hK y hy).2⟩) hlam hl0 ht0 ht1 ht2 ht3 opts.maxIters 0 none e γ he hE hit
  obtain ⟨xb2, k2, γ2, e2, j1, -, j3⟩ := C75_run_safe he.pos hp he.shaped γ opts
  have h1' : cuttingPlaneOptim Portfolio.oracle Ell.space p e γ opts = _ := h1
  rw [h1'] at j1
  simp only [Res.ok.injEq, Prod.mk.injEq, true_and] at j1
  obtain ⟨⟨rfl, rfl⟩, rfl, rfl⟩ := j1
  refine ⟨_, _, _, _, h1', ?_⟩
  rcases h2 with h2 | h2
  · right
    rcases j3 with ⟨-, hc⟩ | ⟨x, x1, x2, x3, x4⟩
    · linarith
    · exact ⟨x, x1, x2, x3, x4, by linarith⟩
  · exact Or.inl h2

/-- the hypotheses of `C75_near_optimal_partial` are met by a two-asset problem with returns `(1, 0)`, identity risk matrix and
limits 1: all portfolios within 1/8 of `(1/4, 0)` are feasible and return at least 1/8 -/
example : ∃ (p : Portfolio ℝ) (e : Ell ℝ) (r c : Fin 2 → ℝ) (opts : Options ℝ), p.Data 2 r 1 ∧
    (∀ v : Fin 2 → ℝ, 0 ≤ v ⬝ᵥ ((1 : Matrix (Fin 2) (Fin 2) ℝ) *ᵥ v)) ∧ r ≠ 0 ∧
    (∀ y ∈ ball c (1 / 8), p.Feasible 1 y ∧ 1 / 8 ≤ r ⬝ᵥ y) ∧
    c ⬝ᵥ ((1 : Matrix (Fin 2) (Fin 2) ℝ) *ᵥ c) + 1 / 2 ≤ p.maxRisk ∧ e.Valid 2 ∧ ball c (1 / 8) ⊆ e.region 2 ∧
    0 < opts.tolerance ∧ opts.tolerance ≤ (1 / 8) ^ 2 * (2 : ℕ) ∧ opts.tolerance ≤ (1 / 8) ^ 2 * normSq r ∧
    opts.tolerance ≤ (1 / 2) ^ 2 ∧
    (((2 : ℕ) : ℝ) + 1) * Real.log ((e.kappa • e.M 2).det / ((1 / 8) ^ 2) ^ 2) < opts.maxIters := by
  obtain ⟨e, h1, h2, hM, hκ, hxc, hd, hreg⟩ := scalar_parts (n := 2) 1 (Arr.new 2) (by norm_num) rv_new.1 one_pos
  obtain ⟨R, a1, a2⟩ := eye_spec (α := ℝ) 2
  have hR : R.toMat 2 2 = 1 := by
    rw [a2.toMat]
    ext i j
    simp only [of_apply, one_apply, Fin.ext_iff]
  obtain ⟨N, hN⟩ := exists_nat_gt ((((2 : ℕ) : ℝ) + 1) * Real.log ((e.kappa • e.M 2).det / ((1 / 8) ^ 2) ^ 2))
  have key : ∀ y ∈ ball (![1 / 4, 0] : Fin 2 → ℝ) (1 / 8), (y 0 - 1 / 4) ^ 2 + y 1 ^ 2 ≤ 1 / 64 := by
    intro y hy
    have hy' : normSq (y - ![1 / 4, 0]) ≤ (1 / 8) ^ 2 := hy
    simp only [normSq, dotProduct, Fin.sum_univ_two, Pi.sub_apply, cons_val_zero, cons_val_one] at hy'
    nlinarith
  refine ⟨⟨Arr.ofList [1, 0], R, 1, 1⟩, e, ![1, 0], ![1 / 4, 0], ⟨N, 1 / 64⟩, ⟨⟨rfl, rfl, rfl⟩, ?_, a2.shape, hR⟩, ?_, ?_, ?_, ?_, h2, ?_,
    by norm_num, by norm_num, ?_, by norm_num, hN⟩
  · ext i; fin_cases i <;> simp [Arr.toVec, Arr.ofList, Arr.vec]
  · intro v
    rw [one_mulVec]
    exact Finset.sum_nonneg fun i _ => mul_self_nonneg (v i)
  · intro h
    have := congrFun h 0
    simp at this
  · intro y hy
    have hk := key y hy
    refine ⟨⟨?_, ?_⟩, ?_⟩
    · show ∑ i, y i ≤ 1
      rw [Fin.sum_univ_two]
      nlinarith [sq_nonneg (y 0 - 1 / 4 - y 1)]
    · show y ⬝ᵥ (1 *ᵥ y) ≤ 1
      rw [one_mulVec]
      simp only [dotProduct, Fin.sum_univ_two]
      nlinarith
    · simp only [dotProduct, Fin.sum_univ_two, cons_val_zero, cons_val_one]
      nlinarith [sq_nonneg (y 1)]
  · rw [one_mulVec]
    simp only [dotProduct, Fin.sum_univ_two, cons_val_zero, cons_val_one]
    norm_num
  · intro y hy
    have hk := key y hy
    rw [hreg]
    show normSq (y - (Arr.new 2).toVec 2) ≤ 1
    rw [rv_new.2, sub_zero]
    simp only [normSq, dotProduct, Fin.sum_univ_two]
    nlinarith
  · simp [normSq, dotProduct, Fin.sum_univ_two]
    norm_num

end Ellalgo
