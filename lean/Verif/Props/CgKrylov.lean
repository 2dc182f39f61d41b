import Verif.Lib.KrylovRate
import Verif.Lib.PowerRate
import Verif.Props.ConjGradProps

/-! # Property C80: which point `conjugate_gradient` returns, and how many iterations are enough -/

namespace Ellalgo
open Matrix

variable {n : Nat}

/-- the loop from iteration `j`: either the first later iterate with a small residual, or the budget is exhausted -/
theorem cgLoop_first {a : Arr ℝ} {A : Matrix (Fin n) (Fin n) ℝ} (hn : 0 < n) (ha : RM a A) (hA : A.IsSymm)
    (hpos : ∀ v : Fin n → ℝ, v ≠ 0 → 0 < v ⬝ᵥ (A *ᵥ v)) {s : CgSt n} (hs : s.p = s.r) {tol : ℝ} (htol : 0 < tol)
    (k j : Nat) {x r p : Arr ℝ} (hx : RV x (cgIter A s j).x) (hr : RV r (cgIter A s j).r)
    (hp : RV p (cgIter A s j).p) (hne : ∀ i ≤ j, (cgIter A s i).r ≠ 0) :
    (∃ xf m, j < m ∧ m ≤ j + k ∧ RV xf (cgIter A s m).x ∧
      cgLoop a n tol k x r p ((cgIter A s j).r ⬝ᵥ (cgIter A s j).r) = .ok (.ok xf) ∧
      √((cgIter A s m).r ⬝ᵥ (cgIter A s m).r) < tol ∧
      ∀ i, j < i → i < m → tol ≤ √((cgIter A s i).r ⬝ᵥ (cgIter A s i).r)) ∨
    (cgLoop a n tol k x r p ((cgIter A s j).r ⬝ᵥ (cgIter A s j).r) = .ok (.error .maxIters) ∧
      ∀ i, j < i → i ≤ j + k → tol ≤ √((cgIter A s i).r ⬝ᵥ (cgIter A s i).r)) := by
  induction k generalizing j x r p with
  | zero => exact Or.inr ⟨rfl, fun i h1 h2 => by omega⟩
  | succ k ih =>
    rcases cgLoop_step hn ha hx hr hp tol k with ⟨h0, -⟩ | ⟨-, x', r', p', hx', hr', hp', h⟩
    · exact absurd h0 (dir_pos hA hpos hs hne).ne'
    · change RV x' (cgIter A s (j + 1)).x at hx'
      change RV r' (cgIter A s (j + 1)).r at hr'
      change RV p' (cgIter A s (j + 1)).p at hp'
      change _ = if √((cgIter A s (j + 1)).r ⬝ᵥ (cgIter A s (j + 1)).r) < tol then Res.ok (.ok x') else
        cgLoop a n tol k x' r' p' ((cgIter A s (j + 1)).r ⬝ᵥ (cgIter A s (j + 1)).r) at h
      rw [h]
      split
      · rename_i hlt
        exact Or.inl ⟨x', j + 1, by omega, by omega, hx', rfl, hlt, fun i h1 h2 => by omega⟩
      · rename_i hge
        have hge' := not_lt.mp hge
        have hne' : ∀ i ≤ j + 1, (cgIter A s i).r ≠ 0 := by
          intro i hi
          rcases Nat.lt_or_ge i (j + 1) with h1 | h1
          · exact hne i (by omega)
          · obtain rfl : i = j + 1 := by omega
            intro h0
            rw [h0, dotProduct_zero, Real.sqrt_zero] at hge'
            linarith
        rcases ih (j + 1) hx' hr' hp' hne' with ⟨xf, m, h1, h2, h3, h4, h5, h6⟩ | ⟨h1, h2⟩
        · refine Or.inl ⟨xf, m, by omega, by omega, h3, h4, h5, fun i hi1 hi2 => ?_⟩
          rcases Nat.lt_or_ge (j + 1) i with h7 | h7
          · exact h6 i h7 hi2
          · obtain rfl : i = j + 1 := by omega
            exact hge'
        · refine Or.inr ⟨h1, fun i hi1 hi2 => ?_⟩
          rcases Nat.lt_or_ge (j + 1) i with h7 | h7
          · exact h2 i h7 (by omega)
          · obtain rfl : i = j + 1 := by omega
            exact hge'

section
variable {a b : Arr ℝ} {x0 : Option (Arr ℝ)} {tol : ℝ} {maxIter : Nat}
  (ha : a.IsMatShape n n) (hb : b.IsVecShape n) (hx0 : ∀ y, x0 = some y → y.IsVecShape n)
  (hpd : (a.toMat n n).PosDef) (htol : 0 < tol)
  (hstart : a.toMat n n *ᵥ (x0.getD (Arr.new n)).toVec n ≠ b.toVec n)

theorem symm_of_posDef {A : Matrix (Fin n) (Fin n) ℝ} (h : A.PosDef) : A.IsSymm := by
  have := h.1
  rw [IsHermitian, conjTranspose_eq_transpose_of_trivial] at this
  exact this

theorem pos_of_posDef {A : Matrix (Fin n) (Fin n) ℝ} (h : A.PosDef) (v : Fin n → ℝ) (hv : v ≠ 0) :
    0 < v ⬝ᵥ (A *ᵥ v) := by
  have := h.dotProduct_mulVec_pos hv
  simpa only [star_trivial] using this

include ha hb hx0 hpd htol hstart

/-- the outcome in terms of the recursion -/
theorem cg_outcome :
    let A := a.toMat n n
    let s := cgStart A (b.toVec n) ((x0.getD (Arr.new n)).toVec n)
    (∃ xf m, 1 ≤ m ∧ m ≤ maxIter ∧ RV xf (cgIter A s m).x ∧ conjugateGradient a b x0 tol maxIter = .ok (.ok xf) ∧
      KrylovBest A (b.toVec n) ((x0.getD (Arr.new n)).toVec n) m (cgIter A s m).x ∧
      resNorm A (b.toVec n) (cgIter A s m).x < tol ∧
      ∀ i y, 1 ≤ i → i < m → KrylovBest A (b.toVec n) ((x0.getD (Arr.new n)).toVec n) i y →
        tol ≤ resNorm A (b.toVec n) y) ∨
    (conjugateGradient a b x0 tol maxIter = .ok (.error .maxIters) ∧
      ∀ i y, 1 ≤ i → i ≤ maxIter → KrylovBest A (b.toVec n) ((x0.getD (Arr.new n)).toVec n) i y →
        tol ≤ resNorm A (b.toVec n) y) := by
  intro A s
  have hn : 0 < n := by
    rcases Nat.eq_zero_or_pos n with h | h
    · subst h; exact absurd (Subsingleton.elim _ _) hstart
    · exact h
  have hsym := symm_of_posDef hpd
  have hpos := pos_of_posDef hpd
  have hsh : (x0.getD (Arr.new n)).IsVecShape n := by
    cases x0 with
    | none => exact (isVec_new n).shape
    | some y => exact hx0 y rfl
  obtain ⟨r, hr, he⟩ := cg_entry (A := A) (xv := (x0.getD (Arr.new n)).toVec n) hn ⟨ha, rfl⟩
    (⟨hb, rfl⟩ : RV b (b.toVec n)) ⟨hsh, rfl⟩ tol maxIter
  have hr0 : s.r ≠ 0 := fun h => hstart (sub_eq_zero.mp h).symm
  have hnorm : ∀ i, √((cgIter A s i).r ⬝ᵥ (cgIter A s i).r) = resNorm A (b.toVec n) (cgIter A s i).x := by
    intro i
    rw [resNorm, cgIter_res]
  -- iterates up to `m` have non-zero residuals, hence are the best points
  have hbest : ∀ m, (∀ i, 0 < i → i < m → tol ≤ √((cgIter A s i).r ⬝ᵥ (cgIter A s i).r)) →
      KrylovBest A (b.toVec n) ((x0.getD (Arr.new n)).toVec n) m (cgIter A s m).x := by
    intro m hm
    refine cg_best hsym hpos _ _ m fun i hi => ?_
    rcases Nat.eq_zero_or_pos i with rfl | h0
    · exact hr0
    · intro h
      have := hm i h0 hi
      change (cgIter A s i).r = 0 at h
      rw [h, dotProduct_zero, Real.sqrt_zero] at this
      linarith
  have hlow : ∀ M, (∀ i, 0 < i → i < M → tol ≤ √((cgIter A s i).r ⬝ᵥ (cgIter A s i).r)) →
      ∀ i y, 1 ≤ i → i < M → KrylovBest A (b.toVec n) ((x0.getD (Arr.new n)).toVec n) i y →
        tol ≤ resNorm A (b.toVec n) y := by
    intro M hM i y h1 h2 hy
    have := hbest i fun j hj1 hj2 => hM j hj1 (by omega)
    rw [best_unique hsym hpos hy this, ← hnorm]
    exact hM i h1 h2
  rw [he]
  rcases cgLoop_first hn ⟨ha, rfl⟩ hsym hpos (s := s) rfl htol maxIter 0 (x := x0.getD (Arr.new n)) (r := r) (p := r)
    ⟨hsh, rfl⟩ hr hr (fun i hi => by obtain rfl : i = 0 := by omega
                                     exact hr0) with ⟨xf, m, h1, h2, h3, h4, h5, h6⟩ | ⟨h1, h2⟩
  · exact Or.inl ⟨xf, m, h1, by omega, h3, h4, hbest m h6, hnorm m ▸ h5, hlow m h6⟩
  · exact Or.inr ⟨h1, fun i y hi1 hi2 hy => hlow (maxIter + 1) (fun i h3 h4 => h2 i h3 (by omega)) i y hi1 (by omega) hy⟩

/-- **C80** (which point).  For a symmetric positive definite matrix, `conjugate_gradient` returns `Ok(x)` exactly if
`x` is, for some `k ≤ max_iter`, the point of least energy among all points that differ from the start by a combination
of `r, A r, …, A^(k-1) r`, its residual is below `tol`, and for no smaller `k ≥ 1` the corresponding point has a residual
below `tol`. -/
theorem C80_ok_iff (x : Arr ℝ) :
    conjugateGradient a b x0 tol maxIter = .ok (.ok x) ↔
    x.IsVecShape n ∧ ∃ k, 1 ≤ k ∧ k ≤ maxIter ∧
      KrylovBest (a.toMat n n) (b.toVec n) ((x0.getD (Arr.new n)).toVec n) k (x.toVec n) ∧
      resNorm (a.toMat n n) (b.toVec n) (x.toVec n) < tol ∧
      ∀ j y, 1 ≤ j → j < k → KrylovBest (a.toMat n n) (b.toVec n) ((x0.getD (Arr.new n)).toVec n) j y →
        tol ≤ resNorm (a.toMat n n) (b.toVec n) y := by
  have hsym := symm_of_posDef hpd
  have hpos := pos_of_posDef hpd
  rcases cg_outcome (maxIter := maxIter) ha hb hx0 hpd htol hstart with
    ⟨xf, m, h1, h2, h3, h4, h5, h6, h7⟩ | ⟨h1, h2⟩
  · rw [h4]
    constructor
    · intro h
      simp only [Res.ok.injEq, Except.ok.injEq] at h
      subst h
      rw [h3.2]
      exact ⟨h3.1, m, h1, h2, h5, h6, h7⟩
    · rintro ⟨hs, k, k1, k2, k3, k4, k5⟩
      obtain rfl : k = m := by
        rcases lt_trichotomy k m with h | h | h
        · exact absurd k4 (not_lt.mpr (h7 k _ k1 h k3))
        · exact h
        · exact absurd h6 (not_lt.mpr (k5 m _ h1 h h5))
      have : xf = x := h3.unique ⟨hs, best_unique hsym hpos k3 h5⟩
      rw [this]
  · rw [h1]
    constructor
    · intro h; simp at h
    · rintro ⟨hs, k, k1, k2, k3, k4, k5⟩
      exact absurd k4 (not_lt.mpr (h2 k _ k1 k2 k3))

/-- **C80** (failure).  The only error for a symmetric positive definite matrix and an inexact start is the exhausted
budget, and it is reported exactly if none of the best points for `k = 1, …, max_iter` has a residual below `tol`. -/
theorem C80_error_iff (e : CgErr) :
    conjugateGradient a b x0 tol maxIter = .ok (.error e) ↔
    e = .maxIters ∧ ∀ j y, 1 ≤ j → j ≤ maxIter →
      KrylovBest (a.toMat n n) (b.toVec n) ((x0.getD (Arr.new n)).toVec n) j y →
        tol ≤ resNorm (a.toMat n n) (b.toVec n) y := by
  rcases cg_outcome (maxIter := maxIter) ha hb hx0 hpd htol hstart with
    ⟨xf, m, h1, h2, h3, h4, h5, h6, h7⟩ | ⟨h1, h2⟩
  · rw [h4]
    constructor
    · intro h; simp at h
    · rintro ⟨-, h⟩
      exact absurd h6 (not_lt.mpr (h m _ h1 h2 h5))
  · rw [h1]
    constructor
    · intro h
      simp only [Res.ok.injEq, Except.error.injEq] at h
      exact ⟨h.symm, h2⟩
    · rintro ⟨rfl, -⟩
      rfl

/-- if every best point for `k = max_iter` has a small residual, the method succeeds -/
theorem cg_ok_of_small (hm : 1 ≤ maxIter)
    (h : ∀ y, KrylovBest (a.toMat n n) (b.toVec n) ((x0.getD (Arr.new n)).toVec n) maxIter y →
      resNorm (a.toMat n n) (b.toVec n) y < tol) :
    ∃ x, conjugateGradient a b x0 tol maxIter = .ok (.ok x) := by
  have hsym := symm_of_posDef hpd
  have hpos := pos_of_posDef hpd
  rcases cg_outcome (maxIter := maxIter) ha hb hx0 hpd htol hstart with ⟨xf, m, -, -, -, h4, -⟩ | ⟨h1, h2⟩
  · exact ⟨xf, h4⟩
  · exfalso
    have hne : ∀ i < maxIter, (cgIter (a.toMat n n) (cgStart (a.toMat n n) (b.toVec n)
        ((x0.getD (Arr.new n)).toVec n)) i).r ≠ 0 := by
      intro i
      induction i using Nat.strong_induction_on with
      | _ i ih =>
        intro hi h0
        rcases Nat.eq_zero_or_pos i with rfl | hp
        · exact hstart (sub_eq_zero.mp h0).symm
        · have := h2 i _ hp hi.le (cg_best hsym hpos _ _ i fun j hj => ih j hj (by omega))
          rw [resNorm, ← cgIter_res, h0, dotProduct_zero, Real.sqrt_zero] at this
          linarith
    have hb' := cg_best hsym hpos _ _ maxIter hne
    exact absurd (h _ hb') (not_lt.mpr (h2 maxIter _ hm le_rfl hb'))
end

/-! ### Enough iterations -/

section
variable {A : Matrix (Fin n) (Fin n) ℝ} {b : Fin n → ℝ}

theorem res_sq_le (hA : A.PosDef) {hi : ℝ} (hhi : ∀ i, hA.1.eigenvalues i ≤ hi) {x xs : Fin n → ℝ}
    (hxs : A *ᵥ xs = b) : (b - A *ᵥ x) ⬝ᵥ (b - A *ᵥ x) ≤ hi * ((x - xs) ⬝ᵥ (A *ᵥ (x - xs))) := by
  have e : b - A *ᵥ x = -(A *ᵥ (x - xs)) := by rw [mulVec_sub, hxs]; abel
  rw [e, neg_dotProduct, dotProduct_neg, neg_neg, eig_parseval hA.1, eig_quad hA.1, Finset.mul_sum]
  refine Finset.sum_le_sum fun i _ => ?_
  rw [eig_mulVec]
  have h1 := hA.eigenvalues_pos i
  have h2 := mul_le_mul_of_nonneg_right (hhi i) (mul_nonneg h1.le (sq_nonneg (eigVec hA.1 i ⬝ᵥ (x - xs))))
  nlinarith

theorem err_le_res (hA : A.PosDef) {lo : ℝ} (hlo : ∀ i, lo ≤ hA.1.eigenvalues i) {x xs : Fin n → ℝ}
    (hxs : A *ᵥ xs = b) : lo * ((x - xs) ⬝ᵥ (A *ᵥ (x - xs))) ≤ (b - A *ᵥ x) ⬝ᵥ (b - A *ᵥ x) := by
  have e : b - A *ᵥ x = -(A *ᵥ (x - xs)) := by rw [mulVec_sub, hxs]; abel
  rw [e, neg_dotProduct, dotProduct_neg, neg_neg, eig_parseval hA.1 (A *ᵥ (x - xs)), eig_quad hA.1, Finset.mul_sum]
  refine Finset.sum_le_sum fun i _ => ?_
  rw [eig_mulVec]
  have h1 := hA.eigenvalues_pos i
  have h2 := mul_le_mul_of_nonneg_right (hlo i) (mul_nonneg h1.le (sq_nonneg (eigVec hA.1 i ⬝ᵥ (x - xs))))
  nlinarith

theorem exists_soln (hA : A.PosDef) (b : Fin n → ℝ) : ∃ xs, A *ᵥ xs = b := by
  have hu : IsUnit A.det := hA.det_pos.ne'.isUnit
  exact ⟨A⁻¹ *ᵥ b, by rw [mulVec_mulVec, mul_nonsing_inv _ hu, one_mulVec]⟩

theorem eig_bounds (hA : A.IsHermitian) {lo hi : ℝ}
    (hq : ∀ v : Fin n → ℝ, lo * (v ⬝ᵥ v) ≤ v ⬝ᵥ (A *ᵥ v) ∧ v ⬝ᵥ (A *ᵥ v) ≤ hi * (v ⬝ᵥ v)) (i : Fin n) :
    lo ≤ hA.eigenvalues i ∧ hA.eigenvalues i ≤ hi := by
  have h := hq (eigVec hA i)
  have e : A *ᵥ eigVec hA i = hA.eigenvalues i • eigVec hA i := hA.mulVec_eigenvectorBasis i
  rw [e, dotProduct_smul, eigVec_unit, smul_eq_mul, mul_one, mul_one, mul_one] at h
  exact h
end

section
variable {a b : Arr ℝ} {x0 : Option (Arr ℝ)} {tol : ℝ} {maxIter : Nat}
  (ha : a.IsMatShape n n) (hb : b.IsVecShape n) (hx0 : ∀ y, x0 = some y → y.IsVecShape n)
  (hpd : (a.toMat n n).PosDef) (htol : 0 < tol)
  (hstart : a.toMat n n *ᵥ (x0.getD (Arr.new n)).toVec n ≠ b.toVec n)
include ha hb hx0 hpd htol hstart

/-- **C80** (distinct eigenvalues).  As many iterations as the matrix has distinct eigenvalues are enough, whatever the
size of the system. -/
theorem C80_distinct_eigenvalues (hm : (Finset.univ.image hpd.1.eigenvalues).card ≤ maxIter) :
    ∃ x, conjugateGradient a b x0 tol maxIter = .ok (.ok x) := by
  have hn : 0 < n := by
    rcases Nat.eq_zero_or_pos n with h | h
    · subst h; exact absurd (Subsingleton.elim _ _) hstart
    · exact h
  have hm1 : 1 ≤ maxIter := by
    refine le_trans ?_ hm
    exact Finset.card_pos.mpr ⟨_, Finset.mem_image_of_mem _ (Finset.mem_univ ⟨0, hn⟩)⟩
  obtain ⟨q, q1, q2, q3⟩ := exists_vanishing (Finset.univ.image hpd.1.eigenvalues) (by
    intro l hl
    obtain ⟨i, -, rfl⟩ := Finset.mem_image.mp hl
    exact (hpd.eigenvalues_pos i).ne')
  obtain ⟨xs, hxs⟩ := exists_soln hpd (b.toVec n)
  refine cg_ok_of_small ha hb hx0 hpd htol hstart hm1 fun y hy => ?_
  have h := best_poly hpd hm1 hxs hy q (q1.trans hm) q2 (M := 0) fun i => by
    rw [q3 _ (Finset.mem_image_of_mem _ (Finset.mem_univ i)), abs_zero]
  have h2 := res_sq_le hpd (hi := ∑ i, hpd.1.eigenvalues i)
    (fun i => Finset.single_le_sum (f := hpd.1.eigenvalues) (fun j _ => (hpd.eigenvalues_pos j).le) (Finset.mem_univ i))
    (x := y) hxs
  have h3 : 0 ≤ ∑ i, hpd.1.eigenvalues i := Finset.sum_nonneg fun j _ => (hpd.eigenvalues_pos j).le
  have h4 : (b.toVec n - a.toMat n n *ᵥ y) ⬝ᵥ (b.toVec n - a.toMat n n *ᵥ y) ≤ 0 := by nlinarith
  rw [resNorm, Real.sqrt_eq_zero_of_nonpos h4]
  exact htol

/-- **C80** (rate).  If `lo ‖v‖² ≤ vᵀ A v ≤ hi ‖v‖²` with `0 < lo`, and the residual of the start, times
`2 √(hi/lo) ((√hi - √lo) / (√hi + √lo))^max_iter`, is below `tol`, then the method succeeds. -/
theorem C80_rate {lo hi : ℝ} (hlo : 0 < lo) (hm : 1 ≤ maxIter)
    (hq : ∀ v : Fin n → ℝ, lo * (v ⬝ᵥ v) ≤ v ⬝ᵥ (a.toMat n n *ᵥ v) ∧ v ⬝ᵥ (a.toMat n n *ᵥ v) ≤ hi * (v ⬝ᵥ v))
    (hsmall : 2 * √(hi / lo) * ((√hi - √lo) / (√hi + √lo)) ^ maxIter *
      resNorm (a.toMat n n) (b.toVec n) ((x0.getD (Arr.new n)).toVec n) < tol) :
    ∃ x, conjugateGradient a b x0 tol maxIter = .ok (.ok x) := by
  have hn : 0 < n := by
    rcases Nat.eq_zero_or_pos n with h | h
    · subst h; exact absurd (Subsingleton.elim _ _) hstart
    · exact h
  have heig := eig_bounds hpd.1 hq
  have hle : lo ≤ hi := (heig ⟨0, hn⟩).1.trans (heig ⟨0, hn⟩).2
  have hhi : 0 < hi := by linarith
  obtain ⟨q, q1, q2, q3⟩ := exists_chebyshev hlo hle hm
  obtain ⟨xs, hxs⟩ := exists_soln hpd (b.toVec n)
  refine cg_ok_of_small ha hb hx0 hpd htol hstart hm fun y hy => ?_
  set M := 2 * ((√hi - √lo) / (√hi + √lo)) ^ maxIter with hM
  have hM0 : 0 ≤ M := by
    have : 0 ≤ √hi - √lo := sub_nonneg.mpr (Real.sqrt_le_sqrt hle)
    positivity
  have h := best_poly hpd hm hxs hy q q1 q2 (M := M) fun i => q3 _ (heig i).1 (heig i).2
  have h2 := res_sq_le hpd (fun i => (heig i).2) (x := y) hxs
  have h3 := err_le_res hpd (fun i => (heig i).1) (x := (x0.getD (Arr.new n)).toVec n) hxs
  refine lt_of_le_of_lt ?_ hsmall
  set R0 := (b.toVec n - a.toMat n n *ᵥ (x0.getD (Arr.new n)).toVec n) ⬝ᵥ
    (b.toVec n - a.toMat n n *ᵥ (x0.getD (Arr.new n)).toVec n) with hR0
  have hR0n : 0 ≤ R0 := Finset.sum_nonneg fun i _ => mul_self_nonneg _
  have h5 : (b.toVec n - a.toMat n n *ᵥ y) ⬝ᵥ (b.toVec n - a.toMat n n *ᵥ y) ≤ M ^ 2 * (hi / lo) * R0 := by
    have h6 : ((x0.getD (Arr.new n)).toVec n - xs) ⬝ᵥ (a.toMat n n *ᵥ ((x0.getD (Arr.new n)).toVec n - xs)) ≤ R0 / lo := by
      rw [le_div_iff₀ hlo, mul_comm]; exact h3
    calc _ ≤ _ := h2
      _ ≤ hi * (M ^ 2 * (R0 / lo)) := by gcongr; exact h.trans (by gcongr)
      _ = _ := by ring
  rw [resNorm]
  calc _ ≤ √(M ^ 2 * (hi / lo) * R0) := Real.sqrt_le_sqrt h5
    _ = M * √(hi / lo) * √R0 := by
      rw [Real.sqrt_mul (by positivity), Real.sqrt_mul (by positivity), Real.sqrt_sq hM0]
    _ = _ := by rw [resNorm]; ring
end

/-- **C80** (error of the answer).  `Ok(x)` is closer than `tol / lo` to the solution. -/
theorem C80_error_bound {a b : Arr ℝ} {x0 : Option (Arr ℝ)} {x : Arr ℝ} {tol : ℝ} {maxIter : Nat} {xs : Fin n → ℝ}
    (ha : a.IsMatShape n n) (hb : b.IsVecShape n) (hx0 : ∀ y, x0 = some y → y.IsVecShape n) {lo : ℝ} (hlo : 0 < lo)
    (hq : ∀ v : Fin n → ℝ, lo * (v ⬝ᵥ v) ≤ v ⬝ᵥ (a.toMat n n *ᵥ v)) (hxs : a.toMat n n *ᵥ xs = b.toVec n)
    (hok : conjugateGradient a b x0 tol maxIter = .ok (.ok x)) :
    √((x.toVec n - xs) ⬝ᵥ (x.toVec n - xs)) < tol / lo := by
  obtain ⟨-, -, -, h⟩ := C37_ok_small_residual (k := n) ha hb hx0 hok
  rw [lt_div_iff₀ hlo]
  refine lt_of_le_of_lt ?_ h
  set e := x.toVec n - xs with he
  have e1 : b.toVec n - a.toMat n n *ᵥ x.toVec n = -(a.toMat n n *ᵥ e) := by rw [he, mulVec_sub, hxs]; abel
  rw [e1, neg_dotProduct, dotProduct_neg, neg_neg]
  have hee : 0 ≤ e ⬝ᵥ e := Finset.sum_nonneg fun i _ => mul_self_nonneg _
  rw [mul_comm, ← Real.sqrt_sq hlo.le, ← Real.sqrt_mul (by positivity)]
  refine Real.sqrt_le_sqrt ?_
  -- expand `‖A e - lo e‖² ≥ 0`
  have h0 : 0 ≤ (a.toMat n n *ᵥ e - lo • e) ⬝ᵥ (a.toMat n n *ᵥ e - lo • e) :=
    Finset.sum_nonneg fun i _ => mul_self_nonneg _
  simp only [sub_dotProduct, dotProduct_sub, smul_dotProduct, dotProduct_smul, smul_eq_mul] at h0
  rw [dotProduct_comm (a.toMat n n *ᵥ e) e] at h0
  have := mul_le_mul_of_nonneg_left (hq e) hlo.le
  nlinarith

end Ellalgo
