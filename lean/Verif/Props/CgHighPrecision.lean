import Verif.Lib.CgHigh
import Verif.Props.CgIterates
import Verif.Spec.Krylov

/-! C116: `conjugate_gradient` solves positive definite systems in floating point of high enough precision, in at most `n` steps. -/

namespace Ellalgo
open Matrix
variable {n : Nat}

/-- the starting point: zero unless the caller gives one -/
noncomputable def flStart {u : ℝ} {R : Rounding u} (n : Nat) (x0 : Option (Arr (Fl R))) : Fin n → ℝ :=
  x0.elim (fun _ => 0) fun x => x.flVec n

theorem near_solution {A : Matrix (Fin n) (Fin n) ℝ} {lo r : ℝ} (hlo : 0 < lo) (hr : 0 ≤ r)
    (h : ∀ v : Fin n → ℝ, lo * (v ⬝ᵥ v) ≤ v ⬝ᵥ (A *ᵥ v)) {b x xs : Fin n → ℝ} (hx : resNorm A b x ≤ r) (hxs : A *ᵥ xs = b) :
    norm2 (x - xs) ≤ r / lo := by
  have e : A *ᵥ (x - xs) = -(b - A *ᵥ x) := by rw [mulVec_sub, hxs]; abel
  have h1 := h (x - xs)
  rw [e, dotProduct_neg] at h1
  have h2 := dot_le_norm2 (x - xs) (b - A *ᵥ x)
  have h3 : norm2 (b - A *ᵥ x) ≤ r := hx
  have h4 := norm2_sq (x - xs)
  have h5 : 0 ≤ norm2 (x - xs) := Real.sqrt_nonneg _
  rw [le_div_iff₀ hlo]
  rw [← h4] at h1
  have h6 := neg_abs_le ((x - xs) ⬝ᵥ (b - A *ᵥ x))
  have h7 := mul_le_mul_of_nonneg_left h3 h5
  by_contra hc
  push Not at hc
  have h8 : 0 < norm2 (x - xs) := by
    by_contra h0
    push Not at h0
    have : norm2 (x - xs) = 0 := le_antisymm h0 h5
    rw [this, zero_mul] at hc
    linarith
  have h9 := mul_lt_mul_of_pos_left hc h8
  nlinarith

/-- **C116** Fix a size, a lower bound `lo` for the eigenvalues, a bound `M` for the entries of the matrix, the right-hand side and the
starting point, a lower bound `ρ` for the norm of the initial residual, a lower bound `tol0` for the tolerance and an accuracy `ε`.
There is a unit roundoff, depending on nothing else, such that in every arithmetic at least that precise `conjugate_gradient` succeeds
on every such system when it is allowed `n` steps or more.  The norm of the true residual of the point it returns exceeds the tolerance
by at most `ε`, and the point is as close to the solution as that allows. -/
theorem C116_cg_solves {lo M ρ tol0 ε : ℝ} (hn : 0 < n) (hlo : 0 < lo) (hρ : 0 < ρ) (htol0 : 0 < tol0) (hε : 0 < ε) :
    ∃ u0 > 0, ∀ u ≤ u0, ∀ (R : Rounding u) (a b : Arr (Fl R)) (x0 : Option (Arr (Fl R))) (tol : Fl R) (maxIter : Nat),
      a.IsMatShape n n → b.IsVecShape n → (∀ x, x0 = some x → x.IsVecShape n) →
      (a.flMat n).IsSymm → (∀ v : Fin n → ℝ, lo * (v ⬝ᵥ v) ≤ v ⬝ᵥ (a.flMat n *ᵥ v)) →
      (∀ i j, |a.flMat n i j| ≤ M) → (∀ i, |b.flVec n i| ≤ M) → (∀ i, |flStart n x0 i| ≤ M) →
      ρ ≤ resNorm (a.flMat n) (b.flVec n) (flStart n x0) → tol0 ≤ tol.val → n ≤ maxIter →
      ∃ x, conjugateGradient a b x0 tol maxIter = .ok (.ok x) ∧ x.IsVecShape n ∧
        resNorm (a.flMat n) (b.flVec n) (x.flVec n) ≤ tol.val + ε ∧
        ∀ xs, a.flMat n *ᵥ xs = b.flVec n → norm2 (x.flVec n - xs) ≤ (tol.val + ε) / lo := by
  obtain ⟨m, hm⟩ : ∃ m, m = min (ρ ^ 2) ((tol0 / 2) ^ 2) := ⟨_, rfl⟩
  have hm0 : 0 < m := by rw [hm]; positivity
  obtain ⟨u0, p0, H⟩ := cg_units (n := n) (M := M) hlo hm0 (ε := min (ε / 2) (tol0 / 4)) (by positivity)
  refine ⟨u0, p0, fun u hu R a b x0 tol maxIter ha hb hx0 hsym hpos hA hB hX hres htol hmax => ?_⟩
  obtain ⟨k, hk⟩ : ∃ k : CgData, k = ⟨fun i j => (a.mat i j).val, fun i => (b.vec i).val,
    fun i => ((x0.elim (fun _ => (0 : Fl R)) Arr.vec) i).val⟩ := ⟨_, rfl⟩
  have hit : cgAt n a.mat b.vec (x0.elim (fun _ => 0) Arr.vec) = k.comp n R := by rw [hk]; rfl
  have hmat : k.mat n = a.flMat n := by rw [hk]; rfl
  have hAk : a.mat = fun i j => (⟨k.A i j⟩ : Fl R) := by rw [hk]
  have hstart : flStart n x0 = fun i : Fin n => k.x i := by
    rw [hk]; cases x0 <;> rfl
  have hK0 : k ∈ cgClass n lo M m 0 u := by
    refine ⟨fun i hi l hl => ?_, fun i hi => ?_, fun i hi => ?_, hmat ▸ hsym, hmat ▸ hpos, fun i hi => absurd hi (by omega)⟩
    · rw [hk]; exact hA ⟨i, hi⟩ ⟨l, hl⟩
    · rw [hk]; exact hB ⟨i, hi⟩
    · have := hX ⟨i, hi⟩
      rw [hstart] at this
      exact this
  obtain ⟨J, hJn, hJ, hKJ⟩ := exact_ends hlo hm0 hK0
  have hr0 : √(k.exact n 0).rr = resNorm (a.flMat n) (b.flVec n) (flStart n x0) := by
    rw [(exact_link k 0).2.2.2]
    have : (cgIter (k.mat n) (k.start n) 0).r = b.flVec n - a.flMat n *ᵥ flStart n x0 := by
      rw [(exact_link k 0).2.1]
      funext i
      show (k.exact n 0).r i = _
      rw [exact_residual, mulV_real, hmat, hstart, hk]
      rfl
    rw [this]; rfl
  have hJ1 : 1 ≤ J := by
    by_contra h0
    obtain rfl : J = 0 := by omega
    have h1 := Real.sq_sqrt (exact_rr_nonneg (n := n) k 0)
    rw [hr0] at h1
    have h2 := pow_le_pow_left₀ hρ.le hres 2
    have h3 := min_le_left (ρ ^ 2) ((tol0 / 2) ^ 2)
    rw [← hm] at h3
    linarith
  have hdoneJ : (k.comp n R J).done tol = true := by
    have h1 := ((H u hu J hJn R k).2 hKJ).1
    have h2 : √(k.exact n J).rr ≤ tol0 / 2 := by
      refine Real.sqrt_le_iff.2 ⟨by positivity, hJ.le.trans ?_⟩
      rw [hm]; exact min_le_right _ _
    have h3 := (_root_.abs_le.1 (h1.trans (min_le_right _ _))).2
    exact decide_eq_true (show (Scalar.sqrt (k.comp n R J).rr).val < tol.val by linarith)
  have key : ∀ {b : Bool}, b = true → b = false → False := by intro b h h'; rw [h] at h'; cases h'
  have hns : ∀ j < J, ¬ (k.comp n R j).stuck n a.mat = true := by
    intro j hj h
    have h1 := (H u hu j (by omega) R k).1 (cgClass_le (by omega) hKJ)
    rw [hAk] at h
    have h2 : ((k.comp n R j).curv n fun i j => (⟨k.A i j⟩ : Fl R)).val = (0 : Fl R).val := of_decide_eq_true h
    have h3 : (0 : Fl R).val = 0 := rfl
    linarith
  rcases C98_iterates hn ha hb hx0 tol maxIter with ⟨e, -, h2⟩ | ⟨x, v, h1, h2, h3, h4⟩
  · rw [hit] at h2
    cases h2 with
    | stuck i b2 b3 b4 b5 =>
      rcases Nat.lt_or_ge i J with h | h
      · exact (hns i h b3).elim
      · exact (key hdoneJ (b4 J hJ1 h)).elim
    | out b4 b5 => exact (key hdoneJ (b4 J hJ1 (by omega))).elim
  · rw [hit] at h4
    have hxv : ∃ j, j ≤ J ∧ (k.comp n R j).done tol = true ∧ v = (k.comp n R j).x := by
      cases h4 with
      | done j b1 b2 b3 b4 b5 =>
        refine ⟨j, ?_, b3, rfl⟩
        by_contra hc
        exact (key hdoneJ (b4 J hJ1 (by omega))).elim
    obtain ⟨j, hjJ, hd, rfl⟩ := hxv
    obtain ⟨e1, e2⟩ := (H u hu j (by omega) R k).2 (cgClass_le hjJ hKJ)
    have e3 := (_root_.abs_le.1 (e1.trans (min_le_left _ _))).1
    have e4 := (_root_.abs_le.1 (e2.trans (min_le_left _ _))).2
    have e5 : (Scalar.sqrt (k.comp n R j).rr).val < tol.val := of_decide_eq_true hd
    have hrn : resNorm (a.flMat n) (b.flVec n) (x.flVec n) = √(sumTo n fun i => k.res n R j i * k.res n R j i) := by
      rw [resNorm, sumTo_fin]
      congr 1
      refine Finset.sum_congr rfl fun i _ => ?_
      have : (b.flVec n - a.flMat n *ᵥ x.flVec n) i = k.res n R j i := by
        rw [CgData.res, sumTo_fin, hk]
        show (b.vec i).val - ∑ l : Fin n, (a.mat i l).val * (x.vec l).val = _
        congr 1
        refine Finset.sum_congr rfl fun l _ => ?_
        rw [h3 l l.2, hk]
      rw [this]
    have hfin : resNorm (a.flMat n) (b.flVec n) (x.flVec n) ≤ tol.val + ε := by rw [hrn]; linarith
    exact ⟨x, h1, h2, hfin, fun xs hxs => near_solution hlo (by linarith) hpos hfin hxs⟩

end Ellalgo
