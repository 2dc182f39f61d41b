import Verif.Props.RoundedSvm
import Verif.Props.RoundedDrift
import Verif.Props.SvmSolve
import Verif.Props.RoundedSolve
import Verif.Props.RoundedBsearchSolve

/-! # C114: training a support vector machine in rounded arithmetic -/

namespace Ellalgo
open Matrix Filter Topology
open scoped ComplexOrder
variable {u : ℝ} {R : Rounding u} {m n : Nat} {p : Plan} {D : ℝ} {c : Fin (n + 1) → ℝ}

/-- the loop with the SVM oracle, while the ball is made of clearly separating classifiers -/
theorem svm_fl_loop {y : Fin m → ℤ} (hy : ∀ i, y i ≠ 0) (o : SvmOracle (Fl R)) (ho : o.FlFor m n y) (hb : Plan.Basics (n + 1) p)
    (hp : p.EnoughPrecision (n + 1) u) (hm : norm2 c ≤ p.P)
    (hsep : ∀ x : Fin (n + 1) → ℝ, norm2 x ≤ p.far (n + 1) → ∀ z ∈ ball c p.r, ∀ i,
      1 + svmErr u (o.data.flRect m n) y x i +
        u * (|(y i : ℝ)| * ∑ j : Fin n, |o.data.flRect m n i j| * |z j.castSucc - x j.castSucc|) ≤
        svmMargin (o.data.flRect m n) y z i)
    (tol : Fl R) (ht0 : 0 < tol.val) (htol : tol.val ≤ p.r ^ 2 / (2 * p.t ^ 2))
    (hN : Real.log ((p.t ^ 2) ^ (n + 1) * D / (p.r ^ 2) ^ (n + 1)) < p.N * p.ρ) (k : Nat) :
    ∀ (i : Nat) (xb : Option (Arr (Fl R))) (e : Ell (Fl R)) (γ : Fl R), i ≤ p.N → p.N ≤ i + k → Plan.Inv (n + 1) p D c i e →
      ∃ x l γ' e', optimLoop SvmOracle.oracle Ell.space tol k i xb o e γ = .ok ((some x, l), γ', o, e') ∧ γ'.val = 0 ∧
        x.IsVecShape (n + 1) ∧ norm2 (x.flVec (n + 1)) ≤ p.far (n + 1) ∧
        ∀ i, 1 - svmErr u (o.data.flRect m n) y (x.flVec (n + 1)) i ≤ svmMargin (o.data.flRect m n) y (x.flVec (n + 1)) i := by
  induction k with
  | zero =>
    intro i xb e γ hi hk h
    obtain rfl : i = p.N := by omega
    have := Plan.bound hb hp hm h le_rfl
    linarith
  | succ k ih =>
    intro i xb e γ hi hk h
    obtain hi | rfl := hi.lt_or_eq
    swap
    · have := Plan.bound hb hp hm h le_rfl
      linarith
    have hfar := (h.facts hb hp hm hi.le).1
    obtain ⟨g, β, γ', hq, hg, hans⟩ := C93_svm_answer o ho e.xc h.shaped.2 γ
    have hq' : SvmOracle.oracle.assess o (Ell.space (T := SingleCut (Fl R)).xc e) γ = .ok (((g, ⟨β⟩), true), γ', o) := hq
    unfold optimLoop
    rcases hans with ⟨h1, h2, h3, h4⟩ | ⟨h1, h2, -, q, -, hlast, hkeep⟩
    · obtain ⟨st, e1, hu, -⟩ := Ell.update_shape (by omega) .central e (g, SingleCut.mk β) h.shaped hg
      have hu' : Ell.space.updateCentral e (g, (⟨β⟩ : SingleCut (Fl R))) = .ok (st, e1) := hu
      have ht := C71_tsq_error (T := SingleCut (Fl R)) .central e e1 h.shaped (by omega) h.kappa.le g hg ⟨β⟩ st hu
      have hz : absQuad (e.mq.flMat (n + 1)) (g.flVec (n + 1)) = 0 := by rw [h3]; simp [absQuad]
      rw [hz] at ht
      simp only [h3, mulVec_zero, dotProduct_zero, mul_zero, sub_zero, abs_nonpos_iff] at ht
      have hstop : Scalar.lt (Ell.space (T := SingleCut (Fl R)).tsq e1) tol = true := by
        refine decide_eq_true ?_
        show (Ell.space (T := SingleCut (Fl R)).tsq e1).val < tol.val
        rw [ht]; exact ht0
      simp only [hq', Res.ok_bind, if_true, hu', hstop, Bool.or_true]
      exact ⟨_, _, _, _, rfl, h1, h.shaped.2, hfar, h4⟩
    · have hcut : ∀ z ∈ ball c p.r, g.flVec (n + 1) ⬝ᵥ (z - e.xc.flVec (n + 1)) + 0 ≤ 0 := by
        intro z hz
        have := hkeep z (hsep _ hfar z hz q)
        linarith
      have hG : 1 ≤ normSq (g.flVec (n + 1)) := by
        have hy1 : (1 : ℝ) ≤ |(y q : ℝ)| := by exact_mod_cast Int.one_le_abs (hy q)
        have h5 : g.flVec (n + 1) (Fin.last n) * g.flVec (n + 1) (Fin.last n) ≤ normSq (g.flVec (n + 1)) :=
          Finset.single_le_sum (f := fun i => g.flVec (n + 1) i * g.flVec (n + 1) i) (fun j _ => mul_self_nonneg _)
            (Finset.mem_univ _)
        rw [hlast, ← abs_mul_abs_self (-(y q : ℝ)), abs_neg] at h5
        nlinarith
      have hne : g.flVec (n + 1) ≠ 0 := by
        intro h0
        rw [h0] at hG
        simp [normSq] at hG
        linarith
      obtain ⟨e2, hu2, hv, htsq⟩ := Plan.step hb hp hm h hi g hg hne .central β 0 (.inl ⟨rfl, rfl⟩) le_rfl hcut (.inl rfl)
      have hu' : Ell.space.updateCentral e (g, (⟨β⟩ : SingleCut (Fl R))) = .ok (.success, e2) := hu2
      have hgo : Scalar.lt (Ell.space (T := SingleCut (Fl R)).tsq e2) tol = false := by
        refine decide_eq_false (not_lt.2 ?_)
        have ht := hp.infl
        refine htol.trans (le_trans ?_ htsq)
        exact div_le_div_of_nonneg_right (le_mul_of_one_le_right (sq_nonneg _) hG) (by positivity)
      simp only [hq', Res.ok_bind, if_true, hu', hgo, Bool.or_false, bne_self_eq_false, Bool.false_eq_true, if_false]
      exact ih (i + 1) _ e2 γ' (by omega) (by omega) hv

/-- the rounding error of the margins is small for a small unit -/
theorem svm_margin_small (n : Nat) {Y X F E μ : ℝ} (hμ : 0 < μ) : ∃ u0 > 0, ∀ u, 0 ≤ u → u ≤ u0 →
    ((1 + u) ^ (n + 3) - 1) * (Y * (n * (X * F) + F)) + u * (Y * (n * (X * E))) ≤ μ := by
  have hc : ContinuousAt (fun u : ℝ => ((1 + u) ^ (n + 3) - 1) * (Y * (n * (X * F) + F)) + u * (Y * (n * (X * E)))) 0 := by
    fun_prop
  have h := hc.eventually_lt (continuousAt_const (y := μ)) (by simpa using hμ)
  obtain ⟨d, hd, h⟩ := Metric.eventually_nhds_iff.1 h
  refine ⟨d / 2, by linarith, fun u h0 h1 => (h ?_).le⟩
  rw [Real.dist_eq, sub_zero, abs_of_nonneg h0]
  linarith

/-- **C114**  Let the labels be nonzero with `|y| ≤ Y`, the data bounded by `X`, and `d = n + 1 ≥ 2` the number of unknowns.  For every number
of cuts `N`, bounds `B`, `κ`, `r`, `P` on the run and margin `μ > 0` there is a unit roundoff `u0` such that in every arithmetic with at most
this unit: if a ball of radius `r` around a point of norm at most `P` lies in the first ellipsoid and consists of classifiers with all
margins at least `1 + μ`, `0 < tolerance ≤ r²/8` and `2(d+1) ln(4^d det(κM)/r^(2d)) < N ≤ max_iters`, then `cutting_plane_optim` returns the value
0 and a classifier whose true margins are all at least `1 - μ`.  `u0` does not depend on the samples or on how many there are. -/
theorem C114_svm_trained (n N : Nat) (B κ r P Y X μ : ℝ) (hn : 1 ≤ n) (hB : 0 < B) (hκ : 0 < κ) (hr : 0 < r) (hμ : 0 < μ) :
    ∃ u0 > 0, ∀ u ≤ u0, ∀ (R : Rounding u) (m : Nat) (y : Fin m → ℤ) (o : SvmOracle (Fl R)) (c : Fin (n + 1) → ℝ) (e : Ell (Fl R))
      (γ : Fl R) (opts : Options (Fl R)), o.FlFor m n y → (∀ i, y i ≠ 0) → (∀ i, |(y i : ℝ)| ≤ Y) →
      (∀ i j, |o.data.flRect m n i j| ≤ X) →
      e.Shaped (n + 1) → e.helper = EllCalc.new (n + 1) → e.kappa.val = κ → (e.mq.flMat (n + 1)).PosDef →
      (∀ i j, |e.mq.flMat (n + 1) i j| ≤ B) → norm2 c ≤ P → ball c r ⊆ ellipsoid (e.mq.flMat (n + 1)) κ (e.xc.flVec (n + 1)) →
      (∀ z ∈ ball c r, ∀ i, 1 + μ ≤ svmMargin (o.data.flRect m n) y z i) →
      0 < opts.tolerance.val → opts.tolerance.val ≤ r ^ 2 / 8 →
      2 * ((n : ℝ) + 2) * Real.log (4 ^ (n + 1) * (κ • e.mq.flMat (n + 1)).det / (r ^ 2) ^ (n + 1)) < N → N ≤ opts.maxIters →
      ∃ x k γ' e', cuttingPlaneOptim SvmOracle.oracle Ell.space o e γ opts = .ok ((some x, k), γ', o, e') ∧ γ'.val = 0 ∧
        x.IsVecShape (n + 1) ∧ ∀ i, 1 - μ ≤ svmMargin (o.data.flRect m n) y (x.flVec (n + 1)) i := by
  obtain ⟨F, hF⟩ : ∃ F, F = P + 2 * √(2 ^ N * κ * ((n + 1 : ℕ) * (2 * B))) := ⟨_, rfl⟩
  obtain ⟨u1, h1, hplan⟩ := Plan.standard_ok (n + 1) N B κ r P (by omega) hB hκ hr
  obtain ⟨u2, h2, hsmall⟩ := svm_margin_small n (Y := Y) (X := X) (F := F) (E := P + r + F) hμ
  refine ⟨min u1 u2, lt_min h1 h2, fun u hu R m y o c e γ opts ho hy hY hX he hh hek hM hEB hc hE hsep ht0 ht hN hit => ?_⟩
  subst hek
  have hu0 := R.unit_nonneg
  obtain ⟨hp, hfar, ht2, -⟩ := hplan u hu0 (hu.trans (min_le_left _ _))
  have hsm := hsmall u hu0 (hu.trans (min_le_right _ _))
  rw [← hF] at hfar
  have hP1 : 0 ≤ (1 + u) ^ (n + 3) - 1 := sub_nonneg.2 (one_le_pow₀ (by linarith))
  -- the error of the margins at any point of the run
  have herr : ∀ x : Fin (n + 1) → ℝ, norm2 x ≤ F → ∀ i,
      svmErr u (o.data.flRect m n) y x i ≤ ((1 + u) ^ (n + 3) - 1) * (Y * (n * (X * F) + F)) := by
    intro x hx i
    have hF0 : 0 ≤ F := (norm2_nonneg x).trans hx
    unfold svmErr
    refine mul_le_mul_of_nonneg_left (mul_le_mul (hY i) (add_le_add ?_ ((norm2_coord x _).trans hx)) (by positivity)
      ((abs_nonneg _).trans (hY i))) hP1
    refine (Finset.sum_le_card_nsmul Finset.univ _ (X * F) fun j _ =>
      mul_le_mul (hX i j) ((norm2_coord x _).trans hx) (abs_nonneg _) ((abs_nonneg _).trans (hX i j))).trans ?_
    simp
  have hmove : ∀ x z : Fin (n + 1) → ℝ, norm2 x ≤ F → z ∈ ball c r → ∀ i,
      u * (|(y i : ℝ)| * ∑ j : Fin n, |o.data.flRect m n i j| * |z j.castSucc - x j.castSucc|) ≤
        u * (Y * (n * (X * (P + r + F)))) := by
    intro x z hx hz i
    have hzc : norm2 (z - c) ≤ r := by
      have hz' : normSq (z - c) ≤ r ^ 2 := hz
      exact Real.sqrt_le_iff.2 ⟨hr.le, hz'⟩
    have hzn : norm2 z ≤ P + r := by
      have := norm2_sub_le z c
      linarith
    refine mul_le_mul_of_nonneg_left (mul_le_mul (hY i) ?_ (by positivity) ((abs_nonneg _).trans (hY i))) hu0
    refine (Finset.sum_le_card_nsmul Finset.univ _ (X * (P + r + F)) fun j _ =>
      mul_le_mul (hX i j) ?_ (abs_nonneg _) ((abs_nonneg _).trans (hX i j))).trans ?_
    · have a1 := (norm2_coord z j.castSucc).trans hzn
      have a2 := (norm2_coord x j.castSucc).trans hx
      exact (abs_sub _ _).trans (by linarith)
    · simp
  have hdet : 0 < (e.kappa.val • e.mq.flMat (n + 1)).det := (hM.smul hκ).det_pos
  have ht1 := hp.infl
  have hlog : Real.log (((Plan.standard (n + 1) N B e.kappa.val r P).t ^ 2) ^ (n + 1) * (e.kappa.val • e.mq.flMat (n + 1)).det /
      (r ^ 2) ^ (n + 1)) ≤ Real.log (4 ^ (n + 1) * (e.kappa.val • e.mq.flMat (n + 1)).det / (r ^ 2) ^ (n + 1)) := by
    refine Real.log_le_log (by positivity) (div_le_div_of_nonneg_right (mul_le_mul_of_nonneg_right
      (pow_le_pow_left₀ (by positivity) (by nlinarith) _) hdet.le) (by positivity))
  obtain ⟨x, k, γ', e', hrun, hv, hxs, hxn, hxm⟩ := svm_fl_loop (p := Plan.standard (n + 1) N B e.kappa.val r P)
    (D := (e.kappa.val • e.mq.flMat (n + 1)).det) (c := c) hy o ho
    (Plan.Basics.of_ball (by omega) hM hEB hκ hr hc hE) hp hc (by
      intro x hx z hz i
      have a1 := herr x (hx.trans hfar) i
      have a2 := hmove x z (hx.trans hfar) hz i
      have a3 := hsep z hz i
      linarith) opts.tolerance ht0 (by
      refine ht.trans ?_
      exact div_le_div_of_nonneg_left (sq_nonneg r) (by positivity) (by nlinarith)) (by
      refine lt_of_le_of_lt hlog ?_
      show _ < (N : ℝ) * (1 / (2 * (((n + 1 : ℕ) : ℝ) + 1)))
      rw [mul_one_div, lt_div_iff₀ (by positivity)]
      push_cast
      linarith) opts.maxIters 0 none e γ (Nat.zero_le _) (by rw [zero_add]; exact hit)
      ⟨he, by omega, hh, hκ, hM, ⟨1, one_pos, by simpa [Plan.standard] using hEB, by simp [Plan.standard], by simp [Plan.standard]⟩,
        by simpa [Plan.inflated, Plan.standard] using hE, by simp⟩
  refine ⟨x, k, γ', e', hrun, hv, hxs, fun i => ?_⟩
  have a1 := herr _ (hxn.trans hfar) i
  have a2 := hxm i
  have a3 : 0 ≤ u * (Y * (n * (X * (P + r + F)))) := by
    have hF0 : 0 ≤ F := (norm2_nonneg _).trans (hxn.trans hfar)
    have hP0 : 0 ≤ P := (norm2_nonneg c).trans hc
    have hY0 := (abs_nonneg _).trans (hY i)
    have hX0 := (abs_nonneg _).trans (hX i ⟨0, hn⟩)
    positivity
  linarith

/-- two samples, `2` with label `+1` and `-2` with label `-1` -/
noncomputable def twoSamples (R : Rounding u) : SvmOracle (Fl R) := SvmOracle.new ⟨[⟨2⟩, ⟨-2⟩], 2, 1⟩ [1, -1]

theorem twoSamples_for (h : R.rnd (-1) = -1) : (twoSamples R).FlFor 2 1 ![1, -1] :=
  ⟨one_pos, ⟨rfl, rfl, rfl⟩, rfl, rfl, fun i => by
    fin_cases i
    · show R.rnd ((1 : ℤ) : ℝ) = ((1 : ℤ) : ℝ)
      rw [Int.cast_one, R.one]
    · show R.rnd ((-1 : ℤ) : ℝ) = ((-1 : ℤ) : ℝ)
      push_cast; exact h⟩

theorem twoSamples_margin (z : Fin 2 → ℝ) : svmMargin ((twoSamples R).data.flRect 2 1) ![1, -1] z 0 = 2 * z 0 + z 1 ∧
    svmMargin ((twoSamples R).data.flRect 2 1) ![1, -1] z 1 = 2 * z 0 - z 1 := by
  constructor
  · simp [svmMargin, Arr.flRect, Arr.mat, twoSamples, SvmOracle.new]
  · simp [svmMargin, Arr.flRect, Arr.mat, twoSamples, SvmOracle.new]
    ring

/-- training on the two samples from the disc of radius 10, in some arithmetic with the same operations as `f64`: the classifier found
separates with margins at least `1 - μ` -/
example (μ : ℝ) (hμ : 0 < μ) (h1 : μ ≤ 1) : ∃ u, ∃ R : Rounding u, ∃ (N : Nat) (e e' : Ell (Fl R)) (x : Arr (Fl R)) (k : Nat) (γ' : Fl R),
    Ell.newWithScalar ⟨100⟩ (Arr.ofList [0, 0]) = .ok e ∧
    cuttingPlaneOptim SvmOracle.oracle Ell.space (twoSamples R) e 5 ⟨N, ⟨1 / 10 ^ 20⟩⟩ = .ok ((some x, k), γ', twoSamples R, e') ∧
    γ'.val = 0 ∧ 1 - μ ≤ 2 * x.flVec 2 0 + x.flVec 2 1 ∧ 1 - μ ≤ 2 * x.flVec 2 0 - x.flVec 2 1 := by
  obtain ⟨N, hN⟩ := exists_nat_gt (2 * (((1 : ℕ) : ℝ) + 2) * Real.log (4 ^ (1 + 1) *
    ((100 : ℝ) • (1 : Matrix (Fin (1 + 1)) (Fin (1 + 1)) ℝ)).det / ((1 / 2 : ℝ) ^ 2) ^ (1 + 1)))
  obtain ⟨u0, h0, h⟩ := C114_svm_trained 1 N 1 100 (1 / 2) 2 1 2 μ le_rfl one_pos (by norm_num) (by norm_num) hμ
  obtain ⟨u, hu, R, hR⟩ := fine_int u0 h0
  obtain ⟨e, he, he1, he2, -, he3, he4, he5⟩ := disc_new_fl (R := R) ⟨100⟩
  have r1 := hR (-1) (by norm_num)
  push_cast at r1
  have hin : ∀ z ∈ ball (![2, 0] : Fin 2 → ℝ) (1 / 2), (z 0 - 2) ^ 2 + z 1 ^ 2 ≤ 1 / 4 := by
    intro z hz
    have hz' : normSq (z - ![2, 0]) ≤ (1 / 2) ^ 2 := hz
    rw [normSq, dotProduct, Fin.sum_univ_two] at hz'
    simp at hz'
    linarith
  obtain ⟨x, k, γ', e', a1, a2, -, a3⟩ := h u hu R 2 ![1, -1] (twoSamples R) ![2, 0] e 5 ⟨N, ⟨1 / 10 ^ 20⟩⟩ (twoSamples_for r1)
    (by intro i; fin_cases i <;> simp) (by intro i; fin_cases i <;> simp)
    (by intro i j; fin_cases i <;> fin_cases j <;> simp [Arr.flRect, Arr.mat, twoSamples, SvmOracle.new]) he1 he2 (by rw [he3])
    (by rw [he4]; exact PosDef.one) (by rw [he4]; intro i j; fin_cases i <;> fin_cases j <;> simp)
    (Real.sqrt_le_iff.2 ⟨by norm_num, by rw [dotProduct, Fin.sum_univ_two]; norm_num⟩)
    (fun z hz => disc_ellipsoid he4 he5 (by have := hin z hz; nlinarith [sq_nonneg (z 0 - 2), sq_nonneg (z 1)]))
    (fun z hz i => by
      have := hin z hz
      have b1 : |z 0 - 2| ≤ 1 / 2 := abs_le_of_sq_le_sq (by nlinarith [sq_nonneg (z 1)]) (by norm_num)
      have b2 : |z 1| ≤ 1 / 2 := abs_le_of_sq_le_sq (by nlinarith [sq_nonneg (z 0 - 2)]) (by norm_num)
      rw [abs_le] at b1 b2
      fin_cases i
      · refine le_of_le_of_eq ?_ (twoSamples_margin z).1.symm
        linarith
      · refine le_of_le_of_eq ?_ (twoSamples_margin z).2.symm
        linarith) (by norm_num) (by norm_num) (by rw [he4]; exact hN) le_rfl
  exact ⟨u, R, N, e, e', x, k, γ', he, a1, a2, le_of_le_of_eq (a3 0) (twoSamples_margin _).1,
    le_of_le_of_eq (a3 1) (twoSamples_margin _).2⟩

end Ellalgo
