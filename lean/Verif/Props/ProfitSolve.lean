import Verif.Props.ProfitRbProps
import Verif.Props.SolveSmooth
import Verif.Props.EllReal

/-! C62: profit and robust profit maximisation, end to end. -/

namespace Ellalgo
open Matrix

variable {d : ProfitData} {u : ProfitUncertainty}

/-- a valid ellipsoid is bounded -/
theorem region_bounded {n : Nat} {e : Ell ℝ} (he : e.Valid n) : ∃ D, 0 ≤ D ∧ ∀ z ∈ e.region n, ∀ i, |z i| ≤ D := by
  have h : ∀ z ∈ e.region n, ∀ i, |z i| ≤ |e.c n i| + √(e.tsqOf n (Pi.single i 1)) := by
    intro z hz i
    have := dot_sq_le he.posDef hz (Pi.single i 1)
    rw [single_one_dotProduct, Pi.sub_apply] at this
    have h2 : |z i - e.c n i| ≤ √(e.tsqOf n (Pi.single i 1)) := by
      rw [← Real.sqrt_sq_eq_abs]
      exact Real.sqrt_le_sqrt this
    calc |z i| = |e.c n i + (z i - e.c n i)| := by ring_nf
      _ ≤ |e.c n i| + |z i - e.c n i| := abs_add_le _ _
      _ ≤ _ := by linarith
  refine ⟨∑ i, (|e.c n i| + √(e.tsqOf n (Pi.single i 1))), by positivity, fun z hz i => (h z hz i).trans ?_⟩
  exact Finset.single_le_sum (f := fun i => |e.c n i| + √(e.tsqOf n (Pi.single i 1))) (fun i _ => by positivity)
    (Finset.mem_univ i)

theorem revenue_le {D A : ℝ} (h : d.Pos) (hA : ∀ i, |d.elas i| ≤ A) {z : Fin 2 → ℝ} (hz : ∀ i, |z i| ≤ D) :
    d.revenue z ≤ d.price * d.scale * Real.exp (2 * (A * D)) := by
  rw [ProfitData.revenue_eq]
  have h1 : d.elas ⬝ᵥ z ≤ 2 * (A * D) := by
    rw [dotProduct, Fin.sum_univ_two]
    have b : ∀ i, d.elas i * z i ≤ A * D := fun i =>
      (le_abs_self _).trans (by
        rw [abs_mul]
        exact mul_le_mul (hA i) (hz i) (abs_nonneg _) ((abs_nonneg _).trans (hA i)))
    linarith [b 0, b 1]
  have := mul_pos h.price h.scale
  gcongr

/-- a profit cut separates points that are better by `ε` with margin `ε / R` -/
theorem profit_margin (h : d.Pos) {γ ε R : ℝ} (hγ : 0 ≤ γ) (hε : 0 < ε) {v z : Fin 2 → ℝ} (hR : d.revenue z ≤ R)
    (hp : γ + ε ≤ d.profit z) : d.grad γ v ⬝ᵥ (z - v) + d.slack γ v ≤ -(ε / R) := by
  have h1 := d.slack_tangent h hγ v z
  have hrev := d.revenue_pos h z
  have hR0 : 0 < R := hrev.trans_le hR
  have hexp := d.expense_pos h z
  have h2 : d.slack γ z ≤ -(ε / R) := by
    rw [ProfitData.slack, ← Real.log_div (by linarith) hrev.ne']
    refine (Real.log_le_sub_one_of_pos (by positivity)).trans ?_
    have e : d.revenue z = d.profit z + d.expense z := by rw [ProfitData.profit]; ring
    have h3 : (γ + d.expense z) / d.revenue z - 1 ≤ -(ε / d.revenue z) := by
      rw [div_sub_one hrev.ne', ← neg_div]
      apply div_le_div_of_nonneg_right _ hrev.le
      linarith
    have h4 : ε / R ≤ ε / d.revenue z := div_le_div_of_nonneg_left hε.le hrev hR
    linarith
  linarith

theorem profit_optimizes (h : d.Pos) {e : Ell ℝ} (he : e.Valid 2) :
    Optimizes 2 ProfitOracle.oracle (fun o γ => o.For d ∧ 0 ≤ γ) d.feasible d.profit (e.region 2) := by
  obtain ⟨D, hD, hB⟩ := region_bounded he
  set A := |d.elas 0| + |d.elas 1| with hA
  set R := d.price * d.scale * Real.exp (2 * (A * D)) with hR
  have hR0 : 0 < R := mul_pos (mul_pos h.price h.scale) (Real.exp_pos _)
  have hA' : ∀ i, |d.elas i| ≤ A := by
    intro i
    fin_cases i
    · show |d.elas 0| ≤ _
      linarith [abs_nonneg (d.elas 1)]
    · show |d.elas 1| ≤ _
      linarith [abs_nonneg (d.elas 0)]
  intro ε hε
  refine ⟨1, one_pos, ε / R, by positivity, ?_⟩
  rintro o x γ ⟨ho, hγ⟩ hx
  obtain ⟨g, b, s, γ', o', h1, h2, h3, h4, -⟩ := profit_assess h o ho x hx hγ
  refine ⟨g, b, s, γ', o', h1, ⟨h2, hγ.trans h3.mono⟩, h3, ?_⟩
  rcases h4 with ⟨-, hg⟩ | ⟨hb, hg⟩
  · left
    rw [hg, normSq, pair_dot]; norm_num
  · right
    intro z _ hzB hz
    rw [hg, ← hb]
    exact profit_margin h (hγ.trans h3.mono) hε (revenue_le h hA' (hB z hzB)) hz

theorem robust_optimizes (h : d.Pos) (hu : u.Ok d) {e : Ell ℝ} (he : e.Valid 2) :
    Optimizes 2 ProfitRbOracle.oracle (fun o γ => o.For d u ∧ 0 ≤ γ) (d.robustFeasible u) (d.robustProfit u)
      (e.region 2) := by
  obtain ⟨D, hD, hB⟩ := region_bounded he
  set A := |d.elas 0| + u.e1 + (|d.elas 1| + u.e2) with hA
  set R := (d.price - u.e3) * d.scale * Real.exp (2 * (A * D)) with hR
  have hR0 : 0 < R := mul_pos (mul_pos (sub_pos.2 hu.price) h.scale) (Real.exp_pos _)
  have hA' : ∀ y i, |(d.worstAt u y).elas i| ≤ A := by
    intro y i
    have e1 := hu.e1
    have e2 := hu.e2
    fin_cases i
    · show |d.elas 0 + (if 0 < y 0 then -u.e1 else u.e1)| ≤ _
      refine (abs_add_le _ _).trans ?_
      have : |(if 0 < y 0 then -u.e1 else u.e1)| = u.e1 := by
        split
        · rw [abs_neg, abs_of_nonneg hu.e1]
        · rw [abs_of_nonneg hu.e1]
      rw [this]
      linarith [abs_nonneg (d.elas 1)]
    · show |d.elas 1 + (if 0 < y 1 then -u.e2 else u.e2)| ≤ _
      refine (abs_add_le _ _).trans ?_
      have : |(if 0 < y 1 then -u.e2 else u.e2)| = u.e2 := by
        split
        · rw [abs_neg, abs_of_nonneg hu.e2]
        · rw [abs_of_nonneg hu.e2]
      rw [this]
      linarith [abs_nonneg (d.elas 0)]
  intro ε hε
  refine ⟨1, one_pos, ε / R, by positivity, ?_⟩
  rintro o x γ ⟨ho, hγ⟩ hx
  obtain ⟨g, b, s, γ', o', h1, h2, h3, h4⟩ := robust_assess h hu o ho x hx hγ
  refine ⟨g, b, s, γ', o', h1, ⟨h2, hγ.trans h3.mono⟩, h3, ?_⟩
  rcases h4 with ⟨-, hg⟩ | ⟨hb, hg⟩
  · left
    rw [hg, normSq, pair_dot]; norm_num
  · right
    intro z _ hzB hz
    rw [hg, ← hb]
    exact profit_margin (worstAt_pos h hu _) (hγ.trans h3.mono) hε
      (revenue_le (worstAt_pos h hu _) (hA' _) (hB z hzB))
      (hz.trans (robustProfit_le h hu z (worstAt_mem hu _)))

theorem feasible_eq (h : d.Pos) : d.feasible = {z | z 0 ≤ Real.log d.limit} := by
  ext z
  exact (Real.le_log_iff_exp_le h.limit).symm

theorem feasible_convex (h : d.Pos) : Convex ℝ d.feasible := by
  rw [feasible_eq h]
  intro x hx y hy a b ha hb hab
  have hx' : x 0 ≤ Real.log d.limit := hx
  have hy' : y 0 ≤ Real.log d.limit := hy
  show a * x 0 + b * y 0 ≤ Real.log d.limit
  have : a * Real.log d.limit + b * Real.log d.limit = Real.log d.limit := by rw [← add_mul, hab, one_mul]
  nlinarith

theorem feasible_interior (h : d.Pos) : (interior d.feasible).Nonempty := by
  rw [feasible_eq h]
  refine ⟨fun _ => Real.log d.limit - 1, ?_⟩
  rw [mem_interior]
  refine ⟨{z | z 0 < Real.log d.limit}, fun z hz => le_of_lt (show z 0 < Real.log d.limit from hz),
    isOpen_lt (by fun_prop) (by fun_prop), ?_⟩
  show Real.log d.limit - 1 < Real.log d.limit
  linarith

theorem profit_continuous (d : ProfitData) : Continuous d.profit := by
  have : d.profit = fun z => d.price * d.scale * Real.exp (d.elas 0 * z 0 + d.elas 1 * z 1) -
      (d.cost 0 * Real.exp (z 0) + d.cost 1 * Real.exp (z 1)) := by
    funext z
    rw [ProfitData.profit, ProfitData.revenue_eq, ProfitData.expense, dotProduct, Fin.sum_univ_two]
  rw [this]
  fun_prop

theorem robustProfit_continuous (h : d.Pos) (hu : u.Ok d) : Continuous (d.robustProfit u) := by
  have key : ∀ (a e t : ℝ), (a + (if 0 < t then -e else e)) * t = a * t - e * |t| := by
    intro a e t
    split
    · rename_i ht; rw [abs_of_pos ht]; ring
    · rename_i ht; rw [abs_of_nonpos (not_lt.1 ht)]; ring
  have : d.robustProfit u = fun z => (d.price - u.e3) * d.scale *
      Real.exp (d.elas 0 * z 0 - u.e1 * |z 0| + (d.elas 1 * z 1 - u.e2 * |z 1|)) -
      ((d.cost 0 + u.e5) * Real.exp (z 0) + (d.cost 1 + u.e5) * Real.exp (z 1)) := by
    funext z
    rw [robustProfit_eq h hu, ProfitData.profit, ProfitData.revenue_eq, ProfitData.expense, dotProduct,
      Fin.sum_univ_two, ← key, ← key]
    rfl
  rw [this]
  fun_prop

/-- **C62** Profit maximisation is solved to any accuracy: for positive data, from any reachable oracle state, any
`γ ∈ [0, γ*]` and any ellipsoid with a maximiser in its interior. -/
theorem C62_profit_solved (h : d.Pos) (o : ProfitOracle ℝ) (ho : o.For d) (e : Ell ℝ) (he : e.Valid 2)
    {xs : Fin 2 → ℝ} (hxs : xs ∈ d.feasible) (hmax : ∀ x ∈ d.feasible, d.profit x ≤ d.profit xs)
    (hin : xs ∈ interior (e.region 2)) {γ : ℝ} (hγ0 : 0 ≤ γ) (hγ : γ ≤ d.profit xs) {ε : ℝ} (hε : 0 < ε) :
    ∃ (N : Nat) (tol0 : ℝ), 0 < tol0 ∧ ∀ opts : Options ℝ, N ≤ opts.maxIters → opts.tolerance ≤ tol0 →
      ∃ xb k γ' o' e', cuttingPlaneOptim ProfitOracle.oracle Ell.space o e γ opts = .ok ((xb, k), γ', o', e') ∧
        d.profit xs - ε ≤ γ' ∧ γ' ≤ d.profit xs ∧
        ((xb = none ∧ γ' = γ) ∨ ∃ x, xb = some x ∧ x.toVec 2 ∈ d.feasible ∧ d.profit (x.toVec 2) = γ') :=
  C61_epsilon_optimal_smooth o e γ (profit_optimizes h he) ⟨ho, hγ0⟩ he (feasible_convex h) (feasible_interior h) hxs
    hmax (profit_continuous d).continuousAt hin hγ hε

/-- **C62** Robust profit maximisation is solved to any accuracy. -/
theorem C62_robust_profit_solved (h : d.Pos) (hu : u.Ok d) (o : ProfitRbOracle ℝ) (ho : o.For d u) (e : Ell ℝ)
    (he : e.Valid 2) {xs : Fin 2 → ℝ} (hxs : xs ∈ d.robustFeasible u)
    (hmax : ∀ x ∈ d.robustFeasible u, d.robustProfit u x ≤ d.robustProfit u xs)
    (hin : xs ∈ interior (e.region 2)) {γ : ℝ} (hγ0 : 0 ≤ γ) (hγ : γ ≤ d.robustProfit u xs) {ε : ℝ} (hε : 0 < ε) :
    ∃ (N : Nat) (tol0 : ℝ), 0 < tol0 ∧ ∀ opts : Options ℝ, N ≤ opts.maxIters → opts.tolerance ≤ tol0 →
      ∃ xb k γ' o' e', cuttingPlaneOptim ProfitRbOracle.oracle Ell.space o e γ opts = .ok ((xb, k), γ', o', e') ∧
        d.robustProfit u xs - ε ≤ γ' ∧ γ' ≤ d.robustProfit u xs ∧
        ((xb = none ∧ γ' = γ) ∨
          ∃ x, xb = some x ∧ x.toVec 2 ∈ d.robustFeasible u ∧ d.robustProfit u (x.toVec 2) = γ') :=
  C61_epsilon_optimal_smooth o e γ (robust_optimizes h hu he) ⟨ho, hγ0⟩ he
    (by rw [robustFeasible_eq hu 0]; exact feasible_convex (worstAt_pos h hu 0))
    (by rw [robustFeasible_eq hu 0]; exact feasible_interior (worstAt_pos h hu 0)) hxs
    hmax (robustProfit_continuous h hu).continuousAt hin hγ hε

end Ellalgo
