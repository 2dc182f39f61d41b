import Verif.Spec.RoundedProfit
import Verif.Props.ProfitProps
import Verif.Props.RoundedPlane
import Verif.Props.RoundedSvm
import Verif.Lib.LdltFl

/-! # C95: the profit oracle in rounded arithmetic -/

namespace Ellalgo
open Matrix
variable {u : ℝ} {R : Rounding u} {d : ProfitData}

/-- the logarithm of the revenue, the cost terms and the total cost as computed -/
noncomputable def ProfitOracle.flLog (o : ProfitOracle (Fl R)) (y : Arr (Fl R)) : Fl R :=
  o.logPScale + sumTo 2 fun j => o.elasticities.vec j * y.vec j
noncomputable def ProfitOracle.flCost (o : ProfitOracle (Fl R)) (y : Arr (Fl R)) : Fl R :=
  o.priceOut.vec 0 * Scalar.exp (y.vec 0) + o.priceOut.vec 1 * Scalar.exp (y.vec 1)

theorem profit_log_err (hu : u ≤ 1 / 8) (h : d.Pos) {o : ProfitOracle (Fl R)} (ho : o.FlFor d) (y : Arr (Fl R)) :
    |(o.flLog y).val - Real.log (d.revenue (y.flVec 2))| ≤ d.logErr u (y.flVec 2) := by
  have hu0 := R.unit_nonneg
  have h1 := sumTo_fl_err 2 o.elasticities.vec y.vec
  rw [Finset.sum_range, Finset.sum_range, Fin.sum_univ_two, Fin.sum_univ_two] at h1
  have e0 : (o.elasticities.vec (0 : Fin 2)).val = d.elas 0 := congrFun ho.elas 0
  have e1 : (o.elasticities.vec (1 : Fin 2)).val = d.elas 1 := congrFun ho.elas 1
  have y0 : (y.vec (0 : Fin 2)).val = y.flVec 2 0 := rfl
  have y1 : (y.vec (1 : Fin 2)).val = y.flVec 2 1 := rfl
  rw [e0, e1, y0, y1, show 2 + 1 = 3 from rfl] at h1
  have hv : (o.flLog y).val = R.rnd (o.logPScale.val + (sumTo 2 fun j => o.elasticities.vec j * y.vec j).val) := rfl
  rw [hv, ho.scale, d.log_revenue h, dotProduct, Fin.sum_univ_two, ProfitData.logErr, ProfitData.logSize]
  generalize (sumTo 2 fun j => o.elasticities.vec j * y.vec j).val = s at *
  generalize y.flVec 2 0 = a at *
  generalize y.flVec 2 1 = b at *
  have hD : |d.elas 0 * a + d.elas 1 * b| ≤ |d.elas 0| * |a| + |d.elas 1| * |b| := by
    refine (abs_add_le _ _).trans (le_of_eq ?_)
    rw [abs_mul, abs_mul]
  have hp := mul_pos h.price h.scale
  generalize d.price * d.scale = p at *
  generalize d.elas 0 * a + d.elas 1 * b = D at *
  generalize |d.elas 0| * |a| + |d.elas 1| * |b| = A at *
  have hA : 0 ≤ A := (abs_nonneg D).trans hD
  -- the logarithm of the rounded product
  have hr := abs_le.1 (R.err p)
  rw [abs_of_pos hp] at hr
  have hlow : (1 - u) * p ≤ R.rnd p := by linarith
  have hup : R.rnd p ≤ (1 + u) * p := by linarith
  have h1u : (0 : ℝ) < 1 - u := by linarith
  have hrp : 0 < R.rnd p := (mul_pos h1u hp).trans_le hlow
  have hl1 : Real.log (1 - u) + Real.log p ≤ Real.log (R.rnd p) := by
    rw [← Real.log_mul h1u.ne' hp.ne']
    exact Real.log_le_log (mul_pos h1u hp) hlow
  have hl2 : Real.log (R.rnd p) ≤ -Real.log (1 - u) + Real.log p := by
    have h2 : Real.log (R.rnd p) ≤ Real.log ((1 + u) * p) := Real.log_le_log hrp hup
    rw [Real.log_mul (by linarith) hp.ne'] at h2
    have h3 : Real.log (1 + u) ≤ -Real.log (1 - u) := by
      rw [← Real.log_inv]
      refine Real.log_le_log (by linarith) ?_
      rw [le_inv_comm₀ (by linarith) h1u, inv_eq_one_div, le_div_iff₀ (by linarith)]
      nlinarith
    linarith
  set lam := -Real.log (1 - u) with hlam
  have hlam0 : 0 ≤ lam := by
    have := Real.log_nonpos h1u.le (by linarith)
    linarith
  have h4 : |Real.log (R.rnd p) - Real.log p| ≤ lam := by rw [abs_le]; constructor <;> linarith
  have h5 := R.err (Real.log (R.rnd p))
  have h6 : |Real.log (R.rnd p)| ≤ |Real.log p| + lam := by
    have := abs_add_le (Real.log (R.rnd p) - Real.log p) (Real.log p)
    rw [sub_add_cancel] at this
    linarith
  have h7 : |R.rnd (Real.log (R.rnd p)) - Real.log p| ≤ u * |Real.log p| + (1 + u) * lam := by
    have := abs_add_le (R.rnd (Real.log (R.rnd p)) - Real.log (R.rnd p)) (Real.log (R.rnd p) - Real.log p)
    rw [sub_add_sub_cancel] at this
    have := mul_le_mul_of_nonneg_left h6 hu0
    linarith
  generalize R.rnd (Real.log (R.rnd p)) = q at *
  generalize Real.log p = L at *
  -- the sum
  have h8 : |q + s - (L + D)| ≤ u * |L| + (1 + u) * lam + ((1 + u) ^ 3 - 1) * A := by
    have := abs_add_le (q - L) (s - D)
    rw [show q - L + (s - D) = q + s - (L + D) by ring] at this
    linarith
  have h9 := R.err (q + s)
  have h10 : |q + s| ≤ |q + s - (L + D)| + (|L| + A) := by
    have := abs_add_le (q + s - (L + D)) (L + D)
    rw [sub_add_cancel] at this
    have := abs_add_le L D
    linarith
  have h11 := abs_add_le (R.rnd (q + s) - (q + s)) (q + s - (L + D))
  rw [sub_add_sub_cancel] at h11
  have h12 := mul_le_mul_of_nonneg_left h10 hu0
  have h13 := mul_le_mul_of_nonneg_left h8 (by linarith : (0 : ℝ) ≤ 1 + u)
  have h14 : ((1 + u) ^ 2 - 1) * |L| ≤ ((1 + u) ^ 4 - 1) * |L| :=
    mul_le_mul_of_nonneg_right (by nlinarith [pow_nonneg hu0 2, pow_nonneg hu0 3, pow_nonneg hu0 4]) (abs_nonneg L)
  have h15 : (1 + u) ^ 2 * Real.log (1 - u) = -((1 + u) ^ 2 * lam) := by rw [hlam]; ring
  rw [h15]
  nlinarith

theorem profit_cost_err (h : d.Pos) {o : ProfitOracle (Fl R)} (ho : o.FlFor d) (y : Arr (Fl R)) :
    |(o.flCost y).val - d.expense (y.flVec 2)| ≤ ((1 + u) ^ 3 - 1) * d.expense (y.flVec 2) := by
  have hu0 := R.unit_nonneg
  have e0 : (o.priceOut.vec 0).val = d.cost 0 := congrFun ho.cost 0
  have e1 : (o.priceOut.vec 1).val = d.cost 1 := congrFun ho.cost 1
  have hv : (o.flCost y).val = R.rnd (R.rnd (d.cost 0 * R.rnd (Real.exp (y.flVec 2 0))) +
      R.rnd (d.cost 1 * R.rnd (Real.exp (y.flVec 2 1)))) := by
    rw [← e0, ← e1]; rfl
  have term : ∀ c x : ℝ, 0 < c → |R.rnd (c * R.rnd (Real.exp x)) - c * Real.exp x| ≤
      ((1 + u) * (1 + u) - 1) * (c * Real.exp x) := by
    intro c x hc
    refine rnd_rel ?_ (abs_of_pos (mul_pos hc (Real.exp_pos x))).le
    rw [← mul_sub, abs_mul, abs_of_pos hc]
    have := R.err (Real.exp x)
    rw [abs_of_pos (Real.exp_pos x)] at this
    have := mul_le_mul_of_nonneg_left this hc.le
    linarith
  have t0 := term _ (y.flVec 2 0) (h.cost 0)
  have t1 := term _ (y.flVec 2 1) (h.cost 1)
  have hpos := d.expense_pos h (y.flVec 2)
  rw [hv]
  have := rnd_rel (R := R) (a := R.rnd (d.cost 0 * R.rnd (Real.exp (y.flVec 2 0))) + R.rnd (d.cost 1 * R.rnd (Real.exp (y.flVec 2 1))))
    (E := d.expense (y.flVec 2)) (B := d.expense (y.flVec 2)) (C := (1 + u) * (1 + u)) (by
      rw [ProfitData.expense, add_sub_add_comm]
      refine (abs_add_le _ _).trans ?_
      linarith) (abs_of_pos hpos).le
  rwa [show (1 + u) * ((1 + u) * (1 + u)) = (1 + u) ^ 3 by ring] at this

/-- the computed profit -/
theorem profit_value_err (hu : u ≤ 1 / 8) (h : d.Pos) {o : ProfitOracle (Fl R)} (ho : o.FlFor d) (y : Arr (Fl R)) :
    |(Scalar.exp (o.flLog y) - o.flCost y).val - d.profit (y.flVec 2)| ≤ d.profitErr u (y.flVec 2) := by
  have hu0 := R.unit_nonneg
  have h1 := profit_log_err hu h ho y
  have h2 := profit_cost_err h ho y
  have hv : (Scalar.exp (o.flLog y) - o.flCost y).val = R.rnd (R.rnd (Real.exp (o.flLog y).val) - (o.flCost y).val) := rfl
  rw [hv, ProfitData.profitErr, ProfitData.profit]
  have hrev := d.revenue_pos h (y.flVec 2)
  generalize (o.flLog y).val = l at *
  generalize (o.flCost y).val = c at *
  generalize d.expense (y.flVec 2) = E at *
  generalize d.logErr u (y.flVec 2) = δ at *
  generalize d.revenue (y.flVec 2) = V at *
  have hδ : 0 ≤ δ := (abs_nonneg _).trans h1
  obtain ⟨h1a, h1b⟩ := abs_le.1 h1
  have hV : V = Real.exp (Real.log V) := (Real.exp_log hrev).symm
  have hup : Real.exp l ≤ V * Real.exp δ := by
    rw [hV, ← Real.exp_add]
    exact Real.exp_le_exp.2 (by linarith)
  have hlo : V * Real.exp (-δ) ≤ Real.exp l := by
    rw [hV, ← Real.exp_add]
    exact Real.exp_le_exp.2 (by linarith)
  have hsum : 2 ≤ Real.exp δ + Real.exp (-δ) := by
    have := Real.add_one_le_exp δ
    have := Real.add_one_le_exp (-δ)
    linarith
  have h3 : |Real.exp l - V| ≤ (Real.exp δ - 1) * V := by
    rw [abs_le]
    constructor <;> nlinarith
  have h4 := rnd_rel (R := R) h3 (abs_of_pos hrev).le
  have h5 : |R.rnd (Real.exp l) - c - (V - E)| ≤ ((1 + u) * Real.exp δ - 1) * V + ((1 + u) ^ 3 - 1) * E := by
    have := abs_sub (R.rnd (Real.exp l) - V) (c - E)
    rw [show R.rnd (Real.exp l) - V - (c - E) = R.rnd (Real.exp l) - c - (V - E) by ring] at this
    linarith
  have h6 := R.err (R.rnd (Real.exp l) - c)
  have h7 := abs_add_le (R.rnd (R.rnd (Real.exp l) - c) - (R.rnd (Real.exp l) - c)) (R.rnd (Real.exp l) - c - (V - E))
  rw [sub_add_sub_cancel] at h7
  have h8 : |R.rnd (Real.exp l) - c| ≤ |R.rnd (Real.exp l) - c - (V - E)| + |V - E| := by
    have := abs_add_le (R.rnd (Real.exp l) - c - (V - E)) (V - E)
    rwa [sub_add_cancel] at this
  have h9 := mul_le_mul_of_nonneg_left h8 hu0
  have h10 := mul_le_mul_of_nonneg_left h5 (by linarith : (0 : ℝ) ≤ 1 + u)
  nlinarith

theorem rnd_log_mono {κ a b : ℝ} (h0 : 0 ≤ κ) (h1 : κ ≤ 1) (h : a ≤ b) : a + κ * |a| ≤ b + κ * |b| ∧ a - κ * |a| ≤ b - κ * |b| := by
  have e1 := abs_sub_abs_le_abs_sub a b
  have e2 := abs_sub_abs_le_abs_sub b a
  rw [abs_sub_comm, abs_of_nonneg (sub_nonneg.2 h)] at e1
  rw [abs_of_nonneg (sub_nonneg.2 h)] at e2
  constructor <;> nlinarith

/-- what the comparison of the computed profit with `γ` means -/
theorem profit_compare (hu : u ≤ 1 / 8) (h : d.Pos) {o : ProfitOracle (Fl R)} (ho : o.FlFor d) (y : Arr (Fl R)) {γ : Fl R}
    (hγ : 0 ≤ γ.val) :
    ((Scalar.ln (γ + o.flCost y) - o.flLog y).val ≤ 0 →
      γ.val ≤ Real.exp (d.cmpErr u (y.flVec 2)) / (1 - u) * d.revenue (y.flVec 2) -
        (2 - (1 + u) ^ 3) * d.expense (y.flVec 2)) ∧
    (0 < (Scalar.ln (γ + o.flCost y) - o.flLog y).val →
      Real.exp (-d.cmpErr u (y.flVec 2)) / (1 + u) * d.revenue (y.flVec 2) - (1 + u) ^ 3 * d.expense (y.flVec 2) ≤ γ.val) := by
  have hu0 := R.unit_nonneg
  have h1 := profit_log_err hu h ho y
  have h2 := profit_cost_err h ho y
  have hv : (Scalar.ln (γ + o.flCost y) - o.flLog y).val =
      R.rnd (R.rnd (Real.log (R.rnd (γ.val + (o.flCost y).val))) - (o.flLog y).val) := rfl
  have hE := d.expense_pos h (y.flVec 2)
  have hrev := d.revenue_pos h (y.flVec 2)
  rw [hv, ProfitData.cmpErr, rnd_pos_iff R hu, ← not_lt, rnd_pos_iff R hu, not_lt]
  generalize (o.flLog y).val = l at *
  generalize (o.flCost y).val = c at *
  generalize d.expense (y.flVec 2) = E at *
  generalize d.logErr u (y.flVec 2) = δ at *
  generalize d.revenue (y.flVec 2) = V at *
  generalize γ.val = g at *
  have hc3 : (1 + u) ^ 3 ≤ 3 / 2 := by
    have : (1 + u) ^ 3 ≤ (1 + 1 / 8) ^ 3 := pow_le_pow_left₀ (by linarith) (by linarith) 3
    norm_num at this; linarith
  obtain ⟨h2a, h2b⟩ := abs_le.1 h2
  have hc : 0 < c := by nlinarith
  have hsum : 0 < g + c := by linarith
  have hr := abs_le.1 (R.err (g + c))
  rw [abs_of_pos hsum] at hr
  have hT : 0 < R.rnd (g + c) := (rnd_pos_iff R hu _).2 hsum
  generalize R.rnd (g + c) = T at *
  have hκ0 : 0 ≤ u / (1 - u) := div_nonneg hu0 (by linarith)
  have hκ1 : u / (1 - u) ≤ 1 := by rw [div_le_one (by linarith)]; linarith
  have hκ2 : u / (1 - u) < 1 := by rw [div_lt_one (by linarith)]; linarith
  have h3 := abs_le.1 (Rounding.err_rev (R := R) (by linarith : u < 1) (Real.log T))
  generalize R.rnd (Real.log T) = r at *
  generalize u / (1 - u) = κ at *
  obtain ⟨h1a, h1b⟩ := abs_le.1 h1
  have hl : |l| ≤ |Real.log V| + δ := by
    have := abs_add_le (l - Real.log V) (Real.log V)
    rw [sub_add_cancel] at this
    linarith
  have hl' := mul_le_mul_of_nonneg_left hl hκ0
  have hV : V = Real.exp (Real.log V) := (Real.exp_log hrev).symm
  constructor
  · intro hle
    have h4 := (rnd_log_mono hκ0 hκ1 (sub_nonpos.1 hle)).1
    have h5 : Real.log T ≤ Real.log V + (δ + κ * (|Real.log V| + δ)) := by linarith
    have h6 : T ≤ V * Real.exp (δ + κ * (|Real.log V| + δ)) := by
      rw [Real.log_le_iff_le_exp hT, Real.exp_add, ← hV] at h5
      exact h5
    have h7 : g + c ≤ Real.exp (δ + κ * (|Real.log V| + δ)) / (1 - u) * V := by
      rw [div_mul_eq_mul_div, le_div_iff₀ (by linarith)]
      linarith
    linarith
  · intro hlt
    have h4 := (rnd_log_mono hκ0 hκ1 (sub_pos.1 hlt).le).2
    have h5 : Real.log V + -(δ + κ * (|Real.log V| + δ)) ≤ Real.log T := by linarith
    have h6 : V * Real.exp (-(δ + κ * (|Real.log V| + δ))) ≤ T := by
      rw [Real.le_log_iff_exp_le hT, Real.exp_add, ← hV] at h5
      exact h5
    have h7 : Real.exp (-(δ + κ * (|Real.log V| + δ))) / (1 + u) * V ≤ g + c := by
      rw [div_mul_eq_mul_div, div_le_iff₀ (by linarith)]
      linarith
    linarith

/-- the cost terms as computed -/
noncomputable def ProfitOracle.flQ (o : ProfitOracle (Fl R)) (y : Arr (Fl R)) (i : Nat) : Fl R :=
  o.priceOut.vec i * Scalar.exp (y.vec i)

/-- one query of `assess_feas` in rounded arithmetic -/
theorem profit_feas_fl {o : ProfitOracle (Fl R)} (ho : o.FlFor d) {y : Arr (Fl R)} (hy : y.IsVecShape 2) (γ : Fl R) :
    ∃ r o', o.assessFeas y γ = .ok (r, o') ∧ o'.FlFor d ∧ o'.elasticities = o.elasticities ∧
      (r = none → (y.vec 0 - o.logK).val ≤ 0 ∧ (Scalar.ln (γ + o.flCost y) - o.flLog y).val ≤ 0 ∧
        o'.cache.logCobb = o.flLog y ∧ o'.cache.vx = o.flCost y ∧ IsVec o'.cache.q 2 (o.flQ y)) ∧
      ∀ g b, r = some (g, b) → 0 < b.val ∧ g.IsVecShape 2 ∧
        (b = y.vec 0 - o.logK ∧ g.flVec 2 = ![1, 0] ∨ b = Scalar.ln (γ + o.flCost y) - o.flLog y ∧
          g.flVec 2 = fun i : Fin 2 => (o.flQ y i * (1 / (γ + o.flCost y)) - o.elasticities.vec i).val) := by
  have hy0 : y.idx 0 = .ok (y.vec 0) := hy.isVec.idx (by norm_num)
  obtain ⟨q, hq, hqv⟩ := ho.costShape.isVec.zipWith (hy.isVec.map Scalar.exp) (· * ·)
  have hq0 : q.idx 0 = .ok (o.priceOut.vec 0 * Scalar.exp (y.vec 0)) := hqv.idx (by norm_num)
  have hq1 : q.idx 1 = .ok (o.priceOut.vec 1 * Scalar.exp (y.vec 1)) := hqv.idx (by norm_num)
  have hdot := dot_spec ho.elasShape.isVec hy.isVec
  have hq' : o.priceOut.mul (y.map Scalar.exp) = .ok q := hq
  obtain ⟨g1, hg1, hg1v⟩ := (hqv.map fun v => v * (1 / (γ + o.flCost y))).zipWith ho.elasShape.isVec (· - ·)
  have hg1' : (q.divScalar (γ + o.flCost y)).sub o.elasticities = .ok g1 := hg1
  obtain ⟨r, idx', c', hr, hin, -, hnone, hsome⟩ := rrLoop_spec (lo := 0) (hi := 2) (body := o.body y γ)
    (fun V c => (V 0 → (y.vec 0 - o.logK).val ≤ 0) ∧
      (V 1 → (Scalar.ln (γ + o.flCost y) - o.flLog y).val ≤ 0 ∧ c.logCobb = o.flLog y ∧ c.vx = o.flCost y ∧ IsVec c.q 2 (o.flQ y)))
    (fun _ b _ => 0 < b.2.val ∧ b.1.IsVecShape 2 ∧
      (b.2 = y.vec 0 - o.logK ∧ b.1.flVec 2 = ![1, 0] ∨ b.2 = Scalar.ln (γ + o.flCost y) - o.flLog y ∧
        b.1.flVec 2 = fun i : Fin 2 => (o.flQ y i * (1 / (γ + o.flCost y)) - o.elasticities.vec i).val))
    (idx := o.idx) (s := o.cache) (by linarith [ho.lo]) (fun _ => ho.hi)
    ⟨fun h => h.elim, fun h => h.elim⟩
    (by
      intro V i c h1 h2 ⟨hV0, hV1⟩
      obtain rfl | rfl : i = 0 ∨ i = 1 := by omega
      · simp only [ProfitOracle.body, if_true, hy0, Res.ok_bind, Scalar.gt, Fl.lt_eq, Fl.zero_val, decide_eq_true_eq]
        split
        · rename_i hf
          refine ⟨_, _, rfl, by simp, ?_⟩
          rintro b hb
          obtain rfl : _ = b := by simpa using hb
          exact ⟨hf, fl_pair_shape _ _, Or.inl ⟨rfl, by funext i; fin_cases i <;> rfl⟩⟩
        · rename_i hf
          refine ⟨_, _, rfl, ?_, by simp⟩
          rintro -
          exact ⟨fun _ => not_lt.1 hf, fun hv => hV1 (by simpa using hv)⟩
      · have e1 : o.priceOut.vec 0 * Scalar.exp (y.vec 0) + o.priceOut.vec 1 * Scalar.exp (y.vec 1) = o.flCost y := rfl
        have e2 : o.logPScale + (sumTo 2 fun j => o.elasticities.vec j * y.vec j) = o.flLog y := rfl
        simp only [ProfitOracle.body, one_ne_zero, if_false, if_true, hdot, hq', hq0, hq1, Res.ok_bind, e1, e2, Scalar.gt,
          Fl.lt_eq, Fl.zero_val, decide_eq_true_eq]
        split
        · rename_i hf
          rw [hg1', Res.ok_bind]
          refine ⟨_, _, rfl, by simp, ?_⟩
          rintro b hb
          obtain rfl : _ = b := by simpa using hb
          exact ⟨hf, hg1v.shape, Or.inr ⟨rfl, funext fun i => congrArg Fl.val (hg1v.vec i.2)⟩⟩
        · rename_i hf
          refine ⟨_, _, rfl, ?_, by simp⟩
          rintro -
          exact ⟨fun hv => hV0 (by simpa using hv), fun _ => ⟨not_lt.1 hf, rfl, rfl, hqv⟩⟩)
    (by
      rintro V W c hVW ⟨a, b⟩
      exact ⟨fun hw => a ((hVW 0 (by norm_num) (by norm_num)).2 hw),
        fun hw => b ((hVW 1 (by norm_num) (by norm_num)).2 hw)⟩)
  have hr' : rrLoop 0 2 (o.body y γ) 2 o.idx o.cache = .ok (r, idx', c') := hr
  refine ⟨r, { o with idx := idx', cache := c' }, by simp only [ProfitOracle.assessFeas, hr', Res.ok_bind], ?_, rfl, ?_, ?_⟩
  · have := hin (by norm_num)
    exact ⟨by show (-1 : ℤ) ≤ idx'; omega, this.2, ho.scale, ho.limit, ho.costShape, ho.cost, ho.elasShape, ho.elas⟩
  · intro hrn
    obtain ⟨a, b⟩ := hnone hrn
    exact ⟨a ⟨by norm_num, by norm_num⟩, b ⟨by norm_num, by norm_num⟩⟩
  · intro g b hb
    exact (hsome _ hb).2.2

/-- one query of `ProfitOracle` in rounded arithmetic, with everything that is returned -/
theorem profit_assess_fl {o : ProfitOracle (Fl R)} (ho : o.FlFor d) {y : Arr (Fl R)} (hy : y.IsVecShape 2) (γ : Fl R) :
    ∃ g beta shrunk γ' o', ProfitOracle.oracle.assess o y γ = .ok (((g, ⟨beta⟩), shrunk), γ', o') ∧ o'.FlFor d ∧
      g.IsVecShape 2 ∧
      (shrunk = true → (y.vec 0 - o.logK).val ≤ 0 ∧ (Scalar.ln (γ + o.flCost y) - o.flLog y).val ≤ 0 ∧
        γ' = Scalar.exp (o.flLog y) - o.flCost y ∧
        g.flVec 2 = fun i : Fin 2 => (o.flQ y i * (1 / Scalar.exp (o.flLog y)) - o.elasticities.vec i).val) ∧
      (shrunk = false → γ' = γ ∧ 0 < beta.val ∧
        (beta = y.vec 0 - o.logK ∧ g.flVec 2 = ![1, 0] ∨ beta = Scalar.ln (γ + o.flCost y) - o.flLog y ∧
          g.flVec 2 = fun i : Fin 2 => (o.flQ y i * (1 / (γ + o.flCost y)) - o.elasticities.vec i).val)) := by
  obtain ⟨r, o', hr, ho', hel, hnone, hsome⟩ := profit_feas_fl ho hy γ
  cases r with
  | some p =>
    obtain ⟨g, b⟩ := p
    obtain ⟨hb, hg, hor⟩ := hsome g b rfl
    refine ⟨g, b, false, γ, o', ?_, ho', hg, by simp, fun _ => ⟨rfl, hb, hor⟩⟩
    simp only [ProfitOracle.oracle, ProfitOracle.assess, hr, Res.ok_bind]
  | none =>
    obtain ⟨h1, h2, h3, h4, h5⟩ := hnone rfl
    obtain ⟨g, hg, hgv⟩ := (h5.map fun v => v * (1 / Scalar.exp (o.flLog y))).zipWith ho'.elasShape.isVec (· - ·)
    have hg' : (o'.cache.q.divScalar (Scalar.exp (o.flLog y))).sub o'.elasticities = .ok g := hg
    refine ⟨g, 0, true, Scalar.exp (o.flLog y) - o.flCost y, o', ?_, ho', hgv.shape, fun _ => ⟨h1, h2, rfl,
      funext fun i => ?_⟩, by simp⟩
    · simp only [ProfitOracle.oracle, ProfitOracle.assess, hr, Res.ok_bind, h3, h4, hg']
    · refine (congrArg Fl.val (hgv.vec i.2)).trans ?_
      rw [hel]

/-- **C95** One query of `ProfitOracle` in rounded arithmetic, whatever its history: no panic, and the oracle stays one for the
same data.
* Accepted: the first input obeys the limit as the oracle stores it, `y₀ ≤ rnd (ln limit)`; the new `γ'` is the true profit up to
  `profitErr`; and (for `γ ≥ 0`) the point is not worse than `γ` by more than the stated amount.
* Rejected: `γ` is unchanged, `beta > 0`, and either the stored limit is violated or (for `γ ≥ 0`) the point is not better than `γ`
  by more than the stated amount. -/
theorem C95_profit_answer (hu : u ≤ 1 / 8) (h : d.Pos) (o : ProfitOracle (Fl R)) (ho : o.FlFor d) (y : Arr (Fl R))
    (hy : y.IsVecShape 2) (γ : Fl R) :
    ∃ g beta shrunk γ' o', ProfitOracle.oracle.assess o y γ = .ok (((g, ⟨beta⟩), shrunk), γ', o') ∧ o'.FlFor d ∧
      g.IsVecShape 2 ∧
      (shrunk = true → y.flVec 2 0 ≤ R.rnd (Real.log d.limit) ∧
        |γ'.val - d.profit (y.flVec 2)| ≤ d.profitErr u (y.flVec 2) ∧
        (0 ≤ γ.val → γ.val ≤ Real.exp (d.cmpErr u (y.flVec 2)) / (1 - u) * d.revenue (y.flVec 2) -
          (2 - (1 + u) ^ 3) * d.expense (y.flVec 2))) ∧
      (shrunk = false → γ' = γ ∧ 0 < beta.val ∧ (R.rnd (Real.log d.limit) < y.flVec 2 0 ∨
        (0 ≤ γ.val → Real.exp (-d.cmpErr u (y.flVec 2)) / (1 + u) * d.revenue (y.flVec 2) -
          (1 + u) ^ 3 * d.expense (y.flVec 2) ≤ γ.val))) := by
  obtain ⟨r, o', hr, ho', -, hnone, hsome⟩ := profit_feas_fl ho hy γ
  have hlim : (y.vec 0 - o.logK).val = R.rnd (y.flVec 2 0 - R.rnd (Real.log d.limit)) := by rw [← ho.limit]; rfl
  cases r with
  | some p =>
    obtain ⟨g, b⟩ := p
    obtain ⟨hb, hg, hor⟩ := hsome g b rfl
    refine ⟨g, b, false, γ, o', ?_, ho', hg, by simp, fun _ => ⟨rfl, hb, ?_⟩⟩
    · simp only [ProfitOracle.oracle, ProfitOracle.assess, hr, Res.ok_bind]
    · rcases hor with ⟨rfl, -⟩ | ⟨rfl, -⟩
      · left
        rw [hlim, rnd_pos_iff R hu] at hb
        linarith
      · exact Or.inr fun hγ => (profit_compare hu h ho y hγ).2 hb
  | none =>
    obtain ⟨h1, h2, h3, h4, h5⟩ := hnone rfl
    obtain ⟨g, hg, hgv⟩ := (h5.map fun v => v * (1 / Scalar.exp (o.flLog y))).zipWith ho'.elasShape.isVec (· - ·)
    have hg' : (o'.cache.q.divScalar (Scalar.exp (o.flLog y))).sub o'.elasticities = .ok g := hg
    refine ⟨g, 0, true, Scalar.exp (o.flLog y) - o.flCost y, o', ?_, ho', hgv.shape, fun _ => ⟨?_, profit_value_err hu h ho y,
      fun hγ => (profit_compare hu h ho y hγ).1 h2⟩, by simp⟩
    · simp only [ProfitOracle.oracle, ProfitOracle.assess, hr, Res.ok_bind, h3, h4, hg']
    · rw [hlim, ← not_lt, rnd_pos_iff R hu] at h1
      linarith

/-- **C95** (start) a fresh `ProfitOracle` is built for its data, which must be floating-point numbers -/
theorem C95_profit_new {price scale limit : Fl R} {a v : Arr (Fl R)} (ha : a.IsVecShape 2) (hv : v.IsVecShape 2) :
    (ProfitOracle.new price scale limit a v).FlFor ⟨price.val, scale.val, limit.val, a.flVec 2, v.flVec 2⟩ :=
  ⟨le_refl _, by show (-1 : ℤ) < 2; decide, rfl, rfl, hv, rfl, ha, rfl⟩

/-- **C95** (runs)  `cutting_plane_optim` with a profit oracle in rounded arithmetic, over any steady search space, whatever
rounding does to that space, from any `γ`: the run ends without a panic; without a solution `γ` is unchanged; a returned point
obeys the stored limit and the reported `γ'` is its true profit up to `profitErr`. -/
theorem C95_profit_run {S : Type} {sp : Space S (Arr (Fl R)) (SingleCut (Fl R)) (Fl R)} {Q : S → Prop} (hsp : sp.Steady 2 Q)
    (hu : u ≤ 1 / 8) (h : d.Pos) (o : ProfitOracle (Fl R)) (ho : o.FlFor d) {s : S} (hs : Q s) (γ : Fl R)
    (opts : Options (Fl R)) :
    ∃ r k γ' o' s', cuttingPlaneOptim ProfitOracle.oracle sp o s γ opts = .ok ((r, k), γ', o', s') ∧ (r = none → γ' = γ) ∧
      ∀ y, r = some y → y.IsVecShape 2 ∧ y.flVec 2 0 ≤ R.rnd (Real.log d.limit) ∧
        |γ'.val - d.profit (y.flVec 2)| ≤ d.profitErr u (y.flVec 2) := by
  obtain ⟨r, k, γ', w', s', h1, h2, h3, h4⟩ := optim_accepted hsp (I := fun w _ => w.FlFor d)
    (orc := ProfitOracle.oracle) (w := o) (s := s) (g := γ) (by
      intro w x g hw hx
      obtain ⟨gr, beta, sh, g', w', hq, hw', hsh, -, h5⟩ := C95_profit_answer hu h w hw x hx g
      exact ⟨(gr, ⟨beta⟩), sh, g', w', hq, hw', fun h => (h5 h).1, hsh⟩) opts ho hs
  refine ⟨r, k, γ', w', s', h1, h3, ?_⟩
  intro x hx
  obtain ⟨hxs, w1, g1, c, w2, hw1, hq⟩ := h4 x hx
  obtain ⟨gr, beta, sh, g', w3, hq', -, -, h5, -⟩ := C95_profit_answer hu h w1 hw1 x hxs g1
  rw [hq] at hq'
  simp only [Res.ok.injEq, Prod.mk.injEq] at hq'
  obtain ⟨⟨-, rfl⟩, rfl, -⟩ := hq'
  exact ⟨hxs, (h5 rfl).1, (h5 rfl).2.1⟩

/-! ### the robust oracle -/

theorem rb_worst_fl {o : ProfitRbOracle (Fl R)} {e1 e2 : ℝ} (ho : o.FlFor d e1 e2) {y : Arr (Fl R)} (hy : y.IsVecShape 2) :
    ∃ a, o.worst y = .ok a ∧ a.IsVecShape 2 ∧ a.flVec 2 = (d.flWorstAt R e1 e2 (y.flVec 2)).elas := by
  have hi := hy.isVec
  have he := ho.elasShape.isVec
  obtain ⟨a1, h1, k1⟩ := he.setIdx (i := 0) (by norm_num)
    (o.elasticities.vec 0 + (if Scalar.gt (y.vec 0) 0 then -o.uie0 else o.uie0))
  have h01 : a1.idx 1 = .ok (o.elasticities.vec 1) := by rw [k1.idx (by norm_num)]; rfl
  obtain ⟨a2, h2, k2⟩ := k1.setIdx (i := 1) (by norm_num)
    (o.elasticities.vec 1 + (if Scalar.gt (y.vec 1) 0 then -o.uie1 else o.uie1))
  refine ⟨a2, ?_, k2.shape, ?_⟩
  · have i0 : y.idx 0 = .ok (y.vec 0) := hi.idx (by norm_num)
    have i1 : y.idx 1 = .ok (y.vec 1) := hi.idx (by norm_num)
    have j0 : o.elasticities.idx 0 = .ok (o.elasticities.vec 0) := he.idx (by norm_num)
    rw [ProfitRbOracle.worst]
    simp only [forRange, forN, Nat.sub_zero, zero_add, List.getElem?_cons_zero, List.getElem?_cons_succ, Res.ofOption, Res.ok_bind,
      i0, i1, j0, h1, h01, h2]
  · have e0 : (o.elasticities.vec 0).val = d.elas 0 := congrFun ho.elas 0
    have e1' : (o.elasticities.vec 1).val = d.elas 1 := congrFun ho.elas 1
    funext i
    fin_cases i
    · have := congrArg Fl.val (k2.vec (i := 0) (by norm_num))
      refine Eq.trans this ?_
      show R.rnd ((o.elasticities.vec 0).val + (if Scalar.gt (y.vec 0) 0 then -o.uie0 else o.uie0).val) = _
      rw [e0, apply_ite Fl.val]
      simp only [Scalar.gt, Fl.lt_eq, Fl.zero_val, decide_eq_true_eq, ProfitData.flWorstAt]
      have : (-o.uie0).val = -e1 := by rw [← ho.uie0]; rfl
      rw [this, ho.uie0]
      rfl
    · have := congrArg Fl.val (k2.vec (i := 1) (by norm_num))
      refine Eq.trans this ?_
      show R.rnd ((o.elasticities.vec 1).val + (if Scalar.gt (y.vec 1) 0 then -o.uie1 else o.uie1).val) = _
      rw [e1', apply_ite Fl.val]
      simp only [Scalar.gt, Fl.lt_eq, Fl.zero_val, decide_eq_true_eq, ProfitData.flWorstAt]
      have : (-o.uie1).val = -e2 := by rw [← ho.uie1]; rfl
      rw [this, ho.uie1]
      rfl

/-- **C95** One query of `ProfitRbOracle` in rounded arithmetic: as `C95_profit_answer`, for the data with the worst elasticities
at the queried point. -/
theorem C95_robust_answer (hu : u ≤ 1 / 8) (h : d.Pos) {e1 e2 : ℝ} (o : ProfitRbOracle (Fl R)) (ho : o.FlFor d e1 e2)
    (y : Arr (Fl R)) (hy : y.IsVecShape 2) (γ : Fl R) :
    ∃ g beta shrunk γ' o', ProfitRbOracle.oracle.assess o y γ = .ok (((g, ⟨beta⟩), shrunk), γ', o') ∧ o'.FlFor d e1 e2 ∧
      g.IsVecShape 2 ∧
      (shrunk = true → y.flVec 2 0 ≤ R.rnd (Real.log d.limit) ∧
        |γ'.val - (d.flWorstAt R e1 e2 (y.flVec 2)).profit (y.flVec 2)| ≤
          (d.flWorstAt R e1 e2 (y.flVec 2)).profitErr u (y.flVec 2)) ∧
      (shrunk = false → γ' = γ ∧ 0 < beta.val) := by
  obtain ⟨a, ha, hash, hav⟩ := rb_worst_fl ho hy
  obtain ⟨el, hom⟩ := ho.omega
  have hfor : ({ o.omega with elasticities := a }).FlFor (d.flWorstAt R e1 e2 (y.flVec 2)) :=
    ⟨hom.lo, hom.hi, hom.scale, hom.limit, hom.costShape, hom.cost, hash, hav⟩
  have hpos : (d.flWorstAt R e1 e2 (y.flVec 2)).Pos := ⟨h.price, h.scale, h.limit, h.cost⟩
  obtain ⟨g, beta, sh, γ', o', hq, ho', hg, h1, h2⟩ := C95_profit_answer hu hpos _ hfor y hy γ
  refine ⟨g, beta, sh, γ', { o with omega := o' }, ?_, ⟨⟨_, ho'⟩, ho.elasShape, ho.elas, ho.uie0, ho.uie1⟩, hg,
    fun hs => ⟨(h1 hs).1, (h1 hs).2.1⟩, fun hs => ⟨(h2 hs).1, (h2 hs).2.1⟩⟩
  have hq' : ({ o.omega with elasticities := a }).assess y γ = .ok (((g, ⟨beta⟩), sh), γ', o') := hq
  simp only [ProfitRbOracle.oracle, ProfitRbOracle.assess, ha, Res.ok_bind, hq']

/-- **C95** (robust runs)  As `C95_profit_run` for `ProfitRbOracle`: the reported `γ'` is the profit of the returned point under
the worst elasticities there, up to `profitErr`. -/
theorem C95_robust_run {S : Type} {sp : Space S (Arr (Fl R)) (SingleCut (Fl R)) (Fl R)} {Q : S → Prop} (hsp : sp.Steady 2 Q)
    (hu : u ≤ 1 / 8) (h : d.Pos) {e1 e2 : ℝ} (o : ProfitRbOracle (Fl R)) (ho : o.FlFor d e1 e2) {s : S} (hs : Q s) (γ : Fl R)
    (opts : Options (Fl R)) :
    ∃ r k γ' o' s', cuttingPlaneOptim ProfitRbOracle.oracle sp o s γ opts = .ok ((r, k), γ', o', s') ∧ (r = none → γ' = γ) ∧
      ∀ y, r = some y → y.IsVecShape 2 ∧ y.flVec 2 0 ≤ R.rnd (Real.log d.limit) ∧
        |γ'.val - (d.flWorstAt R e1 e2 (y.flVec 2)).profit (y.flVec 2)| ≤
          (d.flWorstAt R e1 e2 (y.flVec 2)).profitErr u (y.flVec 2) := by
  obtain ⟨r, k, γ', w', s', h1, h2, h3, h4⟩ := optim_accepted hsp (I := fun w _ => w.FlFor d e1 e2)
    (orc := ProfitRbOracle.oracle) (w := o) (s := s) (g := γ) (by
      intro w x g hw hx
      obtain ⟨gr, beta, sh, g', w', hq, hw', hsh, -, h5⟩ := C95_robust_answer hu h w hw x hx g
      exact ⟨(gr, ⟨beta⟩), sh, g', w', hq, hw', fun h => (h5 h).1, hsh⟩) opts ho hs
  refine ⟨r, k, γ', w', s', h1, h3, ?_⟩
  intro x hx
  obtain ⟨hxs, w1, g1, c, w2, hw1, hq⟩ := h4 x hx
  obtain ⟨gr, beta, sh, g', w3, hq', -, -, h5, -⟩ := C95_robust_answer hu h w1 hw1 x hxs g1
  rw [hq] at hq'
  simp only [Res.ok.injEq, Prod.mk.injEq] at hq'
  obtain ⟨⟨-, rfl⟩, rfl, -⟩ := hq'
  exact ⟨hxs, h5 rfl⟩

/-- **C95** (robust start)  a fresh `ProfitRbOracle` is built for the reduced price and limit and the raised costs -/
theorem C95_robust_new {price scale limit e1 e2 e3 e4 e5 : Fl R} {a v : Arr (Fl R)} (ha : a.IsVecShape 2) (hv : v.IsVecShape 2) :
    ∃ o, ProfitRbOracle.new price scale limit a v e1 e2 e3 e4 e5 = .ok o ∧
      o.FlFor ⟨R.rnd (price.val - e3.val), scale.val, R.rnd (limit.val - e4.val), a.flVec 2,
        fun i => R.rnd (v.flVec 2 i + e5.val)⟩ e1.val e2.val := by
  obtain ⟨c, h1, h2⟩ := hv.isVec.zipWith (fl_pair_shape e5 e5).isVec (· + ·)
  have h1' : v.add (Arr.ofList [e5, e5]) = .ok c := h1
  refine ⟨⟨e1, e2, ProfitOracle.new (price - e3) scale (limit - e4) a c, a⟩, ?_, ?_⟩
  · simp only [ProfitRbOracle.new, h1', Res.ok_bind]
  · refine ⟨⟨a.flVec 2, le_refl _, by show (-1 : ℤ) < 2; decide, rfl, rfl, h2.shape, ?_, ha, rfl⟩, ha, rfl, rfl, rfl⟩
    funext i
    have := congrArg Fl.val (h2.vec i.2)
    refine Eq.trans this ?_
    fin_cases i <;> rfl

end Ellalgo
