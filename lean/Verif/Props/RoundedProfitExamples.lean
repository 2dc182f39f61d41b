import Verif.Props.RoundedProfit
import Verif.Props.RoundedPlaneExamples

/-! Property C95: the hypotheses are met in `f64`, and without the error term the claim is false. -/

namespace Ellalgo
open Matrix

/-- the data of the tests in profit_oracle.rs, with the elasticities rounded to `f64` -/
noncomputable def testProfit : ProfitOracle (Fl bin53) :=
  ProfitOracle.new ⟨20⟩ ⟨40⟩ ⟨61 / 2⟩ ⟨[Scalar.dec 1 1, Scalar.dec 4 1], 2, 0⟩ ⟨[⟨10⟩, ⟨35⟩], 2, 0⟩

/-- every run of the first test in `f64`, over any ellipsoid and with any options -/
example (e : Ell (Fl bin53)) (he : e.Shaped 2) (γ : Fl bin53) (opts : Options (Fl bin53)) :
    ∃ d : ProfitData, d.Pos ∧ d.price = 20 ∧ ∃ r k γ' o' s',
      cuttingPlaneOptim ProfitOracle.oracle Ell.space testProfit e γ opts = .ok ((r, k), γ', o', s') ∧
      ∀ y, r = some y → y.flVec 2 0 ≤ bin53.rnd (Real.log (61 / 2)) ∧
        |γ'.val - d.profit (y.flVec 2)| ≤ d.profitErr (2 ^ (-53 : ℤ)) (y.flVec 2) := by
  have hfor := C95_profit_new (price := (⟨20⟩ : Fl bin53)) (scale := ⟨40⟩) (limit := ⟨61 / 2⟩)
    (a := ⟨[Scalar.dec 1 1, Scalar.dec 4 1], 2, 0⟩) (v := ⟨[⟨10⟩, ⟨35⟩], 2, 0⟩) ⟨rfl, rfl, rfl⟩ ⟨rfl, rfl, rfl⟩
  set d : ProfitData := ⟨20, 40, 61 / 2, (⟨[Scalar.dec 1 1, Scalar.dec 4 1], 2, 0⟩ : Arr (Fl bin53)).flVec 2,
    (⟨[⟨10⟩, ⟨35⟩], 2, 0⟩ : Arr (Fl bin53)).flVec 2⟩ with hd
  have hpos : d.Pos := by
    refine ⟨by norm_num [hd], by norm_num [hd], by norm_num [hd], fun i => ?_⟩
    fin_cases i
    · show (0 : ℝ) < 10; norm_num
    · show (0 : ℝ) < 35; norm_num
  obtain ⟨r, k, γ', o', s', h1, -, h2⟩ := C95_profit_run (d := d) (C86_ell_steady (by norm_num)).1 (by norm_num) hpos
    testProfit hfor he γ opts
  exact ⟨d, hpos, rfl, r, k, γ', o', s', h1, fun y hy => (h2 y hy).2⟩

/-- **C95** (why an error term)  In `f64` the oracle can report a profit that is not reached: with price, scale 1, limit 2,
elasticities 0 and input prices `2⁻⁶⁰` it reports 1 at `y = 0`, where the profit is `1 - 2⁻⁵⁹`. -/
theorem C95_exact_profit_fails : ∃ (d : ProfitData) (o : ProfitOracle (Fl bin53)) (y : Arr (Fl bin53))
    (c : Arr (Fl bin53) × SingleCut (Fl bin53)) (o' : ProfitOracle (Fl bin53)), d.Pos ∧ o.FlFor d ∧ y.IsVecShape 2 ∧
    y.flVec 2 = 0 ∧ ProfitOracle.oracle.assess o y 0 = .ok ((c, true), 1, o') ∧ d.profit (y.flVec 2) < 1 := by
  set t : ℝ := 2 ^ (-60 : ℤ) with ht
  set y : Arr (Fl bin53) := Arr.new 2 with hy
  set pr : Arr (Fl bin53) := ⟨[⟨t⟩, ⟨t⟩], 2, 0⟩ with hpr
  have hysh : y.IsVecShape 2 := (isVec_new 2).shape
  have ho := C95_profit_new (price := (⟨1⟩ : Fl bin53)) (scale := ⟨1⟩) (limit := ⟨2⟩) (a := Arr.new 2) (v := pr)
    (isVec_new 2).shape ⟨rfl, rfl, rfl⟩
  set d : ProfitData := ⟨1, 1, 2, (Arr.new 2 : Arr (Fl bin53)).flVec 2, pr.flVec 2⟩ with hd
  set o : ProfitOracle (Fl bin53) := ProfitOracle.new ⟨1⟩ ⟨1⟩ ⟨2⟩ (Arr.new 2) pr with hod
  have h0 : y.flVec 2 = 0 := by funext i; fin_cases i <;> rfl
  have htp : 0 < t := by rw [ht]; positivity
  have hcost : d.cost = ![t, t] := by funext i; fin_cases i <;> rfl
  have helas : d.elas = 0 := by funext i; fin_cases i <;> rfl
  have hpos : d.Pos := ⟨by norm_num [hd], by norm_num [hd], by norm_num [hd], fun i => by
    rw [hcost]; fin_cases i <;> exact htp⟩
  have r0 : bin53.rnd 0 = 0 := Loss.r_int 0 0 _ (by norm_num) (by norm_num)
  have rt : bin53.rnd t = t := Loss.r_int 1 (-60) _ (by rw [ht]; norm_num) (by norm_num)
  have r2t : bin53.rnd (t + t) = t + t := Loss.r_int 1 (-59) _ (by rw [ht]; norm_num) (by norm_num)
  have hlog : o.flLog y = 0 := by
    refine Fl.ext ?_
    show bin53.rnd (bin53.rnd (Real.log (bin53.rnd (1 * 1))) + bin53.rnd (bin53.rnd (0 + bin53.rnd (0 * 0)) + bin53.rnd (0 * 0))) = 0
    simp only [mul_one, bin53.one, Real.log_one, mul_zero, r0, add_zero]
  have hc : o.flCost y = ⟨t + t⟩ := by
    refine Fl.ext ?_
    show bin53.rnd (bin53.rnd (t * bin53.rnd (Real.exp 0)) + bin53.rnd (t * bin53.rnd (Real.exp 0))) = t + t
    rw [Real.exp_zero, bin53.one, mul_one, rt, r2t]
  obtain ⟨r, o', hr, ho', -, hnone, hsome⟩ := profit_feas_fl ho hysh (0 : Fl bin53)
  have hrn : r = none := by
    rcases r with _ | ⟨g, b⟩
    · rfl
    exfalso
    obtain ⟨hb, -, ⟨h1, -⟩ | ⟨h1, -⟩⟩ := hsome g b rfl
    · have e : b.val = bin53.rnd (0 - bin53.rnd (Real.log 2)) := by rw [h1]; rfl
      rw [e, rnd_pos_iff bin53 (by norm_num)] at hb
      have := (rnd_pos_iff bin53 (by norm_num) (Real.log 2)).2 (Real.log_pos (by norm_num))
      linarith
    · rw [hlog, hc] at h1
      have e : b.val = bin53.rnd (bin53.rnd (Real.log (bin53.rnd (0 + (t + t)))) - 0) := by rw [h1]; rfl
      rw [e, rnd_pos_iff bin53 (by norm_num), sub_zero, rnd_pos_iff bin53 (by norm_num), zero_add, r2t] at hb
      have : Real.log (t + t) ≤ 0 := Real.log_nonpos (by linarith) (by rw [ht]; norm_num)
      linarith
  subst hrn
  obtain ⟨-, -, h3, h4, h5⟩ := hnone rfl
  obtain ⟨g, hg, hgv⟩ := (h5.map fun v => v * (1 / Scalar.exp (o.flLog y))).zipWith ho'.elasShape.isVec (· - ·)
  have hg' : (o'.cache.q.divScalar (Scalar.exp (o.flLog y))).sub o'.elasticities = .ok g := hg
  have hval : (Scalar.exp (o.flLog y) - o.flCost y : Fl bin53) = 1 := by
    rw [hlog, hc]
    refine Fl.ext ?_
    show bin53.rnd (bin53.rnd (Real.exp 0) - (t + t)) = 1
    rw [Real.exp_zero, bin53.one]
    have h := rnd53_eq (x := 1 - (t + t)) (-1) (2 ^ 53) (by rw [ht]; norm_num [abs_of_pos]) (by rw [ht]; norm_num [abs_of_pos])
      (by rw [ht]; norm_num [abs_lt])
    show rnd53 _ = _
    rw [h]; norm_num
  refine ⟨d, o, y, (g, ⟨0⟩), o', hpos, ho, hysh, h0, ?_, ?_⟩
  · simp only [ProfitOracle.oracle, ProfitOracle.assess, hr, Res.ok_bind, h3, h4, hg', hval]
  · rw [ProfitData.profit, d.revenue_eq, ProfitData.expense, hcost, helas, h0]
    simp [hd]
    linarith

end Ellalgo
