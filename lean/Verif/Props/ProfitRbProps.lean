import Verif.Props.ProfitProps

/-! C60: the robust profit oracle. -/

namespace Ellalgo
open Matrix

variable {d : ProfitData} {u : ProfitUncertainty}

/-- the worst data at `y` -/
noncomputable def ProfitData.worstAt (d : ProfitData) (u : ProfitUncertainty) (y : Fin 2 → ℝ) : ProfitData where
  price := d.price - u.e3
  scale := d.scale
  limit := d.limit - u.e4
  elas := ![d.elas 0 + (if 0 < y 0 then -u.e1 else u.e1), d.elas 1 + (if 0 < y 1 then -u.e2 else u.e2)]
  cost := fun i => d.cost i + u.e5

theorem worstAt_pos (h : d.Pos) (hu : u.Ok d) (y : Fin 2 → ℝ) : (d.worstAt u y).Pos :=
  ⟨sub_pos.2 hu.price, h.scale, sub_pos.2 hu.limit, fun i => add_pos_of_pos_of_nonneg (h.cost i) hu.e5⟩

theorem worstAt_mem (hu : u.Ok d) (y : Fin 2 → ℝ) : d.worstAt u y ∈ d.within u := by
  refine ⟨?_, ?_, ?_, ?_, ?_, rfl⟩
  · show |d.elas 0 + (if 0 < y 0 then -u.e1 else u.e1) - d.elas 0| ≤ u.e1
    rw [add_sub_cancel_left]
    split
    · rw [abs_neg, abs_of_nonneg hu.e1]
    · rw [abs_of_nonneg hu.e1]
  · show |d.elas 1 + (if 0 < y 1 then -u.e2 else u.e2) - d.elas 1| ≤ u.e2
    rw [add_sub_cancel_left]
    split
    · rw [abs_neg, abs_of_nonneg hu.e2]
    · rw [abs_of_nonneg hu.e2]
  · show |d.price - u.e3 - d.price| ≤ u.e3
    rw [sub_sub_cancel_left, abs_neg, abs_of_nonneg hu.e3]
  · show |d.limit - u.e4 - d.limit| ≤ u.e4
    rw [sub_sub_cancel_left, abs_neg, abs_of_nonneg hu.e4]
  · intro i
    show |d.cost i + u.e5 - d.cost i| ≤ u.e5
    rw [add_sub_cancel_left, abs_of_nonneg hu.e5]

theorem elas_worst {a a' e t : ℝ} (h : |a' - a| ≤ e) : (a + (if 0 < t then -e else e)) * t ≤ a' * t := by
  obtain ⟨h1, h2⟩ := abs_le.1 h
  split
  · rename_i ht
    exact mul_le_mul_of_nonneg_right (by linarith) ht.le
  · rename_i ht
    exact mul_le_mul_of_nonpos_right (by linarith) (not_lt.1 ht)

theorem worstAt_le (h : d.Pos) (hu : u.Ok d) (y : Fin 2 → ℝ) {d' : ProfitData} (hd : d' ∈ d.within u) :
    (d.worstAt u y).profit y ≤ d'.profit y := by
  obtain ⟨h1, h2, h3, h4, h5, h6⟩ := hd
  have hp : d.price - u.e3 ≤ d'.price := by linarith [(abs_le.1 h3).1]
  have hp0 : 0 < d.price - u.e3 := sub_pos.2 hu.price
  have hc : ∀ i, d'.cost i ≤ d.cost i + u.e5 := fun i => by linarith [(abs_le.1 (h5 i)).2]
  rw [ProfitData.profit, ProfitData.profit, ProfitData.revenue_eq, ProfitData.revenue_eq]
  have hdot : (d.worstAt u y).elas ⬝ᵥ y ≤ d'.elas ⬝ᵥ y := by
    simp only [dotProduct, Fin.sum_univ_two]
    exact add_le_add (elas_worst h1) (elas_worst h2)
  have hrev : (d.worstAt u y).price * (d.worstAt u y).scale * Real.exp ((d.worstAt u y).elas ⬝ᵥ y) ≤
      d'.price * d'.scale * Real.exp (d'.elas ⬝ᵥ y) := by
    rw [h6]
    show (d.price - u.e3) * d.scale * _ ≤ _
    have := h.scale
    have : 0 < d'.price := by linarith
    gcongr
  have hexp : d'.expense y ≤ (d.worstAt u y).expense y := by
    unfold ProfitData.expense
    have := hc 0
    have := hc 1
    show _ ≤ (d.cost 0 + u.e5) * Real.exp (y 0) + (d.cost 1 + u.e5) * Real.exp (y 1)
    gcongr
  linarith

/-- **C60** the guaranteed profit is attained by data within the uncertainty: it is a true minimum -/
theorem robustProfit_isLeast (h : d.Pos) (hu : u.Ok d) (y : Fin 2 → ℝ) :
    IsLeast ((fun d' => d'.profit y) '' d.within u) ((d.worstAt u y).profit y) := by
  refine ⟨⟨_, worstAt_mem hu y, rfl⟩, ?_⟩
  rintro _ ⟨d', hd, rfl⟩
  exact worstAt_le h hu y hd

theorem robustProfit_eq (h : d.Pos) (hu : u.Ok d) (y : Fin 2 → ℝ) :
    d.robustProfit u y = (d.worstAt u y).profit y := (robustProfit_isLeast h hu y).csInf_eq

theorem robustProfit_le (h : d.Pos) (hu : u.Ok d) (z : Fin 2 → ℝ) {d' : ProfitData} (hd : d' ∈ d.within u) :
    d.robustProfit u z ≤ d'.profit z := by
  rw [robustProfit_eq h hu]
  exact worstAt_le h hu z hd

theorem robustFeasible_eq (hu : u.Ok d) (y : Fin 2 → ℝ) : d.robustFeasible u = (d.worstAt u y).feasible := by
  ext z
  constructor
  · intro hz
    exact hz _ (worstAt_mem hu y)
  · intro hz d' hd
    have hz : Real.exp (z 0) ≤ d.limit - u.e4 := hz
    show Real.exp (z 0) ≤ d'.limit
    linarith [(abs_le.1 hd.2.2.2.1).1]

/-- the internal state of a `ProfitRbOracle` built for nominal data `d` and uncertainty `u`: the inner oracle's
elasticities, cache and position are whatever earlier queries left -/
structure ProfitRbOracle.For (o : ProfitRbOracle ℝ) (d : ProfitData) (u : ProfitUncertainty) : Prop where
  e1 : o.uie0 = u.e1
  e2 : o.uie1 = u.e2
  elas : RV o.elasticities d.elas
  inner : ∃ a, o.omega.For ⟨d.price - u.e3, d.scale, d.limit - u.e4, a, fun i => d.cost i + u.e5⟩

theorem worst_spec {o : ProfitRbOracle ℝ} (ho : o.For d u) {y : Arr ℝ} {v : Fin 2 → ℝ} (hy : RV y v) :
    ∃ a, o.worst y = .ok a ∧ RV a (d.worstAt u v).elas := by
  obtain ⟨a, h1, h2⟩ := loop_entry (n := 2) (y := o.elasticities) (v := d.elas)
    (f := fun i old => old + (if 0 < v i then -(![o.uie0, o.uie1] i) else ![o.uie0, o.uie1] i))
    (body := fun i a => do
      let u ← Res.ofOption [o.uie0, o.uie1][i]?
      let yi ← y.idx i
      let old ← a.idx i
      a.setIdx i (old + (if Scalar.gt yi 0 then -u else u))) ho.elas (by
    intro i z w hz
    have e : ([o.uie0, o.uie1][(i : Nat)]? : Option ℝ) = some (![o.uie0, o.uie1] i) := by
      fin_cases i <;> rfl
    simp only [e, Res.ofOption, Res.ok_bind, RV.idx hy i, RV.idx hz i, Scalar.real_gt, decide_eq_true_eq])
  refine ⟨a, h1, ?_⟩
  convert h2 using 1
  funext i
  rw [ho.e1, ho.e2]
  fin_cases i <;> rfl

/-- one query, with the cut in explicit form -/
theorem robust_assess (h : d.Pos) (hu : u.Ok d) (o : ProfitRbOracle ℝ) (ho : o.For d u) (y : Arr ℝ)
    (hy : y.IsVecShape 2) {γ : ℝ} (hγ : 0 ≤ γ) :
    ∃ g beta shrunk γ' o', ProfitRbOracle.oracle.assess o y γ = .ok (((g, ⟨beta⟩), shrunk), γ', o') ∧ o'.For d u ∧
      MaxAnswer (d.robustFeasible u) (d.robustProfit u) (y.toVec 2) γ g beta shrunk γ' ∧
      (d.worstAt u (y.toVec 2)).CutAt (y.toVec 2) γ' (g.toVec 2) beta := by
  set v := y.toVec 2 with hv
  have hyv : RV y v := ⟨hy, rfl⟩
  obtain ⟨a, ha, hav⟩ := worst_spec ho hyv
  obtain ⟨a0, hin⟩ := ho.inner
  have hin' : ({ o.omega with elasticities := a } : ProfitOracle ℝ).For (d.worstAt u v) :=
    ⟨hin.lo, hin.hi, hin.scale, hin.limit, hin.cost, hav⟩
  obtain ⟨g, b, s, γ', w, hq, hw, hm, hcut, -⟩ := profit_assess (worstAt_pos h hu v) _ hin' y hy hγ
  rw [← hv] at hm
  have hq' : ({ o.omega with elasticities := a } : ProfitOracle ℝ).assess y γ = .ok (((g, ⟨b⟩), s), γ', w) := hq
  refine ⟨g, b, s, γ', { o with omega := w }, ?_, ?_, ?_, hcut⟩
  · simp only [ProfitRbOracle.oracle, ProfitRbOracle.assess, ha, Res.ok_bind, hq']
  · exact ⟨ho.e1, ho.e2, ho.elas, (d.worstAt u v).elas, hw⟩
  · have hF := robustFeasible_eq hu v
    have hf := robustProfit_eq h hu v
    refine ⟨hm.shape, ?_, ?_, ?_, ?_⟩
    · rw [hF, hf]; exact hm.improves
    · rw [hf]; exact hm.value
    · intro hs
      refine ⟨(hm.rejected hs).1, fun z hz hp => (hm.rejected hs).2 z (by rw [← hF]; exact hz) ?_⟩
      exact hp.trans (robustProfit_le h hu z (worstAt_mem hu v))
    · intro hs
      refine ⟨(hm.accepted hs).1, fun z hz hp => (hm.accepted hs).2 z (by rw [← hF]; exact hz) ?_⟩
      exact hp.trans (robustProfit_le h hu z (worstAt_mem hu v))

/-- **C60** Every query of `ProfitRbOracle`, with `γ ≥ 0` and whatever its history, gives a correct answer for
"maximise the guaranteed profit over the inputs that are feasible for all data within the uncertainty". -/
theorem C60_robust_profit (h : d.Pos) (hu : u.Ok d) (o : ProfitRbOracle ℝ) (ho : o.For d u) (y : Arr ℝ)
    (hy : y.IsVecShape 2) {γ : ℝ} (hγ : 0 ≤ γ) :
    ∃ g beta shrunk γ' o', ProfitRbOracle.oracle.assess o y γ = .ok (((g, ⟨beta⟩), shrunk), γ', o') ∧ o'.For d u ∧
      MaxAnswer (d.robustFeasible u) (d.robustProfit u) (y.toVec 2) γ g beta shrunk γ' := by
  obtain ⟨g, b, s, γ', o', h1, h2, h3, -⟩ := robust_assess h hu o ho y hy hγ
  exact ⟨g, b, s, γ', o', h1, h2, h3⟩

/-- **C60** on improvement, the reported value is guaranteed: no data within the uncertainty give less, and some give
exactly this. -/
theorem C60_robust_value_guaranteed (h : d.Pos) (hu : u.Ok d) (o : ProfitRbOracle ℝ) (ho : o.For d u) (y : Arr ℝ)
    (hy : y.IsVecShape 2) {γ : ℝ} (hγ : 0 ≤ γ) {g : Arr ℝ} {c : SingleCut ℝ} {γ' : ℝ} {o' : ProfitRbOracle ℝ}
    (hq : ProfitRbOracle.oracle.assess o y γ = .ok (((g, c), true), γ', o')) :
    (∀ d' ∈ d.within u, y.toVec 2 ∈ d'.feasible ∧ γ' ≤ d'.profit (y.toVec 2)) ∧
    ∃ d' ∈ d.within u, d'.profit (y.toVec 2) = γ' := by
  obtain ⟨g1, b1, s1, γ1, o1, h1, -, hm⟩ := C60_robust_profit h hu o ho y hy hγ
  rw [hq] at h1
  simp only [Res.ok.injEq, Prod.mk.injEq] at h1
  obtain ⟨⟨⟨rfl, rfl⟩, rfl⟩, rfl, rfl⟩ := h1
  have hv := hm.value
  simp only [if_true] at hv
  refine ⟨fun d' hd => ⟨(hm.improves.1 rfl).1 d' hd, ?_⟩, d.worstAt u (y.toVec 2), worstAt_mem hu _, ?_⟩
  · rw [hv]; exact robustProfit_le h hu _ hd
  · rw [hv, robustProfit_eq h hu]

/-- **C60** (start) `ProfitRbOracle::new` succeeds and is built for its data -/
theorem C60_robust_new (a v : Arr ℝ) (ha : RV a d.elas) (hv : RV v d.cost) :
    ∃ o, ProfitRbOracle.new d.price d.scale d.limit a v u.e1 u.e2 u.e3 u.e4 u.e5 = .ok o ∧ o.For d u := by
  obtain ⟨p, hp, hpv⟩ := RV.add hv (rv_pair u.e5 u.e5)
  refine ⟨⟨u.e1, u.e2, ProfitOracle.new (d.price - u.e3) d.scale (d.limit - u.e4) a p, a⟩,
    by simp only [ProfitRbOracle.new, hp, Res.ok_bind], ?_⟩
  refine ⟨rfl, rfl, ha, d.elas, ?_⟩
  refine ⟨le_refl _, by show (-1 : ℤ) < 2; decide, rfl, rfl, ?_, ha⟩
  show RV p _
  convert hpv using 1
  funext i
  fin_cases i <;> rfl

end Ellalgo
