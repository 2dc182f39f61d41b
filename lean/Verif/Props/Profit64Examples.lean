import Verif.Props.Profit64Q

/-! Cases that meet the hypotheses of C128: the data of the crate's own tests (oracles/profit_oracle.rs, `price = 20, scale = 40, limit = 30.5`,
elasticities `0.1, 0.4`, costs `10, 35`), rounded to `f64`. -/

namespace Ellalgo.ExProfit64
open Ellalgo Matrix

/-- a number between 2⁻⁷ and 64 -/
def Mid (a : B64) : Prop := a.Finite ∧ (2 : ℝ) ^ (-7 : ℤ) ≤ a.val ∧ a.val ≤ 64

theorem mid {x : ℝ} (h1 : (2 : ℝ) ^ (-7 : ℤ) ≤ x) (h2 : x ≤ 64) : Mid (B64.ofReal false x) := by
  have e6 : (64 : ℝ) = (2 : ℝ) ^ (6 : ℤ) := by norm_num
  have a1 : (2 : ℝ) ^ (-7 : ℤ) ≤ rnd64 x := by
    have := rnd64_mono h1
    rwa [rnd64_pow (by norm_num)] at this
  have a2 : rnd64 x ≤ 64 := by
    rw [e6] at h2 ⊢
    have := rnd64_mono h2
    rwa [rnd64_pow (by norm_num)] at this
  have h0 : (0 : ℝ) < rnd64 x := lt_of_lt_of_le (by positivity) a1
  have := B64.ofReal_val (s := false) (x := x) (by
    rw [abs_of_pos h0]
    refine lt_of_le_of_lt a2 ?_
    rw [e6]
    exact zpow_lt_zpow_right₀ (by norm_num) (by norm_num))
  exact ⟨this.1, by rw [this.2]; exact a1, by rw [this.2]; exact a2⟩

noncomputable def price : B64 := nat 20
noncomputable def scale : B64 := nat 40
noncomputable def limit : B64 := dec 305 1
noncomputable def elas : Arr B64 := Arr.ofList [dec 1 1, dec 4 1]
noncomputable def cost : Arr B64 := Arr.ofList [nat 10, nat 35]

theorem m_price : Mid price := mid (by norm_num) (by norm_num)
theorem m_scale : Mid scale := mid (by norm_num) (by norm_num)
theorem m_limit : Mid limit := mid (by norm_num [Scalar.dec]) (by norm_num [Scalar.dec])
theorem m_elas : ∀ y ∈ elas.data, Mid y := by
  intro y hy
  simp only [elas, Arr.ofList, List.mem_cons, List.mem_nil_iff, or_false] at hy
  rcases hy with rfl | rfl <;> exact mid (by norm_num [Scalar.dec]) (by norm_num [Scalar.dec])
theorem m_cost : ∀ y ∈ cost.data, Mid y := by
  intro y hy
  simp only [cost, Arr.ofList, List.mem_cons, List.mem_nil_iff, or_false] at hy
  rcases hy with rfl | rfl <;> exact mid (by norm_num) (by norm_num)

noncomputable def data : ProfitData := ⟨price.val, scale.val, limit.val, elas.vec64 2, cost.vec64 2⟩

theorem elas_mid (i : Fin 2) : (2 : ℝ) ^ (-7 : ℤ) ≤ elas.vec64 2 i ∧ elas.vec64 2 i ≤ 64 := by
  fin_cases i
  · exact (m_elas (dec 1 1) (by simp [elas, Arr.ofList])).2
  · exact (m_elas (dec 4 1) (by simp [elas, Arr.ofList])).2
theorem cost_mid (i : Fin 2) : (2 : ℝ) ^ (-7 : ℤ) ≤ cost.vec64 2 i ∧ cost.vec64 2 i ≤ 64 := by
  fin_cases i
  · exact (m_cost (nat 10) (by simp [cost, Arr.ofList])).2
  · exact (m_cost (nat 35) (by simp [cost, Arr.ofList])).2

theorem tame : data.Tame where
  pos := ⟨lt_of_lt_of_le (by positivity) m_price.2.1, lt_of_lt_of_le (by positivity) m_scale.2.1,
    lt_of_lt_of_le (by positivity) m_limit.2.1, fun i => lt_of_lt_of_le (by positivity) (cost_mid i).1⟩
  scale := by
    obtain ⟨-, p1, p2⟩ := m_price
    obtain ⟨-, s1, s2⟩ := m_scale
    have h7 : (0 : ℝ) < (2 : ℝ) ^ (-7 : ℤ) := by positivity
    refine ⟨?_, ?_⟩
    · refine le_trans ?_ (mul_le_mul p1 s1 h7.le (h7.le.trans p1))
      norm_num
    · refine le_trans (mul_le_mul p2 s2 (h7.le.trans s1) (by norm_num)) ?_
      norm_num
  cost := fun i => ⟨le_trans (zpow_le_zpow_right₀ (by norm_num) (by norm_num)) (cost_mid i).1,
    (cost_mid i).2.trans ((by norm_num : (64 : ℝ) = (2 : ℝ) ^ (6 : ℤ)).le.trans (zpow_le_zpow_right₀ (by norm_num) (by norm_num)))⟩

noncomputable def oracle : ProfitOracle B64 := ProfitOracle.new price scale limit elas cost

theorem oracle_for : oracle.For64 data := C128_profit_new m_price.1 m_scale.1 m_limit.1 (fun y hy => (m_elas y hy).1)
  (fun y hy => (m_cost y hy).1) ⟨rfl, rfl, rfl⟩ ⟨rfl, rfl, rfl⟩ tame
  (le_trans (zpow_le_zpow_right₀ (by norm_num) (by norm_num)) m_limit.2.1)

/-- the point: `e` units of each input -/
noncomputable def pt : Arr B64 := Arr.ofList [1, 1]

theorem pt_fin : pt.AllFinite := by
  intro y hy
  simp only [pt, Arr.ofList, List.mem_cons, List.mem_nil_iff, or_false] at hy
  rcases hy with rfl | rfl <;> exact Same.one.1

theorem pt_val : pt.vec64 2 = ![1, 1] := by
  funext i
  fin_cases i
  · exact Same.one.2
  · exact Same.one.2

theorem pt_tame : data.TameAt (pt.vec64 2) := by
  rw [pt_val]
  have h1 : ∀ i : Fin 2, (![1, 1] : Fin 2 → ℝ) i = 1 := by intro i; fin_cases i <;> rfl
  have h0 : (0 : ℝ) < (2 : ℝ) ^ (-7 : ℤ) := by positivity
  refine ⟨fun i => ?_, fun i => ?_, fun i => ?_⟩ <;> rw [h1 i]
  · norm_num
  · right
    rw [mul_one, show data.elas i = elas.vec64 2 i from rfl, abs_of_pos (lt_of_lt_of_le h0 (elas_mid i).1)]
    exact le_trans (zpow_le_zpow_right₀ (by norm_num) (by norm_num)) (elas_mid i).1
  · rw [mul_one, show data.elas i = elas.vec64 2 i from rfl, abs_of_pos (lt_of_lt_of_le h0 (elas_mid i).1)]
    exact (elas_mid i).2

/-- C128: the profit computed at this point -/
example : (oracle.profitOf pt).Finite ∧ |(oracle.profitOf pt).val - data.profit ![1, 1]| ≤ data.profitErr ((2 : ℝ) ^ (-53 : ℤ)) ![1, 1] := by
  have := C128_profit_value oracle_for tame pt_fin pt_tame
  rwa [pt_val] at this

/-- C128: a query at a point with a NaN and from the value `-∞` -/
example : ∃ g beta shrunk γ' o', ProfitOracle.oracle.assess oracle (Arr.ofList [.nan, 1]) (.inf true) = .ok (((g, ⟨beta⟩), shrunk), γ', o') ∧ g.IsVecShape 2 := by
  obtain ⟨g, b, sh, γ', o', h1, -, -, h2, -⟩ := C128_profit_query oracle oracle_for.shaped (Arr.ofList [.nan, 1]) ⟨rfl, rfl, rfl⟩ (.inf true)
  exact ⟨g, b, sh, γ', o', h1, h2⟩

/-- C128: runs from any ellipsoid of dimension 2, of both kinds -/
example (e : Ell B64) (he : e.Shaped 2) (γ : B64) (opts : Options B64) :
    ∃ r k γ' o' s', cuttingPlaneOptim ProfitOracle.oracle Ell.space oracle e γ opts = .ok ((r, k), γ', o', s') ∧ (r = none → γ' = γ) := by
  obtain ⟨r, k, γ', o', s', h1, h2, -⟩ := C128_profit_run (C86_ell_steady (by norm_num)).1 tame oracle oracle_for he γ opts
  exact ⟨r, k, γ', o', s', h1, h2⟩
example (e : EllStable B64) (he : e.Shaped 2) (γ : B64) (opts : Options B64) :
    ∃ r k γ' o' s', cuttingPlaneOptim ProfitOracle.oracle EllStable.space oracle e γ opts = .ok ((r, k), γ', o', s') ∧ (r = none → γ' = γ) := by
  obtain ⟨r, k, γ', o', s', h1, h2, -⟩ := C128_profit_run (C86_ell_steady (by norm_num)).2 tame oracle oracle_for he γ opts
  exact ⟨r, k, γ', o', s', h1, h2⟩

/-! ### robust -/

noncomputable def robust : ProfitRbOracle B64 := ⟨dec 1 1, dec 1 1, oracle, elas⟩

theorem m_unc : Mid (dec 1 1) := mid (by norm_num [Scalar.dec]) (by norm_num [Scalar.dec])

theorem robust_for : robust.For64 data (dec 1 1 : B64).val (dec 1 1 : B64).val :=
  ⟨oracle_for.shaped, oracle_for.stores, oracle_for.shaped.elas, oracle_for.elas, ⟨m_unc.1, rfl⟩, ⟨m_unc.1, rfl⟩⟩

theorem mid_le {x : ℝ} (h1 : (2 : ℝ) ^ (-7 : ℤ) ≤ x) (h2 : x ≤ 64) : |x| ≤ (2 : ℝ) ^ (1000 : ℤ) := by
  rw [abs_of_pos (lt_of_lt_of_le (by positivity) h1)]
  exact h2.trans ((by norm_num : (64 : ℝ) = (2 : ℝ) ^ (6 : ℤ)).le.trans (zpow_le_zpow_right₀ (by norm_num) (by norm_num)))

example (e : Ell B64) (he : e.Shaped 2) (γ : B64) (opts : Options B64) :
    ∃ r k γ' o' s', cuttingPlaneOptim ProfitRbOracle.oracle Ell.space robust e γ opts = .ok ((r, k), γ', o', s') ∧ (r = none → γ' = γ) := by
  obtain ⟨r, k, γ', o', s', h1, h2, -⟩ := C128_robust_run (C86_ell_steady (by norm_num)).1 tame (fun i => mid_le (elas_mid i).1 (elas_mid i).2)
    (mid_le m_unc.2.1 m_unc.2.2) (mid_le m_unc.2.1 m_unc.2.2) robust robust_for he γ opts
  exact ⟨r, k, γ', o', s', h1, h2⟩

/-! ### discrete -/

noncomputable def discrete : ProfitOracleQ B64 := ProfitOracleQ.new price scale limit elas cost

theorem discrete_for : discrete.For64 data := C128_discrete_new m_price.1 m_scale.1 m_limit.1 (fun y hy => (m_elas y hy).1)
  (fun y hy => (m_cost y hy).1) ⟨rfl, rfl, rfl⟩ ⟨rfl, rfl, rfl⟩ tame
  (le_trans (zpow_le_zpow_right₀ (by norm_num) (by norm_num)) m_limit.2.1)

example (e : Ell B64) (he : e.Shaped 2) (γ : B64) (opts : Options B64) :
    ∃ r k γ' o' s', cuttingPlaneOptimQ ProfitOracleQ.oracle Ell.space discrete e γ opts = .ok ((r, k), γ', o', s') ∧
      ∀ y, r = some y → y.AllFinite → IsFlLogInt bin53 (y.vec64 2) := by
  obtain ⟨r, k, γ', o', s', h1, -, h2⟩ := C128_discrete_run (C86_ell_steady (by norm_num)).1 tame discrete discrete_for he γ opts
  exact ⟨r, k, γ', o', s', h1, fun y hy hf => ((h2 y hy).2 hf).1⟩

end Ellalgo.ExProfit64
