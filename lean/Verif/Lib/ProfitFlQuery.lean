import Verif.Lib.ProfitFlAccept

/-! One query of `ProfitOracle` in rounded arithmetic: what the answer says about points that are better by a margin. -/

namespace Ellalgo
open Matrix
variable {d : ProfitData}

/-- the revenue of a bounded point is bounded -/
theorem revenue_box_le (h : d.Pos) {a z : Fin 2 → ℝ} {A Z : ℝ} (ha : ∀ i, |a i| ≤ A) (hz : ∀ i, |z i| ≤ Z) :
    ({ d with elas := a } : ProfitData).revenue z ≤ d.price * d.scale * Real.exp (2 * (A * Z)) := by
  rw [ProfitData.revenue_eq]
  refine mul_le_mul_of_nonneg_left (Real.exp_le_exp.2 ?_) (mul_pos h.price h.scale).le
  show a ⬝ᵥ z ≤ _
  rw [dotProduct, Fin.sum_univ_two]
  have key : ∀ i, a i * z i ≤ A * Z := fun i => (le_abs_self _).trans (by
    rw [abs_mul]; exact mul_le_mul (ha i) (hz i) (abs_nonneg _) ((abs_nonneg _).trans (ha i)))
  linarith [key 0, key 1]

/-- a level that a bounded point reaches is bounded -/
theorem level_le (h : d.Pos) {a z : Fin 2 → ℝ} {A Z l : ℝ} (ha : ∀ i, |a i| ≤ A) (hz : ∀ i, |z i| ≤ Z) (hl : 0 ≤ l)
    (hs : ({ d with elas := a } : ProfitData).slack l z ≤ 0) : l ≤ d.price * d.scale * Real.exp (2 * (A * Z)) := by
  have hpos : ({ d with elas := a } : ProfitData).Pos := ⟨h.price, h.scale, h.limit, h.cost⟩
  have h1 := (ProfitData.slack_le_iff hpos hl z).1 hs
  have h2 := ProfitData.expense_pos hpos z
  have h3 := revenue_box_le h ha hz
  rw [ProfitData.profit] at h1
  linarith

/-- the constraint is stricter at higher levels -/
theorem slack_mono (h : d.Pos) {z : Fin 2 → ℝ} {l l' : ℝ} (hl : 0 ≤ l) (hll : l ≤ l') : d.slack l z ≤ d.slack l' z := by
  have h2 := ProfitData.expense_pos h z
  exact sub_le_sub_right (Real.log_le_log (by linarith) (by linarith)) _

/-- a point whose profit exceeds the level by `ε` satisfies the constraint with a margin -/
theorem slack_of_profit (h : d.Pos) {z : Fin 2 → ℝ} {l ε Q : ℝ} (hl : 0 ≤ l) (hε : 0 ≤ ε) (hp : l + ε ≤ d.profit z) (hQ : d.revenue z ≤ Q) :
    d.slack l z ≤ -(ε / Q) := by
  have h1 := ProfitData.revenue_pos h z
  have h2 := ProfitData.expense_pos h z
  rw [ProfitData.profit] at hp
  rw [ProfitData.slack, ← Real.log_div (by linarith) h1.ne']
  have h3 := Real.log_le_sub_one_of_pos (div_pos (show 0 < l + d.expense z by linarith) h1)
  refine h3.trans ?_
  have h4 : (l + d.expense z) / d.revenue z ≤ 1 - ε / d.revenue z := by
    rw [div_le_iff₀ h1, sub_mul, div_mul_cancel₀ _ h1.ne']; linarith
  have h5 : ε / Q ≤ ε / d.revenue z := div_le_div_of_nonneg_left hε h1 hQ
  linarith

/-- the constraint moves little when the level does -/
theorem slack_level (h : d.Pos) {a z : Fin 2 → ℝ} {Z l l' : ℝ} (hz : ∀ i, |z i| ≤ Z) (hl : 0 ≤ l) (hl' : 0 ≤ l') :
    ({ d with elas := a } : ProfitData).slack l z ≤ ({ d with elas := a } : ProfitData).slack l' z +
      |l - l'| / ((d.cost 0 + d.cost 1) * Real.exp (-Z)) := by
  have hm : 0 < (d.cost 0 + d.cost 1) * Real.exp (-Z) := mul_pos (add_pos (h.cost 0) (h.cost 1)) (Real.exp_pos _)
  have h1 := expense_low h hz
  have h2 := le_of_abs_le (log_sub_le (a := l + d.expense z) (b := l' + d.expense z) hm (by linarith) (by linarith))
  rw [add_sub_add_right_eq_sub] at h2
  show Real.log (l + d.expense z) - _ ≤ Real.log (l' + d.expense z) - _ + _
  linarith

/-- acceptance: the level does not fall by more than `C u`, and the new level is the profit up to `C u` -/
theorem profit_accept (h : d.Pos) {A b : ℝ} (hA : 0 ≤ A) (hb : b < 1) :
    ∃ C, 0 < C ∧ ∃ u0 > 0, ∀ u ≤ u0, ∀ (R : Rounding u) (o : ProfitOracle (Fl R)) (a : Fin 2 → ℝ),
      o.FlFor { d with elas := a } → (∀ i, 0 ≤ a i ∧ a i ≤ A) → a 1 ≤ b → ∀ (y : Arr (Fl R)) (γ : Fl R), -1 ≤ γ.val →
      (y.vec 0 - o.logK).val ≤ 0 → (Scalar.ln (γ + o.flCost y) - o.flLog y).val ≤ 0 →
      y.flVec 2 0 ≤ R.rnd (Real.log d.limit) ∧ γ.val ≤ (Scalar.exp (o.flLog y) - o.flCost y).val + C * u ∧
      |(Scalar.exp (o.flLog y) - o.flCost y).val - ({ d with elas := a } : ProfitData).profit (y.flVec 2)| ≤ C * u := by
  obtain ⟨X0, hX0⟩ : ∃ X0, X0 = 2 * |Real.log d.limit| := ⟨_, rfl⟩
  have hX00 : 0 ≤ X0 := by rw [hX0]; positivity
  have hW0 : 0 ≤ d.logPart A X0 := by unfold ProfitData.logPart; positivity
  obtain ⟨X1, hX1⟩ : ∃ X1, X1 = d.secondBound A b X0 := ⟨_, rfl⟩
  have hX10 : 0 ≤ X1 := by
    have : 0 < 1 - b := by linarith
    rw [hX1, ProfitData.secondBound]; positivity
  obtain ⟨Λ, hΛ⟩ : ∃ Λ, Λ = 2 * (d.logPart A X0 + |b| * X1) := ⟨_, rfl⟩
  have hΛ0 : 0 ≤ Λ := by rw [hΛ]; positivity
  obtain ⟨Ce, hCe, herr⟩ := profitErr_small h A X0 X1
  have hCd : 0 < driftConst Λ := by unfold driftConst; positivity
  refine ⟨driftConst Λ + Ce, by positivity, min (1 / 16) ((1 - b) / 18), lt_min (by norm_num) (by linarith),
    fun u hu R o a ho ha hab y γ hγ h1 h2 => ?_⟩
  have hu0 := R.unit_nonneg
  have hu16 := hu.trans (min_le_left _ _)
  have hu8 : u ≤ 1 / 8 := by linarith
  have hpos : ({ d with elas := a } : ProfitData).Pos := ⟨h.price, h.scale, h.limit, h.cost⟩
  have hlim : (y.vec 0 - o.logK).val = R.rnd (y.flVec 2 0 - R.rnd (Real.log d.limit)) := by
    have : o.logK.val = R.rnd (Real.log d.limit) := ho.limit
    rw [← this]; rfl
  have hy0 : y.flVec 2 0 ≤ R.rnd (Real.log d.limit) := by
    rw [hlim, ← not_lt, rnd_pos_iff R hu8, not_lt] at h1
    linarith
  have hy0' : y.flVec 2 0 ≤ X0 := by
    refine hy0.trans ((R.le_of (le_abs_self _) (abs_nonneg _)).trans ?_)
    rw [hX0]
    nlinarith [abs_nonneg (Real.log d.limit)]
  rw [fl_beta ho y γ 0, pfBeta, ← not_lt, rnd_pos_iff R hu8, not_lt, sub_nonpos] at h2
  have hy1 := pf_second_bound (k := ⟨y.flVec 2, a, γ.val, 0⟩) h hu8 R hX00 ha hab hb (hu.trans (min_le_right _ _)) hy0' hγ h2
  rw [← hX1] at hy1
  have hL : pfLog d u R ⟨y.flVec 2, a, γ.val, 0⟩ ≤ Λ := by
    refine (pf_log_upper (k := ⟨y.flVec 2, a, γ.val, 0⟩) h hu8 R hX00 ha hab hy0').trans ?_
    have hb0 : 0 ≤ b := (ha 1).1.trans hab
    rw [hΛ, abs_of_nonneg hb0]
    have h4 : (1 + u) ^ 4 ≤ 2 := by nlinarith [mul_nonneg hu0 hu0, mul_nonneg (mul_nonneg hu0 hu0) hu0, sq_nonneg (u * u)]
    have hy1' : y.flVec 2 1 ≤ X1 := hy1
    exact mul_le_mul h4 (add_le_add le_rfl (mul_le_mul_of_nonneg_left (max_le hy1' hX10) hb0))
      (add_nonneg hW0 (mul_nonneg hb0 (le_max_right _ _))) (by norm_num)
  have hdr := drift_core R hu8 (pf_cost_nonneg (k := ⟨y.flVec 2, a, γ.val, 0⟩) h R) hγ hΛ0 hL h2
  refine ⟨hy0, ?_, ?_⟩
  · rw [fl_profit ho y γ 0]
    have : γ.val ≤ pfProfit d u R ⟨y.flVec 2, a, γ.val, 0⟩ + u * driftConst Λ := hdr
    nlinarith
  · refine (profit_value_err hu8 hpos ho y).trans ((herr u hu0 hu16 a (y.flVec 2) ha hy0' hy1 hX00 hX10).trans ?_)
    nlinarith

/-- a query at a bounded point: the cut keeps, with a margin, every bounded point that satisfies both constraints with a margin `δ`
at the level after the query -/
theorem profit_query (h : d.Pos) {A b F Z δ Nc : ℝ} (hA : 0 ≤ A) (hb : b < 1) (hF : 0 ≤ F) (hZ : 0 ≤ Z) (hδ : 0 < δ) (hNc : 0 ≤ Nc) :
    ∃ C, 0 < C ∧ ∃ u0 > 0, ∀ u ≤ u0, ∀ (R : Rounding u) (o : ProfitOracle (Fl R)) (a : Fin 2 → ℝ),
      o.FlFor { d with elas := a } → (∀ i, 0 ≤ a i ∧ a i ≤ A) → a 1 ≤ b → ∀ (y : Arr (Fl R)), y.IsVecShape 2 → ∀ γ : Fl R,
      -(Nc * (C * u)) ≤ γ.val →
      ∃ g beta shrunk γ' o', ProfitOracle.oracle.assess o y γ = .ok (((g, ⟨beta⟩), shrunk), γ', o') ∧
        o'.FlFor { d with elas := a } ∧ g.IsVecShape 2 ∧ γ.val ≤ γ'.val + C * u ∧
        (shrunk = true → y.flVec 2 0 ≤ R.rnd (Real.log d.limit) ∧
          |γ'.val - ({ d with elas := a } : ProfitData).profit (y.flVec 2)| ≤ C * u) ∧
        (shrunk = false → γ' = γ ∧ 0 < beta.val) ∧
        ((∀ i, |y.flVec 2 i| ≤ F) → ∀ z : Fin 2 → ℝ, (∀ i, |z i| ≤ Z) → z 0 ≤ Real.log d.limit - δ →
          ({ d with elas := a } : ProfitData).slack (max γ'.val 0) z ≤ -δ →
          g.flVec 2 ⬝ᵥ (z - y.flVec 2) + (if shrunk = true then 0 else beta.val) ≤ -δ / 4) := by
  obtain ⟨C, hC, u1, p1, hacc⟩ := profit_accept h hA hb
  obtain ⟨Γ, hΓ⟩ : ∃ Γ, Γ = d.price * d.scale * Real.exp (2 * (A * Z)) := ⟨_, rfl⟩
  obtain ⟨m, hm⟩ : ∃ m, m = (d.cost 0 + d.cost 1) * Real.exp (-Z) := ⟨_, rfl⟩
  have hm0 : 0 < m := by rw [hm]; exact mul_pos (add_pos (h.cost 0) (h.cost 1)) (Real.exp_pos _)
  obtain ⟨u2, p2, hrej⟩ := reject_cut h F A Γ ((Nc + 2) * C) Z hδ hZ hF
  obtain ⟨u3, p3, hcut⟩ := accept_cut h F A Γ ((Nc + 2) * C) Z (half_pos hδ) hZ hF
  obtain ⟨u4, p4, hlim⟩ := limit_cut (Real.log d.limit) F hδ
  refine ⟨C, hC, min (min u1 u2) (min (min u3 u4) (min (1 / (Nc * C + 1)) (δ * m / (2 * C)))), by positivity,
    fun u hu R o a ho ha hab y hy γ hγ => ?_⟩
  simp only [le_min_iff] at hu
  obtain ⟨⟨hu1, hu2⟩, ⟨hu3, hu4⟩, hu5, hu6⟩ := hu
  have hu0 := R.unit_nonneg
  rw [le_div_iff₀ (by positivity)] at hu5 hu6
  have hγ1 : -1 ≤ γ.val := by nlinarith
  have haA : ∀ i, |a i| ≤ A := fun i => by rw [abs_of_nonneg (ha i).1]; exact (ha i).2
  have hCu : 0 ≤ C * u := by positivity
  have hNCu : 0 ≤ Nc * (C * u) := by positivity
  obtain ⟨g, beta, shrunk, γ', o', hq, ho', hg, htrue, hfalse⟩ := profit_assess_fl ho hy γ
  refine ⟨g, beta, shrunk, γ', o', hq, ho', hg, ?_⟩
  cases shrunk with
  | true =>
    obtain ⟨t1, t2, t3, t4⟩ := htrue rfl
    obtain ⟨q1, q2, q3⟩ := hacc u hu1 R o a ho ha hab y γ hγ1 t1 t2
    rw [← t3] at q2 q3
    refine ⟨q2, fun _ => ⟨q1, q3⟩, by simp, fun hyF z hz hz0 hzs => ?_⟩
    obtain ⟨pr, hpr⟩ : ∃ pr, pr = ({ d with elas := a } : ProfitData).profit (y.flVec 2) := ⟨_, rfl⟩
    rw [← hpr, _root_.abs_le] at q3
    have hl : |max pr 0 - max γ'.val 0| ≤ C * u := by
      refine (abs_max_sub_max_le_abs _ _ _).trans ?_
      rw [_root_.abs_le]; constructor <;> linarith
    have hs := slack_level (a := a) h hz (le_max_right pr 0) (le_max_right γ'.val 0)
    rw [← hm] at hs
    have hsm : |max pr 0 - max γ'.val 0| / m ≤ δ / 2 := by
      rw [div_le_iff₀ hm0]
      refine hl.trans ?_
      linarith
    have hs' : ({ d with elas := a } : ProfitData).slack (max pr 0) z ≤ -(δ / 2) := by linarith
    have hk : (⟨y.flVec 2, a, pr, max pr 0⟩ : ProfitIn) ∈ ProfitIn.box F A Γ ((Nc + 2) * C) u := by
      refine ⟨hyF, haA, le_max_right _ _, hΓ ▸ level_le h haA hz (le_max_right _ _) (hs'.trans (by linarith)), ?_⟩
      show |pr - max pr 0| ≤ _
      rcases le_total pr 0 with h0 | h0
      · rw [max_eq_right h0, sub_zero, abs_of_nonpos h0]; nlinarith
      · rw [max_eq_left h0, sub_self, abs_zero]; positivity
    have := hcut u hu3 R _ hk hpr (le_max_left _ _) z hz hs'
    have hgv : g.flVec 2 = fun i => pfGrad' d u R ⟨y.flVec 2, a, pr, max pr 0⟩ i := by
      rw [t4]
      funext i
      exact fl_grad' ho y ⟨pr⟩ (max pr 0) i
    rw [hgv, if_pos rfl, add_zero]
    refine this.trans (by linarith)
  | false =>
    obtain ⟨rfl, t2, t3⟩ := hfalse rfl
    refine ⟨by linarith, by simp, fun _ => ⟨rfl, t2⟩, fun hyF z hz hz0 hzs => ?_⟩
    rw [if_neg (by simp)]
    rcases t3 with ⟨rfl, hgv⟩ | ⟨rfl, hgv⟩
    · have := hlim u hu4 R (y.flVec 2 0) (hyF 0) (z 0) hz0
      have hK : o.logK.val = R.rnd (Real.log d.limit) := ho.limit
      have e : (y.vec 0 - o.logK).val = R.rnd (y.flVec 2 0 - R.rnd (Real.log d.limit)) := by rw [← hK]; rfl
      rw [e, hgv, dotProduct, Fin.sum_univ_two]
      simp
      linarith
    · have hk : (⟨y.flVec 2, a, γ'.val, max γ'.val 0⟩ : ProfitIn) ∈ ProfitIn.box F A Γ ((Nc + 2) * C) u := by
        refine ⟨hyF, haA, le_max_right _ _, hΓ ▸ level_le h haA hz (le_max_right _ _) (hzs.trans (by linarith)), ?_⟩
        show |γ'.val - max γ'.val 0| ≤ _
        rcases le_total γ'.val 0 with h0 | h0
        · rw [max_eq_right h0, sub_zero, abs_of_nonpos h0]; nlinarith
        · rw [max_eq_left h0, sub_self, abs_zero]; positivity
      have := hrej u hu2 R _ hk z hz hzs
      have hgv' : g.flVec 2 = fun i => pfGrad d u R ⟨y.flVec 2, a, γ'.val, max γ'.val 0⟩ i := by
        rw [hgv]
        funext i
        exact fl_grad ho y γ' (max γ'.val 0) i
      rw [hgv', fl_beta ho y γ' (max γ'.val 0)]
      refine this.trans (by linarith)

end Ellalgo
