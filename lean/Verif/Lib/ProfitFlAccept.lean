import Verif.Lib.ProfitFl

/-! What acceptance by `ProfitOracle` in rounded arithmetic says about a point that may be arbitrarily far away. -/

namespace Ellalgo
open Matrix
variable {u : ℝ} {R : Rounding u} {d : ProfitData} {k : ProfitIn}

theorem Rounding.le_of (R : Rounding u) {x c : ℝ} (h : x ≤ c) (h0 : 0 ≤ c) : R.rnd x ≤ (1 + u) * c := by
  have h1 := R.mono _ _ h
  have h2 := le_of_abs_le (R.err c)
  rw [abs_of_nonneg h0] at h2
  linarith

theorem Rounding.ge_of (R : Rounding u) {x c : ℝ} (h : c ≤ x) (h0 : 0 ≤ c) : (1 - u) * c ≤ R.rnd x := by
  have h1 := R.mono _ _ h
  have h2 := neg_le_of_abs_le (R.err c)
  rw [abs_of_nonneg h0] at h2
  linarith

/-- how far the level can fall when a point is accepted -/
noncomputable def driftConst (Λ : ℝ) : ℝ := (7 + 2 * Λ) * Real.exp (2 * Λ) + 2

theorem drift_core (R : Rounding u) (hu : u ≤ 1 / 8) {γ v L Λ : ℝ} (hv : 0 ≤ v) (hγ : -1 ≤ γ) (hΛ : 0 ≤ Λ) (hL : L ≤ Λ)
    (hacc : R.rnd (Real.log (R.rnd (γ + v))) ≤ L) : γ ≤ R.rnd (R.rnd (Real.exp L) - v) + u * driftConst Λ := by
  have hu0 := R.unit_nonneg
  have hC : 2 ≤ driftConst Λ := by
    have := Real.exp_pos (2 * Λ)
    unfold driftConst
    nlinarith [mul_nonneg (show 0 ≤ 7 + 2 * Λ by linarith) this.le]
  have hE0 : 0 ≤ R.rnd (Real.exp L) := R.nonneg (Real.exp_pos L).le
  rcases le_or_gt (γ + v) 0 with h | h
  · have h1 := R.mono (-v) (R.rnd (Real.exp L) - v) (by linarith)
    have h2 := neg_le_of_abs_le (R.err (-v))
    rw [abs_neg, abs_of_nonneg hv] at h2
    have h3 : u * v ≤ u * 1 := mul_le_mul_of_nonneg_left (by linarith) hu0
    have h4 : u * 2 ≤ u * driftConst Λ := mul_le_mul_of_nonneg_left hC hu0
    linarith
  · obtain ⟨s, hs⟩ : ∃ s, s = R.rnd (γ + v) := ⟨_, rfl⟩
    rw [← hs] at hacc
    have hs0 : 0 < s := hs ▸ R.pos (by linarith) h
    obtain ⟨l, hl⟩ : ∃ l, l = Real.log s := ⟨_, rfl⟩
    rw [← hl] at hacc
    have hsl : Real.exp l = s := by rw [hl, Real.exp_log hs0]
    have a1 := R.err (γ + v)
    rw [abs_of_pos h, ← hs, abs_le] at a1
    have a2 : γ + v ≤ 2 * s := by nlinarith
    have a3 : γ + v - 2 * (u * s) ≤ s := by nlinarith
    have a4 := neg_le_of_abs_le (R.err l)
    have a5 : l - u * |l| ≤ L := by linarith
    -- the exponential
    have b1 := neg_le_of_abs_le (R.err (Real.exp L))
    rw [abs_of_pos (Real.exp_pos L)] at b1
    have b2 : s * (1 - u * |l|) ≤ Real.exp L := by
      refine le_trans ?_ (Real.exp_le_exp.2 a5)
      rw [sub_eq_add_neg l, Real.exp_add, hsl]
      refine mul_le_mul_of_nonneg_left ?_ hs0.le
      have := Real.add_one_le_exp (-(u * |l|))
      linarith
    have b3 : s - u * s - u * (s * |l|) ≤ R.rnd (Real.exp L) := by
      have c1 : (1 - u) * (s * (1 - u * |l|)) ≤ (1 - u) * Real.exp L := mul_le_mul_of_nonneg_left b2 (by linarith)
      have c2 : 0 ≤ u * u * (s * |l|) := by positivity
      nlinarith
    -- sizes
    have c1 : l ≤ 2 * Λ := by
      rcases le_or_gt l 0 with hl0 | hl0
      · linarith
      · rw [abs_of_pos hl0] at a5
        nlinarith
    obtain ⟨S, hS⟩ : ∃ S, S = Real.exp (2 * Λ) := ⟨_, rfl⟩
    have hS1 : 1 ≤ S := by rw [hS]; exact Real.one_le_exp (by linarith)
    have c2 : s ≤ S := by rw [← hsl, hS]; exact Real.exp_le_exp.2 c1
    have c3 : s * |l| ≤ 1 + 2 * Λ * S := by
      rcases le_or_gt l 0 with hl0 | hl0
      · rw [abs_of_nonpos hl0]
        have := Real.log_le_sub_one_of_pos (inv_pos.2 hs0)
        rw [Real.log_inv, ← hl] at this
        have h5 := mul_le_mul_of_nonneg_left this hs0.le
        rw [mul_sub, mul_inv_cancel₀ hs0.ne'] at h5
        have : 0 ≤ 2 * Λ * S := by positivity
        linarith
      · rw [abs_of_pos hl0]
        have := mul_le_mul c2 c1 hl0.le (by linarith)
        linarith
    have c4 : R.rnd (Real.exp L) ≤ 2 * S := by
      have h5 := le_of_abs_le (R.err (Real.exp L))
      rw [abs_of_pos (Real.exp_pos L)] at h5
      have h6 : Real.exp L ≤ S := by rw [hS]; exact Real.exp_le_exp.2 (by linarith)
      have h7 := Real.exp_pos L
      nlinarith
    obtain ⟨E, hE⟩ : ∃ E, E = R.rnd (Real.exp L) := ⟨_, rfl⟩
    rw [← hE] at b3 c4 hE0 ⊢
    have d1 := neg_le_of_abs_le (R.err (E - v))
    have d2 : |E - v| ≤ E + v := by rw [_root_.abs_le]; constructor <;> linarith
    have d3 : u * |E - v| ≤ u * (E + v) := mul_le_mul_of_nonneg_left d2 hu0
    have d4 : u * (3 * s + s * |l| + E + v) ≤ u * driftConst Λ := by
      refine mul_le_mul_of_nonneg_left ?_ hu0
      rw [driftConst, ← hS]
      nlinarith
    linarith

/-- the stored logarithm of price times scale is bounded -/
theorem pf_scale_bound (h : d.Pos) (hu : u ≤ 1 / 8) (R : Rounding u) :
    R.rnd (Real.log (R.rnd (d.price * d.scale))) ≤ 2 * (|Real.log (d.price * d.scale)| + 1) := by
  have hu0 := R.unit_nonneg
  have hp := mul_pos h.price h.scale
  have h1 := R.le_of (le_refl (d.price * d.scale)) hp.le
  have h2 : R.rnd (d.price * d.scale) ≤ d.price * d.scale * Real.exp 1 := by
    have := Real.add_one_le_exp (1 : ℝ)
    nlinarith
  have h3 := Real.log_le_log (R.pos (by linarith) hp) h2
  rw [Real.log_mul hp.ne' (Real.exp_pos _).ne', Real.log_exp] at h3
  have h4 := R.le_of (c := |Real.log (d.price * d.scale)| + 1) (h3.trans (by linarith [le_abs_self (Real.log (d.price * d.scale))]))
    (by positivity)
  have := abs_nonneg (Real.log (d.price * d.scale))
  nlinarith

/-- the size of the part of the logarithm of the revenue that does not depend on the second input -/
noncomputable def ProfitData.logPart (d : ProfitData) (A X0 : ℝ) : ℝ := 2 * (|Real.log (d.price * d.scale)| + 1) + A * X0

theorem pf_log_upper (h : d.Pos) (hu : u ≤ 1 / 8) (R : Rounding u) {A b X0 : ℝ} (hX0 : 0 ≤ X0) (ha : ∀ i, 0 ≤ k.a i ∧ k.a i ≤ A)
    (hb : k.a 1 ≤ b) (hx : k.x 0 ≤ X0) :
    pfLog d u R k ≤ (1 + u) ^ 4 * (d.logPart A X0 + b * max (k.x 1) 0) := by
  have hu0 := R.unit_nonneg
  have hb0 : 0 ≤ b := (ha 1).1.trans hb
  have hA : 0 ≤ A := (ha 0).1.trans (ha 0).2
  have hx1 : 0 ≤ max (k.x 1) 0 := le_max_right _ _
  have e0 : k.a 0 * k.x 0 ≤ A * X0 :=
    (mul_le_mul_of_nonneg_left hx (ha 0).1).trans (mul_le_mul_of_nonneg_right (ha 0).2 hX0)
  have e1 : k.a 1 * k.x 1 ≤ b * max (k.x 1) 0 :=
    (mul_le_mul_of_nonneg_left (le_max_left _ _) (ha 1).1).trans (mul_le_mul_of_nonneg_right hb hx1)
  have hs := pf_scale_bound h hu R
  unfold pfLog ProfitData.logPart
  obtain ⟨p, hp⟩ : ∃ p, p = A * X0 := ⟨_, rfl⟩
  obtain ⟨q, hq⟩ : ∃ q, q = b * max (k.x 1) 0 := ⟨_, rfl⟩
  obtain ⟨T, hT⟩ : ∃ T, T = 2 * (|Real.log (d.price * d.scale)| + 1) := ⟨_, rfl⟩
  have hp0 : 0 ≤ p := by rw [hp]; positivity
  have hq0 : 0 ≤ q := by rw [hq]; positivity
  have hT0 : 0 ≤ T := by rw [hT]; positivity
  rw [← hp] at e0 ⊢
  rw [← hq] at e1 ⊢
  rw [← hT] at hs ⊢
  have r0 := R.le_of e0 hp0
  have r1 := R.le_of (x := 0 + R.rnd (k.a 0 * k.x 0)) (c := (1 + u) * p) (by linarith) (by positivity)
  have r2 := R.le_of e1 hq0
  have r3 := R.le_of (add_le_add r1 r2) (by positivity)
  have r4 := R.le_of (add_le_add hs r3) (by positivity)
  refine r4.trans ?_
  have m1 : 1 ≤ (1 + u) := by linarith
  have m2 : (1 + u) ≤ (1 + u) ^ 2 := by nlinarith
  have m3 : (1 + u) * q ≤ (1 + u) ^ 2 * q := mul_le_mul_of_nonneg_right m2 hq0
  have m4 : T ≤ (1 + u) ^ 3 * T := le_mul_of_one_le_left hT0 (one_le_pow₀ m1)
  have m5 : (1 + u) * ((1 + u) * ((1 + u) * p) + (1 + u) * q) ≤ (1 + u) ^ 3 * (p + q) := by
    have := mul_le_mul_of_nonneg_left m3 (show 0 ≤ 1 + u by linarith)
    nlinarith
  have m6 := mul_le_mul_of_nonneg_left (add_le_add m4 m5) (show 0 ≤ 1 + u by linarith)
  refine m6.trans (le_of_eq ?_)
  ring

/-- a bound for the second coordinate of accepted points -/
noncomputable def ProfitData.secondBound (d : ProfitData) (A b X0 : ℝ) : ℝ :=
  (4 * d.logPart A X0 + 2 * |Real.log (d.cost 1)| + 6) / (1 - b) + |Real.log (d.cost 1)| + 3

theorem pf_cost_nonneg (h : d.Pos) (R : Rounding u) : 0 ≤ pfCost d u R k := by
  have q : ∀ i, 0 ≤ pfQ d u R k i := fun i => R.nonneg (mul_nonneg (h.cost i).le (R.nonneg (Real.exp_pos _).le))
  exact R.nonneg (add_nonneg (q 0) (q 1))

theorem pf_cost_low (h : d.Pos) (hu : u ≤ 1 / 8) (R : Rounding u) : d.cost 1 * Real.exp (k.x 1) / 2 ≤ pfCost d u R k := by
  have hu0 := R.unit_nonneg
  have he := Real.exp_pos (k.x 1)
  have hc := h.cost 1
  have r0 := R.ge_of (le_refl (Real.exp (k.x 1))) he.le
  have r1 := R.ge_of (mul_le_mul_of_nonneg_left r0 hc.le) (mul_nonneg hc.le (mul_nonneg (by linarith) he.le))
  have q0 : 0 ≤ pfQ d u R k 0 := R.nonneg (mul_nonneg (h.cost 0).le (R.nonneg (Real.exp_pos _).le))
  have r2 : (1 - u) * ((1 - u) * (d.cost 1 * ((1 - u) * Real.exp (k.x 1)))) ≤ pfCost d u R k :=
    R.ge_of (r1.trans (by show pfQ d u R k 1 ≤ _; linarith))
      (mul_nonneg (by linarith) (mul_nonneg hc.le (mul_nonneg (by linarith) he.le)))
  refine le_trans ?_ r2
  have m : 1 / 2 ≤ (1 - u) * ((1 - u) * (1 - u)) := by nlinarith [sq_nonneg (1 - u)]
  have := mul_le_mul_of_nonneg_right m (mul_nonneg hc.le he.le)
  linarith

theorem pf_second_bound (h : d.Pos) (hu : u ≤ 1 / 8) (R : Rounding u) {A b X0 : ℝ} (hX0 : 0 ≤ X0)
    (ha : ∀ i, 0 ≤ k.a i ∧ k.a i ≤ A) (hb : k.a 1 ≤ b) (hb1 : b < 1) (hub : u ≤ (1 - b) / 18) (hx : k.x 0 ≤ X0) (hγ : -1 ≤ k.γ)
    (hacc : R.rnd (Real.log (pfSum d u R k)) ≤ pfLog d u R k) : k.x 1 ≤ d.secondBound A b X0 := by
  have hu0 := R.unit_nonneg
  have hb0 : 0 ≤ b := (ha 1).1.trans hb
  have hA : 0 ≤ A := (ha 0).1.trans (ha 0).2
  have hW0 : 0 ≤ d.logPart A X0 := by unfold ProfitData.logPart; positivity
  have hup := pf_log_upper h hu R hX0 ha hb hx
  obtain ⟨W, hW⟩ : ∃ W, W = d.logPart A X0 := ⟨_, rfl⟩
  rw [ProfitData.secondBound]
  rw [← hW] at hW0 hup ⊢
  have hc := h.cost 1
  have hl0 := abs_nonneg (Real.log (d.cost 1))
  have hq1 : 0 ≤ (4 * W + 2 * |Real.log (d.cost 1)| + 6) / (1 - b) := div_nonneg (by positivity) (by linarith)
  by_contra hcon
  rw [not_le] at hcon
  have hx1 : 0 < k.x 1 := by linarith
  rw [max_eq_left hx1.le] at hup
  -- the sum is large
  have hexp : Real.exp (k.x 1) * d.cost 1 = Real.exp (k.x 1 + Real.log (d.cost 1)) := by rw [Real.exp_add, Real.exp_log hc]
  have hbig : 3 ≤ k.x 1 + Real.log (d.cost 1) := by linarith [neg_abs_le (Real.log (d.cost 1))]
  have h8 : 8 ≤ d.cost 1 * Real.exp (k.x 1) := by
    rw [mul_comm, hexp]
    refine le_trans ?_ (Real.exp_le_exp.2 hbig)
    have e1 := Real.add_one_le_exp (1 : ℝ)
    have e3 : Real.exp 3 = Real.exp 1 * Real.exp 1 * Real.exp 1 := by rw [← Real.exp_add, ← Real.exp_add]; norm_num
    rw [e3]
    have : 2 ≤ Real.exp 1 := by linarith
    nlinarith [mul_pos (Real.exp_pos 1) (Real.exp_pos 1)]
  have hv := pf_cost_low (k := k) h hu R
  have hs : d.cost 1 * Real.exp (k.x 1) / 4 ≤ pfSum d u R k := by
    have := R.ge_of (x := k.γ + pfCost d u R k) (c := d.cost 1 * Real.exp (k.x 1) * (3 / 8)) (by linarith) (by linarith)
    refine le_trans ?_ this
    nlinarith
  have hlog : k.x 1 + Real.log (d.cost 1) - 2 ≤ Real.log (pfSum d u R k) := by
    rw [Real.le_log_iff_exp_le (by linarith)]
    refine le_trans ?_ hs
    rw [mul_comm (d.cost 1), hexp, Real.exp_sub]
    have e1 := Real.add_one_le_exp (1 : ℝ)
    have e2 : Real.exp 2 = Real.exp 1 * Real.exp 1 := by rw [← Real.exp_add]; norm_num
    exact div_le_div_of_nonneg_left (Real.exp_pos _).le (by norm_num) (by rw [e2]; nlinarith)
  have hlow := R.ge_of hlog (by linarith)
  have h4 : (1 + u) ^ 4 ≤ 1 + 8 * u := by nlinarith [mul_nonneg hu0 hu0, mul_nonneg (mul_nonneg hu0 hu0) hu0, sq_nonneg (u * u)]
  have h5 : (1 + u) ^ 4 * (W + b * k.x 1) ≤ (1 + 8 * u) * (W + b * k.x 1) :=
    mul_le_mul_of_nonneg_right h4 (by positivity)
  have h6 : (1 - u) * (k.x 1 + Real.log (d.cost 1) - 2) ≤ (1 + 8 * u) * (W + b * k.x 1) := by linarith
  have h7 : (1 - b) / 2 * k.x 1 ≤ 2 * W + |Real.log (d.cost 1)| + 2 := by
    have g1 : (1 - u) * (k.x 1 - (|Real.log (d.cost 1)| + 2)) ≤ (1 - u) * (k.x 1 + Real.log (d.cost 1) - 2) :=
      mul_le_mul_of_nonneg_left (by linarith [neg_abs_le (Real.log (d.cost 1))]) (by linarith)
    have g2 : (1 - u) * (|Real.log (d.cost 1)| + 2) ≤ 1 * (|Real.log (d.cost 1)| + 2) :=
      mul_le_mul_of_nonneg_right (by linarith) (by linarith)
    have g3 : (1 + 8 * u) * W ≤ 2 * W := mul_le_mul_of_nonneg_right (by linarith) hW0
    have g4 : ((1 - b) / 2) * k.x 1 ≤ ((1 - u) - (1 + 8 * u) * b) * k.x 1 := by
      refine mul_le_mul_of_nonneg_right ?_ hx1.le
      nlinarith
    nlinarith
  have h8' : k.x 1 ≤ (4 * W + 2 * |Real.log (d.cost 1)| + 6) / (1 - b) := by
    rw [le_div_iff₀ (by linarith)]
    linarith
  linarith

/-- the reported profit of a point bounded above is close to the true one, however far below the point is -/
theorem profitErr_small (h : d.Pos) (A X0 X1 : ℝ) : ∃ C, 0 < C ∧ ∀ u, 0 ≤ u → u ≤ 1 / 16 → ∀ (a x : Fin 2 → ℝ),
    (∀ i, 0 ≤ a i ∧ a i ≤ A) → x 0 ≤ X0 → x 1 ≤ X1 → 0 ≤ X0 → 0 ≤ X1 →
    ({ d with elas := a } : ProfitData).profitErr u x ≤ C * u := by
  obtain ⟨c, hc⟩ : ∃ c, c = |Real.log (d.price * d.scale)| := ⟨_, rfl⟩
  have hc0 : 0 ≤ c := by rw [hc]; positivity
  have hp := mul_pos h.price h.scale
  obtain ⟨Q, hQ⟩ : ∃ Q, Q = d.price * d.scale * Real.exp (2 * (A * X0 + A * X1)) := ⟨_, rfl⟩
  have hQ0 : 0 < Q := by rw [hQ]; positivity
  obtain ⟨V, hV⟩ : ∃ V, V = d.cost 0 * Real.exp X0 + d.cost 1 * Real.exp X1 := ⟨_, rfl⟩
  have hV0 : 0 < V := by rw [hV]; exact add_pos (mul_pos (h.cost 0) (Real.exp_pos _)) (mul_pos (h.cost 1) (Real.exp_pos _))
  refine ⟨2 * (9 * Q * (Real.exp ((c + 1) / 2) * (c + 3)) + 8 * V) + (Q + V), by positivity, fun u hu0 hu a x ha hx0 hx1 hX0 hX1 => ?_⟩
  have hpos : ({ d with elas := a } : ProfitData).Pos := ⟨h.price, h.scale, h.limit, h.cost⟩
  obtain ⟨v, hv⟩ : ∃ v, v = |a 0| * |x 0| + |a 1| * |x 1| := ⟨_, rfl⟩
  have hv0 : 0 ≤ v := by rw [hv]; positivity
  -- revenue and expense
  have hrev : ({ d with elas := a } : ProfitData).revenue x ≤ Q * Real.exp (-v) := by
    rw [ProfitData.revenue_eq, hQ, mul_assoc (d.price * d.scale), ← Real.exp_add]
    refine mul_le_mul_of_nonneg_left (Real.exp_le_exp.2 ?_) hp.le
    show a ⬝ᵥ x ≤ _
    rw [dotProduct, Fin.sum_univ_two, hv, abs_of_nonneg (ha 0).1, abs_of_nonneg (ha 1).1]
    have key : ∀ i (X : ℝ), 0 ≤ X → x i ≤ X → a i * x i + a i * |x i| ≤ 2 * (A * X) := by
      intro i X hX hx
      have h1 : x i + |x i| ≤ 2 * X := by
        rcases abs_cases (x i) with ⟨h1, _⟩ | ⟨h1, _⟩ <;> rw [h1] <;> linarith
      have h2 := mul_le_mul_of_nonneg_left h1 (ha i).1
      have h3 := mul_le_mul_of_nonneg_right (ha i).2 hX
      linarith
    have k0 := key 0 X0 hX0 hx0
    have k1 := key 1 X1 hX1 hx1
    linarith
  have hrev0 := ProfitData.revenue_pos hpos x
  have hexp : ({ d with elas := a } : ProfitData).expense x ≤ V := by
    rw [hV]
    exact add_le_add (mul_le_mul_of_nonneg_left (Real.exp_le_exp.2 hx0) (h.cost 0).le)
      (mul_le_mul_of_nonneg_left (Real.exp_le_exp.2 hx1) (h.cost 1).le)
  have hexp0 := ProfitData.expense_pos hpos x
  -- the error of the logarithm
  have hlog : ({ d with elas := a } : ProfitData).logErr u x ≤ 8 * u * (c + v + 1) := by
    show ((1 + u) ^ 4 - 1) * (|Real.log (d.price * d.scale)| + (|a 0| * |x 0| + |a 1| * |x 1|)) - (1 + u) ^ 2 * Real.log (1 - u) ≤ _
    rw [← hc, ← hv]
    have h4 : (1 + u) ^ 4 - 1 ≤ 8 * u := by nlinarith [mul_nonneg hu0 hu0, mul_nonneg (mul_nonneg hu0 hu0) hu0, sq_nonneg (u * u)]
    have h5 : -Real.log (1 - u) ≤ 2 * u := by
      have := Real.log_le_sub_one_of_pos (inv_pos.2 (show 0 < 1 - u by linarith))
      rw [Real.log_inv] at this
      refine this.trans ?_
      rw [sub_le_iff_le_add, inv_le_iff_one_le_mul₀ (by linarith)]
      nlinarith
    have h6 : (1 + u) ^ 2 ≤ 2 := by nlinarith
    have h7 : (1 + u) ^ 2 * -Real.log (1 - u) ≤ 2 * (2 * u) := by
      refine mul_le_mul h6 h5 ?_ (by norm_num)
      have := Real.log_nonpos (show 0 ≤ 1 - u by linarith) (by linarith)
      linarith
    have h8 := mul_le_mul_of_nonneg_right h4 (show 0 ≤ c + v by linarith)
    nlinarith
  obtain ⟨w, hw⟩ : ∃ w, w = 8 * u * (c + v + 1) := ⟨_, rfl⟩
  rw [← hw] at hlog
  have hw0 : 0 ≤ w := by rw [hw]; positivity
  have hw1 : w ≤ (c + 1) / 2 + v / 2 := by rw [hw]; nlinarith
  have hew : Real.exp w - 1 ≤ w * Real.exp w := by
    have h1 := Real.add_one_le_exp (-w)
    have h2 := mul_le_mul_of_nonneg_left h1 (Real.exp_pos w).le
    rw [← Real.exp_add, add_neg_cancel, Real.exp_zero] at h2
    linarith
  have main : ((1 + u) * Real.exp (({ d with elas := a } : ProfitData).logErr u x) - 1) * ({ d with elas := a } : ProfitData).revenue x ≤
      u * (9 * Q * (Real.exp ((c + 1) / 2) * (c + 3))) := by
    have h1 : (1 + u) * Real.exp (({ d with elas := a } : ProfitData).logErr u x) - 1 ≤ (w + u) * Real.exp w := by
      have := mul_le_mul_of_nonneg_left (Real.exp_le_exp.2 hlog) (show 0 ≤ 1 + u by linarith)
      linarith
    have h2 : (w + u) * Real.exp w ≤ u * (9 * (c + v + 1)) * (Real.exp ((c + 1) / 2) * Real.exp (v / 2)) := by
      refine mul_le_mul ?_ ?_ (Real.exp_pos _).le (by positivity)
      · rw [hw]; nlinarith
      · rw [← Real.exp_add]; exact Real.exp_le_exp.2 hw1
    have h3 : Real.exp (v / 2) * Real.exp (-v) * (c + v + 1) ≤ c + 3 := by
      rw [← Real.exp_add, show v / 2 + -v = -(v / 2) by ring]
      have e1 : Real.exp (-(v / 2)) ≤ 1 := Real.exp_le_one_iff.2 (by linarith)
      have e2 : Real.exp (-(v / 2)) * (v / 2) ≤ 1 := by
        have := Real.add_one_le_exp (v / 2)
        have h5 := mul_le_mul_of_nonneg_left this (Real.exp_pos (-(v / 2))).le
        rw [← Real.exp_add, neg_add_cancel, Real.exp_zero] at h5
        linarith [Real.exp_pos (-(v / 2))]
      nlinarith
    have h4 := mul_le_mul (h1.trans h2) hrev hrev0.le (by positivity)
    refine h4.trans ?_
    have h5 := mul_le_mul_of_nonneg_left h3 (show 0 ≤ u * (9 * Q * Real.exp ((c + 1) / 2)) by positivity)
    refine le_trans (le_of_eq ?_) (h5.trans (le_of_eq ?_)) <;> ring
  have h3 : (1 + u) ^ 3 - 1 ≤ 8 * u := by nlinarith [mul_nonneg hu0 hu0, mul_nonneg (mul_nonneg hu0 hu0) hu0]
  have hex : ((1 + u) ^ 3 - 1) * ({ d with elas := a } : ProfitData).expense x ≤ u * (8 * V) := by
    have := mul_le_mul h3 hexp hexp0.le (by positivity)
    linarith
  have hpr : |({ d with elas := a } : ProfitData).profit x| ≤ Q + V := by
    have hQv : Q * Real.exp (-v) ≤ Q := by
      have := mul_le_mul_of_nonneg_left (Real.exp_le_one_iff.2 (show -v ≤ 0 by linarith)) hQ0.le
      linarith
    rw [ProfitData.profit, _root_.abs_le]
    constructor <;> linarith
  have hpr2 := mul_le_mul_of_nonneg_left hpr hu0
  rw [ProfitData.profitErr]
  have hsum : (1 + u) * (((1 + u) * Real.exp (({ d with elas := a } : ProfitData).logErr u x) - 1) *
      ({ d with elas := a } : ProfitData).revenue x + ((1 + u) ^ 3 - 1) * ({ d with elas := a } : ProfitData).expense x) ≤
      2 * (u * (9 * Q * (Real.exp ((c + 1) / 2) * (c + 3))) + u * (8 * V)) := by
    have g0 : 0 ≤ u * (9 * Q * (Real.exp ((c + 1) / 2) * (c + 3))) + u * (8 * V) := by positivity
    have g1 := mul_le_mul_of_nonneg_left (add_le_add main hex) (show 0 ≤ 1 + u by linarith)
    nlinarith
  linarith

end Ellalgo
