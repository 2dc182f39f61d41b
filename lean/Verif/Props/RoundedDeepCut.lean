import Verif.Props.RoundedCut
import Verif.Lib.CutVolume

/-! C103: deep cuts in rounded arithmetic. -/

namespace Ellalgo
open Matrix
open scoped ComplexOrder
variable {u : ℝ} {R : Rounding u} {n : Nat}

/-- numbers that describe a deep cut: `k = √κ`, `W`, `Wh` exact and computed `√(gᵀMg)`, `β` the depth -/
structure DeepData (u θ γ k W Wh β : ℝ) : Prop where
  u0 : 0 ≤ u
  u12 : 12 * u ≤ θ
  g1 : γ ≤ 1
  th : 96 * θ ≤ γ
  k0 : 0 < k
  W0 : 0 < W
  Wh0 : 0 < Wh
  near : |Wh - W| ≤ θ * W
  b0 : 0 ≤ β
  depth : β ≤ (1 - γ) * (k * W)

namespace DeepData
variable {θ γ k W Wh β : ℝ}

theorem y_err (h : DeepData u θ γ k W Wh β) :
    0 ≤ β / W ∧ β / W ≤ (1 - γ) * k ∧ 0 ≤ β / Wh ∧ β / Wh ≤ (1 - γ / 2) * k ∧ |β / Wh - β / W| ≤ 96 / 95 * θ * k := by
  have hW0 := h.W0
  have hWh0 := h.Wh0
  have hk0 := h.k0
  have hy0 : 0 ≤ β / W := div_nonneg h.b0 hW0.le
  have hyh0 : 0 ≤ β / Wh := div_nonneg h.b0 hWh0.le
  have hy : β / W ≤ (1 - γ) * k := by rw [div_le_iff₀ hW0]; linarith [h.depth]
  have hθ0 : 0 ≤ θ := by linarith [h.u0, h.u12]
  have hγ0 : 0 ≤ γ := by linarith [h.th]
  have hθ1 : θ ≤ 1 / 96 := by linarith [h.th, h.g1]
  have hyk : β / W ≤ k := by nlinarith
  have hlow : 95 / 96 * W ≤ Wh := by
    have := (abs_le.1 h.near).1
    nlinarith
  have hd : |β / Wh - β / W| ≤ 96 / 95 * θ * (β / W) := by
    have e : β / Wh - β / W = β / W * ((W - Wh) / Wh) := by field_simp
    rw [e, abs_mul, abs_of_nonneg hy0, abs_div, abs_of_pos hWh0, abs_sub_comm]
    have : |Wh - W| / Wh ≤ 96 / 95 * θ := by
      rw [div_le_iff₀ hWh0]
      have := mul_le_mul_of_nonneg_left hlow hθ0
      linarith [h.near]
    calc _ ≤ β / W * (96 / 95 * θ) := mul_le_mul_of_nonneg_left this hy0
      _ = _ := by ring
  have hd2 : |β / Wh - β / W| ≤ 96 / 95 * θ * k := by
    refine hd.trans ?_
    exact mul_le_mul_of_nonneg_left hyk (by linarith)
  refine ⟨hy0, hy, hyh0, ?_, hd2⟩
  have h1 := (abs_le.1 hd2).2
  have h2 : θ * k ≤ 1 / 96 * γ * k := mul_le_mul_of_nonneg_right (by linarith [h.th]) hk0.le
  have h3 : 0 ≤ γ * k := mul_nonneg hγ0 hk0.le
  linarith

/-- the shift of the centre -/
theorem rho_err (h : DeepData u θ γ k W Wh β) {N x : ℝ} (hN : 2 ≤ N) (hx : Near u 7 x ((k + N * (β / Wh)) / (N + 1))) :
    |x - (k + N * (β / W)) / (N + 1)| ≤ 7 / 2 * θ * k := by
  obtain ⟨hy0, hy, hyh0, hyh, hd⟩ := h.y_err
  have h0 := h.u0
  have h12 := h.u12
  have hth := h.th
  have hg1 := h.g1
  have hk0 := h.k0
  have hθ0 : 0 ≤ θ := by linarith
  have hγ0 : 0 ≤ γ := by linarith
  have hzk : β / Wh ≤ k := by nlinarith
  have hN1 : 0 < N + 1 := by linarith
  have hz0 : 0 ≤ (k + N * (β / Wh)) / (N + 1) := by positivity
  have hz : (k + N * (β / Wh)) / (N + 1) ≤ k := by
    rw [div_le_iff₀ hN1]
    have : N * (β / Wh) ≤ N * k := mul_le_mul_of_nonneg_left hzk (by linarith)
    linarith
  have h1 := hx.abs_lin h0 (by push_cast; linarith) (by linarith) hz0
  push_cast at h1
  have h2 : 4 / 3 * (7 * u) * ((k + N * (β / Wh)) / (N + 1)) ≤ 4 / 3 * (7 * u) * k := mul_le_mul_of_nonneg_left hz (by linarith)
  have h3 : |(k + N * (β / Wh)) / (N + 1) - (k + N * (β / W)) / (N + 1)| ≤ 96 / 95 * θ * k := by
    have e : (k + N * (β / Wh)) / (N + 1) - (k + N * (β / W)) / (N + 1) = N / (N + 1) * (β / Wh - β / W) := by
      field_simp; ring
    have h4 : N / (N + 1) ≤ 1 := by rw [div_le_one hN1]; linarith
    rw [e, abs_mul, abs_of_nonneg (by positivity)]
    calc _ ≤ 1 * |β / Wh - β / W| := mul_le_mul_of_nonneg_right h4 (abs_nonneg _)
      _ ≤ _ := by rw [one_mul]; exact hd
  have h4 := abs_add_le (x - (k + N * (β / Wh)) / (N + 1)) ((k + N * (β / Wh)) / (N + 1) - (k + N * (β / W)) / (N + 1))
  rw [sub_add_sub_cancel] at h4
  have h5 := mul_le_mul_of_nonneg_right h12 hk0.le
  have h6 : 0 ≤ θ * k := by positivity
  linarith

/-- the shrinking factor of the matrix -/
theorem sigma_err (h : DeepData u θ γ k W Wh β) {N x : ℝ} (hN : 2 ≤ N)
    (hx : Near u 11 x (2 * ((k + N * (β / Wh)) / (N + 1)) / (k + β / Wh))) :
    |x - 2 * ((k + N * (β / W)) / (N + 1)) / (k + β / W)| ≤ 7 / 2 * θ := by
  obtain ⟨hy0, hy, hyh0, hyh, hd⟩ := h.y_err
  have h0 := h.u0
  have h12 := h.u12
  have hth := h.th
  have hg1 := h.g1
  have hk0 := h.k0
  have hθ0 : 0 ≤ θ := by linarith
  have hγ0 : 0 ≤ γ := by linarith
  have hzk : β / Wh ≤ k := by nlinarith
  set y := β / W
  set z := β / Wh
  have hN1 : 0 < N + 1 := by linarith
  have hkz : 0 < k + z := by linarith
  have hky : 0 < k + y := by linarith
  have hf0 : 0 ≤ 2 * ((k + N * z) / (N + 1)) / (k + z) := by positivity
  have hf1 : 2 * ((k + N * z) / (N + 1)) / (k + z) ≤ 1 := by
    rw [div_le_one hkz, ← mul_div_assoc, div_le_iff₀ hN1]
    nlinarith
  have h1 := hx.abs_lin h0 (by push_cast; linarith) (by linarith) hf0
  push_cast at h1
  have h2 : 4 / 3 * (11 * u) * (2 * ((k + N * z) / (N + 1)) / (k + z)) ≤ 4 / 3 * (11 * u) * 1 :=
    mul_le_mul_of_nonneg_left hf1 (by linarith)
  have h3 : |2 * ((k + N * z) / (N + 1)) / (k + z) - 2 * ((k + N * y) / (N + 1)) / (k + y)| ≤ 192 / 95 * θ := by
    have e : 2 * ((k + N * z) / (N + 1)) / (k + z) - 2 * ((k + N * y) / (N + 1)) / (k + y) =
        2 * ((N - 1) / (N + 1)) * (k / (k + z)) * ((z - y) / (k + y)) := by
      field_simp; ring
    have a1 : (N - 1) / (N + 1) ≤ 1 := by rw [div_le_one hN1]; linarith
    have a10 : 0 ≤ (N - 1) / (N + 1) := div_nonneg (by linarith) hN1.le
    have a2 : k / (k + z) ≤ 1 := by rw [div_le_one hkz]; linarith
    have a20 : 0 ≤ k / (k + z) := by positivity
    have a3 : |z - y| / (k + y) ≤ 96 / 95 * θ := by
      rw [div_le_iff₀ hky]
      have : 0 ≤ θ * y := mul_nonneg hθ0 hy0
      linarith
    have a30 : 0 ≤ |z - y| / (k + y) := by positivity
    rw [e, abs_mul, abs_mul, abs_mul, abs_of_nonneg a10, abs_of_nonneg a20, abs_div, abs_of_pos hky, abs_of_pos (by norm_num : (0:ℝ) < 2)]
    have b1 : (N - 1) / (N + 1) * (k / (k + z)) ≤ 1 := by nlinarith
    have b2 : (N - 1) / (N + 1) * (k / (k + z)) * (|z - y| / (k + y)) ≤ 1 * (96 / 95 * θ) :=
      mul_le_mul b1 a3 a30 zero_le_one
    nlinarith
  have h4 := abs_add_le (x - 2 * ((k + N * z) / (N + 1)) / (k + z))
    (2 * ((k + N * z) / (N + 1)) / (k + z) - 2 * ((k + N * y) / (N + 1)) / (k + y))
  rw [sub_add_sub_cancel] at h4
  linarith

/-- the factor `1 - α²` -/
theorem delta_err (h : DeepData u θ γ k W Wh β) {x : ℝ} (hx : Near u 7 x (β / (k * Wh) * (β / (k * Wh)))) :
    (1 - 3 * θ / γ) * (1 - β / (k * W) * (β / (k * W))) ≤ 1 - x ∧ 1 - x ≤ (1 + 3 * θ / γ) * (1 - β / (k * W) * (β / (k * W))) ∧
      γ ≤ 1 - β / (k * W) * (β / (k * W)) := by
  obtain ⟨hy0, hy, hyh0, hyh, hd⟩ := h.y_err
  have h0 := h.u0
  have h12 := h.u12
  have hth := h.th
  have hg1 := h.g1
  have hk0 := h.k0
  have hθ0 : 0 ≤ θ := by linarith
  have hγ0 : 0 ≤ γ := by linarith
  have hW0 := h.W0
  have hWh0 := h.Wh0
  have e1 : β / (k * W) = β / W / k := by rw [div_div, mul_comm]
  have e2 : β / (k * Wh) = β / Wh / k := by rw [div_div, mul_comm]
  rw [e1]
  rw [e2] at hx
  have a0 : 0 ≤ β / W / k := div_nonneg hy0 hk0.le
  have a1 : β / W / k ≤ 1 - γ := by rw [div_le_iff₀ hk0]; linarith
  have b0 : 0 ≤ β / Wh / k := div_nonneg hyh0 hk0.le
  have b1 : β / Wh / k ≤ 1 := by rw [div_le_iff₀ hk0]; nlinarith
  have c1 : |β / Wh / k - β / W / k| ≤ 96 / 95 * θ := by
    rw [← sub_div, abs_div, abs_of_pos hk0, div_le_iff₀ hk0]
    exact hd
  set a := β / W / k
  set b := β / Wh / k
  have hbb : b * b ≤ 1 := by nlinarith
  have h1 := hx.abs_lin h0 (by push_cast; linarith) (by linarith) (mul_nonneg b0 b0)
  push_cast at h1
  have h2 : 4 / 3 * (7 * u) * (b * b) ≤ 4 / 3 * (7 * u) * 1 := mul_le_mul_of_nonneg_left hbb (by linarith)
  have h3 : |b * b - a * a| ≤ 192 / 95 * θ := by
    have : b * b - a * a = (b - a) * (b + a) := by ring
    rw [this, abs_mul, abs_of_nonneg (by linarith : 0 ≤ b + a)]
    calc |b - a| * (b + a) ≤ 96 / 95 * θ * (b + a) := mul_le_mul_of_nonneg_right c1 (by linarith)
      _ ≤ 96 / 95 * θ * 2 := mul_le_mul_of_nonneg_left (by linarith) (by linarith)
      _ = _ := by ring
  have h4 := abs_le.1 h1
  have h5 := abs_le.1 h3
  have haa : γ ≤ 1 - a * a := by nlinarith
  have hfin : 3 * θ ≤ 3 * θ / γ * (1 - a * a) := by
    rcases hγ0.lt_or_eq with hγ | hγ
    · rw [div_mul_eq_mul_div, le_div_iff₀ hγ]
      exact mul_le_mul_of_nonneg_left haa (by linarith)
    · have : θ = 0 := by linarith
      rw [this]; simp
  refine ⟨?_, ?_, haa⟩ <;> linarith

end DeepData

/-- the growth of the inflation of a deep cut in exact arithmetic -/
theorem deep_growth {N a γ t μ δ : ℝ} (hN : 2 ≤ N) (hγ0 : 0 < γ) (hγ1 : γ ≤ 1) (ha0 : 0 ≤ a) (ha : a ≤ 1 - γ) (ht : 1 ≤ t)
    (hμ : μ = 2 * (1 + N * a) / ((N - 1) * (1 - a))) (hδ : δ = N * N / (N * N - 1) * (1 - a * a)) :
    t ^ 2 - 1 + δ + μ * (t * (t - 1)) ≤ δ * (1 + (1 + 1 / N) / γ ^ 2 * (t - 1)) ^ 2 := by
  have h1a : 0 < 1 - a := by linarith
  have hN1 : 0 < N - 1 := by linarith
  have hden : 0 < (N - 1) * (1 - a) := mul_pos hN1 h1a
  obtain ⟨c, hc⟩ : ∃ c, c = (1 + 1 / N) / γ ^ 2 := ⟨_, rfl⟩
  rw [← hc]
  have hcγ : c * γ ^ 2 = 1 + 1 / N := by rw [hc]; field_simp
  have hc0 : 0 ≤ c := by rw [hc]; positivity
  have hγ2 : γ ^ 2 ≤ (1 - a) ^ 2 := pow_le_pow_left₀ hγ0.le (by linarith) 2
  have hcN : 1 + 1 / N ≤ c := by
    rw [← hcγ]
    exact mul_le_of_le_one_right hc0 (pow_le_one₀ hγ0.le hγ1)
  have hca : 1 + 1 / N ≤ c * (1 - a) ^ 2 := by
    rw [← hcγ]
    exact mul_le_mul_of_nonneg_left hγ2 hc0
  have hNN : 0 < N * N - 1 := by nlinarith
  have hδc : N * (1 + a) / ((N - 1) * (1 - a)) ≤ δ * c := by
    have e : N * (1 + a) / ((N - 1) * (1 - a)) = N * N / (N * N - 1) * (1 + a) / (1 - a) * (1 + 1 / N) := by
      have : N * N - 1 = (N - 1) * (N + 1) := by ring
      rw [this]
      have hN0 : N ≠ 0 := by linarith
      have hN2 : N - 1 ≠ 0 := hN1.ne'
      have hN3 : N + 1 ≠ 0 := by linarith
      field_simp
    have e2 : δ * c = N * N / (N * N - 1) * (1 + a) / (1 - a) * (c * (1 - a) ^ 2) := by
      rw [hδ]
      field_simp
      ring
    rw [e, e2]
    exact mul_le_mul_of_nonneg_left hca (by positivity)
  have k1 : 2 + μ ≤ 2 * (δ * c) := by
    have e : 2 + μ = 2 * ((N + a) / ((N - 1) * (1 - a))) := by
      rw [hμ]
      field_simp
      ring
    rw [e]
    have : (N + a) / ((N - 1) * (1 - a)) ≤ N * (1 + a) / ((N - 1) * (1 - a)) :=
      div_le_div_of_nonneg_right (by nlinarith) hden.le
    linarith
  have k2 : 1 + μ ≤ δ * c * c := by
    have e : 1 + μ = N * (1 + a) / ((N - 1) * (1 - a)) * (1 + 1 / N) := by
      rw [hμ]
      have hN0 : N ≠ 0 := by linarith
      field_simp
      ring
    rw [e]
    exact mul_le_mul hδc hcN (by positivity) (le_trans (by positivity) hδc)
  have h1 : 0 ≤ t - 1 := by linarith
  have h3 : 0 ≤ (t - 1) * (t - 1) := mul_nonneg h1 h1
  have k3 := mul_le_mul_of_nonneg_right k1 h1
  have k4 := mul_le_mul_of_nonneg_right k2 h3
  have e1 : t ^ 2 - 1 + δ + μ * (t * (t - 1)) = δ + ((2 + μ) * (t - 1) + (1 + μ) * ((t - 1) * (t - 1))) := by ring
  have e2 : δ * (1 + c * (t - 1)) ^ 2 = δ + (2 * (δ * c) * (t - 1) + δ * c * c * ((t - 1) * (t - 1))) := by ring
  rw [e1, e2]
  linarith

/-- the parameters of a deep cut, as computed -/
theorem deep_params (hu : u ≤ 1 / 64) (hn : 2 ≤ n) (kd : UpdateKind) (hkd : kd = .bias ∨ kd = .q) {κ ω β : Fl R} (hκ : 0 < κ.val)
    (hω : 0 < ω.val) (hβ : 0 ≤ β.val) {ε : ℝ} (hε : 2 * u ≤ ε) (hε1 : ε ≤ 1) (hβT : β.val ≤ (1 - ε) * (√κ.val * √ω.val)) :
    ∃ ρ σ δ α : Fl R, CutType.call kd (SingleCut.mk β) (EllCalc.new n) (κ * ω) = (.success, ρ, σ, δ) ∧
      Near u 7 (ρ.val / √ω.val) ((√κ.val + n * (β.val / √ω.val)) / (n + 1)) ∧
      Near u 11 σ.val (2 * ((√κ.val + n * (β.val / √ω.val)) / (n + 1)) / (√κ.val + β.val / √ω.val)) ∧
      Near u 7 α.val (β.val / (√κ.val * √ω.val) * (β.val / (√κ.val * √ω.val))) ∧
      δ = (EllCalcCore.new (Nat.cast n : Fl R)).cst1 * (1 - α) := by
  have hu1 : u < 1 := by linarith
  have h0 := R.unit_nonneg
  have hW : 0 < √ω.val := Real.sqrt_pos.2 hω
  have hk : 0 < √κ.val := Real.sqrt_pos.2 hκ
  have hn2 : (2 : ℝ) ≤ n := by exact_mod_cast hn
  have h1 : Near u 1 (κ * ω).val (κ.val * ω.val) := Near.rnd (R := R) hu1 (by positivity)
  obtain ⟨τ, hτ⟩ : ∃ τ : Fl R, τ = Scalar.sqrt (κ * ω) := ⟨_, rfl⟩
  obtain ⟨T, hT⟩ : ∃ T : ℝ, T = √κ.val * √ω.val := ⟨_, rfl⟩
  have hT0 : 0 < T := hT ▸ mul_pos hk hW
  have hTT : T * T = κ.val * ω.val := by
    rw [hT, mul_mul_mul_comm, Real.mul_self_sqrt hκ.le, Real.mul_self_sqrt hω.le]
  rw [← hT] at hβT ⊢
  have hτn : Near u 2 τ.val T := by
    have := (h1.sqrt h0 hu1).round (R := R) hu1 (Real.sqrt_nonneg _)
    rw [Real.sqrt_mul hκ.le, ← hT] at this
    rw [hτ]; exact this
  have hτ0 : 0 < τ.val := hτn.pos hu1 hT0
  have hp2 : 1 - ε ≤ (1 - u) ^ 2 := by nlinarith
  have hτlow : (1 - ε) * T ≤ τ.val := (mul_le_mul_of_nonneg_right hp2 hT0.le).trans hτn.1
  have hη : Near u 3 (τ + (Nat.cast n : Fl R) * β).val (T + n * β.val) := by
    have a : Near u 2 ((Nat.cast n : Fl R) * β).val (n * β.val) := by
      have := ((nF_near R hu hn).mul hu1 (by positivity) hβ (Near.of_eq rfl)).round (R := R) hu1 (mul_nonneg (by positivity) hβ)
      simpa using this
    exact (hτn.add a).round hu1 (by positivity)
  have hη0 : 0 < T + n * β.val := by positivity
  have hηpos : 0 < (τ + (Nat.cast n : Fl R) * β).val := hη.pos hu1 hη0
  have hnot1 : ¬ (κ * ω).val < (β * β).val := by
    have a := (R.abs_le (β.val * β.val))
    rw [abs_of_nonneg (R.nonneg (mul_nonneg hβ hβ)), abs_of_nonneg (mul_nonneg hβ hβ)] at a
    have a2 : (β * β).val ≤ (1 + u) * (β.val * β.val) := a
    have b := h1.1
    rw [pow_one, ← hTT] at b
    have d : 0 < T * T := mul_pos hT0 hT0
    have c : β.val * β.val ≤ (1 - ε) * (T * T) := by
      have c1 : β.val * β.val ≤ (1 - ε) * T * ((1 - ε) * T) := mul_le_mul hβT hβT hβ (hβ.trans hβT)
      have c2 : (1 - ε) * (1 - ε) ≤ 1 - ε := by nlinarith
      have c3 := mul_le_mul_of_nonneg_right c2 d.le
      linarith
    have c4 : (1 + u) * (β.val * β.val) ≤ (1 + u) * ((1 - ε) * (T * T)) := mul_le_mul_of_nonneg_left c (by linarith)
    have c5 : (1 + u) * (1 - ε) ≤ 1 - u := by nlinarith
    have c6 := mul_le_mul_of_nonneg_right c5 d.le
    refine not_lt.2 (a2.trans (c4.trans (le_trans ?_ b)))
    linarith
  have hnot2 : ¬ τ.val < β.val := not_lt.2 (hβT.trans hτlow)
  have hcall : CutType.call kd (SingleCut.mk β) (EllCalc.new n) (κ * ω) =
      (.success, (EllCalcCore.new (Nat.cast n : Fl R)).calcBiasCutFast β τ (τ + (Nat.cast n : Fl R) * β)) := by
    rw [hτ] at hηpos hnot2 ⊢
    rcases hkd with rfl | rfl
    · show (EllCalc.new n : EllCalc (Fl R)).calcBiasCut β (κ * ω) = _
      unfold EllCalc.calcBiasCut
      have e1 : Scalar.lt (κ * ω) (β * β) = false := decide_eq_false hnot1
      rw [e1]
      rfl
    · show (EllCalc.new n : EllCalc (Fl R)).calcBiasCutQ β (κ * ω) = _
      unfold EllCalc.calcBiasCutQ
      dsimp only
      have e1 : Scalar.lt (Scalar.sqrt (κ * ω)) β = false := decide_eq_false hnot2
      have e2 : Scalar.lt (Scalar.sqrt (κ * ω) + (EllCalc.new n : EllCalc (Fl R)).nF * β) 0 = false :=
        decide_eq_false (not_lt.2 hηpos.le)
      rw [e1, e2]
      rfl
  have hρn : Near u 6 ((τ + (Nat.cast n : Fl R) * β) / (EllCalcCore.new (Nat.cast n : Fl R)).nPlus1).val
      ((T + n * β.val) / (n + 1)) :=
    (hη.div hu1 hη0.le (by positivity) (nPlus1_near R hu hn)).round hu1 (by positivity)
  have hρ0 : 0 < (T + n * β.val) / ((n : ℝ) + 1) := by positivity
  have e1 : (T + n * β.val) / ((n : ℝ) + 1) / √ω.val = (√κ.val + n * (β.val / √ω.val)) / (n + 1) := by
    rw [hT]; field_simp
  have e2 : 2 * ((T + n * β.val) / ((n : ℝ) + 1)) / (T + β.val) =
      2 * ((√κ.val + n * (β.val / √ω.val)) / (n + 1)) / (√κ.val + β.val / √ω.val) := by
    have hTβ : T + β.val = (√κ.val + β.val / √ω.val) * √ω.val := by rw [hT]; field_simp
    rw [← e1, hTβ, mul_comm (√κ.val + _) (√ω.val), ← div_div]
    congr 1
    field_simp
  refine ⟨_, _, _, β / τ * (β / τ), hcall, ?_, ?_, ?_, rfl⟩
  · have a := hρn.div hu1 hρ0.le hW (Near.of_eq (rfl : √ω.val = √ω.val))
    rw [e1] at a
    refine a.mono h0 hu1 (by norm_num) ?_ (by positivity)
    exact a.nonneg hu1 (by positivity)
  · rw [← e2]
    have h2' : Near u 0 (nat 2 : Fl R).val 2 := Near.of_eq (by
      show R.rnd ((2 : Nat) : ℝ) = 2
      exact_mod_cast R.two)
    have a := (h2'.mul hu1 (by norm_num) hρ0.le hρn).round (R := R) hu1 (by positivity)
    have hβn : Near u 2 β.val β.val := (Near.of_eq rfl).mono h0 hu1 (Nat.zero_le 2) hβ hβ
    have b : Near u 3 (τ + β).val (T + β.val) := (hτn.add hβn).round hu1 (by positivity)
    exact (a.div hu1 (by positivity) (by positivity) b).round hu1 (by positivity)
  · have a : Near u 3 (β / τ).val (β.val / T) :=
      ((Near.of_eq (rfl : β.val = β.val)).div hu1 hβ hT0 hτn).round hu1 (by positivity)
    exact (a.mul hu1 (by positivity) (by positivity) a).round hu1 (by positivity)

/-- from the bound in exact terms to the inflation factor of a deep cut -/
theorem deepInflation_bound {κ d κ' η θ γ ν ν₀ t D X : ℝ} (hu1 : u < 1) (hκ : 0 < κ) (hγ0 : 0 < γ) (hγ1 : γ ≤ 1) (hd : γ ≤ d)
    (hη : η ≤ 1 / 2) (hθ : 96 * θ ≤ γ) (hκd : (1 - 3 * θ / γ) * (1 - u) ^ 13 * (κ * d) ≤ κ') (hν0 : 0 ≤ ν₀) (hν : ν₀ / γ = ν)
    (hD : D = √κ * ν₀) (ht : 1 ≤ t) (hX : X ≤ d * (1 + (1 + 1 / (n : ℝ)) / γ ^ 2 * (t - 1)) ^ 2) :
    (√(κ * X) + D) ^ 2 / (1 - η) ≤ deepInflation u n θ η ν γ t ^ 2 * κ' := by
  have hp : 0 < (1 - u) ^ 13 := pow_sub_nonneg hu1 13
  have hη1 : 0 < 1 - η := by linarith
  have hθ1 : 0 < 1 - 3 * θ / γ := by
    have : 3 * θ / γ ≤ 1 / 32 := by rw [div_le_iff₀ hγ0]; linarith
    linarith
  have hd0 : 0 < d := by linarith
  have hκd0 : 0 ≤ κ * d := by positivity
  have ht' : 0 ≤ 1 + (1 + 1 / (n : ℝ)) / γ ^ 2 * (t - 1) := by
    have : 0 ≤ (1 + 1 / (n : ℝ)) / γ ^ 2 * (t - 1) := mul_nonneg (by positivity) (by linarith)
    linarith
  have hνp : 0 ≤ ν := hν ▸ div_nonneg hν0 hγ0.le
  rw [deepInflation, div_pow, Real.sq_sqrt (by positivity)]
  have e1 : √(κ * X) ≤ √(κ * d) * (1 + (1 + 1 / (n : ℝ)) / γ ^ 2 * (t - 1)) := by
    rw [← Real.sqrt_sq ht', ← Real.sqrt_mul hκd0]
    refine Real.sqrt_le_sqrt ?_
    rw [mul_assoc]
    exact mul_le_mul_of_nonneg_left hX hκ.le
  have e2 : D ≤ √(κ * d) * ν := by
    have a : γ * √κ ≤ √(κ * d) := by
      apply Real.le_sqrt_of_sq_le
      rw [mul_pow, Real.sq_sqrt hκ.le, mul_comm]
      refine mul_le_mul_of_nonneg_left ?_ hκ.le
      nlinarith
    rw [hD, ← hν]
    calc √κ * ν₀ = γ * √κ * (ν₀ / γ) := by field_simp
      _ ≤ √(κ * d) * (ν₀ / γ) := mul_le_mul_of_nonneg_right a (div_nonneg hν0 hγ0.le)
  have hD0 : 0 ≤ D := by rw [hD]; positivity
  have e3 : (√(κ * X) + D) ^ 2 ≤ κ * d * (1 + (1 + 1 / (n : ℝ)) / γ ^ 2 * (t - 1) + ν) ^ 2 := by
    calc _ ≤ (√(κ * d) * (1 + (1 + 1 / (n : ℝ)) / γ ^ 2 * (t - 1) + ν)) ^ 2 := by
          refine pow_le_pow_left₀ (by positivity) ?_ 2
          rw [mul_add]; linarith
      _ = _ := by rw [mul_pow, Real.sq_sqrt hκd0]
  have e4 : κ * d ≤ κ' / ((1 - 3 * θ / γ) * (1 - u) ^ 13) := by
    rw [le_div_iff₀ (by positivity), mul_comm]; exact hκd
  calc _ ≤ κ * d * (1 + (1 + 1 / (n : ℝ)) / γ ^ 2 * (t - 1) + ν) ^ 2 / (1 - η) := div_le_div_of_nonneg_right e3 hη1.le
    _ ≤ κ' / ((1 - 3 * θ / γ) * (1 - u) ^ 13) * (1 + (1 + 1 / (n : ℝ)) / γ ^ 2 * (t - 1) + ν) ^ 2 / (1 - η) :=
        div_le_div_of_nonneg_right (mul_le_mul_of_nonneg_right e4 (sq_nonneg _)) hη1.le
    _ = _ := by rw [div_mul_eq_mul_div, div_div, mul_comm _ (1 - η), mul_comm κ', ← div_mul_eq_mul_div]

/-- the new `κ` of a deep cut -/
theorem deep_kappa (hu : u ≤ 1 / 64) (hn : 2 ≤ n) {κ α : Fl R} {q a : ℝ} (hκ : 0 < κ.val) (hq : 0 < q) (ha : 0 < a)
    (h : q * a ≤ 1 - α.val) :
    q * (1 - u) ^ 13 * (κ.val * ((n : ℝ) * n / (n * n - 1) * a)) ≤
      (κ * ((EllCalcCore.new (Nat.cast n : Fl R)).cst1 * (1 - α))).val := by
  have hu1 : u < 1 := by linarith
  have h0 := R.unit_nonneg
  have hn2 : (2 : ℝ) ≤ n := by exact_mod_cast hn
  have hc0 : 0 < (n : ℝ) * n / (n * n - 1) := div_pos (by positivity) (by nlinarith)
  have hv : 0 < 1 - u := by linarith
  have ha1 : 0 < q * a := mul_pos hq ha
  have h1 : (1 - u) * (q * a) ≤ (1 - α : Fl R).val := by
    have b := (Near.rnd (R := R) hu1 (x := 1 - α.val) (by linarith)).1
    rw [pow_one] at b
    exact (mul_le_mul_of_nonneg_left h hv.le).trans b
  have h10 : 0 < (1 - α : Fl R).val := lt_of_lt_of_le (by positivity) h1
  have hc := cst1_near R hu hn
  have hc1 := hc.1
  have hcp := hc.pos hu1 hc0
  have h2 : (1 - u) ^ 10 * ((n : ℝ) * n / (n * n - 1)) * ((1 - u) * (q * a)) ≤
      (EllCalcCore.new (Nat.cast n : Fl R)).cst1.val * (1 - α : Fl R).val :=
    mul_le_mul hc1 h1 (by positivity) hcp.le
  have h3 : (1 - u) * ((EllCalcCore.new (Nat.cast n : Fl R)).cst1.val * (1 - α : Fl R).val) ≤
      ((EllCalcCore.new (Nat.cast n : Fl R)).cst1 * (1 - α)).val := by
    have b := (Near.rnd (R := R) hu1 (x := (EllCalcCore.new (Nat.cast n : Fl R)).cst1.val * (1 - α : Fl R).val) (by positivity)).1
    rwa [pow_one] at b
  have h30 : 0 ≤ ((EllCalcCore.new (Nat.cast n : Fl R)).cst1 * (1 - α)).val := le_trans (by positivity) h3
  have h4 : (1 - u) * (κ.val * ((EllCalcCore.new (Nat.cast n : Fl R)).cst1 * (1 - α)).val) ≤
      (κ * ((EllCalcCore.new (Nat.cast n : Fl R)).cst1 * (1 - α))).val := by
    have b := (Near.rnd (R := R) hu1 (x := κ.val * ((EllCalcCore.new (Nat.cast n : Fl R)).cst1 * (1 - α)).val)
      (mul_nonneg hκ.le h30)).1
    rwa [pow_one] at b
  calc _ = (1 - u) * (κ.val * ((1 - u) * ((1 - u) ^ 10 * ((n : ℝ) * n / (n * n - 1)) * ((1 - u) * (q * a))))) := by ring
    _ ≤ (1 - u) * (κ.val * ((1 - u) * ((EllCalcCore.new (Nat.cast n : Fl R)).cst1.val * (1 - α : Fl R).val))) := by gcongr
    _ ≤ (1 - u) * (κ.val * ((EllCalcCore.new (Nat.cast n : Fl R)).cst1 * (1 - α)).val) := by gcongr
    _ ≤ _ := h4

theorem deep_kappa_upper (hu : u ≤ 1 / 64) (hn : 2 ≤ n) {κ α : Fl R} {q a : ℝ} (hκ : 0 < κ.val) (h0' : 0 ≤ 1 - α.val)
    (h : 1 - α.val ≤ q * a) :
    (1 - u) ^ 13 * (κ * ((EllCalcCore.new (Nat.cast n : Fl R)).cst1 * (1 - α))).val ≤
      q * (κ.val * ((n : ℝ) * n / (n * n - 1) * a)) := by
  have hu1 : u < 1 := by linarith
  have h0 := R.unit_nonneg
  have hn2 : (2 : ℝ) ≤ n := by exact_mod_cast hn
  have hc0 : 0 < (n : ℝ) * n / (n * n - 1) := div_pos (by positivity) (by nlinarith)
  have h1 : Near u 1 (1 - α : Fl R).val (1 - α.val) := Near.rnd (R := R) hu1 (x := 1 - α.val) h0'
  have h2 : Near u 12 ((EllCalcCore.new (Nat.cast n : Fl R)).cst1 * (1 - α)).val ((n : ℝ) * n / (n * n - 1) * (1 - α.val)) :=
    ((cst1_near R hu hn).mul hu1 hc0.le h0' h1).round hu1 (mul_nonneg hc0.le h0')
  have h3 : Near u 13 (κ * ((EllCalcCore.new (Nat.cast n : Fl R)).cst1 * (1 - α))).val
      (κ.val * ((n : ℝ) * n / (n * n - 1) * (1 - α.val))) := by
    have := ((Near.of_eq (rfl : κ.val = κ.val)).mul hu1 hκ.le (mul_nonneg hc0.le h0') h2).round (R := R) hu1
      (mul_nonneg hκ.le (mul_nonneg hc0.le h0'))
    simpa using this
  refine h3.2.trans ?_
  have h4 := mul_le_mul_of_nonneg_left h (mul_pos hκ hc0).le
  calc _ = κ.val * ((n : ℝ) * n / (n * n - 1)) * (1 - α.val) := by ring
    _ ≤ _ := h4
    _ = _ := by ring

/-- the drift of a deep cut in the units `rounded_cut` asks for -/
theorem deep_drift_bound {Y lam q γ D : ℝ} (hl : 0 < lam) (hγ0 : 0 < γ) (hγ1 : γ ≤ 1) (hq : γ / 6 ≤ q)
    (hD : D = 6 / γ * Y / √lam) : Y ^ 2 ≤ D ^ 2 * (q * lam) := by
  rw [hD, div_pow, Real.sq_sqrt hl.le]
  have : (6 / γ * Y) ^ 2 / lam * (q * lam) = 36 / γ ^ 2 * q * Y ^ 2 := by
    field_simp; ring
  rw [this]
  have hY : 0 ≤ Y ^ 2 := sq_nonneg _
  have h1 : 1 ≤ 36 / γ ^ 2 * q := by
    rw [div_mul_eq_mul_div, le_div_iff₀ (by positivity)]
    nlinarith
  nlinarith

theorem deep_loss_bound {θ B lam q γ : ℝ} (hl : 0 < lam) (hγ0 : 0 < γ) (hq : γ / 6 ≤ q) (hθ : 0 ≤ θ) (hB : 0 ≤ B) :
    8 * (4 * θ) * B * n ≤ 192 * θ * (n * (B / lam)) / γ * (q * lam) := by
  have : 192 * θ * (n * (B / lam)) / γ * (q * lam) = 192 * θ * n * B * (q / γ) := by
    field_simp
  rw [this]
  have h1 : 0 ≤ 192 * θ * n * B := by positivity
  have h2 : 1 / 6 ≤ q / γ := by rw [le_div_iff₀ hγ0]; linarith
  have := mul_le_mul_of_nonneg_left h2 h1
  linarith

theorem deepDrift_eq {B lam κ X θ γ : ℝ} (hκ : 0 < κ) (hl : 0 < lam) (hB0 : 0 < B) (hγ0 : 0 < γ) :
    √κ * (6 / γ * (u * X / √(κ * lam) + 16 * θ * √(n * (B / lam)))) =
      6 / γ * (u * X + √n * (4 * (4 * θ) * (√κ * √B))) / √lam := by
  have hk0 : 0 < √κ := Real.sqrt_pos.2 hκ
  have hl0 : 0 < √lam := Real.sqrt_pos.2 hl
  rw [Real.sqrt_mul hκ.le, Real.sqrt_mul (by positivity), Real.sqrt_div hB0.le]
  field_simp
  ring

/-- real facts about the exact parameters of a deep cut -/
theorem deep_exact {N τ β γ : ℝ} (hN : 2 ≤ N) (hτ : 0 < τ) (hβ : 0 ≤ β) (hγ0 : 0 < γ) (hβτ : β ≤ (1 - γ) * τ) :
    1 - 2 * ((τ + N * β) / (N + 1)) / (τ + β) = (N - 1) / (N + 1) * ((τ - β) / (τ + β)) ∧
    γ / 6 ≤ (N - 1) / (N + 1) * ((τ - β) / (τ + β)) ∧
    2 * ((τ + N * β) / (N + 1)) / (τ + β) / (1 - 2 * ((τ + N * β) / (N + 1)) / (τ + β)) =
      2 * (1 + N * (β / τ)) / ((N - 1) * (1 - β / τ)) ∧ (τ + N * β) / (N + 1) ≤ τ := by
  have hγτ : 0 < γ * τ := mul_pos hγ0 hτ
  have h1 : τ + β ≠ 0 := by positivity
  have h2 : N + 1 ≠ 0 := by positivity
  have h3 : N - 1 ≠ 0 := by linarith
  have h4 : τ - β ≠ 0 := by
    intro h; nlinarith
  have e1 : 1 - 2 * ((τ + N * β) / (N + 1)) / (τ + β) = (N - 1) / (N + 1) * ((τ - β) / (τ + β)) := by
    field_simp; ring
  refine ⟨e1, ?_, ?_, ?_⟩
  · have a : 1 / 3 ≤ (N - 1) / (N + 1) := by
      rw [div_le_div_iff₀ (by norm_num) (by linarith)]; linarith
    have b : γ / 2 ≤ (τ - β) / (τ + β) := by
      rw [div_le_div_iff₀ (by norm_num) (by linarith)]; nlinarith
    calc γ / 6 = 1 / 3 * (γ / 2) := by ring
      _ ≤ _ := mul_le_mul a b (by linarith) (by linarith)
  · rw [e1]
    have h5 : 1 - β / τ = (τ - β) / τ := by field_simp
    rw [h5]
    field_simp
  · rw [div_le_iff₀ (by linarith)]
    nlinarith

/-- the deep cut, before the inflation factor is brought into its final form -/
theorem deep_core {lam B θ η γ D ω τ : ℝ} (hu : u ≤ 1 / 64) {e : Ell (Fl R)} (he : e.Conditioned n lam B) {g : Arr (Fl R)}
    (hg : g.IsVecShape n) (hne : g.flVec n ≠ 0) (kd : UpdateKind) (hkd : kd = .bias ∨ kd = .q) (β : Fl R) (hβ : 0 ≤ β.val)
    (hωd : ω = g.flVec n ⬝ᵥ (e.mq.flMat n *ᵥ g.flVec n)) (hτ : τ = √(e.kappa.val * ω)) (hγ0 : 0 < γ) (hγ1 : γ ≤ 1)
    (hβτ : β.val ≤ (1 - γ) * τ)
    (hθd : quadErr u n B lam = θ) (hθ : 96 * θ ≤ γ) (hB0 : 0 < B) (h12 : 12 * u ≤ θ)
    (hηd : η = 192 * θ * (n * (B / lam)) / γ) (hη : η ≤ 1 / 2) (hD0 : 0 ≤ D)
    (hDe : D = 6 / γ * (u * norm2 (e.xc.flVec n) + √n * (4 * (4 * θ) * (√e.kappa.val * √B))) / √lam) :
    ∃ e', Ell.space.update kd e (g, SingleCut.mk β) = .ok (.success, e') ∧ e'.Shaped n ∧ e'.helper = e.helper ∧
      e'.noDeferTrick = false ∧
      ((1 - 3 * θ / γ) * (1 - u) ^ 13 * (e.kappa.val * ((n : ℝ) * n / (n * n - 1) * (1 - β.val / τ * (β.val / τ)))) ≤ e'.kappa.val ∧
        (1 - u) ^ 13 * e'.kappa.val ≤
          (1 + 3 * θ / γ) * (e.kappa.val * ((n : ℝ) * n / (n * n - 1) * (1 - β.val / τ * (β.val / τ))))) ∧
      (e'.mq.flMat n).IsSymm ∧
      (∀ v : Fin n → ℝ, (1 - η) * (γ / 6) * lam * (v ⬝ᵥ v) ≤ v ⬝ᵥ (e'.mq.flMat n *ᵥ v)) ∧
      (∀ i j, |e'.mq.flMat n i j| ≤ (1 + 32 * θ) * B) ∧
      (e'.mq.flMat n).det ≤
        (1 + η) ^ n * ((1 - 2 * ((τ + n * β.val) / ((n : ℝ) + 1)) / (τ + β.val)) * (e.mq.flMat n).det) ∧
      (1 - u) * (1 - θ) ^ 2 * τ ^ 2 ≤ e'.tsq.val ∧
      ∀ t, 1 ≤ t → ∀ x ∈ ellipsoid (e.mq.flMat n) (t ^ 2 * e.kappa.val) (e.xc.flVec n),
        g.flVec n ⬝ᵥ (x - e.xc.flVec n) + β.val ≤ 0 →
        x ∈ ellipsoid (e'.mq.flMat n)
          ((√(e.kappa.val * (t ^ 2 - 1 + (n : ℝ) * n / (n * n - 1) * (1 - β.val / τ * (β.val / τ)) +
            2 * (1 + n * (β.val / τ)) / ((n - 1) * (1 - β.val / τ)) * (t * (t - 1)))) + D) ^ 2 / (1 - η)) (e'.xc.flVec n) := by
  have h0 := R.unit_nonneg
  have hu1 : u < 1 := by linarith
  have hn := he.dim
  have hn2 : (2 : ℝ) ≤ n := by exact_mod_cast hn
  have hl := he.lam_pos
  have hκ := he.kappa
  have hM := posDef_of_lower he.symm hl he.lower
  have hω0 : 0 < ω := hωd ▸ quad_pos hM hne
  have hθ0 : 0 ≤ θ := by linarith
  have hθ1 : θ ≤ 1 / 96 := by linarith
  have hη0 : 0 ≤ η := by rw [hηd]; positivity
  obtain ⟨hωh0, hWd, -⟩ := dir_err (R := R) e.mq.mat g.vec (M := e.mq.flMat n) (fun _ _ => rfl) hn he.symm hl he.lower he.entries
    (by linarith) (G := g.flVec n) rfl hne
  rw [hθd, ← hωd] at hWd
  have hk0 : 0 < √e.kappa.val := Real.sqrt_pos.2 hκ
  have hW0 : 0 < √ω := Real.sqrt_pos.2 hω0
  have hWh0 : 0 < √(Ell.om n e.mq.mat g.vec).val := Real.sqrt_pos.2 hωh0
  have hτ0 : 0 < τ := hτ ▸ Real.sqrt_pos.2 (mul_pos hκ hω0)
  have hττ : τ * τ = e.kappa.val * ω := hτ ▸ Real.mul_self_sqrt (mul_pos hκ hω0).le
  have hτk : τ = √e.kappa.val * √ω := hτ ▸ Real.sqrt_mul hκ.le _
  have dd : DeepData u θ γ √e.kappa.val √ω √(Ell.om n e.mq.mat g.vec).val β.val :=
    ⟨h0, h12, hγ1, hθ, hk0, hW0, hWh0, hWd, hβ, hτk ▸ hβτ⟩
  have hγτ : 0 < γ * τ := mul_pos hγ0 hτ0
  have hgood := goodCut_single (n := (n : ℝ)) (τ := τ) (β := β.val) (by linarith) hτ0 (by positivity) (by linarith)
  rw [hττ] at hgood
  obtain ⟨es, hs9, hmu, hrτ⟩ := deep_exact hn2 hτ0 hβ hγ0 hβτ
  obtain ⟨ρ, σ, δ, α, hcall, hρn, hσn, hαn, hδ⟩ := deep_params (R := R) hu hn kd hkd hκ hωh0 hβ (ε := γ / 2) (by linarith)
    (by linarith) (by
      have := dd.y_err.2.2.2.1
      rw [div_le_iff₀ hWh0] at this
      linarith)
  rw [← he.helper] at hcall
  have hρ := dd.rho_err hn2 hρn
  have hσ := dd.sigma_err hn2 hσn
  have hα := dd.delta_err hαn
  rw [← hτk] at hα
  have eρ : (τ + n * β.val) / ((n : ℝ) + 1) / √ω = (√e.kappa.val + n * (β.val / √ω)) / (n + 1) := by
    rw [hτk]; field_simp
  have eσ : 2 * ((τ + n * β.val) / ((n : ℝ) + 1)) / (τ + β.val) =
      2 * ((√e.kappa.val + n * (β.val / √ω)) / (n + 1)) / (√e.kappa.val + β.val / √ω) := by
    have hTβ : τ + β.val = (√e.kappa.val + β.val / √ω) * √ω := by rw [hτk]; field_simp
    rw [← eρ, hTβ, mul_comm (√e.kappa.val + _) (√ω), ← div_div]
    congr 1
    field_simp
  rw [← eρ] at hρ
  rw [← eσ] at hσ
  obtain ⟨e', h1, h2, h3, h4, h5, h6, h7, h8, h8d, h8t, h9⟩ := Ell.rounded_cut (R := R) he.shaped hn he.noDefer hκ he.symm hl
    he.lower he.entries hg hne (CutType.call kd (SingleCut.mk β) e.helper) hcall (ω := ω) (τ := τ) (β := β.val) (ζ₁ := 7 / 2 * θ)
    (ζ := 4 * θ) (η := η) (D := D) hωd hτ hgood hβ (by positivity) hrτ hρ hσ
    (by linarith) (by linarith) (by linarith) (by linarith) hη0 (by linarith)
    (by rw [es, hηd]; exact deep_loss_bound hl hγ0 hs9 hθ0 hB0.le) hD0
    (by rw [es]; exact deep_drift_bound hl hγ0 hγ1 hs9 hDe)
  rw [hmu] at h9
  have hq3 : 3 * θ / γ ≤ 1 / 32 := by rw [div_le_iff₀ hγ0]; linarith
  have hq3' : 0 ≤ 3 * θ / γ := by positivity
  refine ⟨e', ?_, h2, h3, h4, ⟨?_, ?_⟩, h6, ?_, ?_, h8d, ?_, h9⟩
  · rw [Ell.update_eq]; exact h1
  · rw [h5, hδ]
    exact deep_kappa hu hn hκ (by linarith) (by linarith [hα.2.2]) hα.1
  · rw [h5, hδ]
    refine deep_kappa_upper hu hn hκ (le_trans ?_ hα.1) hα.2.1
    exact mul_nonneg (by linarith) (by linarith [hα.2.2])
  · intro v
    rw [es] at h7
    refine le_trans ?_ (h7 v)
    have a : (1 - η) * (γ / 6) ≤ (1 - η) * (((n : ℝ) - 1) / (n + 1) * ((τ - β.val) / (τ + β.val))) :=
      mul_le_mul_of_nonneg_left hs9 (by linarith)
    have b := mul_le_mul_of_nonneg_right a hl.le
    exact mul_le_mul_of_nonneg_right b (dot_self_nonneg' v)
  · intro i j
    refine (h8 i j).trans (le_of_eq ?_)
    ring
  · rw [h8t]
    have a : Near u 1 (e.kappa * Ell.om n e.mq.mat g.vec).val (e.kappa.val * (Ell.om n e.mq.mat g.vec).val) :=
      Near.rnd (R := R) hu1 (by positivity)
    have a1 := a.1
    rw [pow_one] at a1
    refine le_trans ?_ a1
    have b : (1 - θ) * √ω ≤ √(Ell.om n e.mq.mat g.vec).val := by
      have := (abs_le.1 hWd).1
      linarith
    have b2 := pow_le_pow_left₀ (mul_nonneg (by linarith) hW0.le) b 2
    rw [mul_pow, Real.sq_sqrt hω0.le, Real.sq_sqrt hωh0.le] at b2
    have b3 := mul_le_mul_of_nonneg_left b2 hκ.le
    have b4 := mul_le_mul_of_nonneg_left b3 (by linarith : 0 ≤ 1 - u)
    calc _ = (1 - u) * (e.kappa.val * ((1 - θ) ^ 2 * ω)) := by rw [pow_two τ, hττ]; ring
      _ ≤ _ := b4

/-- the constants behind `deepLoss ≤ 1/2` -/
theorem deepLoss_small {lam B γ : ℝ} (h0 : 0 ≤ u) (hn : 2 ≤ n) (hl : 0 < lam) (hlB : lam ≤ B) (hγ0 : 0 < γ)
    (hη : deepLoss u n B lam γ ≤ 1 / 2) :
    0 ≤ quadErr u n B lam ∧ 12 * u ≤ quadErr u n B lam ∧ 96 * quadErr u n B lam ≤ γ ∧ 0 ≤ deepLoss u n B lam γ := by
  have hn2 : (2 : ℝ) ≤ n := by exact_mod_cast hn
  have h12 := quadErr_ge h0 hn hl hlB
  have hK : (2 : ℝ) ≤ n * (B / lam) := by
    have h1 : (1 : ℝ) ≤ B / lam := (one_le_div hl).2 hlB
    nlinarith
  have hθ0 : 0 ≤ quadErr u n B lam := by linarith
  have hB0 : 0 < B := by linarith
  refine ⟨hθ0, h12, ?_, ?_⟩
  · unfold deepLoss at hη
    rw [div_le_iff₀ hγ0] at hη
    have := mul_le_mul_of_nonneg_left hK (by linarith : 0 ≤ 192 * quadErr u n B lam)
    linarith
  · unfold deepLoss; positivity

theorem deep_factor_range {N a γ : ℝ} (hn2 : 2 ≤ N) (hγ0 : 0 < γ) (ha0 : 0 ≤ a) (ha : a ≤ 1 - γ) :
    γ ≤ N * N / (N * N - 1) * (1 - a * a) ∧ N * N / (N * N - 1) * (1 - a * a) ≤ 4 / 3 := by
  have hNN : 0 < N * N - 1 := by nlinarith
  have hc1 : 1 ≤ N * N / (N * N - 1) := by
    rw [le_div_iff₀ hNN]; linarith
  have hc2 : N * N / (N * N - 1) ≤ 4 / 3 := by
    rw [div_le_div_iff₀ hNN (by norm_num)]; nlinarith
  have hb : γ ≤ 1 - a * a := by nlinarith
  have hb1 : 1 - a * a ≤ 1 := by nlinarith
  constructor
  · calc γ = 1 * γ := (one_mul γ).symm
      _ ≤ _ := mul_le_mul hc1 hb hγ0.le (by linarith)
  · calc _ ≤ 4 / 3 * (1 : ℝ) := mul_le_mul hc2 hb1 (by linarith) (by norm_num)
      _ = _ := mul_one _

theorem deep_kappa_range {κ κ' d θ γ : ℝ} (h0 : 0 ≤ u) (hu : u ≤ 1 / 64) (hκ : 0 < κ) (hγ0 : 0 < γ) (hθ0 : 0 ≤ θ)
    (hθ : 96 * θ ≤ γ) (hd : γ ≤ d) (hd2 : d ≤ 4 / 3) (h5 : (1 - 3 * θ / γ) * (1 - u) ^ 13 * (κ * d) ≤ κ')
    (h5u : (1 - u) ^ 13 * κ' ≤ (1 + 3 * θ / γ) * (κ * d)) : γ / 2 * κ ≤ κ' ∧ κ' ≤ 2 * κ := by
  have hp13 : 3 / 4 ≤ (1 - u) ^ 13 := by
    have := one_add_mul_le_pow (a := -u) (by linarith) 13
    push_cast at this
    have h5 : (1 + -u) ^ 13 = (1 - u) ^ 13 := by ring
    rw [h5] at this
    linarith
  have hq3 : 3 * θ / γ ≤ 1 / 32 := by rw [div_le_iff₀ hγ0]; linarith
  have hq30 : 0 ≤ 3 * θ / γ := by positivity
  have hpp : 1 / 2 ≤ (1 - 3 * θ / γ) * (1 - u) ^ 13 := by
    have := mul_le_mul (by linarith : (31 / 32 : ℝ) ≤ 1 - 3 * θ / γ) hp13 (by norm_num) (by linarith)
    linarith
  have hk1 : γ / 2 * κ ≤ κ' := by
    refine le_trans ?_ h5
    have := mul_le_mul hpp (mul_le_mul_of_nonneg_left hd hκ.le) (by positivity) (by linarith)
    linarith
  refine ⟨hk1, ?_⟩
  have a1 := mul_le_mul_of_nonneg_left hd2 hκ.le
  have a2 : (1 + 3 * θ / γ) * (κ * d) ≤ 33 / 32 * (κ * (4 / 3)) :=
    mul_le_mul (by linarith) a1 (mul_nonneg hκ.le (by linarith)) (by norm_num)
  have hk' : 0 ≤ κ' := le_trans (by positivity) hk1
  have a3 := mul_le_mul_of_nonneg_right hp13 hk'
  linarith

theorem deep_kappa_max {κ X q N a : ℝ} (hκ : 0 < κ) (hN : 2 ≤ N) (hq : 0 ≤ q) (h : X ≤ q * (κ * (N * N / (N * N - 1) * (1 - a * a)))) :
    X ≤ q * (κ * (N * N / (N * N - 1))) := by
  have hc0 : 0 < N * N / (N * N - 1) := div_pos (by positivity) (by nlinarith)
  have hb1 : 1 - a * a ≤ 1 := by nlinarith
  refine h.trans (mul_le_mul_of_nonneg_left (mul_le_mul_of_nonneg_left ?_ hκ.le) hq)
  exact (mul_le_mul_of_nonneg_left hb1 hc0.le).trans (mul_one _).le

theorem deep_tsq {τ θ x : ℝ} (h0 : 0 ≤ u) (hu : u ≤ 1 / 64) (hθ0 : 0 ≤ θ) (hθ : θ ≤ 1 / 96)
    (h : (1 - u) * (1 - θ) ^ 2 * τ ^ 2 ≤ x) : τ ^ 2 / 2 ≤ x := by
  refine le_trans ?_ h
  have b2 : (1 / 2 : ℝ) ≤ (1 - u) * (1 - θ) ^ 2 := by nlinarith
  have := mul_le_mul_of_nonneg_right b2 (sq_nonneg τ)
  linarith

theorem deep_volume {τ β κ κ' q η D D' : ℝ} (hn : 2 ≤ n) (hu1 : u < 1) (hτ0 : 0 < τ) (hβ : 0 ≤ β) (hβτ : β < τ) (hκ : 0 < κ)
    (hκ' : 0 ≤ κ') (hq : 0 ≤ 1 + q) (hη : 0 ≤ 1 + η) (hD : 0 ≤ D) (hD' : 0 ≤ D')
    (h5 : (1 - u) ^ 13 * κ' ≤ (1 + q) * (κ * ((n : ℝ) * n / (n * n - 1) * (1 - β / τ * (β / τ)))))
    (h8 : D' ≤ (1 + η) ^ n * ((1 - 2 * ((τ + n * β) / ((n : ℝ) + 1)) / (τ + β)) * D)) :
    (1 - u) ^ (13 * n) * (κ' ^ n * D') ≤ ((1 + q) * (1 + η)) ^ n * (Real.exp (-(1 / ((n : ℝ) + 1))) * (κ ^ n * D)) := by
  have hp0 : 0 < (1 - u) ^ 13 := pow_sub_nonneg hu1 13
  obtain ⟨k, hk⟩ : ∃ k, n = k + 1 := ⟨n - 1, by omega⟩
  have hvol := single_volume (k := k) (by omega) (n := (n : ℝ)) (τ := τ) (β := β) (by rw [hk]; push_cast; ring) hτ0 hβ hβτ
  rw [← hk] at hvol
  have hL : 0 ≤ (1 - u) ^ 13 * κ' := mul_nonneg hp0.le hκ'
  have a1 := pow_le_pow_left₀ hL h5 n
  have a2 := mul_le_mul a1 h8 hD' (pow_nonneg (hL.trans h5) n)
  rw [pow_mul]
  calc ((1 - u) ^ 13) ^ n * (κ' ^ n * D') = ((1 - u) ^ 13 * κ') ^ n * D' := by rw [mul_pow]; ring
    _ ≤ _ := a2
    _ = ((1 + q) * (1 + η)) ^ n * ((((n : ℝ) * n / (n * n - 1) * (1 - β / τ * (β / τ))) ^ n *
            (1 - 2 * ((τ + n * β) / ((n : ℝ) + 1)) / (τ + β))) * (κ ^ n * D)) := by
        rw [mul_pow (1 + q), mul_pow κ, mul_pow (1 + q)]; ring
    _ ≤ _ := by
        refine mul_le_mul_of_nonneg_left ?_ (pow_nonneg (mul_nonneg hq hη) n)
        exact mul_le_mul_of_nonneg_right hvol (mul_nonneg (pow_nonneg hκ.le n) hD)

/-- **C103** (one deep cut)  The same for a bias cut, or a cut for discrete problems, with `β ≥ 0` at most `1 - γ` times the exact
`√(κ gᵀMg)` of the stored numbers: it succeeds, the matrix stays positive definite with explicit new bounds, no point of the
inflated old ellipsoid that satisfies `gᵀ(x - xc) + β ≤ 0` is lost beyond the stated inflation of the new one, the volume (`det κM`)
falls by the factor `e^(-1/(n+1))` of exact arithmetic up to the stated error, and `tsq` is right up to the stated error. -/
theorem C103_deep_step {lam B γ : ℝ} (hu : u ≤ 1 / 64) (e : Ell (Fl R)) (he : e.Conditioned n lam B) (g : Arr (Fl R))
    (hg : g.IsVecShape n) (hne : g.flVec n ≠ 0) (kd : UpdateKind) (hkd : kd = .bias ∨ kd = .q) (β : Fl R) (hβ : 0 ≤ β.val)
    (hγ0 : 0 < γ) (hγ1 : γ ≤ 1)
    (hdeep : β.val ≤ (1 - γ) * √(e.kappa.val * (g.flVec n ⬝ᵥ (e.mq.flMat n *ᵥ g.flVec n))))
    (hη : deepLoss u n B lam γ ≤ 1 / 2) :
    ∃ e', Ell.space.update kd e (g, SingleCut.mk β) = .ok (.success, e') ∧
      e'.Conditioned n ((1 - deepLoss u n B lam γ) * (γ / 6) * lam) ((1 + 32 * quadErr u n B lam) * B) ∧
      (γ / 2 * e.kappa.val ≤ e'.kappa.val ∧ e'.kappa.val ≤ 2 * e.kappa.val ∧
        (1 - u) ^ 13 * e'.kappa.val ≤ (1 + 3 * quadErr u n B lam / γ) * (e.kappa.val * ((n : ℝ) * n / (n * n - 1)))) ∧
      (1 - u) ^ (13 * n) * (e'.kappa.val • e'.mq.flMat n).det ≤ ((1 + 3 * quadErr u n B lam / γ) * (1 + deepLoss u n B lam γ)) ^ n *
        (Real.exp (-(1 / ((n : ℝ) + 1))) * (e.kappa.val • e.mq.flMat n).det) ∧
      e.kappa.val * (g.flVec n ⬝ᵥ (e.mq.flMat n *ᵥ g.flVec n)) / 2 ≤ e'.tsq.val ∧
      ∀ t, 1 ≤ t → ∀ x ∈ ellipsoid (e.mq.flMat n) (t ^ 2 * e.kappa.val) (e.xc.flVec n),
        g.flVec n ⬝ᵥ (x - e.xc.flVec n) + β.val ≤ 0 →
        x ∈ ellipsoid (e'.mq.flMat n)
          (deepInflation u n (quadErr u n B lam) (deepLoss u n B lam γ)
            (deepDrift u n B lam e.kappa.val (norm2 (e.xc.flVec n)) γ) γ t ^ 2 * e'.kappa.val)
          (e'.xc.flVec n) := by
  have h0 := R.unit_nonneg
  have hu1 : u < 1 := by linarith
  have hn := he.dim
  have hn2 : (2 : ℝ) ≤ n := by exact_mod_cast hn
  have hl := he.lam_pos
  have hκ := he.kappa
  have hlB : lam ≤ B := lam_le_entry he.lower he.entries ⟨0, by omega⟩
  have hB0 : 0 < B := by linarith
  obtain ⟨hθ0, h12, hθ, hη0⟩ := deepLoss_small h0 hn hl hlB hγ0 hη
  have hηd : deepLoss u n B lam γ = 192 * quadErr u n B lam * (n * (B / lam)) / γ := rfl
  have hX0 := norm2_nonneg (e.xc.flVec n)
  have hM := posDef_of_lower he.symm hl he.lower
  have hω0 := quad_pos hM hne
  have hν0 : 0 ≤ 6 / γ * (u * norm2 (e.xc.flVec n) / √(e.kappa.val * lam) + 16 * quadErr u n B lam * √(n * (B / lam))) := by
    positivity
  obtain ⟨e', h1, h2, h3, h4, ⟨h5, h5u⟩, h6, h7, h8, h8d, h8t, h9⟩ := deep_core hu he hg hne kd hkd β hβ rfl rfl hγ0 hγ1 hdeep rfl
    hθ hB0 h12 hηd hη (mul_nonneg (Real.sqrt_nonneg _) hν0) (deepDrift_eq hκ hl hB0 hγ0)
  obtain ⟨τ, hτ⟩ : ∃ τ, τ = √(e.kappa.val * (g.flVec n ⬝ᵥ (e.mq.flMat n *ᵥ g.flVec n))) := ⟨_, rfl⟩
  have hτ2 : τ ^ 2 = e.kappa.val * (g.flVec n ⬝ᵥ (e.mq.flMat n *ᵥ g.flVec n)) := hτ ▸ Real.sq_sqrt (mul_pos hκ hω0).le
  rw [← hτ] at h5 h5u h8d h8t h9 hdeep
  have hτ0 : 0 < τ := hτ ▸ Real.sqrt_pos.2 (mul_pos hκ hω0)
  have hγτ : 0 < γ * τ := mul_pos hγ0 hτ0
  have hβτ : β.val < τ := by linarith
  have ha0 : 0 ≤ β.val / τ := div_nonneg hβ hτ0.le
  have ha : β.val / τ ≤ 1 - γ := by rw [div_le_iff₀ hτ0]; exact hdeep
  obtain ⟨hd, hd2⟩ := deep_factor_range hn2 hγ0 ha0 ha
  obtain ⟨hk1, hk2⟩ := deep_kappa_range h0 hu hκ hγ0 hθ0 hθ hd hd2 h5 h5u
  have hκ' : 0 < e'.kappa.val := lt_of_lt_of_le (by positivity) hk1
  refine ⟨e', h1, ⟨h2, hn, h3.trans he.helper, h4, hκ', h6, ?_, h7, h8⟩, ⟨hk1, hk2, ?_⟩, ?_, ?_, ?_⟩
  · have : 0 < 1 - deepLoss u n B lam γ := by linarith
    positivity
  · exact deep_kappa_max hκ hn2 (by linarith [div_nonneg (mul_nonneg three_pos.le hθ0) hγ0.le]) h5u
  · rw [det_smul, det_smul, Fintype.card_fin]
    refine deep_volume hn hu1 hτ0 hβ hβτ hκ hκ'.le (by linarith [div_nonneg (mul_nonneg three_pos.le hθ0) hγ0.le]) (by linarith)
      hM.det_pos.le (posDef_of_lower h6 ?_ h7).det_pos.le h5u h8d
    have : 0 < 1 - deepLoss u n B lam γ := by linarith
    positivity
  · rw [← hτ2]
    exact deep_tsq h0 hu hθ0 (by linarith) h8t
  intro t ht x hx hcut
  refine le_trans (show (x - _) ⬝ᵥ (_ *ᵥ (x - _)) ≤ _ from h9 t ht x hx hcut) ?_
  refine deepInflation_bound hu1 hκ hγ0 hγ1 hd hη hθ h5 hν0 ?_ rfl ht (deep_growth hn2 hγ0 hγ1 ha0 ha ht rfl rfl)
  unfold deepDrift
  field_simp

end Ellalgo
