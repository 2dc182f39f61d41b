import Verif.Spec.StableFl
import Verif.Lib.Rounded

/-! Relative errors of positive quantities: a calculus for `Near`. -/

namespace Ellalgo
variable {u : ℝ}

theorem pow_sub_nonneg (hu : u < 1) (k : ℕ) : 0 < (1 - u) ^ k := pow_pos (by linarith) k
theorem pow_sub_le_one (h0 : 0 ≤ u) (hu : u < 1) (k : ℕ) : (1 - u) ^ k ≤ 1 := pow_le_one₀ (by linarith) (by linarith)

namespace Near

theorem refl (y : ℝ) : Near u 0 y y := by simp [Near]
theorem of_eq {x y : ℝ} (h : x = y) : Near u 0 x y := h ▸ refl x

theorem symm {k : ℕ} {x y : ℝ} (h : Near u k x y) : Near u k y x := ⟨h.2, h.1⟩

theorem pos (hu : u < 1) {k : ℕ} {x y : ℝ} (h : Near u k x y) (hy : 0 < y) : 0 < x :=
  lt_of_lt_of_le (mul_pos (pow_sub_nonneg hu k) hy) h.1

theorem nonneg (hu : u < 1) {k : ℕ} {x y : ℝ} (h : Near u k x y) (hy : 0 ≤ y) : 0 ≤ x :=
  le_trans (mul_nonneg (pow_sub_nonneg hu k).le hy) h.1

theorem trans (hu : u < 1) {j k : ℕ} {x y z : ℝ} (h1 : Near u j x y) (h2 : Near u k y z) : Near u (j + k) x z := by
  have hj := (pow_sub_nonneg hu j).le
  have hk := (pow_sub_nonneg hu k).le
  constructor
  · rw [pow_add]
    calc (1 - u) ^ j * (1 - u) ^ k * z = (1 - u) ^ j * ((1 - u) ^ k * z) := by ring
      _ ≤ (1 - u) ^ j * y := mul_le_mul_of_nonneg_left h2.1 hj
      _ ≤ x := h1.1
  · rw [pow_add]
    calc (1 - u) ^ j * (1 - u) ^ k * x = (1 - u) ^ k * ((1 - u) ^ j * x) := by ring
      _ ≤ (1 - u) ^ k * y := mul_le_mul_of_nonneg_left h1.2 hk
      _ ≤ z := h2.2

theorem mono (h0 : 0 ≤ u) (hu : u < 1) {j k : ℕ} (hjk : j ≤ k) {x y : ℝ} (hx : 0 ≤ x) (hy : 0 ≤ y) (h : Near u j x y) :
    Near u k x y := by
  have hp : (1 - u) ^ k ≤ (1 - u) ^ j := pow_le_pow_of_le_one (by linarith) (by linarith) hjk
  exact ⟨(mul_le_mul_of_nonneg_right hp hy).trans h.1, (mul_le_mul_of_nonneg_right hp hx).trans h.2⟩

theorem mul (hu : u < 1) {j k : ℕ} {x y a b : ℝ} (hy : 0 ≤ y) (hb : 0 ≤ b) (h1 : Near u j x y) (h2 : Near u k a b) :
    Near u (j + k) (x * a) (y * b) := by
  have hj := (pow_sub_nonneg hu j).le
  have hk := (pow_sub_nonneg hu k).le
  have hx := h1.nonneg hu hy
  have ha := h2.nonneg hu hb
  constructor
  · rw [pow_add]
    calc (1 - u) ^ j * (1 - u) ^ k * (y * b) = ((1 - u) ^ j * y) * ((1 - u) ^ k * b) := by ring
      _ ≤ x * a := mul_le_mul h1.1 h2.1 (mul_nonneg hk hb) hx
  · rw [pow_add]
    calc (1 - u) ^ j * (1 - u) ^ k * (x * a) = ((1 - u) ^ j * x) * ((1 - u) ^ k * a) := by ring
      _ ≤ y * b := mul_le_mul h1.2 h2.2 (mul_nonneg hk ha) hy

theorem inv (hu : u < 1) {k : ℕ} {x y : ℝ} (hy : 0 < y) (h : Near u k x y) : Near u k x⁻¹ y⁻¹ := by
  have hx := h.pos hu hy
  constructor
  · rw [← div_eq_mul_inv, div_le_iff₀ hy, inv_mul_eq_div, le_div_iff₀ hx]
    exact h.2
  · rw [← div_eq_mul_inv, div_le_iff₀ hx, inv_mul_eq_div, le_div_iff₀ hy]
    exact h.1

theorem div (hu : u < 1) {j k : ℕ} {x y a b : ℝ} (hy : 0 ≤ y) (hb : 0 < b) (h1 : Near u j x y) (h2 : Near u k a b) :
    Near u (j + k) (x / a) (y / b) := by
  rw [div_eq_mul_inv, div_eq_mul_inv]
  exact h1.mul hu hy (inv_nonneg.2 hb.le) (h2.inv hu hb)

theorem add {k : ℕ} {x y a b : ℝ} (h1 : Near u k x y) (h2 : Near u k a b) : Near u k (x + a) (y + b) := by
  obtain ⟨p, q⟩ := h1
  obtain ⟨r, s⟩ := h2
  exact ⟨by rw [mul_add]; linarith, by rw [mul_add]; linarith⟩

theorem sqrt (h0 : 0 ≤ u) (hu : u < 1) {k : ℕ} {x y : ℝ} (h : Near u k x y) : Near u k (Real.sqrt x) (Real.sqrt y) := by
  have hk := (pow_sub_nonneg hu k).le
  have h1 := pow_sub_le_one h0 hu k
  have hsq : (1 - u) ^ k ≤ Real.sqrt ((1 - u) ^ k) := Real.le_sqrt_of_sq_le (by nlinarith)
  constructor
  · calc (1 - u) ^ k * Real.sqrt y ≤ Real.sqrt ((1 - u) ^ k) * Real.sqrt y := mul_le_mul_of_nonneg_right hsq (Real.sqrt_nonneg _)
      _ = Real.sqrt ((1 - u) ^ k * y) := (Real.sqrt_mul hk y).symm
      _ ≤ Real.sqrt x := Real.sqrt_le_sqrt h.1
  · calc (1 - u) ^ k * Real.sqrt x ≤ Real.sqrt ((1 - u) ^ k) * Real.sqrt x := mul_le_mul_of_nonneg_right hsq (Real.sqrt_nonneg _)
      _ = Real.sqrt ((1 - u) ^ k * x) := (Real.sqrt_mul hk x).symm
      _ ≤ Real.sqrt y := Real.sqrt_le_sqrt h.2

/-- the relative error this allows -/
theorem abs_le (h0 : 0 ≤ u) (hu : u < 1) {k : ℕ} {x y : ℝ} (hy : 0 ≤ y) (h : Near u k x y) :
    |x - y| ≤ (((1 - u) ^ k)⁻¹ - 1) * y := by
  have hk := pow_sub_nonneg hu k
  have h1 := pow_sub_le_one h0 hu k
  set p := (1 - u) ^ k
  have hpi : p⁻¹ * p = 1 := inv_mul_cancel₀ hk.ne'
  have h2 : 2 ≤ p⁻¹ + p := by
    have : 0 ≤ (1 - p) ^ 2 * p⁻¹ := by positivity
    have e : (1 - p) ^ 2 * p⁻¹ = p⁻¹ + p - 2 := by
      field_simp; ring
    linarith
  rw [_root_.abs_le]
  constructor
  · have := h.1
    nlinarith
  · have hx : x ≤ p⁻¹ * y := by
      rw [inv_mul_eq_div, le_div_iff₀ hk, mul_comm]
      exact h.2
    nlinarith

variable {R : Rounding u}

theorem rnd_mul (hu : u < 1) {x v : ℝ} (h : 0 ≤ x * v) : Near u 1 (R.rnd x * v) (x * v) := by
  have h0 := R.unit_nonneg
  have he := R.err x
  have : |R.rnd x * v - x * v| ≤ u * (x * v) := by
    rw [← sub_mul, abs_mul, ← abs_of_nonneg h, abs_mul x v, ← mul_assoc]
    exact mul_le_mul_of_nonneg_right he (abs_nonneg v)
  rw [_root_.abs_le] at this
  constructor
  · rw [pow_one]; linarith
  · rw [pow_one]; nlinarith

theorem rnd (hu : u < 1) {x : ℝ} (h : 0 ≤ x) : Near u 1 (R.rnd x) x := by
  simpa using rnd_mul (R := R) hu (x := x) (v := 1) (by simpa using h)

/-- one more rounding -/
theorem round (hu : u < 1) {k : ℕ} {x y : ℝ} (hy : 0 ≤ y) (h : Near u k x y) : Near u (k + 1) (R.rnd x) y := by
  rw [Nat.add_comm]
  exact (rnd hu (h.nonneg hu hy)).trans hu h

end Near
end Ellalgo
