import Verif.Props.RoundedDeepCut

/-! The parameters of a parallel cut, as computed in rounded arithmetic. -/

namespace Ellalgo
variable {u : ℝ} {R : Rounding u} {n : Nat}

theorem Near.of_rel {v x y : ℝ} (hy : 0 ≤ y) (h : |x - y| ≤ v * y) (hv : v ≤ 1) : Near v 1 x y := by
  obtain ⟨h1, h2⟩ := _root_.abs_le.1 h
  rw [Near, pow_one]
  refine ⟨by linarith, ?_⟩
  have : (1 - v) * x ≤ (1 - v) * ((1 + v) * y) := mul_le_mul_of_nonneg_left (by linarith) (by linarith)
  nlinarith [mul_nonneg (mul_self_nonneg v) hy]

theorem Near.mono_unit {v x y : ℝ} {k : ℕ} (hv : v < 1) (huv : u ≤ v) (hx : 0 ≤ x) (hy : 0 ≤ y) (h : Near u k x y) :
    Near v k x y := by
  have hp : (1 - v) ^ k ≤ (1 - u) ^ k := pow_le_pow_left₀ (by linarith) (by linarith) k
  exact ⟨(mul_le_mul_of_nonneg_right hp hy).trans h.1, (mul_le_mul_of_nonneg_right hp hx).trans h.2⟩

theorem Near.round_in {v x y : ℝ} {k : ℕ} (hv : v < 1) (huv : u ≤ v) (hy : 0 ≤ y) (h : Near v k x y) : Near v (k + 1) (R.rnd x) y := by
  have hx := h.nonneg hv hy
  have h1 : Near u 1 (R.rnd x) x := Near.rnd (by linarith) hx
  rw [Nat.add_comm]
  exact (h1.mono_unit hv huv (R.nonneg hx) hx).trans hv h

/-- the error of a rounded number whose exact value is known up to `ε` -/
theorem rnd_off {x y ε K : ℝ} (h : |x - y| ≤ ε) (hy : |y| ≤ K) : |R.rnd x - y| ≤ ε + u * (K + ε) := by
  have h0 := R.unit_nonneg
  have h1 := R.err x
  have h2 : |x| ≤ K + ε := by
    have := abs_add_le (x - y) y
    rw [sub_add_cancel] at this
    linarith
  have h3 := abs_add_le (R.rnd x - x) (x - y)
  rw [sub_add_sub_cancel] at h3
  have := mul_le_mul_of_nonneg_left h2 h0
  linarith

theorem mul_off {x y X Y a b A B : ℝ} (hx : |x - X| ≤ a) (hy : |y - Y| ≤ b) (hX : |X| ≤ A) (hY : |Y| ≤ B) :
    |x * y - X * Y| ≤ a * B + A * b + a * b := by
  have e : x * y - X * Y = (x - X) * Y + X * (y - Y) + (x - X) * (y - Y) := by ring
  have ha := (abs_nonneg _).trans hx
  have hA := (abs_nonneg _).trans hX
  rw [e]
  refine (abs_add_le _ _).trans (add_le_add ((abs_add_le _ _).trans (add_le_add ?_ ?_)) ?_) <;> rw [abs_mul]
  · exact mul_le_mul hx hY (abs_nonneg _) ha
  · exact mul_le_mul hX hy (abs_nonneg _) hA
  · exact mul_le_mul hx hy (abs_nonneg _) ha

/-- exact facts about the radicand of a parallel cut -/
theorem slab_radicand {N T b0 b1 w : ℝ} (hN : 2 ≤ N) (hT : 0 < T) (hw0 : 0 < w) (hb0 : 0 ≤ b0) (hb : b0 + w * √T ≤ b1) (hb1 : b1 * b1 ≤ T) :
    w * T ≤ T - b0 * b0 ∧ 0 ≤ T - b1 * b1 ∧
    3 / 4 * (w * T) ^ 2 ≤ (T - b0 * b0) * (T - b1 * b1) + (N / 2 * (b1 * b1 - b0 * b0)) * (N / 2 * (b1 * b1 - b0 * b0)) ∧
    (T - b0 * b0) * (T - b1 * b1) + (N / 2 * (b1 * b1 - b0 * b0)) * (N / 2 * (b1 * b1 - b0 * b0)) ≤ N ^ 2 * T ^ 2 / 2 := by
  have hs := Real.sqrt_pos.2 hT
  have hss := Real.mul_self_sqrt hT.le
  have hb1s : b1 ≤ √T := Real.le_sqrt_of_sq_le (by linarith [pow_two b1])
  have hws : 0 < w * √T := by positivity
  have h1 : w * T ≤ T - b0 * b0 := by
    have a : b0 ≤ √T - w * √T := by linarith
    have : b0 * b0 ≤ (√T - w * √T) * √T := mul_le_mul a (by linarith) hb0 (by linarith)
    have e : (√T - w * √T) * √T = T - w * T := by linear_combination (1 - w) * hss
    linarith
  have h2 : 0 ≤ T - b1 * b1 := by linarith
  have hwT : 0 < w * T := by positivity
  obtain ⟨p, hp⟩ : ∃ p, p = T - b0 * b0 := ⟨_, rfl⟩
  obtain ⟨q, hq⟩ : ∃ q, q = T - b1 * b1 := ⟨_, rfl⟩
  have e : b1 * b1 - b0 * b0 = p - q := by rw [hp, hq]; ring
  have hqp : q ≤ p := by
    rw [hp, hq]
    have := mul_self_le_mul_self hb0 (by linarith : b0 ≤ b1)
    linarith
  have hpT : p ≤ T := by rw [hp]; nlinarith
  refine ⟨h1, h2, ?_, ?_⟩ <;> rw [e, ← hp, ← hq] <;> rw [← hp] at h1 <;> rw [← hq] at h2
  · have a : 1 ≤ N / 2 * (N / 2) := by nlinarith
    have b : (p - q) * (p - q) ≤ N / 2 * (N / 2) * ((p - q) * (p - q)) := le_mul_of_one_le_left (mul_self_nonneg _) a
    have c : (w * T) ^ 2 ≤ p ^ 2 := pow_le_pow_left₀ hwT.le h1 2
    nlinarith [mul_self_nonneg (p - 2 * q)]
  · have a : p * q ≤ T * T := mul_le_mul hpT (by linarith) h2 hT.le
    have b : (p - q) * (p - q) ≤ T * T := mul_le_mul (by linarith) (by linarith) (by linarith) hT.le
    have c : N / 2 * (N / 2) * ((p - q) * (p - q)) ≤ N / 2 * (N / 2) * (T * T) := mul_le_mul_of_nonneg_left b (by positivity)
    have d : 1 * (T * T) ≤ N ^ 2 / 4 * (T * T) := mul_le_mul_of_nonneg_right (by nlinarith) (by positivity)
    nlinarith

/-- the errors up to the radicand -/
theorem slab_radicand_err (hu : u ≤ 1 / 64) {N T Th p0 p1 q0 q1 h : ℝ} (hN : 2 ≤ N) (hT : 0 < T) (hTh : |Th - T| ≤ u * T)
    (hq0 : 0 ≤ q0) (hq0T : q0 ≤ T) (hq1 : 0 ≤ q1) (hq1T : q1 ≤ T) (hp0 : |p0 - q0| ≤ u * T) (hp1 : |p1 - q1| ≤ u * T)
    (hh : |h - N / 2| ≤ 2 * u * N) :
    |R.rnd (Th - p0) - (T - q0)| ≤ 4 * u * T ∧ |R.rnd (Th - p1) - (T - q1)| ≤ 4 * u * T ∧
    |R.rnd (R.rnd (R.rnd (Th - p0) * R.rnd (Th - p1)) + R.rnd (R.rnd (h * R.rnd (p1 - p0)) * R.rnd (h * R.rnd (p1 - p0)))) -
      ((T - q0) * (T - q1) + N / 2 * (q1 - q0) * (N / 2 * (q1 - q0)))| ≤ 17 * u * (N ^ 2 * T ^ 2) := by
  have h0 := R.unit_nonneg
  have huT : 0 ≤ u * T := by positivity
  have huT1 : u * T ≤ T / 64 := by nlinarith
  have huu : u * (u * T) ≤ u * T / 64 := by nlinarith
  have z : ∀ p q : ℝ, 0 ≤ q → q ≤ T → |p - q| ≤ u * T → |R.rnd (Th - p) - (T - q)| ≤ 4 * u * T := by
    intro p q hq hqT hp
    have a : |Th - p - (T - q)| ≤ 2 * (u * T) := by
      have e : Th - p - (T - q) = (Th - T) - (p - q) := by ring
      rw [e]
      exact (abs_sub _ _).trans (by linarith)
    have b := rnd_off (R := R) a (by rw [abs_of_nonneg (by linarith)]; linarith : |T - q| ≤ T)
    linarith
  have z0 := z p0 q0 hq0 hq0T hp0
  have z1 := z p1 q1 hq1 hq1T hp1
  refine ⟨z0, z1, ?_⟩
  have d : |R.rnd (p1 - p0) - (q1 - q0)| ≤ 4 * u * T := by
    have a : |p1 - p0 - (q1 - q0)| ≤ 2 * (u * T) := by
      have e : p1 - p0 - (q1 - q0) = (p1 - q1) - (p0 - q0) := by ring
      rw [e]
      exact (abs_sub _ _).trans (by linarith)
    have b := rnd_off (R := R) a (by rw [abs_le]; constructor <;> linarith : |q1 - q0| ≤ T)
    linarith
  have hD : |q1 - q0| ≤ T := by rw [abs_le]; constructor <;> linarith
  have hNT : 0 < N * T := by positivity
  have huNT : 0 ≤ u * (N * T) := by positivity
  have huuN : u * (u * (N * T)) ≤ u * (N * T) / 64 := by nlinarith
  have t : |R.rnd (h * R.rnd (p1 - p0)) - N / 2 * (q1 - q0)| ≤ 6 * (u * (N * T)) := by
    have a := mul_off hh d (le_of_eq (abs_of_nonneg (by linarith : 0 ≤ N / 2))) hD
    have a' : |h * R.rnd (p1 - p0) - N / 2 * (q1 - q0)| ≤ 5 * (u * (N * T)) := by linarith
    have b := rnd_off (R := R) a' (K := N * T / 2) (by
      rw [abs_mul, abs_of_nonneg (by linarith : 0 ≤ N / 2)]
      have := mul_le_mul_of_nonneg_left hD (by linarith : 0 ≤ N / 2)
      linarith)
    linarith
  have ht : |N / 2 * (q1 - q0)| ≤ N * T / 2 := by
    rw [abs_mul, abs_of_nonneg (by linarith : 0 ≤ N / 2)]
    have := mul_le_mul_of_nonneg_left hD (by linarith : 0 ≤ N / 2)
    linarith
  obtain ⟨K, hK⟩ : ∃ K, K = N ^ 2 * T ^ 2 := ⟨_, rfl⟩
  have hK0 : 0 < K := by rw [hK]; positivity
  have hKT : 4 * (T * T) ≤ K := by
    rw [hK, pow_two T]
    exact mul_le_mul_of_nonneg_right (by nlinarith) (by positivity)
  have huK : 0 ≤ u * K := by positivity
  have huuK : u * (u * K) ≤ u * K / 64 := by nlinarith
  have hKe : N * T * (N * T) = K := by rw [hK]; ring
  have hTT : 0 < T * T := by positivity
  have huTT : u * (T * T) ≤ u * K / 4 := by nlinarith
  have t2 : |R.rnd (R.rnd (h * R.rnd (p1 - p0)) * R.rnd (h * R.rnd (p1 - p0))) - N / 2 * (q1 - q0) * (N / 2 * (q1 - q0))| ≤ 9 * (u * K) := by
    have a := mul_off t t ht ht
    have a' : |R.rnd (h * R.rnd (p1 - p0)) * R.rnd (h * R.rnd (p1 - p0)) - N / 2 * (q1 - q0) * (N / 2 * (q1 - q0))| ≤
        7 * (u * K) := by
      rw [← hKe] at huuK huK ⊢; linarith
    have b := rnd_off (R := R) a' (K := K / 4) (by
      rw [abs_mul, ← hKe]
      have := mul_le_mul ht ht (abs_nonneg _) (by positivity)
      linarith)
    linarith
  have huTT0 : 0 ≤ u * (T * T) := by positivity
  have zz : |R.rnd (R.rnd (Th - p0) * R.rnd (Th - p1)) - (T - q0) * (T - q1)| ≤ 11 * (u * (T * T)) := by
    have hz : ∀ q, 0 ≤ q → q ≤ T → |T - q| ≤ T := fun q h1 h2 => by rw [abs_of_nonneg (by linarith)]; linarith
    have a := mul_off z0 z1 (hz _ hq0 hq0T) (hz _ hq1 hq1T)
    have huuT : u * (u * (T * T)) ≤ u * (T * T) / 64 := by
      have : 0 ≤ u * (T * T) := by positivity
      nlinarith
    have a' : |R.rnd (Th - p0) * R.rnd (Th - p1) - (T - q0) * (T - q1)| ≤ 9 * (u * (T * T)) := by linarith
    have b := rnd_off (R := R) a' (K := T * T) (by
      rw [abs_mul]
      exact mul_le_mul (hz _ hq0 hq0T) (hz _ hq1 hq1T) (abs_nonneg _) hT.le)
    have : 0 ≤ u * (T * T) := by positivity
    linarith
  rw [← hK]
  have s : |R.rnd (R.rnd (Th - p0) * R.rnd (Th - p1)) + R.rnd (R.rnd (h * R.rnd (p1 - p0)) * R.rnd (h * R.rnd (p1 - p0))) -
      ((T - q0) * (T - q1) + N / 2 * (q1 - q0) * (N / 2 * (q1 - q0)))| ≤ 12 * (u * K) := by
    rw [add_sub_add_comm]
    exact (abs_add_le _ _).trans (by linarith)
  have b := rnd_off (R := R) s (K := K / 2) (by
    refine (abs_add_le _ _).trans ?_
    rw [abs_mul, abs_mul]
    have a1 := mul_le_mul ht ht (abs_nonneg _) (by positivity)
    have a2 : |T - q0| * |T - q1| ≤ T * T := by
      rw [abs_of_nonneg (by linarith : 0 ≤ T - q0), abs_of_nonneg (by linarith : 0 ≤ T - q1)]
      exact mul_le_mul (by linarith) (by linarith) (by linarith) hT.le
    have a3 : N * T / 2 * (N * T / 2) = K / 4 := by rw [← hKe]; ring
    linarith)
  linarith

/-- the exact parameters of a parallel cut, as functions of `T = τ²` -/
noncomputable def slabXi (N T b0 b1 : ℝ) : ℝ :=
  √((T - b0 * b0) * (T - b1 * b1) + N / 2 * (b1 * b1 - b0 * b0) * (N / 2 * (b1 * b1 - b0 * b0)))
noncomputable def slabSigma (N T b0 b1 : ℝ) : ℝ :=
  2 * (T + N * (b0 * b1)) / (T + b0 * b1 + N / 2 * ((b0 + b1) * (b0 + b1)) + slabXi N T b0 b1)
noncomputable def slabRho (N T b0 b1 : ℝ) : ℝ := slabSigma N T b0 b1 * (b0 + b1) / 2
noncomputable def slabDelta (N T b0 b1 : ℝ) : ℝ :=
  N * N / (N * N - 1) * (((T - b0 * b0) + (T - b1 * b1)) / 2 + slabXi N T b0 b1 / N) / T

theorem two_near (R : Rounding u) {v : ℝ} : Near v 0 (nat 2 : Fl R).val 2 := Near.of_eq (by
  show R.rnd ((2 : Nat) : ℝ) = 2
  exact_mod_cast R.two)

theorem slab_xi_near (hu : u ≤ 1 / 64) {N T Th p0 p1 b0 b1 h w v : ℝ} (hN : 2 ≤ N) (hT : 0 < T) (hTh : |Th - T| ≤ u * T)
    (hw0 : 0 < w) (hw1 : w ≤ 1) (hb0 : 0 ≤ b0) (hb : b0 + w * √T ≤ b1) (hb1 : b1 * b1 ≤ T) (hp0 : |p0 - b0 * b0| ≤ u * T)
    (hp1 : |p1 - b1 * b1| ≤ u * T) (hh : |h - N / 2| ≤ 2 * u * N) (hv : v = 32 * (u * N ^ 2) / w ^ 2) (hv1 : v < 1) :
    Near v 1 (R.rnd √(R.rnd (R.rnd (R.rnd (Th - p0) * R.rnd (Th - p1)) +
      R.rnd (R.rnd (h * R.rnd (p1 - p0)) * R.rnd (h * R.rnd (p1 - p0)))))) (slabXi N T b0 b1) ∧
    Near v 1 (R.rnd (R.rnd (R.rnd (Th - p0) + R.rnd (Th - p1)) / 2)) (((T - b0 * b0) + (T - b1 * b1)) / 2) ∧
    0 < slabXi N T b0 b1 ∧ u ≤ v := by
  have h0 := R.unit_nonneg
  obtain ⟨f1, f2, f3, f4⟩ := slab_radicand hN hT hw0 hb0 hb hb1
  have hw2 : 0 < w ^ 2 := by positivity
  have hwT : 0 < w * T := by positivity
  have hb00 : 0 ≤ b0 * b0 := mul_nonneg hb0 hb0
  have hb11 : 0 ≤ b1 * b1 := mul_self_nonneg _
  obtain ⟨e0, e1, e2⟩ := slab_radicand_err (R := R) hu hN hT hTh hb00 (by linarith) hb11 hb1 hp0 hp1 hh
  have hF : u * N ^ 2 = v / 32 * w ^ 2 := by rw [hv]; field_simp
  have hv0 : 0 ≤ v := by rw [hv]; positivity
  have huv : 128 * u ≤ v * w ^ 2 := by
    have : u * 4 ≤ u * N ^ 2 := mul_le_mul_of_nonneg_left (by nlinarith) h0
    linarith
  have hw21 : w ^ 2 ≤ w := by nlinarith
  have huvw : 128 * u ≤ v * w := huv.trans (mul_le_mul_of_nonneg_left hw21 hv0)
  have huv1 : 128 * u ≤ v := huvw.trans (mul_le_of_le_one_right hv0 hw1)
  refine ⟨?_, ?_, ?_, by linarith⟩
  · unfold slabXi
    obtain ⟨Q, hQ⟩ : ∃ Q, Q = (T - b0 * b0) * (T - b1 * b1) + N / 2 * (b1 * b1 - b0 * b0) * (N / 2 * (b1 * b1 - b0 * b0)) := ⟨_, rfl⟩
    rw [← hQ] at f3 e2 ⊢
    have hQ0 : 0 < Q := lt_of_lt_of_le (by positivity) f3
    have e3 : 17 * u * (N ^ 2 * T ^ 2) ≤ 3 / 4 * v * Q := by
      have a : 17 * u * (N ^ 2 * T ^ 2) = 17 / 32 * v * (w * T) ^ 2 := by linear_combination 17 * T ^ 2 * hF
      have b := mul_le_mul_of_nonneg_left f3 (by linarith : 0 ≤ 3 / 4 * v)
      have c : 0 ≤ v * (w * T) ^ 2 := by positivity
      linarith
    have e4 := e2.trans e3
    have hQh : 0 < R.rnd (R.rnd (R.rnd (Th - p0) * R.rnd (Th - p1)) +
      R.rnd (R.rnd (h * R.rnd (p1 - p0)) * R.rnd (h * R.rnd (p1 - p0)))) := by
      have := (abs_le.1 e4).1
      have := mul_le_of_le_one_left hQ0.le hv1.le
      linarith
    have e5 := sqrt_rel_err hQ0 hQh e4
    have hs0 := Real.sqrt_nonneg Q
    refine Near.of_rel hs0 ?_ hv1.le
    have e6 := rnd_off (R := R) e5 (K := √Q) (le_of_eq (abs_of_nonneg hs0))
    have : u * (√Q + 3 / 4 * v * √Q) ≤ v / 128 * (2 * √Q) :=
      mul_le_mul (by linarith) (by linarith [mul_le_of_le_one_left hs0 hv1.le]) (by positivity) (by positivity)
    have : 0 ≤ v * √Q := by positivity
    linarith
  · have huT : 0 ≤ u * T := by positivity
    have huu : u * (u * T) ≤ u * T / 64 := by nlinarith
    have a : |R.rnd (Th - p0) + R.rnd (Th - p1) - ((T - b0 * b0) + (T - b1 * b1))| ≤ 8 * (u * T) := by
      rw [add_sub_add_comm]
      exact (abs_add_le _ _).trans (by linarith)
    have a2 := rnd_off (R := R) a (K := 2 * T) (by rw [abs_of_nonneg (by linarith)]; linarith)
    have a3 : |R.rnd (R.rnd (Th - p0) + R.rnd (Th - p1)) / 2 - ((T - b0 * b0) + (T - b1 * b1)) / 2| ≤ 6 * (u * T) := by
      rw [← sub_div, abs_div, abs_of_pos (by norm_num : (0 : ℝ) < 2)]
      linarith
    have a4 := rnd_off (R := R) a3 (K := T) (by rw [abs_of_nonneg (by linarith)]; linarith)
    refine Near.of_rel (by linarith) (a4.trans ?_) hv1.le
    have a5 : v * (w * T / 2) ≤ v * (((T - b0 * b0) + (T - b1 * b1)) / 2) := mul_le_mul_of_nonneg_left (by linarith) hv0
    have a6 := mul_le_mul_of_nonneg_right huvw hT.le
    linarith
  · exact Real.sqrt_pos.2 (lt_of_lt_of_le (by positivity) f3)

/-- the parameters of a parallel cut, as computed; `T` is a little above the computed `τ²` -/
theorem slab_params (hu : u ≤ 1 / 64) (hn : 2 ≤ n) {T w v : ℝ} {Th β0 β1 : Fl R} (hT : 0 < T) (hTh : Th.val = (1 - u) * T)
    (hw0 : 0 < w) (hw1 : w ≤ 1) (hb0 : 0 ≤ β0.val) (hb : β0.val + w * √T ≤ β1.val) (hb1 : β1.val * β1.val ≤ T)
    (hv : v = 32 * (u * (n : ℝ) ^ 2) / w ^ 2) (hv1 : v < 1) :
    ∃ ρ σ δ : Fl R, (EllCalcCore.new (Nat.cast n : Fl R)).calcParallelBiasCut β0 β1 Th = (ρ, σ, δ) ∧
      Near v 17 ρ.val (slabRho n T β0.val β1.val) ∧ Near v 14 σ.val (slabSigma n T β0.val β1.val) ∧
      Near v 17 δ.val (slabDelta n T β0.val β1.val) := by
  have h0 := R.unit_nonneg
  have hu1 : u < 1 := by linarith
  have hn2 : (2 : ℝ) ≤ n := by exact_mod_cast hn
  have hs := Real.sqrt_pos.2 hT
  have hb1p : 0 ≤ β1.val := by nlinarith [mul_pos hw0 hs]
  obtain ⟨b0, hb0d⟩ : ∃ b, b = β0.val := ⟨_, rfl⟩
  obtain ⟨b1, hb1d⟩ : ∃ b, b = β1.val := ⟨_, rfl⟩
  rw [← hb0d, ← hb1d] at hb
  rw [← hb0d] at hb0
  rw [← hb1d] at hb1 hb1p
  have hb01 : 0 ≤ b0 * b1 := mul_nonneg hb0 hb1p
  have hThT : |Th.val - T| ≤ u * T := by
    rw [hTh, show (1 - u) * T - T = -(u * T) by ring, abs_neg, abs_of_nonneg (by positivity)]
  have hb0T : b0 * b0 ≤ T := by
    have := (slab_radicand hn2 hT hw0 hb0 hb hb1).1
    have : 0 < w * T := by positivity
    linarith
  have hhalf : Near u 2 (EllCalcCore.new (Nat.cast n : Fl R)).halfN.val ((n : ℝ) / 2) :=
    ((nF_near R hu hn).div hu1 (by positivity) (by norm_num) (two_near R)).round hu1 (by positivity)
  have hp : ∀ b : Fl R, b.val * b.val ≤ T → |(b * b).val - b.val * b.val| ≤ u * T := fun b hb => by
    refine (R.err _).trans ?_
    rw [abs_of_nonneg (mul_self_nonneg _)]
    exact mul_le_mul_of_nonneg_left hb h0
  obtain ⟨x1, x2, x3, huv⟩ := slab_xi_near (R := R) hu hn2 hT hThT hw0 hw1 hb0 hb hb1 (hb0d ▸ hp β0 (hb0d ▸ hb0T))
    (hb1d ▸ hp β1 (hb1d ▸ hb1)) (by
      have := hhalf.abs_lin h0 (by push_cast; linarith) hu1 (by positivity)
      push_cast at this
      refine this.trans ?_
      have : 0 ≤ u * (n : ℝ) := by positivity
      linarith) hv hv1
  have hv0 : 0 ≤ v := h0.trans huv
  have up : ∀ {k : ℕ} {x y : ℝ}, 0 ≤ y → Near u k x y → Near v k x y := fun hy h => h.mono_unit hv1 huv (h.nonneg hu1 hy) hy
  have wk : ∀ {j k : ℕ} {x y : ℝ}, j ≤ k → 0 ≤ y → Near v j x y → Near v k x y := fun hjk hy h => h.mono hv0 hv1 hjk (h.nonneg hv1 hy) hy
  have hTn : Near v 1 Th.val T := by
    refine up hT.le ?_
    rw [Near, pow_one, hTh]
    refine ⟨le_rfl, ?_⟩
    have : (1 - u) * (1 - u) ≤ 1 := by nlinarith
    nlinarith
  have hb01n : Near v 1 (β0 * β1).val (b0 * b1) := up hb01 (by
    have := Near.rnd (R := R) hu1 (x := β0.val * β1.val) (by rw [← hb0d, ← hb1d]; exact hb01)
    rw [← hb0d, ← hb1d] at this
    rw [hb0d, hb1d]
    rw [← hb0d, ← hb1d]
    exact (show (β0 * β1).val = R.rnd (b0 * b1) by rw [hb0d, hb1d]; rfl) ▸ this)
  have hnF : Near v 1 (Nat.cast n : Fl R).val (n : ℝ) := up (by positivity) (nF_near R hu hn)
  have hη : Near v 4 (Th + (Nat.cast n : Fl R) * (β0 * β1)).val (T + n * (b0 * b1)) := by
    have a : Near v 3 ((Nat.cast n : Fl R) * (β0 * β1)).val (n * (b0 * b1)) :=
      (hnF.mul hv1 (by positivity) hb01 hb01n).round_in hv1 huv (by positivity)
    exact ((wk (by norm_num) hT.le hTn).add a).round_in hv1 huv (by positivity)
  have hη2 : Near v 5 (nat 2 * (Th + (Nat.cast n : Fl R) * (β0 * β1)) : Fl R).val (2 * (T + n * (b0 * b1))) := by
    have := ((two_near R).mul hv1 (by norm_num) (by positivity) hη).round_in (R := R) hv1 huv (by positivity)
    simpa using this
  have hbs : Near v 1 (β0 + β1).val (b0 + b1) := up (by linarith) (by
    have := Near.rnd (R := R) hu1 (x := b0 + b1) (by linarith)
    rw [hb0d, hb1d] at this ⊢
    exact this)
  have hbsum : 0 ≤ b0 + b1 := by linarith
  have hbb : Near v 3 ((β0 + β1) * (β0 + β1)).val ((b0 + b1) * (b0 + b1)) :=
    (hbs.mul hv1 hbsum hbsum hbs).round_in hv1 huv (mul_nonneg hbsum hbsum)
  have hden : Near v 8 (Th + β0 * β1 + (EllCalcCore.new (Nat.cast n : Fl R)).halfN * ((β0 + β1) * (β0 + β1)) +
      Scalar.sqrt ((Th - β0 * β0) * (Th - β1 * β1) + (EllCalcCore.new (Nat.cast n : Fl R)).halfN * (β1 * β1 - β0 * β0) *
        ((EllCalcCore.new (Nat.cast n : Fl R)).halfN * (β1 * β1 - β0 * β0)))).val
      (T + b0 * b1 + n / 2 * ((b0 + b1) * (b0 + b1)) + slabXi n T b0 b1) := by
    have a : Near v 2 (Th + β0 * β1).val (T + b0 * b1) := (hTn.add hb01n).round_in hv1 huv (by positivity)
    have b : Near v 6 ((EllCalcCore.new (Nat.cast n : Fl R)).halfN * ((β0 + β1) * (β0 + β1))).val (n / 2 * ((b0 + b1) * (b0 + b1))) :=
      ((up (by positivity) hhalf).mul hv1 (by positivity) (mul_nonneg hbsum hbsum) hbb).round_in hv1 huv (by positivity)
    have c : Near v 7 (Th + β0 * β1 + (EllCalcCore.new (Nat.cast n : Fl R)).halfN * ((β0 + β1) * (β0 + β1))).val
        (T + b0 * b1 + n / 2 * ((b0 + b1) * (b0 + b1))) :=
      ((wk (by norm_num) (by positivity) a).add b).round_in hv1 huv (by positivity)
    exact (c.add (wk (by norm_num) x3.le x1)).round_in hv1 huv (by positivity)
  have hden0 : 0 < T + b0 * b1 + n / 2 * ((b0 + b1) * (b0 + b1)) + slabXi n T b0 b1 := by positivity
  have hσ0 : 0 ≤ slabSigma n T b0 b1 := by
    unfold slabSigma
    positivity
  have hσ := (hη2.div hv1 (by positivity) hden0 hden).round_in (R := R) hv1 huv hσ0
  have hρ : Near v 16 (R.rnd (_ * (β0 + β1).val)) (slabSigma n T b0 b1 * (b0 + b1)) :=
    (hσ.mul hv1 hσ0 hbsum hbs).round_in hv1 huv (mul_nonneg hσ0 hbsum)
  have hρ2 := (hρ.div hv1 (mul_nonneg hσ0 hbsum) (by norm_num) (two_near R)).round_in (R := R) hv1 huv (by
    have := mul_nonneg hσ0 hbsum
    positivity)
  have hξn : Near v 3 _ (slabXi n T b0 b1 / n) := (x1.div hv1 x3.le (by positivity) hnF).round_in (R := R) hv1 huv (by positivity)
  have hZ0 : 0 ≤ ((T - b0 * b0) + (T - b1 * b1)) / 2 := by linarith
  have hnn : (0 : ℝ) < n * n - 1 := by nlinarith
  have hξn0 : 0 ≤ slabXi n T b0 b1 / n := by positivity
  have hδ1 := ((wk (by norm_num : 1 ≤ 3) hZ0 x2).add hξn).round_in (R := R) hv1 huv (by linarith)
  have hδ2 := ((up (by positivity) (cst1_near R hu hn)).mul hv1 (by positivity) (by linarith) hδ1).round_in (R := R) hv1 huv
    (mul_nonneg (by positivity) (by linarith))
  have hδ3 := (hδ2.div hv1 (mul_nonneg (by positivity) (by linarith)) hT hTn).round_in (R := R) hv1 huv
    (div_nonneg (mul_nonneg (by positivity) (by linarith)) hT.le)
  rw [← hb0d, ← hb1d]
  refine ⟨_, _, _, rfl, ?_, ?_, ?_⟩
  · exact hρ2
  · exact hσ
  · rw [show (nat 2 : Fl R) = ⟨2⟩ by
      ext
      show R.rnd ((2 : Nat) : ℝ) = 2
      exact_mod_cast R.two]
    exact hδ3

end Ellalgo
