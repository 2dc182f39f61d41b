import Verif.Lib.SlabExact
import Verif.Props.RoundedConverge
import Verif.Spec.RoundedParallel

/-! One parallel cut in rounded arithmetic. -/

namespace Ellalgo
open Matrix
open scoped ComplexOrder
variable {u : ℝ} {R : Rounding u} {n : Nat}

theorem sqrt_add_sq_le {p q : ℝ} (hp : 0 ≤ p) (hq : 0 ≤ q) : (√p + q) ^ 2 ≤ p + q * (1 + p) + q ^ 2 := by
  have h := Real.sq_sqrt hp
  nlinarith [mul_nonneg hq (sq_nonneg (√p - 1))]

/-- the inflation of one parallel cut -/
theorem slab_infl {κ d a h F E A ε w κn : ℝ} (hκ : 0 < κ) (hw0 : 0 < w) (hd : w / 2 ≤ d) (hd3 : d ≤ 3) (ha0 : 0 ≤ a) (ha1 : a ≤ 1)
    (hh0 : 0 ≤ h) (hh1 : 10 * h ≤ 1) (hF : 0 ≤ F) (hE : 0 ≤ E) (hε0 : 0 ≤ ε) (hε1 : ε ≤ 1) (hA : 1 ≤ A * (w / 2)) (hEh : E * h < 1)
    (h24 : 24 * h ≤ 1) (hκn : (1 - 24 * h) * (κ * d) ≤ κn)
    (hsm : h * (10 + 6 * F + F ^ 2 + 3 * (E + 24) * (2 + A)) ≤ ε * (w / 2)) :
    (√(κ * (d + a + 10 * h)) + √κ * (h * F)) ^ 2 / (1 - E * h) ≤ (1 + A * a + ε) * κn := by
  have hA0 : 0 < A := by
    by_contra hc
    have := mul_nonpos_of_nonpos_of_nonneg (not_lt.1 hc) (by linarith : 0 ≤ w / 2)
    linarith
  have hd0 : 0 < d := by linarith
  rw [Real.sqrt_mul hκ.le, ← mul_add, mul_pow, Real.sq_sqrt hκ.le, div_le_iff₀ (by linarith)]
  have h1 := sqrt_add_sq_le (p := d + a + 10 * h) (q := h * F) (by linarith) (by positivity)
  have hhF : 0 ≤ h * F := by positivity
  have h2 : (√(d + a + 10 * h) + h * F) ^ 2 ≤ d + a + h * (10 + 6 * F + F ^ 2) := by
    have a1 : h * F * (1 + (d + a + 10 * h)) ≤ h * F * 6 := mul_le_mul_of_nonneg_left (by linarith) hhF
    have a2 : (h * F) ^ 2 ≤ h * F ^ 2 := by
      rw [mul_pow]
      exact mul_le_mul_of_nonneg_right (by nlinarith) (sq_nonneg F)
    linarith
  have hB : 0 ≤ 1 + A * a + ε := by positivity
  have h3 : (1 + A * a + ε) * ((1 - 24 * h) * (κ * d)) * (1 - E * h) ≤ (1 + A * a + ε) * κn * (1 - E * h) :=
    mul_le_mul_of_nonneg_right (mul_le_mul_of_nonneg_left hκn hB) (by linarith)
  refine le_trans ?_ h3
  have h4 : 1 - (E + 24) * h ≤ (1 - 24 * h) * (1 - E * h) := by
    have : 0 ≤ h * (E * h) := by positivity
    linarith
  have h5 : d + a + h * (10 + 6 * F + F ^ 2) ≤ (1 + A * a + ε) * ((1 - (E + 24) * h) * d) := by
    have b1 : a ≤ A * a * d := by
      have := mul_le_mul_of_nonneg_left hd (mul_nonneg hA0.le ha0)
      have := mul_le_mul_of_nonneg_right hA ha0
      linarith
    have b2 : ε * (w / 2) ≤ ε * d := mul_le_mul_of_nonneg_left hd hε0
    have b3 : (1 + A * a + ε) * ((E + 24) * h * d) ≤ (2 + A) * ((E + 24) * h * 3) := by
      refine mul_le_mul ?_ (mul_le_mul_of_nonneg_left hd3 (by positivity)) (by positivity) (by linarith)
      have := mul_le_mul_of_nonneg_left ha1 hA0.le
      linarith
    linarith
  have h6 : (1 + A * a + ε) * ((1 - (E + 24) * h) * d) ≤ (1 + A * a + ε) * ((1 - 24 * h) * (1 - E * h) * d) :=
    mul_le_mul_of_nonneg_left (mul_le_mul_of_nonneg_right h4 hd0.le) hB
  have h7 := mul_le_mul_of_nonneg_left (h2.trans (h5.trans h6)) hκ.le
  refine h7.trans (le_of_eq ?_)
  ring

theorem exp_le_of_small {x ε : ℝ} (h : 2 * x ≤ ε) (hx : x ≤ 1 / 2) (hx0 : 0 ≤ x) : Real.exp x ≤ 1 + ε := by
  have h1 := Real.one_sub_le_exp_neg x
  rw [Real.exp_neg] at h1
  have h2 := Real.exp_pos x
  have h3 : Real.exp x * (1 - x) ≤ 1 := by
    have := mul_le_mul_of_nonneg_left h1 h2.le
    rwa [mul_inv_cancel₀ h2.ne'] at this
  nlinarith

/-- the reference value of `tsq` -/
theorem slab_ref {κ ω W Wh Th T θ h : ℝ} (h0 : 0 ≤ u) (hκ : 0 < κ) (hW : W ^ 2 = ω) (hW0 : 0 < W) (hWh0 : 0 < Wh)
    (hd : |Wh - W| ≤ θ * W) (h12 : 12 * u ≤ θ) (hθ : θ ≤ h) (hh : 100 * h ≤ 1) (hT : Near u 1 Th (κ * Wh ^ 2)) (hTd : T = Th / (1 - u)) :
    Th = (1 - u) * T ∧ 0 < T ∧ (1 - 2 * h) * κ ≤ T / ω ∧ T / ω ≤ (1 + 5 * h) * κ := by
  have hu1 : 0 < 1 - u := by linarith
  have hω : 0 < ω := by rw [← hW]; positivity
  have e1 : Th = (1 - u) * T := by rw [hTd]; field_simp
  obtain ⟨t1, t2⟩ := hT
  rw [pow_one] at t1 t2
  have hθ0 : 0 ≤ θ := by linarith
  have b1 : (1 - h) * W ≤ Wh := by nlinarith [(abs_le.1 hd).1]
  have b2 : Wh ≤ (1 + h) * W := by nlinarith [(abs_le.1 hd).2]
  have c1 := pow_le_pow_left₀ (mul_nonneg (by linarith) hW0.le) b1 2
  have c2 := pow_le_pow_left₀ hWh0.le b2 2
  rw [mul_pow, hW] at c1 c2
  have d1 := mul_le_mul_of_nonneg_left c1 hκ.le
  have d2 := mul_le_mul_of_nonneg_left c2 hκ.le
  rw [e1] at t1 t2
  have hTl : κ * Wh ^ 2 ≤ T := le_of_mul_le_mul_left t1 hu1
  have hT0 : 0 < T := lt_of_lt_of_le (by positivity) hTl
  refine ⟨e1, hT0, ?_, ?_⟩
  · rw [le_div_iff₀ hω]
    have : (1 - 2 * h) * (κ * ω) ≤ (1 - h) ^ 2 * (κ * ω) := mul_le_mul_of_nonneg_right (by nlinarith) (by positivity)
    linarith
  · rw [div_le_iff₀ hω]
    have f1 : (1 - u) * ((1 - u) * T) ≤ (1 + h) ^ 2 * (κ * ω) := by linarith
    have f2 : (1 + h) ^ 2 ≤ (1 - u) * (1 - u) * (1 + 5 * h) := by
      have g1 : u ≤ h / 12 := by linarith
      have g2 : (1 - h / 12) * (1 - h / 12) ≤ (1 - u) * (1 - u) := mul_self_le_mul_self (by linarith) (by linarith)
      have g3 := mul_le_mul_of_nonneg_right g2 (by linarith : 0 ≤ 1 + 5 * h)
      nlinarith
    have f3 := mul_le_mul_of_nonneg_right f2 (by positivity : 0 ≤ κ * ω)
    have f4 : (1 - u) * (1 - u) * T ≤ (1 - u) * (1 - u) * ((1 + 5 * h) * κ * ω) := by linarith
    exact le_of_mul_le_mul_left f4 (by positivity)

theorem slab_rho_err {r rh W Wh k h : ℝ} (hr : |rh - r| ≤ 23 * h * r) (hr0 : 0 ≤ r) (hW0 : 0 < W) (hWh0 : 0 < Wh)
    (hd : |Wh - W| ≤ h * W) (hh : 100 * h ≤ 1) (hh0 : 0 ≤ h) (hk : r / W ≤ k) : |rh / Wh - r / W| ≤ 25 * h * k := by
  have e : rh / Wh - r / W = ((rh - r) * W + r * (W - Wh)) / (Wh * W) := by field_simp; ring
  rw [e, abs_div, abs_of_pos (mul_pos hWh0 hW0), div_le_iff₀ (mul_pos hWh0 hW0)]
  have b1 : 99 / 100 * W ≤ Wh := by nlinarith [(abs_le.1 hd).1]
  have h1 : |(rh - r) * W + r * (W - Wh)| ≤ 24 * h * (r * W) := by
    refine (abs_add_le _ _).trans ?_
    rw [abs_mul, abs_mul, abs_of_pos hW0, abs_of_nonneg hr0, abs_sub_comm W]
    have := mul_le_mul_of_nonneg_right hr hW0.le
    have := mul_le_mul_of_nonneg_left hd hr0
    linarith
  refine h1.trans ?_
  have hkW : r ≤ k * W := by rwa [div_le_iff₀ hW0] at hk
  have hk0 : 0 ≤ k := (div_nonneg hr0 hW0.le).trans hk
  have h2 : 24 * h * (r * W) ≤ 24 * h * (k * W * W) := by
    have := mul_le_mul_of_nonneg_right hkW hW0.le
    exact mul_le_mul_of_nonneg_left this (by linarith)
  have h3 : 25 * h * k * W * (99 / 100 * W) ≤ 25 * h * k * W * Wh := mul_le_mul_of_nonneg_left b1 (by positivity)
  have h4 : 0 ≤ h * k * W * W := by positivity
  linarith

/-- what a small enough error of one update means -/
theorem slab_small {l H P w ε h : ℝ} (hn : 2 ≤ n) (hl : 0 < l) (hlH : l ≤ H) (hP : 0 ≤ P) (hw0 : 0 < w) (hw1 : w ≤ 1) (hε0 : 0 ≤ ε)
    (hε1 : ε ≤ 1) (hh : 0 ≤ h) (hsm : h * slabL n l H P w ≤ ε * (w / 2)) :
    0 ≤ slabE n l H w ∧ 0 ≤ slabF n l H P w ∧ 12 * (n * ((slabE n l H w + 24) * h)) ≤ ε ∧ 24 * (slabE n l H w * h) ≤ 1 ∧
      100000 * h ≤ 1 ∧
      h * (10 + 6 * slabF n l H P w + slabF n l H P w ^ 2 + 3 * (slabE n l H w + 24) * (2 + 3 / w ^ 4)) ≤ ε * (w / 2) ∧
      h * (6 * slabF n l H P w / w ^ 3) + h * (3 * (slabE n l H w + 24) * (2 + 3 / w ^ 4)) ≤ ε * (w / 2) := by
  have hn2 : (2 : ℝ) ≤ n := by exact_mod_cast hn
  have hG : 1 ≤ H / l := (one_le_div hl).2 hlH
  have hE : 9984 ≤ slabE n l H w := by
    unfold slabE
    rw [le_div_iff₀ (by positivity)]
    have h1 : 4 ≤ (n : ℝ) ^ 2 * (H / l) := by
      have : (4 : ℝ) ≤ n ^ 2 := by nlinarith
      nlinarith
    have h2 : w ^ 2 ≤ 1 := pow_le_one₀ hw0.le hw1
    linarith
  have hF : 0 ≤ slabF n l H P w := by
    unfold slabF
    have : 0 ≤ H := by linarith
    positivity
  unfold slabL at hsm
  obtain ⟨E, hEd⟩ : ∃ E, E = slabE n l H w := ⟨_, rfl⟩
  obtain ⟨F, hFd⟩ : ∃ F, F = slabF n l H P w := ⟨_, rfl⟩
  rw [← hEd] at hE hsm ⊢
  rw [← hFd] at hF hsm ⊢
  have hA : 0 < 3 / w ^ 4 := by positivity
  have hw3 : w ^ 3 ≤ 1 := pow_le_one₀ hw0.le hw1
  have hF3 : 6 * F ≤ 6 * F / w ^ 3 := by
    rw [le_div_iff₀ (by positivity)]
    exact (mul_le_mul_of_nonneg_left hw3 (by linarith)).trans (mul_one _).le
  have hX : 0 ≤ 6 * F / w ^ 3 := by positivity
  have hY : 0 ≤ 3 * (E + 24) * (2 + 3 / w ^ 4) := by positivity
  obtain ⟨X, hXd⟩ : ∃ X, X = 6 * F / w ^ 3 := ⟨_, rfl⟩
  rw [← hXd] at hX hF3 hsm ⊢
  have hhn : h ≤ h * n := by nlinarith
  have hbig : h * (10 + X + F ^ 2 + 3 * (E + 24) * (2 + 3 / w ^ 4)) ≤ ε * (w / 2) := by
    refine le_trans ?_ hsm
    rw [← mul_assoc]
    exact mul_le_mul_of_nonneg_right hhn (by positivity)
  have hF2 : 0 ≤ h * (10 + F ^ 2) := by positivity
  have hnE : 12 * (n * ((E + 24) * h)) ≤ ε := by
    have h1 : h * (n * (3 * (E + 24) * 2)) ≤ ε * (w / 2) := by
      refine le_trans (mul_le_mul_of_nonneg_left (mul_le_mul_of_nonneg_left ?_ (by linarith)) hh) hsm
      have : 0 ≤ 3 * (E + 24) * (3 / w ^ 4) := by positivity
      nlinarith [sq_nonneg F]
    have h2 : ε * (w / 2) ≤ ε * (1 / 2) := mul_le_mul_of_nonneg_left (by linarith) hε0
    linarith
  have hEh : 0 ≤ (E + 24) * h := mul_nonneg (by linarith) hh
  have h24 : 24 * ((E + 24) * h) ≤ 1 := by
    have := mul_le_mul_of_nonneg_right hn2 hEh
    linarith
  have hEh2 := mul_le_mul_of_nonneg_right hE hh
  refine ⟨by linarith, hF, hnE, by linarith, by linarith, ?_, ?_⟩
  · refine le_trans (mul_le_mul_of_nonneg_left ?_ hh) hbig
    linarith
  · linarith

/-- the drift of the centre in a parallel cut -/
theorem slab_drift {l H P w h κ κ' s X : ℝ} (hu0 : 0 ≤ u) (huh : u ≤ h) (hn : 2 ≤ n) (hl : 0 < l) (hH : 0 < H) (hX : X ≤ P) (hX0 : 0 ≤ X)
    (hw0 : 0 < w) (hκ : 0 < κ) (hκ' : κ' ≤ 4 * κ) (hs : w ^ 2 / (12 * n) ≤ 1 - s) :
    (u * X + √n * (4 * (26 * h) * (√κ' * √(H / κ)))) ^ 2 ≤ (√κ * (h * slabF n l H P w)) ^ 2 * ((1 - s) * (l / κ)) := by
  have hn2 : (2 : ℝ) ≤ n := by exact_mod_cast hn
  have hh : 0 ≤ h := hu0.trans huh
  obtain ⟨Y, hY⟩ : ∃ Y, Y = P + 208 * √(n * H) := ⟨_, rfl⟩
  have hP : 0 ≤ P := hX0.trans hX
  have hY0 : 0 ≤ Y := by rw [hY]; positivity
  have h1 : √κ' * √(H / κ) ≤ 2 * √H := by
    rw [← Real.sqrt_mul' _ (by positivity)]
    have : κ' * (H / κ) ≤ 2 ^ 2 * H := by
      rw [← mul_div_assoc, div_le_iff₀ hκ]
      have := mul_le_mul_of_nonneg_right hκ' hH.le
      linarith
    refine (Real.sqrt_le_sqrt this).trans (le_of_eq ?_)
    rw [Real.sqrt_mul (by norm_num), Real.sqrt_sq (by norm_num)]
  have h2 : u * X + √n * (4 * (26 * h) * (√κ' * √(H / κ))) ≤ h * Y := by
    have a1 : u * X ≤ h * P := mul_le_mul huh hX hX0 hh
    have a2 : √n * (4 * (26 * h) * (√κ' * √(H / κ))) ≤ √n * (4 * (26 * h) * (2 * √H)) := by gcongr
    have a3 : √(n * H) = √n * √H := Real.sqrt_mul (by positivity) _
    rw [hY, a3]
    linarith
  have h3 := pow_le_pow_left₀ (by positivity) h2 2
  refine h3.trans ?_
  have e1 : (√κ * (h * slabF n l H P w)) ^ 2 * ((1 - s) * (l / κ)) = (h * Y) ^ 2 * (144 * n ^ 2 * (1 - s) / w ^ 2) := by
    unfold slabF
    rw [← hY, mul_pow, mul_pow, mul_pow, div_pow, mul_pow w, Real.sq_sqrt hκ.le, Real.sq_sqrt hl.le]
    field_simp
    ring
  rw [e1]
  refine le_mul_of_one_le_right (sq_nonneg _) ?_
  rw [le_div_iff₀ (by positivity), one_mul]
  have a := mul_le_mul_of_nonneg_left hs (by positivity : (0 : ℝ) ≤ 144 * n ^ 2)
  have b : 144 * (n : ℝ) ^ 2 * (w ^ 2 / (12 * n)) = 12 * n * w ^ 2 := by field_simp; norm_num
  rw [b] at a
  have : w ^ 2 ≤ 12 * n * w ^ 2 := le_mul_of_one_le_left (by positivity) (by linarith)
  linarith

theorem slab_loss {l H w h κ s : ℝ} (hn : 2 ≤ n) (hl : 0 < l) (hH : 0 < H) (hw0 : 0 < w) (hκ : 0 < κ) (hh : 0 ≤ h)
    (hs : w ^ 2 / (12 * n) ≤ 1 - s) : 8 * (26 * h) * (H / κ) * n ≤ slabE n l H w * h * ((1 - s) * (l / κ)) := by
  have hn2 : (2 : ℝ) ≤ n := by exact_mod_cast hn
  have e1 : slabE n l H w * h * ((1 - s) * (l / κ)) = 8 * (26 * h) * (H / κ) * n * (12 * n * (1 - s) / w ^ 2) := by
    unfold slabE
    field_simp
    ring
  rw [e1]
  refine le_mul_of_one_le_right (by positivity) ?_
  rw [le_div_iff₀ (by positivity), one_mul]
  rw [div_le_iff₀ (by positivity)] at hs
  linarith

end Ellalgo
