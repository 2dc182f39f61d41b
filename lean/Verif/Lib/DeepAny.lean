import Verif.Lib.SlabAny

/-! One deep cut in rounded arithmetic, in the form C110 uses. -/

namespace Ellalgo
open Matrix
open scoped ComplexOrder
variable {u : ℝ} {R : Rounding u} {n : Nat}

theorem deep_infl {w a t x ν Z A ε q : ℝ} (hw0 : 0 < w) (hw1 : w ≤ 1) (ha0 : 0 ≤ a) (ha1 : a ≤ 1) (ht : t ^ 2 = 1 + a) (ht1 : 1 ≤ t)
    (hx : x = q / w ^ 2 * (t - 1)) (hq0 : 0 ≤ q) (hq : q ≤ 3 / 2) (hν0 : 0 ≤ ν) (hν1 : ν ≤ 1) (hA : A = 3 / w ^ 4) (hε0 : 0 ≤ ε)
    (hνε : 5 * (ν / w ^ 2) ≤ ε) (hZε : Z * (2 + A) ≤ ε) (hZ0 : 0 ≤ Z) (hε1 : ε ≤ 1) :
    (1 + x + ν) ^ 2 ≤ (1 - Z) * (1 + A * a + 3 * ε) := by
  have hta : t - 1 ≤ a / 2 := by nlinarith [sq_nonneg (t - 1)]
  obtain ⟨z, hz⟩ : ∃ z, z = 1 / w ^ 2 := ⟨_, rfl⟩
  have hz1 : 1 ≤ z := by
    rw [hz, le_div_iff₀ (by positivity), one_mul]
    exact pow_le_one₀ hw0.le hw1
  have hAz : A = 3 * (z * z) := by
    rw [hA, hz]
    field_simp
  have hx' : x = q * z * (t - 1) := by rw [hx, hz]; ring
  have hνz : 5 * (ν * z) ≤ ε := by
    have : ν * z = ν / w ^ 2 := by rw [hz]; ring
    rw [this]; exact hνε
  have hz0 : 0 < z := by linarith
  have hx0 : 0 ≤ x := by rw [hx']; exact mul_nonneg (by positivity) (by linarith)
  have hxa : x ≤ 3 / 4 * (z * a) := by
    rw [hx']
    have := mul_le_mul (mul_le_mul_of_nonneg_right hq hz0.le) hta (by linarith) (by positivity)
    linarith
  have hza : 0 ≤ z * a := by positivity
  have hzz : z ≤ z * z := by nlinarith
  have hza2 : z * a ≤ z * z * a := mul_le_mul_of_nonneg_right hzz ha0
  have hxx : x * x ≤ 9 / 16 * (z * z * a) := by
    have h1 := mul_self_le_mul_self hx0 hxa
    have h2 : 3 / 4 * (z * a) * (3 / 4 * (z * a)) ≤ 9 / 16 * (z * z * a) := by
      have : z * z * a * a ≤ z * z * a * 1 := mul_le_mul_of_nonneg_left ha1 (by positivity)
      linarith
    exact h1.trans h2
  have hxz : x ≤ 3 / 4 * z := by
    have : z * a ≤ z * 1 := mul_le_mul_of_nonneg_left ha1 hz0.le
    linarith
  have hνx : ν * (2 + 2 * x + ν) ≤ ν * (5 * z) := mul_le_mul_of_nonneg_left (by linarith) hν0
  have hAa : A * a ≤ A := by
    have hA0 : 0 ≤ A := by rw [hAz]; positivity
    exact (mul_le_mul_of_nonneg_left ha1 hA0).trans (mul_one _).le
  have hZ : Z * (1 + A * a + 3 * ε) ≤ Z * (2 * (2 + A)) := by
    refine mul_le_mul_of_nonneg_left ?_ hZ0
    have hA0 : 0 ≤ A := by rw [hAz]; positivity
    linarith
  have hAz' : A * a = 3 * (z * z * a) := by rw [hAz]; ring
  nlinarith

theorem deepAny_volume {u q η E h ε : ℝ} {n : Nat} (h0 : 0 ≤ u) (hu : u ≤ 1 / 64) (hq0 : 0 ≤ q) (hη0 : 0 ≤ η) (hE0 : 0 ≤ E) (hh0 : 0 ≤ h)
    (hnE : 12 * (n * ((E + 24) * h)) ≤ ε) (hs : q + η + 26 * u ≤ (E + 24) * h) (hε0 : 0 ≤ ε) (hε1 : ε ≤ 1) :
    ((1 + q) * (1 + η)) ^ n ≤ (1 - u) ^ (13 * n) * (1 + 3 * ε) := by
  have hpu : 0 < (1 - u) ^ (13 * n) := pow_sub_nonneg (by linarith) _
  have b1 : 1 ≤ (1 - u) * (1 + 2 * u) := by nlinarith
  have b2 : 1 ≤ (1 - u) ^ (13 * n) * (1 + 2 * u) ^ (13 * n) := by
    rw [← mul_pow]; exact one_le_pow₀ b1
  have b3 : ((1 + q) * (1 + η)) ^ n * (1 + 2 * u) ^ (13 * n) ≤ 1 + ε := by
    rw [pow_mul, ← mul_pow]
    have c1 : (1 + q) * (1 + η) * (1 + 2 * u) ^ 13 ≤ Real.exp (q + η + 26 * u) := by
      have d1 : 1 + q ≤ Real.exp q := by have := Real.add_one_le_exp q; linarith
      have d2 : 1 + η ≤ Real.exp η := by have := Real.add_one_le_exp η; linarith
      have d3 : 1 + 2 * u ≤ Real.exp (2 * u) := by have := Real.add_one_le_exp (2 * u); linarith
      have d4 := pow_le_pow_left₀ (by positivity) d3 13
      rw [← Real.exp_nat_mul] at d4
      have d5 := mul_le_mul (mul_le_mul d1 d2 (by positivity) (Real.exp_pos _).le) d4 (by positivity) (by positivity)
      rw [← Real.exp_add, ← Real.exp_add] at d5
      refine d5.trans (le_of_eq ?_)
      congr 1
      push_cast
      ring
    refine (pow_le_pow_left₀ (by positivity) c1 n).trans ?_
    rw [← Real.exp_nat_mul]
    have c2 : n * (q + η + 26 * u) ≤ n * ((E + 24) * h) := mul_le_mul_of_nonneg_left hs (Nat.cast_nonneg _)
    have c3 : 0 ≤ n * (q + η + 26 * u) := by positivity
    exact exp_le_of_small (by linarith) (by linarith) c3
  have hX : 0 ≤ ((1 + q) * (1 + η)) ^ n := by positivity
  have b4 := mul_le_mul_of_nonneg_left b3 hpu.le
  have b5 := mul_le_mul_of_nonneg_left b2 hX
  have b6 : (1 - u) ^ (13 * n) * (1 + ε) ≤ (1 - u) ^ (13 * n) * (1 + 3 * ε) := mul_le_mul_of_nonneg_left (by linarith) hpu.le
  linarith

theorem deep_den {u q η Z : ℝ} (h0 : 0 ≤ u) (hu : u ≤ 1 / 64) (hq0 : 0 ≤ q) (hη0 : 0 ≤ η) (hq1 : q ≤ 1) (hη1 : η ≤ 1)
    (hs : η + q + 13 * u ≤ Z) : 1 - Z ≤ (1 - η) * ((1 - q) * (1 - u) ^ 13) := by
  have d1 : 1 - 13 * u ≤ (1 - u) ^ 13 := by
    have := one_add_mul_le_pow (a := -u) (by linarith) 13
    push_cast at this
    have h5 : (1 + -u) ^ 13 = (1 - u) ^ 13 := by ring
    rw [h5] at this
    linarith
  have d2 := mul_le_mul_of_nonneg_left d1 (by linarith : 0 ≤ 1 - q)
  have d3 := mul_le_mul_of_nonneg_left d2 (by linarith : 0 ≤ 1 - η)
  refine le_trans ?_ d3
  have d4 : 1 - q - 13 * u ≤ (1 - q) * (1 - 13 * u) := by
    have : 0 ≤ q * u := by positivity
    linarith
  have d5 := mul_le_mul_of_nonneg_left d4 (by linarith : 0 ≤ 1 - η)
  refine le_trans ?_ d5
  have d6 : 0 ≤ η * (q + 13 * u) := by positivity
  linarith

theorem deep_drift_le {u θ h l H P w X : ℝ} {n : Nat} (hn2 : (2 : ℝ) ≤ n) (hl : 0 < l) (hH : 0 < H) (hw0 : 0 < w)
    (hX0 : 0 ≤ X) (hX : X ≤ P) (h0 : 0 ≤ u) (huh : u ≤ h) (hθ0 : 0 ≤ θ) (hθ : θ ≤ h) :
    6 / w ^ 2 * (u * X / √l + 16 * θ * √(n * (H / l))) ≤ h * slabF n l H P w / w := by
  have hh0 : 0 ≤ h := h0.trans huh
  have c1 : u * X / √l ≤ h * P / √l :=
    div_le_div_of_nonneg_right (mul_le_mul huh hX hX0 hh0) (Real.sqrt_nonneg _)
  have c2 : √(n * (H / l)) = √(n * H) / √l := by
    rw [← mul_div_assoc, Real.sqrt_div (by positivity)]
  have c3 : 16 * θ * √(n * (H / l)) ≤ 208 * h * √(n * (H / l)) := mul_le_mul_of_nonneg_right (by linarith) (Real.sqrt_nonneg _)
  have c4 : slabF n l H P w / w = 12 * n / w ^ 2 * ((P + 208 * √(n * H)) / √l) := by
    unfold slabF; field_simp
  have c5 : (6 : ℝ) / w ^ 2 ≤ 12 * n / w ^ 2 := div_le_div_of_nonneg_right (by linarith) (by positivity)
  rw [mul_div_assoc h, c4]
  calc _ ≤ 12 * n / w ^ 2 * (h * P / √l + 208 * h * √(n * (H / l))) :=
        mul_le_mul c5 (add_le_add c1 c3) (by positivity) (by positivity)
    _ = _ := by rw [c2]; ring

theorem deepAny_params {l H w h θ : ℝ} (hn : 2 ≤ n) (hl : 0 < l) (hlH : l ≤ H) (hw0 : 0 < w) (hw1 : w ≤ 1) (hh0 : 0 ≤ h)
    (hθ : θ ≤ h) (hE0 : 0 ≤ slabE n l H w) :
    24 * (194 * θ * (n * (H / l)) / w) ≤ slabE n l H w * h ∧ 1000 * (3 * θ / w) ≤ slabE n l H w * h := by
  have hn2 : (2 : ℝ) ≤ n := by exact_mod_cast hn
  have hG : 1 ≤ H / l := (one_le_div hl).2 hlH
  obtain ⟨Γ, hΓ⟩ : ∃ Γ, Γ = H / l := ⟨_, rfl⟩
  obtain ⟨E, hEd⟩ : ∃ E, E = slabE n l H w := ⟨_, rfl⟩
  rw [← hEd] at hE0 ⊢
  rw [← hΓ] at hG ⊢
  have hEw : 2496 * (n * n * Γ) = E * w ^ 2 := by
    rw [hEd, hΓ]; unfold slabE; field_simp
  have hww : w ^ 2 ≤ w := pow_le_of_le_one hw0.le hw1 (by norm_num)
  have hnΓ : 2 ≤ n * Γ := by nlinarith
  have hnnΓ : 2 * (n * Γ) ≤ n * n * Γ := by
    have := mul_le_mul_of_nonneg_right hn2 (by linarith : 0 ≤ n * Γ)
    linarith
  have hEw2 : 4992 * (n * Γ) ≤ E * w := by
    have := mul_le_mul_of_nonneg_left hww hE0
    linarith
  have a1 := mul_le_mul_of_nonneg_right hEw2 hh0
  have a2 : θ * (n * Γ) ≤ h * (n * Γ) := mul_le_mul_of_nonneg_right hθ (by linarith)
  have a3 : 0 ≤ h * (n * Γ) := mul_nonneg hh0 (by linarith)
  have a4 := mul_le_mul_of_nonneg_right hnΓ hh0
  constructor
  · rw [← mul_div_assoc, div_le_iff₀ hw0]
    linarith
  · rw [← mul_div_assoc, div_le_iff₀ hw0]
    linarith

theorem deep_entries {κ κ' c m q θ H u : ℝ} (hn2 : (2 : ℝ) ≤ n) (hκ : 0 < κ) (hκ' : 0 < κ') (hc : 0 < c) (hH : 0 < H)
    (hp13 : 3 / 4 ≤ (1 - u) ^ 13) (hq : q ≤ 1 / 8) (hθ0 : 0 ≤ θ) (hθ : θ ≤ 1 / 33)
    (hm : m ≤ c * ((1 + 33 * θ) * (H / κ)))
    (p3 : (1 - u) ^ 13 * (c * κ') ≤ (1 + q) * (κ * ((n : ℝ) * n / (n * n - 1)))) : κ' * m ≤ 5 * H := by
  have a1 := mul_le_mul_of_nonneg_left hm hκ'.le
  have hcκ : 0 < c * κ' := mul_pos hc hκ'
  have hnn : (n : ℝ) * n / (n * n - 1) ≤ 4 / 3 := by
    rw [div_le_iff₀ (by nlinarith)]; nlinarith
  have a2 : c * κ' ≤ 2 * κ := by
    have b1 := mul_le_mul_of_nonneg_right hp13 hcκ.le
    have b2 := mul_le_mul_of_nonneg_left hnn hκ.le
    have b3 : (1 + q) * (κ * ((n : ℝ) * n / (n * n - 1))) ≤ 9 / 8 * (κ * (4 / 3)) :=
      mul_le_mul (by linarith) b2 (mul_nonneg hκ.le (div_nonneg (by positivity) (by nlinarith))) (by norm_num)
    linarith
  have a3 : c * κ' * ((1 + 33 * θ) * (H / κ)) ≤ 2 * κ * (2 * (H / κ)) :=
    mul_le_mul a2 (mul_le_mul_of_nonneg_right (by linarith) (by positivity)) (by positivity) (by positivity)
  have a4 : 2 * κ * (2 * (H / κ)) = 4 * H := by field_simp; norm_num
  linarith

theorem deep_keep {w a ν η q ε u E F h : ℝ} (hn2 : (2 : ℝ) ≤ n) (hw0 : 0 < w) (hw1 : w ≤ 1) (ha0 : 0 ≤ a) (ha1 : a ≤ 1)
    (h0 : 0 ≤ u) (hu : u ≤ 1 / 64) (hE0 : 0 ≤ E) (hh0 : 0 ≤ h) (hν0 : 0 ≤ ν) (hνF : ν ≤ h * F / w) (hη0 : 0 ≤ η) (hq0 : 0 ≤ q)
    (hηE : 24 * η ≤ E * h) (hqE : 1000 * q ≤ E * h) (hEh : 24 * (E * h) ≤ 1) (hh : 100000 * h ≤ 1) (huh : 12 * u ≤ h)
    (hε0 : 0 ≤ ε) (hε1 : ε ≤ 1)
    (hd2 : h * (6 * F / w ^ 3) + h * (3 * (E + 24) * (2 + 3 / w ^ 4)) ≤ ε * (w / 2)) :
    ((1 + (1 + 1 / (n : ℝ)) / w ^ 2 * (√(1 + a) - 1) + ν) / √((1 - η) * ((1 - q) * (1 - u) ^ 13))) ^ 2 ≤ 1 + 3 / w ^ 4 * a + 3 * ε := by
  have ht1 : 1 ≤ √(1 + a) := Real.one_le_sqrt.2 (by linarith)
  have htt : √(1 + a) ^ 2 = 1 + a := Real.sq_sqrt (by linarith)
  have hEh0 : 0 ≤ E * h := by positivity
  have hA0 : 0 < 3 / w ^ 4 := by positivity
  have hY0 : 0 ≤ h * (3 * (E + 24) * (2 + 3 / w ^ 4)) := by positivity
  have hεw : ε * (w / 2) ≤ ε := by nlinarith
  have hνw : 6 * (ν / w ^ 2) ≤ h * (6 * F / w ^ 3) := by
    have c1 := div_le_div_of_nonneg_right hνF (by positivity : 0 ≤ w ^ 2)
    have c2 : h * (6 * F / w ^ 3) = 6 * (h * F / w / w ^ 2) := by field_simp
    rw [c2]
    linarith
  have hνν : ν ≤ ν / w ^ 2 := by
    rw [le_div_iff₀ (by positivity)]
    exact (mul_le_mul_of_nonneg_left (pow_le_one₀ hw0.le hw1) hν0).trans (mul_one _).le
  have hν1' : 0 ≤ ν / w ^ 2 := by positivity
  rw [div_pow]
  have hden0 := deep_den h0 hu hq0 hη0 (by linarith : q ≤ 1) (by linarith : η ≤ 1) (by linarith : η + q + 13 * u ≤ E * h / 8 + 3 * h)
  have hden : 0 < (1 - η) * ((1 - q) * (1 - u) ^ 13) := lt_of_lt_of_le (by linarith) hden0
  rw [Real.sq_sqrt hden.le, div_le_iff₀ hden]
  have hZ : (E * h / 8 + 3 * h) * (2 + 3 / w ^ 4) ≤ ε := by
    have : (E * h / 8 + 3 * h) * (2 + 3 / w ^ 4) ≤ (h * (3 * (E + 24))) * (2 + 3 / w ^ 4) :=
      mul_le_mul_of_nonneg_right (by linarith) (by linarith)
    have h6 : 0 ≤ h * (6 * F / w ^ 3) := (by positivity : 0 ≤ 6 * (ν / w ^ 2)).trans hνw
    linarith
  have hfin := deep_infl (w := w) (a := a) (t := √(1 + a)) (ν := ν) (Z := E * h / 8 + 3 * h) (A := 3 / w ^ 4) (ε := ε)
    (q := 1 + 1 / (n : ℝ)) hw0 hw1 ha0 ha1 htt ht1 rfl (by positivity) (by
      have : 1 / (n : ℝ) ≤ 1 / 2 := one_div_le_one_div_of_le (by norm_num) hn2
      linarith) hν0 (by linarith) rfl hε0 (by linarith) hZ (by positivity) hε1
  refine hfin.trans ?_
  rw [mul_comm]
  refine mul_le_mul_of_nonneg_left hden0 ?_
  have : 0 ≤ 3 / w ^ 4 * a := by positivity
  linarith

/-- a deep cut -/
theorem deep_any {l H P w ε h : ℝ} (hu : u ≤ 1 / 64) {e : Ell (Fl R)} (he : e.Held n l H P) {g : Arr (Fl R)}
    (hg : g.IsVecShape n) (hne : g.flVec n ≠ 0) (kd : UpdateKind) {β : Fl R} {b0 : ℝ}
    (hkd : kd = .central ∧ b0 = 0 ∨ (kd = .bias ∨ kd = .q) ∧ b0 = β.val) (hb0 : 0 ≤ b0)
    (hw0 : 0 < w) (hw1 : w ≤ 1) (hb : b0 ≤ (1 - w) * √(e.kappa.val * (g.flVec n ⬝ᵥ (e.mq.flMat n *ᵥ g.flVec n))))
    (hθ : quadErr u n H l ≤ h) (hε0 : 0 ≤ ε) (hε1 : ε ≤ 1) (hsm : h * slabL n l H P w ≤ ε * (w / 2)) :
    ∃ e', Ell.space.update kd e (g, SingleCut.mk β) = .ok (.success, e') ∧
      e.CutTo n H (3 * ε) (3 / w ^ 4) (g.flVec n) {x | g.flVec n ⬝ᵥ (x - e.xc.flVec n) + b0 ≤ 0} e' := by
  have h0 := R.unit_nonneg
  have hu1 : u < 1 := by linarith
  have hn := he.dim
  have hn2 : (2 : ℝ) ≤ n := by exact_mod_cast hn
  have hl := he.low_pos
  have hlH := he.low_le
  have hH : 0 < H := by linarith
  have hκ := he.kappa
  have hP := (norm2_nonneg _).trans he.centre
  have h12 := quadErr_ge h0 hn hl hlH
  have hh0 : 0 ≤ h := by linarith
  obtain ⟨hE0, hF0, hnE, hEh, hh, -, hd2⟩ := slab_small hn hl hlH hP hw0 hw1 hε0 hε1 hh0 hsm
  have hBl : H / e.kappa.val / (l / e.kappa.val) = H / l := by field_simp
  obtain ⟨θ, hθd⟩ : ∃ θ, θ = quadErr u n H l := ⟨_, rfl⟩
  rw [← hθd] at hθ h12
  have hθ0 : 0 ≤ θ := by linarith
  obtain ⟨hηE, hqE⟩ := deepAny_params hn hl hlH hw0 hw1 hh0 hθ hE0
  obtain ⟨E, hEd⟩ : ∃ E, E = slabE n l H w := ⟨_, rfl⟩
  rw [← hEd] at hE0 hnE hEh hd2 hηE hqE
  have hEh0 : 0 ≤ E * h := mul_nonneg hE0 hh0
  obtain ⟨η, hη⟩ : ∃ η, η = 97 / 96 * deepLoss u n (H / e.kappa.val) (l / e.kappa.val) w := ⟨_, rfl⟩
  have hη1 : η = 194 * θ * (n * (H / l)) / w := by
    rw [hη]; unfold deepLoss; rw [he.err, hBl, ← hθd]; ring
  have hη0 : 0 ≤ η := by rw [hη1]; positivity
  rw [← hη1] at hηE
  obtain ⟨q, hq⟩ : ∃ q, q = 3 * θ / w := ⟨_, rfl⟩
  have hq0 : 0 ≤ q := by rw [hq]; positivity
  rw [← hq] at hqE
  have huh : 12 * u ≤ h := h12.trans hθ
  obtain ⟨e', c, p1, hc, p2, ⟨-, p3⟩, p4, p5, p6⟩ := C103_step_any_flag hu e (lam := l / e.kappa.val) (B := H / e.kappa.val) (γ := w)
    ⟨he.shaped, hn, he.helper, rfl, hκ, he.symm, div_pos hl hκ, he.low', he.ent'⟩ g hg hne kd β b0 hkd hb0 hw0 hw1 hb
    (by rw [← hη]; linarith)
  rw [← hη] at p2 p4 p6
  rw [he.err, ← hθd] at p2 p3 p4 p6
  rw [← hq] at p3 p4
  have hκ' : 0 < e'.kappa.val := p2.kappa
  have hM := he.posDef
  have hD0 : 0 < (e.kappa.val • e.mq.flMat n).det := (hM.smul hκ).det_pos
  have hp13 : 3 / 4 ≤ (1 - u) ^ 13 := by
    have := one_add_mul_le_pow (a := -u) (by linarith) 13
    push_cast at this
    have h5 : (1 + -u) ^ 13 = (1 - u) ^ 13 := by ring
    rw [h5] at this
    linarith
  refine ⟨e', p1, ⟨p2.shaped, p2.helper, hκ', posDef_of_lower p2.symm p2.lam_pos p2.lower, fun i j => ?_, ?_, p5, ?_⟩⟩
  · exact deep_entries hn2 hκ hκ' hc hH hp13 (by linarith) hθ0 (by linarith) (p2.entries i j) p3
  · have hV : 0 ≤ Real.exp (-(1 / ((n : ℝ) + 1))) * (e.kappa.val • e.mq.flMat n).det := by positivity
    have hpu : 0 < (1 - u) ^ (13 * n) := pow_sub_nonneg hu1 _
    have a1 := deepAny_volume (n := n) h0 (by linarith) hq0 hη0 hE0 hh0 hnE (by linarith) hε0 hε1
    have a2 := mul_le_mul_of_nonneg_right a1 hV
    have a3 := p4.trans a2
    rw [mul_assoc] at a3
    exact le_of_mul_le_mul_left a3 hpu
  · intro a ha0 ha1 x hx hxe
    have ht1 : 1 ≤ √(1 + a) := Real.one_le_sqrt.2 (by linarith)
    have htt : √(1 + a) ^ 2 = 1 + a := Real.sq_sqrt (by linarith)
    have b := p6 _ ht1 x (by rw [htt]; exact hxe) hx
    refine le_trans (show (x - _) ⬝ᵥ (_ *ᵥ (x - _)) ≤ _ from b) ?_
    refine mul_le_mul_of_nonneg_right ?_ hκ'.le
    -- the drift
    obtain ⟨ν, hν⟩ : ∃ ν, ν = deepDrift u n (H / e.kappa.val) (l / e.kappa.val) e.kappa.val (norm2 (e.xc.flVec n)) w := ⟨_, rfl⟩
    have hκl : e.kappa.val * (l / e.kappa.val) = l := by field_simp
    have hν1 : ν = 6 / w ^ 2 * (u * norm2 (e.xc.flVec n) / √l + 16 * θ * √(n * (H / l))) := by
      rw [hν]; unfold deepDrift; rw [he.err, hBl, hκl, ← hθd]
    have hX0 := norm2_nonneg (e.xc.flVec n)
    have hν0 : 0 ≤ ν := by rw [hν1]; positivity
    have hνF : ν ≤ h * slabF n l H P w / w := by
      rw [hν1]
      exact deep_drift_le hn2 hl hH hw0 hX0 he.centre h0 (by linarith) hθ0 hθ
    rw [← hν]
    unfold deepInflation
    rw [← hq]
    exact deep_keep hn2 hw0 hw1 ha0 ha1 h0 hu hE0 hh0 hν0 hνF hη0 hq0 hηE hqE hEh hh huh hε0 hε1 hd2

end Ellalgo
