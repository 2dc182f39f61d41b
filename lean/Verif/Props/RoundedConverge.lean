import Verif.Lib.FlConverge
import Verif.Props.RoundedDefer

/-! C104: the feasibility loop in rounded arithmetic finds a point of every fat feasible set, if the precision is high enough. -/

namespace Ellalgo
open Matrix
open scoped ComplexOrder
variable {u : ℝ} {R : Rounding u} {n : Nat} {p : Plan}

/-- what the numbers of a run satisfy when the ball is inside the first ellipsoid -/
structure Plan.Basics (n : Nat) (p : Plan) : Prop where
  dim : 2 ≤ n
  B0 : 0 < p.B
  κ0 : 0 < p.κ
  r0 : 0 < p.r
  P0 : 0 ≤ p.P
  rB : p.r ^ 2 ≤ p.κ * p.B

theorem Plan.Basics.of_ball {M : Matrix (Fin n) (Fin n) ℝ} {c m : Fin n → ℝ} (hn : 2 ≤ n) (hM : M.PosDef) (hB : ∀ i j, |M i j| ≤ p.B)
    (hκ : 0 < p.κ) (hr : 0 < p.r) (hP : norm2 m ≤ p.P) (hb : ball m p.r ⊆ ellipsoid M p.κ c) : Plan.Basics n p := by
  have i0 : Fin n := ⟨0, by omega⟩
  have h1 := ball_tsq hM hκ.le hr.le hb (Pi.single i0 1)
  have h2 : normSq (Pi.single i0 1 : Fin n → ℝ) = 1 := by simp [normSq]
  have h3 : (Pi.single i0 1 : Fin n → ℝ) ⬝ᵥ (M *ᵥ Pi.single i0 1) = M i0 i0 := by simp
  rw [h2, h3, mul_one] at h1
  have h4 := (le_abs_self _).trans (hB i0 i0)
  have h5 : p.r ^ 2 ≤ p.κ * p.B := h1.trans (mul_le_mul_of_nonneg_left h4 hκ.le)
  refine ⟨hn, ?_, hκ, hr, (norm2_nonneg m).trans hP, h5⟩
  by_contra h
  have := mul_nonpos_of_nonneg_of_nonpos hκ.le (not_lt.1 h)
  have : 0 < p.r ^ 2 := by positivity
  linarith

namespace Plan.Basics
variable (hb : Plan.Basics n p)
include hb

theorem low_pos (hz : 1 ≤ p.z) (ht : 1 ≤ p.t) : 0 < p.low := by
  have := hb.κ0
  have := hb.r0
  unfold Plan.low
  positivity

theorem low_le (hz : 1 ≤ p.z) (ht : 1 ≤ p.t) : p.low ≤ 2 * p.B := by
  have h1 : (1 : ℝ) ≤ p.z ^ p.N := one_le_pow₀ hz
  have h2 : (1 : ℝ) ≤ p.t ^ 2 := one_le_pow₀ ht
  have := hb.rB
  have := hb.κ0
  have := hb.B0
  unfold Plan.low
  rw [div_le_iff₀ (by positivity)]
  have a : p.κ * p.B ≤ p.z ^ p.N * (p.κ * p.B) := le_mul_of_one_le_left (by positivity) h1
  have b : p.z ^ p.N * (p.κ * p.B) ≤ p.t ^ 2 * (p.z ^ p.N * (p.κ * p.B)) := le_mul_of_one_le_left (by positivity) h2
  nlinarith

theorem reach_pos (hz : 1 ≤ p.z) : 0 < p.reach n := by
  have : (0 : ℝ) < n := by exact_mod_cast (by have := hb.dim; omega : 0 < n)
  have := hb.κ0
  have := hb.B0
  exact Real.sqrt_pos.2 (by positivity)

theorem reach_sq (hz : 1 ≤ p.z) : p.reach n ^ 2 = p.z ^ p.N * p.κ * (n * (2 * p.B)) := by
  have := hb.κ0
  have := hb.B0
  exact Real.sq_sqrt (by positivity)

variable (hp : p.EnoughPrecision n u) (h0 : 0 ≤ u)
include hp h0

theorem small : 0 ≤ p.err n u ∧ 96 * p.err n u ≤ p.γ ∧ 0 ≤ p.loss n u := by
  have hl : 97 / 96 * deepLoss u n (2 * p.B) p.low p.γ ≤ 1 / 2 := hp.loss
  obtain ⟨a, -, c, d⟩ := deepLoss_small h0 hb.dim (hb.low_pos hp.grow hp.infl) (hb.low_le hp.grow hp.infl) hp.gap_pos
    (by linarith : deepLoss u n (2 * p.B) p.low p.γ ≤ 1 / 2)
  exact ⟨a, c, mul_nonneg (by norm_num) d⟩

/-- the inflation is at least one -/
theorem inflated_ge (i : Nat) : 1 ≤ p.inflated n u i := by
  have hl := hb.low_pos hp.grow hp.infl
  have hρ := hb.reach_pos hp.grow
  have hγ := hp.gap_pos
  obtain ⟨he0, hθ, hη0⟩ := hb.small hp h0
  have hν0 : 0 ≤ p.drift n u := by
    unfold Plan.drift deepDrift Plan.far
    have : 0 ≤ quadErr u n (2 * p.B) p.low := he0
    have := hb.P0
    have := hp.infl
    positivity
  have hu := hp.unit
  have hη := hp.loss
  induction i with
  | zero => exact le_rfl
  | succ i ih =>
    unfold Plan.inflated at ih ⊢
    rw [Function.iterate_succ_apply']
    set t := (deepInflation u n (p.err n u) (p.loss n u) (p.drift n u) p.γ)^[i] 1
    have hq : 3 * p.err n u / p.γ ≤ 1 / 32 := by rw [div_le_iff₀ hγ]; linarith
    have hq0 : 0 ≤ 3 * p.err n u / p.γ := by positivity
    have hp13 : 0 < (1 - u) ^ 13 := pow_sub_nonneg (by linarith) 13
    have hp131 : (1 - u) ^ 13 ≤ 1 := pow_sub_le_one h0 (by linarith) 13
    have hden0 : 0 < (1 - p.loss n u) * ((1 - 3 * p.err n u / p.γ) * (1 - u) ^ 13) :=
      mul_pos (by linarith) (mul_pos (by linarith) hp13)
    have hden : √((1 - p.loss n u) * ((1 - 3 * p.err n u / p.γ) * (1 - u) ^ 13)) ≤ 1 := by
      rw [Real.sqrt_le_iff]
      refine ⟨zero_le_one, ?_⟩
      rw [one_pow]
      have a : (1 - 3 * p.err n u / p.γ) * (1 - u) ^ 13 ≤ 1 := by nlinarith
      have a0 : 0 ≤ (1 - 3 * p.err n u / p.γ) * (1 - u) ^ 13 := mul_nonneg (by linarith) hp13.le
      nlinarith
    unfold deepInflation
    rw [le_div_iff₀ (Real.sqrt_pos.2 hden0), one_mul]
    have : 0 ≤ (1 + 1 / (n : ℝ)) / p.γ ^ 2 * (t - 1) := mul_nonneg (by positivity) (by linarith)
    linarith

end Plan.Basics

theorem quadErr_mono_B {B B' lam : ℝ} (h0 : 0 ≤ u) (hl : 0 < lam) (h : B ≤ B') : quadErr u n B lam ≤ quadErr u n B' lam := by
  have h1 := one_le_pow₀ (n := 2 * n + 2) (by linarith : 1 ≤ 1 + u)
  unfold quadErr
  have h2 : (0 : ℝ) ≤ n := Nat.cast_nonneg n
  exact mul_le_mul_of_nonneg_left (mul_le_mul_of_nonneg_left (div_le_div_of_nonneg_right h hl.le) h2) (by linarith)

theorem deepLoss_mono {B B' lam γ : ℝ} (h0 : 0 ≤ u) (hl : 0 < lam) (hγ : 0 < γ) (hB : 0 ≤ B) (h : B ≤ B') :
    deepLoss u n B lam γ ≤ deepLoss u n B' lam γ := by
  have h1 := quadErr_mono_B (n := n) h0 hl h
  have h2 : (0 : ℝ) ≤ n := Nat.cast_nonneg n
  have h3 : (n : ℝ) * (B / lam) ≤ n * (B' / lam) := mul_le_mul_of_nonneg_left (div_le_div_of_nonneg_right h hl.le) h2
  have h4 : 0 ≤ quadErr u n B' lam := by
    have h1 := one_le_pow₀ (n := 2 * n + 2) (by linarith : 1 ≤ 1 + u)
    unfold quadErr
    have : 0 ≤ B' := hB.trans h
    exact mul_nonneg (by linarith) (by positivity)
  unfold deepLoss
  exact div_le_div_of_nonneg_right (mul_le_mul (by linarith) h3 (by positivity) (by linarith)) hγ.le

theorem deepDrift_mono {B' lam κ κ' X X' γ : ℝ} (h0 : 0 ≤ u) (hl : 0 < lam) (hκ : 0 < κ) (h : κ ≤ κ') (hX : X' ≤ X) (hX0 : 0 ≤ X') :
    deepDrift u n B' lam κ' X' γ ≤ deepDrift u n B' lam κ X γ := by
  have h1 : √(κ * lam) ≤ √(κ' * lam) := Real.sqrt_le_sqrt (mul_le_mul_of_nonneg_right h hl.le)
  have h2 : 0 < √(κ * lam) := Real.sqrt_pos.2 (mul_pos hκ hl)
  have h3 : u * X' / √(κ' * lam) ≤ u * X / √(κ * lam) :=
    div_le_div₀ (mul_nonneg h0 (hX0.trans hX)) (mul_le_mul_of_nonneg_left hX h0) h2 h1
  unfold deepDrift
  exact mul_le_mul_of_nonneg_left (by linarith) (by positivity)

theorem deepInflation_mono {θ η ν ν' γ t : ℝ} (hν0 : 0 ≤ ν) (hν : ν ≤ ν') (ht : 1 ≤ t) :
    0 ≤ deepInflation u n θ η ν γ t ∧ deepInflation u n θ η ν γ t ≤ deepInflation u n θ η ν' γ t := by
  have : 0 ≤ (1 + 1 / (n : ℝ)) / γ ^ 2 * (t - 1) := mul_nonneg (by positivity) (by linarith)
  unfold deepInflation
  exact ⟨div_nonneg (by linarith) (Real.sqrt_nonneg _), div_le_div_of_nonneg_right (by linarith) (Real.sqrt_nonneg _)⟩

theorem quadErr_scale {s B lam : ℝ} (hs : 0 < s) : quadErr u n (s * B) (s * lam) = quadErr u n B lam := by
  unfold quadErr
  rw [mul_div_mul_left _ _ hs.ne']

theorem deepLoss_scale {s B lam γ : ℝ} (hs : 0 < s) : deepLoss u n (s * B) (s * lam) γ = deepLoss u n B lam γ := by
  unfold deepLoss
  rw [quadErr_scale hs, mul_div_mul_left _ _ hs.ne']

theorem deepDrift_scale {s B lam κ X γ : ℝ} (hs : 0 < s) : deepDrift u n (s * B) (s * lam) κ X γ = deepDrift u n B lam (s * κ) X γ := by
  unfold deepDrift
  rw [quadErr_scale hs, mul_div_mul_left _ _ hs.ne', show κ * (s * lam) = s * κ * lam by ring]

/-- invariant of the loop after `i` cuts.  With `no_defer_trick` every update moves the size into the matrix, so the bounds on the entries
and on the size hold up to a common factor `s`. -/
structure Plan.Inv (n : Nat) (p : Plan) (D : ℝ) (m : Fin n → ℝ) (i : Nat) (e : Ell (Fl R)) : Prop where
  shaped : e.Shaped n
  dim : 2 ≤ n
  helper : e.helper = EllCalc.new n
  kappa : 0 < e.kappa.val
  pos : (e.mq.flMat n).PosDef
  scaled : ∃ s, 0 < s ∧ (∀ j k, |e.mq.flMat n j k| ≤ s * ((1 + 33 * p.err n u) ^ i * p.B)) ∧
    (p.γ / 2) ^ i * p.κ ≤ s * e.kappa.val ∧ s * e.kappa.val ≤ p.z ^ i * p.κ
  ball : ball m p.r ⊆ ellipsoid (e.mq.flMat n) (p.inflated n u i ^ 2 * e.kappa.val) (e.xc.flVec n)
  vol : (e.kappa.val • e.mq.flMat n).det ≤ Real.exp (-(i * p.ρ)) * D

variable {D : ℝ} {m : Fin n → ℝ} {i : Nat} {e : Ell (Fl R)}

/-- what the invariant says about the state -/
theorem Plan.Inv.facts (hb : Plan.Basics n p) (hp : p.EnoughPrecision n u) (hm : norm2 m ≤ p.P) (h : Plan.Inv n p D m i e) (hi : i ≤ p.N) :
    norm2 (e.xc.flVec n) ≤ p.far n ∧ p.inflated n u i ^ 2 ≤ p.t ^ 2 ∧ (e.mq.flMat n).IsSymm ∧ ∃ s, 0 < s ∧
      (∀ j k, |e.mq.flMat n j k| ≤ s * ((1 + 33 * p.err n u) ^ i * p.B)) ∧
      (p.γ / 2) ^ i * p.κ ≤ s * e.kappa.val ∧ s * e.kappa.val ≤ p.z ^ i * p.κ ∧
      (∀ j k, |e.mq.flMat n j k| ≤ s * (2 * p.B)) ∧ (1 + 33 * p.err n u) ^ i * p.B ≤ 2 * p.B ∧
      (∀ v : Fin n → ℝ, s * p.low * (v ⬝ᵥ v) ≤ v ⬝ᵥ (e.mq.flMat n *ᵥ v)) ∧ s * e.kappa.val ≤ p.z ^ p.N * p.κ := by
  have h0 := R.unit_nonneg
  obtain ⟨herr, -, -⟩ := hb.small hp h0
  have hT1 := hb.inflated_ge hp h0 i
  have hT2 := hp.inflated i hi
  have ht := hp.infl
  have hz := hp.grow
  have hB := hb.B0
  have hκ := hb.κ0
  obtain ⟨s, hs, hentries, hklow, hkhigh⟩ := h.scaled
  have hpow : (1 + 33 * p.err n u) ^ i * p.B ≤ 2 * p.B :=
    mul_le_mul_of_nonneg_right ((pow_le_pow_right₀ (by linarith) hi).trans hp.entries) hB.le
  have hent : ∀ j k, |e.mq.flMat n j k| ≤ s * (2 * p.B) := fun j k =>
    (hentries j k).trans (mul_le_mul_of_nonneg_left hpow hs.le)
  have hκN : s * e.kappa.val ≤ p.z ^ p.N * p.κ :=
    hkhigh.trans (mul_le_mul_of_nonneg_right (pow_le_pow_right₀ hz hi) hκ.le)
  have hT4 : p.inflated n u i ^ 2 ≤ p.t ^ 2 := pow_le_pow_left₀ (by linarith) hT2 2
  have hT0 : 0 < p.inflated n u i ^ 2 := by positivity
  have hK : p.inflated n u i ^ 2 * (s * e.kappa.val) ≤ p.t ^ 2 * (p.z ^ p.N * p.κ) :=
    mul_le_mul hT4 hκN (mul_pos hs h.kappa).le (by positivity)
  refine ⟨?_, hT4, ?_, s, hs, hentries, hklow, hkhigh, hent, hpow, fun v => ?_, hκN⟩
  · have hpin : m ∈ Ellalgo.ball m p.r := by
      show normSq (m - m) ≤ p.r ^ 2
      simp only [sub_self, normSq, dotProduct_zero]
      positivity
    have hρ := hb.reach_pos hz
    have h1 := ellipsoid_far h.pos (by positivity : 0 ≤ s * (2 * p.B)) hent (h.ball hpin) (ρ := p.t * p.reach n) (by positivity) (by
      rw [mul_pow, hb.reach_sq hz]
      have := mul_le_mul_of_nonneg_right hK (by positivity : (0 : ℝ) ≤ n * (2 * p.B))
      linarith)
    have h2 : norm2 (e.xc.flVec n) ≤ norm2 m + norm2 (m - e.xc.flVec n) := by
      have := norm2_sub_le (e.xc.flVec n) m
      rw [← norm2_neg (m - _), neg_sub]
      linarith
    unfold Plan.far
    linarith
  · have := h.pos.1
    rwa [IsHermitian, conjTranspose_eq_transpose_of_trivial] at this
  · have h1 := mul_le_mul_of_nonneg_left (ball_tsq h.pos (mul_pos hT0 h.kappa).le hb.r0.le h.ball v) hs.le
    have h2 : 0 ≤ v ⬝ᵥ (e.mq.flMat n *ᵥ v) := quad_nonneg h.pos v
    have h3 := mul_le_mul_of_nonneg_right hK h2
    have h4 : normSq v = v ⬝ᵥ v := rfl
    unfold Plan.low
    rw [← mul_div_assoc, div_mul_eq_mul_div, div_le_iff₀ (by positivity), ← h4]
    linarith

theorem Plan.scale_low {s c κ κ' γ K : ℝ} (hγ : 0 < γ) (hs : 0 < s) (h1 : (γ / 2) ^ i * K ≤ s * κ) (h2 : γ / 2 * κ ≤ c * κ') :
    (γ / 2) ^ (i + 1) * K ≤ s * c * κ' := by
  rw [pow_succ]
  have a := mul_le_mul_of_nonneg_left h1 (by linarith : 0 ≤ γ / 2)
  have := mul_le_mul_of_nonneg_left h2 hs.le
  linarith

theorem Plan.scale_high {s c κ κ' γ K z θ θ' q : ℝ} (hγ : 0 < γ) (hs : 0 < s) (hκ : 0 < κ) (hz : 1 ≤ z) (hq : 0 < q) (hn : 2 ≤ n)
    (hθ : θ' ≤ θ) (hg : (1 + 3 * θ / γ) * ((n : ℝ) * n / (n * n - 1)) ≤ q * z) (h1 : s * κ ≤ z ^ i * K)
    (h2 : q * (c * κ') ≤ (1 + 3 * θ' / γ) * (κ * ((n : ℝ) * n / (n * n - 1)))) :
    s * c * κ' ≤ z ^ (i + 1) * K := by
  have a := mul_le_mul_of_nonneg_right hg hκ.le
  have a2 : 1 + 3 * θ' / γ ≤ 1 + 3 * θ / γ := by
    have := div_le_div_of_nonneg_right (mul_le_mul_of_nonneg_left hθ (by norm_num : (0 : ℝ) ≤ 3)) hγ.le
    linarith
  have hn2 : (2 : ℝ) ≤ n := by exact_mod_cast hn
  have hf : 0 ≤ κ * ((n : ℝ) * n / (n * n - 1)) :=
    mul_nonneg hκ.le (div_nonneg (by positivity) (by nlinarith))
  have b : q * (c * κ') ≤ q * (z * κ) := by
    refine h2.trans ((mul_le_mul_of_nonneg_right a2 hf).trans (le_trans (le_of_eq ?_) (a.trans (le_of_eq ?_)))) <;> ring
  have d := mul_le_mul_of_nonneg_left (le_of_mul_le_mul_left b hq) hs.le
  have d2 := mul_le_mul_of_nonneg_left h1 (by linarith : 0 ≤ z)
  rw [pow_succ]
  linarith

theorem Plan.scale_entries {s c θ θ' B x : ℝ} (hs : 0 < s) (hc : 0 < c) (hB : 0 < B) (hθ0 : 0 ≤ θ) (hθ : θ' ≤ θ)
    (h : x ≤ c * ((1 + 33 * θ') * (s * ((1 + 33 * θ) ^ i * B)))) : x ≤ s * c * ((1 + 33 * θ) ^ (i + 1) * B) := by
  refine h.trans ?_
  have a := mul_le_mul_of_nonneg_right (by linarith : 1 + 33 * θ' ≤ 1 + 33 * θ) (by positivity : 0 ≤ s * ((1 + 33 * θ) ^ i * B))
  have := mul_le_mul_of_nonneg_left a hc.le
  rw [pow_succ]
  linarith

/-- one pass of the loop -/
theorem Plan.step_tsq (hb : Plan.Basics n p) (hp : p.EnoughPrecision n u) (hm : norm2 m ≤ p.P) (h : Plan.Inv n p D m i e)
    (hi : i < p.N) (g : Arr (Fl R)) (hg : g.IsVecShape n) (hne : g.flVec n ≠ 0) (kd : UpdateKind) (β : Fl R) (b : ℝ)
    (hkd : kd = .central ∧ b = 0 ∨ (kd = .bias ∨ kd = .q) ∧ b = β.val) (hβ : 0 ≤ b)
    (hcut : ∀ x ∈ ball m p.r, g.flVec n ⬝ᵥ (x - e.xc.flVec n) + b ≤ 0)
    (hdep : b = 0 ∨ p.γ ≤ 1 - p.t + 2 * (p.r / p.reach n)) :
    ∃ e', Ell.space.update kd e (g, SingleCut.mk β) = .ok (.success, e') ∧ Plan.Inv n p D m (i + 1) e' ∧
      p.r ^ 2 * normSq (g.flVec n) / (2 * p.t ^ 2) ≤ e'.tsq.val ∧
      (g.flVec n ⬝ᵥ (m - e.xc.flVec n)) ^ 2 / (2 * p.t ^ 2) ≤ e'.tsq.val := by
  have h0 := R.unit_nonneg
  have hB := hb.B0
  have hκ := hb.κ0
  have hz := hp.grow
  have ht := hp.infl
  obtain ⟨herr, herr2, hloss⟩ := hb.small hp h0
  have hT1 := hb.inflated_ge hp h0 i
  have hTg := hp.inflated i hi.le
  obtain ⟨hfar, hT4, hsymm, s, hs, hentries, hklow, hkhigh, hent, hpow, hlow, hκN⟩ := h.facts hb hp hm hi.le
  have hl := hb.low_pos hz ht
  have hγ0 := hp.gap_pos
  have hγ1 := hp.gap_le
  have hρ := hb.reach_pos hz
  have hω := quad_pos h.pos hne
  have hκe := h.kappa
  have hBi : 0 < (1 + 33 * p.err n u) ^ i * p.B := by positivity
  -- the depth of the cut
  have hdeep : b ≤ (1 - p.γ) * √(e.kappa.val * (g.flVec n ⬝ᵥ (e.mq.flMat n *ᵥ g.flVec n))) := by
    have hs := Real.sqrt_nonneg (e.kappa.val * (g.flVec n ⬝ᵥ (e.mq.flMat n *ᵥ g.flVec n)))
    rcases hdep with hdep | hdep
    · rw [hdep]
      exact mul_nonneg (by linarith) hs
    have hτ : √(e.kappa.val * (g.flVec n ⬝ᵥ (e.mq.flMat n *ᵥ g.flVec n))) ≤ p.reach n * norm2 (g.flVec n) := by
      rw [Real.sqrt_le_iff]
      refine ⟨mul_nonneg hρ.le (norm2_nonneg _), ?_⟩
      rw [mul_pow, hb.reach_sq hz, pow_two (norm2 _), norm2_sq]
      have h1 := mul_le_mul_of_nonneg_left (quad_le_entries (by positivity : 0 ≤ s * (2 * p.B)) hent (g.flVec n)) hκe.le
      have h2 : 0 ≤ (n : ℝ) * (2 * p.B) * (g.flVec n ⬝ᵥ g.flVec n) := mul_nonneg (by positivity) (dot_self_nonneg' _)
      have := mul_le_mul_of_nonneg_right hκN h2
      linarith
    have hd := ball_depth h.pos hb.r0.le hne hκe.le (by linarith) h.ball hcut
    have h1 : p.r / p.reach n * (p.reach n * norm2 (g.flVec n)) = p.r * norm2 (g.flVec n) := by
      field_simp
    have h2 := mul_le_mul_of_nonneg_left hτ (div_pos hb.r0 hρ).le
    have h3 := mul_le_mul_of_nonneg_right hTg hs
    have h4 := mul_le_mul_of_nonneg_right hdep hs
    linarith
  have hsl : 0 < s * p.low := by positivity
  have hL : 97 / 96 * deepLoss u n (s * (2 * p.B)) (s * p.low) p.γ = p.loss n u := by
    rw [deepLoss_scale hs]
    rfl
  have hQ : quadErr u n (s * (2 * p.B)) (s * p.low) = p.err n u := quadErr_scale hs
  obtain ⟨e', c, h1, hc, h2, -, h5, h6, h7⟩ := C103_step_any_flag hp.unit e
    ⟨h.shaped, h.dim, h.helper, rfl, hκe, hsymm, hsl, hlow, hent⟩ g hg hne kd β b hkd hβ hγ0 hγ1 hdeep (hL.le.trans hp.loss)
  obtain ⟨e'', c', h1', hc', h2', ⟨h3', h4'⟩, -⟩ := C103_step_any_flag hp.unit e
    ⟨h.shaped, h.dim, h.helper, rfl, hκe, hsymm, hsl, hlow, hentries⟩ g hg hne kd β b hkd hβ hγ0 hγ1 hdeep
    ((mul_le_mul_of_nonneg_left (deepLoss_mono h0 hsl hγ0 (by positivity) (mul_le_mul_of_nonneg_left hpow hs.le)) (by norm_num)).trans
      (hL.le.trans hp.loss))
  obtain rfl : e'' = e' := by
    rw [h1] at h1'
    simpa using h1'.symm
  rw [hL, hQ] at h2 h5 h7
  rw [deepDrift_scale hs] at h7
  have hκ' : 0 < e''.kappa.val := h2.kappa
  have hp13 : 0 < (1 - u) ^ 13 := pow_sub_nonneg (by linarith [hp.unit]) _
  have htsq : p.r ^ 2 * normSq (g.flVec n) / (2 * p.t ^ 2) ≤ e''.tsq.val := by
    have a := ball_tsq h.pos (mul_nonneg (sq_nonneg _) hκe.le) hb.r0.le h.ball (g.flVec n)
    have c := mul_le_mul_of_nonneg_right hT4 (mul_pos hκe hω).le
    have d := mul_le_mul_of_nonneg_left h6 (sq_nonneg p.t)
    rw [div_le_iff₀ (by positivity)]
    linarith
  have htsq2 : (g.flVec n ⬝ᵥ (m - e.xc.flVec n)) ^ 2 / (2 * p.t ^ 2) ≤ e''.tsq.val := by
    have hpin : m ∈ Ellalgo.ball m p.r := by
      show normSq (m - m) ≤ p.r ^ 2
      simp only [sub_self, normSq, dotProduct_zero]
      positivity
    have a := cs_inv h.pos (m - e.xc.flVec n) (g.flVec n)
    have a' : (m - e.xc.flVec n) ⬝ᵥ ((e.mq.flMat n)⁻¹ *ᵥ (m - e.xc.flVec n)) ≤ p.inflated n u i ^ 2 * e.kappa.val := h.ball hpin
    have a2 := mul_le_mul_of_nonneg_left a' hω.le
    have c := mul_le_mul_of_nonneg_right hT4 (mul_pos hκe hω).le
    have d := mul_le_mul_of_nonneg_left h6 (sq_nonneg p.t)
    rw [div_le_iff₀ (by positivity)]
    linarith
  have hQ' : quadErr u n (s * ((1 + 33 * p.err n u) ^ i * p.B)) (s * p.low) ≤ p.err n u := by
    rw [quadErr_scale hs]
    exact quadErr_mono_B h0 hl hpow
  refine ⟨e'', h1, ⟨h2.shaped, h2.dim, h2.helper, hκ', posDef_of_lower h2.symm h2.lam_pos h2.lower,
    ⟨s * c', mul_pos hs hc', fun j k => Plan.scale_entries hs hc' hB herr hQ' (h2'.entries j k), Plan.scale_low hγ0 hs hklow h3',
      Plan.scale_high hγ0 hs hκe hz hp13 h.dim hQ' hp.growth hkhigh h4'⟩, ?_, ?_⟩, htsq, htsq2⟩
  · intro x hx
    have a := h7 _ hT1 x (h.ball hx) (hcut x hx)
    have hκm : (p.γ / 2) ^ p.N * p.κ ≤ s * e.kappa.val := by
      refine le_trans (mul_le_mul_of_nonneg_right ?_ hκ.le) hklow
      exact pow_le_pow_of_le_one (by linarith) (by linarith) hi.le
    have hκm0 : 0 < (p.γ / 2) ^ p.N * p.κ := by positivity
    have hν := deepDrift_mono (n := n) (B' := 2 * p.B) (γ := p.γ) h0 hl hκm0 hκm hfar (norm2_nonneg _)
    have hν0 : 0 ≤ deepDrift u n (2 * p.B) p.low (s * e.kappa.val) (norm2 (e.xc.flVec n)) p.γ := by
      have : 0 ≤ quadErr u n (2 * p.B) p.low := herr
      have := norm2_nonneg (e.xc.flVec n)
      unfold deepDrift
      positivity
    obtain ⟨m0, m1⟩ := deepInflation_mono (u := u) (n := n) (θ := p.err n u) (η := p.loss n u) (γ := p.γ) hν0 hν hT1
    have hit : p.inflated n u (i + 1) = deepInflation u n (p.err n u) (p.loss n u) (p.drift n u) p.γ (p.inflated n u i) := by
      unfold Plan.inflated
      rw [Function.iterate_succ_apply']
    rw [hit]
    have m2 := mul_le_mul_of_nonneg_right (pow_le_pow_left₀ m0 m1 2) hκ'.le
    exact le_trans a m2
  · have hdet0 : 0 < (e.kappa.val • e.mq.flMat n).det := (h.pos.smul hκe).det_pos
    have hq : 0 < (1 - u) ^ (13 * n) := pow_sub_nonneg (by linarith [hp.unit]) _
    have a : (e''.kappa.val • e''.mq.flMat n).det ≤ Real.exp (-p.ρ) * (e.kappa.val • e.mq.flMat n).det := by
      have b := mul_le_mul_of_nonneg_right hp.volume (mul_pos (Real.exp_pos (-(1 / ((n : ℝ) + 1)))) hdet0).le
      have c := h5.trans b
      have d : (1 - u) ^ (13 * n) * Real.exp (1 / ((n : ℝ) + 1) - p.ρ) *
          (Real.exp (-(1 / ((n : ℝ) + 1))) * (e.kappa.val • e.mq.flMat n).det) =
          (1 - u) ^ (13 * n) * (Real.exp (-p.ρ) * (e.kappa.val • e.mq.flMat n).det) := by
        have : Real.exp (-p.ρ) = Real.exp (1 / ((n : ℝ) + 1) - p.ρ) * Real.exp (-(1 / ((n : ℝ) + 1))) := by
          rw [← Real.exp_add]
          congr 1
          ring
        rw [this]
        ring
      rw [d] at c
      exact le_of_mul_le_mul_left c hq
    refine a.trans ((mul_le_mul_of_nonneg_left h.vol (Real.exp_pos _).le).trans (le_of_eq ?_))
    rw [← mul_assoc, ← Real.exp_add]
    congr 2
    push_cast
    ring

theorem Plan.step (hb : Plan.Basics n p) (hp : p.EnoughPrecision n u) (hm : norm2 m ≤ p.P) (h : Plan.Inv n p D m i e)
    (hi : i < p.N) (g : Arr (Fl R)) (hg : g.IsVecShape n) (hne : g.flVec n ≠ 0) (kd : UpdateKind) (β : Fl R) (b : ℝ)
    (hkd : kd = .central ∧ b = 0 ∨ (kd = .bias ∨ kd = .q) ∧ b = β.val) (hβ : 0 ≤ b)
    (hcut : ∀ x ∈ ball m p.r, g.flVec n ⬝ᵥ (x - e.xc.flVec n) + b ≤ 0)
    (hdep : b = 0 ∨ p.γ ≤ 1 - p.t + 2 * (p.r / p.reach n)) :
    ∃ e', Ell.space.update kd e (g, SingleCut.mk β) = .ok (.success, e') ∧ Plan.Inv n p D m (i + 1) e' ∧
      p.r ^ 2 * normSq (g.flVec n) / (2 * p.t ^ 2) ≤ e'.tsq.val := by
  obtain ⟨e', h1, h2, h3, -⟩ := Plan.step_tsq hb hp hm h hi g hg hne kd β b hkd hβ hcut hdep
  exact ⟨e', h1, h2, h3⟩

/-- the number of cuts that suffices in rounded arithmetic -/
theorem Plan.bound (hb : Plan.Basics n p) (hp : p.EnoughPrecision n u) (hm : norm2 m ≤ p.P) (h : Plan.Inv n p D m i e)
    (hi : i ≤ p.N) : (i : ℝ) * p.ρ ≤ Real.log ((p.t ^ 2) ^ n * D / (p.r ^ 2) ^ n) := by
  have h0 := R.unit_nonneg
  have hT1 := hb.inflated_ge hp h0 i
  have hT4 := (h.facts hb hp hm hi).2.1
  have hT0 : 0 < p.inflated n u i ^ 2 := by positivity
  have h1 := ball_det h.pos (mul_pos hT0 h.kappa) hb.r0.le h.ball
  have hdet0 : 0 < (e.kappa.val • e.mq.flMat n).det := (h.pos.smul h.kappa).det_pos
  have h2 : (p.inflated n u i ^ 2) ^ n ≤ (p.t ^ 2) ^ n := pow_le_pow_left₀ hT0.le hT4 n
  rw [mul_smul, det_smul, Fintype.card_fin] at h1
  have h3 := h1.trans (mul_le_mul h2 h.vol hdet0.le (by positivity))
  have hr := hb.r0
  have ht := hp.infl
  have hrn : 0 < (p.r ^ 2) ^ n := by positivity
  have hD : 0 < D := by
    have := hdet0.trans_le h.vol
    exact (mul_pos_iff_of_pos_left (Real.exp_pos _)).1 this
  have hx : 0 < (p.t ^ 2) ^ n * D / (p.r ^ 2) ^ n := by positivity
  have h4 : Real.exp ((i : ℝ) * p.ρ) ≤ (p.t ^ 2) ^ n * D / (p.r ^ 2) ^ n := by
    rw [le_div_iff₀ hrn]
    have := mul_le_mul_of_nonneg_left h3 (Real.exp_pos ((i : ℝ) * p.ρ)).le
    refine this.trans (le_of_eq ?_)
    rw [Real.exp_neg]
    have := (Real.exp_pos ((i : ℝ) * p.ρ)).ne'
    field_simp
  exact (Real.le_log_iff_exp_le hx).2 h4

variable {Ω : Type}

theorem feas_fl_loop (orc : OracleFeas Ω (Arr (Fl R)) (SingleCut (Fl R)) (Fl R)) (I : Ω → Prop) (K : Set (Fin n → ℝ)) (G : ℝ)
    (hb : Plan.Basics n p) (hp : p.EnoughPrecision n u) (hm : norm2 m ≤ p.P) (hor : FlHonest n orc I K G (p.far n))
    (hdep : OnlyCentral orc ∨ p.γ ≤ 1 - p.t + 2 * (p.r / p.reach n))
    (hK : ball m p.r ⊆ K) (tol : Fl R) (htol : tol.val ≤ p.r ^ 2 * G ^ 2 / (2 * p.t ^ 2))
    (hN : Real.log ((p.t ^ 2) ^ n * D / (p.r ^ 2) ^ n) < p.N * p.ρ) (j : Nat) :
    ∀ (i k : Nat) (w : Ω) (e : Ell (Fl R)), i + j = p.N → j ≤ k → I w → Plan.Inv n p D m i e →
      ∃ x l w1 w' e', feasLoop orc Ell.space tol k i w e = .ok ((some x, l), w', e') ∧
        orc.assess w1 x = .ok (none, w') ∧ I w1 ∧ x.IsVecShape n ∧
        (l : ℝ) * p.ρ ≤ Real.log ((p.t ^ 2) ^ n * D / (p.r ^ 2) ^ n) := by
  induction j with
  | zero =>
    intro i k w e hij _ _ h
    obtain rfl : i = p.N := by omega
    have := Plan.bound hb hp hm h le_rfl
    linarith
  | succ j ih =>
    intro i k w e hij hk hI h
    obtain ⟨k, rfl⟩ : ∃ k', k = k' + 1 := ⟨k - 1, by omega⟩
    have hi : i < p.N := by omega
    obtain ⟨ans, w', hq, hI', hcut⟩ := hor w e.xc hI h.shaped.2 (h.facts hb hp hm hi.le).1
    have hq' : orc.assess w (Ell.space (T := SingleCut (Fl R)).xc e) = .ok (ans, w') := hq
    unfold feasLoop
    rw [hq']
    cases ans with
    | none => exact ⟨e.xc, i, w, w', e, rfl, hq, hI, h.shaped.2, Plan.bound hb hp hm h hi.le⟩
    | some c =>
      obtain ⟨g, ⟨β⟩⟩ := c
      obtain ⟨hs, hg, hG, hβ, hsat⟩ := hcut g β rfl
      obtain ⟨e', hu, hv, htsq⟩ := Plan.step hb hp hm h hi g hs hg .bias β _ (.inr ⟨.inl rfl, rfl⟩) hβ (fun y hy => hsat y (hK hy))
        (hdep.imp (fun hc => hc _ _ _ _ _ hq) id)
      have hu' : Ell.space.updateBias e (g, SingleCut.mk β) = .ok (.success, e') := hu
      have hlt : Scalar.lt (Ell.space (T := SingleCut (Fl R)).tsq e') tol = false := by
        have : tol.val ≤ e'.tsq.val := by
          have := mul_le_mul_of_nonneg_left hG (sq_nonneg p.r)
          have ht := hp.infl
          refine htol.trans (le_trans ?_ htsq)
          exact div_le_div_of_nonneg_right this (by positivity)
        exact decide_eq_false (not_lt.2 this)
      obtain ⟨x, l, w1, w2, e2, h1, h2⟩ := ih (i + 1) k w' e' (by omega) (by omega) hI' hv
      refine ⟨x, l, w1, w2, e2, ?_, h2⟩
      simp only [Res.ok_bind, hu', hlt]
      exact h1

/-- **C104**.  The feasibility loop in rounded arithmetic.  The oracle is honest for a set `K` with a ball of radius `r` inside the
first ellipsoid, whose matrix is positive definite with entries at most `B`; its gradients are not too small for the tolerance.  The
plan `p` fixes the numbers of the run: its cuts are central or its `γ` is at most `1 - t + 2r/reach`, `N ρ > ln(t^(2n) det(κM) / r^(2n))`,
`max_iters` is at least `N` and the unit roundoff is small enough.  Then `cutting_plane_feas` returns a point that the oracle accepted,
after at most `ln(t^(2n) det(κM) / r^(2n)) / ρ` cuts. -/
theorem C104_feas_converges (orc : OracleFeas Ω (Arr (Fl R)) (SingleCut (Fl R)) (Fl R)) (I : Ω → Prop) (K : Set (Fin n → ℝ))
    (G : ℝ) (m : Fin n → ℝ) (w : Ω) (e : Ell (Fl R)) (opts : Options (Fl R)) (p : Plan)
    (he : e.Shaped n) (hn : 2 ≤ n) (hh : e.helper = EllCalc.new n) (hκ : 0 < e.kappa.val)
    (hM : (e.mq.flMat n).PosDef) (hB : ∀ i j, |e.mq.flMat n i j| ≤ p.B) (hr : 0 < p.r) (hK : ball m p.r ⊆ K)
    (hE : ball m p.r ⊆ ellipsoid (e.mq.flMat n) e.kappa.val (e.xc.flVec n)) (hw : I w)
    (hpκ : p.κ = e.kappa.val) (hpP : norm2 m ≤ p.P) (hor : FlHonest n orc I K G (p.far n))
    (hdep : OnlyCentral orc ∨ p.γ ≤ 1 - p.t + 2 * (p.r / p.reach n))
    (htol : opts.tolerance.val ≤ p.r ^ 2 * G ^ 2 / (2 * p.t ^ 2))
    (hN : Real.log ((p.t ^ 2) ^ n * (e.kappa.val • e.mq.flMat n).det / (p.r ^ 2) ^ n) < p.N * p.ρ) (hit : p.N ≤ opts.maxIters)
    (hu : p.EnoughPrecision n u) :
    ∃ x k w1 w' e', cuttingPlaneFeas orc Ell.space w e opts = .ok ((some x, k), w', e') ∧
      orc.assess w1 x = .ok (none, w') ∧ I w1 ∧ x.IsVecShape n ∧
      (k : ℝ) * p.ρ ≤ Real.log ((p.t ^ 2) ^ n * (e.kappa.val • e.mq.flMat n).det / (p.r ^ 2) ^ n) :=
  feas_fl_loop orc I K G (Plan.Basics.of_ball hn hM hB (hpκ ▸ hκ) hr hpP (hpκ ▸ hE)) hu hpP hor hdep hK opts.tolerance htol hN p.N 0
    opts.maxIters w e (by omega) hit hw
    ⟨he, hn, hh, hκ, hM, ⟨1, one_pos, by simpa using hB, by simp [hpκ], by simp [hpκ]⟩, by simpa [Plan.inflated] using hE, by simp⟩

end Ellalgo
