import Verif.Lib.CutFlStep
import Verif.Props.StableRounded

/-! C103: in rounded arithmetic a cut of a well-conditioned ellipsoid loses nothing beyond a stated inflation. -/

namespace Ellalgo
open Matrix
open scoped ComplexOrder
variable {u : ℝ} {R : Rounding u} {n : Nat}

/-- a relative error of `k` roundings, linearised -/
theorem Near.abs_lin (h0 : 0 ≤ u) {k : ℕ} (hk : k * u ≤ 1 / 4) (hu : u < 1) {x y : ℝ} (hy : 0 ≤ y) (h : Near u k x y) :
    |x - y| ≤ 4 / 3 * (k * u) * y := by
  refine (h.abs_le' h0 hu hy (by linarith)).trans (mul_le_mul_of_nonneg_right ?_ hy)
  have hk0 : 0 ≤ (k : ℝ) * u := by positivity
  rw [div_le_iff₀ (by linarith)]
  nlinarith

/-- the parameters of a central cut, as computed -/
theorem central_params (hu : u ≤ 1 / 64) (hn : 2 ≤ n) {κ ω : Fl R} (hκ : 0 < κ.val) (hω : 0 < ω.val) :
    Near u 5 (((EllCalcCore.new (Nat.cast n : Fl R)).calcCentralCut (κ * ω)).1.val / √ω.val) (√κ.val / (n + 1)) := by
  have hu1 : u < 1 := by linarith
  have h0 := R.unit_nonneg
  have hW : 0 < √ω.val := Real.sqrt_pos.2 hω
  have h1 : Near u 1 (κ * ω).val (κ.val * ω.val) := Near.rnd (R := R) hu1 (by positivity)
  have h2 : Near u 2 (Scalar.sqrt (κ * ω)).val (√κ.val * √ω.val) := by
    have := (h1.sqrt h0 hu1).round (R := R) hu1 (Real.sqrt_nonneg _)
    rwa [Real.sqrt_mul hκ.le] at this
  have h3 : Near u 5 (Scalar.sqrt (κ * ω) / (EllCalcCore.new (Nat.cast n : Fl R)).nPlus1).val (√κ.val * √ω.val / (n + 1)) :=
    (h2.div hu1 (by positivity) (by positivity) (nPlus1_near R hu hn)).round hu1 (by positivity)
  have h4 := h3.div hu1 (by positivity) hW (Near.of_eq (rfl : √ω.val = √ω.val))
  have e : √κ.val * √ω.val / ((n : ℝ) + 1) / √ω.val = √κ.val / (n + 1) := by field_simp
  rw [e] at h4
  exact h4

/-- the growth of the inflation of a central cut in exact arithmetic -/
theorem central_growth {N t : ℝ} (hN : 1 < N) :
    t ^ 2 - 1 + N * N / (N * N - 1) + 2 * (1 / (N + 1)) / (1 - 2 * (1 / (N + 1))) * (t * (t - 1)) =
      N * N / (N * N - 1) * (t + (t - 1) / N) ^ 2 := by
  have h1 : N * N - 1 ≠ 0 := by nlinarith
  have h2 : N + 1 ≠ 0 := by linarith
  have h3 : N - 1 ≠ 0 := by linarith
  have h4 : N ≠ 0 := by linarith
  have e : 1 - 2 * (1 / (N + 1)) = (N - 1) / (N + 1) := by field_simp; ring
  have e2 : N * N - 1 = (N - 1) * (N + 1) := by ring
  rw [e, e2]
  field_simp
  ring

/-- from the bound in exact terms to the inflation factor -/
theorem inflation_bound {κ δ κ' η ν t D : ℝ} (hu1 : u < 1) (hn : 2 ≤ n) (hκ : 0 < κ) (hδ1 : 1 ≤ δ) (hη : η ≤ 1 / 2)
    (hκδ : (1 - u) ^ 11 * (κ * δ) ≤ κ') (hν0 : 0 ≤ ν) (hD : D = √κ * ν) (ht : 1 ≤ t) :
    (√(κ * (δ * (t + (t - 1) / n) ^ 2)) + D) ^ 2 / (1 - η) ≤ inflation u n η ν t ^ 2 * κ' := by
  have hn2 : (2 : ℝ) ≤ n := by exact_mod_cast hn
  have ht' : 0 ≤ t + (t - 1) / n := by
    have : 0 ≤ (t - 1) / (n : ℝ) := div_nonneg (by linarith) (by linarith)
    linarith
  have hp : 0 < (1 - u) ^ 11 := pow_sub_nonneg hu1 11
  have hη1 : 0 < 1 - η := by linarith
  have hκδ0 : 0 ≤ κ * δ := by nlinarith
  rw [inflation, div_pow, Real.sq_sqrt (by positivity)]
  have e1 : √(κ * (δ * (t + (t - 1) / n) ^ 2)) = √(κ * δ) * (t + (t - 1) / n) := by
    rw [← mul_assoc, Real.sqrt_mul hκδ0, Real.sqrt_sq ht']
  have e2 : D ≤ √(κ * δ) * ν := by
    rw [hD]
    refine mul_le_mul_of_nonneg_right (Real.sqrt_le_sqrt ?_) hν0
    nlinarith
  have hD0 : 0 ≤ D := by rw [hD]; positivity
  have e3 : (√(κ * (δ * (t + (t - 1) / n) ^ 2)) + D) ^ 2 ≤ κ * δ * (t + (t - 1) / n + ν) ^ 2 := by
    rw [e1]
    calc _ ≤ (√(κ * δ) * (t + (t - 1) / n + ν)) ^ 2 := by
          refine pow_le_pow_left₀ (by positivity) ?_ 2
          rw [mul_add]; linarith
      _ = _ := by rw [mul_pow, Real.sq_sqrt hκδ0]
  have e4 : κ * δ ≤ κ' / (1 - u) ^ 11 := by
    rw [le_div_iff₀ hp, mul_comm]; exact hκδ
  calc _ ≤ κ * δ * (t + (t - 1) / n + ν) ^ 2 / (1 - η) := div_le_div_of_nonneg_right e3 hη1.le
    _ ≤ κ' / (1 - u) ^ 11 * (t + (t - 1) / n + ν) ^ 2 / (1 - η) :=
        div_le_div_of_nonneg_right (mul_le_mul_of_nonneg_right e4 (sq_nonneg _)) hη1.le
    _ = _ := by field_simp

theorem cutDrift_nonneg {B lam κ X : ℝ} (h0 : 0 ≤ u) (hθ : 0 ≤ quadErr u n B lam) (hX : 0 ≤ X) :
    0 ≤ cutDrift u n B lam κ X := by
  unfold cutDrift
  positivity

theorem cutDrift_eq {B lam κ X : ℝ} (hκ : 0 < κ) (hl : 0 < lam) (hB0 : 0 < B) :
    √κ * cutDrift u n B lam κ X = 2 * (u * X + √n * (4 * quadErr u n B lam * (√κ * √B))) / √lam := by
  have hk0 : 0 < √κ := Real.sqrt_pos.2 hκ
  have hl0 : 0 < √lam := Real.sqrt_pos.2 hl
  rw [cutDrift, Real.sqrt_mul hκ.le, Real.sqrt_mul (by positivity), Real.sqrt_div hB0.le]
  field_simp
  ring

/-- the drift in the units `rounded_cut` asks for -/
theorem drift_bound {Y lam q D : ℝ} (hl : 0 < lam) (hq : 1 / 3 ≤ q) (hD : D = 2 * Y / √lam) :
    Y ^ 2 ≤ D ^ 2 * (q * lam) := by
  rw [hD, div_pow, Real.sq_sqrt hl.le]
  have : (2 * Y) ^ 2 / lam * (q * lam) = 4 * Y ^ 2 * q := by
    field_simp; ring
  rw [this]
  have hY : 0 ≤ Y ^ 2 := sq_nonneg _
  nlinarith

theorem loss_bound {θ B lam q : ℝ} (hl : 0 < lam) (hq : 1 / 3 ≤ q) (hθ : 0 ≤ θ) (hB : 0 ≤ B) :
    8 * θ * B * n ≤ 24 * θ * (n * (B / lam)) * (q * lam) := by
  have : 24 * θ * (n * (B / lam)) * (q * lam) = 24 * θ * n * B * q := by
    field_simp
  rw [this]
  have h1 : 0 ≤ 24 * θ * n * B := by positivity
  have := mul_le_mul_of_nonneg_left hq h1
  nlinarith

/-- the central cut, before the inflation factor is brought into its final form -/
theorem central_core {lam B θ η D : ℝ} (hu : u ≤ 1 / 64) {e : Ell (Fl R)} (he : e.Conditioned n lam B) {g : Arr (Fl R)}
    (hg : g.IsVecShape n) (hne : g.flVec n ≠ 0) (c : SingleCut (Fl R)) (hθd : quadErr u n B lam = θ) (hθ : θ ≤ 1 / 96)
    (hB0 : 0 < B) (h12 : 12 * u ≤ θ) (hηd : η = 24 * θ * (n * (B / lam))) (hη : η ≤ 1 / 2) (hD0 : 0 ≤ D)
    (hDe : D = 2 * (u * norm2 (e.xc.flVec n) + √n * (4 * θ * (√e.kappa.val * √B))) / √lam) :
    ∃ e', Ell.space.update .central e (g, c) = .ok (.success, e') ∧ e'.Shaped n ∧ e'.helper = e.helper ∧ e'.noDeferTrick = false ∧
      e'.kappa = e.kappa * (EllCalcCore.new (Nat.cast n : Fl R)).cst1 ∧ (e'.mq.flMat n).IsSymm ∧
      (∀ v : Fin n → ℝ, (1 - η) * ((n - 1) / (n + 1)) * lam * (v ⬝ᵥ v) ≤ v ⬝ᵥ (e'.mq.flMat n *ᵥ v)) ∧
      (∀ i j, |e'.mq.flMat n i j| ≤ (1 + 8 * θ) * B) ∧
      (e'.mq.flMat n).det ≤ (1 + η) ^ n * ((1 - 2 * (1 / ((n : ℝ) + 1))) * (e.mq.flMat n).det) ∧
      (1 - u) * (1 - θ) ^ 2 * (e.kappa.val * (g.flVec n ⬝ᵥ (e.mq.flMat n *ᵥ g.flVec n))) ≤ e'.tsq.val ∧
      ∀ t, 1 ≤ t → ∀ x ∈ ellipsoid (e.mq.flMat n) (t ^ 2 * e.kappa.val) (e.xc.flVec n),
        g.flVec n ⬝ᵥ (x - e.xc.flVec n) + 0 ≤ 0 →
        x ∈ ellipsoid (e'.mq.flMat n)
          ((√(e.kappa.val * (n * n / (n * n - 1) * (t + (t - 1) / n) ^ 2)) + D) ^ 2 / (1 - η)) (e'.xc.flVec n) := by
  have h0 := R.unit_nonneg
  have hu1 : u < 1 := by linarith
  have hn := he.dim
  have hn2 : (2 : ℝ) ≤ n := by exact_mod_cast hn
  have hl := he.lam_pos
  have hκ := he.kappa
  have hM := posDef_of_lower he.symm hl he.lower
  have hω0 := quad_pos hM hne
  have hθ0 : 0 ≤ θ := by linarith
  have hη0 : 0 ≤ η := by rw [hηd]; positivity
  obtain ⟨hωh0, hWd, -⟩ := dir_err (R := R) e.mq.mat g.vec (M := e.mq.flMat n) (fun _ _ => rfl) hn he.symm hl he.lower he.entries
    (by linarith) (G := g.flVec n) rfl hne
  obtain ⟨ω, hωd⟩ : ∃ ω, ω = g.flVec n ⬝ᵥ (e.mq.flMat n *ᵥ g.flVec n) := ⟨_, rfl⟩
  rw [← hωd] at hω0 hWd ⊢
  rw [hθd] at hWd
  obtain ⟨τ, hτ⟩ : ∃ τ, τ = √(e.kappa.val * ω) := ⟨_, rfl⟩
  have hk0 : 0 < √e.kappa.val := Real.sqrt_pos.2 hκ
  have hW0 : 0 < √ω := Real.sqrt_pos.2 hω0
  have hτ0 : 0 < τ := hτ ▸ Real.sqrt_pos.2 (mul_pos hκ hω0)
  have hττ : τ * τ = e.kappa.val * ω := hτ ▸ Real.mul_self_sqrt (mul_pos hκ hω0).le
  have hτk : τ = √e.kappa.val * √ω := hτ ▸ Real.sqrt_mul hκ.le _
  have hgood := goodCut_central (n := (n : ℝ)) (τ := τ) (by linarith) hτ0
  rw [hττ] at hgood
  have es : 1 - 2 * (1 / ((n : ℝ) + 1)) = (n - 1) / (n + 1) := by field_simp; ring
  have hs3 : 1 / 3 ≤ ((n : ℝ) - 1) / (n + 1) := by
    rw [div_le_div_iff₀ (by norm_num) (by linarith)]; linarith
  have hcall : CutType.call .central c e.helper (e.kappa * Ell.om n e.mq.mat g.vec) = (.success,
      (EllCalcCore.new (Nat.cast n : Fl R)).calcCentralCut (e.kappa * Ell.om n e.mq.mat g.vec)) := by
    rw [he.helper]; rfl
  have hinv : 1 / ((n : ℝ) + 1) ≤ 1 / 3 := one_div_le_one_div_of_le (by norm_num) (by linarith)
  have hρ : |((EllCalcCore.new (Nat.cast n : Fl R)).calcCentralCut (e.kappa * Ell.om n e.mq.mat g.vec)).1.val /
      √(Ell.om n e.mq.mat g.vec).val - τ / (n + 1) / √ω| ≤ 5 * u * √e.kappa.val := by
    have : τ / ((n : ℝ) + 1) / √ω = √e.kappa.val / (n + 1) := by rw [hτk]; field_simp
    rw [this]
    refine ((central_params hu hn hκ hωh0).abs_lin h0 (by push_cast; linarith) hu1 (by positivity)).trans ?_
    push_cast
    rw [div_eq_mul_one_div √e.kappa.val]
    have := mul_le_mul_of_nonneg_left hinv hk0.le
    have h2 := mul_le_mul_of_nonneg_left this (by linarith : 0 ≤ 4 / 3 * (5 * u))
    have : 0 ≤ u * √e.kappa.val := by positivity
    linarith
  have hσ : |(EllCalcCore.new (Nat.cast n : Fl R)).cst2.val - 2 * (1 / ((n : ℝ) + 1))| ≤ 5 * u := by
    refine ((cst2_near R hu hn).abs_lin h0 (by push_cast; linarith) hu1 (by positivity)).trans ?_
    push_cast
    nlinarith
  obtain ⟨e', h1, h2, h3, h4, h5, h6, h7, h8, h8d, h8t, h9⟩ := Ell.rounded_cut (R := R) he.shaped hn he.noDefer hκ he.symm hl he.lower
    he.entries hg hne (CutType.call .central c e.helper) hcall (ω := ω) (τ := τ) (β := 0) (ζ₁ := 5 * u) (ζ := θ)
    (η := η) (D := D) hωd hτ hgood le_rfl (by positivity) (by rw [div_le_iff₀ (by positivity)]; nlinarith) hρ hσ
    (by linarith) (by linarith) hθd.le (by linarith) hη0 (by linarith)
    (by rw [es, hηd]; exact loss_bound hl hs3 hθ0 hB0.le) hD0
    (by rw [es]; exact drift_bound hl hs3 hDe)
  rw [es] at h7
  refine ⟨e', h1, h2, h3, h4, h5, h6, h7, h8, h8d, ?_, fun t ht x hx hcut => ?_⟩
  · rw [h8t]
    have a : Near u 1 (e.kappa * Ell.om n e.mq.mat g.vec).val (e.kappa.val * (Ell.om n e.mq.mat g.vec).val) :=
      Near.rnd (R := R) hu1 (by positivity)
    have a1 := a.1
    rw [pow_one] at a1
    refine le_trans ?_ a1
    have b : (1 - θ) * √ω ≤ √(Ell.om n e.mq.mat g.vec).val := by
      have := (abs_le.1 hWd).1
      linarith
    have b2 := pow_le_pow_left₀ (mul_nonneg (by linarith) hW0.le) b 2
    rw [mul_pow, Real.sq_sqrt hω0.le, Real.sq_sqrt hωh0.le] at b2
    have b3 := mul_le_mul_of_nonneg_left b2 hκ.le
    have b4 := mul_le_mul_of_nonneg_left b3 (by linarith : 0 ≤ 1 - u)
    linarith
  have hmem := h9 t ht x hx hcut
  rw [central_growth (by linarith)] at hmem
  exact hmem

/-- the volume after a central cut -/
theorem central_volume_fl {κ κ' η D D' : ℝ} (hn : 2 ≤ n) (hu1 : u < 1) (hκ : 0 < κ)
    (hκ' : 0 ≤ κ') (hη : 0 ≤ 1 + η) (hD : 0 ≤ D) (hD' : 0 ≤ D')
    (h5 : (1 - u) ^ 11 * κ' ≤ κ * ((n : ℝ) * n / (n * n - 1)))
    (h8 : D' ≤ (1 + η) ^ n * ((1 - 2 * (1 / ((n : ℝ) + 1))) * D)) :
    (1 - u) ^ (11 * n) * (κ' ^ n * D') ≤ (1 + η) ^ n * (Real.exp (-(1 / ((n : ℝ) + 1))) * (κ ^ n * D)) := by
  have hp0 : 0 < (1 - u) ^ 11 := pow_sub_nonneg hu1 11
  obtain ⟨k, hk⟩ : ∃ k, n = k + 1 := ⟨n - 1, by omega⟩
  have hvol := central_volume (k := k) (by omega) (n := (n : ℝ)) (by rw [hk]; push_cast; ring)
  rw [← hk] at hvol
  have hL : 0 ≤ (1 - u) ^ 11 * κ' := mul_nonneg hp0.le hκ'
  have a1 := pow_le_pow_left₀ hL h5 n
  have a2 := mul_le_mul a1 h8 hD' (pow_nonneg (hL.trans h5) n)
  rw [pow_mul]
  calc ((1 - u) ^ 11) ^ n * (κ' ^ n * D') = ((1 - u) ^ 11 * κ') ^ n * D' := by rw [mul_pow]; ring
    _ ≤ _ := a2
    _ = (1 + η) ^ n * ((((n : ℝ) * n / (n * n - 1)) ^ n * (1 - 2 * (1 / ((n : ℝ) + 1)))) * (κ ^ n * D)) := by
        rw [mul_pow κ]; ring
    _ ≤ _ := by
        refine mul_le_mul_of_nonneg_left ?_ (pow_nonneg hη n)
        exact mul_le_mul_of_nonneg_right hvol (mul_nonneg (pow_nonneg hκ.le n) hD)

/-- **C103** (one central cut)  Let the stored matrix satisfy `lam I ⪯ M` with entries at most `B`, and let the precision be high
enough for its condition (`cutLoss ≤ 1/2`).  Then a central cut in rounded arithmetic succeeds and leaves a matrix that is again
symmetric and positive definite, with explicit new bounds, and a `κ` that is right up to eleven roundings.  The volume (`det κM`)
falls by the factor `e^(-1/(n+1))` of exact arithmetic up to the stated error, and `tsq` is at least half its exact value.  Moreover
the cut loses no point: any point of the old ellipsoid inflated `t ≥ 1` times that satisfies it lies in the new ellipsoid inflated
`inflation … t` times. -/
theorem C103_central_step {lam B : ℝ} (hu : u ≤ 1 / 64) (e : Ell (Fl R)) (he : e.Conditioned n lam B) (g : Arr (Fl R))
    (hg : g.IsVecShape n) (hne : g.flVec n ≠ 0) (c : SingleCut (Fl R)) (hη : cutLoss u n B lam ≤ 1 / 2) :
    ∃ e', Ell.space.update .central e (g, c) = .ok (.success, e') ∧
      e'.Conditioned n ((1 - cutLoss u n B lam) * ((n - 1) / (n + 1)) * lam) ((1 + 8 * quadErr u n B lam) * B) ∧
      Near u 11 e'.kappa.val (e.kappa.val * ((n : ℝ) * n / (n * n - 1))) ∧
      (1 - u) ^ (11 * n) * (e'.kappa.val • e'.mq.flMat n).det ≤ (1 + cutLoss u n B lam) ^ n *
        (Real.exp (-(1 / ((n : ℝ) + 1))) * (e.kappa.val • e.mq.flMat n).det) ∧
      e.kappa.val * (g.flVec n ⬝ᵥ (e.mq.flMat n *ᵥ g.flVec n)) / 2 ≤ e'.tsq.val ∧
      ∀ t, 1 ≤ t → ∀ x ∈ ellipsoid (e.mq.flMat n) (t ^ 2 * e.kappa.val) (e.xc.flVec n),
        g.flVec n ⬝ᵥ (x - e.xc.flVec n) ≤ 0 →
        x ∈ ellipsoid (e'.mq.flMat n)
          (inflation u n (cutLoss u n B lam) (cutDrift u n B lam e.kappa.val (norm2 (e.xc.flVec n))) t ^ 2 * e'.kappa.val)
          (e'.xc.flVec n) := by
  have h0 := R.unit_nonneg
  have hu1 : u < 1 := by linarith
  have hn := he.dim
  have hn2 : (2 : ℝ) ≤ n := by exact_mod_cast hn
  have hl := he.lam_pos
  have hκ := he.kappa
  have hlB : lam ≤ B := lam_le_entry he.lower he.entries ⟨0, by omega⟩
  have hB0 : 0 < B := by linarith
  have h12 := quadErr_ge h0 hn hl hlB
  have hK : (2 : ℝ) ≤ n * (B / lam) := by
    have h1 : (1 : ℝ) ≤ B / lam := (one_le_div hl).2 hlB
    nlinarith
  have hθ0 : 0 ≤ quadErr u n B lam := by linarith
  have hηd : cutLoss u n B lam = 24 * quadErr u n B lam * (n * (B / lam)) := rfl
  have hθ : quadErr u n B lam ≤ 1 / 96 := by nlinarith
  have hX0 := norm2_nonneg (e.xc.flVec n)
  have hν0 : 0 ≤ cutDrift u n B lam e.kappa.val (norm2 (e.xc.flVec n)) := cutDrift_nonneg h0 hθ0 hX0
  obtain ⟨e', h1, h2, h3, h4, h5, h6, h7, h8, h8d, h8t, h9⟩ := central_core hu he hg hne c rfl hθ hB0 h12 hηd hη
    (mul_nonneg (Real.sqrt_nonneg _) hν0) (cutDrift_eq hκ hl hB0)
  have hδ1 : 1 ≤ (n : ℝ) * n / (n * n - 1) := by
    rw [le_div_iff₀ (by nlinarith)]; linarith
  have hδ : Near u 11 e'.kappa.val (e.kappa.val * ((n : ℝ) * n / (n * n - 1))) := by
    rw [h5]
    exact ((Near.of_eq (rfl : e.kappa.val = e.kappa.val)).mul hu1 hκ.le (by linarith) (cst1_near R hu hn)).round (R := R) hu1
      (mul_nonneg hκ.le (by linarith))
  have hκ' : 0 < e'.kappa.val := hδ.pos hu1 (mul_pos hκ (by linarith))
  have hM := posDef_of_lower he.symm hl he.lower
  have hl' : 0 < (1 - cutLoss u n B lam) * (((n : ℝ) - 1) / (n + 1)) * lam := by
    have : 0 < 1 - cutLoss u n B lam := by linarith
    have : (0 : ℝ) < (n - 1) / (n + 1) := div_pos (by linarith) (by linarith)
    positivity
  refine ⟨e', h1, ⟨h2, hn, h3.trans he.helper, h4, hκ', h6, hl', h7, h8⟩, hδ, ?_, ?_, ?_⟩
  · rw [det_smul, det_smul, Fintype.card_fin]
    refine central_volume_fl hn hu1 hκ hκ'.le ?_ hM.det_pos.le (posDef_of_lower h6 hl' h7).det_pos.le hδ.2 h8d
    have : 0 ≤ cutLoss u n B lam := by rw [hηd]; positivity
    linarith
  · have hq := quad_pos hM hne
    refine le_trans ?_ h8t
    have a : 1 / 2 ≤ (1 - u) * (1 - quadErr u n B lam) ^ 2 := by nlinarith
    have := mul_le_mul_of_nonneg_right a (mul_pos hκ hq).le
    linarith
  intro t ht x hx hcut
  refine le_trans (show (x - _) ⬝ᵥ (_ *ᵥ (x - _)) ≤ _ from h9 t ht x hx (by linarith)) ?_
  exact inflation_bound hu1 hn hκ hδ1 hη hδ.1 hν0 rfl ht

theorem inflation_den (h0 : 0 ≤ u) (hu1 : u < 1) {η : ℝ} (hη0 : 0 ≤ η) (hη : η ≤ 1 / 2) :
    0 < √((1 - η) * (1 - u) ^ 11) ∧ √((1 - η) * (1 - u) ^ 11) ≤ 1 := by
  have hp : 0 < (1 - u) ^ 11 := pow_sub_nonneg hu1 11
  have hp1 : (1 - u) ^ 11 ≤ 1 := pow_sub_le_one h0 hu1 11
  have hη1 : 0 < 1 - η := by linarith
  refine ⟨Real.sqrt_pos.2 (by positivity), ?_⟩
  rw [Real.sqrt_le_iff]
  exact ⟨zero_le_one, by nlinarith⟩

theorem inflation_ge_one (h0 : 0 ≤ u) (hu1 : u < 1) {η ν t : ℝ} (hη0 : 0 ≤ η) (hη : η ≤ 1 / 2) (hν : 0 ≤ ν) (ht : 1 ≤ t) :
    1 ≤ inflation u n η ν t := by
  obtain ⟨h1, h2⟩ := inflation_den h0 hu1 hη0 hη
  rw [inflation, le_div_iff₀ h1]
  have : 0 ≤ (t - 1) / (n : ℝ) := div_nonneg (by linarith) (by positivity)
  linarith

theorem inflation_mono (h0 : 0 ≤ u) (hu1 : u < 1) {η ν ν' t : ℝ} (hη0 : 0 ≤ η) (hη : η ≤ 1 / 2) (hν : ν ≤ ν') :
    inflation u n η ν t ≤ inflation u n η ν' t := by
  obtain ⟨h1, h2⟩ := inflation_den h0 hu1 hη0 hη
  exact div_le_div_of_nonneg_right (by linarith) h1.le

theorem cutDrift_mono {B lam κ κ₀ X X₀ : ℝ} (h0 : 0 ≤ u) (hl : 0 < lam) (hκ₀ : 0 < κ₀) (hκ : κ₀ ≤ κ) (hX0 : 0 ≤ X) (hX : X ≤ X₀) :
    cutDrift u n B lam κ X ≤ cutDrift u n B lam κ₀ X₀ := by
  unfold cutDrift
  have h1 : √(κ₀ * lam) ≤ √(κ * lam) := Real.sqrt_le_sqrt (mul_le_mul_of_nonneg_right hκ hl.le)
  have h2 : 0 < √(κ₀ * lam) := Real.sqrt_pos.2 (mul_pos hκ₀ hl)
  have h3 : u * X / √(κ * lam) ≤ u * X₀ / √(κ₀ * lam) :=
    div_le_div₀ (mul_nonneg h0 (hX0.trans hX)) (mul_le_mul_of_nonneg_left hX h0) h2 h1
  linarith

/-- **C103** (a run of central cuts)  Suppose that at every update of a run the stored ellipsoid satisfies the same bounds `lam`, `B`,
its `κ` is at least `κ₀` and its centre has norm at most `X`.  Then every update succeeds, and a point of the first ellipsoid that
satisfies all the cuts lies, after `i + 1` of them, in the stored ellipsoid inflated by the `(i + 1)`-st iterate of `inflation`. -/
theorem C103_central_run {lam B κ₀ X : ℝ} (hu : u ≤ 1 / 64) (hη : cutLoss u n B lam ≤ 1 / 2) (hκ₀ : 0 < κ₀)
    (cuts : List (Arr (Fl R) × SingleCut (Fl R))) (e : Ell (Fl R))
    (hcond : Ell.Along (fun e g => e.Conditioned n lam B ∧ κ₀ ≤ e.kappa.val ∧ norm2 (e.xc.flVec n) ≤ X ∧ g.IsVecShape n ∧
      g.flVec n ≠ 0) e cuts) :
    ∃ tr, Ell.space.run e (cuts.map fun c => (UpdateKind.central, c)) = .ok tr ∧ tr.length = cuts.length ∧
      (∀ p ∈ tr, p.1 = .success) ∧
      ∀ x ∈ ellipsoid (e.mq.flMat n) e.kappa.val (e.xc.flVec n),
        Ell.Along (fun e g => g.flVec n ⬝ᵥ (x - e.xc.flVec n) ≤ 0) e cuts →
        ∀ (i : Nat) (h : i < tr.length),
          x ∈ ellipsoid (tr[i].2.mq.flMat n)
            (((inflation u n (cutLoss u n B lam) (cutDrift u n B lam κ₀ X))^[i + 1] 1) ^ 2 * tr[i].2.kappa.val)
            (tr[i].2.xc.flVec n) := by
  have h0 := R.unit_nonneg
  have hu1 : u < 1 := by linarith
  suffices H : ∀ (cuts : List (Arr (Fl R) × SingleCut (Fl R))) (e : Ell (Fl R)),
      Ell.Along (fun e g => e.Conditioned n lam B ∧ κ₀ ≤ e.kappa.val ∧ norm2 (e.xc.flVec n) ≤ X ∧ g.IsVecShape n ∧
        g.flVec n ≠ 0) e cuts →
      ∃ tr, Ell.space.run e (cuts.map fun c => (UpdateKind.central, c)) = .ok tr ∧ tr.length = cuts.length ∧
      (∀ p ∈ tr, p.1 = .success) ∧ ∀ t, 1 ≤ t →
      ∀ x ∈ ellipsoid (e.mq.flMat n) (t ^ 2 * e.kappa.val) (e.xc.flVec n),
        Ell.Along (fun e g => g.flVec n ⬝ᵥ (x - e.xc.flVec n) ≤ 0) e cuts →
        ∀ (i : Nat) (h : i < tr.length),
          x ∈ ellipsoid (tr[i].2.mq.flMat n)
            (((inflation u n (cutLoss u n B lam) (cutDrift u n B lam κ₀ X))^[i + 1] t) ^ 2 * tr[i].2.kappa.val)
            (tr[i].2.xc.flVec n) by
    obtain ⟨tr, h1, h2, h3, h4⟩ := H cuts e hcond
    exact ⟨tr, h1, h2, h3, fun x hx => h4 1 le_rfl x (by simpa using hx)⟩
  intro cuts
  induction cuts with
  | nil =>
    intro e _
    exact ⟨[], rfl, rfl, by simp, fun t ht x hx _ i hi => absurd hi (Nat.not_lt_zero i)⟩
  | cons c cuts ih =>
    intro e hcond
    obtain ⟨⟨hc, hκ, hX, hg, hne⟩, hrest⟩ := hcond
    obtain ⟨e', h1, h2, -, -, -, h3⟩ := C103_central_step hu e hc c.1 hg hne c.2 hη
    obtain ⟨tr, k1, k2, k3, k4⟩ := ih e' (hrest _ e' h1)
    have hlB : lam ≤ B := lam_le_entry hc.lower hc.entries ⟨0, by have := hc.dim; omega⟩
    have h12 := quadErr_ge h0 hc.dim hc.lam_pos hlB
    have hB0 : 0 < B := lt_of_lt_of_le hc.lam_pos hlB
    have hη0 : 0 ≤ cutLoss u n B lam := by
      have := hc.lam_pos
      have : 0 ≤ quadErr u n B lam := by linarith
      unfold cutLoss
      positivity
    have hν := cutDrift_mono (n := n) (B := B) h0 hc.lam_pos hκ₀ hκ (norm2_nonneg (e.xc.flVec n)) hX
    have hν0 := cutDrift_nonneg (n := n) (B := B) (lam := lam) (κ := e.kappa.val) h0 (by linarith) (norm2_nonneg (e.xc.flVec n))
    refine ⟨(.success, e') :: tr, ?_, by simp [k2], ?_, ?_⟩
    · rw [List.map_cons]
      unfold Space.run
      rw [h1]
      simp only [Res.ok_bind, k1]
    · intro p hp
      rcases List.mem_cons.1 hp with rfl | hp
      · rfl
      · exact k3 p hp
    · intro t ht x hx hsat i hi
      set T := inflation u n (cutLoss u n B lam) (cutDrift u n B lam κ₀ X) t with hT
      have hT1 : 1 ≤ T := inflation_ge_one h0 hu1 hη0 hη (hν0.trans hν) ht
      have hx' : x ∈ ellipsoid (e'.mq.flMat n) (T ^ 2 * e'.kappa.val) (e'.xc.flVec n) := by
        refine le_trans (show (x - _) ⬝ᵥ (_ *ᵥ (x - _)) ≤ _ from h3 t ht x hx hsat.1) ?_
        refine mul_le_mul_of_nonneg_right (pow_le_pow_left₀ ?_ (inflation_mono h0 hu1 hη0 hη hν) 2) h2.kappa.le
        exact zero_le_one.trans (inflation_ge_one h0 hu1 hη0 hη hν0 ht)
      cases i with
      | zero => exact hx'
      | succ i =>
        have := k4 T hT1 x hx' (hsat.2 _ e' h1) i (by simpa using hi)
        rw [Function.iterate_succ_apply]
        exact this

theorem Ell.Conditioned.mono {lam B lam' B' : ℝ} {e : Ell (Fl R)} (he : e.Conditioned n lam B) (h0 : 0 < lam') (hl : lam' ≤ lam)
    (hB : B ≤ B') : e.Conditioned n lam' B' :=
  ⟨he.shaped, he.dim, he.helper, he.noDefer, he.kappa, he.symm, h0,
    fun v => (mul_le_mul_of_nonneg_right hl (dot_self_nonneg' v)).trans (he.lower v), fun i j => (he.entries i j).trans hB⟩

theorem quadErr_mono {lam B lam' B' : ℝ} (h0 : 0 ≤ u) (hl0 : 0 < lam') (hl : lam' ≤ lam) (hB0 : 0 ≤ B) (hB : B ≤ B') :
    (n : ℝ) * (B / lam) ≤ n * (B' / lam') ∧ quadErr u n B lam ≤ quadErr u n B' lam' := by
  have h1 : B / lam ≤ B' / lam' := div_le_div₀ (hB0.trans hB) hB hl0 hl
  have h2 : (n : ℝ) * (B / lam) ≤ n * (B' / lam') := mul_le_mul_of_nonneg_left h1 (Nat.cast_nonneg n)
  refine ⟨h2, mul_le_mul_of_nonneg_left h2 ?_⟩
  have := one_le_pow₀ (n := 2 * n + 2) (by linarith : 1 ≤ 1 + u)
  linarith

/-- the conditions of a run follow from those at its start -/
theorem along_conditioned {lamK BK κ₀ X : ℝ} (hu : u ≤ 1 / 64) (hη : cutLoss u n BK lamK ≤ 1 / 2) (hK0 : 0 < lamK)
    (cuts : List (Arr (Fl R) × SingleCut (Fl R))) : ∀ (e : Ell (Fl R)) (lam B : ℝ), e.Conditioned n lam B →
      lamK ≤ (1 / 6) ^ cuts.length * lam → (13 / 12) ^ cuts.length * B ≤ BK → κ₀ ≤ ((1 - u) ^ 11) ^ cuts.length * e.kappa.val →
      Ell.Along (fun e g => norm2 (e.xc.flVec n) ≤ X ∧ g.IsVecShape n ∧ g.flVec n ≠ 0) e cuts →
      Ell.Along (fun e g => e.Conditioned n lamK BK ∧ κ₀ ≤ e.kappa.val ∧ norm2 (e.xc.flVec n) ≤ X ∧ g.IsVecShape n ∧
        g.flVec n ≠ 0) e cuts := by
  have h0 := R.unit_nonneg
  have hu1 : u < 1 := by linarith
  have hp : 0 < (1 - u) ^ 11 := pow_sub_nonneg hu1 11
  have hp1 : (1 - u) ^ 11 ≤ 1 := pow_sub_le_one h0 hu1 11
  induction cuts with
  | nil => intros; trivial
  | cons c cuts ih =>
    intro e lam B he hl hB hκ ha
    obtain ⟨⟨hX, hg, hne⟩, hrest⟩ := ha
    rw [List.length_cons] at hl hB hκ
    have hn := he.dim
    have hn2 : (2 : ℝ) ≤ n := by exact_mod_cast hn
    have hl0 := he.lam_pos
    have hlB : lam ≤ B := lam_le_entry he.lower he.entries ⟨0, by omega⟩
    have hB0 : 0 < B := by linarith
    have hk0 := he.kappa
    have hl1 : lamK ≤ lam := by
      refine hl.trans (mul_le_of_le_one_left hl0.le ?_)
      exact pow_le_one₀ (by norm_num) (by norm_num)
    have hB1 : B ≤ BK := by
      refine le_trans (le_mul_of_one_le_left hB0.le ?_) hB
      exact one_le_pow₀ (by norm_num)
    obtain ⟨m1, m2⟩ := quadErr_mono (n := n) h0 hK0 hl1 hB0.le hB1
    have hK : (2 : ℝ) ≤ n * (B / lam) := by
      have h1 : (1 : ℝ) ≤ B / lam := (one_le_div hl0).2 hlB
      nlinarith
    have h12 := quadErr_ge h0 hn hl0 hlB
    have hθ0 : 0 ≤ quadErr u n B lam := by linarith
    have hηB : cutLoss u n B lam ≤ 1 / 2 := by
      refine le_trans ?_ hη
      unfold cutLoss
      exact mul_le_mul (by linarith) m1 (by linarith) (by linarith)
    have hθ : quadErr u n B lam ≤ 1 / 96 := by
      have : cutLoss u n B lam = 24 * quadErr u n B lam * (n * (B / lam)) := rfl
      nlinarith
    refine ⟨⟨he.mono hK0 hl1 hB1, hκ.trans (mul_le_of_le_one_left hk0.le (pow_le_one₀ hp.le hp1)), hX, hg, hne⟩, ?_⟩
    intro st e1 h1
    obtain ⟨e', h1', h2, h3, -⟩ := C103_central_step hu e he c.1 hg hne c.2 hηB
    rw [h1'] at h1
    obtain ⟨rfl, rfl⟩ : CutStatus.success = st ∧ e' = e1 := by simpa using h1
    have hrest' := hrest _ e' h1'
    have hδ1 : 1 ≤ (n : ℝ) * n / (n * n - 1) := by
      rw [le_div_iff₀ (by nlinarith)]; linarith
    refine ih e' _ _ h2 ?_ ?_ ?_ hrest'
    · refine hl.trans ?_
      rw [pow_succ, mul_assoc]
      refine mul_le_mul_of_nonneg_left ?_ (by positivity)
      have hs3 : 1 / 3 ≤ ((n : ℝ) - 1) / (n + 1) := by
        rw [div_le_div_iff₀ (by norm_num) (by linarith)]; linarith
      refine mul_le_mul_of_nonneg_right ?_ hl0.le
      calc (1 : ℝ) / 6 = 1 / 2 * (1 / 3) := by norm_num
        _ ≤ _ := mul_le_mul (by linarith) hs3 (by norm_num) (by linarith)
    · refine le_trans ?_ hB
      rw [pow_succ, mul_assoc]
      refine mul_le_mul_of_nonneg_left ?_ (by positivity)
      exact mul_le_mul_of_nonneg_right (by linarith) hB0.le
    · refine hκ.trans ?_
      rw [pow_succ, mul_assoc]
      refine mul_le_mul_of_nonneg_left ?_ (by positivity)
      refine le_trans (mul_le_mul_of_nonneg_left ?_ hp.le) h3.1
      exact le_mul_of_one_le_right hk0.le hδ1

/-- **C103** (the first cuts)  The same with conditions on the first ellipsoid only: if the precision is high enough for `k` cuts of it
and its centre stays within `X`, then `k` central cuts succeed, whatever their gradients, and lose nothing beyond the inflation. -/
theorem C103_first_cuts {lam B X : ℝ} (hu : u ≤ 1 / 64) (cuts : List (Arr (Fl R) × SingleCut (Fl R))) (e : Ell (Fl R))
    (he : e.Conditioned n lam B)
    (hη : cutLoss u n ((13 / 12) ^ cuts.length * B) ((1 / 6) ^ cuts.length * lam) ≤ 1 / 2)
    (hrun : Ell.Along (fun e g => norm2 (e.xc.flVec n) ≤ X ∧ g.IsVecShape n ∧ g.flVec n ≠ 0) e cuts) :
    ∃ tr, Ell.space.run e (cuts.map fun c => (UpdateKind.central, c)) = .ok tr ∧ tr.length = cuts.length ∧
      (∀ p ∈ tr, p.1 = .success) ∧
      ∀ x ∈ ellipsoid (e.mq.flMat n) e.kappa.val (e.xc.flVec n),
        Ell.Along (fun e g => g.flVec n ⬝ᵥ (x - e.xc.flVec n) ≤ 0) e cuts →
        ∀ (i : Nat) (h : i < tr.length),
          x ∈ ellipsoid (tr[i].2.mq.flMat n)
            (((inflation u n (cutLoss u n ((13 / 12) ^ cuts.length * B) ((1 / 6) ^ cuts.length * lam))
              (cutDrift u n ((13 / 12) ^ cuts.length * B) ((1 / 6) ^ cuts.length * lam)
                (((1 - u) ^ 11) ^ cuts.length * e.kappa.val) X))^[i + 1] 1) ^ 2 * tr[i].2.kappa.val)
            (tr[i].2.xc.flVec n) := by
  have hu1 : u < 1 := by linarith
  have hp : 0 < (1 - u) ^ 11 := pow_sub_nonneg hu1 11
  have hl0 := he.lam_pos
  have hk0 := he.kappa
  exact C103_central_run hu hη (by positivity) cuts e
    (along_conditioned hu hη (by positivity) cuts e lam B he le_rfl le_rfl le_rfl hrun)

/-- **C103** (how much that is)  The inflation after `k` central cuts in closed form: a geometric sum with ratio `(1 + 1/n)/q`, where
`q = √((1-η)(1-u)^11)` is close to one. -/
theorem C103_inflation_closed_form {η ν : ℝ} (hu1 : u < 1) (hη : η ≤ 1 / 2) (k : Nat) :
    (inflation u n η ν)^[k] 1 =
      1 + ((1 + ν) / √((1 - η) * (1 - u) ^ 11) - 1) *
        ∑ j ∈ Finset.range k, ((1 + 1 / (n : ℝ)) / √((1 - η) * (1 - u) ^ 11)) ^ j := by
  have hq : 0 < √((1 - η) * (1 - u) ^ 11) := Real.sqrt_pos.2 (mul_pos (by linarith) (pow_sub_nonneg hu1 11))
  induction k with
  | zero => simp
  | succ k ih =>
    rw [Function.iterate_succ_apply', ih, Finset.sum_range_succ', inflation]
    simp only [pow_succ, ← Finset.sum_mul, pow_zero]
    set q := √((1 - η) * (1 - u) ^ 11)
    set S := ∑ j ∈ Finset.range k, ((1 + 1 / (n : ℝ)) / q) ^ j
    field_simp
    ring

end Ellalgo
