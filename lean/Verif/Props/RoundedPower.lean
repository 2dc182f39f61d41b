import Verif.Lib.PowerFlMath

/-! C97: the power iterations in rounded arithmetic. -/

namespace Ellalgo
open Matrix
variable {u : ℝ} {R : Rounding u} {n : Nat}

/-- what is known when the first loop stops early -/
def StoppedF (R : Rounding u) (A : Matrix (Fin n) (Fin n) ℝ) (tol : ℝ) (v : Fin n → ℝ) : Prop :=
  ∃ (v1 y : Fin n → ℝ) (c sg : ℝ), Near u (2 * n + 10) (v1 ⬝ᵥ v1) 1 ∧ 0 < c ∧ |sg| = 1 ∧
    (∀ i, |y i - (A *ᵥ v1) i| ≤ ((1 + u) ^ (n + 1) - 1) * (absMat A *ᵥ fun j => |v1 j|) i) ∧
    (∀ i, |v i - c * y i| ≤ u * |c * y i|) ∧ (1 - u) ^ (n + 3) * norm1 (v - sg • v1) ≤ tol

theorem powerLoopF (hu : u < 1) (hn : 0 < n) {a : Arr (Fl R)} (ha : a.IsMatShape n n) {opts : Options (Fl R)} (k j : Nat)
    (hkj : j + k = opts.maxIters) {x : Arr (Fl R)} {v : Fin n → ℝ} (hx : RVF R x v)
    (hv : v ≠ 0 → Near u (2 * n + 10) (v ⬝ᵥ v) 1) :
    ∃ l niter xf w, powerLoop a opts k j x = .ok ((l, niter), xf) ∧ RVF R xf w ∧ niter ≤ opts.maxIters ∧
      (w ≠ 0 → FlPowerAnswer u (a.flMat n) opts.maxIters l.val niter w ∧
        (niter < opts.maxIters → StoppedF R (a.flMat n) opts.tolerance.val w)) := by
  induction k generalizing j x v with
  | zero =>
    obtain ⟨l, h1, h2⟩ := rayleighF hn ha hx
    refine ⟨l, opts.maxIters, x, v, by simp only [powerLoop, h1, Res.ok_bind], hx, le_rfl, fun h => ⟨⟨hv h, h2, le_rfl⟩, ?_⟩⟩
    intro h
    exact absurd h (lt_irrefl _)
  | succ k ih =>
    obtain ⟨y, wy, h1, hy, hye⟩ := dotMvF hn ha hx
    obtain ⟨z, w, h2, hz, hz0, hz1⟩ := normalize2F hu hy
    obtain ⟨b, h3, hb⟩ := closeF hu opts.tolerance hz hx
    have hwy : w ≠ 0 → wy ≠ 0 := fun h hcon => h (hz0 hcon)
    unfold powerLoop
    rw [h1, Res.ok_bind, h2, Res.ok_bind, h3, Res.ok_bind]
    cases b with
    | false =>
      rw [if_neg (by simp)]
      exact ih (j + 1) (by omega) hz fun h => (hz1 (hwy h)).1
    | true =>
      rw [if_pos rfl]
      obtain ⟨l, h4, h5⟩ := rayleighF hn ha hz
      refine ⟨l, j, z, w, by simp only [h4, Res.ok_bind], hz, by omega, fun h => ⟨⟨(hz1 (hwy h)).1, h5, by omega⟩, fun _ => ?_⟩⟩
      have hv0 : v ≠ 0 := by
        rintro rfl
        exact hwy h (mul_zeroF hye)
      obtain ⟨c, hc, hce⟩ := (hz1 (hwy h)).2
      rcases hb rfl with hb | hb
      · exact ⟨v, wy, c, 1, hv hv0, hc, abs_one, hye, hce, by simpa using hb⟩
      · exact ⟨v, wy, c, -1, hv hv0, hc, by simp, hye, hce, by simpa using hb⟩

theorem powerIterationF (hu : u < 1) (hn : 0 < n) {a x : Arr (Fl R)} (ha : a.IsMatShape n n) (hx : x.IsVecShape n)
    (opts : Options (Fl R)) :
    ∃ l niter xf, powerIteration a x opts = .ok ((l, niter), xf) ∧ xf.IsVecShape n ∧ niter ≤ opts.maxIters ∧
      (xf.flVec n ≠ 0 → FlPowerAnswer u (a.flMat n) opts.maxIters l.val niter (xf.flVec n) ∧
        (niter < opts.maxIters → StoppedF R (a.flMat n) opts.tolerance.val (xf.flVec n))) := by
  obtain ⟨z, w, h1, hz, hz0, hz1⟩ := normalize2F hu (⟨hx, rfl⟩ : RVF R x (x.flVec n))
  obtain ⟨l, niter, xf, w', h2, h3, h4, h5⟩ := powerLoopF hu hn ha (opts := opts) opts.maxIters 0 (by omega) hz
    (fun h => (hz1 fun hcon => h (hz0 hcon)).1)
  refine ⟨l, niter, xf, by simp only [powerIteration, h1, Res.ok_bind, h2], h3.1, h4, ?_⟩
  rw [h3.2]
  exact h5

/-- **C97** (`power_iteration`)  In rounded arithmetic the call returns without a panic.  Unless the vector it leaves is zero (the
model's stand-in for the NaN of a division `0/0`), that vector has norm one up to rounding and the value is its Rayleigh quotient
up to rounding. -/
theorem C97_power_iteration (hu : u < 1) (hn : 0 < n) {a x : Arr (Fl R)} (ha : a.IsMatShape n n) (hx : x.IsVecShape n)
    (opts : Options (Fl R)) :
    ∃ l niter xf, powerIteration a x opts = .ok ((l, niter), xf) ∧ xf.IsVecShape n ∧ niter ≤ opts.maxIters ∧
      (xf.flVec n ≠ 0 → FlPowerAnswer u (a.flMat n) opts.maxIters l.val niter (xf.flVec n)) := by
  obtain ⟨l, niter, xf, h1, h2, h3, h4⟩ := powerIterationF hu hn ha hx opts
  exact ⟨l, niter, xf, h1, h2, h3, fun h => (h4 h).1⟩

theorem near_one_sq (h0 : 0 ≤ u) {v : Fin n → ℝ} {h : ℝ} (hh : h = (n + 5) * u) (hs : h ≤ 1 / 16)
    (hv : Near u (2 * n + 10) (v ⬝ᵥ v) 1) :
    (1 - u) ^ (n + 5) ≤ norm2 v ∧ 0 < v ⬝ᵥ v ∧ 1 - 2 * h ≤ v ⬝ᵥ v ∧ (1 - 2 * h) * (v ⬝ᵥ v) ≤ 1 ∧
      1 - 2 * h ≤ norm2 v ∧ norm2 v ≤ 8 / 7 ∧ v ⬝ᵥ v ≤ 8 / 7 := by
  have hu1 : u < 1 := by
    have : (0 : ℝ) ≤ n := Nat.cast_nonneg n
    nlinarith
  have hk : ((2 * n + 10 : ℕ) : ℝ) * u ≤ 2 * h := by rw [hh]; push_cast; linarith
  have hp := pow_sub_ge hu1 hk
  have h1 : (1 - u) ^ (n + 5) ≤ norm2 v := by
    refine Real.le_sqrt_of_sq_le ?_
    rw [← pow_mul, show (n + 5) * 2 = 2 * n + 10 by ring]
    simpa using hv.1
  have hN : 1 - 2 * h ≤ v ⬝ᵥ v := by
    have := hv.1
    rw [mul_one] at this
    linarith
  have hpos : 0 < v ⬝ᵥ v := by linarith
  have h2 : (1 - 2 * h) * (v ⬝ᵥ v) ≤ 1 := le_trans (mul_le_mul_of_nonneg_right hp hpos.le) hv.2
  have hk' : ((n + 5 : ℕ) : ℝ) * u ≤ h := by rw [hh]; push_cast; linarith
  have h3 := pow_sub_ge hu1 hk'
  have hh0 : 0 ≤ h := by rw [hh]; positivity
  have h87 : v ⬝ᵥ v ≤ 8 / 7 := by nlinarith
  refine ⟨h1, hpos, hN, h2, by linarith, ?_, h87⟩
  exact Real.sqrt_le_iff.2 ⟨by norm_num, by linarith⟩

theorem powerConsts (h0 : 0 ≤ u) {h : ℝ} (hh : h = ((n : ℝ) + 5) * u) (hs : h ≤ 1 / 16) :
    (1 + u) ^ (n + 2) - 1 ≤ 16 / 15 * h ∧ (1 + u) ^ (2 * n + 2) - 1 ≤ 16 / 7 * h ∧
      1 - 2 * h ≤ (1 - u) ^ (n + 3) * (1 - u) ^ (n + 5) ∧ 1 - h ≤ (1 - u) ^ (n + 3) := by
  have hn0 : (0 : ℝ) ≤ n := Nat.cast_nonneg n
  have hu1 : u < 1 := by nlinarith
  have hk1 : ((n + 2 : ℕ) : ℝ) * u ≤ h := by rw [hh]; push_cast; nlinarith
  have hk2 : ((2 * n + 2 : ℕ) : ℝ) * u ≤ 2 * h := by rw [hh]; push_cast; nlinarith
  have hk3 : ((n + 3 + (n + 5) : ℕ) : ℝ) * u ≤ 2 * h := by rw [hh]; push_cast; nlinarith
  have hk4 : ((n + 3 : ℕ) : ℝ) * u ≤ h := by rw [hh]; push_cast; nlinarith
  have e1 := pow_add_le h0 hk1
  have e2 := pow_add_le h0 hk2
  have hh0 : 0 ≤ h := by rw [hh]; positivity
  refine ⟨?_, ?_, by rw [← pow_add]; exact pow_sub_ge hu1 hk3, pow_sub_ge hu1 hk4⟩ <;> nlinarith

/-- the value against the exact Rayleigh quotient -/
theorem rayleigh_gapF {A : Matrix (Fin n) (Fin n) ℝ} {l L h : ℝ} {maxIters niter : Nat} {v : Fin n → ℝ} (h0 : 0 ≤ u)
    (hh : h = ((n : ℝ) + 5) * u) (hs : h ≤ 1 / 16) (hL : 0 ≤ L)
    (hop : ∀ w : Fin n → ℝ, norm2 (absMat A *ᵥ w) ≤ L * norm2 w) (hans : FlPowerAnswer u A maxIters l niter v) :
    |l - (v ⬝ᵥ (A *ᵥ v)) / (v ⬝ᵥ v)| ≤ L * (5 * h) := by
  have hh0 : 0 ≤ h := by rw [hh]; positivity
  obtain ⟨a1, a2, a3, a4, a5, a6, a7⟩ := near_one_sq h0 hh hs hans.unit
  obtain ⟨-, hg3, -, -⟩ := powerConsts h0 hh hs
  set P := v ⬝ᵥ (A *ᵥ v) with hP
  set N := v ⬝ᵥ v with hN
  have hPq : P = P / N * N := by field_simp
  have hPL : |P| ≤ L * N := by
    have e1 := dot_le_norm2 v (A *ᵥ v)
    have e2 := mul_le_mul_of_nonneg_left (mulVec_bound hop v) (norm2_nonneg v)
    have e3 := norm2_sq v
    rw [hP, hN]
    refine e1.trans (e2.trans (le_of_eq ?_))
    rw [← e3]
    ring
  have hq : |P / N| ≤ L := by rw [abs_div, abs_of_pos a2, div_le_iff₀ a2]; exact hPL
  have hQ := absQuad_bound hop v
  rw [← hN] at hQ
  have e1 : |l - P| ≤ 16 / 7 * h * (L * (8 / 7)) := by
    refine hans.value.trans (mul_le_mul hg3 (hQ.trans (mul_le_mul_of_nonneg_left a7 hL)) ?_ (by positivity))
    exact Finset.sum_nonneg fun i _ => Finset.sum_nonneg fun j _ => by positivity
  have e2 : |P - P / N| ≤ L * (16 / 7 * h) := by
    have : P - P / N = P / N * (N - 1) := by
      rw [mul_sub, mul_one, ← hPq]
    rw [this, abs_mul]
    refine mul_le_mul hq ?_ (abs_nonneg _) hL
    rw [_root_.abs_le]
    constructor <;> nlinarith
  have := abs_sub_le l P (P / N)
  have hLh : 0 ≤ L * h := mul_nonneg hL hh0
  linarith

/-- the residual for the exact Rayleigh quotient -/
theorem power_residualF {A : Matrix (Fin n) (Fin n) ℝ} {tol L h : ℝ} {v : Fin n → ℝ}
    (R : Rounding u) (hh : h = ((n : ℝ) + 5) * u) (hs : h ≤ 1 / 16) (hL : 0 ≤ L)
    (hop : ∀ w : Fin n → ℝ, norm2 (absMat A *ᵥ w) ≤ L * norm2 w)
    (hans : Near u (2 * n + 10) (v ⬝ᵥ v) 1) (hst : StoppedF R A tol v) :
    norm2 (A *ᵥ v - ((v ⬝ᵥ (A *ᵥ v)) / (v ⬝ᵥ v)) • v) ≤ L * ((1 + 3 * h) * tol + 5 / 4 * h) * norm2 v ∧
    norm2 (A *ᵥ v - ((v ⬝ᵥ (A *ᵥ v)) / (v ⬝ᵥ v)) • v) ≤ L * ((1 + 3 * h) * tol + 5 / 4 * h) := by
  have h0 := R.unit_nonneg
  have hn0 : (0 : ℝ) ≤ n := Nat.cast_nonneg n
  have hh0 : 0 ≤ h := by rw [hh]; positivity
  have hu1 : u < 1 := by nlinarith
  obtain ⟨v1, y, c, sg, hv1, hc, hsg, hy, hv, hT⟩ := hst
  obtain ⟨a1, a2, a3, a4, a5, a6, a7⟩ := near_one_sq h0 hh hs hans
  obtain ⟨b1, b2, b3, b4, b5, b6, b7⟩ := near_one_sq h0 hh hs hv1
  obtain ⟨hg2, -, hpp, hp1⟩ := powerConsts h0 hh hs
  set p := (1 - u) ^ (n + 3) with hp
  have hp0 : 0 < p := pow_sub_nonneg hu1 _
  have hd0 : 0 ≤ norm1 (v - sg • v1) := norm1_nonneg _
  have htol : 0 ≤ tol := le_trans (mul_nonneg hp0.le hd0) hT
  have hγ : (0 : ℝ) ≤ (1 + u) ^ (n + 1) - 1 := by
    have : (1 : ℝ) ≤ (1 + u) ^ (n + 1) := one_le_pow₀ (by linarith)
    linarith
  have hT' : norm1 (v - sg • v1) ≤ tol / p := by rw [le_div_iff₀ hp0]; linarith
  have hres := residualF hop h0 hγ hc hsg hy hv hT' hL
  rw [show (1 + u) * (1 + ((1 + u) ^ (n + 1) - 1)) = (1 + u) ^ (n + 2) by ring] at hres
  have hmin := (residual_minF (A := A) a2 (sg / c)).trans hres
  have hpN : 1 - 2 * h ≤ p * norm2 v := hpp.trans (mul_le_mul_of_nonneg_left a1 hp0.le)
  have hTN : tol / p ≤ (1 + 3 * h) * tol * norm2 v := by
    rw [div_le_iff₀ hp0]
    have : 1 ≤ (1 + 3 * h) * (p * norm2 v) :=
      le_trans (by nlinarith) (mul_le_mul_of_nonneg_left hpN (by linarith : (0 : ℝ) ≤ 1 + 3 * h))
    calc tol = tol * 1 := (mul_one _).symm
      _ ≤ tol * ((1 + 3 * h) * (p * norm2 v)) := mul_le_mul_of_nonneg_left this htol
      _ = _ := by ring
  have hTp : tol / p ≤ (1 + 3 * h) * tol := by
    rw [div_le_iff₀ hp0]
    have : 1 ≤ (1 + 3 * h) * p :=
      le_trans (by nlinarith) (mul_le_mul_of_nonneg_left hp1 (by linarith : (0 : ℝ) ≤ 1 + 3 * h))
    calc tol = tol * 1 := (mul_one _).symm
      _ ≤ tol * ((1 + 3 * h) * p) := mul_le_mul_of_nonneg_left this htol
      _ = _ := by ring
  refine ⟨hmin.trans ?_, hmin.trans ?_⟩
  · rw [mul_assoc]
    refine mul_le_mul_of_nonneg_left ?_ hL
    have e1 : norm2 v1 ≤ 75 / 64 * norm2 v := by
      have : norm2 v1 * norm2 v1 ≤ (75 / 64 * norm2 v) * (75 / 64 * norm2 v) := by
        rw [norm2_sq, mul_mul_mul_comm, norm2_sq]
        linarith
      exact nonneg_le_nonneg_of_sq_le_sq (mul_nonneg (by norm_num) (norm2_nonneg v)) this
    have e2 : ((1 + u) ^ (n + 2) - 1) * norm2 v1 ≤ 16 / 15 * h * (75 / 64 * norm2 v) :=
      mul_le_mul hg2 e1 (norm2_nonneg v1) (by positivity)
    linarith
  · refine mul_le_mul_of_nonneg_left ?_ hL
    have e1 : norm2 v1 ≤ 75 / 64 := by linarith
    have e2 : ((1 + u) ^ (n + 2) - 1) * norm2 v1 ≤ 16 / 15 * h * (75 / 64) :=
      mul_le_mul hg2 e1 (norm2_nonneg v1) (by positivity)
    linarith

/-- **C97** (an early stop)  If `power_iteration` reports fewer than `max_iters` iterations, the pair it returns is an approximate
eigenpair: `‖A x - l x‖` is at most `L` times the tolerance plus a multiple of the unit roundoff, where `L` bounds the operator
norm of `|A|`. -/
theorem C97_residual (hn : 0 < n) (hs : (n + 5) * u ≤ 1 / 16) {a x xf : Arr (Fl R)} {opts : Options (Fl R)} {l : Fl R} {L : ℝ}
    {niter : Nat} (ha : a.IsMatShape n n) (hx : x.IsVecShape n) (hrun : powerIteration a x opts = .ok ((l, niter), xf))
    (hstop : niter < opts.maxIters) (hne : xf.flVec n ≠ 0) (hL : 0 ≤ L)
    (hop : ∀ w : Fin n → ℝ, norm2 (absMat (a.flMat n) *ᵥ w) ≤ L * norm2 w) :
    norm2 (a.flMat n *ᵥ xf.flVec n - l.val • xf.flVec n) ≤
      L * ((1 + 3 * ((n + 5) * u)) * opts.tolerance.val + 7 * ((n + 5) * u)) := by
  have h0 := R.unit_nonneg
  have hn0 : (0 : ℝ) ≤ n := Nat.cast_nonneg n
  have hu1 : u < 1 := by nlinarith
  obtain ⟨l', niter', xf', h1, h2, h3, h4⟩ := powerIterationF hu1 hn ha hx opts
  rw [hrun] at h1
  simp only [Res.ok.injEq, Prod.mk.injEq] at h1
  obtain ⟨⟨rfl, rfl⟩, rfl⟩ := h1
  obtain ⟨h5, h6⟩ := h4 hne
  obtain ⟨-, e2⟩ := power_residualF R rfl hs hL hop h5.unit (h6 hstop)
  have e3 := rayleigh_gapF h0 rfl hs hL hop h5
  obtain ⟨-, -, -, -, -, a6, -⟩ := near_one_sq h0 rfl hs h5.unit
  set v := xf.flVec n
  set A := a.flMat n
  set q := (v ⬝ᵥ (A *ᵥ v)) / (v ⬝ᵥ v) with hq
  have e : A *ᵥ v - l.val • v = (A *ᵥ v - q • v) + (q - l.val) • v := by rw [sub_smul]; abel
  rw [e]
  refine (norm2_add _ _).trans ?_
  rw [norm2_smul, abs_sub_comm]
  have := mul_le_mul e3 a6 (norm2_nonneg v) (mul_nonneg hL (by positivity))
  have hLh : 0 ≤ L * ((n + 5) * u) := mul_nonneg hL (by positivity)
  nlinarith

/-- **C97** (a true eigenvalue)  For a symmetric matrix an early stop of `power_iteration` means that a true eigenvalue lies within
`L` times the tolerance, plus a multiple of the unit roundoff, of the value returned. -/
theorem C97_eigenvalue_near (hn : 0 < n) (hs : (n + 5) * u ≤ 1 / 16) {a x xf : Arr (Fl R)} {opts : Options (Fl R)} {l : Fl R}
    {L : ℝ} {niter : Nat} (ha : a.IsMatShape n n) (hsym : (a.flMat n).IsHermitian) (hx : x.IsVecShape n)
    (hrun : powerIteration a x opts = .ok ((l, niter), xf)) (hstop : niter < opts.maxIters) (hne : xf.flVec n ≠ 0) (hL : 0 ≤ L)
    (hop : ∀ w : Fin n → ℝ, norm2 (absMat (a.flMat n) *ᵥ w) ≤ L * norm2 w) :
    ∃ i, |hsym.eigenvalues i - l.val| ≤ L * ((1 + 3 * ((n + 5) * u)) * opts.tolerance.val + 7 * ((n + 5) * u)) := by
  have h0 := R.unit_nonneg
  have hn0 : (0 : ℝ) ≤ n := Nat.cast_nonneg n
  have hu1 : u < 1 := by nlinarith
  obtain ⟨l', niter', xf', h1, h2, h3, h4⟩ := powerIterationF hu1 hn ha hx opts
  rw [hrun] at h1
  simp only [Res.ok.injEq, Prod.mk.injEq] at h1
  obtain ⟨⟨rfl, rfl⟩, rfl⟩ := h1
  obtain ⟨h5, h6⟩ := h4 hne
  obtain ⟨e1, -⟩ := power_residualF R rfl hs hL hop h5.unit (h6 hstop)
  have e3 := rayleigh_gapF h0 rfl hs hL hop h5
  obtain ⟨-, a2, -, -, a5, -, -⟩ := near_one_sq h0 rfl hs h5.unit
  obtain ⟨i, hi⟩ := eigenvalue_nearF hsym a2 ((xf.flVec n ⬝ᵥ (a.flMat n *ᵥ xf.flVec n)) / (xf.flVec n ⬝ᵥ xf.flVec n))
  refine ⟨i, ?_⟩
  have hN : 0 < norm2 (xf.flVec n) := by linarith
  have hi' := le_of_mul_le_mul_right (hi.trans e1) hN
  have := abs_sub_le (hsym.eigenvalues i) ((xf.flVec n ⬝ᵥ (a.flMat n *ᵥ xf.flVec n)) / (xf.flVec n ⬝ᵥ xf.flVec n)) l.val
  rw [abs_sub_comm] at e3
  have hLh : 0 ≤ L * ((n + 5) * u) := mul_nonneg hL (by positivity)
  nlinarith

/-! ### the other variants -/

theorem rayleighF' (hn : 0 < n) {a x y : Arr (Fl R)} {v : Fin n → ℝ} (ha : a.IsMatShape n n) (hx : RVF R x v)
    (hy : a.dotMv x = .ok y) :
    ∃ l, x.dot y = .ok l ∧ |l.val - v ⬝ᵥ (a.flMat n *ᵥ v)| ≤ ((1 + u) ^ (2 * n + 2) - 1) * absQuad (a.flMat n) v := by
  obtain ⟨l, h1, h2⟩ := rayleighF hn ha hx
  simp only [rayleigh, hy, Res.ok_bind] at h1
  exact ⟨l, h1, h2⟩

theorem power2LoopF (hu : u < 1) (hn : 0 < n) {a : Arr (Fl R)} (ha : a.IsMatShape n n) {opts : Options (Fl R)} (k j : Nat)
    (hkj : j + k = opts.maxIters) {x y : Arr (Fl R)} {v wy : Fin n → ℝ} {e : Fl R} (hx : RVF R x v) (hy : RVF R y wy)
    (hyv : v = 0 → wy = 0)
    (hv : v ≠ 0 → FlPowerAnswer u (a.flMat n) opts.maxIters e.val opts.maxIters v) :
    ∃ l niter xf w, power2Loop a opts k j x y e = .ok ((l, niter), xf) ∧ RVF R xf w ∧ niter ≤ opts.maxIters ∧
      (w ≠ 0 → FlPowerAnswer u (a.flMat n) opts.maxIters l.val niter w) := by
  induction k generalizing j x y v wy e with
  | zero => exact ⟨e, opts.maxIters, x, v, rfl, hx, le_rfl, hv⟩
  | succ k ih =>
    obtain ⟨z, w, h2, hz, hz0, hz1⟩ := normalize2F hu hy
    obtain ⟨y', wy', h1, hy', hye⟩ := dotMvF hn ha hz
    obtain ⟨l, h3, h4⟩ := rayleighF' hn ha hz h1
    have hwy : w ≠ 0 → wy ≠ 0 := fun h hcon => h (hz0 hcon)
    unfold power2Loop
    rw [h2, Res.ok_bind, h1, Res.ok_bind, h3, Res.ok_bind]
    split
    · exact ⟨l, j, z, w, rfl, hz, by omega, fun h => ⟨(hz1 (hwy h)).1, h4, by omega⟩⟩
    · exact ih (j + 1) (by omega) hz hy' (by rintro rfl; exact mul_zeroF hye) fun h => ⟨(hz1 (hwy h)).1, h4, le_rfl⟩

/-- **C97** the same for `power_iteration2` -/
theorem C97_power_iteration2 (hu : u < 1) (hn : 0 < n) {a x : Arr (Fl R)} (ha : a.IsMatShape n n) (hx : x.IsVecShape n)
    (opts : Options (Fl R)) :
    ∃ l niter xf, powerIteration2 a x opts = .ok ((l, niter), xf) ∧ xf.IsVecShape n ∧ niter ≤ opts.maxIters ∧
      (xf.flVec n ≠ 0 → FlPowerAnswer u (a.flMat n) opts.maxIters l.val niter (xf.flVec n)) := by
  obtain ⟨z, w, h1, hz, hz0, hz1⟩ := normalize2F hu (⟨hx, rfl⟩ : RVF R x (x.flVec n))
  obtain ⟨y, wy, h2, hy, hye⟩ := dotMvF hn ha hz
  obtain ⟨e, h3, h4⟩ := rayleighF' hn ha hz h2
  obtain ⟨l, niter, xf, w', h5, h6, h7, h8⟩ := power2LoopF hu hn ha (opts := opts) opts.maxIters 0 (by omega) hz hy
    (by rintro rfl; exact mul_zeroF hye) (e := e) (fun h => ⟨(hz1 fun hcon => h (hz0 hcon)).1, h4, le_rfl⟩)
  refine ⟨l, niter, xf, by simp only [powerIteration2, h1, h2, h3, Res.ok_bind, h5], h6.1, h7, ?_⟩
  rw [h6.2]
  exact h8

theorem power4LoopF (hu : u < 1) (hn : 0 < n) {a : Arr (Fl R)} (ha : a.IsMatShape n n) {opts : Options (Fl R)} (k j : Nat)
    (hkj : j + k = opts.maxIters) {x : Arr (Fl R)} {v : Fin n → ℝ} (hx : RVF R x v) :
    ∃ l niter xf w, power4Loop a opts k j x = .ok ((l, niter), xf) ∧ RVF R xf w ∧ niter ≤ opts.maxIters ∧
      (w ≠ 0 → FlPowerAnswer u (a.flMat n) opts.maxIters l.val niter w) := by
  induction k generalizing j x v with
  | zero =>
    obtain ⟨z, w, h2, hz, hz0, hz1⟩ := normalize2F hu hx
    obtain ⟨l, h3, h4⟩ := rayleighF hn ha hz
    exact ⟨l, opts.maxIters, z, w, by simp only [power4Loop, h2, h3, Res.ok_bind], hz, le_rfl,
      fun h => ⟨(hz1 fun hcon => h (hz0 hcon)).1, h4, le_rfl⟩⟩
  | succ k ih =>
    obtain ⟨y, wy, h1, hy, hye⟩ := dotMvF hn ha hx
    have hy1 := divScalarF hy (normL1 y)
    obtain ⟨b, h3, hb⟩ := closeF hu opts.tolerance hy1 hx
    unfold power4Loop
    simp only [h1, Res.ok_bind, h3]
    cases b with
    | false =>
      rw [if_neg (by simp)]
      exact ih (j + 1) (by omega) hy1
    | true =>
      rw [if_pos rfl]
      obtain ⟨z, w, h2, hz, hz0, hz1⟩ := normalize2F hu hy1
      obtain ⟨l, h4, h5⟩ := rayleighF hn ha hz
      exact ⟨l, j, z, w, by simp only [h2, h4, Res.ok_bind], hz, by omega,
        fun h => ⟨(hz1 fun hcon => h (hz0 hcon)).1, h5, by omega⟩⟩

/-- **C97** the same for `power_iteration4` -/
theorem C97_power_iteration4 (hu : u < 1) (hn : 0 < n) {a x : Arr (Fl R)} (ha : a.IsMatShape n n) (hx : x.IsVecShape n)
    (opts : Options (Fl R)) :
    ∃ l niter xf, powerIteration4 a x opts = .ok ((l, niter), xf) ∧ xf.IsVecShape n ∧ niter ≤ opts.maxIters ∧
      (xf.flVec n ≠ 0 → FlPowerAnswer u (a.flMat n) opts.maxIters l.val niter (xf.flVec n)) := by
  obtain ⟨l, niter, xf, w', h5, h6, h7, h8⟩ := power4LoopF hu hn ha (opts := opts) opts.maxIters 0 (by omega)
    (divScalarF (⟨hx, rfl⟩ : RVF R x (x.flVec n)) (normL1 x))
  refine ⟨l, niter, xf, h5, h6.1, h7, ?_⟩
  rw [h6.2]
  exact h8

theorem absQuad_nonneg (A : Matrix (Fin n) (Fin n) ℝ) (v : Fin n → ℝ) : 0 ≤ absQuad A v :=
  Finset.sum_nonneg fun i _ => Finset.sum_nonneg fun j _ => by positivity

theorem quad_le_absQuad (A : Matrix (Fin n) (Fin n) ℝ) (v : Fin n → ℝ) : |v ⬝ᵥ (A *ᵥ v)| ≤ absQuad A v := by
  simp only [dotProduct, mulVec, Finset.mul_sum]
  refine (Finset.abs_sum_le_sum_abs _ _).trans (Finset.sum_le_sum fun i _ => ?_)
  refine (Finset.abs_sum_le_sum_abs _ _).trans (Finset.sum_le_sum fun j _ => ?_)
  rw [abs_mul, abs_mul]
  linarith [mul_assoc |v i| |A i j| |v j|]

/-- a quotient formed from an approximate numerator and an accurate denominator, with `k` roundings and one more -/
theorem quotientF (h0 : 0 ≤ u) (hu : u < 1) {l P Q N D x g : ℝ} {k : ℕ} (hN : 0 < N) (hQ : |P| ≤ Q) (hx : |x - P| ≤ (g - 1) * Q)
    (hg : 1 ≤ g) (hD : Near u k D N) (hl : |l - x / D| ≤ u * |x / D|) :
    |l - P / N| ≤ (g * (1 + u) / (1 - u) ^ k - 1) * (Q / N) := by
  have hQ0 : 0 ≤ Q := (abs_nonneg _).trans hQ
  have hD0 : 0 < D := hD.pos hu hN
  have hp := pow_sub_nonneg hu k
  set p := (1 - u) ^ k with hpd
  have hp1 : p ≤ 1 := pow_sub_le_one h0 hu k
  have hxb : |x| ≤ g * Q := by
    have := abs_add_le (x - P) P
    rw [sub_add_cancel] at this
    linarith
  -- `x / D` against `x / N`
  have e1 : |x / D| ≤ g * Q / (p * N) := by
    rw [abs_div, abs_of_pos hD0]
    exact div_le_div₀ (by positivity) hxb (by positivity) hD.1
  have e2 : |1 / D - 1 / N| ≤ (1 / p - 1) / N := by
    have a1 : 1 / D ≤ 1 / (p * N) := one_div_le_one_div_of_le (by positivity) hD.1
    have a2 : p / N ≤ 1 / D := by
      rw [div_le_div_iff₀ hN hD0]; linarith [hD.2]
    have a3 : 1 / (p * N) = 1 / p / N := by field_simp
    have a4 : 1 - p ≤ 1 / p - 1 := by
      rw [le_sub_iff_add_le, le_div_iff₀ hp]
      nlinarith [sq_nonneg (p - 1)]
    rw [_root_.abs_le]
    constructor
    · have : p / N - 1 / N = -((1 - p) / N) := by ring
      have : (1 - p) / N ≤ (1 / p - 1) / N := by gcongr
      linarith
    · have : (1 / p - 1) / N = 1 / p / N - 1 / N := by ring
      linarith
  have e3 : |x / D - x / N| ≤ g * Q * ((1 / p - 1) / N) := by
    have : x / D - x / N = x * (1 / D - 1 / N) := by ring
    rw [this, abs_mul]
    exact mul_le_mul hxb e2 (abs_nonneg _) (by positivity)
  have e4 : |x / N - P / N| ≤ (g - 1) * Q / N := by
    rw [← sub_div, abs_div, abs_of_pos hN]
    gcongr
  have e5 := mul_le_mul_of_nonneg_left e1 h0
  have t1 := abs_sub_le l (x / D) (P / N)
  have t2 := abs_sub_le (x / D) (x / N) (P / N)
  have e6 : u * (g * Q / (p * N)) + g * Q * ((1 / p - 1) / N) + (g - 1) * Q / N = (g * (1 + u) / p - 1) * (Q / N) := by
    field_simp
    ring
  linarith

theorem power3LoopF (hu : u < 1) (hn : 0 < n) {a : Arr (Fl R)} (ha : a.IsMatShape n n) {opts : Options (Fl R)} (k j : Nat)
    (hkj : j + k = opts.maxIters) {x y : Arr (Fl R)} {v wy : Fin n → ℝ} {e : Fl R} (hx : RVF R x v) (hy : RVF R y wy)
    (hyv : v = 0 → wy = 0)
    (hv : v ≠ 0 → |e.val - v ⬝ᵥ (a.flMat n *ᵥ v) / (v ⬝ᵥ v)| ≤
      ((1 + u) ^ (2 * n + 3) / (1 - u) ^ (2 * n + 10) - 1) * (absQuad (a.flMat n) v / (v ⬝ᵥ v))) :
    ∃ l niter xf w, power3Loop a opts k j x y e = .ok ((l, niter), xf) ∧ RVF R xf w ∧ niter ≤ opts.maxIters ∧
      (w ≠ 0 → ∃ y : Fin n → ℝ, y ≠ 0 ∧ FlPower3Answer u (a.flMat n) opts.maxIters l.val niter w y) := by
  have h0 := R.unit_nonneg
  have hpos : ∀ w : Fin n → ℝ, w ≠ 0 → 0 < w ⬝ᵥ w := fun w hw =>
    lt_of_le_of_ne (dot_self_nonneg' w) (Ne.symm fun h => hw (dotProduct_self_eq_zero.1 h))
  have hg : (1 : ℝ) ≤ (1 + u) ^ (2 * n + 2) := one_le_pow₀ (by linarith)
  induction k generalizing j x y v wy e with
  | zero => exact ⟨e, opts.maxIters, x, v, rfl, hx, le_rfl, fun h => ⟨v, h, hv h, Or.inl rfl, fun h => absurd h (lt_irrefl _)⟩⟩
  | succ k ih =>
    obtain ⟨d, hd1, hd2⟩ := sqsumF hu hy
    unfold power3Loop
    simp only [hd1, Res.ok_bind]
    split
    · obtain ⟨z, w, h2, hz, hz0, hz1⟩ := normalize2F hu hy
      obtain ⟨y', wy', h1, hy', hye⟩ := dotMvF hn ha hz
      obtain ⟨l, h3, h4⟩ := rayleighF' hn ha hz h1
      have hwy : w ≠ 0 → wy ≠ 0 := fun h hcon => h (hz0 hcon)
      have hval : w ≠ 0 → |l.val - w ⬝ᵥ (a.flMat n *ᵥ w) / (w ⬝ᵥ w)| ≤
          ((1 + u) ^ (2 * n + 3) / (1 - u) ^ (2 * n + 10) - 1) * (absQuad (a.flMat n) w / (w ⬝ᵥ w)) := by
        intro h
        have := quotientF (l := l.val) (D := 1) h0 hu (hpos w h) (quad_le_absQuad _ w) h4 hg (hz1 (hwy h)).1.symm
          (by simpa using mul_nonneg h0 (abs_nonneg l.val))
        rwa [← pow_succ] at this
      simp only [h2, h1, h3, Res.ok_bind]
      split
      · exact ⟨l, j, z, w, rfl, hz, by omega, fun h => ⟨w, h, hval h, Or.inl rfl, fun _ => (hz1 (hwy h)).1⟩⟩
      · exact ih (j + 1) (by omega) hz hy' (by rintro rfl; exact mul_zeroF hye) hval
    · obtain ⟨y', wy', h1, hy', hye⟩ := dotMvF hn ha hy
      obtain ⟨xn, h3, h4⟩ := rayleighF' hn ha hy h1
      have hval : wy ≠ 0 → |(xn / d : Fl R).val - wy ⬝ᵥ (a.flMat n *ᵥ wy) / (wy ⬝ᵥ wy)| ≤
          ((1 + u) ^ (2 * n + 3) / (1 - u) ^ (2 * n + 10) - 1) * (absQuad (a.flMat n) wy / (wy ⬝ᵥ wy)) := by
        intro h
        have hN := hpos wy h
        have := quotientF h0 hu hN (quad_le_absQuad _ wy) h4 hg
          (hd2.mono h0 hu (show n + 2 ≤ 2 * n + 10 by omega) (hd2.nonneg hu hN.le) hN.le) (R.err (xn.val / d.val))
        rwa [← pow_succ] at this
      simp only [h1, h3, Res.ok_bind]
      split
      · obtain ⟨z, w, h2, hz, hz0, hz1⟩ := normalize2F hu hy
        have hwy : w ≠ 0 → wy ≠ 0 := fun h hcon => h (hz0 hcon)
        exact ⟨xn / d, j, z, w, by simp only [h2, Res.ok_bind], hz, by omega,
          fun h => ⟨wy, hwy h, hval (hwy h), Or.inr (hz1 (hwy h)).2, fun _ => (hz1 (hwy h)).1⟩⟩
      · exact ih (j + 1) (by omega) hy hy' (by rintro rfl; exact mul_zeroF hye) hval

/-- **C97** (`power_iteration3`)  The value is the Rayleigh quotient, up to rounding, of a vector that is the one left behind or is
parallel to it up to rounding; the one left behind has norm one up to rounding when the loop stopped early. -/
theorem C97_power_iteration3 (hu : u < 1) (hn : 0 < n) {a x : Arr (Fl R)} (ha : a.IsMatShape n n) (hx : x.IsVecShape n)
    (opts : Options (Fl R)) :
    ∃ l niter xf, powerIteration3 a x opts = .ok ((l, niter), xf) ∧ xf.IsVecShape n ∧ niter ≤ opts.maxIters ∧
      (xf.flVec n ≠ 0 → ∃ y : Fin n → ℝ, y ≠ 0 ∧ FlPower3Answer u (a.flMat n) opts.maxIters l.val niter (xf.flVec n) y) := by
  have h0 := R.unit_nonneg
  have hx' : RVF R x (x.flVec n) := ⟨hx, rfl⟩
  have hg : (1 : ℝ) ≤ (1 + u) ^ (2 * n + 2) := one_le_pow₀ (by linarith)
  obtain ⟨d, hd1, hd2⟩ := sqsumF hu hx'
  obtain ⟨y, wy, h2, hy, hye⟩ := dotMvF hn ha hx'
  obtain ⟨xn, h3, h4⟩ := rayleighF' hn ha hx' h2
  obtain ⟨l, niter, xf, w', h5, h6, h7, h8⟩ := power3LoopF hu hn ha (opts := opts) opts.maxIters 0 (by omega) hx' hy
    (e := xn / d) (by intro h; rw [h] at hye; exact mul_zeroF hye) (by
      intro h
      have hN : 0 < x.flVec n ⬝ᵥ x.flVec n :=
        lt_of_le_of_ne (dot_self_nonneg' _) (Ne.symm fun hc => h (dotProduct_self_eq_zero.1 hc))
      have := quotientF h0 hu hN (quad_le_absQuad _ (x.flVec n)) h4 hg
        (hd2.mono h0 hu (show n + 2 ≤ 2 * n + 10 by omega) (hd2.nonneg hu hN.le) hN.le) (R.err (xn.val / d.val))
      rwa [← pow_succ] at this)
  refine ⟨l, niter, xf, by simp only [powerIteration3, h2, hd1, h3, Res.ok_bind, h5], h6.1, h7, ?_⟩
  rw [h6.2]
  exact h8

end Ellalgo
