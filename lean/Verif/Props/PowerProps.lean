import Verif.Lib.PowerLemmas
import Mathlib.Analysis.Matrix.Spectrum

/-! # Properties C40, C41: power iteration -/

namespace Ellalgo
open Matrix

variable {n : Nat}

theorem pos_of_ne {A : Matrix (Fin n) (Fin n) ℝ} {x : Fin n → ℝ} {k : Nat} (h : (A ^ k) *ᵥ x ≠ 0) : 0 < n := by
  rcases Nat.eq_zero_or_pos n with h0 | h0
  · subst h0; exact absurd (Subsingleton.elim _ _) h
  · exact h0

/-- what holds when the first variant stops early: the previous unit vector `v1` -/
def StoppedAt (A : Matrix (Fin n) (Fin n) ℝ) (tol : ℝ) (v v1 : Fin n → ℝ) : Prop :=
  v1 ⬝ᵥ v1 = 1 ∧ (∃ c : ℝ, 0 < c ∧ v = c • (A *ᵥ v1)) ∧ (norm1 (v - v1) ≤ tol ∨ norm1 (v + v1) ≤ tol)

/-! ## `power_iteration` -/

theorem powerLoop_spec {a : Arr ℝ} {A : Matrix (Fin n) (Fin n) ℝ} {x0 : Fin n → ℝ} {opts : Options ℝ} (hn : 0 < n)
    (ha : RM a A) (hne : ∀ k ≤ opts.maxIters, (A ^ k) *ᵥ x0 ≠ 0) (k j : Nat) (hkj : j + k = opts.maxIters)
    {x : Arr ℝ} {v : Fin n → ℝ} (hx : RV x v) (hu : v ⬝ᵥ v = 1) (hd : Dir A x0 j v) :
    ∃ l niter xf w, powerLoop a opts k j x = .ok ((l, niter), xf) ∧ RV xf w ∧
      PowerAnswer A x0 opts.maxIters l niter w ∧
      (niter < opts.maxIters → ∃ v1, StoppedAt A opts.tolerance w v1) := by
  induction k generalizing j x v with
  | zero =>
    refine ⟨_, opts.maxIters, x, v, ?_, hx, ⟨hu, rfl, le_rfl, ?_⟩, fun h => absurd h (lt_irrefl _)⟩
    · simp only [powerLoop, rayleigh_spec hn ha hx, Res.ok_bind]
    · rw [min_eq_right (by omega)]
      have : j = opts.maxIters := by omega
      rw [← this]; exact hd
  | succ k ih =>
    have h0 : A *ᵥ v ≠ 0 := hd.mulVec.ne_zero (hne (j + 1) (by omega))
    obtain ⟨y, z, c, h1, hy, h2, hc, hz, hzu⟩ := power_mul_normalize hn ha hx h0
    obtain ⟨b, h3, hb⟩ := closeUpToSign_spec opts.tolerance hz hx
    have hd' : Dir A x0 (j + 1) (c • (A *ᵥ v)) := hd.mulVec.smul hc
    cases b with
    | true =>
      refine ⟨_, j, z, _, ?_, hz, ⟨hzu, rfl, by omega, ?_⟩, fun _ => ⟨v, hu, ⟨c, hc, rfl⟩, hb.1 rfl⟩⟩
      · simp only [powerLoop, h1, h2, h3, Res.ok_bind, if_true, rayleigh_spec hn ha hz]
      · rw [min_eq_left (by omega)]; exact hd'
    | false =>
      obtain ⟨l, niter, xf, w, h4, h5⟩ := ih (j + 1) (by omega) hz hzu hd'
      refine ⟨l, niter, xf, w, ?_, h5⟩
      simp only [powerLoop, h1, h2, h3, Res.ok_bind]
      exact h4

theorem powerIteration_spec {a x : Arr ℝ} {opts : Options ℝ} (ha : a.IsMatShape n n) (hx : x.IsVecShape n)
    (hne : ∀ k ≤ opts.maxIters, (a.toMat n n ^ k) *ᵥ x.toVec n ≠ 0) :
    ∃ l niter xf, powerIteration a x opts = .ok ((l, niter), xf) ∧ xf.IsVecShape n ∧
      PowerAnswer (a.toMat n n) (x.toVec n) opts.maxIters l niter (xf.toVec n) ∧
      (niter < opts.maxIters → ∃ v1, StoppedAt (a.toMat n n) opts.tolerance (xf.toVec n) v1) := by
  have hn := pos_of_ne (hne 0 (Nat.zero_le _))
  have hx0 : x.toVec n ≠ 0 := by simpa using hne 0 (Nat.zero_le _)
  obtain ⟨z, h1, hz⟩ := normalize2_spec (⟨hx, rfl⟩ : RV x (x.toVec n))
  obtain ⟨hc, hu⟩ := unit_normalize hx0
  obtain ⟨l, niter, xf, w, h2, hw, h3, h4⟩ := powerLoop_spec hn ⟨ha, rfl⟩ hne opts.maxIters 0 (by omega) hz hu
    ⟨_, hc, by simp⟩
  refine ⟨l, niter, xf, ?_, hw.1, ?_, ?_⟩
  · simp only [powerIteration, h1, Res.ok_bind, h2]
  · rw [hw.2]; exact h3
  · rw [hw.2]; exact h4

/-- **C40** `power_iteration`: if no `A^k x` vanishes (`k ≤ max_iters`) the call returns, leaves in `x` the unit
vector in the direction of `A^k x` for the `k` its count implies, and returns the Rayleigh quotient of it. -/
theorem C40_power_iteration {a x : Arr ℝ} {opts : Options ℝ} (ha : a.IsMatShape n n) (hx : x.IsVecShape n)
    (hne : ∀ k ≤ opts.maxIters, (a.toMat n n ^ k) *ᵥ x.toVec n ≠ 0) :
    ∃ l niter xf, powerIteration a x opts = .ok ((l, niter), xf) ∧ xf.IsVecShape n ∧
      PowerAnswer (a.toMat n n) (x.toVec n) opts.maxIters l niter (xf.toVec n) := by
  obtain ⟨l, niter, xf, h1, h2, h3, _⟩ := powerIteration_spec ha hx hne
  exact ⟨l, niter, xf, h1, h2, h3⟩

/-! ## `power_iteration4` -/

/-- what holds when the 1-norm variant stops early -/
def StoppedAt1 (A : Matrix (Fin n) (Fin n) ℝ) (tol : ℝ) (w : Fin n → ℝ) : Prop :=
  ∃ v v1 : Fin n → ℝ, norm1 v = 1 ∧ norm1 v1 = 1 ∧ (∃ c : ℝ, 0 < c ∧ v = c • (A *ᵥ v1)) ∧
    (∃ c : ℝ, 0 < c ∧ w = c • v) ∧ (norm1 (v - v1) ≤ tol ∨ norm1 (v + v1) ≤ tol)

theorem norm1_normalize {v : Fin n → ℝ} (h : v ≠ 0) : 0 < (norm1 v)⁻¹ ∧ norm1 ((norm1 v)⁻¹ • v) = 1 := by
  have h1 := norm1_pos h
  refine ⟨inv_pos.2 h1, ?_⟩
  rw [norm1_smul, abs_of_pos (inv_pos.2 h1), inv_mul_cancel₀ h1.ne']

theorem power4Loop_spec {a : Arr ℝ} {A : Matrix (Fin n) (Fin n) ℝ} {x0 : Fin n → ℝ} {opts : Options ℝ} (hn : 0 < n)
    (ha : RM a A) (hne : ∀ k ≤ opts.maxIters, (A ^ k) *ᵥ x0 ≠ 0) (k j : Nat) (hkj : j + k = opts.maxIters)
    {x : Arr ℝ} {v : Fin n → ℝ} (hx : RV x v) (hu : norm1 v = 1) (hd : Dir A x0 j v) :
    ∃ l niter xf w, power4Loop a opts k j x = .ok ((l, niter), xf) ∧ RV xf w ∧
      PowerAnswer A x0 opts.maxIters l niter w ∧
      (niter < opts.maxIters → StoppedAt1 A opts.tolerance w) := by
  have hfin : ∀ (i : Nat) (x : Arr ℝ) (v : Fin n → ℝ), i ≤ opts.maxIters → RV x v → Dir A x0 i v →
      ∃ (z : Arr ℝ) (c : ℝ), normalize2 x = .ok z ∧ 0 < c ∧ RV z (c • v) ∧ (c • v) ⬝ᵥ (c • v) = 1 ∧ Dir A x0 i (c • v) := by
    intro i x v hi hx hd
    obtain ⟨z, h1, hz⟩ := normalize2_spec hx
    obtain ⟨hc, hu⟩ := unit_normalize (hd.ne_zero (hne i hi))
    exact ⟨z, (Real.sqrt (v ⬝ᵥ v))⁻¹, h1, hc, hz, hu, hd.smul hc⟩
  induction k generalizing j x v with
  | zero =>
    obtain ⟨z, c, h1, hc, hz, hzu, hzd⟩ := hfin j x v (by omega) hx hd
    refine ⟨_, opts.maxIters, z, c • v, ?_, hz, ⟨hzu, rfl, le_rfl, ?_⟩, fun h => absurd h (lt_irrefl _)⟩
    · simp only [power4Loop, h1, rayleigh_spec hn ha hz, Res.ok_bind]
    · rw [min_eq_right (by omega)]
      have : j = opts.maxIters := by omega
      rw [← this]; exact hzd
  | succ k ih =>
    have h0 : A *ᵥ v ≠ 0 := hd.mulVec.ne_zero (hne (j + 1) (by omega))
    obtain ⟨y, h1, hy⟩ := ha.dotMv hx hn
    have hz := hy.divScalar (norm1 (A *ᵥ v))
    obtain ⟨hc, hzu⟩ := norm1_normalize h0
    have hn1 : normL1 y = norm1 (A *ᵥ v) := hy.normL1
    obtain ⟨b, h3, hb⟩ := closeUpToSign_spec opts.tolerance hz hx
    have hd' : Dir A x0 (j + 1) ((norm1 (A *ᵥ v))⁻¹ • (A *ᵥ v)) := hd.mulVec.smul hc
    cases b with
    | true =>
      obtain ⟨z, c, h4, hc', hz', hzu', hzd'⟩ := hfin (j + 1) _ _ (by omega) hz hd'
      refine ⟨_, j, z, _, ?_, hz', ⟨hzu', rfl, by omega, ?_⟩, fun _ => ⟨_, v, hzu, hu, ⟨_, hc, rfl⟩, ⟨c, hc', rfl⟩,
        hb.1 rfl⟩⟩
      · simp only [power4Loop, h1, hn1, h3, Res.ok_bind, if_true, h4, rayleigh_spec hn ha hz']
      · rw [min_eq_left (by omega)]; exact hzd'
    | false =>
      obtain ⟨l, niter, xf, w, h4, h5⟩ := ih (j + 1) (by omega) hz hzu hd'
      refine ⟨l, niter, xf, w, ?_, h5⟩
      simp only [power4Loop, h1, hn1, h3, Res.ok_bind]
      exact h4

theorem powerIteration4_spec {a x : Arr ℝ} {opts : Options ℝ} (ha : a.IsMatShape n n) (hx : x.IsVecShape n)
    (hne : ∀ k ≤ opts.maxIters, (a.toMat n n ^ k) *ᵥ x.toVec n ≠ 0) :
    ∃ l niter xf, powerIteration4 a x opts = .ok ((l, niter), xf) ∧ xf.IsVecShape n ∧
      PowerAnswer (a.toMat n n) (x.toVec n) opts.maxIters l niter (xf.toVec n) ∧
      (niter < opts.maxIters → StoppedAt1 (a.toMat n n) opts.tolerance (xf.toVec n)) := by
  have hn := pos_of_ne (hne 0 (Nat.zero_le _))
  have hx0 : x.toVec n ≠ 0 := by simpa using hne 0 (Nat.zero_le _)
  have hxr : RV x (x.toVec n) := ⟨hx, rfl⟩
  obtain ⟨hc, hu⟩ := norm1_normalize hx0
  obtain ⟨l, niter, xf, w, h2, hw, h3, h4⟩ := power4Loop_spec hn ⟨ha, rfl⟩ hne opts.maxIters 0 (by omega)
    (hxr.divScalar (norm1 (x.toVec n))) hu ⟨_, hc, by simp⟩
  refine ⟨l, niter, xf, ?_, hw.1, ?_, ?_⟩
  · unfold powerIteration4
    rw [hxr.normL1]; exact h2
  · rw [hw.2]; exact h3
  · rw [hw.2]; exact h4

/-- **C40** the same for `power_iteration4` (1-norm normalisation inside, Euclidean at the end) -/
theorem C40_power_iteration4 {a x : Arr ℝ} {opts : Options ℝ} (ha : a.IsMatShape n n) (hx : x.IsVecShape n)
    (hne : ∀ k ≤ opts.maxIters, (a.toMat n n ^ k) *ᵥ x.toVec n ≠ 0) :
    ∃ l niter xf, powerIteration4 a x opts = .ok ((l, niter), xf) ∧ xf.IsVecShape n ∧
      PowerAnswer (a.toMat n n) (x.toVec n) opts.maxIters l niter (xf.toVec n) := by
  obtain ⟨l, niter, xf, h1, h2, h3, _⟩ := powerIteration4_spec ha hx hne
  exact ⟨l, niter, xf, h1, h2, h3⟩

/-! ## `power_iteration2` -/

theorem power2Loop_spec {a : Arr ℝ} {A : Matrix (Fin n) (Fin n) ℝ} {x0 : Fin n → ℝ} {opts : Options ℝ} (hn : 0 < n)
    (ha : RM a A) (hne : ∀ k ≤ opts.maxIters, (A ^ k) *ᵥ x0 ≠ 0) (k j : Nat) (hkj : j + k = opts.maxIters)
    {x y : Arr ℝ} {v : Fin n → ℝ} (hx : RV x v) (hy : RV y (A *ᵥ v)) (hu : v ⬝ᵥ v = 1) (hd : Dir A x0 j v) :
    ∃ l niter xf w, power2Loop a opts k j x y (v ⬝ᵥ (A *ᵥ v)) = .ok ((l, niter), xf) ∧ RV xf w ∧
      PowerAnswer A x0 opts.maxIters l niter w := by
  induction k generalizing j x y v with
  | zero =>
    refine ⟨_, opts.maxIters, x, v, rfl, hx, ⟨hu, rfl, le_rfl, ?_⟩⟩
    rw [min_eq_right (by omega)]
    have : j = opts.maxIters := by omega
    rw [← this]; exact hd
  | succ k ih =>
    have h0 : A *ᵥ v ≠ 0 := hd.mulVec.ne_zero (hne (j + 1) (by omega))
    obtain ⟨z, h2, hz⟩ := normalize2_spec hy
    obtain ⟨hc, hzu⟩ := unit_normalize h0
    have hd' := hd.mulVec.smul hc
    obtain ⟨y', h3, hy'⟩ := ha.dotMv hz hn
    simp only [power2Loop, h2, h3, hz.dot hy', Res.ok_bind]
    split
    · exact ⟨_, j, z, _, rfl, hz, ⟨hzu, rfl, by omega, by rw [min_eq_left (by omega)]; exact hd'⟩⟩
    · exact ih (j + 1) (by omega) hz hy' hzu hd'

/-- **C40** the same for `power_iteration2` (stops when the eigenvalue estimate settles) -/
theorem C40_power_iteration2 {a x : Arr ℝ} {opts : Options ℝ} (ha : a.IsMatShape n n) (hx : x.IsVecShape n)
    (hne : ∀ k ≤ opts.maxIters, (a.toMat n n ^ k) *ᵥ x.toVec n ≠ 0) :
    ∃ l niter xf, powerIteration2 a x opts = .ok ((l, niter), xf) ∧ xf.IsVecShape n ∧
      PowerAnswer (a.toMat n n) (x.toVec n) opts.maxIters l niter (xf.toVec n) := by
  have hn := pos_of_ne (hne 0 (Nat.zero_le _))
  have hx0 : x.toVec n ≠ 0 := by simpa using hne 0 (Nat.zero_le _)
  have ha' : RM a (a.toMat n n) := ⟨ha, rfl⟩
  obtain ⟨z, h1, hz⟩ := normalize2_spec (⟨hx, rfl⟩ : RV x (x.toVec n))
  obtain ⟨hc, hu⟩ := unit_normalize hx0
  obtain ⟨y, h2, hy⟩ := ha'.dotMv hz hn
  obtain ⟨l, niter, xf, w, h3, hw, h4⟩ := power2Loop_spec hn ha' hne opts.maxIters 0 (by omega) hz hy hu
    ⟨_, hc, by simp⟩
  refine ⟨l, niter, xf, ?_, hw.1, ?_⟩
  · simp only [powerIteration2, h1, h2, hz.dot hy, Res.ok_bind, h3]
  · rw [hw.2]; exact h4

/-! ## `power_iteration3` -/

theorem power3Loop_spec {a : Arr ℝ} {A : Matrix (Fin n) (Fin n) ℝ} {x0 : Fin n → ℝ} {opts : Options ℝ} (hn : 0 < n)
    (ha : RM a A) (hne : ∀ k ≤ opts.maxIters, (A ^ k) *ᵥ x0 ≠ 0) (k j : Nat) (hkj : j + k = opts.maxIters)
    {x y : Arr ℝ} {v : Fin n → ℝ} {e : ℝ} (hx : RV x v) (hy : RV y (A *ᵥ v)) (hd : Dir A x0 j v)
    (he : e = v ⬝ᵥ (A *ᵥ v) / (v ⬝ᵥ v)) :
    ∃ l niter xf w, power3Loop a opts k j x y e = .ok ((l, niter), xf) ∧ RV xf w ∧ niter ≤ opts.maxIters ∧
      l = w ⬝ᵥ (A *ᵥ w) / (w ⬝ᵥ w) ∧ Dir A x0 (min (niter + 1) opts.maxIters) w ∧
      (niter < opts.maxIters → w ⬝ᵥ w = 1) := by
  induction k generalizing j x y v e with
  | zero =>
    refine ⟨e, opts.maxIters, x, v, rfl, hx, le_rfl, he, ?_, fun h => absurd h (lt_irrefl _)⟩
    rw [min_eq_right (by omega)]
    have : j = opts.maxIters := by omega
    rw [← this]; exact hd
  | succ k ih =>
    have h0 : A *ᵥ v ≠ 0 := hd.mulVec.ne_zero (hne (j + 1) (by omega))
    obtain ⟨z, h2, hz⟩ := normalize2_spec hy
    obtain ⟨hc, hzu⟩ := unit_normalize h0
    have hmin : min (j + 1) opts.maxIters = j + 1 := min_eq_left (by omega)
    simp only [power3Loop, hy.dot hy, Res.ok_bind]
    set w := A *ᵥ v with hw
    set q := Real.sqrt (w ⬝ᵥ w) with hq
    have hray : (q⁻¹ • w) ⬝ᵥ (A *ᵥ (q⁻¹ • w)) / ((q⁻¹ • w) ⬝ᵥ (q⁻¹ • w)) = w ⬝ᵥ (A *ᵥ w) / (w ⬝ᵥ w) := by
      have hww := dot_self_pos h0
      have hqq : q * q = w ⬝ᵥ w := Real.mul_self_sqrt hww.le
      rw [hzu, div_one, mulVec_smul, smul_dotProduct, dotProduct_smul, smul_eq_mul, smul_eq_mul, ← mul_assoc,
        ← mul_inv, hqq, div_eq_inv_mul]
    by_cases hbig : ((10 ^ 150 : Nat) : ℝ) ≤ w ⬝ᵥ w
    · rw [Scalar.real_ge, if_pos (by simpa using hbig), h2, Res.ok_bind]
      obtain ⟨y', h3, hy'⟩ := ha.dotMv hz hn
      rw [h3, Res.ok_bind, hz.dot hy', Res.ok_bind]
      have he' : (q⁻¹ • w) ⬝ᵥ (A *ᵥ (q⁻¹ • w)) = (q⁻¹ • w) ⬝ᵥ (A *ᵥ (q⁻¹ • w)) / ((q⁻¹ • w) ⬝ᵥ (q⁻¹ • w)) := by
        rw [hzu, div_one]
      split
      · exact ⟨_, j, z, _, rfl, hz, by omega, he', by rw [hmin]; exact hd.mulVec.smul hc, fun _ => hzu⟩
      · exact ih (j + 1) (by omega) hz hy' (hd.mulVec.smul hc) he'
    · rw [Scalar.real_ge, if_neg (by simpa using hbig)]
      obtain ⟨y', h3, hy'⟩ := ha.dotMv hy hn
      rw [h3, Res.ok_bind, hy.dot hy', Res.ok_bind]
      split
      · rw [h2, Res.ok_bind]
        exact ⟨_, j, z, _, rfl, hz, by omega, hray.symm, by rw [hmin]; exact hd.mulVec.smul hc, fun _ => hzu⟩
      · exact ih (j + 1) (by omega) hy hy' hd.mulVec rfl

/-- **C40 (partial)** `power_iteration3`: the returned value is the Rayleigh quotient of the vector left in `x`, which
points in the direction of `A^k x`.  It is a unit vector only when the loop stopped early; when the iterations run
out it is not normalised (missing: the unit norm in that case, which is false, see the next theorem). -/
theorem C40_power_iteration3_partial {a x : Arr ℝ} {opts : Options ℝ} (ha : a.IsMatShape n n) (hx : x.IsVecShape n)
    (hne : ∀ k ≤ opts.maxIters, (a.toMat n n ^ k) *ᵥ x.toVec n ≠ 0) :
    ∃ l niter xf, powerIteration3 a x opts = .ok ((l, niter), xf) ∧ xf.IsVecShape n ∧ niter ≤ opts.maxIters ∧
      l = xf.toVec n ⬝ᵥ (a.toMat n n *ᵥ xf.toVec n) / (xf.toVec n ⬝ᵥ xf.toVec n) ∧
      (∃ c : ℝ, 0 < c ∧ xf.toVec n = c • ((a.toMat n n ^ (min (niter + 1) opts.maxIters)) *ᵥ x.toVec n)) ∧
      (niter < opts.maxIters → xf.toVec n ⬝ᵥ xf.toVec n = 1) := by
  have hn := pos_of_ne (hne 0 (Nat.zero_le _))
  have ha' : RM a (a.toMat n n) := ⟨ha, rfl⟩
  have hx' : RV x (x.toVec n) := ⟨hx, rfl⟩
  obtain ⟨y, h2, hy⟩ := ha'.dotMv hx' hn
  obtain ⟨l, niter, xf, w, h3, hw, h4⟩ := power3Loop_spec hn ha' hne opts.maxIters 0 (by omega) hx' hy
    ⟨1, one_pos, by simp⟩ rfl
  refine ⟨l, niter, xf, ?_, hw.1, ?_⟩
  · simp only [powerIteration3, h2, hx'.dot hx', hx'.dot hy, Res.ok_bind, h3]
  · rw [hw.2]; exact h4

/-! ## Eigenvalue bounds -/

section Spectral
variable {A : Matrix (Fin n) (Fin n) ℝ} (hA : A.IsHermitian)

/-- an orthonormal eigenvector, as a plain vector -/
noncomputable def eigVec (i : Fin n) : Fin n → ℝ := (hA.eigenvectorBasis i).ofLp

theorem eig_parseval (v w : Fin n → ℝ) : v ⬝ᵥ w = ∑ i, (eigVec hA i ⬝ᵥ v) * (eigVec hA i ⬝ᵥ w) := by
  have h := hA.eigenvectorBasis.sum_inner_mul_inner (WithLp.toLp 2 v) (WithLp.toLp 2 w)
  simp only [EuclideanSpace.inner_eq_star_dotProduct, star_trivial] at h
  rw [dotProduct_comm v w, ← h]
  refine Finset.sum_congr rfl fun i _ => ?_
  rw [dotProduct_comm w]
  rfl

theorem eig_mulVec (i : Fin n) (v : Fin n → ℝ) :
    eigVec hA i ⬝ᵥ (A *ᵥ v) = hA.eigenvalues i * (eigVec hA i ⬝ᵥ v) := by
  have hs : A.IsSymm := by
    rw [IsHermitian, conjTranspose_eq_transpose_of_trivial] at hA; exact hA
  rw [sym_dot hs]
  have := hA.mulVec_eigenvectorBasis i
  show v ⬝ᵥ (A *ᵥ (hA.eigenvectorBasis i).ofLp) = _
  rw [this, dotProduct_smul, smul_eq_mul, dotProduct_comm]
  rfl

theorem eig_quad (v : Fin n → ℝ) : v ⬝ᵥ (A *ᵥ v) = ∑ i, hA.eigenvalues i * (eigVec hA i ⬝ᵥ v) ^ 2 := by
  rw [eig_parseval hA]
  refine Finset.sum_congr rfl fun i _ => ?_
  rw [eig_mulVec]; ring

theorem eig_unit {v : Fin n → ℝ} (h : v ⬝ᵥ v = 1) : ∑ i, (eigVec hA i ⬝ᵥ v) ^ 2 = 1 := by
  rw [← h, eig_parseval hA]
  exact Finset.sum_congr rfl fun i _ => by ring

/-- with weights summing to one, not all `t i` exceed the weighted mean bound -/
theorem exists_le_of_weighted {t c : Fin n → ℝ} {m : ℝ} (hc : ∑ i, c i ^ 2 = 1) (ht : ∑ i, t i * c i ^ 2 ≤ m) :
    ∃ i, t i ≤ m := by
  by_contra hcon
  push Not at hcon
  have h1 : ∑ i, (t i - m) * c i ^ 2 ≤ 0 := by
    simp only [sub_mul, Finset.sum_sub_distrib, ← Finset.mul_sum, hc]; linarith
  have h2 : ∀ i ∈ Finset.univ, 0 ≤ (t i - m) * c i ^ 2 := fun i _ =>
    mul_nonneg (by linarith [hcon i]) (sq_nonneg _)
  have h3 := (Finset.sum_eq_zero_iff_of_nonneg h2).1 (le_antisymm h1 (Finset.sum_nonneg h2))
  have h4 : ∑ i, c i ^ 2 = 0 := Finset.sum_eq_zero fun i hi => by
    rcases mul_eq_zero.1 (h3 i hi) with h | h
    · linarith [hcon i]
    · exact h
  rw [hc] at h4
  exact one_ne_zero h4

end Spectral

/-- **C40** For symmetric `A` the value returned by any of the variants lies between two eigenvalues of `A`
(so between the smallest and the largest). -/
theorem C40_between_eigenvalues {A : Matrix (Fin n) (Fin n) ℝ} (hA : A.IsHermitian) {x0 xf : Fin n → ℝ} {l : ℝ}
    {maxIters niter : Nat} (h : PowerAnswer A x0 maxIters l niter xf) :
    (∃ i, hA.eigenvalues i ≤ l) ∧ ∃ i, l ≤ hA.eigenvalues i := by
  have hc := eig_unit hA h.unit
  have hl := h.value
  rw [eig_quad hA] at hl
  refine ⟨exists_le_of_weighted hc hl.ge, ?_⟩
  obtain ⟨i, hi⟩ := exists_le_of_weighted (t := fun i => - hA.eigenvalues i) (m := -l) hc
    (by simp only [neg_mul, Finset.sum_neg_distrib]; linarith)
  exact ⟨i, by linarith⟩

/-! ## C41 -/

theorem sq_le_norm1 (v : Fin n → ℝ) : v ⬝ᵥ v ≤ norm1 v ^ 2 := by
  have h : ∀ i, |v i| ≤ norm1 v := fun i =>
    Finset.single_le_sum (f := fun i => |v i|) (fun j _ => abs_nonneg _) (Finset.mem_univ i)
  have h0 : 0 ≤ norm1 v := Finset.sum_nonneg fun _ _ => abs_nonneg _
  calc v ⬝ᵥ v = ∑ i, |v i| * |v i| := by simp [dotProduct, abs_mul_abs_self]
    _ ≤ ∑ i, |v i| * norm1 v := Finset.sum_le_sum fun i _ => mul_le_mul_of_nonneg_left (h i) (abs_nonneg _)
    _ = norm1 v ^ 2 := by rw [← Finset.sum_mul, sq]; rfl

theorem residual_min {A : Matrix (Fin n) (Fin n) ℝ} {v : Fin n → ℝ} (hu : v ⬝ᵥ v = 1) (mu : ℝ) :
    (A *ᵥ v - (v ⬝ᵥ (A *ᵥ v)) • v) ⬝ᵥ (A *ᵥ v - (v ⬝ᵥ (A *ᵥ v)) • v) ≤ (A *ᵥ v - mu • v) ⬝ᵥ (A *ᵥ v - mu • v) := by
  have e : ∀ t : ℝ, (A *ᵥ v - t • v) ⬝ᵥ (A *ᵥ v - t • v)
      = (A *ᵥ v) ⬝ᵥ (A *ᵥ v) - 2 * t * (v ⬝ᵥ (A *ᵥ v)) + t ^ 2 := by
    intro t
    rw [sub_dotProduct, dotProduct_sub, dotProduct_sub, smul_dotProduct, smul_dotProduct, dotProduct_smul,
      dotProduct_smul, hu, dotProduct_comm (A *ᵥ v) v]
    simp only [smul_eq_mul]; ring
  rw [e, e]
  nlinarith [sq_nonneg (mu - v ⬝ᵥ (A *ᵥ v))]

/-- the residual of a unit vector `v` parallel to some `A v1` with `v` close to `v1` up to sign -/
theorem residual_of_close {A : Matrix (Fin n) (Fin n) ℝ} {v v1 : Fin n → ℝ} {c tol L : ℝ} (hu : v ⬝ᵥ v = 1)
    (hc : 0 < c) (hv : v = c • (A *ᵥ v1)) (hcl : norm1 (v - v1) ≤ tol ∨ norm1 (v + v1) ≤ tol) (hL : 0 ≤ L)
    (hop : ∀ u : Fin n → ℝ, (A *ᵥ u) ⬝ᵥ (A *ᵥ u) ≤ L ^ 2 * (u ⬝ᵥ u)) :
    Real.sqrt ((A *ᵥ v - (v ⬝ᵥ (A *ᵥ v)) • v) ⬝ᵥ (A *ᵥ v - (v ⬝ᵥ (A *ᵥ v)) • v)) ≤ L * tol := by
  have hAv1 : A *ᵥ v1 = c⁻¹ • v := by rw [hv, smul_smul, inv_mul_cancel₀ hc.ne', one_smul]
  have key : ∀ s : ℝ, norm1 (v - s • v1) ≤ tol →
      Real.sqrt ((A *ᵥ v - (v ⬝ᵥ (A *ᵥ v)) • v) ⬝ᵥ (A *ᵥ v - (v ⬝ᵥ (A *ᵥ v)) • v)) ≤ L * tol := by
    intro s hs
    have h0 : 0 ≤ norm1 (v - s • v1) := Finset.sum_nonneg fun _ _ => abs_nonneg _
    have h1 := residual_min (A := A) hu (s * c⁻¹)
    have h2 : A *ᵥ v - (s * c⁻¹) • v = A *ᵥ (v - s • v1) := by
      rw [mulVec_sub, mulVec_smul, hAv1, smul_smul]
    rw [h2] at h1
    have h3 := hop (v - s • v1)
    have h4 := sq_le_norm1 (v - s • v1)
    apply Real.sqrt_le_iff.2
    refine ⟨mul_nonneg hL (h0.trans hs), h1.trans (h3.trans ?_)⟩
    rw [mul_pow]
    exact mul_le_mul_of_nonneg_left (h4.trans (pow_le_pow_left₀ h0 hs 2)) (sq_nonneg L)
  rcases hcl with h | h
  · exact key 1 (by simpa using h)
  · exact key (-1) (by simpa using h)

/-- **C41** If `power_iteration` reports fewer than `max_iters` iterations, the vector `x` it leaves is the normalised
image of a unit vector `x1` that agrees with `x` up to sign and up to `tol` in the 1-norm. -/
theorem C41_stop_criterion {a x xf : Arr ℝ} {opts : Options ℝ} {l : ℝ} {niter : Nat} (ha : a.IsMatShape n n)
    (hx : x.IsVecShape n) (hne : ∀ k ≤ opts.maxIters, (a.toMat n n ^ k) *ᵥ x.toVec n ≠ 0)
    (hrun : powerIteration a x opts = .ok ((l, niter), xf)) (hstop : niter < opts.maxIters) :
    ∃ x1 : Fin n → ℝ, x1 ⬝ᵥ x1 = 1 ∧
      (norm1 (xf.toVec n - x1) ≤ opts.tolerance ∨ norm1 (xf.toVec n + x1) ≤ opts.tolerance) ∧
      a.toMat n n *ᵥ x1 = Real.sqrt ((a.toMat n n *ᵥ x1) ⬝ᵥ (a.toMat n n *ᵥ x1)) • xf.toVec n := by
  obtain ⟨l', niter', xf', h1, h2, h3, h4⟩ := powerIteration_spec ha hx hne
  rw [hrun] at h1
  injection h1 with h1
  simp only [Prod.mk.injEq] at h1
  obtain ⟨⟨rfl, rfl⟩, rfl⟩ := h1
  obtain ⟨v1, h5, ⟨c, hc, h6⟩, h7⟩ := h4 hstop
  refine ⟨v1, h5, h7, ?_⟩
  have hu := h3.unit
  have hcc : c ^ 2 * ((a.toMat n n *ᵥ v1) ⬝ᵥ (a.toMat n n *ᵥ v1)) = 1 := by
    rw [← hu, h6, smul_dotProduct, dotProduct_smul, smul_eq_mul, smul_eq_mul]; ring
  have hs : Real.sqrt ((a.toMat n n *ᵥ v1) ⬝ᵥ (a.toMat n n *ᵥ v1)) = c⁻¹ := by
    rw [Real.sqrt_eq_iff_mul_self_eq_of_pos (inv_pos.2 hc), ← mul_inv, inv_eq_iff_eq_inv, ← sq]
    exact eq_inv_of_mul_eq_one_left hcc
  rw [hs, h6, smul_smul, inv_mul_cancel₀ hc.ne', one_smul]

/-- **C41** If `power_iteration` stops early, the returned pair `(l, x)` is an approximate eigenpair: the Euclidean norm
of `A x - l x` is at most `L * tol` for every `L` bounding the operator norm of `A`. -/
theorem C41_residual {a x xf : Arr ℝ} {opts : Options ℝ} {l L : ℝ} {niter : Nat} (ha : a.IsMatShape n n)
    (hx : x.IsVecShape n) (hne : ∀ k ≤ opts.maxIters, (a.toMat n n ^ k) *ᵥ x.toVec n ≠ 0)
    (hrun : powerIteration a x opts = .ok ((l, niter), xf)) (hstop : niter < opts.maxIters) (hL : 0 ≤ L)
    (hop : ∀ u : Fin n → ℝ, (a.toMat n n *ᵥ u) ⬝ᵥ (a.toMat n n *ᵥ u) ≤ L ^ 2 * (u ⬝ᵥ u)) :
    Real.sqrt ((a.toMat n n *ᵥ xf.toVec n - l • xf.toVec n) ⬝ᵥ (a.toMat n n *ᵥ xf.toVec n - l • xf.toVec n))
      ≤ L * opts.tolerance := by
  obtain ⟨l', niter', xf', h1, h2, h3, h4⟩ := powerIteration_spec ha hx hne
  rw [hrun] at h1
  injection h1 with h1
  simp only [Prod.mk.injEq] at h1
  obtain ⟨⟨rfl, rfl⟩, rfl⟩ := h1
  obtain ⟨v1, h5, ⟨c, hc, h6⟩, h7⟩ := h4 hstop
  have := residual_of_close h3.unit hc h6 h7 hL hop
  rw [← h3.value] at this
  exact this

/-- **C41** For symmetric `A` an early stop means that a true eigenvalue lies within `L * tol` of the returned value. -/
theorem C41_eigenvalue_near {a x xf : Arr ℝ} {opts : Options ℝ} {l L : ℝ} {niter : Nat} (ha : a.IsMatShape n n)
    (hsym : (a.toMat n n).IsHermitian) (hx : x.IsVecShape n)
    (hne : ∀ k ≤ opts.maxIters, (a.toMat n n ^ k) *ᵥ x.toVec n ≠ 0)
    (hrun : powerIteration a x opts = .ok ((l, niter), xf)) (hstop : niter < opts.maxIters) (hL : 0 ≤ L)
    (hop : ∀ u : Fin n → ℝ, (a.toMat n n *ᵥ u) ⬝ᵥ (a.toMat n n *ᵥ u) ≤ L ^ 2 * (u ⬝ᵥ u)) :
    ∃ i, |hsym.eigenvalues i - l| ≤ L * opts.tolerance := by
  have hres := C41_residual ha hx hne hrun hstop hL hop
  obtain ⟨l', niter', xf', h1, h2, h3⟩ := C40_power_iteration ha hx hne
  rw [hrun] at h1
  injection h1 with h1
  simp only [Prod.mk.injEq] at h1
  obtain ⟨⟨rfl, rfl⟩, rfl⟩ := h1
  have h0 : 0 ≤ L * opts.tolerance := (Real.sqrt_nonneg _).trans hres
  have hsq := (Real.sqrt_le_iff.1 hres).2
  rw [eig_parseval hsym] at hsq
  obtain ⟨i, hi⟩ := exists_le_of_weighted (t := fun i => (hsym.eigenvalues i - l) ^ 2) (m := (L * opts.tolerance) ^ 2)
    (eig_unit hsym h3.unit) (by
      refine le_trans (le_of_eq (Finset.sum_congr rfl fun i _ => ?_)) hsq
      rw [dotProduct_sub, dotProduct_smul, eig_mulVec, smul_eq_mul]; ring)
  exact ⟨i, abs_le_of_sq_le_sq hi h0⟩

/-- **C41** Started at an eigenvector with non-zero eigenvalue, `power_iteration` stops at its first iteration and returns
that eigenvalue exactly. -/
theorem C41_eigenvector_start {a x : Arr ℝ} {opts : Options ℝ} {mu : ℝ} (ha : a.IsMatShape n n) (hx : x.IsVecShape n)
    (hx0 : x.toVec n ≠ 0) (hmu : mu ≠ 0) (heig : a.toMat n n *ᵥ x.toVec n = mu • x.toVec n)
    (htol : 0 ≤ opts.tolerance) (hm : 0 < opts.maxIters) :
    ∃ xf, powerIteration a x opts = .ok ((mu, 0), xf) ∧ xf.IsVecShape n ∧
      a.toMat n n *ᵥ xf.toVec n = mu • xf.toVec n ∧ xf.toVec n ⬝ᵥ xf.toVec n = 1 := by
  have hn : 0 < n := by
    rcases Nat.eq_zero_or_pos n with h0 | h0
    · subst h0; exact absurd (Subsingleton.elim _ _) hx0
    · exact h0
  have ha' : RM a (a.toMat n n) := ⟨ha, rfl⟩
  obtain ⟨z, h1, hz⟩ := normalize2_spec (⟨hx, rfl⟩ : RV x (x.toVec n))
  obtain ⟨hc, hu⟩ := unit_normalize hx0
  set v := (Real.sqrt (x.toVec n ⬝ᵥ x.toVec n))⁻¹ • x.toVec n with hv
  have hAv : a.toMat n n *ᵥ v = mu • v := by rw [hv, mulVec_smul, heig, smul_comm]
  have hv0 : v ≠ 0 := by intro h; rw [h] at hu; simp at hu
  obtain ⟨y, w, c, h2, hy, h3, hc', hw, hwu⟩ := power_mul_normalize hn ha' hz (by rw [hAv]; exact smul_ne_zero hmu hv0)
  -- the new vector is plus or minus the old one
  have hcm : (c * mu) ^ 2 = 1 := by
    rw [hAv, smul_smul, smul_dotProduct, dotProduct_smul, hu, smul_eq_mul, smul_eq_mul] at hwu
    nlinarith
  have hpm : c * mu = 1 ∨ c * mu = -1 := by
    rcases mul_self_eq_one_iff.1 (show c * mu * (c * mu) = 1 by rw [← sq]; exact hcm) with h | h
    · exact Or.inl h
    · exact Or.inr h
  rw [hAv, smul_smul] at hw hwu
  obtain ⟨b, h4, hb⟩ := closeUpToSign_spec opts.tolerance hw hz
  have hbt : b = true := by
    apply hb.2
    rcases hpm with h | h
    · left; rw [h, one_smul, sub_self]; simpa [norm1] using htol
    · right; rw [h, neg_one_smul, neg_add_cancel]; simpa [norm1] using htol
  subst hbt
  have hAw : a.toMat n n *ᵥ ((c * mu) • v) = mu • ((c * mu) • v) := by rw [mulVec_smul, hAv, smul_comm]
  obtain ⟨k, hk⟩ : ∃ k, opts.maxIters = k + 1 := ⟨opts.maxIters - 1, by omega⟩
  refine ⟨w, ?_, hw.1, ?_, ?_⟩
  · simp only [powerIteration, h1, Res.ok_bind, hk, powerLoop, h2, h3, h4, if_true, rayleigh_spec hn ha' hw]
    rw [hAw, dotProduct_smul, hwu, smul_eq_mul, mul_one]
  · rw [hw.2]; exact hAw
  · rw [hw.2]; exact hwu

theorem norm1_sq_le (v : Fin n → ℝ) : norm1 v ^ 2 ≤ n * (v ⬝ᵥ v) := by
  have h := Finset.sum_mul_sq_le_sq_mul_sq Finset.univ (fun _ : Fin n => (1 : ℝ)) (fun i => |v i|)
  simp only [one_mul, one_pow, Finset.sum_const, Finset.card_univ, Fintype.card_fin, nsmul_eq_mul, mul_one,
    sq_abs] at h
  simpa [norm1, dotProduct, sq] using h

/-- **C41** If `power_iteration4` stops early, the Euclidean norm of `A x - l x` is at most `√n * L * tol`. -/
theorem C41_residual4 {a x xf : Arr ℝ} {opts : Options ℝ} {l L : ℝ} {niter : Nat} (ha : a.IsMatShape n n)
    (hx : x.IsVecShape n) (hne : ∀ k ≤ opts.maxIters, (a.toMat n n ^ k) *ᵥ x.toVec n ≠ 0)
    (hrun : powerIteration4 a x opts = .ok ((l, niter), xf)) (hstop : niter < opts.maxIters) (hL : 0 ≤ L)
    (hop : ∀ u : Fin n → ℝ, (a.toMat n n *ᵥ u) ⬝ᵥ (a.toMat n n *ᵥ u) ≤ L ^ 2 * (u ⬝ᵥ u)) :
    Real.sqrt ((a.toMat n n *ᵥ xf.toVec n - l • xf.toVec n) ⬝ᵥ (a.toMat n n *ᵥ xf.toVec n - l • xf.toVec n))
      ≤ Real.sqrt n * L * opts.tolerance := by
  obtain ⟨l', niter', xf', h1, h2, h3, h4⟩ := powerIteration4_spec ha hx hne
  rw [hrun] at h1
  injection h1 with h1
  simp only [Prod.mk.injEq] at h1
  obtain ⟨⟨rfl, rfl⟩, rfl⟩ := h1
  obtain ⟨v, v1, h5, h6, ⟨c, hc, h7⟩, ⟨d, hd, h8⟩, h9⟩ := h4 hstop
  -- `d ≤ √n`
  have hdn : d ≤ Real.sqrt n := by
    apply Real.le_sqrt_of_sq_le
    have e1 : d ^ 2 * (v ⬝ᵥ v) = 1 := by
      rw [← h3.unit, h8, smul_dotProduct, dotProduct_smul, smul_eq_mul, smul_eq_mul]; ring
    have e2 := norm1_sq_le v
    rw [h5] at e2
    have e3 : 0 < v ⬝ᵥ v := by
      by_contra h
      have : d ^ 2 * (v ⬝ᵥ v) ≤ 0 := mul_nonpos_of_nonneg_of_nonpos (sq_nonneg _) (not_lt.1 h)
      linarith
    nlinarith [sq_nonneg d]
  have htol : 0 ≤ opts.tolerance := by
    rcases h9 with h | h <;> exact le_trans (Finset.sum_nonneg fun _ _ => abs_nonneg _) h
  have hcl : norm1 (xf.toVec n - d • v1) ≤ d * opts.tolerance ∨ norm1 (xf.toVec n + d • v1) ≤ d * opts.tolerance := by
    rw [h8, ← smul_sub, ← smul_add, norm1_smul, norm1_smul, abs_of_pos hd]
    exact h9.imp (fun h => mul_le_mul_of_nonneg_left h hd.le) (fun h => mul_le_mul_of_nonneg_left h hd.le)
  have hpar : xf.toVec n = c • (a.toMat n n *ᵥ (d • v1)) := by
    rw [h8, h7, mulVec_smul, smul_comm]
  have := residual_of_close h3.unit hc hpar hcl hL hop
  rw [← h3.value] at this
  refine this.trans ?_
  have h10 := mul_le_mul_of_nonneg_right hdn (mul_nonneg hL htol)
  nlinarith

/-! ## Concrete runs -/

namespace ExPow

/-- `[[3,1],[1,3]]`, the matrix of the documentation example -/
def a2 : Arr ℝ := ⟨[3, 1, 1, 3], 2, 2⟩
/-- `(1,0)` -/
def x2 : Arr ℝ := ⟨[1, 0], 2, 0⟩
/-- `(1,1)`, the start of the documentation example -/
def e2 : Arr ℝ := ⟨[1, 1], 2, 0⟩
theorem a2_shape : a2.IsMatShape 2 2 := ⟨rfl, rfl, rfl⟩
theorem x2_shape : x2.IsVecShape 2 := ⟨rfl, rfl, rfl⟩
theorem e2_shape : e2.IsVecShape 2 := ⟨rfl, rfl, rfl⟩
theorem a2_mat : a2.toMat 2 2 = !![3, 1; 1, 3] := by
  ext i j; fin_cases i <;> fin_cases j <;> simp [a2, Arr.toMat, Arr.mat]
theorem x2_vec : x2.toVec 2 = ![1, 0] := by
  ext i; fin_cases i <;> simp [x2, Arr.toVec, Arr.vec]
theorem e2_vec : e2.toVec 2 = ![1, 1] := by
  ext i; fin_cases i <;> simp [e2, Arr.toVec, Arr.vec]

/-- no power of `A` annihilates the start -/
theorem a2_powers (k : Nat) : (a2.toMat 2 2 ^ k) *ᵥ x2.toVec 2 ≠ 0 := by
  have h : ∀ k, 0 < ((a2.toMat 2 2 ^ k) *ᵥ x2.toVec 2) 0 ∧ 0 ≤ ((a2.toMat 2 2 ^ k) *ᵥ x2.toVec 2) 1 := by
    intro k
    induction k with
    | zero => rw [x2_vec]; simp
    | succ k ih =>
      obtain ⟨h0, h1⟩ := ih
      rw [pow_succ', ← mulVec_mulVec]
      generalize (a2.toMat 2 2 ^ k) *ᵥ x2.toVec 2 = v at *
      rw [a2_mat]
      simp [mulVec, dotProduct, Fin.sum_univ_two]
      constructor <;> linarith
  intro h0
  have := (h k).1
  rw [h0] at this
  simp at this

/-- C40 applies to a start that is not an eigenvector -/
example (opts : Options ℝ) : ∃ l niter xf, powerIteration a2 x2 opts = .ok ((l, niter), xf) ∧ xf.IsVecShape 2 ∧
    PowerAnswer (a2.toMat 2 2) (x2.toVec 2) opts.maxIters l niter (xf.toVec 2) :=
  C40_power_iteration a2_shape x2_shape fun k _ => a2_powers k

/-- C41 on the documentation example: the start is an eigenvector for 4 -/
example : ∃ xf, powerIteration a2 e2 ⟨100, 1 / 1000000⟩ = .ok ((4, 0), xf) ∧ xf.IsVecShape 2 ∧
      a2.toMat 2 2 *ᵥ xf.toVec 2 = (4 : ℝ) • xf.toVec 2 ∧ xf.toVec 2 ⬝ᵥ xf.toVec 2 = 1 := by
  refine C41_eigenvector_start a2_shape e2_shape ?_ (by norm_num) ?_ (by norm_num) (by norm_num)
  · rw [e2_vec]; intro h; have := congrFun h 0; simp at this
  · rw [e2_vec, a2_mat]; ext i; fin_cases i <;> simp [mulVec, dotProduct, Fin.sum_univ_two] <;> norm_num

theorem op2 (u : Fin 2 → ℝ) : (a2.toMat 2 2 *ᵥ u) ⬝ᵥ (a2.toMat 2 2 *ᵥ u) ≤ 4 ^ 2 * (u ⬝ᵥ u) := by
  rw [a2_mat]
  simp [mulVec, dotProduct, Fin.sum_univ_two]
  nlinarith [sq_nonneg (u 0 - u 1)]

/-- the hypotheses of C41 with an early stop are met: tolerance 4 stops at the first iteration from `(1,0)` -/
example : ∃ l xf, powerIteration a2 x2 ⟨1, 4⟩ = .ok ((l, 0), xf) ∧
    Real.sqrt ((a2.toMat 2 2 *ᵥ xf.toVec 2 - l • xf.toVec 2) ⬝ᵥ (a2.toMat 2 2 *ᵥ xf.toVec 2 - l • xf.toVec 2)) ≤ 4 * 4 := by
  have hx' : RV x2 (x2.toVec 2) := ⟨x2_shape, rfl⟩
  have ha' : RM a2 (a2.toMat 2 2) := ⟨a2_shape, rfl⟩
  have hx0 : x2.toVec 2 ≠ 0 := by simpa using a2_powers 0
  obtain ⟨z, h1, hz⟩ := normalize2_spec hx'
  obtain ⟨hc, hu⟩ := unit_normalize hx0
  have hd : Dir (a2.toMat 2 2) (x2.toVec 2) 0 ((Real.sqrt (x2.toVec 2 ⬝ᵥ x2.toVec 2))⁻¹ • x2.toVec 2) := ⟨_, hc, by simp⟩
  obtain ⟨y, w, c, h2, hy, h3, hc', hw, hwu⟩ := power_mul_normalize (by norm_num) ha' hz
    (hd.mulVec.ne_zero (a2_powers 1))
  obtain ⟨b, h4, hb⟩ := closeUpToSign_spec 4 hw hz
  have hn1 : ∀ v : Fin 2 → ℝ, v ⬝ᵥ v = 1 → norm1 v ≤ 2 := by
    intro v hv
    have h5 := norm1_sq_le v
    rw [hv] at h5
    norm_num at h5
    have : 0 ≤ norm1 v := Finset.sum_nonneg fun _ _ => abs_nonneg _
    nlinarith
  have hbt : b = true := by
    apply hb.2
    left
    have h5 := hn1 _ hu
    have h6 := hn1 _ hwu
    refine le_trans (Finset.sum_le_sum fun i _ => abs_sub _ _) ?_
    rw [Finset.sum_add_distrib]
    have := add_le_add h6 h5
    calc _ ≤ (2 : ℝ) + 2 := this
      _ = 4 := by norm_num
  subst hbt
  have hr := rayleigh_spec (by norm_num) ha' hw
  generalize hval : (c • a2.toMat 2 2 *ᵥ (Real.sqrt (x2.toVec 2 ⬝ᵥ x2.toVec 2))⁻¹ • x2.toVec 2) ⬝ᵥ
    (a2.toMat 2 2 *ᵥ (c • a2.toMat 2 2 *ᵥ (Real.sqrt (x2.toVec 2 ⬝ᵥ x2.toVec 2))⁻¹ • x2.toVec 2)) = val at hr
  have hrun : powerIteration a2 x2 ⟨1, 4⟩ = .ok ((val, 0), w) := by
    simp only [powerIteration, h1, Res.ok_bind, powerLoop, h2, h3, h4, if_true, hr]
  exact ⟨val, w, hrun, C41_residual a2_shape x2_shape (fun k _ => a2_powers k) hrun (by norm_num) (by norm_num) op2⟩

end ExPow

open ExPow in
/-- **C40 refuted for `power_iteration3`**: from `(1,0)`, with tolerance 0 and one iteration, the vector left in `x` is
`A x = (3,1)`, not a unit vector. -/
theorem C40_power3_not_unit : ∃ l xf, powerIteration3 a2 x2 ⟨1, 0⟩ = .ok ((l, 1), xf) ∧
    xf.toVec 2 ⬝ᵥ xf.toVec 2 = 10 := by
  have hx' : RV x2 (![1, 0] : Fin 2 → ℝ) := ⟨x2_shape, x2_vec⟩
  have ha' : RM a2 (!![3, 1; 1, 3] : Matrix (Fin 2) (Fin 2) ℝ) := ⟨a2_shape, a2_mat⟩
  obtain ⟨y, h1, hy⟩ := ha'.dotMv hx' (by norm_num)
  obtain ⟨y', h2, hy'⟩ := ha'.dotMv hy (by norm_num)
  refine ⟨(!![3, 1; 1, 3] *ᵥ ![1, 0]) ⬝ᵥ (!![3, 1; 1, 3] *ᵥ (!![3, 1; 1, 3] *ᵥ ![1, 0])) /
    ((!![3, 1; 1, 3] *ᵥ ![1, 0]) ⬝ᵥ (!![3, 1; 1, 3] *ᵥ ![1, 0])), y, ?_, ?_⟩
  · simp only [powerIteration3, power3Loop, h1, h2, hx'.dot hx', hx'.dot hy, hy.dot hy, hy.dot hy', Res.ok_bind]
    rw [Scalar.real_ge, if_neg, Scalar.real_le, if_neg]
    · simp [mulVec, dotProduct, Fin.sum_univ_two]; norm_num
    · simp [mulVec, dotProduct, Fin.sum_univ_two]; norm_num
  · rw [hy.2]; simp [mulVec, dotProduct, Fin.sum_univ_two]; norm_num

end Ellalgo
