import Verif.Lib.PowerPsd
import Verif.Props.PowerDominant
import Mathlib.Analysis.SpecialFunctions.Log.Basic
import Mathlib.LinearAlgebra.Matrix.PosDef

/-! # Property C113: the power iterations on positive semidefinite matrices, whatever the gaps between eigenvalues -/

namespace Ellalgo
open Matrix
open scoped ComplexOrder

variable {n : Nat}

theorem PsdForm.symm {A : Matrix (Fin n) (Fin n) ℝ} (hA : A.PosSemidef) : A.IsSymm := by
  have := hA.isHermitian
  rw [IsHermitian, conjTranspose_eq_transpose_of_trivial] at this; exact this

theorem PsdForm.nonneg {A : Matrix (Fin n) (Fin n) ℝ} (hA : A.PosSemidef) (w : Fin n → ℝ) : 0 ≤ w ⬝ᵥ (A *ᵥ w) := by
  have := hA.dotProduct_mulVec_nonneg w
  simpa using this

theorem PsdForm.le {A : Matrix (Fin n) (Fin n) ℝ} (hA : A.IsHermitian) {L : ℝ} (hL : ∀ i, hA.eigenvalues i ≤ L)
    (w : Fin n → ℝ) : w ⬝ᵥ (A *ᵥ w) ≤ L * (w ⬝ᵥ w) := by
  rw [eig_quad hA, eig_parseval hA w w, Finset.mul_sum]
  refine Finset.sum_le_sum fun i _ => ?_
  have := mul_le_mul_of_nonneg_right (hL i) (sq_nonneg (eigVec hA i ⬝ᵥ w))
  linarith [sq (eigVec hA i ⬝ᵥ w)]

theorem PsdForm.pos {A : Matrix (Fin n) (Fin n) ℝ} (hA : A.PosSemidef) {L : ℝ}
    (hL : ∀ i, hA.isHermitian.eigenvalues i ≤ L) {x : Fin n → ℝ} (hx : A *ᵥ x ≠ 0) : 0 < x ⬝ᵥ (A *ᵥ x) := by
  refine lt_of_le_of_ne (PsdForm.nonneg hA x) fun h => ?_
  have := psd_sq_le (PsdForm.symm hA) (PsdForm.nonneg hA) (PsdForm.le hA.isHermitian hL) x
  rw [← h, mul_zero] at this
  exact absurd (dot_self_pos hx) (not_lt.2 this)

theorem exists_eig_bound {A : Matrix (Fin n) (Fin n) ℝ} (hA : A.IsHermitian) : ∃ L, ∀ i, hA.eigenvalues i ≤ L :=
  ⟨∑ i, |hA.eigenvalues i|, fun i => (le_abs_self _).trans
    (Finset.single_le_sum (f := fun i => |hA.eigenvalues i|) (fun _ _ => abs_nonneg _) (Finset.mem_univ i))⟩

theorem FirstBelow.le_max {P : Nat → Prop} {m niter : Nat} (h : FirstBelow P m niter) : niter ≤ m :=
  h.elim (fun h => h.1.le) (fun h => h.1.le)

theorem FirstBelow.before {P : Nat → Prop} {m niter : Nat} (h : FirstBelow P m niter) : ∀ j < niter, ¬ P j :=
  h.elim (fun h => h.2.2) (fun h j hj => h.2 j (h.1 ▸ hj))

theorem FirstBelow.at {P : Nat → Prop} {m niter : Nat} (h : FirstBelow P m niter) (hn : niter < m) : P niter :=
  h.elim (fun h => h.2.1) (fun h => absurd h.1 hn.ne)

theorem pow_mulVec_eig {A : Matrix (Fin n) (Fin n) ℝ} (hs : A.IsSymm) {u : Fin n → ℝ} {lam : ℝ} (hu : A *ᵥ u = lam • u)
    (x : Fin n → ℝ) (k : Nat) : u ⬝ᵥ ((A ^ k) *ᵥ x) = lam ^ k * (u ⬝ᵥ x) := by
  induction k with
  | zero => simp
  | succ k ih =>
    rw [pow_succ', ← mulVec_mulVec, symm_dot hs, hu, smul_dotProduct, ih, smul_eq_mul, pow_succ]; ring

theorem log_pow' {y : ℝ} {k : Nat} : Real.log (y ^ (2 * k)) = ((2 * k : ℕ) : ℝ) * Real.log y := Real.log_pow _ _

theorem log_form {lam l s c : ℝ} {k : Nat} (hk : 0 < k) (hl : 0 < l) (hlam : 0 ≤ lam) (hs : 0 < s) (hc : c ≠ 0)
    (h : lam ^ (2 * k) * c ^ 2 ≤ l ^ (2 * k) * s) : lam - l ≤ lam * (Real.log (s / c ^ 2) / (2 * k)) := by
  rcases hlam.eq_or_lt with h0 | h0
  · rw [← h0]; linarith [zero_mul (Real.log (s / c ^ 2) / (2 * k))]
  have hc2 : 0 < c ^ 2 := by positivity
  have hlog := Real.log_le_log (by positivity) h
  rw [Real.log_mul (by positivity) hc2.ne', Real.log_mul (by positivity) hs.ne', log_pow',
    log_pow'] at hlog
  rw [Real.log_div hs.ne' hc2.ne']
  have hk' : (0 : ℝ) < k := by exact_mod_cast hk
  push_cast at hlog
  have h1 := Real.log_le_sub_one_of_pos (div_pos hl h0)
  rw [Real.log_div hl.ne' h0.ne'] at h1
  have h2 : Real.log lam - Real.log l ≤ (Real.log s - Real.log (c ^ 2)) / (2 * k) := by
    rw [le_div_iff₀ (by positivity)]; linarith
  have h3 : 1 - l / lam ≤ (Real.log s - Real.log (c ^ 2)) / (2 * k) := by linarith
  have h4 := mul_le_mul_of_nonneg_left h3 h0.le
  have h5 : lam * (1 - l / lam) = lam - l := by field_simp
  linarith

/-- `v' = c A v` with `v'` close to `v` up to sign: the Rayleigh quotient of `v'` is close to an eigenvalue -/
theorem near_of_close {A : Matrix (Fin n) (Fin n) ℝ} (hA : A.PosSemidef) {L : ℝ}
    (hL : ∀ i, hA.isHermitian.eigenvalues i ≤ L) {v w : Fin n → ℝ} {c tol : ℝ} (hc : 0 < c) (hw : w = c • (A *ᵥ v))
    (hw0 : 0 < w ⬝ᵥ w) (h : CloseUpToSign tol w v) :
    ∃ i, |hA.isHermitian.eigenvalues i - rq A w| * norm2 w ≤ L * tol := by
  obtain ⟨i, hi⟩ := eigenvalue_nearF hA.isHermitian hw0 (rq A w)
  refine ⟨i, hi.trans ?_⟩
  have hL0 : 0 ≤ L := (hA.eigenvalues_nonneg i).trans (hL i)
  have hop : ∀ z : Fin n → ℝ, norm1 z ≤ tol → norm2 (A *ᵥ z) ≤ L * tol := by
    intro z hz
    have h1 := psd_sq_le (PsdForm.symm hA) (PsdForm.nonneg hA) (PsdForm.le hA.isHermitian hL) z
    have h2 := mul_le_mul_of_nonneg_left (PsdForm.le hA.isHermitian hL z) hL0
    have h3 : norm2 (A *ᵥ z) ≤ L * norm2 z := by
      rw [norm2]
      refine Real.sqrt_le_iff.2 ⟨mul_nonneg hL0 (norm2_nonneg z), ?_⟩
      have := norm2_sq z
      have e : (L * norm2 z) ^ 2 = L * (L * (z ⬝ᵥ z)) := by rw [← this]; ring
      rw [e]; exact h1.trans h2
    exact h3.trans (mul_le_mul_of_nonneg_left ((norm2_le_norm1 z).trans hz) hL0)
  have hAv : A *ᵥ v = c⁻¹ • w := by rw [hw, smul_smul, inv_mul_cancel₀ hc.ne', one_smul]
  rcases h with h | h
  · refine (residual_minF hw0 c⁻¹).trans ?_
    have := hop _ h
    rwa [mulVec_sub, hAv] at this
  · refine (residual_minF hw0 (-c⁻¹)).trans ?_
    have := hop _ h
    rwa [mulVec_add, hAv, ← sub_neg_eq_add, ← neg_smul] at this

section
variable {a x : Arr ℝ} {m : Nat} {tol : ℝ}

/-- **C113** Value.  Let `A` be symmetric positive semidefinite and `A x ≠ 0`.  Each variant returns; the value lies
between the Rayleigh quotient of the start and the largest eigenvalue; and with `k = min (niter + 1) max_iters` the
number of multiplications, for every eigenvalue `lam` with unit eigenvector `u`
`lam^(2k) (u·x)² ≤ value^(2k) (x·x)`, hence `lam - value ≤ lam · log(x·x / (u·x)²) / (2k)`.  No gap between the
eigenvalues is assumed. -/
theorem C113_value (ha : a.IsMatShape n n) (hx : x.IsVecShape n) (hA : (a.toMat n n).PosSemidef)
    (hne : a.toMat n n *ᵥ x.toVec n ≠ 0) :
    ∀ run ∈ [powerIteration (α := ℝ), powerIteration2, powerIteration3, powerIteration4],
      ∃ l niter xf, run a x ⟨m, tol⟩ = .ok ((l, niter), xf) ∧ niter ≤ m ∧
        x.toVec n ⬝ᵥ (a.toMat n n *ᵥ x.toVec n) / (x.toVec n ⬝ᵥ x.toVec n) ≤ l ∧
        (∃ i, l ≤ hA.isHermitian.eigenvalues i) ∧
        ∀ (lam : ℝ) (u : Fin n → ℝ), a.toMat n n *ᵥ u = lam • u → u ⬝ᵥ u = 1 →
          lam ^ (2 * min (niter + 1) m) * (u ⬝ᵥ x.toVec n) ^ 2
            ≤ l ^ (2 * min (niter + 1) m) * (x.toVec n ⬝ᵥ x.toVec n) ∧
          (0 < m → u ⬝ᵥ x.toVec n ≠ 0 →
            lam - l ≤ lam * (Real.log ((x.toVec n ⬝ᵥ x.toVec n) / (u ⬝ᵥ x.toVec n) ^ 2)
              / (2 * (min (niter + 1) m : ℕ)))) := by
  obtain ⟨L, hL⟩ := exists_eig_bound hA.isHermitian
  have hs := PsdForm.symm hA
  have h0 := PsdForm.nonneg hA
  have hL' := PsdForm.le hA.isHermitian hL
  have hp := PsdForm.pos hA hL hne
  have hn := fun k => psd_seq_ne hs h0 hL' hp k
  have key : ∀ niter : Nat, x.toVec n ⬝ᵥ (a.toMat n n *ᵥ x.toVec n) / (x.toVec n ⬝ᵥ x.toVec n)
        ≤ rayAt (a.toMat n n) (x.toVec n) (min (niter + 1) m) ∧
      (∃ i, rayAt (a.toMat n n) (x.toVec n) (min (niter + 1) m) ≤ hA.isHermitian.eigenvalues i) ∧
      ∀ (lam : ℝ) (u : Fin n → ℝ), a.toMat n n *ᵥ u = lam • u → u ⬝ᵥ u = 1 →
          lam ^ (2 * min (niter + 1) m) * (u ⬝ᵥ x.toVec n) ^ 2
            ≤ rayAt (a.toMat n n) (x.toVec n) (min (niter + 1) m) ^ (2 * min (niter + 1) m)
              * (x.toVec n ⬝ᵥ x.toVec n) ∧
          (0 < m → u ⬝ᵥ x.toVec n ≠ 0 →
            lam - rayAt (a.toMat n n) (x.toVec n) (min (niter + 1) m)
              ≤ lam * (Real.log ((x.toVec n ⬝ᵥ x.toVec n) / (u ⬝ᵥ x.toVec n) ^ 2)
              / (2 * (min (niter + 1) m : ℕ)))) := by
    intro niter
    refine ⟨?_, ?_, fun lam u hu hu1 => ?_⟩
    · have := psd_ray_le_of_le hs h0 hL' hp (Nat.zero_le (min (niter + 1) m))
      simpa [rayAt] using this
    · obtain ⟨i, hi⟩ := exists_le_of_weighted (t := fun i => - hA.isHermitian.eigenvalues i)
        (m := -rayAt (a.toMat n n) (x.toVec n) (min (niter + 1) m))
        (eig_unit hA.isHermitian (dirAt_unit (hn (min (niter + 1) m)))) (by
          simp only [neg_mul, Finset.sum_neg_distrib]
          rw [← eig_quad, ← rq_unit (dirAt_unit (hn _)), rq_eq (dirAt_dir (hn _))])
      exact ⟨i, by linarith⟩
    · have hk : 0 < m → 0 < min (niter + 1) m := fun h => lt_min (Nat.succ_pos _) h
      generalize min (niter + 1) m = k at *
      have h1 := psd_growth hs h0 hL' hp k
      have h2 := dot_le_norm2 u ((a.toMat n n ^ k) *ᵥ x.toVec n)
      have h3 := norm2_sq ((a.toMat n n ^ k) *ᵥ x.toVec n)
      have h4 : norm2 u = 1 := by rw [norm2, hu1, Real.sqrt_one]
      rw [pow_mulVec_eig hs hu, h4, one_mul] at h2
      have h5 := mul_self_le_mul_self (abs_nonneg _) h2
      rw [abs_mul_abs_self, h3] at h5
      have h6 : lam ^ (2 * k) * (u ⬝ᵥ x.toVec n) ^ 2 ≤ rayAt (a.toMat n n) (x.toVec n) k ^ (2 * k)
          * (x.toVec n ⬝ᵥ x.toVec n) := by
        refine le_trans (le_of_eq ?_) (h5.trans h1)
        rw [two_mul, pow_add]; ring
      refine ⟨h6, fun hm hux => ?_⟩
      refine log_form (hk hm) (psd_ray_pos hs h0 hL' hp k) ?_ ?_ hux h6
      · have := h0 u
        rwa [hu, dotProduct_smul, hu1, smul_eq_mul, mul_one] at this
      · have := dot_self_pos (hn 0)
        simpa using this
  intro run hrun
  simp only [List.mem_cons, List.not_mem_nil, or_false] at hrun
  rcases hrun with rfl | rfl | rfl | rfl
  · obtain ⟨niter, xf, h1, -, -, h2⟩ := C79_power_iteration (m := m) (tol := tol) ha hx (fun k _ => hn k)
    exact ⟨_, niter, xf, h1, h2.le_max, key _⟩
  · obtain ⟨niter, xf, h1, -, -, h2⟩ := C79_power_iteration2 (m := m) (tol := tol) ha hx (fun k _ => hn k)
    exact ⟨_, niter, xf, h1, h2.le_max, key _⟩
  · obtain ⟨niter, xf, h1, -, -, -, h2⟩ := C79_power_iteration3 (m := m) (tol := tol) ha hx (fun k _ => hn k)
    exact ⟨_, niter, xf, h1, h2.le_max, key _⟩
  · obtain ⟨niter, xf, h1, -, -, h2⟩ := C79_power_iteration4 (m := m) (tol := tol) ha hx (fun k _ => hn k)
    exact ⟨_, niter, xf, h1, h2.le_max, key _⟩

/-- **C113** `power_iteration2` and `power_iteration3` stop by themselves: with `L` a bound on the eigenvalues and `r` the
Rayleigh quotient of the start the count is at most `(L - r) / tolerance`, and when the count is below `max_iters` the
value is within `√(L tolerance) + tolerance` of an eigenvalue. -/
theorem C113_value_stop (ha : a.IsMatShape n n) (hx : x.IsVecShape n) (hA : (a.toMat n n).PosSemidef)
    (hne : a.toMat n n *ᵥ x.toVec n ≠ 0) {L : ℝ} (hL : ∀ i, hA.isHermitian.eigenvalues i ≤ L) :
    ∀ run ∈ [powerIteration2 (α := ℝ), powerIteration3],
      ∃ l niter xf, run a x ⟨m, tol⟩ = .ok ((l, niter), xf) ∧ niter ≤ m ∧
        niter * tol ≤ L - x.toVec n ⬝ᵥ (a.toMat n n *ᵥ x.toVec n) / (x.toVec n ⬝ᵥ x.toVec n) ∧
        (niter < m → ∃ i, |l - hA.isHermitian.eigenvalues i| ≤ Real.sqrt (L * tol) + tol) := by
  have hs := PsdForm.symm hA
  have h0 := PsdForm.nonneg hA
  have hL' := PsdForm.le hA.isHermitian hL
  have hp := PsdForm.pos hA hL hne
  have hn := fun k => psd_seq_ne hs h0 hL' hp k
  have key : ∀ niter : Nat, FirstBelow (fun j => |rayAt (a.toMat n n) (x.toVec n) j
        - rayAt (a.toMat n n) (x.toVec n) (j + 1)| ≤ tol) m niter → niter ≤ m ∧
      niter * tol ≤ L - x.toVec n ⬝ᵥ (a.toMat n n *ᵥ x.toVec n) / (x.toVec n ⬝ᵥ x.toVec n) ∧
        (niter < m → ∃ i, |rayAt (a.toMat n n) (x.toVec n) (min (niter + 1) m) - hA.isHermitian.eigenvalues i|
          ≤ Real.sqrt (L * tol) + tol) := by
    intro niter hf
    refine ⟨hf.le_max, ?_, fun hlt => ?_⟩
    · have hb := psd_sum_bound hs h0 hL' hp (niter := niter) (d := tol) (fun j hj => by
        have h1 := hf.before j hj
        have h2 := psd_ray_mono hs h0 hL' hp j
        rw [abs_sub_comm, abs_of_nonneg (by linarith)] at h1
        exact (not_le.1 h1).le)
      simpa [rayAt] using hb
    · have h1 := hf.at hlt
      have h2 := psd_residual hs h0 hL' hp niter
      rw [min_eq_left (by omega)]
      have hu := dirAt_unit (hn niter)
      obtain ⟨i, hi⟩ := eigenvalue_nearF hA.isHermitian (v := dirAt (a.toMat n n) (x.toVec n) niter) (by rw [hu]; norm_num)
        (rayAt (a.toMat n n) (x.toVec n) niter)
      rw [show norm2 (dirAt (a.toMat n n) (x.toVec n) niter) = 1 by rw [norm2, hu, Real.sqrt_one], mul_one] at hi
      have hL0 : 0 ≤ L := (hA.eigenvalues_nonneg i).trans (hL i)
      have h3 : |hA.isHermitian.eigenvalues i - rayAt (a.toMat n n) (x.toVec n) niter| ≤ Real.sqrt (L * tol) := by
        refine hi.trans (Real.le_sqrt_of_sq_le (h2.trans (mul_le_mul_of_nonneg_left ?_ hL0)))
        rw [abs_sub_comm] at h1
        exact (le_abs_self _).trans h1
      refine ⟨i, ?_⟩
      have h4 := abs_sub_le (rayAt (a.toMat n n) (x.toVec n) (niter + 1)) (rayAt (a.toMat n n) (x.toVec n) niter)
        (hA.isHermitian.eigenvalues i)
      rw [abs_sub_comm (rayAt _ _ niter) (hA.isHermitian.eigenvalues i)] at h4
      rw [abs_sub_comm] at h1
      linarith
  intro run hrun
  simp only [List.mem_cons, List.not_mem_nil, or_false] at hrun
  rcases hrun with rfl | rfl
  · obtain ⟨niter, xf, h1, -, -, h2⟩ := C79_power_iteration2 (m := m) (tol := tol) ha hx (fun k _ => hn k)
    exact ⟨_, niter, xf, h1, key _ h2⟩
  · obtain ⟨niter, xf, h1, -, -, -, h2⟩ := C79_power_iteration3 (m := m) (tol := tol) ha hx (fun k _ => hn k)
    exact ⟨_, niter, xf, h1, key _ h2⟩

/-- **C113** `power_iteration` stops by itself after at most `2 n L (L - r) / (r tolerance)²` iterations, and then its
value is within `L tolerance` of an eigenvalue. -/
theorem C113_vector_stop (ha : a.IsMatShape n n) (hx : x.IsVecShape n) (hA : (a.toMat n n).PosSemidef)
    (hne : a.toMat n n *ᵥ x.toVec n ≠ 0) {L r : ℝ} (hL : ∀ i, hA.isHermitian.eigenvalues i ≤ L) (htol : 0 ≤ tol)
    (hr : r = x.toVec n ⬝ᵥ (a.toMat n n *ᵥ x.toVec n) / (x.toVec n ⬝ᵥ x.toVec n)) :
    0 < r ∧ ∃ l niter xf, powerIteration a x ⟨m, tol⟩ = .ok ((l, niter), xf) ∧ niter ≤ m ∧
      niter * (r * tol) ^ 2 ≤ 2 * n * L * (L - r) ∧
      (niter < m → ∃ i, |l - hA.isHermitian.eigenvalues i| ≤ L * tol) := by
  have hs := PsdForm.symm hA
  have h0 := PsdForm.nonneg hA
  have hL' := PsdForm.le hA.isHermitian hL
  have hp := PsdForm.pos hA hL hne
  have hn := fun k => psd_seq_ne hs h0 hL' hp k
  have hr' : r = rayAt (a.toMat n n) (x.toVec n) 0 := by simp [hr, rayAt]
  obtain ⟨niter, xf, h1, -, -, hf⟩ := C79_power_iteration (m := m) (tol := tol) ha hx (fun k _ => hn k)
  have hr0 : 0 < r := by rw [hr']; exact psd_ray_pos hs h0 hL' hp 0
  have hn0 : 0 < n := pos_of_ne (hn 0)
  have hnR : (0 : ℝ) < n := by exact_mod_cast hn0
  have hL0 : 0 < L := by
    have := psd_ray_le hs h0 hL' hp 0
    rw [← hr'] at this; linarith
  refine ⟨hr0, _, niter, xf, h1, hf.le_max, ?_, fun hlt => ?_⟩
  · have hb := psd_sum_bound hs h0 hL' hp (niter := niter) (d := (r * tol) ^ 2 / (2 * n * L)) (fun j hj => by
      have h2 := hf.before j hj
      unfold CloseUpToSign at h2
      push Not at h2
      have h3 := psd_move hs h0 hL' hp j
      have h4 := norm1_sq_le (dirAt (a.toMat n n) (x.toVec n) (j + 1) - dirAt (a.toMat n n) (x.toVec n) j)
      rw [← norm2_sq, ← sq] at h4
      have h5 := pow_le_pow_left₀ htol h2.1.le 2
      rw [← hr'] at h3
      rw [div_le_iff₀ (by positivity)]
      have h6 := mul_le_mul_of_nonneg_left h3 hnR.le
      have h7 := mul_le_mul_of_nonneg_right (h5.trans h4) (sq_nonneg r)
      rw [mul_pow]
      nlinarith)
    rw [← hr'] at hb
    have h8 := mul_le_mul_of_nonneg_left hb (show 0 ≤ 2 * n * L by positivity)
    have h9 : 2 * n * L * (niter * ((r * tol) ^ 2 / (2 * n * L))) = niter * (r * tol) ^ 2 := by
      field_simp
    linarith
  · rw [min_eq_left (by omega)]
    have hd := dirAt_dir (hn niter)
    have hu := dirAt_unit (hn (niter + 1))
    have e : dirAt (a.toMat n n) (x.toVec n) (niter + 1) = unit2 (a.toMat n n *ᵥ dirAt (a.toMat n n) (x.toVec n) niter) :=
      (unit2_eq (Dir.mulVec hd)).symm
    have hne' : a.toMat n n *ᵥ dirAt (a.toMat n n) (x.toVec n) niter ≠ 0 := Dir.ne_zero (Dir.mulVec hd) (hn (niter + 1))
    obtain ⟨i, hi⟩ := near_of_close hA hL (unit_normalize hne').1 e (by rw [hu]; norm_num) (hf.at hlt)
    rw [show norm2 (dirAt (a.toMat n n) (x.toVec n) (niter + 1)) = 1 by rw [norm2, hu, Real.sqrt_one], mul_one,
      rq_eq (dirAt_dir (hn (niter + 1)))] at hi
    exact ⟨i, by rwa [abs_sub_comm]⟩

/-- **C113** `power_iteration4` likewise, within `8 n L (L - r) / (r tolerance)²` iterations and with accuracy
`√n L tolerance`. -/
theorem C113_vector_stop4 (ha : a.IsMatShape n n) (hx : x.IsVecShape n) (hA : (a.toMat n n).PosSemidef)
    (hne : a.toMat n n *ᵥ x.toVec n ≠ 0) {L r : ℝ} (hL : ∀ i, hA.isHermitian.eigenvalues i ≤ L) (htol : 0 ≤ tol)
    (hr : r = x.toVec n ⬝ᵥ (a.toMat n n *ᵥ x.toVec n) / (x.toVec n ⬝ᵥ x.toVec n)) :
    0 < r ∧ ∃ l niter xf, powerIteration4 a x ⟨m, tol⟩ = .ok ((l, niter), xf) ∧ niter ≤ m ∧
      niter * (r * tol) ^ 2 ≤ 8 * n * L * (L - r) ∧
      (niter < m → ∃ i, |l - hA.isHermitian.eigenvalues i| ≤ Real.sqrt n * (L * tol)) := by
  have hs := PsdForm.symm hA
  have h0 := PsdForm.nonneg hA
  have hL' := PsdForm.le hA.isHermitian hL
  have hp := PsdForm.pos hA hL hne
  have hn := fun k => psd_seq_ne hs h0 hL' hp k
  have hr' : r = rayAt (a.toMat n n) (x.toVec n) 0 := by simp [hr, rayAt]
  obtain ⟨niter, xf, h1, -, -, hf⟩ := C79_power_iteration4 (m := m) (tol := tol) ha hx (fun k _ => hn k)
  have hr0 : 0 < r := by rw [hr']; exact psd_ray_pos hs h0 hL' hp 0
  have hn0 : 0 < n := pos_of_ne (hn 0)
  have hnR : (0 : ℝ) < n := by exact_mod_cast hn0
  have hL0 : 0 < L := by
    have := psd_ray_le hs h0 hL' hp 0
    rw [← hr'] at this; linarith
  refine ⟨hr0, _, niter, xf, h1, hf.le_max, ?_, fun hlt => ?_⟩
  · have hb := psd_sum_bound hs h0 hL' hp (niter := niter) (d := (r * tol) ^ 2 / (8 * n * L)) (fun j hj => by
      have h2 := hf.before j hj
      unfold CloseUpToSign at h2
      push Not at h2
      have h3 := psd_move hs h0 hL' hp j
      have h4 := norm1_sq_le (dirAt (a.toMat n n) (x.toVec n) (j + 1) - dirAt (a.toMat n n) (x.toVec n) j)
      rw [← norm2_sq, ← sq] at h4
      have h10 := unit1_close (s := 1) (dirAt_unit (hn (j + 1))) (dirAt_unit (hn j)) (Or.inl rfl)
      rw [← dir1At_eq (hn (j + 1)), ← dir1At_eq (hn j), one_smul, one_smul] at h10
      have h5 := pow_le_pow_left₀ htol (h2.1.le.trans h10) 2
      rw [mul_pow] at h5
      rw [← hr'] at h3
      rw [div_le_iff₀ (by positivity)]
      have h6 := mul_le_mul_of_nonneg_left h3 hnR.le
      have h7 := mul_le_mul_of_nonneg_right h5 (sq_nonneg r)
      have h11 := mul_le_mul_of_nonneg_right h4 (sq_nonneg r)
      rw [mul_pow]
      nlinarith)
    rw [← hr'] at hb
    have h8 := mul_le_mul_of_nonneg_left hb (show 0 ≤ 8 * n * L by positivity)
    have h9 : 8 * n * L * (niter * ((r * tol) ^ 2 / (8 * n * L))) = niter * (r * tol) ^ 2 := by
      field_simp
    linarith
  · rw [min_eq_left (by omega)]
    have hd := dir1At_dir (hn niter)
    have e : dir1At (a.toMat n n) (x.toVec n) (niter + 1) = unit1 (a.toMat n n *ᵥ dir1At (a.toMat n n) (x.toVec n) niter) :=
      (unit1_eq (Dir.mulVec hd)).symm
    have hne' : a.toMat n n *ᵥ dir1At (a.toMat n n) (x.toVec n) niter ≠ 0 := Dir.ne_zero (Dir.mulVec hd) (hn (niter + 1))
    have hw0 := dot_self_pos (Dir.ne_zero (dir1At_dir (hn (niter + 1))) (hn (niter + 1)))
    obtain ⟨i, hi⟩ := near_of_close hA hL (norm1_normalize hne').1 e hw0 (hf.at hlt)
    rw [rq_eq (dir1At_dir (hn (niter + 1)))] at hi
    refine ⟨i, ?_⟩
    have h2 := norm1_sq_le (dir1At (a.toMat n n) (x.toVec n) (niter + 1))
    have h3 : norm1 (dir1At (a.toMat n n) (x.toVec n) (niter + 1)) = 1 := by
      rw [dir1At]; exact (norm1_normalize (hn (niter + 1))).2
    rw [h3, ← norm2_sq, ← sq] at h2
    have h4 : 1 ≤ Real.sqrt n * norm2 (dir1At (a.toMat n n) (x.toVec n) (niter + 1)) := by
      have := Real.sqrt_le_sqrt h2
      rwa [one_pow, Real.sqrt_one, Real.sqrt_mul hnR.le, Real.sqrt_sq (norm2_nonneg _)] at this
    have h5 := mul_le_mul_of_nonneg_left hi (Real.sqrt_nonneg n)
    have h6 := mul_le_mul_of_nonneg_left h4
      (abs_nonneg (hA.isHermitian.eigenvalues i - rayAt (a.toMat n n) (x.toVec n) (niter + 1)))
    rw [abs_sub_comm]
    linarith
end

namespace ExPsd

/-- the diagonal matrix with entries `2, 2, 1`: the largest eigenvalue is not simple -/
def a : Arr ℝ := ⟨[2, 0, 0, 0, 2, 0, 0, 0, 1], 3, 3⟩
/-- the start `(1, 1, 1)` -/
def x : Arr ℝ := ⟨[1, 1, 1], 3, 0⟩

theorem a_shape : a.IsMatShape 3 3 := ⟨rfl, rfl, rfl⟩
theorem x_shape : x.IsVecShape 3 := ⟨rfl, rfl, rfl⟩
theorem a_mat : a.toMat 3 3 = diagonal ![2, 2, 1] := by
  ext i j; fin_cases i <;> fin_cases j <;> rfl
theorem x_vec : x.toVec 3 = ![1, 1, 1] := by
  ext i; fin_cases i <;> rfl

theorem a_psd : (a.toMat 3 3).PosSemidef := by
  rw [a_mat]
  refine PosSemidef.diagonal fun i => ?_
  fin_cases i <;> simp

theorem a_bound (i : Fin 3) : a_psd.isHermitian.eigenvalues i ≤ 2 := by
  have hu : eigVec a_psd.isHermitian i ⬝ᵥ eigVec a_psd.isHermitian i = 1 := by
    have h := a_psd.isHermitian.eigenvectorBasis.inner_eq_ite i i
    rw [EuclideanSpace.inner_eq_star_dotProduct, star_trivial, if_pos rfl] at h
    exact h
  have h := eig_mulVec a_psd.isHermitian i (eigVec a_psd.isHermitian i)
  rw [hu, mul_one] at h
  rw [← h]
  generalize eigVec a_psd.isHermitian i = u at hu
  rw [a_mat]
  simp [dotProduct, mulVec_diagonal, Fin.sum_univ_three] at hu ⊢
  nlinarith [sq_nonneg (u 2)]

theorem a_start : a.toMat 3 3 *ᵥ x.toVec 3 ≠ 0 := by
  rw [a_mat, x_vec]
  intro h
  have := congrFun h 0
  simp [mulVec_diagonal] at this

theorem a_rq : x.toVec 3 ⬝ᵥ (a.toMat 3 3 *ᵥ x.toVec 3) / (x.toVec 3 ⬝ᵥ x.toVec 3) = 5 / 3 := by
  rw [a_mat, x_vec]
  simp [dotProduct, mulVec_diagonal, Fin.sum_univ_three]; norm_num

/-- the hypotheses of C113 are met by `diag(2, 2, 1)` from `(1, 1, 1)`: every variant stops before `max_iters` when that
is large, and after `k` multiplications its value `l` satisfies `2^(2k) ≤ 3 l^(2k)` -/
example (m : Nat) (hm : 5760000 < m) :
    (∀ run ∈ [powerIteration2 (α := ℝ), powerIteration3], ∃ l niter xf, run a x ⟨m, 1 / 1000⟩ = .ok ((l, niter), xf) ∧
      niter ≤ 333 ∧ ∃ i, |l - a_psd.isHermitian.eigenvalues i| ≤ Real.sqrt (2 * (1 / 1000)) + 1 / 1000) ∧
    (∃ l niter xf, powerIteration a x ⟨m, 1 / 1000⟩ = .ok ((l, niter), xf) ∧ niter ≤ 1440000 ∧
      ∃ i, |l - a_psd.isHermitian.eigenvalues i| ≤ 2 * (1 / 1000)) ∧
    (∃ l niter xf, powerIteration4 a x ⟨m, 1 / 1000⟩ = .ok ((l, niter), xf) ∧ niter ≤ 5760000 ∧
      ∃ i, |l - a_psd.isHermitian.eigenvalues i| ≤ Real.sqrt 3 * (2 * (1 / 1000))) ∧
    ∀ run ∈ [powerIteration (α := ℝ), powerIteration2, powerIteration3, powerIteration4],
      ∃ l niter xf, run a x ⟨m, 1 / 1000⟩ = .ok ((l, niter), xf) ∧
        2 ^ (2 * min (niter + 1) m) ≤ l ^ (2 * min (niter + 1) m) * 3 := by
  refine ⟨fun run hrun => ?_, ?_, ?_, fun run hrun => ?_⟩
  · obtain ⟨l, niter, xf, h1, -, h2, h3⟩ :=
      C113_value_stop (m := m) (tol := 1 / 1000) a_shape x_shape a_psd a_start a_bound run hrun
    rw [a_rq] at h2
    have h4 : niter ≤ 333 := by
      by_contra h
      have : (334 : ℝ) ≤ niter := by exact_mod_cast (by omega : 334 ≤ niter)
      linarith
    exact ⟨l, niter, xf, h1, h4, h3 (by omega)⟩
  · obtain ⟨-, l, niter, xf, h1, -, h2, h3⟩ :=
      C113_vector_stop (m := m) (tol := 1 / 1000) a_shape x_shape a_psd a_start a_bound (by norm_num) a_rq.symm
    have h4 : niter ≤ 1440000 := by
      by_contra h
      have : (1440001 : ℝ) ≤ niter := by exact_mod_cast (by omega : 1440001 ≤ niter)
      norm_num at h2
      linarith
    exact ⟨l, niter, xf, h1, h4, h3 (by omega)⟩
  · obtain ⟨-, l, niter, xf, h1, -, h2, h3⟩ :=
      C113_vector_stop4 (m := m) (tol := 1 / 1000) a_shape x_shape a_psd a_start a_bound (by norm_num) a_rq.symm
    have h4 : niter ≤ 5760000 := by
      by_contra h
      have : (5760001 : ℝ) ≤ niter := by exact_mod_cast (by omega : 5760001 ≤ niter)
      norm_num at h2
      linarith
    exact ⟨l, niter, xf, h1, h4, by simpa using h3 (by omega)⟩
  · obtain ⟨l, niter, xf, h1, -, -, -, h2⟩ :=
      C113_value (m := m) (tol := 1 / 1000) a_shape x_shape a_psd a_start run hrun
    have h3 := (h2 2 ![1, 0, 0] (by
      rw [a_mat]; ext i; fin_cases i <;> simp [mulVec_diagonal]) (by simp [dotProduct, Fin.sum_univ_three])).1
    rw [x_vec] at h3
    have e1 : ((![1, 0, 0] : Fin 3 → ℝ) ⬝ᵥ ![1, 1, 1]) = 1 := by simp [dotProduct, Fin.sum_univ_three]
    have e2 : ((![1, 1, 1] : Fin 3 → ℝ) ⬝ᵥ ![1, 1, 1]) = 3 := by simp [dotProduct, Fin.sum_univ_three]; norm_num
    rw [e1, e2, one_pow, mul_one] at h3
    exact ⟨l, niter, xf, h1, h3⟩

end ExPsd

end Ellalgo
