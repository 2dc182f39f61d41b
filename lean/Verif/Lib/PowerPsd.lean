import Verif.Lib.PowerSettle
import Verif.Lib.PowerFlMath

/-! # The sequence `A^k x` for a positive semidefinite matrix, without any assumption on the gaps between eigenvalues -/

namespace Ellalgo
open Matrix

variable {n : Nat} {A : Matrix (Fin n) (Fin n) ℝ}

section
variable (hA : A.IsSymm) (hpsd : ∀ w : Fin n → ℝ, 0 ≤ w ⬝ᵥ (A *ᵥ w))
include hA

theorem symm_dot (v w : Fin n → ℝ) : v ⬝ᵥ (A *ᵥ w) = (A *ᵥ v) ⬝ᵥ w := by
  rw [dotProduct_mulVec, ← mulVec_transpose, hA.eq]

include hpsd

/-- Cauchy-Schwarz for the form of a positive semidefinite matrix -/
theorem psd_cauchy (v w : Fin n → ℝ) : (v ⬝ᵥ (A *ᵥ w)) ^ 2 ≤ (v ⬝ᵥ (A *ᵥ v)) * (w ⬝ᵥ (A *ᵥ w)) := by
  have e : ∀ t : ℝ, 0 ≤ (w ⬝ᵥ (A *ᵥ w)) * (t * t) + (2 * (v ⬝ᵥ (A *ᵥ w))) * t + v ⬝ᵥ (A *ᵥ v) := by
    intro t
    have h := hpsd (v + t • w)
    have hc : w ⬝ᵥ (A *ᵥ v) = v ⬝ᵥ (A *ᵥ w) := by rw [symm_dot hA, dotProduct_comm]
    rw [mulVec_add, mulVec_smul, add_dotProduct, dotProduct_add, dotProduct_add, smul_dotProduct, smul_dotProduct,
      dotProduct_smul, dotProduct_smul, hc] at h
    simp only [smul_eq_mul] at h
    linarith
  have h := discrim_le_zero e
  unfold discrim at h
  linarith

variable {L : ℝ} (hL : ∀ w : Fin n → ℝ, w ⬝ᵥ (A *ᵥ w) ≤ L * (w ⬝ᵥ w))
include hL

/-- `A² ≤ L A` -/
theorem psd_sq_le (v : Fin n → ℝ) : (A *ᵥ v) ⬝ᵥ (A *ᵥ v) ≤ L * (v ⬝ᵥ (A *ᵥ v)) := by
  have h1 := psd_cauchy hA hpsd v (A *ᵥ v)
  rw [symm_dot hA v] at h1
  have h2 := mul_le_mul_of_nonneg_left (hL (A *ᵥ v)) (hpsd v)
  have h0 : 0 ≤ (A *ᵥ v) ⬝ᵥ (A *ᵥ v) := Finset.sum_nonneg fun _ _ => mul_self_nonneg _
  rcases h0.eq_or_lt with h | h
  · rw [← h]
    have := hL v
    have h3 : A *ᵥ v = 0 := dotProduct_self_eq_zero.1 h.symm
    rw [h3]; simp
  · nlinarith
end

/-- what a positive semidefinite step does to the Rayleigh quotient: it grows by at least the squared residual over
`L` -/
theorem psd_step (hA : A.IsSymm) (hpsd : ∀ w : Fin n → ℝ, 0 ≤ w ⬝ᵥ (A *ᵥ w)) {L : ℝ}
    (hL : ∀ w : Fin n → ℝ, w ⬝ᵥ (A *ᵥ w) ≤ L * (w ⬝ᵥ w)) {v : Fin n → ℝ} (hv : 0 < v ⬝ᵥ (A *ᵥ v)) :
    0 < (A *ᵥ v) ⬝ᵥ (A *ᵥ (A *ᵥ v)) ∧ 0 < L ∧
    ((A *ᵥ v) ⬝ᵥ (A *ᵥ v) - rq A v ^ 2 * (v ⬝ᵥ v)) ≤ (L * (v ⬝ᵥ v)) * (rq A (A *ᵥ v) - rq A v) ∧
    (A *ᵥ v) ⬝ᵥ (A *ᵥ v) ≤ rq A (A *ᵥ v) ^ 2 * (v ⬝ᵥ v) ∧ rq A v ^ 2 * (v ⬝ᵥ v) ≤ (A *ᵥ v) ⬝ᵥ (A *ᵥ v) ∧
    rq A v ≤ rq A (A *ᵥ v) := by
  have hv0 : v ≠ 0 := by rintro rfl; simp at hv
  have hAv0 : A *ᵥ v ≠ 0 := by intro h; rw [h] at hv; simp at hv
  have hs := dot_self_pos hv0
  have hm2 := dot_self_pos hAv0
  have hLv := hL v
  have hL0 : 0 < L := by
    by_contra h
    nlinarith [not_lt.1 h]
  have hup := psd_sq_le hA hpsd hL v
  have hcs := psd_cauchy hA hpsd v (A *ᵥ v)
  rw [symm_dot hA v] at hcs
  have hw := hpsd (A *ᵥ v - rq A v • v)
  have e1 : v ⬝ᵥ (A *ᵥ (A *ᵥ v)) = (A *ᵥ v) ⬝ᵥ (A *ᵥ v) := symm_dot hA v _
  rw [mulVec_sub, mulVec_smul, sub_dotProduct, dotProduct_sub, dotProduct_sub, smul_dotProduct, smul_dotProduct,
    dotProduct_smul, dotProduct_smul, e1] at hw
  simp only [smul_eq_mul] at hw
  have hee : 0 ≤ (A *ᵥ v - rq A v • v) ⬝ᵥ (A *ᵥ v - rq A v • v) := Finset.sum_nonneg fun _ _ => mul_self_nonneg _
  rw [sub_dotProduct, dotProduct_sub, dotProduct_sub, smul_dotProduct, smul_dotProduct, dotProduct_smul,
    dotProduct_smul, dotProduct_comm (A *ᵥ v) v] at hee
  simp only [smul_eq_mul] at hee
  unfold rq at hw hee ⊢
  generalize v ⬝ᵥ v = s at *
  generalize v ⬝ᵥ (A *ᵥ v) = m1 at *
  generalize (A *ᵥ v) ⬝ᵥ (A *ᵥ (A *ᵥ v)) = m3 at *
  generalize (A *ᵥ v) ⬝ᵥ (A *ᵥ v) = m2 at *
  have hm3 : 0 < m3 := by
    by_contra h
    nlinarith [not_lt.1 h, mul_pos hm2 hm2]
  obtain ⟨r, hr⟩ : ∃ r, r = m1 / s := ⟨_, rfl⟩
  obtain ⟨q, hq⟩ : ∃ q, q = m3 / m2 := ⟨_, rfl⟩
  have hm1 : m1 = r * s := by rw [hr]; field_simp
  have hm3' : m3 = q * m2 := by rw [hq]; field_simp
  rw [← hr] at hw hee
  rw [← hr, ← hq]
  clear hr hq
  subst hm1 hm3'
  have hr0 : 0 < r := pos_of_mul_pos_left hv hs.le
  have hq0 : 0 < q := pos_of_mul_pos_left hm3 hm2.le
  have hrs : r ^ 2 * s ≤ m2 := by nlinarith
  have hqr : r * (m2 - r ^ 2 * s) ≤ m2 * (q - r) := by nlinarith
  have hle : r ≤ q := by
    have : 0 ≤ m2 * (q - r) := le_trans (mul_nonneg hr0.le (by linarith)) hqr
    have := nonneg_of_mul_nonneg_right this hm2
    linarith
  have hmq : m2 ≤ r * s * q := by
    have : m2 * m2 ≤ (r * s * q) * m2 := by nlinarith
    exact le_of_mul_le_mul_right this hm2
  refine ⟨hm3, hL0, ?_, ?_, hrs, hle⟩
  · -- `r (m2 - r² s) ≤ m2 (q - r) ≤ L r s (q - r)`
    have h1 : m2 * (q - r) ≤ L * (r * s) * (q - r) := mul_le_mul_of_nonneg_right hup (by linarith)
    have h2 : r * (m2 - r ^ 2 * s) ≤ r * (L * s * (q - r)) := by linarith
    exact le_of_mul_le_mul_left h2 hr0
  · have : r * s * q ≤ q * s * q := by
      have := mul_le_mul_of_nonneg_right (mul_le_mul_of_nonneg_right hle hs.le) hq0.le
      exact this
    linarith [show q * s * q = q ^ 2 * s by ring]

/-- squared length of the residual at a unit vector -/
theorem residual_sq {v : Fin n → ℝ} (hu : v ⬝ᵥ v = 1) :
    (A *ᵥ v - rq A v • v) ⬝ᵥ (A *ᵥ v - rq A v • v) = (A *ᵥ v) ⬝ᵥ (A *ᵥ v) - rq A v ^ 2 := by
  have h : v ⬝ᵥ (A *ᵥ v) = rq A v := (rq_unit hu).symm
  rw [sub_dotProduct, dotProduct_sub, dotProduct_sub, smul_dotProduct, smul_dotProduct, dotProduct_smul,
    dotProduct_smul, dotProduct_comm (A *ᵥ v) v, hu, h]
  simp only [smul_eq_mul]; ring

section
variable (hA : A.IsSymm) (hpsd : ∀ w : Fin n → ℝ, 0 ≤ w ⬝ᵥ (A *ᵥ w)) {L : ℝ}
  (hL : ∀ w : Fin n → ℝ, w ⬝ᵥ (A *ᵥ w) ≤ L * (w ⬝ᵥ w)) {x : Fin n → ℝ} (hx : 0 < x ⬝ᵥ (A *ᵥ x))
include hA hpsd hL hx

theorem psd_seq_pos (k : Nat) : 0 < ((A ^ k) *ᵥ x) ⬝ᵥ (A *ᵥ ((A ^ k) *ᵥ x)) := by
  induction k with
  | zero => simpa using hx
  | succ k ih =>
    have := (psd_step hA hpsd hL ih).1
    rwa [mulVec_mulVec _ A (A ^ k), ← pow_succ'] at this

theorem psd_seq_ne (k : Nat) : (A ^ k) *ᵥ x ≠ 0 := by
  intro h
  have := psd_seq_pos hA hpsd hL hx k
  rw [h] at this; simp at this

theorem psd_ray_mono (k : Nat) : rayAt A x k ≤ rayAt A x (k + 1) := by
  have := (psd_step hA hpsd hL (psd_seq_pos hA hpsd hL hx k)).2.2.2.2.2
  rwa [mulVec_mulVec _ A (A ^ k), ← pow_succ'] at this

theorem psd_ray_le_of_le {j k : Nat} (h : j ≤ k) : rayAt A x j ≤ rayAt A x k :=
  monotone_nat_of_le_succ (psd_ray_mono hA hpsd hL hx) h

theorem psd_ray_pos (k : Nat) : 0 < rayAt A x k :=
  div_pos (psd_seq_pos hA hpsd hL hx k) (dot_self_pos (psd_seq_ne hA hpsd hL hx k))

theorem psd_ray_le (k : Nat) : rayAt A x k ≤ L :=
  (div_le_iff₀ (dot_self_pos (psd_seq_ne hA hpsd hL hx k))).2 (hL _)

/-- the Rayleigh quotient dominates the growth of `A^k x` so far -/
theorem psd_growth (k : Nat) : ((A ^ k) *ᵥ x) ⬝ᵥ ((A ^ k) *ᵥ x) ≤ rayAt A x k ^ (2 * k) * (x ⬝ᵥ x) := by
  induction k with
  | zero => simp
  | succ k ih =>
    have h := (psd_step hA hpsd hL (psd_seq_pos hA hpsd hL hx k)).2.2.2.1
    rw [mulVec_mulVec _ A (A ^ k), ← pow_succ'] at h
    have h1 : rayAt A x k ^ (2 * k) * (x ⬝ᵥ x) ≤ rayAt A x (k + 1) ^ (2 * k) * (x ⬝ᵥ x) :=
      mul_le_mul_of_nonneg_right (pow_le_pow_left₀ (psd_ray_pos hA hpsd hL hx k).le (psd_ray_mono hA hpsd hL hx k) _)
        (Finset.sum_nonneg fun _ _ => mul_self_nonneg _)
    have h2 := mul_le_mul_of_nonneg_left (ih.trans h1) (sq_nonneg (rayAt A x (k + 1)))
    refine h.trans (h2.trans (le_of_eq ?_))
    rw [show 2 * (k + 1) = 2 * k + 2 by ring, pow_add]; ring

/-- the residual of the normalised `A^k x` is paid for by the growth of the Rayleigh quotient -/
theorem psd_residual (k : Nat) :
    norm2 (A *ᵥ dirAt A x k - rayAt A x k • dirAt A x k) ^ 2 ≤ L * (rayAt A x (k + 1) - rayAt A x k) := by
  have h0 := psd_seq_ne hA hpsd hL hx k
  have hu := dirAt_unit h0
  have hd := dirAt_dir h0
  have hr : rq A (dirAt A x k) = rayAt A x k := rq_eq hd
  have hr1 : rq A (A *ᵥ dirAt A x k) = rayAt A x (k + 1) := rq_eq (Dir.mulVec hd)
  have hp : 0 < dirAt A x k ⬝ᵥ (A *ᵥ dirAt A x k) := by
    rw [← rq_unit hu, hr]; exact psd_ray_pos hA hpsd hL hx k
  have h := (psd_step hA hpsd hL hp).2.2.1
  rw [hu, mul_one, mul_one, hr1, ← residual_sq hu, hr] at h
  rw [sq, norm2_sq]
  exact h

/-- how far the normalised vectors move in one step -/
theorem psd_move (k : Nat) :
    norm2 (dirAt A x (k + 1) - dirAt A x k) ^ 2 * rayAt A x 0 ^ 2 ≤ 2 * L * (rayAt A x (k + 1) - rayAt A x k) := by
  have h0 := psd_seq_ne hA hpsd hL hx k
  have hu := dirAt_unit h0
  have hd := dirAt_dir h0
  have hu1 := dirAt_unit (psd_seq_ne hA hpsd hL hx (k + 1))
  have hr : rq A (dirAt A x k) = rayAt A x k := rq_eq hd
  have hd1 : dirAt A x (k + 1) = unit2 (A *ᵥ dirAt A x k) := (unit2_eq (Dir.mulVec hd)).symm
  have hres := psd_residual hA hpsd hL hx k
  have hn2 := sq_nonneg (norm2 (A *ᵥ dirAt A x k - rayAt A x k • dirAt A x k))
  rw [sq, norm2_sq, ← hr, residual_sq hu, hr] at hres hn2
  have hv : dirAt A x k ⬝ᵥ (A *ᵥ dirAt A x k) = rayAt A x k := by rw [← rq_unit hu, hr]
  have hm := psd_ray_le_of_le hA hpsd hL hx (Nat.zero_le k)
  have hr0 := psd_ray_pos hA hpsd hL hx 0
  have hm1 := psd_ray_mono hA hpsd hL hx k
  have hcos : dirAt A x (k + 1) ⬝ᵥ dirAt A x k
      = rayAt A x k / Real.sqrt ((A *ᵥ dirAt A x k) ⬝ᵥ (A *ᵥ dirAt A x k)) := by
    rw [hd1, unit2, smul_dotProduct, smul_eq_mul, dotProduct_comm (A *ᵥ dirAt A x k) (dirAt A x k), hv, mul_comm,
      div_eq_mul_inv]
  have hne : A *ᵥ dirAt A x k ≠ 0 := by
    intro h; rw [h] at hv; simp at hv
    linarith
  have hm2 := dot_self_pos hne
  rw [sq, norm2_sq, sub_dotProduct, dotProduct_sub, dotProduct_sub, hu, hu1, dotProduct_comm (dirAt A x k), hcos]
  have hs := Real.sqrt_pos.2 hm2
  have hss := Real.mul_self_sqrt hm2.le
  generalize (A *ᵥ dirAt A x k) ⬝ᵥ (A *ᵥ dirAt A x k) = m2 at *
  generalize Real.sqrt m2 = s at *
  generalize rayAt A x k = r at *
  generalize rayAt A x (k + 1) = q at *
  generalize rayAt A x 0 = r0 at *
  have hsr : r ≤ s := by nlinarith
  have h1 : (1 - r / s - (r / s - 1)) * r0 ^ 2 ≤ (1 - r / s - (r / s - 1)) * s ^ 2 := by
    refine mul_le_mul_of_nonneg_left (pow_le_pow_left₀ hr0.le (hm.trans hsr) 2) ?_
    have := (div_le_one hs).2 hsr
    linarith
  have h2 : (1 - r / s - (r / s - 1)) * s ^ 2 = 2 * (s * s - r * s) := by field_simp; ring
  nlinarith

theorem psd_sum_bound {niter : Nat} {d : ℝ} (h : ∀ j < niter, d ≤ rayAt A x (j + 1) - rayAt A x j) :
    niter * d ≤ L - rayAt A x 0 := by
  have : ∀ k ≤ niter, k * d ≤ rayAt A x k - rayAt A x 0 := by
    intro k hk
    induction k with
    | zero => simp
    | succ k ih =>
      have h1 := ih (by omega)
      have h2 := h k (by omega)
      push_cast
      linarith
  have h1 := this niter le_rfl
  have := psd_ray_le hA hpsd hL hx niter
  linarith
end

end Ellalgo
