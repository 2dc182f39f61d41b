import Verif.Lib.LdltFl
import Verif.Lib.LdltOps
import Verif.Spec.Ldlt
import Verif.Spec.Rounded

/-! # C82: what the factorisation's answer means in rounded arithmetic -/

namespace Ellalgo
open Matrix Finset
variable {u : ℝ} {R : Rounding u} {n : Nat}

theorem ldlt_margin {t : ℝ} (h0 : 0 ≤ t) (h1 : 16 * t ≤ 1) :
    (1 + t / (1 - t)) ^ 2 - 1 ≤ 1 / 5 ∧ 0 ≤ (1 + t / (1 - t)) ^ 2 - 1 ∧
      ((1 + t / (1 - t)) ^ 2 - 1) / (1 - ((1 + t / (1 - t)) ^ 2 - 1)) ≤ 3 * t := by
  have hd : 0 < 1 - t := by linarith
  have e : 1 + t / (1 - t) = 1 / (1 - t) := by field_simp; ring
  have e2 : (1 + t / (1 - t)) ^ 2 - 1 = (2 * t - t ^ 2) / (1 - t) ^ 2 := by
    rw [e, div_pow, one_pow]; field_simp; ring
  have hη : (1 + t / (1 - t)) ^ 2 - 1 ≤ 1 / 5 := by
    rw [e2, div_le_div_iff₀ (by positivity) (by norm_num)]; nlinarith
  have hη0 : 0 ≤ (1 + t / (1 - t)) ^ 2 - 1 := by
    rw [e2]; apply div_nonneg <;> nlinarith
  refine ⟨hη, hη0, ?_⟩
  rw [div_le_iff₀ (by linarith)]
  have e3 : 3 * t * (1 - ((1 + t / (1 - t)) ^ 2 - 1)) = (3 * t * (2 * (1 - t) ^ 2 - 1)) / (1 - t) ^ 2 := by
    rw [e, div_pow, one_pow]; field_simp; ring
  rw [e3, e2]
  apply div_le_div_of_nonneg_right _ (by positivity)
  nlinarith [mul_nonneg h0 (by nlinarith : 0 ≤ 1 - 11 * t + 6 * t ^ 2)]

theorem sum_sq_fin (x : Fin n → ℝ) :
    ∑ a ∈ range n, (if h : a < n then x ⟨a, h⟩ else 0) ^ 2 = x ⬝ᵥ x := by
  rw [Finset.sum_range, dotProduct]
  exact sum_congr rfl fun i _ => by simp [sq]

theorem trace_lowerSym (A : Nat → Nat → ℝ) : (lowerSym n A).trace = ∑ a ∈ range n, A a a := by
  rw [Finset.sum_range, Matrix.trace]
  exact sum_congr rfl fun i _ => by simp [lowerSym]

theorem quad_shift (M : Matrix (Fin n) (Fin n) ℝ) (c : ℝ) (x : Fin n → ℝ) :
    x ⬝ᵥ ((M + c • (1 : Matrix (Fin n) (Fin n) ℝ)) *ᵥ x) = x ⬝ᵥ (M *ᵥ x) + c * (x ⬝ᵥ x) := by
  rw [add_mulVec, dotProduct_add, smul_mulVec, one_mulVec, dotProduct_smul, smul_eq_mul]

/-- **C82** In an arithmetic that rounds every operation with relative error at most `u` (`u = 2⁻⁵³` for `f64`), and for
dimensions with `16 n u ≤ 1`: if `factor` reports "positive definite", then the symmetric matrix with the given lower triangle is
positive definite after adding `3 n u tr(A)` to its diagonal. -/
theorem C82_factor_accepts {m m' : LDLTMgr (Fl R)} {getElem : Nat → Nat → Res (Fl R)} {A : Nat → Nat → Fl R}
    (hn : m.ndim = n) (hS : m.storage.IsMatShape n n) (hA : ∀ i j, j ≤ i → i < n → getElem i j = .ok (A i j))
    (hu : 16 * (n * u) ≤ 1) (hrun : m.factor getElem = .ok (true, m')) :
    (lowerSym n (fun i j => (A i j).val) +
      (3 * (n * u) * (lowerSym n fun i j => (A i j).val).trace) • (1 : Matrix (Fin n) (Fin n) ℝ)).PosDef := by
  have hu0 := R.unit_nonneg
  have ht0 : 0 ≤ n * u := by positivity
  obtain ⟨b, m1, S, h1, -, -, -, hh⟩ := LDLTMgr.factor_generic hn hS hA
  rw [h1] at hrun
  simp only [Res.ok.injEq, Prod.mk.injEq] at hrun
  rcases hh with ⟨-, -, hB, hp⟩ | ⟨hb, -⟩
  swap
  · rw [hb] at hrun; simp at hrun
  have hp' : ∀ a, a < n → 0 < (S a a).val := fun a ha => by
    have := hp a ha
    simpa using this
  have hE := LDLTMgr.blkE_of_generic (le_refl n) (by linarith) hB fun a ha => hp' a (by omega)
  obtain ⟨k1, k2, k3⟩ := ldlt_margin ht0 hu
  have hd : 0 < 1 - n * u := by linarith
  rw [posDef_iff_real]
  refine ⟨(lowerSym_isSymm n _).add ((isSymm_one).smul _), fun x hx => ?_⟩
  obtain ⟨j, hj⟩ := Function.ne_iff.1 hx
  have key := LDLTMgr.blkE_accept (by positivity) (by linarith) hE hp'
    (v := fun a => if h : a < n then x ⟨a, h⟩ else 0) j.2 (by simpa using hj)
  have htr : 0 ≤ ∑ a ∈ range n, (A a a).val := by
    apply sum_nonneg
    intro a ha
    rw [mem_range] at ha
    have := LDLTMgr.blkE_entry (by positivity) hE (le_refl a) ha
    have h2 : ∑ k ∈ range n, LDLTMgr.Lf (fun a b => (S a b).val) a k * (S k k).val * LDLTMgr.Lf (fun a b => (S a b).val) a k
        = LDLTMgr.absLdl (fun a b => (S a b).val) n a a := by
      apply sum_congr rfl
      intro k hk
      rw [mem_range] at hk
      rw [abs_of_pos (hp' k hk), mul_assoc, mul_assoc, mul_left_comm, mul_left_comm |_|, abs_mul_abs_self]
    have h3 : 0 ≤ LDLTMgr.absLdl (fun a b => (S a b).val) n a a := sum_nonneg fun _ _ => by positivity
    rw [h2] at this
    have := (abs_le.1 this).1
    nlinarith
  rw [quad_shift, trace_lowerSym, lowerSym_eq, quad_fin]
  rw [sum_sq_fin] at key
  simp only [Nat.Ico_zero_eq_range]
  have hxx : 0 ≤ x ⬝ᵥ x := by
    rw [dotProduct]; exact sum_nonneg fun i _ => mul_self_nonneg _
  have := mul_le_mul_of_nonneg_right (mul_le_mul_of_nonneg_right k3 htr) hxx
  linarith

/-- **C82** Conversely `factor` does report "positive definite" (and in no case panics) if the matrix stays positive semidefinite
after subtracting some `λ > 6 n u tr(A)` from its diagonal. -/
theorem C82_factor_margin {m : LDLTMgr (Fl R)} {getElem : Nat → Nat → Res (Fl R)} {A : Nat → Nat → Fl R}
    (hn : m.ndim = n) (hS : m.storage.IsMatShape n n) (hA : ∀ i j, j ≤ i → i < n → getElem i j = .ok (A i j))
    (hu : 16 * (n * u) ≤ 1) :
    ∃ b m', m.factor getElem = .ok (b, m') ∧
      ((∃ lam, 0 ≤ lam ∧ 6 * (n * u) * (lowerSym n fun i j => (A i j).val).trace < lam ∧
        (lowerSym n (fun i j => (A i j).val) - lam • (1 : Matrix (Fin n) (Fin n) ℝ)).PosSemidef) → b = true) := by
  have hu0 := R.unit_nonneg
  have ht0 : 0 ≤ n * u := by positivity
  obtain ⟨b, m1, S, h1, -, -, -, hh⟩ := LDLTMgr.factor_generic hn hS hA
  refine ⟨b, m1, h1, ?_⟩
  rintro ⟨lam, hl0, hlam, hpsd⟩
  rcases hh with ⟨hb, -⟩ | ⟨-, p, hpn, -, hB, hp, hpp⟩
  · exact hb
  exfalso
  have hp' : ∀ a, a < p → 0 < (S a a).val := fun a ha => by
    have := hp a ha
    simpa using this
  have hpp' : (S p p).val ≤ 0 := by simpa using hpp
  have hE := LDLTMgr.blkE_of_generic (by omega : p + 1 ≤ n) (by linarith) hB fun a ha => hp' a (by omega)
  obtain ⟨k1, k2, k3⟩ := ldlt_margin ht0 hu
  have hd : 0 < 1 - n * u := by linarith
  obtain ⟨v, hv1, hv2⟩ := exists_backsubst (LDLTMgr.Lf fun a b => (S a b).val) p (fun k _ => by simp [LDLTMgr.Lf])
    (fun a k hak => by simp [LDLTMgr.Lf, hak])
  have key := LDLTMgr.blkE_reject (by positivity) k1 hE hp' hpp' hv1 hv2
  have hq : ∀ x : Fin n → ℝ, lam * (x ⬝ᵥ x) ≤ x ⬝ᵥ (lowerSym n (fun i j => (A i j).val) *ᵥ x) := by
    intro x
    have := hpsd.dotProduct_mulVec_nonneg x
    simp only [star_trivial] at this
    rw [sub_eq_add_neg, ← neg_smul, quad_shift] at this
    linarith
  have hdiag : ∀ a, a < n → lam ≤ (A a a).val := by
    intro a ha
    have := hq (Pi.single ⟨a, ha⟩ 1)
    simpa [lowerSym] using this
  -- the witness vector, extended by zeros
  have h2 := hq (fun i : Fin n => if 0 ≤ (i : Nat) ∧ (i : Nat) < p + 1 then v i else 0)
  rw [lowerSym_eq, quad_fin_if (by omega : p + 1 ≤ n)] at h2
  have h3 : (fun i : Fin n => if 0 ≤ (i : Nat) ∧ (i : Nat) < p + 1 then v i else 0) ⬝ᵥ
      (fun i : Fin n => if 0 ≤ (i : Nat) ∧ (i : Nat) < p + 1 then v i else 0) = ∑ a ∈ range p, v a ^ 2 + 1 := by
    have := sum_fin_if (s := 0) (by omega : p + 1 ≤ n) (fun a => v a ^ 2)
    rw [Nat.Ico_zero_eq_range, sum_range_succ, hv1, one_pow] at this
    rw [← this, dotProduct]
    apply sum_congr rfl
    intro i _
    split
    · ring
    · ring
  rw [h3, Nat.Ico_zero_eq_range] at h2
  set N := ∑ a ∈ range p, v a ^ 2
  have hN : 0 ≤ N := sum_nonneg fun _ _ => sq_nonneg _
  rw [trace_lowerSym] at hlam
  have htr : ∑ a ∈ range p, (A a a).val + (A p p).val ≤ ∑ a ∈ range n, (A a a).val := by
    rw [← sum_range_succ]
    apply sum_le_sum_of_subset_of_nonneg (range_subset_range.2 (by omega))
    intro a ha _
    exact hl0.trans (hdiag a (mem_range.1 ha))
  have hTp : 0 ≤ ∑ a ∈ range p, (A a a).val :=
    sum_nonneg fun a ha => hl0.trans (hdiag a (by have := mem_range.1 ha; omega))
  have hpm : 0 ≤ (A p p).val := hl0.trans (hdiag p hpn)
  set T := ∑ a ∈ range n, (A a a).val
  set Tp := ∑ a ∈ range p, (A a a).val
  have e1 : Tp * N + (A p p).val ≤ T * (N + 1) := by nlinarith
  have e2 : 2 * ((1 + n * u / (1 - n * u)) ^ 2 - 1) / (1 - ((1 + n * u / (1 - n * u)) ^ 2 - 1)) ≤ 6 * (n * u) := by
    rw [mul_div_assoc]; linarith
  have e3 : 0 ≤ Tp * N + (A p p).val := by positivity
  have e4 := mul_le_mul_of_nonneg_right e2 e3
  have e5 := mul_le_mul_of_nonneg_left e1 (by linarith : 0 ≤ 6 * (n * u))
  nlinarith

end Ellalgo
