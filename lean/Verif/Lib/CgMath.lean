import Verif.Lib.VecOps
import Mathlib.LinearAlgebra.Matrix.PosDef
import Mathlib.LinearAlgebra.Matrix.DotProduct
import Mathlib.LinearAlgebra.Dimension.Finite
import Mathlib.LinearAlgebra.Dimension.Constructions

/-! The conjugate gradient recursion over the reals: orthogonality and finite termination. -/

namespace Ellalgo
open Matrix

variable {n : Nat}

/-- iterate, residual, direction -/
structure CgSt (n : Nat) where
  x : Fin n → ℝ
  r : Fin n → ℝ
  p : Fin n → ℝ

/-- one step of the method -/
noncomputable def cgStep (A : Matrix (Fin n) (Fin n) ℝ) (s : CgSt n) : CgSt n :=
  let al := (s.r ⬝ᵥ s.r) / (s.p ⬝ᵥ (A *ᵥ s.p))
  let r' := s.r - al • (A *ᵥ s.p)
  ⟨s.x + al • s.p, r', r' + ((r' ⬝ᵥ r') / (s.r ⬝ᵥ s.r)) • s.p⟩

/-- `k` steps -/
noncomputable def cgIter (A : Matrix (Fin n) (Fin n) ℝ) (s : CgSt n) : Nat → CgSt n
  | 0 => s
  | k + 1 => cgStep A (cgIter A s k)

theorem sym_dot {A : Matrix (Fin n) (Fin n) ℝ} (hA : A.IsSymm) (u v : Fin n → ℝ) :
    u ⬝ᵥ (A *ᵥ v) = v ⬝ᵥ (A *ᵥ u) := by
  rw [dotProduct_comm, ← vecMul_transpose, hA.eq, dotProduct_mulVec]

theorem dot_self_pos {v : Fin n → ℝ} (h : v ≠ 0) : 0 < v ⬝ᵥ v := by
  have h1 : 0 ≤ v ⬝ᵥ v := Finset.sum_nonneg fun i _ => mul_self_nonneg _
  exact lt_of_le_of_ne h1 fun h0 => h (dotProduct_self_eq_zero.1 h0.symm)

section
variable {A : Matrix (Fin n) (Fin n) ℝ} (hA : A.IsSymm) (hpos : ∀ v : Fin n → ℝ, v ≠ 0 → 0 < v ⬝ᵥ (A *ᵥ v))
  {s : CgSt n} (hs : s.p = s.r)
include hA hpos hs

theorem cg_orth (K : Nat) (hne : ∀ i ≤ K, (cgIter A s i).r ≠ 0) :
    (∀ i ≤ K, (cgIter A s i).r ⬝ᵥ (cgIter A s i).p = (cgIter A s i).r ⬝ᵥ (cgIter A s i).r) ∧
    (∀ i j, i < j → j ≤ K → (cgIter A s i).r ⬝ᵥ (cgIter A s j).r = 0) ∧
    (∀ i j, i < j → j ≤ K → (cgIter A s i).p ⬝ᵥ (A *ᵥ (cgIter A s j).p) = 0) := by
  induction K with
  | zero =>
    refine ⟨fun i hi => ?_, fun i j h1 h2 => absurd h1 (by omega), fun i j h1 h2 => absurd h1 (by omega)⟩
    obtain rfl : i = 0 := by omega
    simp [cgIter, hs]
  | succ K ih =>
    obtain ⟨h1, h2, h3⟩ := ih fun i hi => hne i (by omega)
    -- names
    set R := fun i => (cgIter A s i).r with hR
    set P := fun i => (cgIter A s i).p with hP
    set al := fun i => (R i ⬝ᵥ R i) / (P i ⬝ᵥ (A *ᵥ P i)) with hal
    have hRs : ∀ i, R (i + 1) = R i - al i • (A *ᵥ P i) := fun i => rfl
    have hPs : ∀ i, P (i + 1) = R (i + 1) + ((R (i + 1) ⬝ᵥ R (i + 1)) / (R i ⬝ᵥ R i)) • P i := fun i => rfl
    have hRpos : ∀ i ≤ K, 0 < R i ⬝ᵥ R i := fun i hi => dot_self_pos (hne i (by omega))
    have hPpos : ∀ i ≤ K, 0 < P i ⬝ᵥ (A *ᵥ P i) := by
      intro i hi
      apply hpos
      intro h0
      have e1 : R i ⬝ᵥ P i = R i ⬝ᵥ R i := h1 i hi
      rw [h0, dotProduct_zero] at e1
      exact (hRpos i hi).ne e1
    have halpos : ∀ i ≤ K, 0 < al i := fun i hi => div_pos (hRpos i hi) (hPpos i hi)
    have halmul : ∀ i ≤ K, al i * (P i ⬝ᵥ (A *ᵥ P i)) = R i ⬝ᵥ R i := fun i hi =>
      div_mul_cancel₀ _ (hPpos i hi).ne'
    have hsym := sym_dot hA
    have h2' : ∀ i j, i < j → j ≤ K → R i ⬝ᵥ R j = 0 := h2
    have h3' : ∀ i j, i < j → j ≤ K → P i ⬝ᵥ (A *ᵥ P j) = 0 := h3
    -- direction against earlier residuals, in the A-product
    have hPR : ∀ i, i < K → R i ⬝ᵥ (A *ᵥ P K) = 0 := by
      intro i hi
      cases i with
      | zero =>
        have e : R 0 = P 0 := hs.symm
        rw [e]; exact h3' 0 K hi le_rfl
      | succ i =>
        have e : R (i + 1) = P (i + 1) - ((R (i + 1) ⬝ᵥ R (i + 1)) / (R i ⬝ᵥ R i)) • P i := by
          rw [hPs i]; simp
        rw [e, sub_dotProduct, smul_dotProduct, h3' _ _ hi le_rfl, h3' _ _ (by omega : i < K) le_rfl]
        simp
    have hPRK : R K ⬝ᵥ (A *ᵥ P K) = P K ⬝ᵥ (A *ᵥ P K) := by
      rcases Nat.eq_zero_or_pos K with h0 | h0
      · have e : R K = P K := by rw [h0]; exact hs.symm
        rw [e]
      · obtain ⟨k, rfl⟩ : ∃ k, K = k + 1 := ⟨K - 1, by omega⟩
        have e : R (k + 1) = P (k + 1) - ((R (k + 1) ⬝ᵥ R (k + 1)) / (R k ⬝ᵥ R k)) • P k := by
          rw [hPs k]; simp
        conv_lhs => rw [e]
        rw [sub_dotProduct, smul_dotProduct, h3' _ _ (by omega : k < k + 1) le_rfl]
        simp
    have hRnew : ∀ i ≤ K, R i ⬝ᵥ R (K + 1) = 0 := by
      intro i hi
      rw [hRs K, dotProduct_sub, dotProduct_smul, smul_eq_mul]
      rcases Nat.lt_or_ge i K with h | h
      · rw [h2' i K h le_rfl, hPR i h]; simp
      · obtain rfl : i = K := by omega
        rw [hPRK, halmul i le_rfl]; simp
    have hRP : R (K + 1) ⬝ᵥ P K = 0 := by
      have e1 : R K ⬝ᵥ P K = R K ⬝ᵥ R K := h1 K le_rfl
      rw [hRs K, sub_dotProduct, smul_dotProduct, smul_eq_mul, dotProduct_comm (A *ᵥ P K), halmul K le_rfl, e1]
      simp
    -- A p_i through residuals
    have hAP : ∀ i ≤ K, R (K + 1) ⬝ᵥ (A *ᵥ P i) = (R (K + 1) ⬝ᵥ R i - R (K + 1) ⬝ᵥ R (i + 1)) / al i := by
      intro i hi
      rw [hRs i, dotProduct_sub, dotProduct_smul, smul_eq_mul]
      field_simp [(halpos i hi).ne']
      ring
    have hPnew : ∀ i ≤ K, P i ⬝ᵥ (A *ᵥ P (K + 1)) = 0 := by
      intro i hi
      rw [hsym, hPs K, add_dotProduct, smul_dotProduct, smul_eq_mul, hAP i hi]
      rcases Nat.lt_or_ge i K with h | h
      · rw [dotProduct_comm (R (K + 1)) (R i), dotProduct_comm (R (K + 1)) (R (i + 1)), hRnew i hi,
          hRnew (i + 1) (by omega), hsym, h3' i K h le_rfl]
        simp
      · obtain rfl : i = K := by omega
        rw [dotProduct_comm (R (i + 1)) (R i), hRnew i hi]
        have e := halmul i le_rfl
        have h5 := (hRpos i le_rfl).ne'
        have h6 := (halpos i le_rfl).ne'
        rw [← e]
        have h7 := (hPpos i le_rfl).ne'
        field_simp
        ring
    refine ⟨?_, ?_, ?_⟩
    · intro i hi
      rcases Nat.lt_or_ge i (K + 1) with h | h
      · exact h1 i (by omega)
      · obtain rfl : i = K + 1 := by omega
        show R (K + 1) ⬝ᵥ P (K + 1) = R (K + 1) ⬝ᵥ R (K + 1)
        rw [hPs K, dotProduct_add, dotProduct_smul, hRP]
        simp
    · intro i j hij hj
      rcases Nat.lt_or_ge j (K + 1) with h | h
      · exact h2 i j hij (by omega)
      · obtain rfl : j = K + 1 := by omega
        exact hRnew i (by omega)
    · intro i j hij hj
      rcases Nat.lt_or_ge j (K + 1) with h | h
      · exact h3 i j hij (by omega)
      · obtain rfl : j = K + 1 := by omega
        exact hPnew i (by omega)

/-- at most `n` residuals are non-zero -/
theorem cg_terminates (K : Nat) (hne : ∀ i ≤ K, (cgIter A s i).r ≠ 0) : K < n := by
  obtain ⟨_, h2, _⟩ := cg_orth hA hpos hs K hne
  have hli : LinearIndependent ℝ (fun i : Fin (K + 1) => (cgIter A s i).r) := by
    rw [Fintype.linearIndependent_iff]
    intro g hg j
    have h := congrArg (fun v => v ⬝ᵥ (cgIter A s j).r) hg
    simp only [sum_dotProduct, smul_dotProduct, zero_dotProduct, smul_eq_mul] at h
    rw [Finset.sum_eq_single j] at h
    · rcases mul_eq_zero.1 h with h | h
      · exact h
      · exact absurd h (dot_self_pos (hne j (by omega))).ne'
    · intro i _ hij
      rcases lt_or_gt_of_ne (fun h => hij (Fin.ext h) : (i : Nat) ≠ j) with h | h
      · rw [h2 _ _ h (by omega), mul_zero]
      · rw [dotProduct_comm, h2 _ _ h (by omega), mul_zero]
    · intro h; exact absurd (Finset.mem_univ _) h
  have := hli.fintype_card_le_finrank
  simp at this
  omega

end
end Ellalgo
