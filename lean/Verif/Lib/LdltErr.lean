import Verif.Lib.LdltLemmas
import Mathlib.Algebra.Order.Chebyshev
import Mathlib.Tactic.Linarith
import Mathlib.Tactic.Positivity

/-! Backward error analysis of the LDLᵀ factorisation: storage that satisfies the factorisation's equations up to relative
errors. -/

namespace Ellalgo
open Finset
namespace LDLTMgr

/-- the equations of `Blk` (rows `0..i`) with relative error `e` in every one -/
structure BlkE (e : ℝ) (A S : Nat → Nat → ℝ) (i : Nat) : Prop where
  entry : ∀ a, a < i → ∀ b, b ≤ a → |A a b - ∑ k ∈ range b, S a k * S k b - S b a| ≤
    e * (∑ k ∈ range b, |S a k * S k b| + |S b a|)
  quot : ∀ a, a < i → ∀ b, b < a → |S b a - S a b * S b b| ≤ e * |S a b * S b b|

/-- size of the terms that make up entry `(a, b)` of `L D Lᵀ` -/
noncomputable def absLdl (S : Nat → Nat → ℝ) (i a b : Nat) : ℝ :=
  ∑ k ∈ range i, |Lf S a k| * |S k k| * |Lf S b k|

theorem absLdl_comm (S : Nat → Nat → ℝ) (i a b : Nat) : absLdl S i a b = absLdl S i b a :=
  sum_congr rfl fun _ _ => by ring

theorem blkE_entry {e : ℝ} (he : 0 ≤ e) {A S : Nat → Nat → ℝ} {i : Nat} (h : BlkE e A S i) {a b : Nat} (hba : b ≤ a)
    (ha : a < i) :
    |A a b - ∑ k ∈ range i, Lf S a k * S k k * Lf S b k| ≤ ((1 + e) ^ 2 - 1) * absLdl S i a b := by
  have hz : ∀ k, b < k → Lf S b k = 0 := fun k hk => by simp only [Lf]; rw [if_pos hk]
  have hbb : Lf S b b = 1 := by simp [Lf]
  have hlow : ∀ c k, k < c → Lf S c k = S c k := fun c k hk => by
    simp only [Lf]; rw [if_neg (by omega), if_neg (by omega)]
  have s1 : ∑ k ∈ range i, Lf S a k * S k k * Lf S b k
      = ∑ k ∈ range b, Lf S a k * S k k * Lf S b k + Lf S a b * S b b := by
    have : ∑ k ∈ range i, Lf S a k * S k k * Lf S b k = ∑ k ∈ range (b + 1), Lf S a k * S k k * Lf S b k := by
      symm
      apply sum_subset (range_subset_range.2 (by omega))
      intro k _ hk2
      rw [mem_range] at hk2
      rw [hz k (by omega), mul_zero]
    rw [this, sum_range_succ, hbb, mul_one]
  have s2 : absLdl S i a b = ∑ k ∈ range b, |S a k * (S b k * S k k)| + |Lf S a b * S b b| := by
    have : absLdl S i a b = ∑ k ∈ range (b + 1), |Lf S a k| * |S k k| * |Lf S b k| := by
      symm
      apply sum_subset (range_subset_range.2 (by omega))
      intro k _ hk2
      rw [mem_range] at hk2
      rw [hz k (by omega), abs_zero, mul_zero]
    rw [this, sum_range_succ, hbb, abs_one, mul_one, abs_mul]
    congr 1
    apply sum_congr rfl
    intro k hk
    rw [mem_range] at hk
    rw [hlow a k (by omega), hlow b k hk, abs_mul, abs_mul]; ring
  -- single terms
  have t1 : ∀ k ∈ range b, |S a k * S k b - Lf S a k * S k k * Lf S b k| ≤ e * |S a k * (S b k * S k k)| := by
    intro k hk
    rw [mem_range] at hk
    rw [hlow a k (by omega), hlow b k hk,
      show S a k * S k b - S a k * S k k * S b k = S a k * (S k b - S b k * S k k) by ring, abs_mul, abs_mul]
    have := h.quot b (by omega) k hk
    calc |S a k| * |S k b - S b k * S k k| ≤ |S a k| * (e * |S b k * S k k|) :=
          mul_le_mul_of_nonneg_left this (abs_nonneg _)
      _ = _ := by ring
  have t2 : ∀ k ∈ range b, |S a k * S k b| ≤ (1 + e) * |S a k * (S b k * S k k)| := by
    intro k hk
    have h1 := t1 k hk
    rw [mem_range] at hk
    rw [hlow a k (by omega), hlow b k hk] at h1
    have h2 := abs_add_le (S a k * S k b - S a k * S k k * S b k) (S a k * S k k * S b k)
    rw [sub_add_cancel] at h2
    rw [show S a k * (S b k * S k k) = S a k * S k k * S b k by ring] at h1 ⊢
    linarith
  have t3 : |S b a - Lf S a b * S b b| ≤ e * |Lf S a b * S b b| := by
    rcases Nat.lt_or_ge b a with hlt | hge
    · rw [hlow a b hlt]; exact h.quot a ha b hlt
    · have : a = b := by omega
      subst this
      rw [hbb, one_mul, sub_self, abs_zero]; positivity
  have t4 : |S b a| ≤ (1 + e) * |Lf S a b * S b b| := by
    have h2 := abs_add_le (S b a - Lf S a b * S b b) (Lf S a b * S b b)
    rw [sub_add_cancel] at h2
    linarith
  have u1 : |∑ k ∈ range b, S a k * S k b - ∑ k ∈ range b, Lf S a k * S k k * Lf S b k|
      ≤ e * ∑ k ∈ range b, |S a k * (S b k * S k k)| := by
    rw [← sum_sub_distrib, mul_sum]
    exact (abs_sum_le_sum_abs _ _).trans (sum_le_sum t1)
  have u2 : ∑ k ∈ range b, |S a k * S k b| ≤ (1 + e) * ∑ k ∈ range b, |S a k * (S b k * S k k)| := by
    rw [mul_sum]; exact sum_le_sum t2
  have hmain := h.entry a ha b hba
  rw [s1, s2]
  set P := ∑ k ∈ range b, S a k * S k b
  set Q := ∑ k ∈ range b, Lf S a k * S k k * Lf S b k
  set T := ∑ k ∈ range b, |S a k * (S b k * S k k)|
  set W := ∑ k ∈ range b, |S a k * S k b|
  set D := Lf S a b * S b b
  have a1 := abs_add_le (A a b - P - S b a + (P - Q)) (S b a - D)
  have a2 := abs_add_le (A a b - P - S b a) (P - Q)
  rw [show A a b - P - S b a + (P - Q) + (S b a - D) = A a b - (Q + D) by ring] at a1
  have m1 := mul_le_mul_of_nonneg_left (add_le_add u2 t4) he
  calc |A a b - (Q + D)| ≤ e * ((1 + e) * T + (1 + e) * |D|) + e * T + e * |D| := by linarith
    _ = ((1 + e) ^ 2 - 1) * (T + |D|) := by ring

theorem blkE_entry_sym {e : ℝ} (he : 0 ≤ e) {A S : Nat → Nat → ℝ} {i : Nat} (h : BlkE e A S i) {a b : Nat}
    (ha : a < i) (hb : b < i) :
    |symL A a b - ∑ k ∈ range i, Lf S a k * S k k * Lf S b k| ≤ ((1 + e) ^ 2 - 1) * absLdl S i a b := by
  by_cases hab : b ≤ a
  · rw [symL, if_pos hab]; exact blkE_entry he h hab ha
  · rw [symL, if_neg hab, absLdl_comm]
    have := blkE_entry he h (by omega : a ≤ b) hb
    rwa [sum_congr rfl fun k _ => show Lf S a k * S k k * Lf S b k = Lf S b k * S k k * Lf S a k by ring]

/-- the quadratic form against that of `L D Lᵀ` -/
theorem blkE_quad {e : ℝ} (he : 0 ≤ e) {A S : Nat → Nat → ℝ} {i : Nat} (h : BlkE e A S i) (v : Nat → ℝ) :
    |∑ a ∈ range i, ∑ b ∈ range i, v a * symL A a b * v b
      - ∑ k ∈ range i, S k k * (∑ a ∈ range i, Lf S a k * v a) ^ 2|
      ≤ ((1 + e) ^ 2 - 1) * ∑ k ∈ range i, |S k k| * (∑ a ∈ range i, |Lf S a k| * |v a|) ^ 2 := by
  have ex : ∀ (L : Nat → Nat → ℝ) (d w : Nat → ℝ), ∑ k ∈ range i, d k * (∑ a ∈ range i, L a k * w a) ^ 2
      = ∑ a ∈ range i, ∑ b ∈ range i, w a * (∑ k ∈ range i, L a k * d k * L b k) * w b := by
    intro L d w
    have e2 : ∀ k, d k * (∑ a ∈ range i, L a k * w a) ^ 2
        = ∑ a ∈ range i, ∑ b ∈ range i, w a * (L a k * d k * L b k) * w b := by
      intro k
      rw [sq, sum_mul_sum, mul_sum]
      apply sum_congr rfl; intro a _
      rw [mul_sum]
      apply sum_congr rfl; intro b _; ring
    simp only [e2]
    rw [sum_comm]
    apply sum_congr rfl; intro a _
    rw [sum_comm]
    apply sum_congr rfl; intro b _
    rw [mul_sum, sum_mul]
  rw [ex (Lf S) (fun k => S k k) v, ex (fun a k => |Lf S a k|) (fun k => |S k k|) (fun a => |v a|), ← sum_sub_distrib, mul_sum]
  refine (abs_sum_le_sum_abs _ _).trans (sum_le_sum fun a ha => ?_)
  rw [← sum_sub_distrib, mul_sum]
  refine (abs_sum_le_sum_abs _ _).trans (sum_le_sum fun b hb => ?_)
  rw [mem_range] at ha hb
  have := blkE_entry_sym he h ha hb
  rw [← sub_mul, ← mul_sub, abs_mul, abs_mul]
  calc |v a| * |symL A a b - ∑ k ∈ range i, Lf S a k * S k k * Lf S b k| * |v b|
      ≤ |v a| * (((1 + e) ^ 2 - 1) * absLdl S i a b) * |v b| :=
        mul_le_mul_of_nonneg_right (mul_le_mul_of_nonneg_left this (abs_nonneg _)) (abs_nonneg _)
    _ = _ := by unfold absLdl; ring

/-- all pivots positive: the form is nearly positive -/
theorem blkE_accept {e : ℝ} (he : 0 ≤ e) (he1 : (1 + e) ^ 2 - 1 < 1) {A S : Nat → Nat → ℝ} {n : Nat} (h : BlkE e A S n)
    (hp : ∀ a, a < n → 0 < S a a) {v : Nat → ℝ} {j : Nat} (hj : j < n) (hv : v j ≠ 0) :
    0 < ∑ a ∈ range n, ∑ b ∈ range n, v a * symL A a b * v b +
      ((1 + e) ^ 2 - 1) / (1 - ((1 + e) ^ 2 - 1)) * (∑ a ∈ range n, A a a) * ∑ a ∈ range n, v a ^ 2 := by
  classical
  have hq := blkE_quad he h v
  set η := (1 + e) ^ 2 - 1 with hη
  have hη0 : 0 ≤ η := by rw [hη]; nlinarith
  have hpos : 0 < ∑ k ∈ range n, S k k * (∑ a ∈ range n, Lf S a k * v a) ^ 2 := by
    obtain ⟨m, hm, hmv, hmax⟩ : ∃ m, m < n ∧ v m ≠ 0 ∧ ∀ a, m < a → a < n → v a = 0 := by
      let s := (range n).filter (fun a => v a ≠ 0)
      have hs : s.Nonempty := ⟨j, by simp [s, hj, hv]⟩
      refine ⟨s.max' hs, ?_, ?_, ?_⟩
      · have := s.max'_mem hs; simp only [s, mem_filter, mem_range] at this; exact this.1
      · have := s.max'_mem hs; simp only [s, mem_filter, mem_range] at this; exact this.2
      · intro a ha han
        by_contra hne
        have : a ≤ s.max' hs := s.le_max' a (by simp [s, han, hne])
        omega
    apply sum_pos' (fun k hk => mul_nonneg (hp k (mem_range.1 hk)).le (sq_nonneg _))
    refine ⟨m, mem_range.2 hm, ?_⟩
    have : ∑ a ∈ range n, Lf S a m * v a = v m := by
      rw [sum_eq_single m]
      · simp [Lf]
      · intro a ha hne
        rw [mem_range] at ha
        rcases lt_or_gt_of_ne hne with hlt | hlt
        · simp [Lf, hlt]
        · rw [hmax a hlt ha, mul_zero]
      · intro hne; simp [hm] at hne
    rw [this]
    exact mul_pos (hp m hm) (by positivity)
  set R : Nat → ℝ := fun a => ∑ k ∈ range n, |Lf S a k| * |S k k| * |Lf S a k| with hR
  have hRA : ∀ a ∈ range n, (1 - η) * R a ≤ A a a := by
    intro a ha
    rw [mem_range] at ha
    have h1 := blkE_entry he h (le_refl a) ha
    have h2 : ∑ k ∈ range n, Lf S a k * S k k * Lf S a k = R a := by
      apply sum_congr rfl
      intro k hk
      rw [mem_range] at hk
      rw [abs_of_pos (hp k hk), mul_assoc, mul_assoc, mul_left_comm, mul_left_comm |Lf S a k|, abs_mul_abs_self]
    rw [h2] at h1
    have h3 := (abs_le.1 h1).1
    have h4 : absLdl S n a a = R a := rfl
    rw [h4] at h3
    linarith
  have hsum : (1 - η) * ∑ a ∈ range n, R a ≤ ∑ a ∈ range n, A a a := by
    rw [mul_sum]; exact sum_le_sum hRA
  have hcs : ∑ k ∈ range n, |S k k| * (∑ a ∈ range n, |Lf S a k| * |v a|) ^ 2 ≤
      (∑ a ∈ range n, R a) * ∑ a ∈ range n, v a ^ 2 := by
    have : ∀ k ∈ range n, |S k k| * (∑ a ∈ range n, |Lf S a k| * |v a|) ^ 2 ≤
        |S k k| * ((∑ a ∈ range n, |Lf S a k| ^ 2) * ∑ a ∈ range n, v a ^ 2) := by
      intro k _
      apply mul_le_mul_of_nonneg_left _ (abs_nonneg _)
      have := sum_mul_sq_le_sq_mul_sq (range n) (fun a => |Lf S a k|) (fun a => |v a|)
      simpa only [sq_abs] using this
    refine (sum_le_sum this).trans (le_of_eq ?_)
    simp only [← mul_assoc]
    rw [← sum_mul]
    congr 1
    rw [hR, sum_comm]
    apply sum_congr rfl; intro k _
    rw [mul_sum]
    apply sum_congr rfl; intro a _; ring
  have hN : 0 ≤ ∑ a ∈ range n, v a ^ 2 := sum_nonneg fun _ _ => sq_nonneg _
  have h1 : η * ∑ a ∈ range n, R a ≤ η / (1 - η) * ∑ a ∈ range n, A a a := by
    rw [div_mul_eq_mul_div, le_div_iff₀ (by linarith)]
    nlinarith
  have h2 := mul_le_mul_of_nonneg_right h1 hN
  have h3 := mul_le_mul_of_nonneg_left hcs hη0
  have h4 := (abs_le.1 hq).1
  nlinarith

/-- size of the terms of `vᵀ L D Lᵀ v`, in terms of the diagonal of `A`, when the last pivot `-d` is not positive -/
theorem blkE_cs {e : ℝ} (he : 0 ≤ e) {A S : Nat → Nat → ℝ} {m : Nat}
    (h : BlkE e A S (m + 1)) (hp : ∀ a, a < m → 0 < S a a) (hm : S m m ≤ 0) {v : Nat → ℝ} (hvm : v m = 1) :
    ∃ RR Rm : ℝ, (1 - ((1 + e) ^ 2 - 1)) * RR ≤ ∑ a ∈ range m, A a a ∧
      (1 - ((1 + e) ^ 2 - 1)) * Rm ≤ A m m + (1 + ((1 + e) ^ 2 - 1)) * (-S m m) ∧
      ∑ k ∈ range (m + 1), |S k k| * (∑ a ∈ range (m + 1), |Lf S a k| * |v a|) ^ 2 ≤
        -S m m + (2 * RR * (∑ a ∈ range m, v a ^ 2) + 2 * Rm) := by
  set η := (1 + e) ^ 2 - 1 with hη
  set d := -S m m with hd
  have hLmm : Lf S m m = 1 := by simp [Lf]
  have hLam : ∀ a, a < m → Lf S a m = 0 := fun a ha => by simp only [Lf]; rw [if_pos ha]
  set R : Nat → ℝ := fun a => ∑ k ∈ range m, |Lf S a k| ^ 2 * |S k k| with hR
  have hR0 : ∀ a, 0 ≤ R a := fun a => sum_nonneg fun k _ => by positivity
  -- row sums against the diagonal
  have hRA : ∀ a ∈ range m, (1 - η) * R a ≤ A a a := by
    intro a ha
    rw [mem_range] at ha
    have h1 := blkE_entry he h (le_refl a) (by omega : a < m + 1)
    have h2 : ∑ k ∈ range (m + 1), Lf S a k * S k k * Lf S a k = R a := by
      rw [sum_range_succ, hLam a ha, mul_zero, add_zero]
      apply sum_congr rfl
      intro k hk
      rw [mem_range] at hk
      rw [abs_of_pos (hp k hk), sq_abs]; ring
    have h4 : absLdl S (m + 1) a a = R a := by
      unfold absLdl
      rw [sum_range_succ, hLam a ha, abs_zero, mul_zero, add_zero]
      apply sum_congr rfl; intro k _; ring
    rw [h2, h4] at h1
    have h3 := (abs_le.1 h1).1
    linarith
  have hRm : (1 - η) * R m ≤ A m m + (1 + η) * d := by
    have h1 := blkE_entry he h (le_refl m) (by omega : m < m + 1)
    have h2 : ∑ k ∈ range (m + 1), Lf S m k * S k k * Lf S m k = R m - d := by
      rw [sum_range_succ, hLmm, one_mul, mul_one, hd, sub_neg_eq_add]
      congr 1
      apply sum_congr rfl
      intro k hk
      rw [mem_range] at hk
      rw [abs_of_pos (hp k hk), sq_abs]; ring
    have h4 : absLdl S (m + 1) m m = R m + d := by
      unfold absLdl
      rw [sum_range_succ, hLmm, abs_one, one_mul, mul_one, abs_of_nonpos hm]
      congr 1
      apply sum_congr rfl; intro k _; ring
    rw [h2, h4] at h1
    have h3 := (abs_le.1 h1).1
    linarith
  have hsum : (1 - η) * ∑ a ∈ range m, R a ≤ ∑ a ∈ range m, A a a := by
    rw [mul_sum]; exact sum_le_sum hRA
  set N := ∑ a ∈ range m, v a ^ 2 with hN
  have hcs : ∑ k ∈ range (m + 1), |S k k| * (∑ a ∈ range (m + 1), |Lf S a k| * |v a|) ^ 2 ≤
      d + (2 * (∑ a ∈ range m, R a) * N + 2 * R m) := by
    rw [sum_range_succ]
    have hlast : |S m m| * (∑ a ∈ range (m + 1), |Lf S a m| * |v a|) ^ 2 = d := by
      rw [sum_range_succ, sum_eq_zero fun a ha => by rw [hLam a (mem_range.1 ha), abs_zero, zero_mul], hLmm, hvm]
      simp [abs_of_nonpos hm, hd]
    rw [hlast]
    have hk : ∀ k ∈ range m, |S k k| * (∑ a ∈ range (m + 1), |Lf S a k| * |v a|) ^ 2 ≤
        2 * (|S k k| * ∑ a ∈ range m, |Lf S a k| ^ 2) * N + 2 * (|Lf S m k| ^ 2 * |S k k|) := by
      intro k _
      have hc := sum_mul_sq_le_sq_mul_sq (range m) (fun a => |Lf S a k|) (fun a => |v a|)
      rw [sum_range_succ, hvm, abs_one, mul_one]
      set X := ∑ a ∈ range m, |Lf S a k| * |v a|
      set Y := |Lf S m k|
      set Z := ∑ a ∈ range m, |Lf S a k| ^ 2
      have hN' : ∑ a ∈ range m, |v a| ^ 2 = N := by simp only [sq_abs, hN]
      rw [hN'] at hc
      have h1 : (X + Y) ^ 2 ≤ 2 * (Z * N) + 2 * Y ^ 2 := by nlinarith [sq_nonneg (X - Y)]
      calc |S k k| * (X + Y) ^ 2 ≤ |S k k| * (2 * (Z * N) + 2 * Y ^ 2) :=
            mul_le_mul_of_nonneg_left h1 (abs_nonneg _)
        _ = _ := by ring
    have hs := sum_le_sum hk
    rw [sum_add_distrib, ← sum_mul, ← mul_sum, ← mul_sum] at hs
    have hsw : ∑ k ∈ range m, |S k k| * ∑ a ∈ range m, |Lf S a k| ^ 2 = ∑ a ∈ range m, R a := by
      rw [hR, sum_comm]
      apply sum_congr rfl; intro k _
      rw [mul_sum]
      apply sum_congr rfl; intro a _; ring
    rw [hsw] at hs
    linarith
  exact ⟨_, _, hsum, hRm, hcs⟩

/-- a nonpositive pivot: the form is nearly nonpositive somewhere -/
theorem blkE_reject {e : ℝ} (he : 0 ≤ e) (he1 : (1 + e) ^ 2 - 1 ≤ 1 / 5) {A S : Nat → Nat → ℝ} {m : Nat}
    (h : BlkE e A S (m + 1)) (hp : ∀ a, a < m → 0 < S a a) (hm : S m m ≤ 0) {v : Nat → ℝ} (hvm : v m = 1)
    (hv : ∀ k, k < m → ∑ a ∈ range (m + 1), Lf S a k * v a = 0) :
    ∑ a ∈ range (m + 1), ∑ b ∈ range (m + 1), v a * symL A a b * v b ≤
      2 * ((1 + e) ^ 2 - 1) / (1 - ((1 + e) ^ 2 - 1)) *
        ((∑ a ∈ range m, A a a) * (∑ a ∈ range m, v a ^ 2) + A m m) := by
  have hq := blkE_quad he h v
  set η := (1 + e) ^ 2 - 1 with hη
  have hη0 : 0 ≤ η := by rw [hη]; nlinarith
  set d := -S m m with hd
  have hd0 : 0 ≤ d := by linarith
  have hLmm : Lf S m m = 1 := by simp [Lf]
  have hLam : ∀ a, a < m → Lf S a m = 0 := fun a ha => by simp only [Lf]; rw [if_pos ha]
  -- `L D Lᵀ` part
  have hl : ∑ k ∈ range (m + 1), S k k * (∑ a ∈ range (m + 1), Lf S a k * v a) ^ 2 = -d := by
    rw [sum_range_succ, sum_eq_zero, zero_add]
    · rw [sum_range_succ, sum_eq_zero fun a ha => by rw [hLam a (mem_range.1 ha), zero_mul], hLmm, hvm]
      simp [hd]
    · intro k hk
      rw [hv k (mem_range.1 hk)]; simp
  obtain ⟨RR, Rm, hsum, hRm, hcs⟩ := blkE_cs he h hp hm hvm
  rw [← hη] at hsum hRm
  rw [← hd] at hRm hcs
  set N := ∑ a ∈ range m, v a ^ 2 with hN
  have hN0 : 0 ≤ N := sum_nonneg fun _ _ => sq_nonneg _
  rw [hl] at hq
  have h4 := (abs_le.1 hq).2
  have h5 := mul_le_mul_of_nonneg_left hcs hη0
  have hone : 0 < 1 - η := by linarith
  rw [div_mul_eq_mul_div, le_div_iff₀ hone]
  have h6 := mul_le_mul_of_nonneg_right hsum hN0
  set Q := ∑ a ∈ range (m + 1), ∑ b ∈ range (m + 1), v a * symL A a b * v b
  set TA := ∑ a ∈ range m, A a a
  have h7 : Q ≤ -d + η * (d + (2 * RR * N + 2 * Rm)) := by linarith
  have h8 := mul_le_mul_of_nonneg_right h7 hone.le
  have h9 := mul_le_mul_of_nonneg_left h6 (by linarith : 0 ≤ 2 * η)
  have h10 := mul_le_mul_of_nonneg_left hRm (by linarith : 0 ≤ 2 * η)
  have h11 : (-d + η * d) * (1 - η) + 2 * η * ((1 + η) * d) ≤ 0 := by
    have : (-d + η * d) * (1 - η) + 2 * η * ((1 + η) * d) = -d * ((1 - η) ^ 2 - 2 * η * (1 + η)) := by ring
    rw [this]
    have : 0 ≤ (1 - η) ^ 2 - 2 * η * (1 + η) := by nlinarith
    nlinarith
  nlinarith

/-- a vector that nearly solves `Lᵀ v = e_m`: the form is nearly the last pivot -/
theorem blkE_wit {e : ℝ} (he : 0 ≤ e) (he1 : (1 + e) ^ 2 - 1 ≤ 1 / 5) {A S : Nat → Nat → ℝ} {m : Nat}
    (h : BlkE e A S (m + 1)) (hp : ∀ a, a < m → 0 < S a a) (hm : S m m ≤ 0) {v : Nat → ℝ} (hvm : v m = 1)
    (hv : ∀ k, k < m → |∑ a ∈ range (m + 1), Lf S a k * v a| ≤ e * ∑ a ∈ range (m + 1), |Lf S a k| * |v a|) :
    |∑ a ∈ range (m + 1), ∑ b ∈ range (m + 1), v a * symL A a b * v b - S m m| ≤
      ((1 + e) ^ 2 - 1 + e ^ 2) / (1 - ((1 + e) ^ 2 - 1)) *
        (2 * ((∑ a ∈ range m, A a a) * (∑ a ∈ range m, v a ^ 2) + A m m) + 4 * (-S m m)) := by
  have hq := blkE_quad he h v
  obtain ⟨RR, Rm, hsum, hRm, hcs⟩ := blkE_cs he h hp hm hvm
  set η := (1 + e) ^ 2 - 1 with hη
  have hη0 : 0 ≤ η := by rw [hη]; nlinarith
  set d := -S m m with hd
  have hd0 : 0 ≤ d := by linarith
  have hLmm : Lf S m m = 1 := by simp [Lf]
  have hLam : ∀ a, a < m → Lf S a m = 0 := fun a ha => by simp only [Lf]; rw [if_pos ha]
  set T : Nat → ℝ := fun k => ∑ a ∈ range (m + 1), |Lf S a k| * |v a| with hT
  set P := ∑ k ∈ range (m + 1), |S k k| * T k ^ 2 with hP
  have hl : |∑ k ∈ range (m + 1), S k k * (∑ a ∈ range (m + 1), Lf S a k * v a) ^ 2 - S m m| ≤ e ^ 2 * P := by
    rw [sum_range_succ]
    have hlast : S m m * (∑ a ∈ range (m + 1), Lf S a m * v a) ^ 2 = S m m := by
      rw [sum_range_succ, sum_eq_zero fun a ha => by rw [hLam a (mem_range.1 ha), zero_mul], hLmm, hvm]
      simp
    rw [hlast, add_sub_cancel_right]
    refine (abs_sum_le_sum_abs _ _).trans ?_
    rw [hP, sum_range_succ, mul_add, mul_sum]
    have h0 : 0 ≤ e ^ 2 * (|S m m| * T m ^ 2) := by positivity
    refine le_trans (sum_le_sum fun k hk => ?_) (le_add_of_nonneg_right h0)
    have h1 := hv k (mem_range.1 hk)
    have h2 : (∑ a ∈ range (m + 1), Lf S a k * v a) ^ 2 ≤ (e * T k) ^ 2 := by
      rw [← sq_abs]
      exact pow_le_pow_left₀ (abs_nonneg _) h1 2
    rw [abs_mul, abs_of_nonneg (sq_nonneg (∑ a ∈ range (m + 1), Lf S a k * v a))]
    calc |S k k| * (∑ a ∈ range (m + 1), Lf S a k * v a) ^ 2 ≤ |S k k| * (e * T k) ^ 2 :=
          mul_le_mul_of_nonneg_left h2 (abs_nonneg _)
      _ = _ := by ring
  set N := ∑ a ∈ range m, v a ^ 2 with hN
  have hN0 : 0 ≤ N := sum_nonneg fun _ _ => sq_nonneg _
  set TA := ∑ a ∈ range m, A a a
  set Q := ∑ a ∈ range (m + 1), ∑ b ∈ range (m + 1), v a * symL A a b * v b
  set W := ∑ k ∈ range (m + 1), S k k * (∑ a ∈ range (m + 1), Lf S a k * v a) ^ 2
  have htri := abs_add_le (Q - W) (W - S m m)
  rw [sub_add_sub_cancel] at htri
  have hone : 0 < 1 - η := by linarith
  have h1 : (1 - η) * P ≤ 2 * (TA * N + A m m) + 4 * d := by
    have := mul_le_mul_of_nonneg_left hcs hone.le
    have h2 := mul_le_mul_of_nonneg_right hsum hN0
    nlinarith
  have h2 : |Q - S m m| ≤ (η + e ^ 2) * P := by linarith
  have h3 : 0 ≤ η + e ^ 2 := by positivity
  calc |Q - S m m| ≤ (η + e ^ 2) * P := h2
    _ = (η + e ^ 2) / (1 - η) * ((1 - η) * P) := by field_simp
    _ ≤ _ := mul_le_mul_of_nonneg_left h1 (by positivity)

end LDLTMgr
end Ellalgo
