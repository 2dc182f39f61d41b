import Verif.Model.Ldlt
import Verif.Spec.Mat
import Verif.Lib.EllMath
import Mathlib.Algebra.BigOperators.Ring.Finset
import Mathlib.Algebra.Order.BigOperators.Group.Finset
import Mathlib.Tactic.FieldSimp

/-! The LDLᵀ factorisation over ℝ. -/

namespace Ellalgo
open Finset

theorem forRange_sumIco {lo hi : Nat} (hle : lo ≤ hi) {f : Nat → ℝ → Res ℝ} {t : Nat → ℝ} (c : ℝ)
    (h : ∀ i acc, lo ≤ i → i < hi → f i acc = .ok (acc + t i)) :
    forRange lo hi c f = .ok (c + ∑ k ∈ Ico lo hi, t k) := by
  obtain ⟨s, hs, hp⟩ := forRange_spec (f := f) (fun i (acc : ℝ) => acc = c + ∑ k ∈ Ico lo i, t k)
    (s := c) hle (by simp)
    (by
      intro i acc h1 hi hacc
      exact ⟨acc + t i, h i acc h1 hi, by rw [hacc, sum_Ico_succ_top h1, add_assoc]⟩)
  rw [hs, hp]

namespace LDLTMgr

/-- what the storage contains after rows `start..i` of the lower triangle `A` were factored -/
def Blk (A S : Nat → Nat → ℝ) (start i : Nat) : Prop :=
  ∀ a, start ≤ a → a < i →
    (∀ b, start ≤ b → b ≤ a → S b a = A a b - ∑ k ∈ Ico start b, S a k * S k b) ∧
    (∀ b, start ≤ b → b < a → S a b = S b a / S b b)

theorem factorRow_spec {getElem : Nat → Nat → Res ℝ} {A : Nat → Nat → ℝ} {n start i : Nat} {st : Arr ℝ}
    {S : Nat → Nat → ℝ} (hst : IsMat st n n S) (hi : i < n) (hs : start ≤ i)
    (hA : ∀ j, j ≤ i → getElem i j = .ok (A i j)) :
    ∃ st' S', factorRow getElem n start i st = .ok (S' i i, st') ∧ IsMat st' n n S' ∧
      (∀ a b, a < i → b < i → S' a b = S a b) ∧
      (∀ b, start ≤ b → b ≤ i → S' b i = A i b - ∑ k ∈ Ico start b, S' i k * S' k b) ∧
      (∀ b, start ≤ b → b < i → S' i b = S' b i / S' b b) := by
  obtain ⟨⟨dg, st1⟩, h1, ⟨S1, hm1, hold, hrow, hdiag⟩⟩ := forRange_spec
    (f := fun j (p : ℝ × Arr ℝ) => (do
      let (diag, st) := p
      let st ← st.setIdx (j * n + i) diag
      let djj ← st.idx (j * n + j)
      let val := diag / djj
      let st ← st.setIdx (i * n + j) val
      let stop := j + 1
      let s ← forRange start stop (0 : ℝ) fun k s => do
        let a ← st.idx (i * n + k)
        let b ← st.idx (k * n + stop)
        .ok (s + a * b)
      let e ← getElem i stop
      .ok (e - s, st) : Res (ℝ × Arr ℝ)))
    (fun j p => ∃ S', IsMat p.2 n n S' ∧ (∀ a b, a < i → b < i → S' a b = S a b) ∧
      (∀ b, start ≤ b → b < j → S' b i = A i b - ∑ k ∈ Ico start b, S' i k * S' k b ∧
        S' i b = S' b i / S' b b) ∧
      p.1 = A i j - ∑ k ∈ Ico start j, S' i k * S' k j)
    (s := (A i start, st)) hs
    ⟨S, hst, fun _ _ _ _ => rfl, fun b h1 h2 => absurd h2 (by omega), by simp⟩
    (by
      rintro j ⟨diag, st⟩ hj1 hj2 ⟨S', hm, hold, hrow, hd⟩
      obtain ⟨sta, ha, hma⟩ := hm.setIdx (i := j) (j := i) (by omega) hi diag
      have hdj : sta.idx (j * n + j) = .ok (S' j j) := by
        rw [hma.idx (by omega) (by omega)]
        simp only [upd2]; rw [if_neg (by omega)]
      obtain ⟨stb, hb, hmb⟩ := hma.setIdx (i := i) (j := j) hi (by omega) (diag / S' j j)
      set S2 := upd2 (upd2 S' j i diag) i j (diag / S' j j) with hS2
      have hsum : (forRange start (j + 1) (0 : ℝ) fun k s => do
          let a ← stb.idx (i * n + k)
          let b ← stb.idx (k * n + (j + 1))
          .ok (s + a * b)) = .ok (0 + ∑ k ∈ Ico start (j + 1), S2 i k * S2 k (j + 1)) := by
        apply forRange_sumIco (by omega)
        intro k acc hk1 hk2
        rw [hmb.idx hi (by omega), hmb.idx (by omega) (by omega)]
        rfl
      have e1 : ∀ a b, a < i → b < i → S2 a b = S' a b := by
        intro a b h1 h2
        simp only [hS2, upd2]
        rw [if_neg (by omega), if_neg (by omega)]
      have e2 : ∀ b, b < i → b ≠ j → S2 b i = S' b i ∧ S2 i b = S' i b := by
        intro b h1 h2
        simp only [hS2, upd2]
        rw [if_neg (by omega), if_neg (by omega), if_neg (by omega), if_neg (by omega)]
        exact ⟨rfl, rfl⟩
      have e3 : S2 j i = diag := by simp only [hS2, upd2]; rw [if_neg (by omega)]; simp
      have e4 : S2 i j = diag / S' j j := by simp [hS2, upd2]
      refine ⟨(A i (j + 1) - (0 + ∑ k ∈ Ico start (j + 1), S2 i k * S2 k (j + 1)), stb), ?_, S2, hmb, ?_, ?_, ?_⟩
      · simp only [ha, Res.ok_bind, hdj, hb, hsum, hA (j + 1) (by omega)]
      · intro a b h1 h2
        rw [e1 a b h1 h2, hold a b h1 h2]
      · intro b h1 h2
        have hsumeq : ∑ k ∈ Ico start b, S2 i k * S2 k b = ∑ k ∈ Ico start b, S' i k * S' k b := by
          apply sum_congr rfl
          intro k hk
          rw [mem_Ico] at hk
          rw [(e2 k (by omega) (by omega)).2, e1 k b (by omega) (by omega)]
        by_cases hbj : b = j
        · subst hbj
          rw [hsumeq, e3, e4, e1 b b (by omega) (by omega)]
          exact ⟨hd, rfl⟩
        · rw [hsumeq, (e2 b (by omega) hbj).1, (e2 b (by omega) hbj).2, e1 b b (by omega) (by omega)]
          exact hrow b h1 (by omega)
      · simp)
  obtain ⟨st2, h2, hm2⟩ := hm1.setIdx (i := i) (j := i) hi hi dg
  set S2 := upd2 S1 i i dg with hS2
  have e1 : ∀ a b, ¬ (a = i ∧ b = i) → S2 a b = S1 a b := by
    intro a b h
    simp only [hS2, upd2]; rw [if_neg h]
  have eii : S2 i i = dg := by simp [hS2, upd2]
  refine ⟨st2, S2, ?_, hm2, ?_, ?_, ?_⟩
  · unfold factorRow
    simp only [hA start hs, Res.ok_bind]
    refine (congrArg (· >>= _) h1).trans ?_
    simp only [Res.ok_bind, h2, eii]
  · intro a b ha hb
    rw [e1 a b (by omega), hold a b ha hb]
  · intro b h1 h2
    have hsumeq : ∑ k ∈ Ico start b, S2 i k * S2 k b = ∑ k ∈ Ico start b, S1 i k * S1 k b := by
      apply sum_congr rfl
      intro k hk
      rw [mem_Ico] at hk
      rw [e1 i k (by omega), e1 k b (by omega)]
    rw [hsumeq]
    by_cases hbi : b = i
    · subst hbi; rw [eii]; exact hdiag
    · rw [e1 b i (by omega)]; exact (hrow b h1 (by omega)).1
  · intro b h1 h2
    rw [e1 i b (by omega), e1 b i (by omega), e1 b b (by omega)]
    exact (hrow b h1 h2).2

theorem Blk.extend {A S S' : Nat → Nat → ℝ} {start i : Nat} (h : Blk A S start i)
    (hold : ∀ a b, a < i → b < i → S' a b = S a b)
    (h1 : ∀ b, start ≤ b → b ≤ i → S' b i = A i b - ∑ k ∈ Ico start b, S' i k * S' k b)
    (h2 : ∀ b, start ≤ b → b < i → S' i b = S' b i / S' b b) : Blk A S' start (i + 1) := by
  intro a ha1 ha2
  by_cases hai : a = i
  · subst hai; exact ⟨h1, h2⟩
  · have hlt : a < i := by omega
    obtain ⟨g1, g2⟩ := h a ha1 hlt
    refine ⟨fun b hb1 hb2 => ?_, fun b hb1 hb2 => ?_⟩
    · rw [hold b a (by omega) hlt, g1 b hb1 hb2]
      congr 1
      apply sum_congr rfl
      intro k hk
      rw [mem_Ico] at hk
      rw [hold a k hlt (by omega), hold k b (by omega) (by omega)]
    · rw [hold a b hlt (by omega), hold b a (by omega) hlt, hold b b (by omega) (by omega)]
      exact g2 b hb1 hb2

/-- The positive pivots and, on failure, the first bad one. -/
theorem factorLoop_spec {getElem : Nat → Nat → Res ℝ} {A : Nat → Nat → ℝ} {n : Nat}
    (hA : ∀ i j, j ≤ i → i < n → getElem i j = .ok (A i j)) (k : Nat) :
    ∀ (i : Nat) (st : Arr ℝ) (S : Nat → Nat → ℝ), i + k = n → IsMat st n n S → Blk A S 0 i →
      (∀ a, a < i → 0 < S a a) →
      ∃ pos st' S', factorLoop getElem n k i st = .ok (pos, st') ∧ IsMat st' n n S' ∧
        ((pos = (0, 0) ∧ Blk A S' 0 n ∧ ∀ a, a < n → 0 < S' a a) ∨
         (∃ m, m < n ∧ pos = (0, m + 1) ∧ Blk A S' 0 (m + 1) ∧ (∀ a, a < m → 0 < S' a a) ∧ S' m m ≤ 0)) := by
  induction k with
  | zero =>
    intro i st S hik hm hb hp
    have : i = n := by omega
    subst this
    exact ⟨_, _, S, rfl, hm, Or.inl ⟨rfl, hb, hp⟩⟩
  | succ k ih =>
    intro i st S hik hm hb hp
    obtain ⟨st1, S1, hr, hm1, hold, h1, h2⟩ := factorRow_spec (start := 0) hm (by omega : i < n) (Nat.zero_le _)
      (fun j hj => hA i j hj (by omega))
    have hb1 := hb.extend hold h1 h2
    have hp1 : ∀ a, a < i → 0 < S1 a a := fun a ha => by rw [hold a a ha ha]; exact hp a ha
    unfold factorLoop
    simp only [hr, Res.ok_bind]
    by_cases hd : S1 i i ≤ 0
    · refine ⟨_, _, S1, by simp [hd], hm1, Or.inr ⟨i, by omega, rfl, hb1, hp1, hd⟩⟩
    · obtain ⟨pos, st', S', hl, hm', hh⟩ := ih (i + 1) st1 S1 (by omega) hm1 hb1 (by
        intro a ha
        by_cases hai : a = i
        · subst hai; linarith
        · exact hp1 a (by omega))
      exact ⟨pos, st', S', by simp [hd, hl], hm', hh⟩

/-- Semidefinite variant: on failure the block `start..m` has positive pivots and then a negative one. -/
theorem factorSemiLoop_spec {getElem : Nat → Nat → Res ℝ} {A : Nat → Nat → ℝ} {n : Nat}
    (hA : ∀ i j, j ≤ i → i < n → getElem i j = .ok (A i j)) (k : Nat) :
    ∀ (i start : Nat) (st : Arr ℝ) (S : Nat → Nat → ℝ), i + k = n → start ≤ i → IsMat st n n S →
      Blk A S start i → (∀ a, start ≤ a → a < i → 0 < S a a) →
      ∃ pos st' S', factorSemiLoop getElem n k i start st = .ok (pos, st') ∧ IsMat st' n n S' ∧
        (pos = (0, 0) ∨
         (∃ s m, s ≤ m ∧ m < n ∧ pos = (s, m + 1) ∧ Blk A S' s (m + 1) ∧
            (∀ a, s ≤ a → a < m → 0 < S' a a) ∧ S' m m < 0)) := by
  induction k with
  | zero =>
    intro i start st S hik hs hm hb hp
    exact ⟨_, _, S, rfl, hm, Or.inl rfl⟩
  | succ k ih =>
    intro i start st S hik hs hm hb hp
    obtain ⟨st1, S1, hr, hm1, hold, h1, h2⟩ := factorRow_spec (start := start) hm (by omega : i < n) hs
      (fun j hj => hA i j hj (by omega))
    have hb1 := hb.extend hold h1 h2
    have hp1 : ∀ a, start ≤ a → a < i → 0 < S1 a a := fun a ha' ha => by
      rw [hold a a ha ha]; exact hp a ha' ha
    unfold factorSemiLoop
    simp only [hr, Res.ok_bind]
    by_cases hd : S1 i i < 0
    · exact ⟨_, _, S1, by simp [hd], hm1, Or.inr ⟨start, i, hs, by omega, rfl, hb1, hp1, hd⟩⟩
    · by_cases hz : S1 i i = 0
      · obtain ⟨pos, st', S', hl, hm', hh⟩ := ih (i + 1) (i + 1) st1 S1 (by omega) (le_refl _) hm1
          (fun a h1 h2 => absurd h2 (by omega)) (fun a h1 h2 => absurd h2 (by omega))
        exact ⟨pos, st', S', by simp [hz, hl], hm', hh⟩
      · obtain ⟨pos, st', S', hl, hm', hh⟩ := ih (i + 1) start st1 S1 (by omega) (by omega) hm1 hb1 (by
          intro a ha' ha
          by_cases hai : a = i
          · subst hai; exact lt_of_le_of_ne (not_lt.1 hd) (Ne.symm hz)
          · exact hp1 a ha' (by omega))
        exact ⟨pos, st', S', by simp [hd, hz, hl], hm', hh⟩

/-! ### Algebra of the factorisation -/

/-- unit lower triangular factor -/
def Lf (S : Nat → Nat → ℝ) (a k : Nat) : ℝ := if a < k then 0 else if a = k then 1 else S a k

/-- symmetric completion of the lower triangle -/
def symL (A : Nat → Nat → ℝ) (a b : Nat) : ℝ := if b ≤ a then A a b else A b a

theorem symL_comm (A : Nat → Nat → ℝ) (a b : Nat) : symL A a b = symL A b a := by
  unfold symL
  rcases lt_trichotomy a b with h | h | h
  · rw [if_neg (by omega), if_pos (by omega)]
  · subst h; rfl
  · rw [if_pos (by omega), if_neg (by omega)]

theorem blk_factor_le {A S : Nat → Nat → ℝ} {start i : Nat} (h : Blk A S start i)
    (hp : ∀ a, start ≤ a → a + 1 < i → S a a ≠ 0) {a b : Nat} (hb : start ≤ b) (hba : b ≤ a) (ha : a < i) :
    A a b = ∑ k ∈ Ico start i, Lf S a k * S k k * Lf S b k := by
  have key : ∀ c k, start ≤ k → k < c → c < i → S k c = Lf S c k * S k k := by
    intro c k hk hkc hc
    have := (h c (by omega) hc).2 k hk hkc
    have hne := hp k hk (by omega)
    simp only [Lf]; rw [if_neg (by omega), if_neg (by omega), this]
    field_simp
  have h1 := (h a (by omega) ha).1 b hb hba
  have hsplit : ∑ k ∈ Ico start i, Lf S a k * S k k * Lf S b k
      = ∑ k ∈ Ico start (b + 1), Lf S a k * S k k * Lf S b k := by
    symm
    apply sum_subset (Ico_subset_Ico_right (by omega))
    intro k hk1 hk2
    rw [mem_Ico] at hk1 hk2
    have : Lf S b k = 0 := by simp only [Lf]; rw [if_pos (by omega)]
    rw [this, mul_zero]
  rw [hsplit, sum_Ico_succ_top hb]
  have hbb : Lf S b b = 1 := by simp [Lf]
  have hsum : ∑ k ∈ Ico start b, Lf S a k * S k k * Lf S b k = ∑ k ∈ Ico start b, S a k * S k b := by
    apply sum_congr rfl
    intro k hk
    rw [mem_Ico] at hk
    rw [key b k hk.1 hk.2 (by omega)]
    have : Lf S a k = S a k := by simp only [Lf]; rw [if_neg (by omega), if_neg (by omega)]
    rw [this]; ring
  rw [hsum, hbb, mul_one]
  have hlast : Lf S a b * S b b = S b a := by
    by_cases hab : a = b
    · subst hab; simp [Lf]
    · rw [key a b hb (by omega) ha]
  rw [hlast, h1]; ring

theorem blk_factor {A S : Nat → Nat → ℝ} {start i : Nat} (h : Blk A S start i)
    (hp : ∀ a, start ≤ a → a + 1 < i → S a a ≠ 0) {a b : Nat} (ha : start ≤ a) (hb : start ≤ b)
    (hai : a < i) (hbi : b < i) :
    symL A a b = ∑ k ∈ Ico start i, Lf S a k * S k k * Lf S b k := by
  by_cases hab : b ≤ a
  · rw [symL, if_pos hab, blk_factor_le h hp hb hab hai]
  · rw [symL, if_neg hab, blk_factor_le h hp ha (by omega) hbi]
    apply sum_congr rfl; intro k _; ring

theorem blk_quad {A S : Nat → Nat → ℝ} {start i : Nat} (h : Blk A S start i)
    (hp : ∀ a, start ≤ a → a + 1 < i → S a a ≠ 0) (v : Nat → ℝ) :
    ∑ a ∈ Ico start i, ∑ b ∈ Ico start i, v a * symL A a b * v b
      = ∑ k ∈ Ico start i, S k k * (∑ a ∈ Ico start i, Lf S a k * v a) ^ 2 := by
  have e : ∀ a ∈ Ico start i, ∑ b ∈ Ico start i, v a * symL A a b * v b
      = ∑ b ∈ Ico start i, ∑ k ∈ Ico start i, S k k * ((Lf S a k * v a) * (Lf S b k * v b)) := by
    intro a ha
    apply sum_congr rfl
    intro b hb
    rw [mem_Ico] at ha hb
    rw [blk_factor h hp ha.1 hb.1 ha.2 hb.2, mul_sum, sum_mul]
    apply sum_congr rfl; intro k _; ring
  rw [sum_congr rfl e]
  have e2 : ∀ k, S k k * (∑ a ∈ Ico start i, Lf S a k * v a) ^ 2
      = ∑ a ∈ Ico start i, ∑ b ∈ Ico start i, S k k * ((Lf S a k * v a) * (Lf S b k * v b)) := by
    intro k
    rw [sq, sum_mul_sum, mul_sum]
    apply sum_congr rfl; intro a _
    rw [mul_sum]
  simp only [e2]
  rw [sum_congr rfl (fun a _ => sum_comm), sum_comm]

/-- all pivots positive: the quadratic form is positive -/
theorem blk_pos {A S : Nat → Nat → ℝ} {n : Nat} (h : Blk A S 0 n) (hp : ∀ a, a < n → 0 < S a a)
    {v : Nat → ℝ} {j : Nat} (hj : j < n) (hv : v j ≠ 0) :
    0 < ∑ a ∈ Ico 0 n, ∑ b ∈ Ico 0 n, v a * symL A a b * v b := by
  classical
  rw [blk_quad h (fun a _ ha => (hp a (by omega)).ne')]
  -- the largest index with a nonzero entry
  obtain ⟨m, hm, hmv, hmax⟩ : ∃ m, m < n ∧ v m ≠ 0 ∧ ∀ a, m < a → a < n → v a = 0 := by
    let s := (range n).filter (fun a => v a ≠ 0)
    have hs : s.Nonempty := ⟨j, by simp [s, hj, hv]⟩
    refine ⟨s.max' hs, ?_, ?_, ?_⟩
    · have := s.max'_mem hs; simp only [s, mem_filter, mem_range] at this; exact this.1
    · have := s.max'_mem hs; simp only [s, mem_filter, mem_range] at this; exact this.2
    · intro a ha han
      by_contra hne
      have : a ≤ s.max' hs := s.le_max' a (by simp [s, han, hne])
      omega
  have hnn : ∀ k ∈ Ico 0 n, 0 ≤ S k k * (∑ a ∈ Ico 0 n, Lf S a k * v a) ^ 2 := by
    intro k hk
    rw [mem_Ico] at hk
    exact mul_nonneg (hp k hk.2).le (sq_nonneg _)
  apply sum_pos' hnn
  refine ⟨m, by simp [hm], ?_⟩
  have : ∑ a ∈ Ico 0 n, Lf S a m * v a = v m := by
    rw [sum_eq_single m]
    · simp [Lf]
    · intro a ha hne
      rw [mem_Ico] at ha
      rcases lt_or_gt_of_ne hne with hlt | hlt
      · simp [Lf, hlt]
      · rw [hmax a hlt ha.2, mul_zero]
    · intro hne; simp [hm] at hne
  rw [this]
  exact mul_pos (hp m hm) (by positivity)

/-- back substitution: the vector solving `Lᵀ v = e_m` -/
theorem blk_wit {A S : Nat → Nat → ℝ} {start m : Nat} (hsm : start ≤ m) (h : Blk A S start (m + 1))
    (hp : ∀ a, start ≤ a → a < m → S a a ≠ 0) {v : Nat → ℝ} (hm : v m = 1)
    (hv : ∀ i, start ≤ i → i < m → v i = - ∑ k ∈ Ico (i + 1) (m + 1), S k i * v k) :
    ∑ a ∈ Ico start (m + 1), ∑ b ∈ Ico start (m + 1), v a * symL A a b * v b = S m m := by
  rw [blk_quad h (fun a h1 h2 => hp a h1 (by omega))]
  have hz : ∀ k, start ≤ k → k < m → ∑ a ∈ Ico start (m + 1), Lf S a k * v a = 0 := by
    intro k h1 h2
    rw [← sum_Ico_consecutive _ (show start ≤ k + 1 by omega) (show k + 1 ≤ m + 1 by omega),
      sum_Ico_succ_top h1]
    have e1 : ∑ a ∈ Ico start k, Lf S a k * v a = 0 := by
      apply sum_eq_zero
      intro a ha
      rw [mem_Ico] at ha
      simp [Lf, ha.2]
    have e2 : ∑ a ∈ Ico (k + 1) (m + 1), Lf S a k * v a = ∑ a ∈ Ico (k + 1) (m + 1), S a k * v a := by
      apply sum_congr rfl
      intro a ha
      rw [mem_Ico] at ha
      simp only [Lf]; rw [if_neg (by omega), if_neg (by omega)]
    rw [e1, e2]
    simp only [Lf, lt_irrefl, if_false, if_true]
    rw [hv k h1 h2]; ring
  rw [sum_Ico_succ_top hsm, sum_eq_zero]
  · have : ∑ a ∈ Ico start (m + 1), Lf S a m * v a = 1 := by
      rw [sum_Ico_succ_top hsm, sum_eq_zero]
      · simp [Lf, hm]
      · intro a ha
        rw [mem_Ico] at ha
        simp [Lf, ha.2]
    rw [this]; ring
  · intro k hk
    rw [mem_Ico] at hk
    rw [hz k hk.1 hk.2]; ring

end LDLTMgr
end Ellalgo
