import Verif.Lib.LdltLemmas
import Verif.Spec.Ldlt

/-! `witness`, `sym_quad` and `sqrt` over ℝ. -/

namespace Ellalgo
open Finset Matrix

theorem sum_fin_if {n s e : Nat} (he : e ≤ n) (g : Nat → ℝ) :
    ∑ i : Fin n, (if s ≤ (i : Nat) ∧ (i : Nat) < e then g i else 0) = ∑ a ∈ Ico s e, g a := by
  rw [Finset.sum_fin_eq_sum_range, ← Finset.sum_subset (s₁ := Ico s e)]
  · apply sum_congr rfl
    intro a ha
    rw [mem_Ico] at ha
    rw [dif_pos (by omega), if_pos ha]
  · intro a ha; rw [mem_Ico] at ha; rw [mem_range]; omega
  · intro a ha hna
    rw [mem_Ico] at hna; rw [mem_range] at ha
    rw [dif_pos ha, if_neg hna]

theorem quad_fin_if {n s e : Nat} (he : e ≤ n) (B : Nat → Nat → ℝ) (w : Nat → ℝ) :
    (fun i : Fin n => if s ≤ (i : Nat) ∧ (i : Nat) < e then w i else 0) ⬝ᵥ
      ((Matrix.of fun (i j : Fin n) => B i j) *ᵥ
        (fun i : Fin n => if s ≤ (i : Nat) ∧ (i : Nat) < e then w i else 0))
      = ∑ a ∈ Ico s e, ∑ b ∈ Ico s e, w a * B a b * w b := by
  rw [← sum_fin_if he]
  simp only [dotProduct, mulVec, Matrix.of_apply]
  apply sum_congr rfl
  intro i _
  split
  · rw [← sum_fin_if he, mul_sum]
    apply sum_congr rfl
    intro j _
    split
    · ring
    · ring
  · ring

theorem lowerSym_eq (n : Nat) (A : Nat → Nat → ℝ) :
    lowerSym n A = Matrix.of fun (i j : Fin n) => LDLTMgr.symL A i j := by
  ext i j
  simp [lowerSym, LDLTMgr.symL]

theorem lowerSym_isSymm (n : Nat) (A : Nat → Nat → ℝ) : (lowerSym n A).IsSymm := by
  rw [lowerSym_eq]
  ext i j
  exact LDLTMgr.symL_comm A j i

theorem lowerSym_of_symm {n : Nat} {A : Nat → Nat → ℝ} (h : ∀ i j, i < n → j < n → A i j = A j i) :
    lowerSym n A = Matrix.of fun (i j : Fin n) => A i j := by
  ext i j
  simp only [lowerSym, Matrix.of_apply]
  split
  · rfl
  · exact h _ _ j.2 i.2

/-- the quadratic form over all indices -/
theorem quad_fin {n : Nat} (B : Nat → Nat → ℝ) (x : Fin n → ℝ) :
    x ⬝ᵥ ((Matrix.of fun (i j : Fin n) => B i j) *ᵥ x)
      = ∑ a ∈ Ico 0 n, ∑ b ∈ Ico 0 n,
          (if h : a < n then x ⟨a, h⟩ else 0) * B a b * (if h : b < n then x ⟨b, h⟩ else 0) := by
  have e := quad_fin_if (n := n) (s := 0) (e := n) (le_refl n) B (fun a => if h : a < n then x ⟨a, h⟩ else 0)
  rw [← e]
  have : (fun i : Fin n => if 0 ≤ (i : Nat) ∧ (i : Nat) < n then
      (if h : (i : Nat) < n then x ⟨i, h⟩ else 0) else 0) = x := by
    funext i; simp
  rw [this]

namespace LDLTMgr

theorem posDef_of_blk {A S : Nat → Nat → ℝ} {n : Nat} (h : Blk A S 0 n) (hp : ∀ a, a < n → 0 < S a a) :
    (lowerSym n A).PosDef := by
  rw [posDef_iff_real]
  refine ⟨lowerSym_isSymm n A, fun x hx => ?_⟩
  rw [lowerSym_eq, quad_fin]
  obtain ⟨j, hj⟩ := Function.ne_iff.1 hx
  exact blk_pos h hp j.2 (v := fun a => if h : a < n then x ⟨a, h⟩ else 0) (by simpa using hj)

theorem witness_spec {m : LDLTMgr ℝ} {n s p : Nat} {S : Nat → Nat → ℝ} {w : Nat → ℝ} (hn : m.ndim = n)
    (hS : IsMat m.storage n n S) (hw : IsVec m.wit n w) (hpos : m.pos = (s, p + 1)) (hsp : s ≤ p)
    (hp : p < n) :
    ∃ wit' v, m.witness = .ok (- S p p, { m with wit := wit' }) ∧ IsVec wit' n v ∧ v p = 1 ∧
      ∀ i, s ≤ i → i < p → v i = - ∑ k ∈ Ico (i + 1) (p + 1), S k i * v k := by
  obtain ⟨wit0, h0, hv0⟩ := hw.setIdx hp (1 : ℝ)
  obtain ⟨wit1, h1, v, hv1, hvp, hvi⟩ := forDown_spec
    (f := fun i (wit : Arr ℝ) => (do
      let s ← forRange i (p + 1) (0 : ℝ) fun k s => do
        let a ← m.storage.idx (k * m.ndim + (i - 1))
        let b ← wit.idx k
        .ok (s + a * b)
      wit.setIdx (i - 1) (-s) : Res (Arr ℝ)))
    (fun i wit => ∃ v, IsVec wit n v ∧ v p = 1 ∧
      ∀ a, i ≤ a + 1 → a < p → v a = - ∑ k ∈ Ico (a + 1) (p + 1), S k a * v k)
    (lo := s + 1) (hi := p + 1) (s := wit0) (by omega)
    ⟨_, hv0, by simp [upd1], fun a h1 h2 => absurd h2 (by omega)⟩
    (by
      rintro i wit hi1 hi2 ⟨v, hv, hvp, hva⟩
      have hsum : (forRange i (p + 1) (0 : ℝ) fun k s => do
          let a ← m.storage.idx (k * m.ndim + (i - 1))
          let b ← wit.idx k
          .ok (s + a * b)) = .ok (0 + ∑ k ∈ Ico i (p + 1), S k (i - 1) * v k) := by
        apply forRange_sumIco (by omega)
        intro k acc hk1 hk2
        rw [hn, hS.idx (by omega) (by omega), hv.idx (by omega)]
        rfl
      obtain ⟨wit', h', hv'⟩ := hv.setIdx (i := i - 1) (by omega) (-(0 + ∑ k ∈ Ico i (p + 1), S k (i - 1) * v k))
      refine ⟨wit', ?_, _, hv', ?_, ?_⟩
      · simp only [hsum, Res.ok_bind, h']
      · simp only [upd1]; rw [if_neg (by omega)]; exact hvp
      · intro a ha1 ha2
        have hsumeq : ∀ c, i ≤ c + 1 → ∑ k ∈ Ico (c + 1) (p + 1),
            S k c * upd1 v (i - 1) (-(0 + ∑ k ∈ Ico i (p + 1), S k (i - 1) * v k)) k
            = ∑ k ∈ Ico (c + 1) (p + 1), S k c * v k := by
          intro c hc
          apply sum_congr rfl
          intro k hk
          rw [mem_Ico] at hk
          simp only [upd1]; rw [if_neg (by omega)]
        rw [hsumeq a ha1]
        by_cases hai : a = i - 1
        · subst hai
          simp only [upd1, if_true, zero_add]
          rw [show i - 1 + 1 = i by omega]
        · simp only [upd1]; rw [if_neg hai]
          exact hva a (by omega) ha2)
  refine ⟨wit1, v, ?_, hv1, hvp, fun i h1 h2 => hvi i (by omega) h2⟩
  unfold witness
  simp only [isSpd, hpos, Nat.add_sub_cancel, h0, Res.ok_bind]
  have hne : (!(p + 1 == 0)) = true := by simp
  rw [hne]
  simp only [Res.assert_true, Res.ok_bind]
  refine (congrArg (· >>= _) h1).trans ?_
  simp only [Res.ok_bind]
  rw [hn, hS.idx hp hp]
  rfl

theorem symQuad_spec {m : LDLTMgr ℝ} {n : Nat} {v : Nat → ℝ} {F : Arr ℝ} {f : Nat → Nat → ℝ}
    (hv : IsVec m.wit n v) (hF : IsMat F n n f) (hle : m.pos.1 ≤ m.pos.2) (hn : m.pos.2 ≤ n) :
    m.symQuad F = .ok (∑ a ∈ Ico m.pos.1 m.pos.2, ∑ b ∈ Ico m.pos.1 m.pos.2, v a * f a b * v b) := by
  unfold symQuad
  have := forRange_sumIco (lo := m.pos.1) (hi := m.pos.2) hle (c := 0)
    (f := fun i result => forRange m.pos.1 m.pos.2 result fun j result => do
      let wi ← m.wit.idx i
      let mij ← F.get i j
      let wj ← m.wit.idx j
      .ok (result + wi * mij * wj))
    (t := fun a => ∑ b ∈ Ico m.pos.1 m.pos.2, v a * f a b * v b)
    (by
      intro i acc h1 h2
      apply forRange_sumIco hle
      intro j acc h3 h4
      rw [hv.idx (by omega), hF.getij (by omega) (by omega), hv.idx (by omega)]
      rfl)
  rw [zero_add] at this
  exact this

theorem sqrt_spec {m : LDLTMgr ℝ} {n : Nat} {S : Nat → Nat → ℝ} (hn : m.ndim = n) (hS : IsMat m.storage n n S)
    (hpos : m.pos = (0, 0)) :
    ∃ r, m.sqrt = .ok r ∧ IsMat r n n
      (fun i j => if i < j then S j i * √(S i i) else if i = j then √(S i i) else 0) := by
  unfold sqrt
  simp only [isSpd, hpos, beq_self_eq_true, Res.assert_true, Res.ok_bind, hn]
  apply forRange_post (fun i (r : Arr ℝ) => IsMat r n n (fun a b => if a < i then
      (if a < b then S b a * √(S a a) else if a = b then √(S a a) else 0) else 0)) (Nat.zero_le n)
  · simpa using isMat_zeros n n
  · intro i r _ hi hr
    obtain ⟨r1, h1, hm1⟩ := hr.set hi hi (√(S i i))
    rw [hS.idx hi hi]
    simp only [Res.ok_bind, Scalar.real_sqrt, h1]
    apply forRange_post (fun j (r : Arr ℝ) => IsMat r n n (fun a b => if a < i then
      (if a < b then S b a * √(S a a) else if a = b then √(S a a) else 0) else
        if a = i ∧ b < j then (if a < b then S b a * √(S a a) else if a = b then √(S a a) else 0) else 0)) hi
    · apply hm1.congr
      intro a b ha hb
      simp only [upd2]
      by_cases hai : a = i
      · subst hai
        rcases lt_trichotomy a b with h | h | h
        · simp [show ¬ b = a by omega, show ¬ b < a + 1 by omega]
        · subst h; simp
        · simp [show ¬ b = a by omega, show ¬ a < b by omega, show ¬ a = b by omega]
      · simp [hai]
    · intro j r2 hj1 hj2 hm2
      obtain ⟨r3, h3, hm3⟩ := hm2.set hi hj2 (S j i * √(S i i))
      rw [hS.idx hj2 hi]
      refine ⟨r3, by simpa using h3, hm3.congr ?_⟩
      intro a b ha hb
      simp only [upd2]
      by_cases hai : a = i
      · subst hai
        by_cases hbj : b = j
        · subst hbj; simp [show a < b by omega]
        · simp [hbj, show b < j + 1 ↔ b < j by omega]
      · simp [hai]
    · intro s hs
      apply hs.congr
      intro a b ha hb
      by_cases hai : a = i
      · subst hai; simp [hb]
      · simp [hai, show a < i + 1 ↔ a < i by omega]
  · intro s hs
    apply hs.congr
    intro a b ha hb
    simp [ha]

/-- `RᵀR = L D Lᵀ` -/
theorem sqrt_gram {A S : Nat → Nat → ℝ} {n : Nat} (h : Blk A S 0 n) (hp : ∀ a, a < n → 0 < S a a) {a b : Nat}
    (ha : a < n) (hb : b < n) :
    ∑ k ∈ Ico 0 n, (if k < a then S a k * √(S k k) else if k = a then √(S k k) else 0) *
        (if k < b then S b k * √(S k k) else if k = b then √(S k k) else 0) = symL A a b := by
  rw [blk_factor h (fun a _ h => (hp a (by omega)).ne') (Nat.zero_le _) (Nat.zero_le _) ha hb]
  apply sum_congr rfl
  intro k hk
  rw [mem_Ico] at hk
  have e : ∀ c, (if k < c then S c k * √(S k k) else if k = c then √(S k k) else 0) = Lf S c k * √(S k k) := by
    intro c
    simp only [Lf]
    rcases lt_trichotomy k c with h | h | h
    · rw [if_pos h, if_neg (by omega), if_neg (by omega)]
    · subst h; simp
    · rw [if_neg (by omega), if_neg (by omega), if_pos h, zero_mul]
  rw [e, e]
  have := Real.mul_self_sqrt (hp k hk.2).le
  calc _ = Lf S a k * (√(S k k) * √(S k k)) * Lf S b k := by ring
    _ = _ := by rw [this]

end LDLTMgr
end Ellalgo
