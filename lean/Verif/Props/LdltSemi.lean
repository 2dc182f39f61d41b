import Verif.Spec.SemiBlocks
import Verif.Props.LdltProps
import Mathlib.Analysis.Matrix.Order

/-! # Property C32: exactly which matrices `factor_with_allow_semidefinite` accepts -/

namespace Ellalgo
open Matrix Finset

namespace LDLTMgr

theorem exists_wit (S : Nat → Nat → ℝ) (m : Nat) (j : Nat) (hj : j ≤ m) :
    ∃ v : Nat → ℝ, v m = 1 ∧ ∀ i, m - j ≤ i → i < m → v i = - ∑ k ∈ Ico (i + 1) (m + 1), S k i * v k := by
  induction j with
  | zero => exact ⟨fun _ => 1, rfl, fun i h1 h2 => by omega⟩
  | succ j ih =>
    obtain ⟨v, h1, h2⟩ := ih (by omega)
    refine ⟨Function.update v (m - (j + 1)) (- ∑ k ∈ Ico (m - (j + 1) + 1) (m + 1), S k (m - (j + 1)) * v k), ?_, ?_⟩
    · rw [Function.update_of_ne (by omega), h1]
    · intro i hi1 hi2
      have hsum : ∀ i, m - (j + 1) ≤ i → ∑ k ∈ Ico (i + 1) (m + 1), S k i *
          Function.update v (m - (j + 1)) (- ∑ k ∈ Ico (m - (j + 1) + 1) (m + 1), S k (m - (j + 1)) * v k) k
          = ∑ k ∈ Ico (i + 1) (m + 1), S k i * v k := by
        intro i hi
        refine sum_congr rfl fun k hk => ?_
        rw [mem_Ico] at hk
        rw [Function.update_of_ne (by omega)]
      rw [hsum i hi1]
      by_cases h : i = m - (j + 1)
      · rw [h, Function.update_self]
      · rw [Function.update_of_ne h, h2 i (by omega) hi2]

/-- the value of the quadratic form at the back-substituted vector is the last pivot -/
theorem blk_last {A S : Nat → Nat → ℝ} {m : Nat} (h : Blk A S 0 (m + 1)) (hp : ∀ a, a < m → 0 < S a a) :
    ∃ x : Fin (m + 1) → ℝ, x ≠ 0 ∧ x ⬝ᵥ (lowerSym (m + 1) A *ᵥ x) = S m m := by
  obtain ⟨v, h1, h2⟩ := exists_wit S m m le_rfl
  have h3 := blk_wit (Nat.zero_le m) h (fun a _ ha => (hp a ha).ne') h1 (fun i _ hi => h2 i (by omega) hi)
  refine ⟨fun i => v i, ?_, ?_⟩
  · intro h0
    have := congrFun h0 (Fin.last m)
    simp [h1] at this
  · rw [lowerSym_eq, quad_fin, ← h3]
    refine sum_congr rfl fun a ha => sum_congr rfl fun b hb => ?_
    rw [mem_Ico] at ha hb
    rw [dif_pos ha.2, dif_pos hb.2]

theorem blk_psd {A S : Nat → Nat → ℝ} {m : Nat} (h : Blk A S 0 (m + 1)) (hp : ∀ a, a < m → 0 < S a a)
    (hm : 0 ≤ S m m) : (lowerSym (m + 1) A).PosSemidef := by
  have hs := lowerSym_isSymm (m + 1) A
  refine Matrix.PosSemidef.of_dotProduct_mulVec_nonneg ?_ fun x => ?_
  · rw [IsHermitian, conjTranspose_eq_transpose_of_trivial]; exact hs
  · rw [star_trivial, lowerSym_eq, quad_fin]
    rw [blk_quad h (fun a _ ha => (hp a (by omega)).ne') (fun a => if h : a < m + 1 then x ⟨a, h⟩ else 0)]
    refine sum_nonneg fun k hk => mul_nonneg ?_ (sq_nonneg _)
    rw [mem_Ico] at hk
    rcases Nat.lt_or_ge k m with hlt | hge
    · exact (hp k hlt).le
    · rw [show k = m by omega]; exact hm

/-- shift a block to start at zero -/
theorem Blk.shift {A S : Nat → Nat → ℝ} {s e : Nat} (hse : s ≤ e) (h : Blk A S s e) :
    Blk (fun i j => A (s + i) (s + j)) (fun i j => S (s + i) (s + j)) 0 (e - s) := by
  intro a _ ha
  obtain ⟨h1, h2⟩ := h (s + a) (by omega) (by omega)
  refine ⟨fun b _ hb => ?_, fun b _ hb => h2 (s + b) (by omega) (by omega)⟩
  show S (s + b) (s + a) = A (s + a) (s + b) - ∑ k ∈ Ico 0 b, S (s + a) (s + k) * S (s + k) (s + b)
  rw [h1 (s + b) (by omega) (by omega)]
  congr 1
  rw [sum_Ico_eq_sum_range, sum_Ico_eq_sum_range, show s + b - s = b - 0 by omega]
  exact sum_congr rfl fun k _ => by rw [zero_add]

theorem diagBlock_pd {A S : Nat → Nat → ℝ} {s e : Nat} (hse : s ≤ e) (h : Blk A S s e)
    (hp : ∀ a, s ≤ a → a < e → 0 < S a a) : (diagBlock A s e).PosDef :=
  posDef_of_blk (h.shift hse) (fun a ha => hp (s + a) (by omega) (by omega))

theorem diagBlock_zero {A S : Nat → Nat → ℝ} {s e : Nat} (hse : s ≤ e) (h : Blk A S s (e + 1))
    (hp : ∀ a, s ≤ a → a < e → 0 < S a a) :
    (0 ≤ S e e → (diagBlock A s (e + 1)).PosSemidef) ∧ (S e e ≤ 0 → ¬ (diagBlock A s (e + 1)).PosDef) := by
  have h' := h.shift (by omega : s ≤ e + 1)
  have hp' : ∀ a, a < e - s → 0 < S (s + a) (s + a) := fun a ha => hp (s + a) (by omega) (by omega)
  have e1 : s + (e - s) = e := by omega
  obtain ⟨d, hd⟩ : ∃ d, e + 1 - s = d + 1 ∧ e - s = d := ⟨e - s, by omega, rfl⟩
  unfold diagBlock
  rw [hd.1] at h' ⊢
  rw [hd.2] at hp' e1
  constructor
  · intro h0
    exact blk_psd h' hp' (by simpa only [e1] using h0)
  · intro h0 hpd
    obtain ⟨x, hx, hq⟩ := blk_last h' hp'
    have := (posDef_iff_real.1 hpd).2 x hx
    rw [hq] at this
    simp only [e1] at this
    linarith

/-- a leading part of a positive definite block is positive definite -/
theorem diagBlock_leading {A : Nat → Nat → ℝ} {s e e' : Nat} (h : e ≤ e') (hpd : (diagBlock A s e').PosDef) :
    (diagBlock A s e).PosDef := by
  have hle : e - s ≤ e' - s := by omega
  have := hpd.submatrix (e := Fin.castLE hle) (Fin.castLE_injective hle)
  have e1 : diagBlock A s e = (diagBlock A s e').submatrix (Fin.castLE hle) (Fin.castLE hle) := by
    ext i j
    rfl
  rw [e1]; exact this

theorem factorSemiLoop_iff {getElem : Nat → Nat → Res ℝ} {A : Nat → Nat → ℝ} {n : Nat}
    (hA : ∀ i j, j ≤ i → i < n → getElem i j = .ok (A i j)) (k : Nat) :
    ∀ (i start : Nat) (st : Arr ℝ) (S : Nat → Nat → ℝ), i + k = n → start ≤ i → IsMat st n n S →
      Blk A S start i → (∀ a, start ≤ a → a < i → 0 < S a a) →
      ∃ pos st', factorSemiLoop getElem n k i start st = .ok (pos, st') ∧ (pos.2 = 0 ↔ SemiBlocks A n start) := by
  induction k with
  | zero =>
    intro i start st S hik hs hm hb hp
    obtain rfl : i = n := by omega
    exact ⟨_, _, rfl, iff_of_true rfl (.last hs (diagBlock_pd hs hb hp))⟩
  | succ k ih =>
    intro i start st S hik hs hm hb hp
    obtain ⟨st1, S1, hr, hm1, hold, h1, h2⟩ := factorRow_spec (start := start) hm (by omega : i < n) hs
      (fun j hj => hA i j hj (by omega))
    have hb1 := hb.extend hold h1 h2
    have hp1 : ∀ a, start ≤ a → a < i → 0 < S1 a a := fun a ha' ha => by
      rw [hold a a ha ha]; exact hp a ha' ha
    have hpd := diagBlock_pd hs hb hp
    obtain ⟨g1, g2⟩ := diagBlock_zero hs hb1 hp1
    -- if the pivot is not positive, a splitting must put its end at row `i`
    have hsplit : S1 i i ≤ 0 → SemiBlocks A n start → (diagBlock A start (i + 1)).PosSemidef ∧ SemiBlocks A n (i + 1) := by
      intro hle hsb
      cases hsb with
      | last hsn hn => exact absurd (diagBlock_leading (by omega) hn) (g2 hle)
      | @block _ e hse hen h3 h4 h5 h6 =>
        rcases lt_trichotomy e i with h | h | h
        · exact absurd (diagBlock_leading (by omega) hpd) h5
        · subst h; exact ⟨h4, h6⟩
        · exact absurd (diagBlock_leading (by omega) h3) (g2 hle)
    unfold factorSemiLoop
    simp only [hr, Res.ok_bind]
    by_cases hd : S1 i i < 0
    · refine ⟨(start, i + 1), st1, by simp [hd], iff_of_false (Nat.succ_ne_zero i) fun hsb => ?_⟩
      have h3 := (hsplit hd.le hsb).1
      have h' := hb1.shift (by omega : start ≤ i + 1)
      obtain ⟨d, hd1, hd2⟩ : ∃ d, i + 1 - start = d + 1 ∧ start + d = i := ⟨i - start, by omega, by omega⟩
      unfold diagBlock at h3
      rw [hd1] at h3 h'
      obtain ⟨x, -, hq⟩ := blk_last h' (fun a ha => hp1 (start + a) (by omega) (by omega))
      have := h3.dotProduct_mulVec_nonneg x
      rw [star_trivial, hq] at this
      simp only [hd2] at this
      linarith
    · by_cases hz : S1 i i = 0
      · obtain ⟨pos, st', hl, hh⟩ := ih (i + 1) (i + 1) st1 S1 (by omega) (le_refl _) hm1
          (fun a h1 h2 => absurd h2 (by omega)) (fun a h1 h2 => absurd h2 (by omega))
        refine ⟨pos, st', by simp [hz, hl], hh.trans ⟨fun h => ?_, fun h => (hsplit hz.le h).2⟩⟩
        exact .block hs (by omega) hpd (g1 hz.ge) (g2 hz.le) h
      · obtain ⟨pos, st', hl, hh⟩ := ih (i + 1) start st1 S1 (by omega) (by omega) hm1 hb1 (by
          intro a ha' ha
          by_cases hai : a = i
          · subst hai; exact lt_of_le_of_ne (not_lt.1 hd) (Ne.symm hz)
          · exact hp1 a ha' (by omega))
        exact ⟨pos, st', by simp [hd, hz, hl], hh⟩

end LDLTMgr

/-- **C32** Exactly which matrices `factor_with_allow_semidefinite` accepts: those whose rows split into consecutive
diagonal blocks of which the last is positive definite or empty and every other one is positive semidefinite, singular
and positive definite without its last row.  Entries outside the blocks are ignored. -/
theorem C32_accepted_iff {m : LDLTMgr ℝ} {n : Nat} {getElem : Nat → Nat → Res ℝ}
    {A : Nat → Nat → ℝ} (hm : m.Ready n) (hA : ∀ i j, j ≤ i → i < n → getElem i j = .ok (A i j)) :
    (∃ m', m.factorSemi getElem = .ok (true, m')) ↔ SemiBlocks A n 0 := by
  obtain ⟨hn, hS, hw⟩ := hm
  obtain ⟨pos, st', h, hiff⟩ := LDLTMgr.factorSemiLoop_iff hA n 0 0 m.storage m.storage.mat (by omega) le_rfl hS.isMat
    (fun a h1 h2 => absurd h2 (by omega)) (fun a h1 h2 => absurd h2 (by omega))
  rw [← hiff]
  unfold LDLTMgr.factorSemi
  rw [hn, h]
  simp only [Res.ok_bind, LDLTMgr.isSpd]
  constructor
  · rintro ⟨m', hm'⟩
    injection hm' with hm'
    injection hm' with h1 _
    simpa using h1
  · intro h0
    exact ⟨_, by rw [h0]; rfl⟩

/-- **C32** A matrix none of whose leading principal submatrices is singular is accepted iff it is positive definite. -/
theorem C32_accepted_nonsingular {m : LDLTMgr ℝ} {n : Nat} {getElem : Nat → Nat → Res ℝ}
    {A : Nat → Nat → ℝ} (hm : m.Ready n) (hA : ∀ i j, j ≤ i → i < n → getElem i j = .ok (A i j))
    (hdet : ∀ k, k ≤ n → (lowerSym k A).det ≠ 0) :
    (∃ m', m.factorSemi getElem = .ok (true, m')) ↔ (lowerSym n A).PosDef := by
  have e0 : ∀ k, diagBlock A 0 k = lowerSym k A := by
    intro k
    unfold diagBlock
    simp
  rw [C32_accepted_iff hm hA]
  constructor
  · intro h
    cases h with
    | last _ h => rw [e0] at h; exact h
    | @block _ e _ hen _ h4 h5 _ =>
      rw [e0] at h4 h5
      exact absurd (h4.posDef_iff_det_ne_zero.2 (hdet (e + 1) (by omega))) h5
  · intro h
    exact .last (Nat.zero_le _) (by rw [e0]; exact h)

/-- the singular matrix `[[1, 1], [1, 1]]` is accepted through the block criterion -/
example : ∃ m', (LDLTMgr.new 2 : LDLTMgr ℝ).factorSemi (fun _ _ => .ok 1) = .ok (true, m') := by
  refine (C32_accepted_iff (A := fun _ _ => 1) (LDLTMgr.ready_new 2) (fun _ _ _ _ => rfl)).2 ?_
  have e : ∀ x : Fin 2 → ℝ, x ⬝ᵥ (diagBlock (fun _ _ => 1) 0 2 *ᵥ x) = (x 0 + x 1) ^ 2 := by
    intro x
    simp [diagBlock, lowerSym, dotProduct, mulVec, Fin.sum_univ_two]; ring
  refine .block (e := 1) (by omega) (by omega) ?_ ?_ ?_ (.last le_rfl ?_)
  · rw [posDef_iff_real]
    refine ⟨lowerSym_isSymm _ _, fun x hx => ?_⟩
    change Fin 1 → ℝ at x
    have h0 : x 0 ≠ 0 := fun h => hx (by funext i; change Fin 1 at i; rw [Subsingleton.elim i 0]; exact h)
    have : x ⬝ᵥ (diagBlock (fun _ _ => 1) 0 1 *ᵥ x) = x 0 ^ 2 := by
      simp [diagBlock, lowerSym, dotProduct, mulVec, sq]
    rw [this]; positivity
  · refine Matrix.PosSemidef.of_dotProduct_mulVec_nonneg ?_ fun x => ?_
    · rw [IsHermitian, conjTranspose_eq_transpose_of_trivial]; exact lowerSym_isSymm _ _
    · rw [star_trivial, e]; positivity
  · intro h
    have := (posDef_iff_real.1 h).2 ![1, -1] (by intro h; simpa using congrFun h 0)
    rw [e] at this
    simp at this
  · rw [posDef_iff_real]
    exact ⟨lowerSym_isSymm _ _, fun x hx => absurd (by funext i; exact (Nat.not_lt_zero _ i.2).elim) hx⟩

end Ellalgo
