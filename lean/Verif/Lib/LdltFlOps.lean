import Verif.Lib.LdltFl

/-! `witness` and `sym_quad` in rounded arithmetic. -/

namespace Ellalgo
open Finset

theorem forRange_sumFrom {α : Type} [Scalar α] {lo hi : Nat} (hle : lo ≤ hi) {f : Nat → α → Res α} {t : Nat → α}
    (h : ∀ i acc, lo ≤ i → i < hi → f i acc = .ok (acc + t i)) :
    forRange lo hi (0 : α) f = .ok (sumTo (hi - lo) fun j => t (lo + j)) := by
  obtain ⟨s, hs, hp⟩ := forRange_spec (f := f) (fun i (acc : α) => acc = sumTo (i - lo) fun j => t (lo + j))
    (s := (0 : α)) hle (by simp [sumTo])
    (by
      intro i acc h1 hi hacc
      refine ⟨acc + t i, h i acc h1 hi, ?_⟩
      rw [hacc, show i + 1 - lo = (i - lo) + 1 by omega, sumTo, show lo + (i - lo) = i by omega])
  rw [hs, hp]

namespace LDLTMgr

theorem witness_generic {α : Type} [Scalar α] {m : LDLTMgr α} {n p : Nat} {S : Nat → Nat → α} {w : Nat → α} (hn : m.ndim = n)
    (hS : IsMat m.storage n n S) (hw : IsVec m.wit n w) (hpos : m.pos = (0, p + 1)) (hp : p < n) :
    ∃ wit' v, m.witness = .ok (- S p p, { m with wit := wit' }) ∧ IsVec wit' n v ∧ v p = 1 ∧
      ∀ i, i < p → v i = - sumTo (p - i) fun j => S (i + 1 + j) i * v (i + 1 + j) := by
  obtain ⟨wit0, h0, hv0⟩ := hw.setIdx hp (1 : α)
  obtain ⟨wit1, h1, v, hv1, hvp, hvi⟩ := forDown_spec
    (f := fun i (wit : Arr α) => (do
      let s ← forRange i (p + 1) (0 : α) fun k s => do
        let a ← m.storage.idx (k * m.ndim + (i - 1))
        let b ← wit.idx k
        .ok (s + a * b)
      wit.setIdx (i - 1) (-s) : Res (Arr α)))
    (fun i wit => ∃ v, IsVec wit n v ∧ v p = 1 ∧
      ∀ a, i ≤ a + 1 → a < p → v a = - sumTo (p - a) fun j => S (a + 1 + j) a * v (a + 1 + j))
    (lo := 0 + 1) (hi := p + 1) (s := wit0) (by omega)
    ⟨_, hv0, by simp [upd1], fun a h1 h2 => absurd h2 (by omega)⟩
    (by
      rintro i wit hi1 hi2 ⟨v, hv, hvp, hva⟩
      have hsum : (forRange i (p + 1) (0 : α) fun k s => do
          let a ← m.storage.idx (k * m.ndim + (i - 1))
          let b ← wit.idx k
          .ok (s + a * b)) = .ok (sumTo (p + 1 - i) fun j => S (i + j) (i - 1) * v (i + j)) := by
        apply forRange_sumFrom (t := fun k => S k (i - 1) * v k) (by omega)
        intro k acc hk1 hk2
        rw [hn, hS.idx (by omega) (by omega), hv.idx (by omega)]
        rfl
      set nv := -sumTo (p + 1 - i) fun j => S (i + j) (i - 1) * v (i + j) with hnv
      obtain ⟨wit', h', hv'⟩ := hv.setIdx (i := i - 1) (by omega) nv
      refine ⟨wit', ?_, _, hv', ?_, ?_⟩
      · simp only [hsum, Res.ok_bind, ← hnv, h']
      · simp only [upd1]; rw [if_neg (by omega)]; exact hvp
      · intro a ha1 ha2
        have hsumeq : ∀ c, i ≤ c + 1 → (sumTo (p - c) fun j => S (c + 1 + j) c * upd1 v (i - 1) nv (c + 1 + j))
            = sumTo (p - c) fun j => S (c + 1 + j) c * v (c + 1 + j) := by
          intro c hc
          apply sumTo_congr
          intro k hk
          simp only [upd1]; rw [if_neg (by omega)]
        rw [hsumeq a ha1]
        by_cases hai : a = i - 1
        · rw [hai]
          simp only [upd1, if_true]
          rw [hnv, show p + 1 - i = p - (i - 1) by omega, show i - 1 + 1 = i by omega]
        · simp only [upd1]; rw [if_neg hai]
          exact hva a (by omega) ha2)
  refine ⟨wit1, v, ?_, hv1, hvp, fun i h2 => hvi i (by omega) h2⟩
  unfold witness
  simp only [isSpd, hpos, Nat.add_sub_cancel, h0, Res.ok_bind]
  have hne : (!(p + 1 == 0)) = true := by simp
  rw [hne]
  simp only [Res.assert_true, Res.ok_bind]
  refine (congrArg (· >>= _) h1).trans ?_
  simp only [Res.ok_bind]
  rw [hn, hS.idx hp hp]
  rfl

variable {u : ℝ} {R : Rounding u}

theorem fl_acc_step {r E B a b c : ℝ} {m : Nat} (hm : 2 ≤ m) (hr : |r - E| ≤ ((1 + u) ^ m - 1) * B) (hE : |E| ≤ B) :
    |R.rnd (r + R.rnd (R.rnd (a * b) * c)) - (E + a * b * c)| ≤ ((1 + u) ^ (m + 1) - 1) * (B + |a| * |b| * |c|) := by
  have hu := R.unit_nonneg
  have hq : |a| * |b| * |c| = |a * b * c| := by rw [abs_mul, abs_mul]
  rw [hq]
  set q := a * b * c
  set t := R.rnd (R.rnd (a * b) * c)
  have h1 := R.err (a * b)
  have h2 := R.err (R.rnd (a * b) * c)
  have h3 : |R.rnd (a * b) * c - q| ≤ u * |q| := by
    have : R.rnd (a * b) * c - q = (R.rnd (a * b) - a * b) * c := by ring
    rw [this, abs_mul]
    have := mul_le_mul_of_nonneg_right h1 (abs_nonneg c)
    have e : u * |q| = u * |a * b| * |c| := by rw [show q = a * b * c from rfl, abs_mul (a * b) c]; ring
    rw [e]; exact this
  have h4 : |R.rnd (a * b) * c| ≤ (1 + u) * |q| := by
    have := abs_add_le (R.rnd (a * b) * c - q) q
    rw [sub_add_cancel] at this
    linarith
  have ht : |t - q| ≤ ((1 + u) ^ 2 - 1) * |q| := by
    have := abs_add_le (t - R.rnd (a * b) * c) (R.rnd (a * b) * c - q)
    rw [sub_add_sub_cancel] at this
    have := mul_le_mul_of_nonneg_left h4 hu
    nlinarith
  have hp : (1 + u) ^ 2 ≤ (1 + u) ^ m := pow_le_pow_right₀ (by linarith) hm
  have hp2 := mul_le_mul_of_nonneg_right hp (abs_nonneg q)
  have h5 : |r + t - (E + q)| ≤ ((1 + u) ^ m - 1) * (B + |q|) := by
    have := abs_add_le (r - E) (t - q)
    rw [show r - E + (t - q) = r + t - (E + q) by ring] at this
    nlinarith
  have h6 : |r + t| ≤ (1 + u) ^ m * (B + |q|) := by
    have h7 := abs_add_le (r + t - (E + q)) (E + q)
    rw [sub_add_cancel] at h7
    have h8 := abs_add_le E q
    linarith
  have h9 := R.err (r + t)
  have h10 := abs_add_le (R.rnd (r + t) - (r + t)) (r + t - (E + q))
  rw [sub_add_sub_cancel] at h10
  have h11 := mul_le_mul_of_nonneg_left h6 hu
  rw [pow_succ]
  nlinarith

/-- `sym_quad` computes `wᵀ F w` with a small error -/
theorem symQuad_fl {m : LDLTMgr (Fl R)} {n q : Nat} {v : Nat → Fl R} {F : Arr (Fl R)} {f : Nat → Nat → Fl R}
    (hv : IsVec m.wit n v) (hF : IsMat F n n f) (hpos : m.pos = (0, q)) (hq : q ≤ n) :
    ∃ r, m.symQuad F = .ok r ∧
      |r.val - ∑ a ∈ range q, ∑ b ∈ range q, (v a).val * (f a b).val * (v b).val| ≤
        ((1 + u) ^ (2 + q * q) - 1) * ∑ a ∈ range q, ∑ b ∈ range q, |(v a).val| * |(f a b).val| * |(v b).val| := by
  unfold symQuad
  rw [hpos]
  have habs : ∀ i j, |∑ a ∈ range i, ∑ b ∈ range q, (v a).val * (f a b).val * (v b).val +
      ∑ b ∈ range j, (v i).val * (f i b).val * (v b).val| ≤
      ∑ a ∈ range i, ∑ b ∈ range q, |(v a).val| * |(f a b).val| * |(v b).val| +
        ∑ b ∈ range j, |(v i).val| * |(f i b).val| * |(v b).val| := by
    intro i j
    refine (abs_add_le _ _).trans (add_le_add ?_ ?_)
    · refine (abs_sum_le_sum_abs _ _).trans (sum_le_sum fun a _ => (abs_sum_le_sum_abs _ _).trans (le_of_eq ?_))
      exact sum_congr rfl fun b _ => by rw [abs_mul, abs_mul]
    · refine (abs_sum_le_sum_abs _ _).trans (le_of_eq ?_)
      exact sum_congr rfl fun b _ => by rw [abs_mul, abs_mul]
  refine forRange_post (fun i (r : Fl R) =>
    |r.val - ∑ a ∈ range i, ∑ b ∈ range q, (v a).val * (f a b).val * (v b).val| ≤
        ((1 + u) ^ (2 + i * q) - 1) * ∑ a ∈ range i, ∑ b ∈ range q, |(v a).val| * |(f a b).val| * |(v b).val|)
    (Nat.zero_le q) (by simp) ?_ (fun r h => h)
  intro i r _ hi hr
  refine forRange_post (fun j (r : Fl R) =>
    |r.val - (∑ a ∈ range i, ∑ b ∈ range q, (v a).val * (f a b).val * (v b).val +
        ∑ b ∈ range j, (v i).val * (f i b).val * (v b).val)| ≤
        ((1 + u) ^ (2 + i * q + j) - 1) *
          (∑ a ∈ range i, ∑ b ∈ range q, |(v a).val| * |(f a b).val| * |(v b).val| +
            ∑ b ∈ range j, |(v i).val| * |(f i b).val| * |(v b).val|))
    (Nat.zero_le q) (by simpa using hr) ?_ ?_
  · intro j r _ hj hr
    rw [hv.idx (by omega), hF.getij (by omega) (by omega), hv.idx (by omega)]
    refine ⟨_, rfl, ?_⟩
    rw [sum_range_succ _ j, sum_range_succ _ j, ← add_assoc, ← add_assoc, ← add_assoc]
    exact fl_acc_step (by omega) hr (habs i j)
  · intro r hr
    rw [sum_range_succ, sum_range_succ, show 2 + (i + 1) * q = 2 + i * q + q by ring]
    exact hr

end LDLTMgr
end Ellalgo
