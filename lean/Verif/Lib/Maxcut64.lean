import Verif.Spec.Maxcut64
import Verif.Lib.Oracles64
import Verif.Props.RoundedMaxcut
import Verif.Props.Oracles64Runs

/-! The loops of the maxcut oracle in any arithmetic, and in `f64`. -/

namespace Ellalgo
open Matrix Finset

section generic
variable {α : Type} [Scalar α] {n : Nat}

/-- the sum of the `w j` with `d j`, `j < k`, added up in this order -/
def crossSum (d : Nat → Bool) (w : Nat → α) : Nat → α
  | 0 => 0
  | k + 1 => if d k then crossSum d w k + w k else crossSum d w k

theorem maxcut_grad_generic {o : MaxcutOracle α} {W : Nat → Nat → α} (hw : IsMat o.weights n n W) (hs : o.n = n) {x : Arr α} {v : Nat → α}
    (hx : IsVec x n v) : ∃ g, o.grad x = .ok g ∧ IsVec g n (fun i => crossSum (fun j => !Scalar.beq (v i) (v j)) (W i) n * nat 2) := by
  have hc : o.weights.cols = n := hw.cols
  have inner : ∀ (i : Nat) (g : Arr α) (y : Nat → α), i < n → IsVec g n y → y i = 0 →
      ∃ g', (forRange 0 n g fun j g => do
        let xi ← x.idx i
        let xj ← x.idx j
        if !Scalar.beq xi xj then do
          let w ← o.weights.idx (i * o.weights.cols + j)
          let old ← g.idx i
          g.setIdx i (old + w)
        else .ok g) = .ok g' ∧ IsVec g' n (upd1 y i (crossSum (fun j => !Scalar.beq (v i) (v j)) (W i) n)) := by
    intro i g y hi hg hv
    refine forRange_spec (fun k g' => IsVec g' n (upd1 y i (crossSum (fun j => !Scalar.beq (v i) (v j)) (W i) k))) (Nat.zero_le n) ?_ ?_
    · refine hg.congr fun k _ => ?_
      unfold upd1
      split_ifs with h
      · rw [h, hv]; rfl
      · rfl
    · intro j g' _ hj hg'
      rw [hx.idx hi, hx.idx hj, hc, hw.idx hi hj]
      simp only [Res.ok_bind, hg'.idx hi]
      split
      · rename_i h
        obtain ⟨a, h1, h2⟩ := hg'.setIdx hi (upd1 y i (crossSum (fun j => !Scalar.beq (v i) (v j)) (W i) j) i + W i j)
        refine ⟨a, h1, h2.congr fun k _ => ?_⟩
        by_cases hk : k = i
        · subst hk; simp only [upd1, if_true, crossSum, h]
        · simp only [upd1, hk, if_false]
      · rename_i h
        refine ⟨g', rfl, hg'.congr fun k _ => ?_⟩
        simp only [crossSum, h]
        rfl
  obtain ⟨g, h1, h2⟩ := forRange_spec (σ := Arr α)
    (fun k g => IsVec g n (fun i => if i < k then crossSum (fun j => !Scalar.beq (v i) (v j)) (W i) n else 0))
    (f := fun i g => forRange 0 n g fun j g => do
        let xi ← x.idx i
        let xj ← x.idx j
        if !Scalar.beq xi xj then do
          let w ← o.weights.idx (i * o.weights.cols + j)
          let old ← g.idx i
          g.setIdx i (old + w)
        else .ok g) (s := Arr.new n) (Nat.zero_le n) ((isVec_new (α := α) n).congr fun i _ => rfl)
    (by
      intro i g _ hi hg
      obtain ⟨g', h1, h2⟩ := inner i g _ hi hg (by simp)
      refine ⟨g', h1, h2.congr fun k _ => ?_⟩
      unfold upd1
      by_cases hk : k = i
      · subst hk; simp
      · have : (k < i + 1) ↔ k < i := by omega
        simp [hk, this])
  refine ⟨g.smul (nat 2), ?_, ?_⟩
  · rw [MaxcutOracle.grad, hs, h1]; rfl
  · refine (h2.map fun a => a * nat 2).congr fun i hi => ?_
    simp only [hi, if_true]

end generic

section f64
variable {n : Nat}

theorem Same.stay {s w : B64} {s' w' : Fl bin53} (h : Same s s') (hs : s.Small 1022) (k : Same w w') (hw : w.Small 968) :
    Same (s + w) (s' + w') ∧ (s + w).Small 1022 := by
  have hst := B64.Small.stay (t := 968) (by norm_num) (by norm_num) hs hw
  refine ⟨h.add k ?_, hst⟩
  have h3 := rnd64_stay (t := 968) (by norm_num) hs.2 hw.2
  rw [rnd64_add (B64.rep_val hs.1) (B64.rep_val hw.1), h.2, k.2] at h3
  exact B64.pow_lt_max (by norm_num) h3

theorem B64.Small.zero_small (t : ℤ) : (0 : B64).Small t := B64.zero_small t false

theorem maxcut_value_same {o : MaxcutOracle B64} {o' : MaxcutOracle (Fl bin53)} (ho : o.weights.Same o'.weights)
    (hs : o'.weights.IsMatShape n n) (hn : o.n = n) (hn' : o'.n = n) (small : ∀ i j, i < n → j < n → (o.weights.mat i j).Small 968)
    {x : Arr B64} {x' : Arr (Fl bin53)} {v : Nat → B64} {v' : Nat → Fl bin53} (hx : IsVec x n v) (hx' : IsVec x' n v')
    (hv : ∀ i < n, Same (v i) (v' i)) : ∃ c c', o.cutValue x = .ok c ∧ o'.cutValue x' = .ok c' ∧ Same c c' := by
  have hw := (ho.matShape hs).isMat
  have hc : o.weights.cols = n := hw.cols
  have hc' : o'.weights.cols = n := hs.2.1
  unfold MaxcutOracle.cutValue
  rw [hn, hn']
  obtain ⟨c, c', h1, h2, h3, -⟩ := forRange_rel (P := fun (s : B64) (t : Fl bin53) => Same s t ∧ s.Small 1022) (lo := 0) (hi := n)
    (s := 0) (t := 0)
    (f := fun i s => forRange (i + 1) n s fun j s => do
      let xi ← x.idx i
      let xj ← x.idx j
      if !Scalar.beq xi xj then do
        let w ← o.weights.idx (i * o.weights.cols + j)
        .ok (s + w)
      else .ok s)
    (f' := fun i s => forRange (i + 1) n s fun j s => do
      let xi ← x'.idx i
      let xj ← x'.idx j
      if !Scalar.beq xi xj then do
        let w ← o'.weights.idx (i * o'.weights.cols + j)
        .ok (s + w)
      else .ok s) ⟨.zero, B64.Small.zero_small _⟩ (by
      intro i s t _ hi hst
      refine forRange_rel (P := fun (s : B64) (t : Fl bin53) => Same s t ∧ s.Small 1022) hst ?_
      rintro j s t hj1 hj ⟨a1, a2⟩
      rw [hx.idx hi, hx.idx hj, hx'.idx hi, hx'.idx hj, hc, hc', hw.idx hi hj, hs.isMat.idx hi hj]
      simp only [Res.ok_bind, (hv i hi).beq (hv j hj)]
      split
      · exact ⟨_, _, rfl, rfl, a1.stay a2 (ho.mat hs i j hi hj) (small i j hi hj)⟩
      · exact ⟨_, _, rfl, rfl, a1, a2⟩)
  exact ⟨c, c', h1, h2, h3⟩

/-- doubling a finite number that is not too large is exact -/
theorem B64.double {a : B64} (h : a.Small 1022) : (a * nat 2).Finite ∧ (a * nat 2).val = 2 * a.val := by
  have h2 : (nat 2 : B64).Finite ∧ (nat 2 : B64).val = 2 := by
    have := Same.two
    refine ⟨this.1, this.2.trans ?_⟩
    show rnd53 ((2 : Nat) : ℝ) = 2
    have := rnd53_pow 1
    rw [zpow_one] at this
    rw [Nat.cast_ofNat]
    exact this
  rw [B64.finite_mul h.1 h2.1, h2.2]
  have hr := B64.rep_val h.1
  have e : rnd64 (a.val * 2) = 2 * a.val := by
    rw [mul_two, rnd64_add hr hr, ← two_mul, rnd53_double]
    congr 1
    have := rnd64_add hr rnd64_zero
    rw [add_zero] at this
    rw [← this, hr]
  have hb : |2 * a.val| ≤ (2 : ℝ) ^ (1023 : ℤ) := by
    rw [show (1023 : ℤ) = 1 + 1022 by norm_num, zpow_add₀ (by norm_num), zpow_one, abs_mul, abs_two]
    exact mul_le_mul_of_nonneg_left h.2 (by norm_num)
  obtain ⟨h4, h5⟩ := B64.ofReal_val (s := a.sgn ^^ (nat 2 : B64).sgn) (x := a.val * 2) (by rw [e]; exact B64.pow_lt_max (by norm_num) hb)
  exact ⟨h4, h5.trans e⟩

theorem B64.neg_val {a : B64} (h : a.Finite) : (-a).Finite ∧ (-a).val = -a.val := by
  have := Same.neg (a := a) (x := ⟨a.val⟩) ⟨h, rfl⟩
  exact ⟨this.1, this.2⟩

/-- adding up weights -/
theorem crossSum_err (d : Nat → Bool) (w : Nat → B64) (k : Nat) (hw : ∀ j < k, (w j).Small 968) :
    (crossSum d w k).Small 1022 ∧
    |(crossSum d w k).val - ∑ j ∈ range k, (if d j then (w j).val else 0)| ≤
      ((1 + (2 : ℝ) ^ (-53 : ℤ)) ^ k - 1) * ∑ j ∈ range k, (if d j then |(w j).val| else 0) ∧
    |∑ j ∈ range k, (if d j then (w j).val else 0)| ≤ ∑ j ∈ range k, (if d j then |(w j).val| else 0) ∧
    ∀ b : ℝ, 0 ≤ b → (∀ j < k, ∃ q : ℤ, (w j).val = q ∧ |(q : ℝ)| ≤ b) → k * b ≤ 2 ^ 53 →
      (crossSum d w k).val = ∑ j ∈ range k, (if d j then (w j).val else 0) ∧
      ∃ q : ℤ, (crossSum d w k).val = q ∧ |(q : ℝ)| ≤ k * b := by
  induction k with
  | zero => exact ⟨B64.Small.zero_small _, by simp [crossSum, show (0 : B64).val = 0 from rfl], by simp, fun b _ _ _ =>
      ⟨by simp [crossSum, show (0 : B64).val = 0 from rfl], 0, by simp [crossSum, show (0 : B64).val = 0 from rfl], by simp⟩⟩
  | succ k ih =>
    obtain ⟨h1, h2, h3, h4⟩ := ih fun j hj => hw j (by omega)
    rw [sum_range_succ, sum_range_succ]
    set E := ∑ j ∈ range k, (if d j then (w j).val else 0)
    set A := ∑ j ∈ range k, (if d j then |(w j).val| else 0)
    have hu : (0 : ℝ) ≤ (2 : ℝ) ^ (-53 : ℤ) := by positivity
    have hC : (1 : ℝ) ≤ (1 + (2 : ℝ) ^ (-53 : ℤ)) ^ k := one_le_pow₀ (by linarith)
    have hA : 0 ≤ A := (abs_nonneg _).trans h3
    by_cases hd : d k = true
    · simp only [crossSum, hd, if_true]
      have hwk := hw k (by omega)
      obtain ⟨a1, a2⟩ := Same.stay (s := crossSum d w k) (s' := ⟨(crossSum d w k).val⟩) ⟨h1.1, rfl⟩ h1 (w := w k) (w' := ⟨(w k).val⟩) ⟨hwk.1, rfl⟩ hwk
      have hval : (crossSum d w k + w k).val = bin53.rnd ((crossSum d w k).val + (w k).val) := a1.2
      have hb : |E + (w k).val| ≤ A + |(w k).val| := (abs_add_le _ _).trans (by linarith)
      refine ⟨a2, ?_, hb, fun b hb0 hi hbd => ?_⟩
      · rw [hval, pow_succ']
        refine rnd_rel ?_ hb
        rw [add_sub_add_right_eq_sub]
        have := mul_nonneg (sub_nonneg.2 hC) (abs_nonneg (w k).val)
        linarith
      · push_cast at hbd
        obtain ⟨e1, q, e2, e3⟩ := h4 b hb0 (fun j hj => hi j (by omega)) (by linarith)
        obtain ⟨p, e4, e5⟩ := hi k (by omega)
        have hle : |((q + p : ℤ) : ℝ)| ≤ ((k : ℝ) + 1) * b := by
          push_cast
          refine (abs_add_le _ _).trans ?_
          linarith
        have hex : (crossSum d w k + w k).val = ((q + p : ℤ) : ℝ) := by
          have := rnd53_rep (q + p) 0 (by
            have : |((q + p : ℤ) : ℝ)| ≤ (2 : ℝ) ^ 53 := hle.trans hbd
            rw [← Int.cast_abs] at this
            exact_mod_cast this)
          rw [zpow_zero, mul_one] at this
          rw [hval, e2, e4, ← Int.cast_add]
          exact this
        refine ⟨?_, q + p, hex, by push_cast at hle ⊢; exact hle⟩
        rw [hex, ← e1, e2, e4]; push_cast; ring
    · simp only [crossSum, hd, if_false, add_zero, Bool.false_eq_true]
      refine ⟨h1, h2.trans (mul_le_mul_of_nonneg_right ?_ hA), h3, fun b hb0 hi hbd => ?_⟩
      · rw [pow_succ]
        nlinarith
      · push_cast at hbd
        obtain ⟨e1, q, e2, e3⟩ := h4 b hb0 (fun j hj => hi j (by omega)) (by linarith)
        exact ⟨e1, q, e2, by push_cast; linarith⟩

end f64
end Ellalgo
