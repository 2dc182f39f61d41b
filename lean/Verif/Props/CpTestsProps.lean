import Verif.Spec.CpTests
import Verif.Props.RepeatProps
import Verif.Props.Converge
import Verif.Props.RoundedPlane
import Verif.Lib.Pair

/-! C90, C91: the oracles and runs of `tests/cutting_plane_tests.rs`. -/

namespace Ellalgo
open Matrix

/-! ### the oracles -/

/-- **C91** `MyOracleFeas` (and `MyOracleFeas2`) accepts `x` exactly if `x + y ≤ 3`; otherwise its cut is violated at `x`
and kept by every feasible point. -/
theorem C91_feas_answer (x : Arr ℝ) (hx : x.IsVecShape 2) :
    (cptFeasAssess () x = .ok (none, ()) ∧ x.toVec 2 ∈ cptHalf) ∨
    (∃ g β, cptFeasAssess () x = .ok (some (g, ⟨β⟩), ()) ∧ x.toVec 2 ∉ cptHalf ∧ g.IsVecShape 2 ∧ g.toVec 2 = ![1, 1] ∧
      0 < β ∧ ∀ z ∈ cptHalf, g.toVec 2 ⬝ᵥ (z - x.toVec 2) + β ≤ 0) := by
  obtain ⟨h0, h1⟩ := idx_pair hx
  simp only [cptFeasAssess, h0, h1, Res.ok_bind, nat, Scalar.real_gt, decide_eq_true_eq]
  split
  · rename_i h
    refine Or.inr ⟨_, _, rfl, ?_, pair_shape _ _, pair_toVec _ _, h, ?_⟩
    · simp only [cptHalf, Set.mem_ofPred_eq]; push_cast at h; linarith
    · intro z hz
      simp only [cptHalf, Set.mem_ofPred_eq] at hz
      rw [pair_toVec, pair_dot]
      simp only [Pi.sub_apply]
      push_cast; linarith
  · rename_i h
    refine Or.inl ⟨rfl, ?_⟩
    simp only [cptHalf, Set.mem_ofPred_eq]; push_cast at h; linarith

/-- **C91** `MyOracleOptim`: it accepts `x` exactly if `x ≤ 1`, `y ≤ 1` and `x + y ≥ γ`, and it never changes `γ`; otherwise
its cut is violated at `x` and kept by every acceptable point.  (The comment says "minimize x + y"; the gradient `(-1, -1)`
of an accepted point makes it a maximisation.) -/
theorem C91_optim_answer (x : Arr ℝ) (γ : ℝ) (hx : x.IsVecShape 2) :
    ∃ g β shrunk, cptOptimAssess () x γ = .ok (((g, ⟨β⟩), shrunk), γ, ()) ∧ g.IsVecShape 2 ∧ 1 ≤ normSq (g.toVec 2) ∧
      (shrunk = true ↔ x.toVec 2 ∈ cptBox γ) ∧
      (shrunk = false → 0 < β ∧ ∀ z ∈ cptBox γ, g.toVec 2 ⬝ᵥ (z - x.toVec 2) + β ≤ 0) ∧
      (shrunk = true → ∀ z, z 0 + z 1 ≥ x.toVec 2 0 + x.toVec 2 1 ↔ g.toVec 2 ⬝ᵥ (z - x.toVec 2) ≤ 0) := by
  obtain ⟨h0, h1⟩ := idx_pair hx
  simp only [cptOptimAssess, h0, h1, Res.ok_bind, Scalar.real_gt, Scalar.real_lt, decide_eq_true_eq]
  split
  · rename_i h
    refine ⟨_, _, false, rfl, pair_shape _ _, ?_, ?_, ?_, by simp⟩
    · rw [pair_toVec]; simp [normSq, pair_dot]
    · simp only [cptBox, Set.mem_ofPred_eq, Bool.false_eq_true, false_iff]; intro h'; linarith [h'.1]
    · refine fun _ => ⟨h, fun z hz => ?_⟩
      simp only [cptBox, Set.mem_ofPred_eq] at hz
      rw [pair_toVec, pair_dot]; simp only [Pi.sub_apply]; linarith
  · rename_i h
    split
    · rename_i h'
      refine ⟨_, _, false, rfl, pair_shape _ _, ?_, ?_, ?_, by simp⟩
      · rw [pair_toVec]; simp [normSq, pair_dot]
      · simp only [cptBox, Set.mem_ofPred_eq, Bool.false_eq_true, false_iff]; intro h''; linarith [h''.2.1]
      · refine fun _ => ⟨h', fun z hz => ?_⟩
        simp only [cptBox, Set.mem_ofPred_eq] at hz
        rw [pair_toVec, pair_dot]; simp only [Pi.sub_apply]; linarith
    · rename_i h'
      split
      · rename_i h''
        refine ⟨_, _, false, rfl, pair_shape _ _, ?_, ?_, ?_, by simp⟩
        · rw [pair_toVec]; simp [normSq, pair_dot]
        · simp only [cptBox, Set.mem_ofPred_eq, Bool.false_eq_true, false_iff]; intro h3; linarith [h3.2.2]
        · refine fun _ => ⟨by linarith, fun z hz => ?_⟩
          simp only [cptBox, Set.mem_ofPred_eq] at hz
          rw [pair_toVec, pair_dot]; simp only [Pi.sub_apply]; linarith
      · rename_i h''
        refine ⟨_, _, true, rfl, pair_shape _ _, ?_, ?_, by simp, ?_⟩
        · rw [pair_toVec]; simp [normSq, pair_dot]
        · simp only [cptBox, Set.mem_ofPred_eq, true_iff]
          exact ⟨by linarith, by linarith, by linarith⟩
        · intro _ z
          rw [pair_toVec, pair_dot]; simp only [Pi.sub_apply]
          constructor <;> intro <;> linarith

theorem Scalar.real_round' (x : ℝ) :
    (Scalar.round x : ℝ) = if 0 ≤ x then ((⌊x + 1 / 2⌋ : ℤ) : ℝ) else ((⌈x - 1 / 2⌉ : ℤ) : ℝ) := rfl

theorem round_integer (x : ℝ) : ∃ m : ℤ, (Scalar.round x : ℝ) = m := by
  rw [Scalar.real_round']
  split
  · exact ⟨_, rfl⟩
  · exact ⟨_, rfl⟩

theorem round_le_one {x : ℝ} (h : x ≤ 1) : (Scalar.round x : ℝ) ≤ 1 := by
  rw [Scalar.real_round']
  split
  · have : ⌊x + 1 / 2⌋ < 2 := by
      rw [Int.floor_lt]; push_cast; linarith
    exact_mod_cast (by omega : ⌊x + 1 / 2⌋ ≤ 1)
  · have : ⌈x - 1 / 2⌉ ≤ 1 := by
      rw [Int.ceil_le]; push_cast; linarith
    exact_mod_cast this

/-- **C91** `MyOracleOptimQ3`.  An improvement is reported exactly if both the query point and the rounded point satisfy
the constraints and have value at least `γ`; then the rounded point is returned, and its value becomes the new `γ`.  If the
query point itself is not acceptable, the cut is violated there and kept by every acceptable point.  But if only the rounded
point is not acceptable, the cut is `(-1, -1)` with the offset `γ - value of the rounded point`, applied at the query point. -/
theorem C91_q3_answer (x : Arr ℝ) (γ : ℝ) (retry : Bool) (hx : x.IsVecShape 2) :
    ∃ g β shrunk xq more γ', cptOptimQ3Assess () x γ retry = .ok (((g, ⟨β⟩), shrunk, xq, more), γ', ()) ∧
      g.IsVecShape 2 ∧ g.toVec 2 ≠ 0 ∧ 0 ≤ β ∧
      (shrunk = true ↔ x.toVec 2 ∈ cptBox γ ∧ rounded (x.toVec 2) ∈ cptBox γ) ∧
      (shrunk = true → xq.IsVecShape 2 ∧ xq.toVec 2 = rounded (x.toVec 2) ∧ γ' = rounded (x.toVec 2) 0 + rounded (x.toVec 2) 1) ∧
      (shrunk = false → γ' = γ) ∧
      (x.toVec 2 ∉ cptBox γ → 0 < β ∧ more = true ∧ ∀ z ∈ cptBox γ, g.toVec 2 ⬝ᵥ (z - x.toVec 2) + β ≤ 0) ∧
      (x.toVec 2 ∈ cptBox γ → more = !retry ∧ g.toVec 2 = ![-1, -1] ∧
        (shrunk = false → β = γ - (rounded (x.toVec 2) 0 + rounded (x.toVec 2) 1) ∧ 0 < β)) := by
  obtain ⟨h0, h1⟩ := idx_pair hx
  simp only [cptOptimQ3Assess, h0, h1, Res.ok_bind, Scalar.real_gt, Scalar.real_lt, decide_eq_true_eq]
  have hbox : x.toVec 2 ∈ cptBox γ ↔ x.toVec 2 0 ≤ 1 ∧ x.toVec 2 1 ≤ 1 ∧ γ ≤ x.toVec 2 0 + x.toVec 2 1 := Iff.rfl
  have hrbox : rounded (x.toVec 2) ∈ cptBox γ ↔ rounded (x.toVec 2) 0 ≤ 1 ∧ rounded (x.toVec 2) 1 ≤ 1 ∧
    γ ≤ rounded (x.toVec 2) 0 + rounded (x.toVec 2) 1 := Iff.rfl
  have hr0 : rounded (x.toVec 2) 0 = Scalar.round (x.toVec 2 0) := rfl
  have hr1 : rounded (x.toVec 2) 1 = Scalar.round (x.toVec 2 1) := rfl
  by_cases hb : x.toVec 2 ∈ cptBox γ
  · obtain ⟨b1, b2, b3⟩ := hbox.1 hb
    have q1 := round_le_one b1
    have q2 := round_le_one b2
    rw [if_neg (by linarith), if_neg (by linarith), if_neg (by linarith), if_neg (by linarith), if_neg (by linarith)]
    split
    · rename_i h
      refine ⟨_, _, false, _, _, _, rfl, pair_shape _ _, ?_, by linarith, ?_, by simp, by simp, fun h => absurd hb h, ?_⟩
      · rw [pair_toVec]; intro h; simpa using congrFun h 0
      · rw [hrbox, hr0, hr1]
        simp only [Bool.false_eq_true, false_iff]
        intro h'; linarith [h'.2.2.2]
      · refine fun _ => ⟨rfl, pair_toVec _ _, fun _ => ⟨?_, by linarith⟩⟩
        rw [hr0, hr1]; ring
    · rename_i h
      refine ⟨_, _, true, _, _, _, rfl, pair_shape _ _, ?_, le_rfl, ?_, ?_, by simp, fun h => absurd hb h, ?_⟩
      · rw [pair_toVec]; intro h; simpa using congrFun h 0
      · rw [hrbox, hr0, hr1]
        simp only [true_iff]
        exact ⟨hb, q1, q2, by linarith⟩
      · refine fun _ => ⟨pair_shape _ _, pair_toVec _ _, ?_⟩
        rw [hr0, hr1]
      · exact fun _ => ⟨rfl, pair_toVec _ _, by simp⟩
  · have hfin : ∀ g1 g2 β : ℝ, (g1 ≠ 0 ∨ g2 ≠ 0) → 0 < β →
        (∀ z ∈ cptBox γ, g1 * (z 0 - x.toVec 2 0) + g2 * (z 1 - x.toVec 2 1) + β ≤ 0) →
        ∃ g β' shrunk xq more γ', (Res.ok (((Arr.ofList [g1, g2], (⟨β⟩ : SingleCut ℝ)), false, x, true), γ, ()) :
            Res (((Arr ℝ × SingleCut ℝ) × Bool × Arr ℝ × Bool) × ℝ × Unit)) =
            .ok (((g, ⟨β'⟩), shrunk, xq, more), γ', ()) ∧
          g.IsVecShape 2 ∧ g.toVec 2 ≠ 0 ∧ 0 ≤ β' ∧
          (shrunk = true ↔ x.toVec 2 ∈ cptBox γ ∧ rounded (x.toVec 2) ∈ cptBox γ) ∧
          (shrunk = true → xq.IsVecShape 2 ∧ xq.toVec 2 = rounded (x.toVec 2) ∧
            γ' = rounded (x.toVec 2) 0 + rounded (x.toVec 2) 1) ∧
          (shrunk = false → γ' = γ) ∧
          (x.toVec 2 ∉ cptBox γ → 0 < β' ∧ more = true ∧ ∀ z ∈ cptBox γ, g.toVec 2 ⬝ᵥ (z - x.toVec 2) + β' ≤ 0) ∧
          (x.toVec 2 ∈ cptBox γ → more = !retry ∧ g.toVec 2 = ![-1, -1] ∧
            (shrunk = false → β' = γ - (rounded (x.toVec 2) 0 + rounded (x.toVec 2) 1) ∧ 0 < β')) := by
      intro g1 g2 β hg hβ hz
      refine ⟨_, _, _, _, _, _, rfl, pair_shape _ _, ?_, hβ.le, by simp [hb], by simp, by simp, ?_, fun h => absurd h hb⟩
      · rw [pair_toVec]
        intro h
        rcases hg with hg | hg
        · exact hg (by simpa using congrFun h 0)
        · exact hg (by simpa using congrFun h 1)
      · refine fun _ => ⟨hβ, rfl, fun z hz' => ?_⟩
        rw [pair_toVec, pair_dot]
        exact hz z hz'
    split
    · rename_i h
      exact hfin 1 0 _ (by simp) h fun z hz => by have := hz.1; linarith
    · rename_i h
      split
      · rename_i h'
        exact hfin 0 1 _ (by simp) h' fun z hz => by have := hz.2.1; linarith
      · rename_i h'
        rw [if_pos]
        · exact hfin (-1) (-1) _ (by simp) (by
            by_contra h''
            exact hb (hbox.2 ⟨by linarith, by linarith, by linarith⟩)) fun z hz => by have := hz.2.2; linarith
        · by_contra h''
          exact hb (hbox.2 ⟨by linarith, by linarith, by linarith⟩)

/-- **C91** The last cut of `MyOracleOptimQ3` is wrong: whenever the query point is acceptable and its rounding is not, the
cut removes every point whose value is below `γ + (value of the query point - value of its rounding)`, acceptable or not. -/
theorem C91_q3_removes (x : Arr ℝ) (γ : ℝ) (retry : Bool) (hx : x.IsVecShape 2) (hb : x.toVec 2 ∈ cptBox γ)
    (hr : rounded (x.toVec 2) ∉ cptBox γ) :
    ∃ g β xq more, cptOptimQ3Assess () x γ retry = .ok (((g, ⟨β⟩), false, xq, more), γ, ()) ∧
      ∀ z : Fin 2 → ℝ, z 0 + z 1 < γ + (x.toVec 2 0 + x.toVec 2 1 - (rounded (x.toVec 2) 0 + rounded (x.toVec 2) 1)) →
        ¬ g.toVec 2 ⬝ᵥ (z - x.toVec 2) + β ≤ 0 := by
  obtain ⟨g, β, shrunk, xq, more, γ', h, -, -, -, h1, -, h3, -, h5⟩ := C91_q3_answer x γ retry hx
  have hs : shrunk = false := by
    cases shrunk
    · rfl
    · exact absurd (h1.1 rfl).2 hr
  subst hs
  obtain rfl := h3 rfl
  refine ⟨g, β, xq, more, h, fun z hz => ?_⟩
  obtain ⟨-, hg, hβ⟩ := h5 hb
  rw [hg, (hβ rfl).1, pair_dot]
  simp only [Pi.sub_apply]
  linarith

/-- **C91** So it can remove every better grid point: at `(0.4, 0.4)` with `γ = 1/2`, the cut removes `(1, 0)` and `(0, 1)`,
both of value 1; only `(1, 1)` is left. -/
theorem C91_q3_removes_better_points (retry : Bool) :
    ∃ g β xq more, cptOptimQ3Assess () (Arr.ofList [(2 / 5 : ℝ), 2 / 5]) (1 / 2) retry =
        .ok (((g, ⟨β⟩), false, xq, more), 1 / 2, ()) ∧
      (![1, 0] : Fin 2 → ℝ) ∈ cptBox (1 / 2) ∧ ¬ g.toVec 2 ⬝ᵥ (![1, 0] - ![2 / 5, 2 / 5]) + β ≤ 0 := by
  have hx := pair_shape (2 / 5) (2 / 5)
  have hv := pair_toVec (2 / 5) (2 / 5)
  have h0 : (Scalar.round (2 / 5 : ℝ) : ℝ) = 0 := by
    rw [Scalar.real_round', if_pos (by norm_num)]
    have : ⌊(2 / 5 : ℝ) + 1 / 2⌋ = 0 := by rw [Int.floor_eq_iff]; norm_num
    rw [this]; simp
  have hr : rounded ![(2 / 5 : ℝ), 2 / 5] = ![0, 0] := by
    funext i; fin_cases i <;> simp [rounded, h0]
  obtain ⟨g, β, xq, more, h, hz⟩ := C91_q3_removes _ (1 / 2) retry hx
    (by rw [hv]; simp only [cptBox, Set.mem_ofPred_eq, cons_val_zero, cons_val_one]; norm_num)
    (by rw [hv, hr]; simp only [cptBox, Set.mem_ofPred_eq, cons_val_zero, cons_val_one]; norm_num)
  refine ⟨g, β, xq, more, h, by simp only [cptBox, Set.mem_ofPred_eq, cons_val_zero, cons_val_one]; norm_num, ?_⟩
  have := hz ![1, 0] (by rw [hv, hr]; simp only [cons_val_zero, cons_val_one]; norm_num)
  rw [hv] at this
  exact this

end Ellalgo
