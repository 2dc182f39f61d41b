import Verif.Props.RoundedPlane
import Verif.Props.RoundedProps
import Verif.Props.RoundedExamples
import Verif.Props.PortfolioProps

/-! Property C121, the counterpart of C75 in rounded arithmetic: what a portfolio returned by the example (examples/portfolio_optimization.rs) satisfies. -/

namespace Ellalgo
open Matrix Finset
variable {u : ℝ} {R : Rounding u} {n : Nat}

/-- a running sum: `acc` stands for `s`, with `m` roundings in it; `A` is the sum of the absolute values of the terms -/
def SumErr (u : ℝ) (m : Nat) (acc s A : ℝ) : Prop := |acc - s| ≤ ((1 + u) ^ m - 1) * A ∧ |s| ≤ A

theorem SumErr.add {m c : Nat} {acc t : Fl R} {s A τ a : ℝ} (h : SumErr u m acc.val s A) (hc : c ≤ m) (ht : SumErr u c t.val τ a) :
    SumErr u (m + 1) (acc + t).val (s + τ) (A + a) := by
  have hu := R.unit_nonneg
  obtain ⟨h1, h2⟩ := h
  obtain ⟨h3, h4⟩ := ht
  have hA : 0 ≤ A := (abs_nonneg s).trans h2
  have ha : 0 ≤ a := (abs_nonneg τ).trans h4
  have hpow : (1 + u) ^ c ≤ (1 + u) ^ m := pow_le_pow_right₀ (by linarith) hc
  have h5 : |t.val - τ| ≤ ((1 + u) ^ m - 1) * a := h3.trans (mul_le_mul_of_nonneg_right (by linarith) ha)
  have h6 : |acc.val + t.val| ≤ (1 + u) ^ m * (A + a) := by
    have e : acc.val + t.val = (acc.val - s) + s + ((t.val - τ) + τ) := by ring
    have a1 := abs_add_le ((acc.val - s) + s) ((t.val - τ) + τ)
    have a2 := abs_add_le (acc.val - s) s
    have a3 := abs_add_le (t.val - τ) τ
    rw [← e] at a1
    linarith
  refine ⟨?_, (abs_add_le _ _).trans (add_le_add h2 h4)⟩
  have e1 := R.err (acc.val + t.val)
  have e2 : (acc + t).val - (s + τ) = (R.rnd (acc.val + t.val) - (acc.val + t.val)) + ((acc.val - s) + (t.val - τ)) := by
    rw [Fl.add_val]; ring
  have b1 := abs_add_le (R.rnd (acc.val + t.val) - (acc.val + t.val)) ((acc.val - s) + (t.val - τ))
  have b2 := abs_add_le (acc.val - s) (t.val - τ)
  rw [← e2] at b1
  have b3 := mul_le_mul_of_nonneg_left h6 hu
  rw [pow_succ]
  linarith

/-- a loop whose rounds add the terms `τ i`, with at most `q` roundings of the accumulator in each -/
theorem sumErr_loop {f : Nat → Fl R → Res (Fl R)} {c q : Nat} {τ a : Fin n → ℝ}
    (h : ∀ (i : Fin n) (m : Nat) (s A : ℝ) (acc : Fl R), c ≤ m → SumErr u m acc.val s A →
      ∃ acc', f i acc = .ok acc' ∧ SumErr u (m + q) acc'.val (s + τ i) (A + a i))
    {m : Nat} {s A : ℝ} {acc : Fl R} (hc : c ≤ m) (hacc : SumErr u m acc.val s A) :
    ∃ acc', forRange 0 n acc f = .ok acc' ∧ SumErr u (m + n * q) acc'.val (s + ∑ i, τ i) (A + ∑ i, a i) := by
  obtain ⟨t, ht, hp⟩ := forRange_spec (f := f)
    (fun i (acc : Fl R) => SumErr u (m + i * q) acc.val (s + ∑ k ∈ range i, ext0 τ k) (A + ∑ k ∈ range i, ext0 a k)) (s := acc)
    (Nat.zero_le n) (by simpa using hacc)
    (by
      intro i acc _ hi hacc
      obtain ⟨acc', h1, h2⟩ := h ⟨i, hi⟩ _ _ _ acc (by omega) hacc
      refine ⟨acc', h1, ?_⟩
      rw [← ext0_fin τ ⟨i, hi⟩, ← ext0_fin a ⟨i, hi⟩] at h2
      rw [sum_range_succ, sum_range_succ, ← add_assoc, ← add_assoc, Nat.succ_mul, ← Nat.add_assoc]
      exact h2)
  refine ⟨t, ht, ?_⟩
  rw [sum_range, sum_range] at hp
  simpa using hp

theorem SumErr.exact {x : ℝ} : SumErr u 0 x x |x| := ⟨by simp, le_rfl⟩

theorem SumErr.mul {c : Nat} {x y : Fl R} {s A : ℝ} (h : SumErr u c x.val s A) :
    SumErr u (c + 1) (x * y).val (s * y.val) (A * |y.val|) := by
  have hu := R.unit_nonneg
  obtain ⟨h1, h2⟩ := h
  refine ⟨?_, by rw [abs_mul]; exact mul_le_mul_of_nonneg_right h2 (abs_nonneg _)⟩
  have e1 := R.err (x.val * y.val)
  have h3 : |x.val * y.val| ≤ (1 + u) ^ c * (A * |y.val|) := by
    rw [abs_mul, ← mul_assoc]
    refine mul_le_mul_of_nonneg_right ?_ (abs_nonneg _)
    have := abs_add_le (x.val - s) s
    rw [sub_add_cancel] at this
    linarith
  have e2 : (x * y).val - s * y.val = (R.rnd (x.val * y.val) - x.val * y.val) + (x.val - s) * y.val := by
    rw [Fl.mul_val]; ring
  have b1 := abs_add_le (R.rnd (x.val * y.val) - x.val * y.val) ((x.val - s) * y.val)
  rw [← e2, abs_mul (x.val - s)] at b1
  have b2 := mul_le_mul_of_nonneg_right h1 (abs_nonneg y.val)
  have b3 := mul_le_mul_of_nonneg_left h3 hu
  rw [pow_succ]
  linarith

theorem shape_loop {f : Nat → Arr (Fl R) → Res (Arr (Fl R))} (h : ∀ (k : Fin n) g, ∃ q, f k g = g.setIdx k q) :
    ∃ g, forRange 0 n (Arr.new n) f = .ok g ∧ g.IsVecShape n := by
  obtain ⟨g, h1, h2⟩ := forRange_spec (f := f) (fun _ (g : Arr (Fl R)) => g.IsVecShape n) (s := Arr.new n) (Nat.zero_le n)
    ⟨rfl, rfl, by simp [Arr.new]⟩
    (by
      intro i g _ hi hg
      obtain ⟨q, hq⟩ := h ⟨i, hi⟩ g
      obtain ⟨g', h1, h2⟩ := hg.setIdx_ok hi q
      exact ⟨g', by rw [← h1]; exact hq, h2⟩)
  exact ⟨g, h1, h2⟩

/-- portfolio data of `n` assets in the right shapes -/
def Portfolio.Shaped (n : Nat) (p : Portfolio (Fl R)) : Prop := p.expectedReturns.IsVecShape n ∧ p.riskMatrix.IsMatShape n n

theorem fl_riskAt {p : Portfolio (Fl R)} (hp : p.Shaped n) (i j : Fin n) : riskAt p i j = .ok ⟨p.riskMatrix.flMat n i j⟩ := by
  rw [riskAt, hp.2.isMat.cols, hp.2.isMat.idx i.2 j.2]; rfl

theorem fl_idx {x : Arr (Fl R)} (hx : x.IsVecShape n) (i : Fin n) : x.idx i = .ok ⟨x.flVec n i⟩ := hx.isVec.idx i.2

/-- **C121** (one answer in rounded arithmetic)  `PortfolioOracle` never panics, changes `γ` only with an improvement, and a point reported
as an improvement is within the budget and the risk limit and has the reported value, up to the rounding in evaluating them. -/
theorem C121_answers {p : Portfolio (Fl R)} (hp : p.Shaped n) (hu : u ≤ 1 / 8) {x : Arr (Fl R)} (hx : x.IsVecShape n) (γ : Fl R) :
    ∃ g b s γ', Portfolio.assess p x γ = .ok (((g, b), s), γ', p) ∧ g.IsVecShape n ∧ (s = false → γ' = γ) ∧
      (s = true → γ'.val < γ.val ∧
        ∑ i, x.flVec n i ≤ p.budget.val + ((1 + u) ^ n - 1) * ∑ i, |x.flVec n i| ∧
        x.flVec n ⬝ᵥ (p.riskMatrix.flMat n *ᵥ x.flVec n) ≤
          p.maxRisk.val + ((1 + u) ^ (n * n + 2) - 1) * absQuad (p.riskMatrix.flMat n) (x.flVec n) ∧
        |γ'.val + p.expectedReturns.flVec n ⬝ᵥ x.flVec n| ≤
          ((1 + u) ^ (n + 1) - 1) * ∑ i, |p.expectedReturns.flVec n i| * |x.flVec n i|) := by
  obtain ⟨v, hv⟩ : ∃ v, v = x.flVec n := ⟨_, rfl⟩
  obtain ⟨M, hM⟩ : ∃ M, M = p.riskMatrix.flMat n := ⟨_, rfl⟩
  have hxi : ∀ i : Fin n, x.idx i = .ok ⟨v i⟩ := fun i => by rw [hv]; exact fl_idx hx i
  have hri : ∀ i j : Fin n, riskAt p i j = .ok ⟨M i j⟩ := fun i j => by rw [hM]; exact fl_riskAt hp i j
  have hlen : x.len = n := hx.2.2
  obtain ⟨sm, l1, l2⟩ := sumErr_loop (n := n) (c := 0) (q := 1) (τ := v) (a := fun i => |v i|) (m := 0) (s := 0) (A := 0)
    (acc := (0 : Fl R)) (f := fun i acc => do let x ← x.idx i; .ok (acc + x))
    (by
      intro i m s A acc _ hacc
      exact ⟨acc + ⟨v i⟩, by rw [hxi]; rfl, hacc.add (Nat.zero_le m) SumErr.exact⟩) le_rfl ⟨by simp [Fl.zero_val], by simp⟩
  obtain ⟨rk, l3, l4⟩ := sumErr_loop (n := n) (c := 2) (q := n * 1) (τ := fun i => ∑ j, v i * M i j * v j)
    (a := fun i => ∑ j, |v i| * |M i j| * |v j|) (m := 2) (s := 0) (A := 0)
    (acc := (0 : Fl R)) (f := fun i acc => forRange 0 n acc fun j acc => do
      let xi ← x.idx i
      let m ← riskAt p i j
      let xj ← x.idx j
      .ok (acc + xi * m * xj))
    (by
      intro i m s A acc hm hacc
      refine sumErr_loop (c := 2) (q := 1) ?_ hm hacc
      intro j m s A acc hm hacc
      refine ⟨acc + ⟨v i⟩ * ⟨M i j⟩ * ⟨v j⟩, by simp only [hxi, hri, Res.ok_bind], hacc.add hm ?_⟩
      have h1 : SumErr u 0 (⟨v i⟩ : Fl R).val (v i) |v i| := SumErr.exact
      exact (h1.mul (y := ⟨M i j⟩)).mul (y := ⟨v j⟩)) le_rfl ⟨by simp [Fl.zero_val], by simp⟩
  obtain ⟨rt, l5, l6⟩ := C71_dot_error p.expectedReturns x hp.1 hx
  rw [← hv] at l6
  rw [← hv, ← hM]
  have hquad : ∑ i, ∑ j, v i * M i j * v j = v ⬝ᵥ (M *ᵥ v) := by
    simp only [dotProduct, mulVec, mul_sum, mul_assoc]
  obtain ⟨g1, f1, f2⟩ := shape_loop (R := R) (n := n) (f := fun i g => g.setIdx i 1) fun k g => ⟨_, rfl⟩
  obtain ⟨g2, f3, f4⟩ := shape_loop (R := R) (n := n) (f := fun i g => do
      let sum ← forRange 0 n (0 : Fl R) fun j acc => do
        let a ← riskAt p i j
        let b ← riskAt p j i
        let xj ← x.idx j
        .ok (acc + (a + b) * xj)
      g.setIdx i sum) (by
    intro i g
    obtain ⟨t, ht, -⟩ := forRange_spec (f := fun j (acc : Fl R) => do
        let a ← riskAt p i j
        let b ← riskAt p j i
        let xj ← x.idx j
        .ok (acc + (a + b) * xj)) (fun _ _ => True) (s := (0 : Fl R)) (Nat.zero_le n) trivial
      (by
        intro j acc _ hj _
        have a1 := hri i ⟨j, hj⟩
        have a2 := hri ⟨j, hj⟩ i
        have a3 := hxi ⟨j, hj⟩
        refine ⟨acc + (⟨M i ⟨j, hj⟩⟩ + ⟨M ⟨j, hj⟩ i⟩) * ⟨v ⟨j, hj⟩⟩, ?_, trivial⟩
        simp only [a1, a2, a3, Res.ok_bind])
    exact ⟨t, by rw [ht]; rfl⟩)
  obtain ⟨g3, f5, f6⟩ := shape_loop (R := R) (n := n) (f := fun i g => do
      let r ← p.expectedReturns.idx i
      g.setIdx i (-r)) (by
    intro i g
    exact ⟨_, by rw [fl_idx hp.1]; rfl⟩)
  simp only [Portfolio.assess, hlen, l1, Res.ok_bind, l3, l5]
  have gt_iff : ∀ a b : Fl R, Scalar.gt (a - b) 0 = true ↔ b.val < a.val := by
    intro a b
    have h1 : Scalar.gt (a - b) 0 = decide (0 < R.rnd (a.val - b.val)) := rfl
    rw [h1, decide_eq_true_eq, rnd_pos_iff R hu, sub_pos]
  by_cases c1 : Scalar.gt (sm - p.budget) 0 = true
  · rw [if_pos c1, f1]
    exact ⟨g1, _, false, γ, rfl, f2, fun _ => rfl, by simp⟩
  rw [if_neg c1]
  by_cases c2 : Scalar.gt (rk - p.maxRisk) 0 = true
  · rw [if_pos c2, f3]
    exact ⟨g2, _, false, γ, rfl, f4, fun _ => rfl, by simp⟩
  rw [if_neg c2]
  rw [gt_iff, not_lt] at c1 c2
  by_cases c3 : Scalar.lt (-rt) γ = true
  · rw [if_pos c3, f5]
    refine ⟨g3, _, true, -rt, rfl, f6, by simp, fun _ => ⟨of_decide_eq_true c3, ?_, ?_, ?_⟩⟩
    · have := (abs_le.1 l2.1).1
      simp only [zero_add, mul_one] at this
      linarith
    · have := (abs_le.1 l4.1).1
      rw [hquad] at this
      simp only [zero_add, mul_one] at this
      rw [show 2 + n * n = n * n + 2 by ring] at this
      unfold absQuad
      linarith
    · have : (-rt).val + p.expectedReturns.flVec n ⬝ᵥ v = -(rt.val - p.expectedReturns.flVec n ⬝ᵥ v) := by
        rw [show (-rt).val = -rt.val from rfl]; ring
      rw [this, abs_neg]
      exact l6
  · rw [if_neg c3]
    exact ⟨_, _, false, γ, rfl, ⟨rfl, rfl, by simp [Arr.new]⟩, fun _ => rfl, by simp⟩

/-- **C121** (runs in rounded arithmetic)  A run from any ellipsoid does not panic; it returns no point and the starting value, or a
portfolio that is within the budget and the risk limit and whose negated return is the final value, below the starting value - all up to
the rounding in evaluating them. -/
theorem C121_run {p : Portfolio (Fl R)} (hn : 0 < n) (hp : p.Shaped n) (hu : u ≤ 1 / 8) {e : Ell (Fl R)} (he : e.Shaped n) (γ : Fl R)
    (opts : Options (Fl R)) :
    ∃ xb k γ' p' e', cuttingPlaneOptim Portfolio.oracle Ell.space p e γ opts = .ok ((xb, k), γ', p', e') ∧
      ((xb = none ∧ γ' = γ) ∨ ∃ x, xb = some x ∧ x.IsVecShape n ∧ γ'.val ≤ γ.val ∧
        ∑ i, x.flVec n i ≤ p.budget.val + ((1 + u) ^ n - 1) * ∑ i, |x.flVec n i| ∧
        x.flVec n ⬝ᵥ (p.riskMatrix.flMat n *ᵥ x.flVec n) ≤
          p.maxRisk.val + ((1 + u) ^ (n * n + 2) - 1) * absQuad (p.riskMatrix.flMat n) (x.flVec n) ∧
        |γ'.val + p.expectedReturns.flVec n ⬝ᵥ x.flVec n| ≤
          ((1 + u) ^ (n + 1) - 1) * ∑ i, |p.expectedReturns.flVec n i| * |x.flVec n i|) := by
  obtain ⟨r, k, γ', p', e', h1, h2, h3, h4⟩ := optim_accepted (orc := Portfolio.oracle)
    (C86_ell_steady (α := Fl R) (T := SingleCut (Fl R)) (n := n) hn).1 (I := fun q g => q = p ∧ g.val ≤ γ.val)
    (by
      rintro q x g ⟨rfl, hg⟩ hx
      obtain ⟨gr, b, s, γ', a1, a2, a3, a4⟩ := C121_answers hp hu hx g
      refine ⟨_, _, _, _, a1, ⟨rfl, ?_⟩, a3, a2⟩
      cases s with
      | false => rw [a3 rfl]; exact hg
      | true => exact (a4 rfl).1.le.trans hg)
    opts ⟨rfl, le_rfl⟩ he
  refine ⟨r, k, γ', p', e', h1, ?_⟩
  cases r with
  | none => exact .inl ⟨rfl, h3 rfl⟩
  | some x =>
    obtain ⟨hx, q, g1, c, q2, ⟨rfl, -⟩, hq⟩ := h4 x rfl
    obtain ⟨gr, b, s, γ2, a1, a2, a3, a4⟩ := C121_answers hp hu hx g1
    have hq' : Portfolio.assess q x g1 = .ok ((c, true), γ', q2) := hq
    rw [a1] at hq'
    simp only [Res.ok.injEq, Prod.mk.injEq] at hq'
    obtain ⟨⟨-, rfl⟩, rfl, -⟩ := hq'
    obtain ⟨-, b2, b3, b4⟩ := a4 rfl
    exact .inr ⟨x, rfl, hx, h2.2, b2, b3, b4⟩

/-- C121: two assets in `f64` rounding, from the disc of C71: the hypotheses are met -/
example (opts : Options (Fl bin53)) (γ : Fl bin53) : ∃ xb k γ' p' e',
    cuttingPlaneOptim Portfolio.oracle Ell.space (⟨Arr.ofList [1, ⟨2⟩], ⟨[1, 0, 0, 1], 2, 2⟩, 1, ⟨3⟩⟩ : Portfolio (Fl bin53)) ExFl.disc γ opts =
      .ok ((xb, k), γ', p', e') ∧ (xb = none → γ' = γ) := by
  obtain ⟨xb, k, γ', p', e', h1, h2⟩ := C121_run (p := ⟨Arr.ofList [1, ⟨2⟩], ⟨[1, 0, 0, 1], 2, 2⟩, 1, ⟨3⟩⟩) (n := 2) (by norm_num)
    ⟨⟨rfl, rfl, rfl⟩, ⟨rfl, rfl, rfl⟩⟩ (by norm_num) ExFl.disc_shaped γ opts
  refine ⟨xb, k, γ', p', e', h1, fun h => ?_⟩
  rcases h2 with h2 | ⟨x, hx, -⟩
  · exact h2.2
  · rw [h] at hx; simp at hx

end Ellalgo
