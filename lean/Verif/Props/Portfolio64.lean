import Verif.Spec.Portfolio64
import Verif.Props.PortfolioRounded
import Verif.Props.Lowpass64Runs

/-! # C131: the portfolio example in any arithmetic and in IEEE `f64` -/

namespace Ellalgo
open Matrix
variable {n : Nat}

section generic
variable {α : Type} [Scalar α]

theorem forRange_sumTo (m : Nat) (f : Nat → α) (g : Nat → α → Res α) (a k : Nat) (h : ∀ i acc, i < m → g i acc = .ok (acc + f (a + i))) (hk : k = a + m) :
    forRange 0 m (sumTo a f) g = .ok (sumTo k f) := by
  obtain ⟨s, h1, h2⟩ := forRange_spec (fun i s => s = sumTo (a + i) f) (f := g) (s := sumTo a f) (lo := 0) (hi := m) (Nat.zero_le _) rfl
    (by
      rintro i s - hi rfl
      exact ⟨_, h i _ hi, rfl⟩)
  rw [h1, h2, hk]

theorem forRange_fill (n : Nat) (v : Nat → α) (g : Nat → Arr α → Res (Arr α)) (h : ∀ i a, i < n → g i a = a.setIdx i (v i)) :
    ∃ a, forRange 0 n (Arr.new n : Arr α) g = .ok a ∧ IsVec a n v := by
  obtain ⟨a, h1, h2⟩ := forRange_spec (σ := Arr α) (fun k z => IsVec z n (fun j => if j < k then v j else 0))
    (f := g) (s := Arr.new n) (lo := 0) (hi := n) (Nat.zero_le _) ((isVec_new n).congr fun i _ => by simp)
    (by
      intro j z hj1 hj2 hz
      obtain ⟨z', p, q⟩ := hz.setIdx hj2 (v j)
      refine ⟨z', by rw [h j z hj2]; exact p, q.congr fun i hi => ?_⟩
      by_cases hij : i = j
      · subst hij
        simp [upd1]
      · have : (i < j + 1) ↔ i < j := by omega
        simp [upd1, hij, this])
  exact ⟨a, h1, h2.congr fun i hi => by simp [hi]⟩

/-- **C131** (one answer, any arithmetic)  Whatever the arithmetic, NaN and infinities included, `PortfolioOracle` never panics and leaves its data
unchanged; it reports an improvement exactly if the computed amount and the computed risk violate no limit and the computed negated return compares
below `γ`, which is then the new value; otherwise `γ` is unchanged.  The cut is that of the violated limit, the budget first, or of the return. -/
theorem C131_portfolio_query {p : Portfolio α} (hp : p.Sized n) {x : Arr α} (hx : x.IsVecShape n) (γ : α) :
    ∃ g b s γ', Portfolio.assess p x γ = .ok (((g, ⟨b⟩), s), γ', p) ∧ g.IsVecShape n ∧
      (s = true ↔ p.Keeps n x ∧ Scalar.lt (-p.returnOf n x) γ = true) ∧ (s = true → γ' = -p.returnOf n x) ∧ (s = false → γ' = γ) ∧
      (Scalar.gt (Portfolio.spentOf n x - p.budget) 0 = true → b = Portfolio.spentOf n x - p.budget ∧ ∀ i < n, g.vec i = 1) ∧
      (Scalar.gt (Portfolio.spentOf n x - p.budget) 0 = false → Scalar.gt (p.riskOf n x - p.maxRisk) 0 = true →
        b = p.riskOf n x - p.maxRisk ∧ ∀ i < n, g.vec i = sumTo n fun j => (p.riskMatrix.mat i j + p.riskMatrix.mat j i) * x.vec j) ∧
      (p.Keeps n x → b = 0 ∧ (s = true → ∀ i < n, g.vec i = -p.expectedReturns.vec i)) := by
  have hxi : ∀ i < n, x.idx i = .ok (x.vec i) := fun i hi => hx.isVec.idx hi
  have hri : ∀ i < n, ∀ j < n, riskAt p i j = .ok (p.riskMatrix.mat i j) := fun i hi j hj => by
    rw [riskAt, hp.2.isMat.cols, hp.2.isMat.idx hi hj]
  have hlen : x.len = n := hx.2.2
  have l1 : (forRange 0 n (0 : α) fun i acc => do
      let x ← x.idx i
      .ok (acc + x)) = .ok (Portfolio.spentOf n x) :=
    forRange_sumTo n x.vec _ 0 n (by intro i acc hi; rw [hxi i hi, zero_add]; rfl) (by omega)
  have l2 : (forRange 0 n (0 : α) fun i acc =>
      forRange 0 n acc fun j acc => do
        let xi ← x.idx i
        let m ← riskAt p i j
        let xj ← x.idx j
        .ok (acc + xi * m * xj)) = .ok (p.riskOf n x) := by
    obtain ⟨F, hF⟩ : ∃ F, F = fun k => x.vec (k / n) * p.riskMatrix.mat (k / n) (k % n) * x.vec (k % n) := ⟨_, rfl⟩
    obtain ⟨s, h1, h2⟩ := forRange_spec (fun i s => s = sumTo (i * n) F)
      (f := fun i acc => forRange 0 n acc fun j acc => do
        let xi ← x.idx i
        let m ← riskAt p i j
        let xj ← x.idx j
        .ok (acc + xi * m * xj)) (s := (0 : α)) (lo := 0) (hi := n) (Nat.zero_le _) (by rw [Nat.zero_mul]; rfl)
      (by
        rintro i s - hi rfl
        refine ⟨_, forRange_sumTo n F _ (i * n) ((i + 1) * n) ?_ (by ring), rfl⟩
        intro j acc hj
        have hn : 0 < n := by omega
        have e1 : (i * n + j) / n = i := by rw [mul_comm, Nat.mul_add_div hn, Nat.div_eq_of_lt hj, add_zero]
        have e2 : (i * n + j) % n = j := by rw [mul_comm, Nat.mul_add_mod, Nat.mod_eq_of_lt hj]
        simp only [hxi i hi, hxi j hj, hri i hi j hj, Res.ok_bind, hF, e1, e2])
    rw [h1, h2, hF]
    rfl
  have l3 : p.expectedReturns.dot x = .ok (p.returnOf n x) := dot_spec hp.1.isVec hx.isVec
  obtain ⟨g1, m1, v1⟩ := forRange_fill n (fun _ => (1 : α)) (fun i g => g.setIdx i 1) (fun _ _ _ => rfl)
  obtain ⟨g2, m2, v2⟩ := forRange_fill n (fun i => sumTo n fun j => (p.riskMatrix.mat i j + p.riskMatrix.mat j i) * x.vec j)
    (fun i g => do
        let sum ← forRange 0 n (0 : α) fun j acc => do
          let a ← riskAt p i j
          let b ← riskAt p j i
          let xj ← x.idx j
          .ok (acc + (a + b) * xj)
        g.setIdx i sum) (by
      intro i a hi
      have := forRange_sumTo n (fun j => (p.riskMatrix.mat i j + p.riskMatrix.mat j i) * x.vec j) (fun j acc => do
          let a ← riskAt p i j
          let b ← riskAt p j i
          let xj ← x.idx j
          .ok (acc + (a + b) * xj)) 0 n (by
            intro j acc hj
            simp only [hxi j hj, hri i hi j hj, hri j hj i hi, Res.ok_bind, zero_add]) (by omega)
      rw [show sumTo 0 _ = (0 : α) from rfl] at this
      simp only [this, Res.ok_bind])
  obtain ⟨g3, m3, v3⟩ := forRange_fill n (fun i => -p.expectedReturns.vec i) (fun i g => do
          let r ← p.expectedReturns.idx i
          g.setIdx i (-r)) (by
      intro i a hi
      rw [hp.1.isVec.idx hi]; rfl)
  rcases Bool.eq_false_or_eq_true (Scalar.gt (Portfolio.spentOf n x - p.budget) 0) with c1 | c1
  · refine ⟨g1, _, false, γ, ?_, v1.shape, ?_, by simp, fun _ => rfl, fun _ => ⟨rfl, fun i hi => v1.vec hi⟩, ?_, ?_⟩
    · simp only [Portfolio.assess, hlen, l1, Res.ok_bind, c1, if_true, m1]
    · simp [Portfolio.Keeps, c1]
    · intro h; rw [c1] at h; cases h
    · intro h; rw [h.1] at c1; cases c1
  · rcases Bool.eq_false_or_eq_true (Scalar.gt (p.riskOf n x - p.maxRisk) 0) with c2 | c2
    · refine ⟨g2, _, false, γ, ?_, v2.shape, ?_, by simp, fun _ => rfl, ?_, fun _ _ => ⟨rfl, fun i hi => v2.vec hi⟩, ?_⟩
      · simp only [Portfolio.assess, hlen, l1, Res.ok_bind, c1, l2, c2, if_true, m2]
        rfl
      · simp [Portfolio.Keeps, c2]
      · intro h; rw [c1] at h; cases h
      · intro h; rw [h.2] at c2; cases c2
    · rcases Bool.eq_false_or_eq_true (Scalar.lt (-p.returnOf n x) γ) with c3 | c3
      · refine ⟨g3, _, true, _, ?_, v3.shape, ⟨fun _ => ⟨⟨c1, c2⟩, c3⟩, fun _ => rfl⟩, fun _ => rfl, by simp, ?_, ?_,
          fun _ => ⟨rfl, fun _ i hi => v3.vec hi⟩⟩
        · simp only [Portfolio.assess, hlen, l1, Res.ok_bind, c1, l2, c2, l3, c3, if_true, m3]
          rfl
        · intro h; rw [c1] at h; cases h
        · intro _ h; rw [c2] at h; cases h
      · refine ⟨_, _, false, γ, ?_, (isVec_new n).shape, ?_, by simp, fun _ => rfl, ?_, ?_, fun _ => ⟨rfl, by simp⟩⟩
        · simp only [Portfolio.assess, hlen, l1, Res.ok_bind, c1, l2, c2, l3, c3]
          rfl
        · simp [c3]
        · intro h; rw [c1] at h; cases h
        · intro _ h; rw [c2] at h; cases h

end generic

end Ellalgo
