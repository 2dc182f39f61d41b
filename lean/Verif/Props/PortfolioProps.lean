import Verif.Spec.Portfolio
import Verif.Props.EllReal
import Verif.Props.EllGeneric
import Verif.Lib.VecOps
import Verif.Lib.LmiLemmas

/-! C75: the portfolio example (examples/portfolio_optimization.rs). -/

namespace Ellalgo
open Matrix Finset

section
variable {n : Nat} {p : Portfolio ℝ} {r : Fin n → ℝ} {R : Matrix (Fin n) (Fin n) ℝ} {x : Arr ℝ}

theorem riskAt_spec (hp : p.Data n r R) (i j : Fin n) : riskAt p i j = .ok (R i j) := by
  have h : RM p.riskMatrix R := ⟨hp.risk_shape, hp.risk⟩
  rw [riskAt, h.isMat.cols, h.isMat.idx i.2 j.2, ext00_fin]

theorem sum_loop {v : Fin n → ℝ} {f : Nat → ℝ → Res ℝ} (s : ℝ) (h : ∀ (i : Fin n) acc, f i acc = .ok (acc + v i)) :
    forRange 0 n s f = .ok (s + ∑ i, v i) := by
  obtain ⟨t, ht, hp⟩ := forRange_spec (f := f) (fun i (acc : ℝ) => acc = s + ∑ k ∈ range i, ext0 v k) (s := s)
    (Nat.zero_le n) (by simp)
    (by
      intro i acc _ hi hacc
      refine ⟨_, h ⟨i, hi⟩ acc, ?_⟩
      rw [hacc, sum_range_succ, ← add_assoc, ← ext0_fin v])
  rw [ht, hp, sum_range]
  simp

theorem fill_loop {q : Fin n → ℝ} {f : Nat → Arr ℝ → Res (Arr ℝ)} (h : ∀ (k : Fin n) g, f k g = g.setIdx k (q k)) :
    ∃ g, forRange 0 n (Arr.new n) f = .ok g ∧ RV g q := by
  obtain ⟨g, h1, h2, h3⟩ := grad_loop (q := ext0 q) (f := f) (d := n) (fun k g hk => by rw [h ⟨k, hk⟩ g, ← ext0_fin q])
  exact ⟨g, h1, h2, funext fun k => by rw [h3 k, ext0_fin]⟩

/-- **C75** One answer of `PortfolioOracle`: a point is reported as an improvement exactly when it is feasible and has a better
value (minus the expected return) than `γ`, and only then `γ` changes, to its value.  For a risk matrix with `vᵀRv ≥ 0` every cut
keeps all feasible points.  A feasible point that is no improvement is answered with a zero gradient. -/
theorem C75_answers (hp : p.Data n r R) (hx : x.IsVecShape n) (γ : ℝ) :
    ∃ g b s γ', Portfolio.assess p x γ = .ok (((g, ⟨b⟩), s), γ', p) ∧ g.IsVecShape n ∧ 0 ≤ b ∧
      (s = true ↔ p.Feasible R (x.toVec n) ∧ -(r ⬝ᵥ x.toVec n) < γ) ∧
      γ' = (if s then -(r ⬝ᵥ x.toVec n) else γ) ∧
      (s = true → g.toVec n = -r ∧ b = 0) ∧
      (s = false → p.Feasible R (x.toVec n) → g.toVec n = 0 ∧ b = 0) ∧
      (s = false → (∀ v : Fin n → ℝ, 0 ≤ v ⬝ᵥ (R *ᵥ v)) → ∀ y, p.Feasible R y → g.toVec n ⬝ᵥ (y - x.toVec n) + b ≤ 0) ∧
      (s = false → ∑ i, x.toVec n i ≤ p.budget → p.maxRisk < x.toVec n ⬝ᵥ (R *ᵥ x.toVec n) →
        g.toVec n = (R + Rᵀ) *ᵥ x.toVec n ∧ b = x.toVec n ⬝ᵥ (R *ᵥ x.toVec n) - p.maxRisk) ∧
      (s = false → p.budget < ∑ i, x.toVec n i → g.toVec n = (fun _ => 1) ∧ b = ∑ i, x.toVec n i - p.budget) := by
  have hxv : RV x (x.toVec n) := ⟨hx, rfl⟩
  generalize x.toVec n = v at *
  have hret : RV p.expectedReturns r := ⟨hp.returns_shape, hp.returns⟩
  have hsum : forRange 0 n (0 : ℝ) (fun i acc => do let x ← x.idx i; .ok (acc + x)) = .ok (∑ i, v i) := by
    rw [sum_loop (v := v) 0 fun i acc => by rw [hxv.idx]; rfl, zero_add]
  have hrisk : forRange 0 n (0 : ℝ) (fun i acc => forRange 0 n acc fun j acc => do
      let xi ← x.idx i
      let m ← riskAt p i j
      let xj ← x.idx j
      .ok (acc + xi * m * xj)) = .ok (v ⬝ᵥ (R *ᵥ v)) := by
    rw [sum_loop (v := fun i => v i * (R *ᵥ v) i) 0, zero_add]
    · rfl
    · intro i acc
      rw [sum_loop (v := fun j => v i * R i j * v j)]
      · congr 2
        simp only [mulVec, dotProduct, mul_sum, mul_assoc]
      · intro j acc
        simp only [hxv.idx, riskAt_spec hp, Res.ok_bind]
  obtain ⟨g1, f1, f2⟩ := fill_loop (n := n) (q := fun _ => 1) (f := fun i g => g.setIdx i 1) fun _ _ => rfl
  obtain ⟨g2, f3, f4⟩ := fill_loop (n := n) (q := (R + Rᵀ) *ᵥ v) (f := fun i g => do
      let sum ← forRange 0 n (0 : ℝ) fun j acc => do
        let a ← riskAt p i j
        let b ← riskAt p j i
        let xj ← x.idx j
        .ok (acc + (a + b) * xj)
      g.setIdx i sum) (by
    intro i g
    rw [sum_loop (v := fun j => (R i j + R j i) * v j), zero_add]
    · rfl
    · intro j acc
      simp only [hxv.idx, riskAt_spec hp, Res.ok_bind])
  obtain ⟨g3, f5, f6⟩ := fill_loop (n := n) (q := -r) (f := fun i g => do
      let r ← p.expectedReturns.idx i
      g.setIdx i (-r)) (by
    intro i g
    simp only [hret.idx, Res.ok_bind]; rfl)
  have hdot : p.expectedReturns.dot x = .ok (r ⬝ᵥ v) := hret.dot hxv
  simp only [Portfolio.assess, hxv.len, hsum, Res.ok_bind, Scalar.real_gt, decide_eq_true_eq, hrisk, hdot, Scalar.real_lt]
  by_cases c1 : 0 < ∑ i, v i - p.budget
  · rw [if_pos c1, f1]
    have hn : ¬ p.Feasible R v := fun h => by linarith [h.1]
    refine ⟨g1, _, false, γ, rfl, f2.1, c1.le, by simp [hn], rfl, by simp, fun _ h => absurd h hn, ?_, ?_, fun _ _ => ⟨f2.2, rfl⟩⟩
    · intro _ _ y hy
      rw [f2.2, dotProduct_sub]
      simp only [dotProduct, one_mul]
      linarith [hy.1]
    · intro _ h; linarith
  · rw [if_neg c1]
    by_cases c2 : 0 < v ⬝ᵥ (R *ᵥ v) - p.maxRisk
    · rw [if_pos c2, f3]
      have hn : ¬ p.Feasible R v := fun h => by linarith [h.2]
      refine ⟨g2, _, false, γ, rfl, f4.1, c2.le, by simp [hn], rfl, by simp, fun _ h => absurd h hn, ?_, fun _ _ _ => ⟨f4.2, rfl⟩,
        fun _ h => by linarith⟩
      intro _ hR y hy
      have h1 := hR (y - v)
      rw [mulVec_sub, dotProduct_sub, sub_dotProduct, sub_dotProduct] at h1
      rw [f4.2, add_mulVec, add_dotProduct, dotProduct_sub, dotProduct_sub]
      have e1 : (Rᵀ *ᵥ v) ⬝ᵥ y = v ⬝ᵥ (R *ᵥ y) := by rw [mulVec_transpose, dotProduct_mulVec]
      have e2 : (Rᵀ *ᵥ v) ⬝ᵥ v = v ⬝ᵥ (R *ᵥ v) := by rw [mulVec_transpose, dotProduct_mulVec]
      have e3 : (R *ᵥ v) ⬝ᵥ y = y ⬝ᵥ (R *ᵥ v) := dotProduct_comm _ _
      have e4 : (R *ᵥ v) ⬝ᵥ v = v ⬝ᵥ (R *ᵥ v) := dotProduct_comm _ _
      rw [e1, e2, e3, e4]
      linarith [hy.2]
    · rw [if_neg c2]
      have hf : p.Feasible R v := ⟨by linarith, by linarith⟩
      by_cases c3 : -(r ⬝ᵥ v) < γ
      · rw [if_pos c3, f5]
        exact ⟨g3, 0, true, _, rfl, f6.1, le_rfl, by simp [hf, c3], rfl, fun _ => ⟨f6.2, rfl⟩, by simp, by simp, by simp, by simp⟩
      · rw [if_neg c3]
        refine ⟨Arr.new n, 0, false, γ, rfl, rv_new.1, le_rfl, by simp [c3], rfl, by simp, fun _ _ => ⟨rv_new.2, rfl⟩, ?_, ?_,
          fun _ h => by linarith⟩
        · intro _ _ y _
          rw [rv_new.2]; simp
        · intro _ _ h; linarith [hf.2]

theorem portfolio_loop (hn : 0 < n) (hp : p.Data n r R) {γ0 tol : ℝ} (m : Nat) :
    ∀ (n0 : Nat) (xb : Option (Arr ℝ)) (e : Ell ℝ) (γ : ℝ), e.Shaped n → γ ≤ γ0 →
      ((xb = none ∧ γ = γ0) ∨ ∃ x, xb = some x ∧ x.IsVecShape n ∧ p.Feasible R (x.toVec n) ∧ γ = -(r ⬝ᵥ x.toVec n)) →
      ∃ xb' k γ' e', optimLoop Portfolio.oracle Ell.space tol m n0 xb p e γ = .ok ((xb', k), γ', p, e') ∧ γ' ≤ γ0 ∧
        ((xb' = none ∧ γ' = γ0) ∨ ∃ x, xb' = some x ∧ x.IsVecShape n ∧ p.Feasible R (x.toVec n) ∧
          γ' = -(r ⬝ᵥ x.toVec n)) := by
  induction m with
  | zero => intro n0 xb e γ _ hle hA; exact ⟨_, _, _, _, rfl, hle, hA⟩
  | succ m ih =>
    intro n0 xb e γ hsh hle hA
    obtain ⟨g, b, s, γ1, q1, q2, -, q4, q5, -⟩ := C75_answers hp hsh.2 γ
    have q1' : Portfolio.oracle.assess p (Ell.space (T := SingleCut ℝ).xc e) γ = .ok (((g, ⟨b⟩), s), γ1, p) := q1
    obtain ⟨st, e1, hu, hsh1⟩ : ∃ st e1, (if s then Ell.space.updateCentral e (g, (⟨b⟩ : SingleCut ℝ))
        else Ell.space.updateBias e (g, (⟨b⟩ : SingleCut ℝ))) = .ok (st, e1) ∧ e1.Shaped n := by
      cases s
      · obtain ⟨st, e1, h1, h2, _⟩ := Ell.update_shape hn .bias e (g, (⟨b⟩ : SingleCut ℝ)) hsh q2
        exact ⟨st, e1, h1, h2⟩
      · obtain ⟨st, e1, h1, h2, _⟩ := Ell.update_shape hn .central e (g, (⟨b⟩ : SingleCut ℝ)) hsh q2
        exact ⟨st, e1, h1, h2⟩
    have hle' : γ1 ≤ γ0 := by
      cases hs : s with
      | true => rw [q5, hs]; simp only [if_true]; exact ((q4.1 hs).2.le).trans hle
      | false => rw [q5, hs]; simpa using hle
    have hA' : ((if s = true then some (Ell.space (T := SingleCut ℝ).xc e) else xb) = none ∧ γ1 = γ0) ∨
        ∃ x, (if s = true then some (Ell.space (T := SingleCut ℝ).xc e) else xb) = some x ∧ x.IsVecShape n ∧
          p.Feasible R (x.toVec n) ∧ γ1 = -(r ⬝ᵥ x.toVec n) := by
      cases hs : s with
      | true => exact Or.inr ⟨e.xc, rfl, hsh.2, (q4.1 hs).1, by rw [q5, hs]; rfl⟩
      | false =>
        have : γ1 = γ := by rw [q5, hs]; rfl
        simp only [Bool.false_eq_true, if_false]
        rw [this]; exact hA
    unfold optimLoop
    simp only [q1', Res.ok_bind, hu]
    split
    · exact ⟨_, _, _, _, rfl, hle', hA'⟩
    · exact ih _ _ _ _ hsh1 hle' hA'

theorem portfolio_mono (hn : 0 < n) (hp : p.Data n r R) {tol : ℝ} (m : Nat) :
    ∀ (n0 : Nat) (xb : Option (Arr ℝ)) (e : Ell ℝ) (γ : ℝ), e.Shaped n →
      ∃ xb' k γ' e', optimLoop Portfolio.oracle Ell.space tol m n0 xb p e γ = .ok ((xb', k), γ', p, e') ∧ γ' ≤ γ := by
  induction m with
  | zero => intro n0 xb e γ _; exact ⟨_, _, _, _, rfl, le_rfl⟩
  | succ m ih =>
    intro n0 xb e γ hsh
    obtain ⟨g, b, s, γ1, q1, q2, -, q4, q5, -⟩ := C75_answers hp hsh.2 γ
    have q1' : Portfolio.oracle.assess p (Ell.space (T := SingleCut ℝ).xc e) γ = .ok (((g, ⟨b⟩), s), γ1, p) := q1
    obtain ⟨st, e1, hu, hsh1⟩ : ∃ st e1, (if s then Ell.space.updateCentral e (g, (⟨b⟩ : SingleCut ℝ))
        else Ell.space.updateBias e (g, (⟨b⟩ : SingleCut ℝ))) = .ok (st, e1) ∧ e1.Shaped n := by
      cases s
      · obtain ⟨st, e1, h1, h2, _⟩ := Ell.update_shape hn .bias e (g, (⟨b⟩ : SingleCut ℝ)) hsh q2
        exact ⟨st, e1, h1, h2⟩
      · obtain ⟨st, e1, h1, h2, _⟩ := Ell.update_shape hn .central e (g, (⟨b⟩ : SingleCut ℝ)) hsh q2
        exact ⟨st, e1, h1, h2⟩
    have hle' : γ1 ≤ γ := by
      cases hs : s with
      | true => rw [q5, hs]; simp only [if_true]; exact (q4.1 hs).2.le
      | false => rw [q5, hs]; simp
    unfold optimLoop
    simp only [q1', Res.ok_bind, hu]
    split
    · exact ⟨_, _, _, _, rfl, hle'⟩
    · obtain ⟨a, b, c, d, h1, h2⟩ := ih (n0 + 1) (if s = true then some (Ell.space (T := SingleCut ℝ).xc e) else xb) e1 γ1 hsh1
      exact ⟨a, b, c, d, h1, h2.trans hle'⟩

/-- **C75** Every run of the portfolio example ends without a panic.  It returns either nothing, with `γ` unchanged, or a
portfolio within budget and risk limit; then `γ` is minus its expected return and no larger than before. -/
theorem C75_run_safe (hn : 0 < n) (hp : p.Data n r R) {e : Ell ℝ} (he : e.Shaped n) (γ : ℝ) (opts : Options ℝ) :
    ∃ xb k γ' e', cuttingPlaneOptim Portfolio.oracle Ell.space p e γ opts = .ok ((xb, k), γ', p, e') ∧ γ' ≤ γ ∧
      ((xb = none ∧ γ' = γ) ∨ ∃ x, xb = some x ∧ x.IsVecShape n ∧ p.Feasible R (x.toVec n) ∧ γ' = -(r ⬝ᵥ x.toVec n)) :=
  portfolio_loop hn hp opts.maxIters 0 none e γ he le_rfl (Or.inl ⟨rfl, rfl⟩)

/-- a query at a feasible point that is no improvement ends the run -/
theorem portfolio_stop (hp : p.Data n r R) (hn : 0 < n) {e : Ell ℝ} (he : e.Shaped n) (hsym : (e.M n).IsSymm)
    (hfeas : p.Feasible R (e.c n)) {γ : ℝ} (hγ : γ ≤ -(r ⬝ᵥ e.c n)) {tol : ℝ} (htol : 0 < tol) (m n0 : Nat) (xb : Option (Arr ℝ)) :
    ∃ e', optimLoop Portfolio.oracle Ell.space tol (m + 1) n0 xb p e γ = .ok ((xb, n0), γ, p, e') ∧ e'.tsq = 0 := by
  obtain ⟨g, b, s, γ1, q1, q2, -, q4, q5, -, q7, -⟩ := C75_answers hp he.2 γ
  have hs : s = false := by
    cases s
    · rfl
    · exact absurd (q4.1 rfl).2 (not_lt.2 hγ)
  subst hs
  obtain ⟨g0, rfl⟩ := q7 rfl hfeas
  have hγ1 : γ1 = γ := q5
  subst hγ1
  obtain ⟨st, e1, u1, -⟩ := Ell.update_shape hn .bias e (g, (⟨0⟩ : SingleCut ℝ)) he q2
  have htsq : e1.tsq = 0 := by
    obtain ⟨ρ, σ, δ, -, hc⟩ := Ell.update_real he hsym hn .bias _ q2 u1
    have h0 : e.tsqOf n (g.toVec n) = 0 := by rw [g0]; simp [Ell.tsqOf]
    rcases hc with ⟨-, hc⟩ | ⟨-, hc⟩
    · rw [hc]; exact h0
    · rw [hc.tsq]; exact h0
  refine ⟨e1, ?_, htsq⟩
  have q1' : Portfolio.oracle.assess p (Ell.space (T := SingleCut ℝ).xc e) γ1 = .ok (((g, ⟨0⟩), false), γ1, p) := q1
  have u1' : Ell.space.updateBias e (g, (⟨0⟩ : SingleCut ℝ)) = .ok (st, e1) := u1
  unfold optimLoop
  simp only [q1', Res.ok_bind, Bool.false_eq_true, if_false, u1']
  rw [if_pos]
  have : Scalar.lt (Ell.space (T := SingleCut ℝ).tsq e1) tol = true := by
    show Scalar.lt e1.tsq tol = true
    rw [Scalar.real_lt, htsq]; simpa using htol
  rw [this]; simp

/-- **C75** The run stops at once whenever its current point is feasible but no improvement, however far from optimal it is
(for every ellipsoid, positive tolerance and iteration limit).  The ellipsoid then reports `tsq() == 0`. -/
theorem C75_stops_at_feasible_points (hp : p.Data n r R) {e : Ell ℝ} (he : e.Valid n)
    (hfeas : p.Feasible R (e.c n)) {γ : ℝ} (hγ : γ ≤ -(r ⬝ᵥ e.c n)) {opts : Options ℝ} (htol : 0 < opts.tolerance)
    (hmax : 0 < opts.maxIters) :
    ∃ e', cuttingPlaneOptim Portfolio.oracle Ell.space p e γ opts = .ok ((none, 0), γ, p, e') ∧ e'.tsq = 0 := by
  obtain ⟨m, hm⟩ := Nat.exists_eq_succ_of_ne_zero hmax.ne'
  unfold cuttingPlaneOptim
  rw [hm]
  exact portfolio_stop hp he.pos he.shaped he.symm hfeas hγ htol m 0 none

end

/-- the parts of `Ell::new_with_scalar` -/
theorem scalar_parts {n : Nat} (val : ℝ) (xc : Arr ℝ) (hn : 2 ≤ n) (hx : xc.IsVecShape n) (hpos : 0 < val) :
    ∃ e, Ell.newWithScalar val xc = .ok e ∧ e.Valid n ∧ e.M n = 1 ∧ e.kappa = val ∧ e.xc = xc ∧ e.noDeferTrick = false ∧
      e.region n = {x | normSq (x - xc.toVec n) ≤ val} := by
  obtain ⟨e, h1, h2, h3⟩ := C13_valid_with_scalar val xc hn hx hpos
  refine ⟨e, h1, h2, ?_⟩
  obtain ⟨y, a1, a2⟩ := eye_spec (α := ℝ) n
  have hl : xc.len = n := hx.2.2
  simp only [Ell.newWithScalar, hl, a1, Res.ok_bind, Res.ok.injEq] at h1
  subst h1
  refine ⟨?_, rfl, rfl, rfl, h3⟩
  show y.toMat n n = 1
  rw [a2.toMat]
  ext i j
  simp only [of_apply, one_apply, Fin.ext_iff]

section
variable {r : Fin 4 → ℝ}

theorem dot_pos {n : Nat} {v : Fin n → ℝ} (hv : v ≠ 0) : 0 < v ⬝ᵥ v := by
  obtain ⟨i, hi⟩ := Function.ne_iff.1 hv
  exact sum_pos' (fun j _ => mul_self_nonneg _) ⟨i, mem_univ i, mul_self_pos.2 hi⟩

theorem first_cut {e : Ell ℝ} (he : e.Valid 4) (hM : e.M 4 = 1) (hκ : e.kappa = 1) (hc : e.c 4 = 0)
    (hd : e.noDeferTrick = false) (hr : r ≠ 0) {g : Arr ℝ} (hg : g.IsVecShape 4) (hg' : g.toVec 4 = -r) :
    ∃ e', Ell.space.updateCentral e (g, (⟨0⟩ : SingleCut ℝ)) = .ok (.success, e') ∧ e'.Valid 4 ∧
      e'.c 4 = (1 / (5 * √(r ⬝ᵥ r))) • r ∧ e'.M 4 = cutM 1 r (2 / 5) ∧ e'.kappa = 16 / 15 := by
  have hq : 0 < r ⬝ᵥ r := dot_pos hr
  have hs : 0 < √(r ⬝ᵥ r) := Real.sqrt_pos.2 hq
  have hg0 : g.toVec 4 ≠ 0 := by rw [hg']; exact neg_ne_zero.2 hr
  have hω : g.toVec 4 ⬝ᵥ (e.M 4 *ᵥ g.toVec 4) = r ⬝ᵥ r := by
    rw [hM, one_mulVec, hg', neg_dotProduct_neg]
  have htsq : e.tsqOf 4 (g.toVec 4) = r ⬝ᵥ r := by rw [Ell.tsqOf, hω, hκ, one_mul]
  obtain ⟨e', h⟩ := Ell.update_exists he.shaped he.symm he.pos .central ((g, ⟨0⟩) : Arr ℝ × SingleCut ℝ) hg
  have hst : (CutType.call .central (⟨0⟩ : SingleCut ℝ) e.helper (e.tsqOf 4 (g.toVec 4))).1 = .success := rfl
  rw [hst] at h
  have hv := (Ell.step_good he .central ((g, ⟨0⟩) : Arr ℝ × SingleCut ℝ) hg hg0 ((Cut.adm_single ..).mpr trivial) h).1
  obtain ⟨ρ, σ, δ, hc2, hc3⟩ := Ell.update_real he.shaped he.symm he.pos .central _ hg h
  rcases hc3 with ⟨hc3, -⟩ | ⟨-, ha⟩
  · exact absurd rfl hc3
  have hc4 : (EllCalcCore.new ((4 : Nat) : ℝ)).calcCentralCut (e.tsqOf 4 (g.toVec 4)) = (ρ, σ, δ) := by
    rw [he.helper] at hc2
    exact (Prod.mk.inj hc2).2
  rw [htsq, calcCentralCut_real] at hc4
  simp only [Prod.mk.injEq] at hc4
  obtain ⟨rfl, rfl, rfl⟩ := hc4
  refine ⟨e', h, hv, ?_, ?_, ?_⟩
  · rw [ha.c]
    show e.c 4 - (√(r ⬝ᵥ r) / ((4 : Nat) + 1) / (g.toVec 4 ⬝ᵥ (e.M 4 *ᵥ g.toVec 4))) • (e.M 4 *ᵥ g.toVec 4) = _
    rw [hω, hc, hM, one_mulVec, hg', zero_sub, smul_neg, neg_neg]
    congr 1
    rw [div_div, div_eq_div_iff (by positivity) (by positivity)]
    push_cast
    have := Real.mul_self_sqrt hq.le
    linear_combination 5 * this
  · rw [ha.M, hd]
    show cutM (e.M 4) (g.toVec 4) _ = _
    rw [hM, hg']
    have : (2 : ℝ) * (1 / ((4 : Nat) + 1)) = 2 / 5 := by norm_num
    rw [this]
    simp only [cutM, one_mulVec, neg_dotProduct_neg, vecMulVec_neg, neg_vecMulVec, neg_neg]
  · rw [ha.kappa, hd, hκ]
    norm_num

theorem second_cut {e : Ell ℝ} (he : e.Valid 4) (hM : e.M 4 = cutM 1 r (2 / 5)) (hκ : e.kappa = 16 / 15) (hr : r ≠ 0)
    (hc : e.c 4 = (1 / (5 * √(r ⬝ᵥ r))) • r) {g : Arr ℝ} (hg : g.IsVecShape 4)
    (hg' : g.toVec 4 = (2 / (5 * √(r ⬝ᵥ r))) • r) :
    ∃ e', Ell.space.updateBias e (g, (⟨1 / 50⟩ : SingleCut ℝ)) = .ok (.success, e') ∧ e'.Valid 4 ∧ e'.c 4 = 0 := by
  have hq : 0 < r ⬝ᵥ r := dot_pos hr
  have hs : 0 < √(r ⬝ᵥ r) := Real.sqrt_pos.2 hq
  have hss : √(r ⬝ᵥ r) ^ 2 = r ⬝ᵥ r := Real.sq_sqrt hq.le
  have hg0 : g.toVec 4 ≠ 0 := by rw [hg']; exact smul_ne_zero (by positivity) hr
  have hMr : cutM 1 r (2 / 5) *ᵥ r = (3 / 5 : ℝ) • r := by
    rw [cutM, one_mulVec, sub_mulVec, one_mulVec, smul_mulVec, vecMulVec_mulVec]
    ext i
    simp only [Pi.sub_apply, Pi.smul_apply, smul_eq_mul, MulOpposite.smul_eq_mul_unop, MulOpposite.unop_op]
    field_simp
    ring
  have hMg : e.M 4 *ᵥ g.toVec 4 = (2 / (5 * √(r ⬝ᵥ r)) * (3 / 5)) • r := by
    rw [hM, hg', mulVec_smul, hMr, smul_smul]
  have hω : g.toVec 4 ⬝ᵥ (e.M 4 *ᵥ g.toVec 4) = 12 / 125 := by
    rw [hMg, hg', smul_dotProduct, dotProduct_smul, smul_eq_mul, smul_eq_mul, ← hss, Real.sqrt_sq hs.le]
    field_simp
    norm_num
  have htsq : e.tsqOf 4 (g.toVec 4) = 64 / 625 := by rw [Ell.tsqOf, hω, hκ]; norm_num
  have hsq : √(64 / 625 : ℝ) = 8 / 25 := by rw [show (64 / 625 : ℝ) = (8 / 25) ^ 2 by norm_num, Real.sqrt_sq (by norm_num)]
  have hcall : CutType.call .bias (⟨1 / 50⟩ : SingleCut ℝ) e.helper (64 / 625 : ℝ) =
      (.success, (EllCalcCore.new ((4 : Nat) : ℝ)).calcBiasCutFast (1 / 50) (√(64 / 625)) (√(64 / 625) + (4 : Nat) * (1 / 50))) := by
    show EllCalc.calcBiasCut _ _ _ = _
    rw [he.helper, calcBias_real, if_neg (by norm_num)]
  obtain ⟨e', h⟩ := Ell.update_exists he.shaped he.symm he.pos .bias ((g, ⟨1 / 50⟩) : Arr ℝ × SingleCut ℝ) hg
  have hst : (CutType.call .bias (⟨1 / 50⟩ : SingleCut ℝ) e.helper (e.tsqOf 4 (g.toVec 4))).1 = .success := by
    rw [htsq, hcall]
  rw [hst] at h
  have hv := (Ell.step_good he .bias ((g, ⟨1 / 50⟩) : Arr ℝ × SingleCut ℝ) hg hg0
    ((Cut.adm_single ..).mpr (by rw [htsq]; exact ⟨by rw [hsq]; norm_num, by rw [hsq]; norm_num⟩)) h).1
  obtain ⟨ρ, σ, δ, hc2, hc3⟩ := Ell.update_real he.shaped he.symm he.pos .bias _ hg h
  rcases hc3 with ⟨hc3, -⟩ | ⟨-, ha⟩
  · exact absurd rfl hc3
  have hρ : ρ = 2 / 25 := by
    have hc4 : CutType.call .bias (⟨1 / 50⟩ : SingleCut ℝ) e.helper (e.tsqOf 4 (g.toVec 4)) = (.success, ρ, σ, δ) := hc2
    rw [htsq, hcall, calcBiasCutFast_real, hsq] at hc4
    simp only [Prod.mk.injEq, true_and] at hc4
    rw [← hc4.1]; norm_num
  refine ⟨e', h, hv, ?_⟩
  rw [ha.c]
  show e.c 4 - (ρ / (g.toVec 4 ⬝ᵥ (e.M 4 *ᵥ g.toVec 4))) • (e.M 4 *ᵥ g.toVec 4) = 0
  rw [hω, hMg, hc, hρ, smul_smul, ← sub_smul]
  convert zero_smul ℝ r using 2
  field_simp
  norm_num

/-- **C75** The example as shipped (examples/portfolio_optimization.rs:74-84: four assets, identity risk matrix, risk limit 0.02,
budget 1, unit ball around 0): whatever the (nonzero) expected returns, the tolerance, the iteration limit and the initial `γ > 0`,
the run returns the zero portfolio, of return 0, although there are feasible portfolios of return `|r|/10 > 0`. -/
theorem C75_example_returns_zero {ret : Arr ℝ} (hs : ret.IsVecShape 4) (hr : ret.toVec 4 ≠ 0) {γ : ℝ} (hγ : 0 < γ)
    {opts : Options ℝ} (htol : 0 < opts.tolerance) (hmax : 0 < opts.maxIters) :
    ∃ R e, Arr.eye 4 = .ok R ∧ Ell.newWithScalar 1 (Arr.new 4) = .ok e ∧
      (∃ k e', cuttingPlaneOptim Portfolio.oracle Ell.space ⟨ret, R, 1 / 50, 1⟩ e γ opts =
        .ok ((some (Arr.new 4), k), 0, ⟨ret, R, 1 / 50, 1⟩, e')) ∧
      ∃ x : Fin 4 → ℝ, x ∈ e.region 4 ∧ Portfolio.Feasible ⟨ret, R, 1 / 50, 1⟩ (1 : Matrix (Fin 4) (Fin 4) ℝ) x ∧
        ret.toVec 4 ⬝ᵥ x = √(normSq (ret.toVec 4)) / 10 ∧ 0 < ret.toVec 4 ⬝ᵥ x := by
  obtain ⟨e, h1, h2, hM, hκ, hxc, hd, hreg⟩ := scalar_parts (n := 4) 1 (Arr.new 4) (by norm_num) rv_new.1 one_pos
  obtain ⟨R, a1, a2⟩ := eye_spec (α := ℝ) 4
  have hR : R.toMat 4 4 = 1 := by
    rw [a2.toMat]
    ext i j
    simp only [of_apply, one_apply, Fin.ext_iff]
  set p : Portfolio ℝ := ⟨ret, R, 1 / 50, 1⟩ with hpd
  have hp : p.Data 4 (ret.toVec 4) 1 := ⟨hs, rfl, a2.shape, hR⟩
  have hc0 : e.c 4 = 0 := by
    show e.xc.toVec 4 = 0
    rw [hxc]; exact rv_new.2
  generalize hrr : ret.toVec 4 = r at *
  have hq : 0 < r ⬝ᵥ r := dot_pos hr
  have hsp : 0 < √(r ⬝ᵥ r) := Real.sqrt_pos.2 hq
  have hss : √(r ⬝ᵥ r) ^ 2 = r ⬝ᵥ r := Real.sq_sqrt hq.le
  have hsum : ∑ i, r i ≤ 2 * √(r ⬝ᵥ r) := by
    refine abs_le_of_sq_le_sq' ?_ (by positivity) |>.2
    rw [mul_pow, hss]
    simp only [dotProduct, Fin.sum_univ_four]
    nlinarith [sq_nonneg (r 0 - r 1), sq_nonneg (r 0 - r 2), sq_nonneg (r 0 - r 3), sq_nonneg (r 1 - r 2), sq_nonneg (r 1 - r 3),
      sq_nonneg (r 2 - r 3)]
  have hfeas : ∀ t : ℝ, 0 ≤ t → t ≤ 1 / 2 → ∑ i, ((t / √(r ⬝ᵥ r)) • r) i ≤ 1 := by
    intro t ht ht1
    simp only [Pi.smul_apply, smul_eq_mul, ← mul_sum]
    rw [div_mul_eq_mul_div, div_le_one hsp]
    nlinarith
  have hnorm : ∀ t : ℝ, ((t / √(r ⬝ᵥ r)) • r) ⬝ᵥ ((1 : Matrix (Fin 4) (Fin 4) ℝ) *ᵥ ((t / √(r ⬝ᵥ r)) • r)) = t ^ 2 := by
    intro t
    rw [one_mulVec, smul_dotProduct, dotProduct_smul, smul_eq_mul, smul_eq_mul]
    nth_rw 3 [← hss]
    field_simp
  have hf0 : p.Feasible (1 : Matrix (Fin 4) (Fin 4) ℝ) 0 := by
    constructor <;> simp [hpd]
  refine ⟨R, e, a1, h1, ?_, (1 / 10 / √(r ⬝ᵥ r)) • r, ?_, ⟨?_, ?_⟩, ?_, ?_⟩
  · show ∃ k e', optimLoop _ _ opts.tolerance opts.maxIters 0 none p e γ = _
    rcases hmx : opts.maxIters with _ | m
    · omega
    -- first query, at the origin
    obtain ⟨g, b, s, γ1, q1, q2, -, q4, q5, q6, -⟩ := C75_answers hp h2.shaped.2 γ
    have hx0 : e.xc.toVec 4 = 0 := hc0
    have hst : s = true := q4.2 ⟨by rw [hx0]; exact hf0, by rw [hx0]; simpa using hγ⟩
    subst hst
    have hγ1 : γ1 = 0 := by rw [q5, hx0]; simp
    obtain ⟨hg, rfl⟩ := q6 rfl
    subst hγ1
    obtain ⟨e1, u1, u2, u3, u4, u5⟩ := first_cut h2 hM hκ hc0 hd hr q2 hg
    have q1' : Portfolio.oracle.assess p (Ell.space (T := SingleCut ℝ).xc e) γ = .ok (((g, ⟨0⟩), true), 0, p) := q1
    unfold optimLoop
    simp only [q1', Res.ok_bind, if_true, u1]
    have hxb : Ell.space (T := SingleCut ℝ).xc e = Arr.new 4 := hxc
    rw [hxb]
    split
    · exact ⟨_, _, rfl⟩
    rcases m with _ | m
    · exact ⟨_, _, rfl⟩
    -- second query: too risky
    obtain ⟨g1, b1, s1, γ2, q1, q2, -, q4, q5, -, -, -, q9, -⟩ := C75_answers hp u2.shaped.2 0
    have hx1 : e1.xc.toVec 4 = (1 / 5 / √(r ⬝ᵥ r)) • r := by rw [div_div]; exact u3
    have hrisk : e1.xc.toVec 4 ⬝ᵥ ((1 : Matrix (Fin 4) (Fin 4) ℝ) *ᵥ e1.xc.toVec 4) = 1 / 25 := by
      rw [hx1, hnorm]; norm_num
    have hst : s1 = false := by
      cases s1
      · rfl
      · have := (q4.1 rfl).1.2
        rw [hrisk] at this
        norm_num [hpd] at this
    subst hst
    obtain ⟨hg1, hb1⟩ := q9 rfl (by rw [hx1]; exact hfeas _ (by norm_num) (by norm_num)) (by rw [hrisk]; norm_num [hpd])
    rw [hrisk] at hb1
    have hb1 : b1 = 1 / 50 := by rw [hb1]; norm_num [hpd]
    subst hb1
    have hγ2 : γ2 = 0 := q5
    subst hγ2
    have hg1' : g1.toVec 4 = (2 / (5 * √(r ⬝ᵥ r))) • r := by
      rw [hg1, transpose_one, add_mulVec, one_mulVec, hx1, ← add_smul]
      congr 1
      field_simp
      norm_num
    obtain ⟨e2, v1, v2, v3⟩ := second_cut u2 u4 u5 hr u3 q2 hg1'
    have q1' : Portfolio.oracle.assess p (Ell.space (T := SingleCut ℝ).xc e1) 0 = .ok (((g1, ⟨1 / 50⟩), false), 0, p) := q1
    unfold optimLoop
    simp only [q1', Res.ok_bind, Bool.false_eq_true, if_false, v1]
    split
    · exact ⟨_, _, rfl⟩
    rcases m with _ | m
    · exact ⟨_, _, rfl⟩
    -- third query: the origin again
    obtain ⟨e3, w1, -⟩ := portfolio_stop hp (by norm_num) v2.shaped v2.symm (by rw [v3]; exact hf0) (γ := 0) (by rw [v3]; simp) htol m
      (0 + 1 + 1) (some (Arr.new 4))
    exact ⟨_, _, w1⟩
  · rw [hreg, Set.mem_ofPred_eq, rv_new.2, sub_zero]
    have := hnorm (1 / 10)
    rw [one_mulVec] at this
    rw [normSq, this]; norm_num
  · exact hfeas _ (by norm_num) (by norm_num)
  · rw [hnorm]; norm_num [hpd]
  · rw [dotProduct_smul, smul_eq_mul, normSq]
    nth_rw 2 [← hss]
    field_simp
  · rw [dotProduct_smul, smul_eq_mul]; positivity

end
end Ellalgo
