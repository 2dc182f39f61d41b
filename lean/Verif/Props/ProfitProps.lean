import Verif.Model.Profit
import Verif.Spec.Profit
import Verif.Lib.Pair
import Mathlib.Analysis.SpecialFunctions.Pow.Real

/-! C48: the profit oracle. -/

namespace Ellalgo
open Matrix

variable {d : ProfitData}

theorem ProfitData.revenue_pos (h : d.Pos) (z : Fin 2 → ℝ) : 0 < d.revenue z :=
  mul_pos h.price (mul_pos h.scale (mul_pos (Real.rpow_pos_of_pos (Real.exp_pos _) _)
    (Real.rpow_pos_of_pos (Real.exp_pos _) _)))

theorem ProfitData.revenue_eq (d : ProfitData) (z : Fin 2 → ℝ) :
    d.revenue z = d.price * d.scale * Real.exp (d.elas ⬝ᵥ z) := by
  rw [revenue, ← Real.exp_mul, ← Real.exp_mul, ← Real.exp_add, dotProduct, Fin.sum_univ_two, mul_assoc]
  ring_nf

theorem ProfitData.log_revenue (h : d.Pos) (z : Fin 2 → ℝ) :
    Real.log (d.revenue z) = Real.log (d.price * d.scale) + d.elas ⬝ᵥ z := by
  rw [revenue_eq, Real.log_mul (mul_pos h.price h.scale).ne' (Real.exp_pos _).ne', Real.log_exp]

theorem ProfitData.expense_pos (h : d.Pos) (z : Fin 2 → ℝ) : 0 < d.expense z :=
  add_pos (mul_pos (h.cost 0) (Real.exp_pos _)) (mul_pos (h.cost 1) (Real.exp_pos _))

/-- the log form `ln (γ + expense) - ln revenue` of the constraint `profit ≥ γ` -/
noncomputable def ProfitData.slack (d : ProfitData) (γ : ℝ) (z : Fin 2 → ℝ) : ℝ :=
  Real.log (γ + d.expense z) - Real.log (d.revenue z)

theorem ProfitData.slack_le_iff (h : d.Pos) {γ : ℝ} (hγ : 0 ≤ γ) (z : Fin 2 → ℝ) :
    d.slack γ z ≤ 0 ↔ γ ≤ d.profit z := by
  have h1 := d.expense_pos h z
  rw [slack, sub_nonpos, Real.log_le_log_iff (by linarith) (d.revenue_pos h z), profit]
  constructor <;> intro h <;> linarith

/-- gradient of `slack` -/
noncomputable def ProfitData.grad (d : ProfitData) (γ : ℝ) (y : Fin 2 → ℝ) : Fin 2 → ℝ :=
  fun i => d.cost i * Real.exp (y i) / (γ + d.expense y) - d.elas i

/-- `slack` is convex: tangent inequality -/
theorem ProfitData.slack_tangent (h : d.Pos) {γ : ℝ} (hγ : 0 ≤ γ) (y z : Fin 2 → ℝ) :
    d.slack γ y + d.grad γ y ⬝ᵥ (z - y) ≤ d.slack γ z := by
  have hy := d.expense_pos h y
  have hz := d.expense_pos h z
  set S := γ + d.expense y with hS
  have hSp : 0 < S := by linarith
  set l0 := d.cost 0 * Real.exp (y 0) / S with hl0
  set l1 := d.cost 1 * Real.exp (y 1) / S with hl1
  set m := l0 * (z 0 - y 0) + l1 * (z 1 - y 1) with hm
  have key : S * Real.exp m ≤ γ + d.expense z := by
    have e0 := Real.add_one_le_exp (z 0 - y 0 - m)
    have e1 := Real.add_one_le_exp (z 1 - y 1 - m)
    have e2 := Real.add_one_le_exp (0 - m)
    have x0 : Real.exp (z 0) = Real.exp (y 0) * (Real.exp m * Real.exp (z 0 - y 0 - m)) := by
      rw [← Real.exp_add, ← Real.exp_add]; congr 1; ring
    have x1 : Real.exp (z 1) = Real.exp (y 1) * (Real.exp m * Real.exp (z 1 - y 1 - m)) := by
      rw [← Real.exp_add, ← Real.exp_add]; congr 1; ring
    have x2 : γ = γ * (Real.exp m * Real.exp (0 - m)) := by
      rw [← Real.exp_add]; simp
    have hc0 : d.cost 0 * Real.exp (y 0) = S * l0 := by rw [hl0]; field_simp
    have hc1 : d.cost 1 * Real.exp (y 1) = S * l1 := by rw [hl1]; field_simp
    have hγS : γ = S * (1 - l0 - l1) := by
      have : S = γ + (S * l0 + S * l1) := by rw [← hc0, ← hc1]; rfl
      linarith
    have hl0p : 0 ≤ S * l0 := by rw [← hc0]; exact (mul_pos (h.cost 0) (Real.exp_pos _)).le
    have hl1p : 0 ≤ S * l1 := by rw [← hc1]; exact (mul_pos (h.cost 1) (Real.exp_pos _)).le
    have hem := Real.exp_pos m
    have t0 := mul_le_mul_of_nonneg_left e0 (mul_nonneg hl0p hem.le)
    have t1 := mul_le_mul_of_nonneg_left e1 (mul_nonneg hl1p hem.le)
    have t2 := mul_le_mul_of_nonneg_left e2 (mul_nonneg hγ hem.le)
    have expand : γ + d.expense z = γ * Real.exp m * Real.exp (0 - m) +
        (S * l0 * Real.exp m * Real.exp (z 0 - y 0 - m) + S * l1 * Real.exp m * Real.exp (z 1 - y 1 - m)) := by
      rw [expense, x0, x1, ← hc0, ← hc1]
      nth_rewrite 1 [x2]
      ring
    rw [expand]
    calc S * Real.exp m = γ * Real.exp m * (0 - m + 1) + (S * l0 * Real.exp m * (z 0 - y 0 - m + 1) +
            S * l1 * Real.exp m * (z 1 - y 1 - m + 1)) := by
          nth_rewrite 1 [hγS]
          rw [hm]; ring
      _ ≤ _ := by linarith
  have hlog : Real.log S + m ≤ Real.log (γ + d.expense z) := by
    have := Real.log_le_log (mul_pos hSp (Real.exp_pos m)) key
    rwa [Real.log_mul hSp.ne' (Real.exp_pos _).ne', Real.log_exp] at this
  rw [slack, slack, d.log_revenue h, d.log_revenue h, ← hS]
  simp only [grad, dotProduct, Fin.sum_univ_two, Pi.sub_apply, ← hS, ← hl0, ← hl1]
  rw [hm] at hlog
  linarith

/-- the internal state of a `ProfitOracle` built for the data `d`: the cached values are arbitrary, the round-robin
position is one the code can reach -/
structure ProfitOracle.For (o : ProfitOracle ℝ) (d : ProfitData) : Prop where
  lo : -1 ≤ o.idx
  hi : o.idx < 2
  scale : o.logPScale = Real.log (d.price * d.scale)
  limit : o.logK = Real.log d.limit
  cost : RV o.priceOut d.cost
  elas : RV o.elasticities d.elas

theorem rv_map {n : Nat} {x : Arr ℝ} {v : Fin n → ℝ} (hx : RV x v) (f : ℝ → ℝ) : RV (x.map f) (fun i => f (v i)) :=
  RV.of_isVec (hx.isVec.map _) fun i => by simp

theorem rv_mul {n : Nat} {x y : Arr ℝ} {v w : Fin n → ℝ} (hx : RV x v) (hy : RV y w) :
    ∃ z, x.mul y = .ok z ∧ RV z (fun i => v i * w i) := by
  obtain ⟨z, h1, h2⟩ := hx.isVec.zipWith hy.isVec (· * ·)
  exact ⟨z, h1, RV.of_isVec h2 fun i => by simp⟩

/-- what the cache holds after the profit constraint was evaluated at `y` -/
def ProfitCache.At (c : ProfitCache ℝ) (d : ProfitData) (y : Fin 2 → ℝ) : Prop :=
  c.logCobb = Real.log (d.revenue y) ∧ c.vx = d.expense y ∧ RV c.q (fun i => d.cost i * Real.exp (y i))

/-- one query of `assess_feas` (internal; used by all three oracles) -/
theorem profit_feas (h : d.Pos) {o : ProfitOracle ℝ} (ho : o.For d) {y : Arr ℝ} {v : Fin 2 → ℝ} (hy : RV y v)
    {γ : ℝ} (hγ : 0 ≤ γ) :
    ∃ r o', o.assessFeas y γ = .ok (r, o') ∧ o'.For d ∧
      (r = none → v ∈ d.feasible ∧ γ ≤ d.profit v ∧ o'.cache.At d v) ∧
      ∀ g b, r = some (g, b) → 0 < b ∧
        ((v 0 - Real.log d.limit = b ∧ RV g ![1, 0]) ∨ (d.slack γ v = b ∧ RV g (d.grad γ v))) := by
  have hy0 : y.idx 0 = .ok (v 0) := RV.idx hy 0
  obtain ⟨q, hq, hqv⟩ := rv_mul ho.cost (rv_map hy Real.exp)
  have hq0 : q.idx 0 = .ok (d.cost 0 * Real.exp (v 0)) := RV.idx hqv 0
  have hq1 : q.idx 1 = .ok (d.cost 1 * Real.exp (v 1)) := RV.idx hqv 1
  have hdot := RV.dot ho.elas hy
  have hq' : o.priceOut.mul (y.map Scalar.exp) = .ok q := hq
  obtain ⟨g1, hg1, hg1v⟩ := RV.sub (RV.divScalar hqv (γ + d.expense v)) ho.elas
  obtain ⟨r, idx', c', hr, hin, -, hnone, hsome⟩ := rrLoop_spec (lo := 0) (hi := 2) (body := o.body y γ)
    (fun V c => (V 0 → v 0 - Real.log d.limit ≤ 0) ∧ (V 1 → d.slack γ v ≤ 0 ∧ c.At d v))
    (fun i b _ => 0 < b.2 ∧
      ((v 0 - Real.log d.limit = b.2 ∧ RV b.1 ![1, 0]) ∨ (d.slack γ v = b.2 ∧ RV b.1 (d.grad γ v))))
    (idx := o.idx) (s := o.cache) (by linarith [ho.lo]) (fun _ => ho.hi)
    ⟨fun h => h.elim, fun h => h.elim⟩
    (by
      intro V i c h1 h2 ⟨hV0, hV1⟩
      obtain rfl | rfl : i = 0 ∨ i = 1 := by omega
      · simp only [ProfitOracle.body, if_true, hy0, Res.ok_bind, Scalar.real_gt, decide_eq_true_eq, ho.limit]
        split
        · rename_i hf
          refine ⟨_, _, rfl, by simp, ?_⟩
          rintro b hb
          obtain rfl : _ = b := by simpa using hb
          exact ⟨hf, Or.inl ⟨rfl, rv_pair 1 0⟩⟩
        · rename_i hf
          refine ⟨_, _, rfl, ?_, by simp⟩
          rintro -
          exact ⟨fun _ => not_lt.1 hf, fun hv => hV1 (by simpa using hv)⟩
      · have hfj : Scalar.ln (γ + (d.cost 0 * Real.exp (v 0) + d.cost 1 * Real.exp (v 1))) -
            (o.logPScale + d.elas ⬝ᵥ v) = d.slack γ v := by
          rw [ProfitData.slack, d.log_revenue h, ho.scale]; rfl
        simp only [ProfitOracle.body, one_ne_zero, if_false, if_true, hdot, hq', hq0, hq1, Res.ok_bind, Scalar.real_gt,
          decide_eq_true_eq, hfj]
        have hcache : (ProfitCache.mk (o.logPScale + d.elas ⬝ᵥ v)
            (d.cost 0 * Real.exp (v 0) + d.cost 1 * Real.exp (v 1)) q).At d v :=
          ⟨by rw [d.log_revenue h, ho.scale], rfl, hqv⟩
        have hg1' : (q.divScalar (γ + (d.cost 0 * Real.exp (v 0) + d.cost 1 * Real.exp (v 1)))).sub
            o.elasticities = .ok g1 := hg1
        split
        · rename_i hf
          rw [hg1', Res.ok_bind]
          refine ⟨_, _, rfl, by simp, ?_⟩
          rintro b hb
          obtain rfl : _ = b := by simpa using hb
          refine ⟨hf, Or.inr ⟨rfl, ?_⟩⟩
          convert hg1v using 1
          funext i
          simp only [ProfitData.grad, Pi.sub_apply, Pi.smul_apply, smul_eq_mul]
          ring
        · rename_i hf
          refine ⟨_, _, rfl, ?_, by simp⟩
          rintro -
          exact ⟨fun hv => hV0 (by simpa using hv), fun _ => ⟨not_lt.1 hf, hcache⟩⟩)
    (by
      rintro V W c hVW ⟨a, b⟩
      exact ⟨fun hw => a ((hVW 0 (by norm_num) (by norm_num)).2 hw),
        fun hw => b ((hVW 1 (by norm_num) (by norm_num)).2 hw)⟩)
  have hr' : rrLoop 0 2 (o.body y γ) 2 o.idx o.cache = .ok (r, idx', c') := hr
  refine ⟨r, { o with idx := idx', cache := c' }, by simp only [ProfitOracle.assessFeas, hr', Res.ok_bind], ?_, ?_, ?_⟩
  · have := hin (by norm_num)
    exact ⟨by show (-1 : ℤ) ≤ idx'; omega, this.2, ho.scale, ho.limit, ho.cost, ho.elas⟩
  · intro hrn
    obtain ⟨a, b⟩ := hnone hrn
    have a := a ⟨by norm_num, by norm_num⟩
    obtain ⟨b1, b2⟩ := b ⟨by norm_num, by norm_num⟩
    refine ⟨?_, (d.slack_le_iff h hγ v).1 b1, b2⟩
    show Real.exp (v 0) ≤ d.limit
    rw [← Real.le_log_iff_exp_le h.limit]
    linarith
  · intro g b hb
    exact (hsome _ hb).2.2

/-- the cut at `y` for the value `γ'`: either the limit constraint or the profit constraint, keeping every point -/
theorem profit_cut_valid (h : d.Pos) {γ : ℝ} (hγ : 0 ≤ γ) {v : Fin 2 → ℝ} {g : Fin 2 → ℝ} {b : ℝ}
    (hg : (v 0 - Real.log d.limit = b ∧ g = ![1, 0]) ∨ (d.slack γ v = b ∧ g = d.grad γ v)) :
    ∀ z ∈ d.feasible, γ ≤ d.profit z → g ⬝ᵥ (z - v) + b ≤ 0 := by
  intro z hz hp
  rcases hg with ⟨rfl, rfl⟩ | ⟨rfl, rfl⟩
  · have hz' : Real.exp (z 0) ≤ d.limit := hz
    rw [← Real.le_log_iff_exp_le h.limit] at hz'
    rw [pair_dot]
    simp only [Pi.sub_apply]
    linarith
  · have := d.slack_tangent h hγ v z
    have := (d.slack_le_iff h hγ z).2 hp
    linarith

theorem profit_not_both (h : d.Pos) {γ : ℝ} (hγ : 0 ≤ γ) {v : Fin 2 → ℝ} {g : Fin 2 → ℝ} {b : ℝ} (hb : 0 < b)
    (hg : (v 0 - Real.log d.limit = b ∧ g = ![1, 0]) ∨ (d.slack γ v = b ∧ g = d.grad γ v)) :
    ¬(v ∈ d.feasible ∧ γ ≤ d.profit v) := by
  rintro ⟨h1, h2⟩
  have := profit_cut_valid h hγ hg v h1 h2
  simp at this
  linarith

/-- the gradient and offset of an answer, explicitly -/
def ProfitData.CutAt (d : ProfitData) (v : Fin 2 → ℝ) (γ' : ℝ) (g : Fin 2 → ℝ) (b : ℝ) : Prop :=
  (v 0 - Real.log d.limit = b ∧ g = ![1, 0]) ∨ (d.slack γ' v = b ∧ g = d.grad γ' v)

/-- one query, with the cut in explicit form -/
theorem profit_assess (h : d.Pos) (o : ProfitOracle ℝ) (ho : o.For d) (y : Arr ℝ) (hy : y.IsVecShape 2) {γ : ℝ}
    (hγ : 0 ≤ γ) :
    ∃ g beta shrunk γ' o', ProfitOracle.oracle.assess o y γ = .ok (((g, ⟨beta⟩), shrunk), γ', o') ∧ o'.For d ∧
      MaxAnswer d.feasible d.profit (y.toVec 2) γ g beta shrunk γ' ∧ d.CutAt (y.toVec 2) γ' (g.toVec 2) beta ∧
      (shrunk = true → g.toVec 2 = d.grad γ' (y.toVec 2)) := by
  set v := y.toVec 2 with hv
  have hyv : RV y v := ⟨hy, rfl⟩
  obtain ⟨r, o', hr, ho', hnone, hsome⟩ := profit_feas h ho hyv hγ
  cases r with
  | some p =>
    obtain ⟨g, b⟩ := p
    obtain ⟨hb, hg⟩ := hsome g b rfl
    have hgs : g.IsVecShape 2 := by rcases hg with ⟨-, hg⟩ | ⟨-, hg⟩ <;> exact hg.1
    have hg' : (v 0 - Real.log d.limit = b ∧ g.toVec 2 = ![1, 0]) ∨ (d.slack γ v = b ∧ g.toVec 2 = d.grad γ v) :=
      hg.imp (fun h => ⟨h.1, h.2.2⟩) (fun h => ⟨h.1, h.2.2⟩)
    refine ⟨g, b, false, γ, o', ?_, ho', ⟨hgs, ?_, rfl, fun _ => ⟨hb, profit_cut_valid h hγ hg'⟩, by simp⟩,
      hg', by simp⟩
    · simp only [ProfitOracle.oracle, ProfitOracle.assess, hr, Res.ok_bind]
    · have := profit_not_both h hγ hb hg'
      simpa using this
  | none =>
    obtain ⟨h1, h2, h3, h4, h5⟩ := hnone rfl
    have hexp : Scalar.exp o'.cache.logCobb = d.revenue v := by
      rw [h3]; exact Real.exp_log (d.revenue_pos h v)
    obtain ⟨g, hg, hgv⟩ := RV.sub (RV.divScalar h5 (d.revenue v)) ho'.elas
    have hprofit : d.revenue v - o'.cache.vx = d.profit v := by rw [h4]; rfl
    have hp0 : 0 ≤ d.profit v := hγ.trans h2
    have e : d.profit v + d.expense v = d.revenue v := by rw [ProfitData.profit]; ring
    have hslack : d.slack (d.profit v) v = 0 := by rw [ProfitData.slack, e, sub_self]
    have hgr : g.toVec 2 = d.grad (d.profit v) v := by
      rw [hgv.2]
      funext i
      simp only [ProfitData.grad, e, Pi.sub_apply, Pi.smul_apply, smul_eq_mul]
      ring
    refine ⟨g, 0, true, d.profit v, o', ?_, ho', ⟨hgv.1, by simp [h1, h2], rfl, by simp, fun _ => ⟨rfl, ?_⟩⟩,
      Or.inr ⟨hslack, hgr⟩, fun _ => hgr⟩
    · simp only [ProfitOracle.oracle, ProfitOracle.assess, hr, Res.ok_bind, hexp, hg, hprofit]
    · intro z hz hp
      rw [hgr]
      have := profit_cut_valid h hp0 (Or.inr ⟨hslack, rfl⟩) z hz hp
      linarith

/-- **C48** Every query of `ProfitOracle` built for positive data, with `γ ≥ 0`, whatever its history (cache and
round-robin position), does not panic and gives a correct answer for "maximise profit subject to the limit". -/
theorem C48_profit (h : d.Pos) (o : ProfitOracle ℝ) (ho : o.For d) (y : Arr ℝ) (hy : y.IsVecShape 2) {γ : ℝ}
    (hγ : 0 ≤ γ) :
    ∃ g beta shrunk γ' o', ProfitOracle.oracle.assess o y γ = .ok (((g, ⟨beta⟩), shrunk), γ', o') ∧ o'.For d ∧
      MaxAnswer d.feasible d.profit (y.toVec 2) γ g beta shrunk γ' := by
  obtain ⟨g, b, s, γ', o', h1, h2, h3, -⟩ := profit_assess h o ho y hy hγ
  exact ⟨g, b, s, γ', o', h1, h2, h3⟩

/-- **C48** (start) a fresh `ProfitOracle` is built for its data -/
theorem C48_profit_new (a v : Arr ℝ) (ha : RV a d.elas) (hv : RV v d.cost) :
    (ProfitOracle.new d.price d.scale d.limit a v).For d :=
  ⟨le_refl _, by show (-1 : ℤ) < 2; decide, rfl, rfl, hv, ha⟩

end Ellalgo
