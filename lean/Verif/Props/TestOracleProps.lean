import Verif.Model.TestOracles
import Verif.Spec.TestProblems
import Verif.Props.ExampleProps
import Verif.Props.QcvxProps
import Verif.Props.SolveSmooth
import Verif.Props.NoSolnComplete
import Verif.Props.NanExamples

/-! C83: the oracles written in `tests/example2_tests.rs` and `tests/quasicvx2_tests.rs`. -/

namespace Ellalgo
open Matrix

/-- **C83** (example2)  From every position the counter can reach, a query of `MyOracle2` does not panic; the point is
accepted exactly if it satisfies both constraints; otherwise the cut is violated at the point, keeps every feasible
point, and its gradient has norm at least 1. -/
theorem C83_example2 (o : Int) (h1 : -1 ≤ o) (h2 : o < 2) (x : Arr ℝ) (hx : x.IsVecShape 2) :
    ∃ r o', ex2Oracle.assess o x = .ok (r, o') ∧ (-1 ≤ o' ∧ o' < 2) ∧ (r = none ↔ x.toVec 2 ∈ ex2K) ∧
      ∀ g c, r = some (g, c) → g.IsVecShape 2 ∧ 1 ≤ normSq (g.toVec 2) ∧ 0 < c.beta ∧
        ∀ z ∈ ex2K, g.toVec 2 ⬝ᵥ (z - x.toVec 2) + c.beta ≤ 0 := by
  obtain ⟨hx0, hx1⟩ := idx_pair hx
  set v := x.toVec 2 with hv
  have n3 : (nat 3 : ℝ) = 3 := by simp [nat]
  obtain ⟨r, idx', hr, hi1, hi2, hn, hs⟩ := cutIf_loop (m := 2) (by norm_num) (body := ex2Body (v 0) (v 1))
    (fun i => if i = 0 then v 0 + v 1 - 3 else -v 0 + v 1 + 1) (fun i => if i = 0 then [1, 1] else [-1, 1])
    (by
      intro i hi1 hi2
      obtain rfl | rfl : i = 0 ∨ i = 1 := by omega
      all_goals simp [ex2Body, n3])
    h1 h2
  have hr' : rrLoop 0 2 (ex2Body (v 0) (v 1)) 2 o () = .ok (r, idx', ()) := hr
  simp only [ex2Oracle, ex2Assess, hx0, hx1, Res.ok_bind, hr']
  refine ⟨r, _, rfl, ⟨by omega, hi2⟩, ⟨?_, ?_⟩, ?_⟩
  · intro h
    have f0 := hn h 0 (by norm_num) (by norm_num)
    have f1 := hn h 1 (by norm_num) (by norm_num)
    norm_num at f0 f1
    exact ⟨by linarith, by linarith⟩
  · rintro ⟨a, b⟩
    by_contra hne
    obtain ⟨p, hp⟩ := Option.ne_none_iff_exists'.1 hne
    have hf := (hs p hp).1
    obtain rfl | rfl : idx' = 0 ∨ idx' = 1 := by omega
    all_goals norm_num at hf
    all_goals linarith
  · intro g c hgc
    obtain ⟨hf, hb⟩ := hs _ hgc
    simp only [Prod.mk.injEq] at hb
    obtain ⟨rfl, rfl⟩ := hb
    obtain rfl | rfl : idx' = 0 ∨ idx' = 1 := by omega
    · simp only [if_true] at hf ⊢
      refine ⟨pair_shape _ _, by pair_norm, hf, ?_⟩
      rintro z ⟨hz1, hz2⟩
      pair_fact
      linarith
    · simp only [one_ne_zero, if_false] at hf ⊢
      refine ⟨pair_shape _ _, by pair_norm, hf, ?_⟩
      rintro z ⟨hz1, hz2⟩
      pair_fact
      linarith

theorem ex2_honest : HonestFeas 2 (ex2Oracle (α := ℝ)) (fun o => -1 ≤ o ∧ o < 2) ex2K 1 := by
  rintro o x ⟨h1, h2⟩ hx
  obtain ⟨r, o', h, hi, -, hc⟩ := C83_example2 o h1 h2 x hx
  refine ⟨r, o', h, hi, fun g c hgc => ?_⟩
  obtain ⟨a, b, c0, d⟩ := hc g c hgc
  refine ⟨a, ?_, by simpa using b, c0.le, fun y hy => ?_⟩
  · intro h0
    rw [h0] at b
    norm_num [normSq] at b
  · exact ⟨d y hy, fun b hb => by simp [Cut.hi] at hb⟩

/-- **C83** (example2, solved)  If the initial ellipsoid contains a ball of radius `r` of feasible points, the tolerance is at
most `r²` and the iteration limit exceeds `3 ln(det(κM)/r⁴)`, then `cutting_plane_feas` with `MyOracle2` returns a point
satisfying both constraints, after at most that many cuts. -/
theorem C83_example2_solved (o : Int) (h1 : -1 ≤ o) (h2 : o < 2) (e : Ell ℝ) (he : e.Valid 2) (p : Fin 2 → ℝ) {r : ℝ}
    (hr : 0 < r) (hK : ball p r ⊆ ex2K) (hE : ball p r ⊆ e.region 2) (opts : Options ℝ) (htol : opts.tolerance ≤ r ^ 2)
    (hit : 3 * Real.log ((e.kappa • e.M 2).det / r ^ 4) < opts.maxIters) :
    ∃ x k o' e', cuttingPlaneFeas ex2Oracle Ell.space o e opts = .ok ((some x, k), o', e') ∧ x.toVec 2 ∈ ex2K ∧
      (k : ℝ) ≤ 3 * Real.log ((e.kappa • e.M 2).det / r ^ 4) := by
  have e1 : (((2 : ℕ) : ℝ) + 1) = 3 := by norm_num
  have e2 : (r ^ 2) ^ 2 = r ^ 4 := by ring
  obtain ⟨x, k, w1, w', e', a1, a2, a3, a4, a5⟩ := C22_feas_converges (n := 2) ex2Oracle _ ex2K 1 r p o e opts ex2_honest
    ⟨h1, h2⟩ he hr hK hE (by simpa using htol) (by rw [e1, e2]; exact hit)
  rw [e1, e2] at a5
  obtain ⟨r', o1, b1, -, b2, -⟩ := C83_example2 w1 a3.1 a3.2 x a4
  rw [a2] at b1
  simp only [Res.ok.injEq, Prod.mk.injEq] at b1
  exact ⟨x, k, w', e', a1, b2.1 b1.1.symm, a5⟩

/-- **C83** (example2, infeasible)  If every point of the initial ellipsoid violates `x + y ≤ 3`, the constraint a fresh
`MyOracle2` looks at first, the run stops at once and returns `None`. -/
theorem C83_example2_infeasible (e : Ell ℝ) (he : e.Valid 2) (hmiss : ∀ z ∈ e.region 2, 3 < z 0 + z 1) (opts : Options ℝ)
    (hm : 1 ≤ opts.maxIters) :
    ∃ o' e', cuttingPlaneFeas ex2Oracle Ell.space (-1) e opts = .ok ((none, 0), o', e') := by
  obtain ⟨m, hm⟩ : ∃ m, opts.maxIters = m + 1 := ⟨opts.maxIters - 1, by omega⟩
  obtain ⟨hx0, hx1⟩ := idx_pair he.shaped.2
  set v := e.xc.toVec 2 with hv
  have n3 : (nat 3 : ℝ) = 3 := by simp [nat]
  have hc : 3 < v 0 + v 1 := by
    refine hmiss (e.c 2) ?_
    show (e.c 2 - e.c 2) ⬝ᵥ ((e.M 2)⁻¹ *ᵥ (e.c 2 - e.c 2)) ≤ e.kappa
    simp [he.kappa.le]
  have hq : ex2Oracle.assess (-1) e.xc = .ok (some (Arr.ofList [1, 1], ⟨v 0 + v 1 - 3⟩), 0) := by
    simp [ex2Oracle, ex2Assess, hx0, hx1, rrLoop, ex2Body, cutIf, n3, hc]
  obtain ⟨e', hu⟩ := C84_noSoln_complete_partial .bias e he (Arr.ofList [1, 1], (⟨v 0 + v 1 - 3⟩ : SingleCut ℝ))
    (pair_shape _ _) (by pair_ne0) (by intro b hb; simp [Cut.hi] at hb) (by
      rintro x hx ⟨h, -⟩
      have h : (Arr.ofList [(1 : ℝ), 1]).toVec 2 ⬝ᵥ (x - v) + (v 0 + v 1 - 3) ≤ 0 := h
      rw [pair_toVec, pair_dot] at h
      simp only [Pi.sub_apply] at h
      linarith [hmiss x hx])
  have hu : (Ell.space (T := SingleCut ℝ)).updateBias e (Arr.ofList [1, 1], (⟨v 0 + v 1 - 3⟩ : SingleCut ℝ)) =
    .ok (.noSoln, e') := hu
  refine ⟨0, e', ?_⟩
  have hxc : (Ell.space (T := SingleCut ℝ)).xc e = e.xc := rfl
  rw [cuttingPlaneFeas, hm, feasLoop, hxc, hq]
  simp only [Res.ok_bind, hu]
  rfl

/-! ## quasicvx2 -/

theorem qcvx2_obj_iff {γ : ℝ} {z : Fin 2 → ℝ} (hz : 0 < z 1) : γ ≤ qcvx2Obj z ↔ -√(z 0) + γ * z 1 ≤ 0 := by
  rw [qcvx2Obj, le_div_iff₀ hz]
  constructor <;> intro h <;> linarith

theorem qcvx2_pos {z : Fin 2 → ℝ} (hz : z ∈ qcvx2F) : 1 ≤ z 1 :=
  (Real.one_le_exp hz.2.2).trans hz.1

/-- the tangent of the square root lies above it -/
theorem sqrt_tangent {a b : ℝ} (ha : 0 < a) (hb : 0 ≤ b) : √b ≤ √a + (b - a) * ((1 / 2) / √a) := by
  have hs := Real.sqrt_pos.2 ha
  have h1 := Real.mul_self_sqrt ha.le
  have h2 := Real.mul_self_sqrt hb
  have : (b - a) * ((1 / 2) / √a) = (b - a) / (2 * √a) := by field_simp
  rw [this, ← sub_nonneg]
  have : √a + (b - a) / (2 * √a) - √b = (√a - √b) ^ 2 / (2 * √a) := by
    field_simp
    nlinarith
  rw [this]
  positivity

/-- the objective's linearisation, used by both kinds of objective cut -/
theorem qcvx2_cut {v z : Fin 2 → ℝ} {γ : ℝ} (hv : 0 < v 0) (hz : z ∈ qcvx2F) :
    -(1 / 2) / √(v 0) * (z 0 - v 0) + γ * (z 1 - v 1) + (-√(v 0) + γ * v 1) ≤ -√(z 0) + γ * z 1 := by
  have h := sqrt_tangent hv hz.2.2
  have : -(1 / 2) / √(v 0) * (z 0 - v 0) = -((z 0 - v 0) * (1 / 2 / √(v 0))) := by ring
  rw [this]
  linarith

theorem qcvx2_margin {z : Fin 2 → ℝ} {γ ε : ℝ} (hε : 0 ≤ ε) (hz : z ∈ qcvx2F) (h : γ + ε ≤ qcvx2Obj z) :
    -√(z 0) + γ * z 1 ≤ -ε := by
  have h1 := qcvx2_pos hz
  have := (qcvx2_obj_iff (γ := γ + ε) (by linarith : 0 < z 1)).1 h
  nlinarith

/-- **C83** (quasicvx2, partial: the point must not be feasible with `x = 0`)  From every position the counter can reach, a
query of `MyQuasicvxOracle` at a point with `x ≠ 0`, or at an infeasible point, is answered correctly for "maximise
`√x / y` subject to `exp x ≤ y`, `y ≥ 0`, `x ≥ 0`", for every current value `γ`; and every cut either has a gradient of norm
at least 1 or separates every feasible point better than the new value by `ε` with margin `ε`. -/
theorem C83_quasicvx2_partial (o : Int) (h1 : -1 ≤ o) (h2 : o < 3) (x : Arr ℝ) (hx : x.IsVecShape 2) (γ : ℝ)
    (h0 : x.toVec 2 0 ≠ 0 ∨ x.toVec 2 ∉ qcvx2F) :
    ∃ g beta shrunk γ' o', qcvx2Oracle.assess o x γ = .ok (((g, ⟨beta⟩), shrunk), γ', o') ∧ (-1 ≤ o' ∧ o' < 3) ∧
      MaxAnswer qcvx2F qcvx2Obj (x.toVec 2) γ g beta shrunk γ' ∧
      (1 ≤ normSq (g.toVec 2) ∨ ∀ ε ≥ 0, ∀ z ∈ qcvx2F, γ' + ε ≤ qcvx2Obj z →
        g.toVec 2 ⬝ᵥ (z - x.toVec 2) + beta ≤ -ε) := by
  obtain ⟨hx0, hx1⟩ := idx_pair hx
  set v := x.toVec 2 with hv
  have d5 : (dec 5 1 : ℝ) = 1 / 2 := by norm_num [dec, Scalar.dec]
  obtain ⟨r, idx', hr, hi1, hi2, hn, hs⟩ := cutIf_loop (m := 3) (by norm_num) (body := qcvx2Body (v 0) (v 1))
    (fun i => if i = 0 then Real.exp (v 0) - v 1 else if i = 1 then -v 1 else -v 0)
    (fun i => if i = 0 then [Real.exp (v 0), -1] else if i = 1 then [0, -1] else [-1, 0])
    (by
      intro i hi1 hi2
      obtain rfl | rfl | rfl : i = 0 ∨ i = 1 ∨ i = 2 := by omega
      all_goals simp [qcvx2Body])
    h1 h2
  have hr' : rrLoop 0 3 (qcvx2Body (v 0) (v 1)) 3 o () = .ok (r, idx', ()) := hr
  have hidx : -1 ≤ idx' ∧ idx' < 3 := ⟨by omega, hi2⟩
  cases r with
  | some cut =>
    obtain ⟨hf, rfl⟩ := hs _ rfl
    refine ⟨_, _, false, γ, idx', by simp only [qcvx2Oracle, qcvx2Assess, hx0, hx1, Res.ok_bind, hr']; rfl, hidx, ?_⟩
    obtain rfl | rfl | rfl : idx' = 0 ∨ idx' = 1 ∨ idx' = 2 := by omega
    · simp only [if_true] at hf ⊢
      refine ⟨⟨pair_shape _ _, ?_, rfl, ?_, by simp⟩, Or.inl ?_⟩
      · simp only [Bool.false_eq_true, false_iff]
        rintro ⟨⟨h, -⟩, -⟩
        linarith
      · intro _
        refine ⟨hf, ?_⟩
        rintro z ⟨hz, -⟩ -
        pair_fact
        have := exp_tangent (v 0) (z 0)
        linarith
      · rw [pair_toVec, normSq, pair_dot]
        simp only [cons_val_zero, cons_val_one]
        nlinarith [mul_self_nonneg (Real.exp (v 0))]
    · simp only [one_ne_zero, if_true, if_false] at hf ⊢
      refine ⟨⟨pair_shape _ _, ?_, rfl, ?_, by simp⟩, Or.inl (by pair_norm)⟩
      · simp only [Bool.false_eq_true, false_iff]
        rintro ⟨⟨-, h, -⟩, -⟩
        linarith
      · intro _
        refine ⟨hf, ?_⟩
        rintro z ⟨-, hz, -⟩ -
        pair_fact
        linarith
    · norm_num only [if_true, if_false] at hf ⊢
      refine ⟨⟨pair_shape _ _, ?_, rfl, ?_, by simp⟩, Or.inl (by pair_norm)⟩
      · simp only [Bool.false_eq_true, false_iff]
        rintro ⟨⟨-, -, h⟩, -⟩
        linarith
      · intro _
        refine ⟨hf, ?_⟩
        rintro z ⟨-, -, hz⟩ -
        pair_fact
        linarith
  | none =>
    have f0 := hn rfl 0 (by norm_num) (by norm_num)
    have f1 := hn rfl 1 (by norm_num) (by norm_num)
    have f2 := hn rfl 2 (by norm_num) (by norm_num)
    norm_num at f0 f1 f2
    have hF : v ∈ qcvx2F := ⟨by linarith, by linarith, by linarith⟩
    have hpos : 0 < v 0 := lt_of_le_of_ne f2 (Ne.symm (h0.resolve_right (not_not.2 hF)))
    have hy := qcvx2_pos hF
    have hy0 : 0 < v 1 := by linarith
    by_cases hfj : 0 < -√(v 0) + γ * v 1
    · refine ⟨Arr.ofList [-(1 / 2) / √(v 0), γ], -√(v 0) + γ * v 1, false, γ, idx', ?_, hidx,
        ⟨pair_shape _ _, ?_, rfl, ?_, by simp⟩, Or.inr ?_⟩
      · simp only [qcvx2Oracle, qcvx2Assess, hx0, hx1, Res.ok_bind, hr', Scalar.real_gt, Scalar.real_sqrt, hfj, decide_true,
          if_true, d5]
      · simp only [Bool.false_eq_true, false_iff]
        rintro ⟨-, h⟩
        have := (qcvx2_obj_iff hy0).1 h
        linarith
      · intro _
        refine ⟨hfj, fun z hz hγ => ?_⟩
        have := (qcvx2_obj_iff (by linarith [qcvx2_pos hz])).1 hγ
        have := qcvx2_cut (γ := γ) hpos hz
        pair_fact
        linarith
      · intro ε hε z hz hγ
        have := qcvx2_margin hε hz hγ
        have := qcvx2_cut (γ := γ) hpos hz
        pair_fact
        linarith
    · have hobj : γ ≤ qcvx2Obj v := (qcvx2_obj_iff hy0).2 (not_lt.1 hfj)
      have hval : √(v 0) / v 1 * v 1 = √(v 0) := div_mul_cancel₀ _ hy0.ne'
      refine ⟨Arr.ofList [-(1 / 2) / √(v 0), √(v 0) / v 1], 0, true, √(v 0) / v 1, idx', ?_, hidx,
        ⟨pair_shape _ _, ?_, rfl, by simp, ?_⟩, Or.inr ?_⟩
      · simp only [qcvx2Oracle, qcvx2Assess, hx0, hx1, Res.ok_bind, hr', Scalar.real_gt, Scalar.real_sqrt, hfj, decide_false,
          Bool.false_eq_true, if_false, d5]
      · simp only [true_iff]
        exact ⟨hF, hobj⟩
      · intro _
        refine ⟨rfl, fun z hz hγ => ?_⟩
        have := (qcvx2_obj_iff (by linarith [qcvx2_pos hz])).1 hγ
        have := qcvx2_cut (γ := √(v 0) / v 1) hpos hz
        pair_fact
        linarith
      · intro ε hε z hz hγ
        have := qcvx2_margin hε hz hγ
        have := qcvx2_cut (γ := √(v 0) / v 1) hpos hz
        pair_fact
        linarith

/-! ### solving quasicvx2 -/

/-- the maximiser `(1/2, e^(1/2))` -/
noncomputable def qcvx2Opt : Fin 2 → ℝ := ![1 / 2, Real.exp (1 / 2)]

theorem qcvx2Opt_mem : qcvx2Opt ∈ qcvx2F :=
  ⟨le_rfl, (Real.exp_pos _).le, by norm_num [qcvx2Opt]⟩

theorem qcvx2Opt_value : qcvx2Obj qcvx2Opt = Real.exp (-(1 / 2)) / √2 := by
  show √(1 / 2) / Real.exp (1 / 2) = _
  rw [Real.exp_neg, Real.sqrt_div (by norm_num), Real.sqrt_one]
  field_simp

theorem qcvx2Opt_max : ∀ z ∈ qcvx2F, qcvx2Obj z ≤ qcvx2Obj qcvx2Opt := by
  intro z hz
  have h := qcvxOpt_max ![√(z 0), z 0] (by
    show √(z 0) ^ 2 ≤ z 0
    rw [Real.sq_sqrt hz.2.2])
  rw [qcvxOpt_value, ← qcvx2Opt_value] at h
  refine le_trans ?_ h
  show √(z 0) / z 1 ≤ √(z 0) / Real.exp (z 0)
  exact div_le_div_of_nonneg_left (Real.sqrt_nonneg _) (Real.exp_pos _) hz.1

theorem qcvx2F_convex : Convex ℝ qcvx2F := by
  rintro x ⟨x1, x2, x3⟩ y ⟨y1, y2, y3⟩ a b ha hb hab
  refine ⟨?_, ?_, ?_⟩
  · have := convexOn_exp.2 (Set.mem_univ (x 0)) (Set.mem_univ (y 0)) ha hb hab
    have h : Real.exp (a * x 0 + b * y 0) ≤ a * Real.exp (x 0) + b * Real.exp (y 0) := this
    show Real.exp (a * x 0 + b * y 0) ≤ a * x 1 + b * y 1
    nlinarith
  · show 0 ≤ a * x 1 + b * y 1
    positivity
  · show 0 ≤ a * x 0 + b * y 0
    positivity

theorem qcvx2F_interior : (interior qcvx2F).Nonempty := by
  refine ⟨![1, Real.exp 1 + 1], ?_⟩
  rw [mem_interior]
  refine ⟨{z | Real.exp (z 0) < z 1} ∩ {z | 0 < z 0},
    fun z hz => ⟨le_of_lt hz.1, (Real.exp_pos _).le.trans (le_of_lt hz.1), le_of_lt hz.2⟩, ?_, ?_⟩
  · exact (isOpen_lt (by fun_prop) (by fun_prop)).inter (isOpen_lt (by fun_prop) (by fun_prop))
  · constructor
    · show Real.exp 1 < Real.exp 1 + 1
      linarith
    · show (0 : ℝ) < 1
      norm_num

theorem qcvx2Obj_continuousAt : ContinuousAt qcvx2Obj qcvx2Opt := by
  unfold qcvx2Obj
  refine ContinuousAt.div ?_ ?_ (Real.exp_pos (1 / 2)).ne'
  · exact (Real.continuous_sqrt.comp (continuous_apply 0)).continuousAt
  · exact (continuous_apply 1).continuousAt

/-- the oracle repaired at the feasible points with `x = 0`; used in the proof below only -/
noncomputable def qcvx2Fixed : OracleOptim Int (Arr ℝ) (SingleCut ℝ) ℝ := ⟨fun o x γ => by
  classical
  exact if x.toVec 2 0 ≠ 0 ∨ x.toVec 2 ∉ qcvx2F then qcvx2Oracle.assess o x γ
    else if 0 < γ then .ok (((Arr.ofList [-1, 0], ⟨γ ^ 2⟩), false), γ, o)
    else .ok (((Arr.ofList [-1, 0], ⟨0⟩), true), 0, o)⟩

theorem qcvx2Fixed_optimizes (B : Set (Fin 2 → ℝ)) :
    Optimizes 2 qcvx2Fixed (fun o _ => -1 ≤ o ∧ o < 3) qcvx2F qcvx2Obj B := by
  intro ε hε
  refine ⟨1, one_pos, ε, hε, ?_⟩
  rintro o x γ ⟨h1, h2⟩ hx
  by_cases h0 : x.toVec 2 0 ≠ 0 ∨ x.toVec 2 ∉ qcvx2F
  · obtain ⟨g, b, s, γ', o', a1, a2, a3, a4⟩ := C83_quasicvx2_partial o h1 h2 x hx γ h0
    refine ⟨g, b, s, γ', o', ?_, a2, a3, ?_⟩
    · simp only [qcvx2Fixed, if_pos h0]; exact a1
    · rcases a4 with h | h
      · exact Or.inl (by simpa using h)
      · exact Or.inr fun z hz _ => h ε hε.le z hz
  · have h00 := h0
    push Not at h0
    obtain ⟨hz0, hF⟩ := h0
    have hobj : qcvx2Obj (x.toVec 2) = 0 := by simp [qcvx2Obj, hz0]
    by_cases hγ : 0 < γ
    · refine ⟨Arr.ofList [-1, 0], γ ^ 2, false, γ, o, by simp only [qcvx2Fixed, if_neg h00, if_pos hγ], ⟨h1, h2⟩,
        ⟨pair_shape _ _, ?_, rfl, ?_, by simp⟩, Or.inl (by pair_norm)⟩
      · simp only [Bool.false_eq_true, false_iff]
        rintro ⟨-, h⟩
        linarith
      · intro _
        refine ⟨by positivity, fun z hz hz2 => ?_⟩
        have p1 := qcvx2_pos hz
        have := (qcvx2_obj_iff (by linarith)).1 hz2
        have hs := Real.mul_self_sqrt hz.2.2
        have : γ ≤ √(z 0) := by nlinarith
        pair_fact
        rw [hz0]
        nlinarith
    · refine ⟨Arr.ofList [-1, 0], 0, true, 0, o, by simp only [qcvx2Fixed, if_neg h00, if_neg hγ], ⟨h1, h2⟩,
        ⟨pair_shape _ _, ?_, ?_, by simp, ?_⟩, Or.inl (by pair_norm)⟩
      · simp only [true_iff]
        exact ⟨hF, by linarith⟩
      · simp [hobj]
      · intro _
        refine ⟨rfl, fun z hz _ => ?_⟩
        pair_fact
        rw [hz0]
        linarith [hz.2.2]

/-- a run with a tripwire panics or is the run of every oracle that agrees inside -/
theorem onlyAt_run {Ω : Type} {P : Arr ℝ → Bool} {orc orc' : OracleOptim Ω (Arr ℝ) (SingleCut ℝ) ℝ}
    (hag : ∀ w x γ, P x = true → orc.assess w x γ = orc'.assess w x γ) (tol : ℝ) (m : Nat) :
    ∀ (n0 : Nat) (xb : Option (Arr ℝ)) (w : Ω) (e : Ell ℝ) (γ : ℝ),
      optimLoop (orc.onlyAt P) Ell.space tol m n0 xb w e γ = .panic ∨
      optimLoop orc Ell.space tol m n0 xb w e γ = optimLoop orc' Ell.space tol m n0 xb w e γ := by
  induction m with
  | zero => intro n0 xb w e γ; exact Or.inr rfl
  | succ m ih =>
    intro n0 xb w e γ
    simp only [optimLoop]
    cases hP : P (Ell.space (T := SingleCut ℝ).xc e) with
    | false => left; simp [OracleOptim.onlyAt, hP]
    | true =>
      have hg : (orc.onlyAt P).assess w (Ell.space (T := SingleCut ℝ).xc e) γ =
        orc'.assess w (Ell.space (T := SingleCut ℝ).xc e) γ := by simp [OracleOptim.onlyAt, hP, hag _ _ _ hP]
      rw [hg, hag _ _ _ hP]
      rcases orc'.assess w (Ell.space (T := SingleCut ℝ).xc e) γ with ⟨⟨⟨c, s⟩, γ', w'⟩⟩ | _
      · simp only [Res.ok_bind]
        rcases (if s = true then (Ell.space (T := SingleCut ℝ)).updateCentral e c
          else (Ell.space (T := SingleCut ℝ)).updateBias e c) with ⟨⟨st, e'⟩⟩ | _
        · simp only [Res.ok_bind]
          split
          · exact Or.inr rfl
          · exact ih _ _ _ _ _
        · exact Or.inr rfl
      · exact Or.inr rfl

/-- **C83** (quasicvx2, solved; partial: up to runs that query a feasible point with `x = 0`)  From every reachable position
of the counter, every ellipsoid with the maximiser `(1/2, e^(1/2))` in its interior and every `γ` up to the optimal value
`γ* = e^(-1/2)/√2`: for every `ε > 0` there are a number of iterations and a tolerance from which on `cutting_plane_optim`
returns a value in `[γ* - ε, γ*]`, and a returned point is feasible and attains it - or the run asks for the value at a
feasible point with `x = 0`. -/
theorem C83_quasicvx2_solved_partial (o : Int) (h1 : -1 ≤ o) (h2 : o < 3) (e : Ell ℝ) (he : e.Valid 2)
    (hin : qcvx2Opt ∈ interior (e.region 2)) {γ : ℝ} (hγ : γ ≤ Real.exp (-(1 / 2)) / √2) {ε : ℝ} (hε : 0 < ε)
    (P : Arr ℝ → Bool) (hP : ∀ x, P x = true ↔ ¬ (x.toVec 2 0 = 0 ∧ x.toVec 2 ∈ qcvx2F)) :
    ∃ (N : Nat) (tol0 : ℝ), 0 < tol0 ∧ ∀ opts : Options ℝ, N ≤ opts.maxIters → opts.tolerance ≤ tol0 →
      cuttingPlaneOptim (qcvx2Oracle.onlyAt P) Ell.space o e γ opts = .panic ∨
      ∃ xb k γ' o' e', cuttingPlaneOptim qcvx2Oracle Ell.space o e γ opts = .ok ((xb, k), γ', o', e') ∧
        Real.exp (-(1 / 2)) / √2 - ε ≤ γ' ∧ γ' ≤ Real.exp (-(1 / 2)) / √2 ∧
        ((xb = none ∧ γ' = γ) ∨ ∃ x, xb = some x ∧ x.toVec 2 ∈ qcvx2F ∧ qcvx2Obj (x.toVec 2) = γ') := by
  obtain ⟨N, tol0, ht, h⟩ := C61_epsilon_optimal_smooth o e γ (qcvx2Fixed_optimizes _) ⟨h1, h2⟩ he qcvx2F_convex
    qcvx2F_interior qcvx2Opt_mem qcvx2Opt_max qcvx2Obj_continuousAt hin (by rw [qcvx2Opt_value]; exact hγ) hε
  refine ⟨N, tol0, ht, fun opts o1 o2 => ?_⟩
  have hag : ∀ w x γ, P x = true → qcvx2Oracle.assess w x γ = qcvx2Fixed.assess w x γ := by
    intro w x γ hx
    have hx := (hP x).1 hx
    have : x.toVec 2 0 ≠ 0 ∨ x.toVec 2 ∉ qcvx2F := by tauto
    simp only [qcvx2Fixed, if_pos this]
  rcases onlyAt_run hag opts.tolerance opts.maxIters 0 none o e γ with hp | hp
  · exact Or.inl hp
  · right
    obtain ⟨xb, k, γ', o', e', a1, a2, a3, a4⟩ := h opts o1 o2
    rw [qcvx2Opt_value] at a2 a3
    refine ⟨xb, k, γ', o', e', ?_, a2, a3, a4⟩
    unfold cuttingPlaneOptim at a1 ⊢
    rw [hp]
    exact a1

/-! ### what happens at `x = 0` -/

/-- **C83** (quasicvx2 at `x = 0`)  In checked arithmetic, where a division by zero is undefined: at every point `(0, y)` with
`y ≥ 1`, which is feasible, the answer of `MyQuasicvxOracle` has an undefined first gradient entry, whatever `γ` is. -/
theorem C83_quasicvx2_zero (o : Int) (h1 : -1 ≤ o) (h2 : o < 3) (y : ℝ) (hy : 1 ≤ y) (γ : Chk) :
    ∃ g1 beta shrunk γ' o', qcvx2Assess o (Arr.ofList [.val 0, .val y]) γ =
      .ok (((Arr.ofList [Chk.bad, g1], ⟨beta⟩), shrunk), γ', o') ∧ (-1 ≤ o' ∧ o' < 3) := by
  have c0 : ∀ a : ℝ, a ≤ 0 → Scalar.lt (0 : Chk) (.val a) = false := by
    intro a ha
    show Chk.lt (.val 0) (.val a) = false
    simp [Chk.lt, ha]
  obtain ⟨r, idx', hr, hin, -, hn, hs⟩ := rrLoop_test (lo := 0) (hi := 3) (idx := o)
    (body := qcvx2Body (Chk.val 0) (.val y)) (t := fun _ => none) (by omega) (by omega) (by
      intro i hi1 hi2
      have e0 : Scalar.exp (Chk.val 0) = .val 1 := by show Chk.val (Real.exp 0) = _; rw [Real.exp_zero]
      obtain rfl | rfl | rfl : i = 0 ∨ i = 1 ∨ i = 2 := by omega
      · simp only [qcvx2Body, if_true, cutIf, Scalar.gt, e0, Chk.sub_val]
        rw [c0 _ (by linarith)]; rfl
      · simp only [qcvx2Body, one_ne_zero, if_false, if_true, cutIf, Scalar.gt]
        show (if Scalar.lt (0 : Chk) (.val (-y)) = true then _ else _) = _
        rw [c0 _ (by linarith)]; rfl
      · have : (2 : Int) ≠ 0 ∧ (2 : Int) ≠ 1 := by decide
        simp only [qcvx2Body, this.1, this.2, if_false, if_true, cutIf, Scalar.gt]
        show (if Scalar.lt (0 : Chk) (.val (-0)) = true then _ else _) = _
        rw [c0 _ (by simp)]; rfl)
  obtain rfl : r = none := by
    cases r with
    | none => rfl
    | some b => have := (hs b rfl).2.2; simp at this
  have hr' : rrLoop 0 3 (qcvx2Body (Chk.val 0) (.val y)) 3 o () = .ok (none, idx', ()) := hr
  have hid := hin (by norm_num)
  have hidx : -1 ≤ idx' ∧ idx' < 3 := ⟨by omega, hid.2⟩
  have hbad : -(dec 5 1 : Chk) / Scalar.sqrt (Chk.val 0) = .bad := by
    have : Scalar.sqrt (Chk.val 0) = .val 0 := by
      show Chk.mapIf (0 ≤ ·) Real.sqrt (.inf true) (.val 0) = _
      simp [Chk.mapIf]
    rw [this]
    show Chk.div (.val _) (.val 0) = _
    simp [Chk.div]
  have i0 : (Arr.ofList [Chk.val 0, .val y]).idx 0 = .ok (.val 0) := rfl
  have i1 : (Arr.ofList [Chk.val 0, .val y]).idx 1 = .ok (.val y) := rfl
  simp only [qcvx2Assess, i0, i1, Res.ok_bind, hr', hbad]
  split
  · exact ⟨_, _, _, _, _, rfl, hidx⟩
  · exact ⟨_, _, _, _, _, rfl, hidx⟩

/-- a centre made of NaN is answered "better point found" -/
theorem qcvx2_nan {α : Type} [Scalar α] {N : α → Prop} (hN : NanLaws N) (x : Arr α) (hx : x.IsVecShape 2) (h : x.AllNan N)
    (γ : α) (o : Int) (h1 : -1 ≤ o) (h2 : o < 3) :
    ∃ g γ' o', qcvx2Assess o x γ = .ok (((g, ⟨0⟩), true), γ', o') ∧ g.IsVecShape 2 ∧ N γ' ∧ -1 ≤ o' ∧ o' < 3 := by
  obtain ⟨a, b, h0, h1', ha, hb⟩ := pair_nan hx h
  obtain ⟨r, idx', hr, hin, -, -, hs⟩ := rrLoop_test (lo := 0) (hi := 3) (idx := o) (body := qcvx2Body a b)
    (t := fun _ => none) (by omega) (by omega) (by
      intro j hj1 hj2
      obtain rfl | rfl | rfl : j = 0 ∨ j = 1 ∨ j = 2 := by omega
      · exact cutIf_nan hN (hN.sub_right _ hb) _
      · exact cutIf_nan hN (hN.neg hb) _
      · exact cutIf_nan hN (hN.neg ha) _)
  obtain rfl : r = none := by
    cases r with
    | none => rfl
    | some b => have := (hs b rfl).2.2; simp at this
  have hr' : rrLoop 0 3 (qcvx2Body a b) 3 o () = .ok (none, idx', ()) := hr
  have hid := hin (by norm_num)
  have hf : N (-Scalar.sqrt a + γ * b) := hN.add_left (hN.neg (hN.sqrt ha)) _
  refine ⟨Arr.ofList [-(dec 5 1) / Scalar.sqrt a, Scalar.sqrt a / b], Scalar.sqrt a / b, idx', ?_, ⟨rfl, rfl, rfl⟩,
    hN.div_left (hN.sqrt ha) _, by omega, hid.2⟩
  simp only [qcvx2Assess, h0, h1', Res.ok_bind, hr', Scalar.gt, hN.lt_right _ hf, Bool.false_eq_true, if_false]

theorem qcvx2_nan_loop {α : Type} [Scalar α] {N : α → Prop} (hN : NanLaws N) (tol : α) (m : Nat) :
    ∀ (n0 : Nat) (xb : Option (Arr α)) (o : Int) (e : Ell α) (γ : α), -1 ≤ o → o < 3 → e.Shaped 2 → e.Spoilt N →
      e.xc.AllNan N → (1 ≤ m ∨ ∃ x, xb = some x ∧ x.AllNan N) →
      ∃ x γ' o' e', optimLoop qcvx2Oracle Ell.space tol m n0 xb o e γ = .ok ((some x, n0 + m), γ', o', e') ∧ x.AllNan N := by
  induction m with
  | zero =>
    intro n0 xb o e γ _ _ _ _ _ h
    obtain ⟨x, rfl, hx⟩ := h.resolve_left (by omega)
    exact ⟨x, γ, o, e, rfl, hx⟩
  | succ m ih =>
    intro n0 xb o e γ h1 h2 he hsp hx _
    obtain ⟨g, γ', o', hq, hg, -, h3, h4⟩ := qcvx2_nan hN e.xc he.2 hx γ o h1 h2
    have hq : qcvx2Oracle.assess o ((Ell.space (T := SingleCut α)).xc e) γ = .ok (((g, ⟨0⟩), true), γ', o') := hq
    obtain ⟨e1, u1, u2, u3, u4, u5⟩ := Ell.spoilt_step hN (n := 2) (by omega) .central e he hsp g hg ⟨0⟩
    have u1 : (Ell.space (T := SingleCut α)).updateCentral e (g, ⟨0⟩) = .ok (.success, e1) := u1
    have hlt : Scalar.lt ((Ell.space (T := SingleCut α)).tsq e1) tol = false := hN.lt_left u5 _
    obtain ⟨x, γ2, o2, e2, h5, h6⟩ := ih (n0 + 1) (some e.xc) o' e1 γ' h3 h4 u2 u4 u3 (Or.inr ⟨_, rfl, hx⟩)
    refine ⟨x, γ2, o2, e2, ?_, h6⟩
    rw [optimLoop, hq]
    simp only [Res.ok_bind, if_true, u1, hlt, bne_self_eq_false, Bool.or_self, Bool.false_eq_true, if_false]
    rw [show n0 + (m + 1) = n0 + 1 + m by omega]
    exact h5

/-- **C83** (quasicvx2 started at `x = 0`)  In checked arithmetic: if the initial centre is `(0, y)` with `y ≥ 1`, a feasible
point, then `cutting_plane_optim` with at least two iterations runs to the iteration limit and returns a "best point" with no
defined coordinate, whatever the ellipsoid and `γ` are. -/
theorem C83_quasicvx2_zero_run (o : Int) (h1 : -1 ≤ o) (h2 : o < 3) (y : ℝ) (hy : 1 ≤ y) (γ : Chk) (e : Ell Chk)
    (he : e.Shaped 2) (hxc : e.xc = Arr.ofList [.val 0, .val y]) (opts : Options Chk) (hm : 2 ≤ opts.maxIters) :
    ∃ x γ' o' e', cuttingPlaneOptim qcvx2Oracle Ell.space o e γ opts = .ok ((some x, opts.maxIters), γ', o', e') ∧
      x.AllNan fun a : Chk => a = .bad := by
  obtain ⟨m, hm'⟩ : ∃ m, opts.maxIters = m + 1 := ⟨opts.maxIters - 1, by omega⟩
  obtain ⟨g1, b, s, γ1, o1, hq, h3, h4⟩ := C83_quasicvx2_zero o h1 h2 y hy γ
  have hq : qcvx2Oracle.assess o ((Ell.space (T := SingleCut Chk)).xc e) γ =
    .ok (((Arr.ofList [Chk.bad, g1], ⟨b⟩), s), γ1, o1) := by
    show qcvx2Assess o e.xc γ = _
    rw [hxc]; exact hq
  have hg : (Arr.ofList [Chk.bad, g1]).IsVecShape 2 := ⟨rfl, rfl, rfl⟩
  have hsome : (Arr.ofList [Chk.bad, g1]).SomeNan fun a : Chk => a = .bad := ⟨.bad, by simp [Arr.ofList], rfl⟩
  have ht := Ell.tsq_nan chk_nan he hg (Or.inl hsome)
  have hup : ∀ k : UpdateKind, ∃ e', (Ell.space (T := SingleCut Chk)).update k e (Arr.ofList [Chk.bad, g1], ⟨b⟩) =
      .ok (.success, e') ∧ e'.Shaped 2 ∧ e'.xc.AllNan (fun a : Chk => a = .bad) ∧ e'.Spoilt (fun a : Chk => a = .bad) ∧
      e'.tsq = .bad := by
    intro k
    obtain ⟨ρ, σ, δ, c1, c2, -⟩ := single_nan chk_nan e.helper k b _ (Or.inl ht)
    obtain ⟨e', h5, h6, -, h7, h8, h9⟩ := Ell.update_nan chk_nan (n := 2) (by omega) k e he _ hg (⟨b⟩ : SingleCut Chk)
      ⟨ρ, σ, δ, c1, c2, Or.inr (Or.inl hsome)⟩
    exact ⟨e', h5, h6, h7, h8, by rw [h9]; exact ht⟩
  obtain ⟨e1, u1, u2, u3, u4, u5⟩ := hup (if s then .central else .bias)
  have u1 : (if s = true then (Ell.space (T := SingleCut Chk)).updateCentral e (Arr.ofList [Chk.bad, g1], ⟨b⟩)
      else (Ell.space (T := SingleCut Chk)).updateBias e (Arr.ofList [Chk.bad, g1], ⟨b⟩)) = .ok (.success, e1) := by
    cases s <;> exact u1
  have hlt : Scalar.lt ((Ell.space (T := SingleCut Chk)).tsq e1) opts.tolerance = false := chk_nan.lt_left u5 _
  obtain ⟨x, γ2, o2, e2, h5, h6⟩ := qcvx2_nan_loop chk_nan opts.tolerance m 1
    (if s = true then some ((Ell.space (T := SingleCut Chk)).xc e) else none) o1 e1 γ1 h3 h4 u2 u4 u3 (Or.inl (by omega))
  refine ⟨x, γ2, o2, e2, ?_, h6⟩
  rw [cuttingPlaneOptim, hm', optimLoop, hq]
  simp only [Res.ok_bind, u1, hlt, bne_self_eq_false, Bool.or_self, Bool.false_eq_true, if_false]
  rw [show m + 1 = 1 + m by omega]
  exact h5

end Ellalgo
