import Verif.Model.Quasicvx
import Verif.Lib.Pair
import Verif.Props.Solve
import Mathlib.Analysis.SpecialFunctions.Exp

/-! C52: the quasiconvex example oracle, and C57: solving it end to end. -/

namespace Ellalgo
open Matrix

/-- the feasible set `{(s, l) | s² ≤ l}` of `src/quasicvx.rs` (variables `√x` and `log y`: `x ≤ log y`) -/
def qcvxF : Set (Fin 2 → ℝ) := {z | z 0 ^ 2 ≤ z 1}
/-- its objective `√x / y` -/
noncomputable def qcvxObj (z : Fin 2 → ℝ) : ℝ := z 0 / Real.exp (z 1)

/-- the hidden round-robin position is one the code can reach -/
def QcvxOracle.Reach (o : QcvxOracle) : Prop := -1 ≤ o.idx ∧ o.idx < 2

theorem qcvx_obj_iff {γ : ℝ} {z : Fin 2 → ℝ} : γ ≤ qcvxObj z ↔ -z 0 + γ * Real.exp (z 1) ≤ 0 := by
  rw [qcvxObj, le_div_iff₀ (Real.exp_pos _)]
  constructor <;> intro h <;> linarith

/-- tangent inequality of `exp` -/
theorem exp_tangent (a b : ℝ) : Real.exp a + Real.exp a * (b - a) ≤ Real.exp b := by
  have h := Real.add_one_le_exp (b - a)
  have h2 : Real.exp b = Real.exp a * Real.exp (b - a) := by rw [← Real.exp_add]; congr 1; ring
  rw [h2]
  nlinarith [Real.exp_pos a]

/-- **C52** Every query of `quasicvx::MyOracle`, from any reachable internal position and with `γ ≥ 0`, gives a correct
answer for "maximise `√x/y` subject to `x ≤ log y`"; the gradient has norm at least 1, and the internal position
stays reachable. -/
theorem C52_quasicvx :
    Maximizes 2 (QcvxOracle.oracle (α := ℝ)) (fun o γ => o.Reach ∧ 0 ≤ γ) qcvxF qcvxObj 1 := by
  rintro o x γ ⟨⟨hi1, hi2⟩, hγ⟩ hx
  obtain ⟨hx0, hx1⟩ := idx_pair hx
  set v := x.toVec 2 with hv
  obtain ⟨r, idx', hr, hin, -, hnone, hsome⟩ := rrLoop_test (lo := 0) (hi := 2) (idx := o.idx)
    (body := qcvxBody (v 0) (v 1) γ)
    (t := fun i => if i = 0 then (if 0 < v 0 * v 0 - v 1 then some (Arr.ofList [2 * v 0, -1], ⟨v 0 * v 0 - v 1⟩) else none)
      else (if 0 < -v 0 + γ * Real.exp (v 1) then
        some (Arr.ofList [-1, γ * Real.exp (v 1)], ⟨-v 0 + γ * Real.exp (v 1)⟩) else none))
    (by omega) (by omega)
    (by
      intro i h1 h2
      obtain rfl | rfl : i = 0 ∨ i = 1 := by omega
      · simp only [qcvxBody, if_true, Scalar.real_gt, decide_eq_true_eq, nat]
        split <;> rfl
      · simp only [qcvxBody, one_ne_zero, if_false, if_true, Scalar.real_gt, decide_eq_true_eq, Scalar.real_exp]
        split <;> rfl)
  have hreach : QcvxOracle.Reach ⟨idx'⟩ := by
    have := hin (by norm_num)
    exact ⟨by show (-1 : ℤ) ≤ idx'; omega, this.2⟩
  have hr' : rrLoop 0 2 (qcvxBody (v 0) (v 1) γ) 2 o.idx () = .ok (r, idx', ()) := hr
  have hass : QcvxOracle.oracle.assess o x γ = (match r with
      | some cut => .ok ((cut, false), γ, ⟨idx'⟩)
      | none => .ok (((Arr.ofList [-1, v 0], ⟨0⟩), true), v 0 / Real.exp (v 1), ⟨idx'⟩)) := by
    simp only [QcvxOracle.oracle, QcvxOracle.assess, hx0, hx1, Res.ok_bind, hr', Scalar.real_exp]
    cases r <;> rfl
  cases r with
  | some cut =>
    obtain ⟨h1, h2, ht⟩ := hsome cut rfl
    have hcut : (idx' = 0 ∧ 0 < v 0 * v 0 - v 1 ∧ cut = (Arr.ofList [2 * v 0, -1], ⟨v 0 * v 0 - v 1⟩)) ∨
        (idx' = 1 ∧ 0 < -v 0 + γ * Real.exp (v 1) ∧
          cut = (Arr.ofList [-1, γ * Real.exp (v 1)], ⟨-v 0 + γ * Real.exp (v 1)⟩)) := by
      obtain rfl | rfl : idx' = 0 ∨ idx' = 1 := by omega
      · simp only [if_true] at ht
        split at ht
        · exact Or.inl ⟨rfl, by assumption, by simpa using ht.symm⟩
        · simp at ht
      · simp only [one_ne_zero, if_false] at ht
        split at ht
        · exact Or.inr ⟨rfl, by assumption, by simpa using ht.symm⟩
        · simp at ht
    rcases hcut with ⟨-, hf, rfl⟩ | ⟨-, hf, rfl⟩
    · refine ⟨_, _, false, γ, ⟨idx'⟩, hass, ⟨hreach, hγ⟩, ⟨pair_shape _ _, ?_, rfl, ?_, by simp⟩, ?_, ?_⟩
      · simp only [Bool.false_eq_true, false_iff, not_and]
        intro h
        have : v 0 ^ 2 ≤ v 1 := h
        nlinarith
      · intro _
        refine ⟨hf, fun z hz _ => ?_⟩
        have hz' : z 0 ^ 2 ≤ z 1 := hz
        rw [pair_toVec, pair_dot]
        simp only [Pi.sub_apply]
        nlinarith [sq_nonneg (z 0 - v 0)]
      · rw [pair_toVec]
        intro h
        have := congrFun h 1
        simp at this
      · rw [pair_toVec, normSq, pair_dot]
        simp only [cons_val_zero, cons_val_one]
        nlinarith [sq_nonneg (v 0)]
    · refine ⟨_, _, false, γ, ⟨idx'⟩, hass, ⟨hreach, hγ⟩, ⟨pair_shape _ _, ?_, rfl, ?_, by simp⟩, ?_, ?_⟩
      · simp only [Bool.false_eq_true, false_iff, not_and, not_le]
        intro _
        by_contra hcon
        have := qcvx_obj_iff.1 (not_lt.1 hcon)
        linarith
      · intro _
        refine ⟨hf, fun z _ hz => ?_⟩
        have hz' := qcvx_obj_iff.1 hz
        rw [pair_toVec, pair_dot]
        simp only [Pi.sub_apply]
        have := mul_le_mul_of_nonneg_left (exp_tangent (v 1) (z 1)) hγ
        nlinarith
      · rw [pair_toVec]
        intro h
        have := congrFun h 0
        simp at this
      · rw [pair_toVec, normSq, pair_dot]
        simp only [cons_val_zero, cons_val_one]
        nlinarith [sq_nonneg (γ * Real.exp (v 1))]
  | none =>
    have t0 := hnone rfl 0 (by norm_num) (by norm_num)
    have t1 := hnone rfl 1 (by norm_num) (by norm_num)
    simp only [if_true, ite_eq_right_iff, reduceCtorEq, imp_false, not_lt] at t0
    simp only [one_ne_zero, if_false, ite_eq_right_iff, reduceCtorEq, imp_false, not_lt] at t1
    have hobj : γ ≤ qcvxObj v := qcvx_obj_iff.2 t1
    refine ⟨_, _, true, _, ⟨idx'⟩, hass, ⟨hreach, hγ.trans hobj⟩, ⟨pair_shape _ _, ?_, rfl, by simp, ?_⟩, ?_, ?_⟩
    · simp only [true_iff]
      refine ⟨?_, hobj⟩
      show v 0 ^ 2 ≤ v 1
      nlinarith
    · intro _
      refine ⟨rfl, fun z _ hz => ?_⟩
      have hz' := qcvx_obj_iff.1 hz
      rw [pair_toVec, pair_dot]
      simp only [Pi.sub_apply]
      have hpos : 0 ≤ v 0 / Real.exp (v 1) := hγ.trans hobj
      have := mul_le_mul_of_nonneg_left (exp_tangent (v 1) (z 1)) hpos
      have e : v 0 / Real.exp (v 1) * Real.exp (v 1) = v 0 := by
        rw [div_mul_cancel₀ _ (Real.exp_pos _).ne']
      have : v 0 + v 0 * (z 1 - v 1) ≤ v 0 / Real.exp (v 1) * Real.exp (z 1) := by
        calc v 0 + v 0 * (z 1 - v 1)
            = v 0 / Real.exp (v 1) * (Real.exp (v 1) + Real.exp (v 1) * (z 1 - v 1)) := by
              rw [mul_add, ← mul_assoc, e]
          _ ≤ _ := this
      linarith
    · rw [pair_toVec]
      intro h
      have := congrFun h 0
      simp at this
    · rw [pair_toVec, normSq, pair_dot]
      simp only [cons_val_zero, cons_val_one]
      nlinarith [sq_nonneg (v 0)]

/-! ## C57: the example is solved -/

/-- the maximiser `(1/√2, 1/2)` -/
noncomputable def qcvxOpt : Fin 2 → ℝ := ![1 / √2, 1 / 2]

theorem qcvxOpt_mem : qcvxOpt ∈ qcvxF := by
  show (1 / √2) ^ 2 ≤ (1 / 2 : ℝ)
  rw [div_pow, Real.sq_sqrt (by norm_num)]
  norm_num

theorem qcvxOpt_value : qcvxObj qcvxOpt = Real.exp (-(1 / 2)) / √2 := by
  show (1 / √2) / Real.exp (1 / 2) = _
  rw [Real.exp_neg]
  field_simp

theorem qcvxOpt_max : ∀ z ∈ qcvxF, qcvxObj z ≤ qcvxObj qcvxOpt := by
  intro z hz
  have hz' : z 0 ^ 2 ≤ z 1 := hz
  have h2 : (0 : ℝ) < √2 := by positivity
  have hs2 : √2 * √2 = 2 := Real.mul_self_sqrt (by norm_num)
  rw [qcvxOpt_value, qcvxObj, div_le_div_iff₀ (Real.exp_pos _) h2]
  -- u = √2 z0 ≤ exp((u²-1)/2)
  have h1 : z 0 * √2 ≤ Real.exp (z 0 ^ 2 - 1 / 2) := by
    refine le_trans ?_ (Real.add_one_le_exp _)
    nlinarith [sq_nonneg (z 0 * √2 - 1)]
  refine h1.trans ?_
  rw [← Real.exp_add]
  apply Real.exp_le_exp.2
  linarith

theorem qcvxF_convex : Convex ℝ qcvxF := by
  intro x hx y hy a b ha hb hab
  have hx' : x 0 ^ 2 ≤ x 1 := hx
  have hy' : y 0 ^ 2 ≤ y 1 := hy
  show (a * x 0 + b * y 0) ^ 2 ≤ a * x 1 + b * y 1
  have : (a * x 0 + b * y 0) ^ 2 ≤ a * x 0 ^ 2 + b * y 0 ^ 2 := by
    have hb' : b = 1 - a := by linarith
    subst hb'
    nlinarith [mul_nonneg (mul_nonneg ha hb) (sq_nonneg (x 0 - y 0))]
  nlinarith

theorem qcvxF_interior : (interior qcvxF).Nonempty := by
  refine ⟨![0, 1], ?_⟩
  rw [mem_interior]
  refine ⟨{z | z 0 ^ 2 < z 1}, fun z hz => (le_of_lt hz : z 0 ^ 2 ≤ z 1), ?_, ?_⟩
  · exact isOpen_lt ((continuous_apply 0).pow 2) (continuous_apply 1)
  · show (0 : ℝ) ^ 2 < 1
    norm_num

theorem qcvxObj_continuous : Continuous qcvxObj :=
  (continuous_apply 0).div (Real.continuous_exp.comp (continuous_apply 1)) fun _ => (Real.exp_pos _).ne'

/-- **C57** The quasiconvex example is solved: from `γ ∈ [0, γ*]`, any reachable internal position and any ellipsoid with
the maximiser in its interior, for every `ε > 0` there are a number of iterations and a tolerance such that
`cutting_plane_optim` returns a value in `[γ* - ε, γ*]` where `γ* = e^(-1/2)/√2`; a returned point is feasible and
attains the value. -/
theorem C57_quasicvx_solved (o : QcvxOracle) (ho : o.Reach) (e : Ell ℝ) (he : e.Valid 2)
    (hin : qcvxOpt ∈ interior (e.region 2)) {γ : ℝ} (hγ0 : 0 ≤ γ) (hγ : γ ≤ Real.exp (-(1 / 2)) / √2)
    {ε : ℝ} (hε : 0 < ε) :
    ∃ (N : Nat) (tol0 : ℝ), 0 < tol0 ∧ ∀ opts : Options ℝ, N ≤ opts.maxIters → opts.tolerance ≤ tol0 →
      ∃ xb k γ' w' e', cuttingPlaneOptim QcvxOracle.oracle Ell.space o e γ opts = .ok ((xb, k), γ', w', e') ∧
        Real.exp (-(1 / 2)) / √2 - ε ≤ γ' ∧ γ' ≤ Real.exp (-(1 / 2)) / √2 ∧
        ((xb = none ∧ γ' = γ) ∨ ∃ x, xb = some x ∧ x.toVec 2 ∈ qcvxF ∧ qcvxObj (x.toVec 2) = γ') := by
  have := C56_epsilon_optimal C52_quasicvx one_pos o e γ ⟨ho, hγ0⟩ he qcvxF_convex qcvxF_interior qcvxOpt_mem
    qcvxOpt_max qcvxObj_continuous.continuousAt hin (by rw [qcvxOpt_value]; exact hγ) hε
  rw [qcvxOpt_value] at this
  exact this

/-- the default oracle is reachable -/
theorem qcvx_default_reach : QcvxOracle.default.Reach := ⟨le_refl _, by decide⟩

end Ellalgo
