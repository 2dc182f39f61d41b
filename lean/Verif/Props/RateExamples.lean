import Verif.Props.Rate
import Verif.Props.ExampleProps
import Verif.Props.EllReal
import Mathlib.Analysis.Complex.ExponentialBounds

/-! C72 applied to the linear examples exactly as the repository's tests set them up (example1.rs:38-50,
example1_rr.rs:62-74, example4.rs:65-77): `Ell::new_with_scalar(10.0, [0, 0])`. -/

namespace Ellalgo
open Matrix

/-- `Ell::new_with_scalar(10.0, [0, 0])` -/
theorem disc10 : ∃ e, Ell.newWithScalar (10 : ℝ) (Arr.ofList [0, 0]) = .ok e ∧ e.Valid 2 ∧
    e.region 2 = {x | x 0 ^ 2 + x 1 ^ 2 ≤ 10} ∧ (e.kappa • e.M 2).det = 100 := by
  obtain ⟨e, h1, h2, h3⟩ := C13_valid_with_scalar (n := 2) 10 (Arr.ofList [0, 0]) le_rfl (pair_shape _ _) (by norm_num)
  refine ⟨e, h1, h2, ?_, ?_⟩
  · rw [h3]
    ext z
    rw [Set.mem_ofPred_eq, Set.mem_ofPred_eq, pair_toVec, normSq, dotProduct, Fin.sum_univ_two]
    simp [sq]
  · obtain ⟨y, a1, a2⟩ := eye_spec (α := ℝ) 2
    have hl : (Arr.ofList [(0 : ℝ), 0]).len = 2 := rfl
    simp only [Ell.newWithScalar, hl, a1, Res.ok_bind, Res.ok.injEq] at h1
    subst h1
    have hy : y.toMat 2 2 = 1 := by
      rw [a2.toMat]
      ext i j
      simp only [of_apply, one_apply, Fin.ext_iff]
    show ((10 : ℝ) • y.toMat 2 2).det = 100
    rw [hy, det_smul, det_one]
    norm_num

theorem log_ten_lt : Real.log 10 < 3 := by
  rw [Real.log_lt_iff_lt_exp (by norm_num)]
  have h := Real.exp_one_gt_d9
  have : Real.exp 3 = Real.exp 1 ^ 3 := by rw [← Real.exp_nat_mul]; norm_num
  rw [this]
  have h2 : (2.7 : ℝ) ≤ Real.exp 1 := by linarith
  calc (10 : ℝ) < 2.7 ^ 3 := by norm_num
    _ ≤ _ := by gcongr

theorem mem_ball_pair {p : Fin 2 → ℝ} {r : ℝ} {z : Fin 2 → ℝ} (h : z ∈ ball p r) :
    (z 0 - p 0) ^ 2 + (z 1 - p 1) ^ 2 ≤ r ^ 2 := by
  have h' : normSq (z - p) ≤ r ^ 2 := h
  rw [normSq, dotProduct, Fin.sum_univ_two] at h'
  simp only [Pi.sub_apply] at h'
  linarith

theorem ex1_concave : ConcaveOn ℝ ex1F ex1Obj :=
  ⟨ex1F_convex, fun x _ y _ a b _ _ _ => by
    simp only [ex1Obj, smul_eq_mul, Pi.add_apply, Pi.smul_apply]; apply le_of_eq; ring⟩

theorem ex4_concave : ConcaveOn ℝ ex4F ex4Obj :=
  ⟨ex4F_convex, fun x _ y _ a b _ _ _ => by
    simp only [ex4Obj, smul_eq_mul, Pi.add_apply, Pi.smul_apply]; apply le_of_eq; ring⟩

/-- the iteration bound for accuracy `10^(-k)` relative to radius and range -/
theorem iter_bound {k : Nat} {N : ℝ} (h : 9 * (2 + 4 * (k : ℝ)) ≤ N) {d x : ℝ} (hd : d = 100) (hx : x = (1 / 10) ^ k) :
    (((2 : Nat) : ℝ) + 1) * Real.log (d / x ^ (2 * 2)) < N := by
  have e : d / x ^ (2 * 2) = 10 ^ (2 + 4 * k) := by
    rw [hd, hx, ← pow_mul, div_pow, one_pow, one_div, div_inv_eq_mul, pow_add]
    ring
  rw [e, Real.log_pow]
  push_cast
  have := log_ten_lt
  have hp : (0 : ℝ) < 2 + 4 * k := by positivity
  nlinarith

/-- a feasible ball for `example1`, and the range of the objective -/
theorem ex1_ball : ∀ z ∈ ball ![(1 : ℝ), -1] (1 / 2), z ∈ ex1F ∧ z 0 ^ 2 + z 1 ^ 2 ≤ 10 ∧ 3 - 4 ≤ ex1Obj z := by
  intro z hz
  have h := mem_ball_pair hz
  simp only [cons_val_zero, cons_val_one] at h
  refine ⟨⟨?_, ?_⟩, ?_, ?_⟩
  · nlinarith [sq_nonneg (z 0 - 1 - (z 1 - -1)), sq_nonneg (z 0 + z 1 - 1)]
  · nlinarith [sq_nonneg (z 0 - 1 + (z 1 - -1)), sq_nonneg (z 0 - z 1 - 1)]
  · nlinarith [sq_nonneg (z 0 - 1 - (z 1 - -1)), sq_nonneg (z 0 - z 1 - 3)]
  · simp only [ex1Obj]
    nlinarith [sq_nonneg (z 0 - 1 - (z 1 - -1)), sq_nonneg (z 0 + z 1 + 1)]

/-- the same for `example4` -/
theorem ex4_ball : ∀ z ∈ ball ![(0 : ℝ), -1] (1 / 2), z ∈ ex4F ∧ z 0 ^ 2 + z 1 ^ 2 ≤ 10 ∧ 12 - 12 ≤ ex4Obj z := by
  intro z hz
  have h := mem_ball_pair hz
  simp only [cons_val_zero, cons_val_one] at h
  refine ⟨⟨?_, ?_, ?_⟩, ?_, ?_⟩
  · nlinarith [sq_nonneg (z 0 + 1), sq_nonneg (z 1 + 1)]
  · nlinarith [sq_nonneg (z 0), sq_nonneg (z 1 + 2)]
  · nlinarith [sq_nonneg (z 0 - (z 1 - -1)), sq_nonneg (z 0 + z 1)]
  · nlinarith [sq_nonneg (z 0), sq_nonneg (z 1 + 2)]
  · simp only [ex4Obj]
    nlinarith [sq_nonneg (3 * z 0 + 2 * (z 1 + 1)), sq_nonneg (2 * z 0 - 3 * (z 1 + 1) + 2)]

/-- **C72** `example1` as in its test: at least 200 iterations and a tolerance of at most `1e-10` give the optimal value
`3` to within `8e-5`, whatever the initial value (at most 3). -/
theorem C72_example1 {γ : ℝ} (hγ : γ ≤ 3) (opts : Options ℝ) (h1 : 200 ≤ opts.maxIters)
    (h2 : opts.tolerance ≤ 1 / 10 ^ 10) :
    ∃ e, Ell.newWithScalar (10 : ℝ) (Arr.ofList [0, 0]) = .ok e ∧
      ∃ xb k γ' e', cuttingPlaneOptim ex1Oracle Ell.space () e γ opts = .ok ((xb, k), γ', (), e') ∧
        3 - 8 / 10 ^ 5 ≤ γ' ∧ γ' ≤ 3 ∧
        ((xb = none ∧ γ' = γ) ∨ ∃ x, xb = some x ∧ x.toVec 2 ∈ ex1F ∧ ex1Obj (x.toVec 2) = γ') := by
  obtain ⟨e, he, hv, hreg, hdet⟩ := disc10
  obtain ⟨xb, k, γ', w', e', a1, a2, a3⟩ := C72_iterations_for_accuracy C58_example1 () e γ trivial hv ex1_concave
    (p := ![1, -1]) (r := 1 / 2) (V := 4) (ε := 8 / 10 ^ 5) (by norm_num) (fun z hz => (ex1_ball z hz).1)
    (fun z hz => by rw [hreg]; exact (ex1_ball z hz).2.1)
    (fun x hx _ z hz => by have := (ex1_ball z hz).2.2; have : ex1Obj x ≤ 3 := hx.1; linarith)
    (by norm_num) (by norm_num) opts (h2.trans (by norm_num))
    (iter_bound (k := 5) (by
      have : (200 : ℝ) ≤ opts.maxIters := by exact_mod_cast h1
      norm_num; linarith) hdet (by norm_num))
  have hb := a2 ![2, 1] ⟨by norm_num, by norm_num⟩ (by rw [hreg]; norm_num)
  refine ⟨e, he, xb, k, γ', e', a1, by norm_num [ex1Obj] at hb; linarith, ?_, a3⟩
  rcases a3 with ⟨-, rfl⟩ | ⟨x, -, hx, rfl⟩
  · exact hγ
  · exact hx.1

/-- **C72** `example1` with `Options::default()` (2000 iterations, tolerance `1e-20`): accuracy `8e-10`. -/
theorem C72_example1_default {γ : ℝ} (hγ : γ ≤ 3) :
    ∃ e, Ell.newWithScalar (10 : ℝ) (Arr.ofList [0, 0]) = .ok e ∧
      ∃ xb k γ' e', cuttingPlaneOptim ex1Oracle Ell.space () e γ Options.default = .ok ((xb, k), γ', (), e') ∧
        3 - 8 / 10 ^ 10 ≤ γ' ∧ γ' ≤ 3 ∧
        ((xb = none ∧ γ' = γ) ∨ ∃ x, xb = some x ∧ x.toVec 2 ∈ ex1F ∧ ex1Obj (x.toVec 2) = γ') := by
  obtain ⟨e, he, hv, hreg, hdet⟩ := disc10
  obtain ⟨xb, k, γ', w', e', a1, a2, a3⟩ := C72_iterations_for_accuracy C58_example1 () e γ trivial hv ex1_concave
    (p := ![1, -1]) (r := 1 / 2) (V := 4) (ε := 8 / 10 ^ 10) (by norm_num) (fun z hz => (ex1_ball z hz).1)
    (fun z hz => by rw [hreg]; exact (ex1_ball z hz).2.1)
    (fun x hx _ z hz => by have := (ex1_ball z hz).2.2; have : ex1Obj x ≤ 3 := hx.1; linarith)
    (by norm_num) (by norm_num) Options.default (by simp only [Options.default, Scalar.real_dec]; norm_num)
    (iter_bound (k := 10) (by simp only [Options.default]; norm_num) hdet (by norm_num))
  have hb := a2 ![2, 1] ⟨by norm_num, by norm_num⟩ (by rw [hreg]; norm_num)
  refine ⟨e, he, xb, k, γ', e', a1, by norm_num [ex1Obj] at hb; linarith, ?_, a3⟩
  rcases a3 with ⟨-, rfl⟩ | ⟨x, -, hx, rfl⟩
  · exact hγ
  · exact hx.1

/-- **C72** `example1_rr` as in its test, from every reachable internal position. -/
theorem C72_example1_rr (idx : Int) (hi1 : -1 ≤ idx) (hi2 : idx < 3) {γ : ℝ} (hγ : γ ≤ 3) (opts : Options ℝ)
    (h1 : 200 ≤ opts.maxIters) (h2 : opts.tolerance ≤ 1 / 10 ^ 10) :
    ∃ e, Ell.newWithScalar (10 : ℝ) (Arr.ofList [0, 0]) = .ok e ∧
      ∃ xb k γ' i e', cuttingPlaneOptim ex1rrOracle Ell.space idx e γ opts = .ok ((xb, k), γ', i, e') ∧
        3 - 8 / 10 ^ 5 ≤ γ' ∧ γ' ≤ 3 ∧
        ((xb = none ∧ γ' = γ) ∨ ∃ x, xb = some x ∧ x.toVec 2 ∈ ex1F ∧ ex1Obj (x.toVec 2) = γ') := by
  obtain ⟨e, he, hv, hreg, hdet⟩ := disc10
  obtain ⟨xb, k, γ', i, e', a1, a2, a3⟩ := C72_iterations_for_accuracy C58_example1_rr idx e γ ⟨hi1, hi2⟩ hv ex1_concave
    (p := ![1, -1]) (r := 1 / 2) (V := 4) (ε := 8 / 10 ^ 5) (by norm_num) (fun z hz => (ex1_ball z hz).1)
    (fun z hz => by rw [hreg]; exact (ex1_ball z hz).2.1)
    (fun x hx _ z hz => by have := (ex1_ball z hz).2.2; have : ex1Obj x ≤ 3 := hx.1; linarith)
    (by norm_num) (by norm_num) opts (h2.trans (by norm_num))
    (iter_bound (k := 5) (by
      have : (200 : ℝ) ≤ opts.maxIters := by exact_mod_cast h1
      norm_num; linarith) hdet (by norm_num))
  have hb := a2 ![2, 1] ⟨by norm_num, by norm_num⟩ (by rw [hreg]; norm_num)
  refine ⟨e, he, xb, k, γ', i, e', a1, by norm_num [ex1Obj] at hb; linarith, ?_, a3⟩
  rcases a3 with ⟨-, rfl⟩ | ⟨x, -, hx, rfl⟩
  · exact hγ
  · exact hx.1

/-- **C72** `example4` as in its test.  Its optimum `(3, -2)`, with value 12, lies outside the initial disc of squared radius
10, so the guarantee is relative to the feasible points of the disc: none of them is better by more than `24e-5`. -/
theorem C72_example4 (idx : Int) (hi1 : -1 ≤ idx) (hi2 : idx < 4) (γ : ℝ) (opts : Options ℝ)
    (h1 : 200 ≤ opts.maxIters) (h2 : opts.tolerance ≤ 1 / 10 ^ 10) :
    ∃ e, Ell.newWithScalar (10 : ℝ) (Arr.ofList [0, 0]) = .ok e ∧
      ∃ xb k γ' i e', cuttingPlaneOptim ex4Oracle Ell.space idx e γ opts = .ok ((xb, k), γ', i, e') ∧
        (∀ z ∈ ex4F, z 0 ^ 2 + z 1 ^ 2 ≤ 10 → ex4Obj z ≤ γ' + 24 / 10 ^ 5) ∧
        ((xb = none ∧ γ' = γ) ∨ ∃ x, xb = some x ∧ x.toVec 2 ∈ ex4F ∧ ex4Obj (x.toVec 2) = γ') := by
  obtain ⟨e, he, hv, hreg, hdet⟩ := disc10
  obtain ⟨xb, k, γ', i, e', a1, a2, a3⟩ := C72_iterations_for_accuracy C58_example4 idx e γ ⟨hi1, hi2⟩ hv ex4_concave
    (p := ![0, -1]) (r := 1 / 2) (V := 12) (ε := 24 / 10 ^ 5) (by norm_num) (fun z hz => (ex4_ball z hz).1)
    (fun z hz => by rw [hreg]; exact (ex4_ball z hz).2.1)
    (fun x hx _ z hz => by
      have h := (ex4_ball z hz).2.2
      obtain ⟨c1, c2, c3⟩ := hx
      have : ex4Obj x ≤ 12 := by simp only [ex4Obj]; linarith
      linarith)
    (by norm_num) (by norm_num) opts (h2.trans (by norm_num))
    (iter_bound (k := 5) (by
      have : (200 : ℝ) ≤ opts.maxIters := by exact_mod_cast h1
      norm_num; linarith) hdet (by norm_num))
  exact ⟨e, he, xb, k, γ', i, e', a1, fun z hz hz' => a2 z hz (by rw [hreg]; exact hz'), a3⟩

/-- **C72** `test_infeasible2` of example1.rs:63-70 for every option setting: starting at `100`, no point is returned. -/
theorem C72_example1_infeasible (e : Ell ℝ) (he : e.Valid 2) (opts : Options ℝ) {xb k γ' w' e'}
    (hr : cuttingPlaneOptim ex1Oracle Ell.space () e 100 opts = .ok ((xb, k), γ', w', e')) : xb = none ∧ γ' = 100 :=
  C72_unreachable_level C58_example1 () e 100 trivial he
    (fun x hx => by have : ex1Obj x ≤ 3 := hx.1; linarith) opts hr

/-- the linear rate applies to `example1`: 100 iterations with tolerance 0 -/
example : ∃ e, Ell.newWithScalar (10 : ℝ) (Arr.ofList [0, 0]) = .ok e ∧
    ∃ xb k γ' e', cuttingPlaneOptim ex1Oracle Ell.space () e 0 ⟨100, 0⟩ = .ok ((xb, k), γ', (), e') ∧
      3 ≤ γ' + 4 * ((100 : ℝ) ^ (1 / (2 * ((2 : Nat) : ℝ))) / (1 / 2) *
        Real.exp (-(((100 : Nat) : ℝ) / (2 * ((2 : Nat) : ℝ) * (((2 : Nat) : ℝ) + 1))))) := by
  obtain ⟨e, he, hv, hreg, hdet⟩ := disc10
  obtain ⟨xb, k, γ', w', e', a1, a2, a3⟩ := C72_linear_convergence C58_example1 () e 0 trivial hv ex1_concave
    (p := ![1, -1]) (r := 1 / 2) (V := 4) (by norm_num) (fun z hz => (ex1_ball z hz).1)
    (fun z hz => by rw [hreg]; exact (ex1_ball z hz).2.1)
    (fun x hx _ z hz => by have := (ex1_ball z hz).2.2; have : ex1Obj x ≤ 3 := hx.1; linarith)
    (by norm_num) ⟨100, 0⟩ le_rfl rfl (by
      rw [hdet]
      have h1 : (100 : ℝ) ^ (1 / (2 * ((2 : Nat) : ℝ))) ≤ 100 := by
        calc (100 : ℝ) ^ (1 / (2 * ((2 : Nat) : ℝ))) ≤ 100 ^ (1 : ℝ) := by
              apply Real.rpow_le_rpow_of_exponent_le <;> norm_num
          _ = 100 := Real.rpow_one _
      have h2 : Real.exp (-(((100 : Nat) : ℝ) / (2 * ((2 : Nat) : ℝ) * (((2 : Nat) : ℝ) + 1)))) ≤ (1 / 2) ^ 8 := by
        calc _ ≤ Real.exp (8 * (-1)) := by apply Real.exp_le_exp.2; norm_num
          _ = Real.exp (-1) ^ 8 := by rw [← Real.exp_nat_mul]; norm_num
          _ ≤ (1 / 2) ^ 8 := by
            gcongr
            rw [Real.exp_neg, one_div]
            apply inv_anti₀ (by norm_num)
            have := Real.exp_one_gt_d9
            linarith
      have h3 : (0 : ℝ) ≤ (100 : ℝ) ^ (1 / (2 * ((2 : Nat) : ℝ))) / (1 / 2) := by positivity
      calc _ ≤ (100 : ℝ) ^ (1 / (2 * ((2 : Nat) : ℝ))) / (1 / 2) * (1 / 2) ^ 8 := by gcongr
        _ ≤ 100 / (1 / 2) * (1 / 2) ^ 8 := by gcongr
        _ < 1 := by norm_num)
  have hb := a2 ![2, 1] ⟨by norm_num, by norm_num⟩ (by rw [hreg]; norm_num)
  refine ⟨e, he, xb, k, γ', e', a1, ?_⟩
  rw [hdet] at hb
  have : ex1Obj ![2, 1] = 3 := by norm_num [ex1Obj]
  rw [this] at hb
  exact hb

end Ellalgo
