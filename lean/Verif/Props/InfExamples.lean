import Verif.Props.InfRuns

/-! Cases that meet the hypotheses of the C85 theorems. -/

namespace Ellalgo
open Filter Matrix

/-- `C85_infinite_start` on the first ellipsoid of example1.rs: one finite value serves for all lower ones -/
example : ∃ e, Ell.newWithScalar (Chk.val 10) (Arr.ofList [0, 0]) = .ok e ∧ e.All Chk.NoInf ∧
    ∃ Γ : ℝ, ∀ γ ≤ Γ, cuttingPlaneOptim ex1Oracle Ell.space () e .negInf Options.default =
      (cuttingPlaneOptim ex1Oracle Ell.space () e (.val γ) Options.default).map (fromTop .negInf) := by
  obtain ⟨e, he, -⟩ := disc10
  exact ⟨e.lift, disc10_lift he, e.lift_noInf,
    eventually_atBot.1 (C85_infinite_start C85_example1_oracle () trivial e.lift e.lift_noInf _)⟩

/-- the same for the stable ellipsoid, with a minimising oracle and `gamma = +∞` -/
example : ∃ e, EllStable.newWithScalar (Chk.val 10) (Arr.ofList [.val 1, .val 2]) = .ok e ∧ e.All Chk.NoInf ∧
    ∃ Γ : ℝ, ∀ γ ≥ Γ, cuttingPlaneOptim quadOracle EllStable.space () e .posInf Options.default =
      (cuttingPlaneOptim quadOracle EllStable.space () e (.val γ) Options.default).map (fromTop .posInf) := by
  have hd : (⟨[.val 1, .val 0, .val 0, .val 1], 2, 2⟩ : Arr Chk).All Chk.NoInf := by
    intro v hv
    simp only [List.mem_cons, List.not_mem_nil, or_false] at hv
    rcases hv with rfl | rfl | rfl | rfl <;> exact Chk.noInf_val _
  have hall := (C85_constructors (.val 10) (Chk.noInf_val _) _ (Arr.ofList [.val 1, .val 2]) hd
    (noInf_pair (Chk.noInf_val _) (Chk.noInf_val _))).2
  refine ⟨_, rfl, hall, eventually_atTop.1 (C85_infinite_start_stable C85_quadratic_oracle () trivial _ hall _)⟩

/-- the benchmark's own ellipsoid, in dimension 10 -/
example : ∃ e : Ell Chk, Ell.newWithScalar (Chk.val 10) (Arr.new 10) = .ok e ∧
    ∃ k, ∃ e' : Ell Chk, cuttingPlaneOptim benchOracle Ell.space () e .negInf Options.default = .ok ((none, k), .negInf, (), e') := by
  obtain ⟨y, h1, h2⟩ := eye_spec (α := Chk) 10
  have hl : (Arr.new 10 : Arr Chk).len = 10 := (isVec_new (α := Chk) 10).rows
  refine ⟨Ell.newWithMatrix (.val 10) y (Arr.new 10), by simp only [Ell.newWithScalar, hl, h1, Res.ok_bind], ?_⟩
  obtain ⟨k, e', h, -⟩ := C85_benchmark_returns (n := 10) (by norm_num) (Ell.newWithMatrix (.val 10) y (Arr.new 10))
    ⟨h2.shape, (isVec_new (α := Chk) 10).shape⟩ Options.default
  exact ⟨k, e', h⟩

/-- `example1` from `+∞`, centre `(1, -1)` -/
example : ∃ e, Ell.newWithScalar (10 : ℝ) (Arr.ofList [1, -1]) = .ok e ∧
    ∃ e', cuttingPlaneOptim ex1Oracle Ell.space () e.lift .posInf Options.default = .ok ((none, 0), .posInf, (), e') := by
  obtain ⟨e, h1, h2, -⟩ := C13_valid_with_scalar (n := 2) 10 (Arr.ofList [1, -1]) le_rfl (pair_shape _ _) (by norm_num)
  have hxc : e.xc = Arr.ofList [1, -1] := by
    simp only [Ell.newWithScalar] at h1
    obtain ⟨y, -, h1⟩ := Res.bind_eq_ok.1 h1
    simp only [Res.ok.injEq] at h1
    rw [← h1]; rfl
  obtain ⟨e', h, -⟩ := C85_maximise_from_pos_inf e h2.shaped (by rw [hxc, pair_toVec]; constructor <;> norm_num)
    Options.default (by simp [Options.default])
  exact ⟨e, h1, e', h⟩

/-- the documented minimisation: radius 10, centre `(5, 5)`, 1000 iterations -/
example : ∃ e, Ell.newWithScalar (10 : ℝ) (Arr.ofList [5, 5]) = .ok e ∧ ∃ x k γ', ∃ e' : Ell Chk,
    cuttingPlaneOptim quadOracle Ell.space () e.lift .posInf ⟨1000, dec 1 10⟩ = .ok ((some x, k), γ', (), e') := by
  obtain ⟨e, h1, h2, -⟩ := C13_valid_with_scalar (n := 2) 10 (Arr.ofList [5, 5]) le_rfl (pair_shape _ _) (by norm_num)
  exact ⟨e, h1, (C85_minimise_finds_point e _ (by norm_num)).1 h2.shaped⟩

/-- `test_infeasible1` of example1.rs: centre `(100, 100)`, squared radius 10 -/
example : ∃ e, Ell.newWithScalar (10 : ℝ) (Arr.ofList [100, 100]) = .ok e ∧
    ∃ e', cuttingPlaneOptim ex1Oracle Ell.space () e.lift .negInf Options.default = .ok ((none, 0), .negInf, (), e') := by
  obtain ⟨e, h1, h2, h3⟩ := C13_valid_with_scalar (n := 2) 10 (Arr.ofList [100, 100]) le_rfl (pair_shape _ _) (by norm_num)
  refine ⟨e, h1, C85_example1_infeasible e h2 (fun z hz => ?_) .negInf Options.default (by simp [Options.default])⟩
  rw [h3, Set.mem_ofPred_eq, pair_toVec, normSq, dotProduct, Fin.sum_univ_two] at hz
  simp only [Pi.sub_apply, cons_val_zero, cons_val_one] at hz
  nlinarith [sq_nonneg (z 0 - 96), sq_nonneg (z 1 - 96)]

/-- data without infinities, as `C85_portfolio_oracle`, `C85_maxcut_oracle` and `C85_ill_conditioned_oracle` ask for -/
example : (Portfolio.mk (Arr.ofList [Chk.val (1 / 10), .val (2 / 10)]) ⟨[.val 1, .val 0, .val 0, .val 1], 2, 2⟩ (.val 1) (.val 1)).All
    Chk.NoInf := by
  refine ⟨noInf_pair (Chk.noInf_val _) (Chk.noInf_val _), ?_, Chk.noInf_val _, Chk.noInf_val _⟩
  intro v hv
  simp only [List.mem_cons, List.not_mem_nil, or_false] at hv
  rcases hv with rfl | rfl | rfl | rfl <;> exact Chk.noInf_val _

end Ellalgo
