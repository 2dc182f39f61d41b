import Verif.Props.CheckedProps

/-! Non-vacuity of C69. -/

namespace Ellalgo.ExR
open Matrix Ellalgo

/-- C69: a bias cut through the centre and then a central cut are admissible for the disc -/
example : Ell.AdmRun 2 disc [(.bias, gm, (⟨0⟩ : SingleCut ℝ)), (.central, gm, ⟨7⟩)] := by
  refine ⟨gm_shape, gm_ne, ?_, fun _ e' _ => ⟨gm_shape, gm_ne, (Cut.adm_single ..).mpr trivial, fun _ _ _ => trivial⟩⟩
  rw [Cut.adm_single]
  have := Real.sqrt_pos.mpr (disc_valid.tsq_pos gm_ne)
  exact ⟨by rw [mul_zero, add_zero]; exact this.le, this⟩

/-- C69: a two-plane cut `0 ≤ -gᵀ(x-c) ≤ 1/2` -/
example : Ell.AdmRun 2 disc [(.bias, gm, (⟨0, some (1/2)⟩ : ParallelCut ℝ))] := by
  refine ⟨gm_shape, gm_ne, ?_, fun _ e' _ => trivial⟩
  have hp := disc_valid.tsq_pos gm_ne
  have := Real.sqrt_pos.mpr hp
  unfold Cut.Adm
  show if _ then _ else _
  rw [if_neg (by decide)]
  refine ⟨by norm_num, fun _ => ⟨?_, this⟩, fun _ => ⟨by linarith, fun _ => ?_⟩⟩
  · show 0 ≤ _ + _ * (0 : ℝ)
    rw [mul_zero, add_zero]; exact this.le
  · show 0 ≤ _ + _ * ((0 : ℝ) * _)
    rw [zero_mul, mul_zero, add_zero]; exact hp.le

/-- `half` in checked arithmetic -/
noncomputable def halfC (a : ℝ) : OracleFeas Unit (Arr Chk) (SingleCut Chk) Chk where
  assess _ x := match x.data[0]? with
    | some v => if Scalar.le (.val a) v then .ok (none, ()) else .ok (some (gm.lift, ⟨.val a - v⟩), ())
    | none => .panic
  update w _ := .ok w

theorem lift_get {x : Arr ℝ} (hx : x.IsVecShape 2) : x.lift.data[0]? = some (.val (x.toVec 2 0)) := by
  rw [hx.isVec.lift.get 0 (by norm_num)]; rfl

theorem half_checked (a : ℝ) : (half a).CheckedBy 2 (fun _ => True) id (halfC a) := by
  intro w x _ hx
  simp only [halfC, lift_get hx, Chk.le_val, Scalar.real_le]
  by_cases h : a ≤ x.toVec 2 0
  · simp [half, h, Res.map]
  · simp [half, h, Res.map, liftPair, LiftCut.lift]

/-- C69 (`cutting_plane_feas`): all hypotheses hold for the half-plane `y₀ ≥ 3/2` -/
example : cuttingPlaneFeas (halfC (3/2)) Ell.space () disc.lift (Options.lift ⟨2000, 1/10⟩) =
    (cuttingPlaneFeas (half (3/2)) Ell.space () disc ⟨2000, 1/10⟩).map
      (fun q => ((q.1.1.map Arr.lift, q.1.2), q.2.1, q.2.2.lift)) :=
  C69_feas_defined (half (3/2)) id (halfC (3/2)) _ _ (1/2) ![2, 1] () disc ⟨2000, 1/10⟩
    (half_honest _ (by norm_num)) (half_checked _) trivial disc_valid (by norm_num)
    (fun y hy => (ball_facts y hy).2) (fun y hy => (ball_facts y hy).1)

/-- `maxX` in checked arithmetic -/
noncomputable def maxXC : OracleOptim Unit (Arr Chk) (SingleCut Chk) Chk where
  assess _ x γ := match x.data[0]? with
    | some v => if Scalar.lt γ v then .ok (((gm.lift, ⟨.val 0⟩), true), v, ())
        else .ok (((gm.lift, ⟨γ - v⟩), false), γ, ())
    | none => .panic

theorem maxX_checked : maxX.CheckedBy 2 (fun _ _ => True) id maxXC := by
  intro w x γ _ hx
  simp only [maxXC, lift_get hx, Chk.lt_val, Scalar.real_lt]
  by_cases h : γ < x.toVec 2 0
  · simp [maxX, h, Res.map, liftPair, LiftCut.lift]
  · simp [maxX, h, Res.map, liftPair, LiftCut.lift]

/-- C69 (`cutting_plane_optim`): one iteration of maximising `x₀` over the disc leaves `γ' = 1`, and the ball of radius
1/2 around (2,1) is better than that -/
example : ∃ xb k w' e', cuttingPlaneOptim maxX Ell.space () disc (-7) ⟨1, 1/10⟩ = .ok ((xb, k), 1, w', e') ∧
    cuttingPlaneOptim maxXC Ell.space () disc.lift (.val (-7)) (Options.lift ⟨1, 1/10⟩) =
      .ok ((xb.map Arr.lift, k), .val 1, w', e'.lift) := by
  have hx : disc.xc.toVec 2 0 = 1 := by have := congrFun disc_c 0; simpa [Ell.c] using this
  obtain ⟨xb, k, w', e', h⟩ : ∃ xb k w' e',
      cuttingPlaneOptim maxX Ell.space () disc (-7) ⟨1, 1/10⟩ = .ok ((xb, k), 1, w', e') := by
    obtain ⟨e', h⟩ := Ell.update_exists disc_valid.shaped disc_valid.symm disc_valid.pos .central
      ((gm, ⟨0⟩) : Arr ℝ × SingleCut ℝ) gm_shape
    have h' : Ell.space.updateCentral disc ((gm, ⟨0⟩) : Arr ℝ × SingleCut ℝ) = .ok (_, e') := h
    have hq : maxX.assess () (Ell.space (T := SingleCut ℝ).xc disc) (-7) = .ok (((gm, ⟨0⟩), true), 1, ()) := by
      show maxX.assess () disc.xc (-7) = _
      simp [maxX, hx]; norm_num
    simp only [cuttingPlaneOptim, optimLoop, hq, Res.ok_bind, if_true, h']
    split <;> exact ⟨_, _, _, _, rfl⟩
  refine ⟨xb, k, w', e', h, C69_optim_defined maxX id maxXC _ _ (1/2) ![2, 1] () disc (-7) ⟨1, 1/10⟩
    (maxX_honest (by norm_num)) maxX_checked trivial disc_valid (by norm_num) (fun y hy => (ball_facts y hy).1) h ?_⟩
  intro y hy
  exact ⟨trivial, by linarith [(ball_facts y hy).2]⟩

/-- the zero vector -/
noncomputable def gz : Arr ℝ := ⟨[0, 0], 2, 0⟩

/-- C69 (limit): a zero gradient at the disc -/
example : ∃ e', Ell.space.update .central disc.lift (gz.lift, (⟨.val 0⟩ : SingleCut Chk)) = .ok (.success, e') ∧
    e'.xc.data[0]? = some .bad := by
  obtain ⟨e', h1, h2⟩ := C69_zero_gradient_undefined disc disc_valid gz ⟨rfl, rfl, rfl⟩
    (by ext i; fin_cases i <;> simp [Arr.toVec, Arr.vec, gz]) 0
  exact ⟨e', h1, h2 0 (by norm_num)⟩

/-- C69 (constructor): a two-dimensional centre -/
example : (⟨[1, 1], 2, 0⟩ : Arr ℝ).len = 2 := rfl

end Ellalgo.ExR
