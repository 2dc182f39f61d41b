import Verif.Props.OneDim
import Verif.Props.NanExamples

/-! C89 in checked arithmetic, and a one-dimensional problem that is easy but not solved. -/

namespace Ellalgo

theorem chk_scaleInf (s : Bool) (y x : ℝ) : Chk.scaleInf s y ≠ .val x := by
  unfold Chk.scaleInf; split
  · simp
  · split <;> simp

/-- infinities and the undefined value of checked arithmetic obey the laws -/
theorem chk_nonFinite : NonFiniteLaws (fun a : Chk => ∀ x, a ≠ .val x) where
  add_left {a} h b x := by
    show Chk.add a b ≠ _
    cases a with
    | val y => exact absurd rfl (h y)
    | bad => cases b <;> simp [Chk.add]
    | inf s => cases b <;> simp only [Chk.add] <;> first | (split <;> simp) | simp
  add_right a {b} h x := by
    show Chk.add a b ≠ _
    cases b with
    | val y => exact absurd rfl (h y)
    | bad => cases a <;> simp [Chk.add]
    | inf s => cases a <;> simp only [Chk.add] <;> first | (split <;> simp) | simp
  sub_left {a} h b x := by
    show Chk.sub a b ≠ _
    cases a with
    | val y => exact absurd rfl (h y)
    | bad => cases b <;> simp [Chk.sub]
    | inf s => cases b <;> simp only [Chk.sub] <;> first | (split <;> simp) | simp
  sub_right a {b} h x := by
    show Chk.sub a b ≠ _
    cases b with
    | val y => exact absurd rfl (h y)
    | bad => cases a <;> simp [Chk.sub]
    | inf s => cases a <;> simp only [Chk.sub] <;> first | (split <;> simp) | simp
  mul_left {a} h b x := by
    show Chk.mul a b ≠ _
    cases a with
    | val y => exact absurd rfl (h y)
    | bad => cases b <;> simp [Chk.mul]
    | inf s => cases b <;> simp only [Chk.mul] <;> first | exact chk_scaleInf _ _ _ | simp
  mul_right a {b} h x := by
    show Chk.mul a b ≠ _
    cases b with
    | val y => exact absurd rfl (h y)
    | bad => cases a <;> simp [Chk.mul]
    | inf s => cases a <;> simp only [Chk.mul] <;> first | exact chk_scaleInf _ _ _ | simp
  div_left {a} h b x := by
    show Chk.div a b ≠ _
    cases a with
    | val y => exact absurd rfl (h y)
    | bad => cases b <;> simp [Chk.div]
    | inf s => cases b <;> simp only [Chk.div] <;> first | exact chk_scaleInf _ _ _ | simp
  sqrt {a} h x := by
    show Chk.mapIf _ _ _ a ≠ _
    cases a with
    | val y => exact absurd rfl (h y)
    | bad => simp [Chk.mapIf]
    | inf s => cases s <;> simp [Chk.mapIf]
  div_zero a {b} h x := by
    show Chk.div a b ≠ _
    have hb : b = .val 0 := by
      change Chk.beq b (.val 0) = true at h
      cases b <;> simp [Chk.beq] at h
      rw [h]
    subst hb
    cases a with
    | val y => simp [Chk.div]
    | bad => simp [Chk.div]
    | inf s => exact chk_scaleInf _ _ _
  one_sq := by
    show Chk.beq (.val (((1 : ℕ) : ℝ) * ((1 : ℕ) : ℝ) - 1)) (.val 0) = true
    simp [Chk.beq]

/-- the interval `[-10, 10]` -/
noncomputable def interval10 : Ell Chk := Ell.newWithMatrix (.val 100) ⟨[.val 1], 1, 1⟩ ⟨[.val 0], 1, 0⟩

theorem interval10_oneDim : interval10.OneDim :=
  (C89_constructors (.val 100) ⟨[.val 1], 1, 1⟩ ⟨[.val 0], 1, 0⟩ ⟨rfl, rfl, rfl⟩ ⟨rfl, rfl, rfl⟩).1

/-- an oracle for `6 ≤ x ≤ 7` in one dimension, written like the oracles of the crate -/
noncomputable def oracle67 : OracleFeas Unit (Arr Chk) (SingleCut Chk) Chk where
  assess _ x := do
    let v ← x.idx 0
    if Scalar.lt v (.val 6) then .ok (some (⟨[.val (-1)], 1, 0⟩, ⟨.val 6 - v⟩), ())
    else if Scalar.gt v (.val 7) then .ok (some (⟨[.val 1], 1, 0⟩, ⟨v - .val 7⟩), ())
    else .ok (none, ())
  update _ _ := .ok ()

/-- a one-dimensional update written out -/
theorem Ell.updateCore_one {α : Type} [Scalar α] (m x κ ts g : α) (hp : EllCalc α) (strat : α → CutStatus × Triple α) :
    (⟨false, ⟨[m], 1, 1⟩, ⟨[x], 1, 0⟩, κ, hp, ts⟩ : Ell α).updateCore ⟨[g], 1, 0⟩ strat =
      (match strat (κ * (0 + g * (0 + m * g))) with
        | (status, (rho, sigma, delta)) =>
          if status != .success then .ok (status, ⟨false, ⟨[m], 1, 1⟩, ⟨[x], 1, 0⟩, κ, hp, κ * (0 + g * (0 + m * g))⟩)
          else .ok (status, ⟨false, ⟨[m - sigma / (0 + g * (0 + m * g)) * (0 + m * g) * (0 + m * g)], 1, 1⟩,
            ⟨[x - rho / (0 + g * (0 + m * g)) * (0 + m * g)], 1, 0⟩, κ * delta, hp, κ * (0 + g * (0 + m * g))⟩)) := rfl

theorem chk_cst1 : (EllCalc.new 1 : EllCalc Chk).helper.cst1 = .bad := by
  simp only [EllCalc.new, EllCalcCore.new, Chk.nat_val, Chk.mul_val, Chk.one_val, Chk.sub_val]
  norm_num [Chk.div_zero_bad]
theorem chk_cst2 : (EllCalc.new 1 : EllCalc Chk).helper.cst2 = .val 1 := by
  simp only [EllCalc.new, EllCalcCore.new, Chk.nat_val, Chk.one_val, Chk.add_val]
  rw [Chk.div_val _ (by norm_num), Chk.mul_val]
  norm_num

/-- **C89** (exact arithmetic)  A central cut of an interval, the bisection step, whose exact result is half the interval:
the code makes the matrix zero and the scale factor undefined. -/
theorem C89_bisection_collapses (κ m x g β : ℝ) (hm : 0 < m) (hg : g ≠ 0) :
    ∃ e', Ell.space.update .central (Ell.newWithMatrix (.val κ) ⟨[.val m], 1, 1⟩ ⟨[.val x], 1, 0⟩)
        (⟨[.val g], 1, 0⟩, (⟨.val β⟩ : SingleCut Chk)) = .ok (.success, e') ∧
      e'.mq.data = [.val 0] ∧ e'.kappa = .bad := by
  have hω : g * (m * g) ≠ 0 := by
    have : 0 < m * (g * g) := mul_pos hm (mul_self_pos.2 hg)
    nlinarith
  have h0 : (0 : Chk) + .val m * .val g = .val (m * g) := by simp
  have h1 : (0 : Chk) + .val g * .val (m * g) = .val (g * (m * g)) := by simp
  have key := Ell.updateCore_one (.val m) (.val x) (.val κ) 0 (.val g) (EllCalc.new 1)
    (CutType.call .central (⟨.val β⟩ : SingleCut Chk) (EllCalc.new 1))
  have hc : ∀ t, CutType.call .central (⟨.val β⟩ : SingleCut Chk) (EllCalc.new 1) t =
      (.success, Scalar.sqrt t / (EllCalc.new 1 : EllCalc Chk).helper.nPlus1, (EllCalc.new 1 : EllCalc Chk).helper.cst2,
        (EllCalc.new 1 : EllCalc Chk).helper.cst1) := fun _ => rfl
  rw [h0, h1, hc, chk_cst1, chk_cst2] at key
  refine ⟨_, (Ell.update_eq ..).trans key, ?_, ?_⟩
  · show [Chk.val m - .val 1 / .val (g * (m * g)) * .val (m * g) * .val (m * g)] = _
    rw [Chk.div_val _ hω]
    simp only [Chk.mul_val, Chk.sub_val]
    congr 2
    field_simp
    ring
  · rfl

theorem oracle67_first : (Ell.space (T := SingleCut Chk)).updateBias interval10 (⟨[.val (-1)], 1, 0⟩, ⟨.val 6⟩) =
    .ok (.success, ⟨false, ⟨[.val 0], 1, 1⟩, ⟨[.val 8], 1, 0⟩, .bad, EllCalc.new 1, .val 100⟩) := by
  have h0 : (0 : Chk) + .val 1 * .val (-1) = .val (-1) := by simp
  have h1 : (0 : Chk) + .val (-1) * .val (-1) = .val 1 := by simp
  have key := Ell.updateCore_one (.val 1) (.val 0) (.val 100) 0 (.val (-1)) (EllCalc.new 1)
    (CutType.call .bias (⟨.val 6⟩ : SingleCut Chk) (EllCalc.new 1))
  have hc : CutType.call .bias (⟨.val 6⟩ : SingleCut Chk) (EllCalc.new 1) (.val 100) = (.success, .val 8, .val 1, .bad) := by
    have hs : (Scalar.sqrt (.val 100) : Chk) = .val 10 := by
      rw [Chk.sqrt_val (by norm_num)]
      congr 1
      rw [show (100 : ℝ) = 10 ^ 2 by norm_num]
      exact Real.sqrt_sq (by norm_num)
    have h2 : Scalar.lt (Chk.val 100) (.val 6 * .val 6) = false := by
      rw [Chk.mul_val, Chk.lt_val]
      simp [Scalar.lt]; norm_num
    have hb : ∀ y : Chk, Chk.bad * y = .bad := Chk.bad_mul
    simp only [CutType.call, CutType.callBias, EllCalc.calcBiasCut, h2, hs, EllCalcCore.calcBiasCut,
      EllCalcCore.calcBiasCutFast, chk_cst1, hb]
    simp only [EllCalc.new, EllCalcCore.new, Chk.nat_val, Chk.one_val, Chk.add_val, Chk.mul_val]
    rw [Chk.div_val _ (by norm_num), Chk.mul_val, Chk.div_val _ (by norm_num)]
    norm_num
  rw [h0, h1, show (Chk.val 100 * .val 1 : Chk) = .val 100 by simp, hc] at key
  change Ell.updateCore ⟨false, ⟨[.val 1], 1, 1⟩, ⟨[.val 0], 1, 0⟩, .val 100, EllCalc.new 1, 0⟩ ⟨[.val (-1)], 1, 0⟩
    (CutType.call .bias (⟨.val 6⟩ : SingleCut Chk) (EllCalc.new 1)) = _
  rw [key]
  show Res.ok (CutStatus.success, (⟨false, ⟨[.val 1 - .val 1 / .val 1 * .val (-1) * .val (-1)], 1, 1⟩,
    ⟨[.val 0 - .val 8 / .val 1 * .val (-1)], 1, 0⟩, .val 100 * .bad, EllCalc.new 1, .val 100⟩ : Ell Chk)) = _
  rw [Chk.div_val _ one_ne_zero, Chk.div_val _ one_ne_zero]
  simp only [Chk.mul_val, Chk.sub_val]
  norm_num
  rfl

theorem lt_val_false {a b : ℝ} (h : b ≤ a) : Scalar.lt (Chk.val a) (.val b) = false := by
  rw [Chk.lt_val]; simp [Scalar.lt, h]
theorem lt_val_true {a b : ℝ} (h : a < b) : Scalar.lt (Chk.val a) (.val b) = true := by
  rw [Chk.lt_val]; simp [Scalar.lt, h]

/-- **C89** (an easy problem)  Searching `[-10, 10]` for a number in `[6, 7]`: `cutting_plane_feas` probes 0 and 8 and then
reports an undefined value (NaN) as the feasible point, for every tolerance up to 100 and every limit of at least three
iterations. -/
theorem C89_interval_not_found (tol : ℝ) (ht : tol ≤ 100) (m : Nat) :
    ∃ e', cuttingPlaneFeas oracle67 Ell.space () interval10 ⟨m + 3, .val tol⟩ =
      .ok ((some ⟨[.bad], 1, 0⟩, 2), (), e') := by
  let e1 : Ell Chk := ⟨false, ⟨[.val 0], 1, 1⟩, ⟨[.val 8], 1, 0⟩, .bad, EllCalc.new 1, .val 100⟩
  obtain ⟨e2, h1, h2, h3, -, h5⟩ := Ell.spoilt_step chk_nan (n := 1) (by omega) .bias e1 ⟨⟨rfl, rfl, rfl⟩, rfl, rfl, rfl⟩
    (Or.inl rfl) ⟨[.val 1], 1, 0⟩ ⟨rfl, rfl, rfl⟩ (⟨.val 1⟩ : SingleCut Chk)
  have hx2 : e2.xc = ⟨[.bad], 1, 0⟩ := by
    obtain ⟨-, hr, hc, hl⟩ := h2
    obtain ⟨v, hv⟩ := List.length_eq_one_iff.1 hl
    have hvb : v = .bad := h3 v (by rw [hv]; simp)
    cases hx : e2.xc with
    | mk d r c => rw [hx] at hr hc hv; simp only at hr hc hv; rw [hr, hc, hv, hvb]
  have a0 : oracle67.assess () ⟨[.val 0], 1, 0⟩ = .ok (some (⟨[.val (-1)], 1, 0⟩, ⟨.val 6⟩), ()) := by
    have : (Chk.val 6 - Chk.val 0 : Chk) = .val 6 := by simp
    show (if Scalar.lt (Chk.val 0) (.val 6) then _ else _) = _
    rw [lt_val_true (by norm_num), if_pos rfl, this]
  have a1 : oracle67.assess () ⟨[.val 8], 1, 0⟩ = .ok (some (⟨[.val 1], 1, 0⟩, ⟨.val 1⟩), ()) := by
    have : (Chk.val 8 - Chk.val 7 : Chk) = .val 1 := by rw [Chk.sub_val]; norm_num
    show (if Scalar.lt (Chk.val 8) (.val 6) then _ else if Scalar.lt (Chk.val 7) (.val 8) then _ else _) = _
    rw [lt_val_false (by norm_num), lt_val_true (by norm_num), if_neg (by simp), if_pos rfl, this]
  have a2 : oracle67.assess () ⟨[.bad], 1, 0⟩ = .ok (none, ()) := rfl
  have b1 : Scalar.lt (Chk.val 100) (.val tol) = false := lt_val_false ht
  have b2 : Scalar.lt e2.tsq (.val tol) = false := chk_nan.lt_left h5 _
  have x0 : (Ell.space (T := SingleCut Chk)).xc interval10 = ⟨[.val 0], 1, 0⟩ := rfl
  have x1 : (Ell.space (T := SingleCut Chk)).xc e1 = ⟨[.val 8], 1, 0⟩ := rfl
  have x2 : (Ell.space (T := SingleCut Chk)).xc e2 = ⟨[.bad], 1, 0⟩ := hx2
  have t1 : (Ell.space (T := SingleCut Chk)).tsq e1 = .val 100 := rfl
  have t2 : (Ell.space (T := SingleCut Chk)).tsq e2 = e2.tsq := rfl
  have u2 : (Ell.space (T := SingleCut Chk)).updateBias e1 (⟨[.val 1], 1, 0⟩, ⟨.val 1⟩) = .ok (.success, e2) := h1
  have u1 : (Ell.space (T := SingleCut Chk)).updateBias interval10 (⟨[.val (-1)], 1, 0⟩, ⟨.val 6⟩) = .ok (.success, e1) :=
    oracle67_first
  refine ⟨e2, ?_⟩
  simp only [cuttingPlaneFeas, feasLoop, x0, a0, Res.ok_bind, u1, t1, b1, bne_self_eq_false, Bool.or_self, Bool.false_eq_true,
    if_false, x1, a1, u2, t2, b2, x2, a2, Nat.zero_add, Nat.reduceAdd]

/-- the run theorem applied to that run: the answer came after two iterations and is not finite -/
example : Arr.NonFinite (fun a : Chk => ∀ x, a ≠ .val x) ⟨[.bad], 1, 0⟩ := by
  obtain ⟨e', h⟩ := C89_interval_not_found 0 (by norm_num) 0
  rcases C89_feas_run chk_nonFinite oracle67 (fun w x g c w' h => by
    simp only [oracle67, Res.bind_eq_ok] at h
    obtain ⟨v, -, h⟩ := h
    refine ⟨?_, trivial⟩
    split at h
    · simp only [Res.ok.injEq, Prod.mk.injEq, Option.some.injEq] at h
      rw [← h.1.1]; exact ⟨rfl, rfl, rfl⟩
    · split at h
      · simp only [Res.ok.injEq, Prod.mk.injEq, Option.some.injEq] at h
        rw [← h.1.1]; exact ⟨rfl, rfl, rfl⟩
      · simp at h) () interval10 interval10_oneDim _ h with ⟨h, -⟩ | h | h
  · omega
  · omega
  · exact h

/-- two central cuts with one plane and one with two planes, on both kinds of ellipsoid -/
example (h : NonFiniteLaws (fun a : Chk => ∀ x, a ≠ .val x)) :=
  And.intro
    (C89_sequence h interval10 interval10_oneDim
      [(.central, ⟨[.val 1], 1, 0⟩, (⟨.val 0⟩ : SingleCut Chk)), (.central, ⟨[.val (-1)], 1, 0⟩, ⟨.val 0⟩)]
      (by simp [ScaledCut.scaled, Arr.IsVecShape]))
    (C89_sequence_stable h (EllStable.newWithMatrix (.val 100) ⟨[.val 1], 1, 1⟩ ⟨[.val 0], 1, 0⟩)
      (C89_constructors (.val 100) ⟨[.val 1], 1, 1⟩ ⟨[.val 0], 1, 0⟩ ⟨rfl, rfl, rfl⟩ ⟨rfl, rfl, rfl⟩).2.1
      [(.bias, ⟨[.val 1], 1, 0⟩, (⟨.val 0, some (.val 1)⟩ : ParallelCut Chk)), (.q, ⟨[.val (-1)], 1, 0⟩, ⟨.val 0, none⟩)]
      (by simp [ScaledCut.scaled, Arr.IsVecShape]))

end Ellalgo
