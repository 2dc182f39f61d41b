import Verif.Props.Binary64Run

/-! Cases that meet the hypotheses of C109. -/

namespace Ellalgo.ExRun64
open Ellalgo Matrix

/-- rejects `x` with `x₀ ≥ 0` by a central cut -/
def orc {α : Type} [Scalar α] : OracleFeas Unit (Arr α) (SingleCut α) α :=
  ⟨fun w x => do
    let v ← x.idx 0
    .ok (if Scalar.le 0 v then some (⟨[1, 0], 2, 0⟩, ⟨0⟩) else none, w), fun w _ => .ok w⟩

/-- the unit disc -/
def disc {α : Type} [Scalar α] : Ell α := Ell.newWithMatrix 1 ⟨[1, 0, 0, 1], 2, 2⟩ ⟨[0, 0], 2, 0⟩

theorem orc_same : SameFeas (orc : OracleFeas Unit (Arr B64) (SingleCut B64) B64) orc (fun _ _ => True) (fun _ x => x.IsVecShape 2) := by
  intro w w' x x' _ hx hs
  have h1 := (hx.vecShape hs).isVec.idx (i := 0) (by norm_num)
  have h2 := hs.isVec.idx (i := 0) (by norm_num)
  simp only [orc, h1, h2, Res.ok_bind]
  rw [Same.zero.le (hx.vec hs 0 (by norm_num))]
  split
  · exact ⟨⟨⟨rfl, rfl, .cons .one (.cons .zero .nil)⟩, Same.zero⟩, trivial⟩
  · exact ⟨trivial, trivial⟩

theorem disc_same : (disc : Ell B64).Same64 disc :=
  C109_new _ _ _ _ _ _ .one ⟨rfl, rfl, .cons .one (.cons .zero (.cons .zero (.cons .one .nil)))⟩
    ⟨rfl, rfl, .cons .zero (.cons .zero .nil)⟩ (by show 2 ≤ 2; norm_num) (by show 2 ≤ 2 ^ 64; norm_num)

theorem noOver_abs {b : ℤ} {x : ℝ} (h : |x| ≤ (2 : ℝ) ^ b) (hb : b < 1024) : NoOver x := by
  obtain ⟨h1, h2⟩ := abs_le.1 h
  have h3 := rnd53_mono _ _ h1
  have h4 := rnd53_mono _ _ h2
  rw [rnd53_neg_pow] at h3
  rw [rnd53_pow] at h4
  exact (abs_le.2 ⟨h3, h4⟩).trans_lt (zpow_lt_zpow_right₀ (by norm_num) hb)

section
variable (x : Fl bin53)
theorem one_mul_one : (1 : Fl bin53) * 1 = 1 := Fl.ext (by show rnd53 (1 * 1) = 1; rw [mul_one]; exact bin53.one)
theorem one_mul_zero : (1 : Fl bin53) * 0 = 0 := Fl.ext (by show rnd53 (1 * 0) = 0; rw [mul_zero, rnd53_zero])
theorem zero_mul_x : (0 : Fl bin53) * x = 0 := Fl.ext (by show rnd53 (0 * x.val) = 0; rw [zero_mul, rnd53_zero])
theorem mul_zero_x : x * (0 : Fl bin53) = 0 := Fl.ext (by show rnd53 (x.val * 0) = 0; rw [mul_zero, rnd53_zero])
theorem zero_add_one : (0 : Fl bin53) + 1 = 1 := Fl.ext (by show rnd53 (0 + 1) = 1; rw [zero_add]; exact bin53.one)
theorem one_add_zero : (1 : Fl bin53) + 0 = 1 := Fl.ext (by show rnd53 (1 + 0) = 1; rw [add_zero]; exact bin53.one)
theorem zero_add_zero : (0 : Fl bin53) + 0 = 0 := Fl.ext (by show rnd53 (0 + 0) = 0; rw [add_zero, rnd53_zero])
theorem one_sub_zero : (1 : Fl bin53) - 0 = 1 := Fl.ext (by show rnd53 (1 - 0) = 1; rw [sub_zero]; exact bin53.one)
theorem zero_div_one : (0 : Fl bin53) / 1 = 0 := Fl.ext (by show rnd53 (0 / 1) = 0; rw [zero_div, rnd53_zero])
theorem sqrt_one : Scalar.sqrt (1 : Fl bin53) = 1 := Fl.ext (by show rnd53 (Real.sqrt 1) = 1; rw [Real.sqrt_one]; exact bin53.one)
theorem mulOk_zero : MulOk x 0 := ⟨.inl (mul_zero _), by show NoOver (x.val * 0); rw [mul_zero]; exact noOver_zero⟩
theorem zero_mulOk : MulOk 0 x := ⟨.inl (zero_mul _), by show NoOver (0 * x.val); rw [zero_mul]; exact noOver_zero⟩
theorem addOk_zero : AddOk 0 0 := by show NoOver (0 + 0); rw [add_zero]; exact noOver_zero
end

/-- the cut of the first step -/
def cut {α : Type} [Scalar α] : Arr α × SingleCut α := (⟨[1, 0], 2, 0⟩, ⟨0⟩)

theorem w0 : Ell.gt 2 (disc : Ell (Fl bin53)).mq.mat (cut (α := Fl bin53)).1.vec 0 = 1 := by
  show (0 + 1 * 1) + 0 * 0 = (1 : Fl bin53)
  rw [one_mul_one, zero_add_one, zero_mul_x, one_add_zero]
theorem w1 : Ell.gt 2 (disc : Ell (Fl bin53)).mq.mat (cut (α := Fl bin53)).1.vec 1 = 0 := by
  show (0 + 0 * 1) + 1 * 0 = (0 : Fl bin53)
  rw [zero_mul_x, one_mul_zero, zero_add_zero, zero_add_zero]
theorem om1 : Ell.om 2 (disc : Ell (Fl bin53)).mq.mat (cut (α := Fl bin53)).1.vec = 1 := by
  show (0 + 1 * Ell.gt 2 (disc : Ell (Fl bin53)).mq.mat (cut (α := Fl bin53)).1.vec 0) +
    0 * Ell.gt 2 (disc : Ell (Fl bin53)).mq.mat (cut (α := Fl bin53)).1.vec 1 = (1 : Fl bin53)
  rw [w0, one_mul_one, zero_add_one, zero_mul_x, one_add_zero]

/-- the constants for dimension 2 -/
theorem consts : Pw 1 2 (EllCalc.new 2 : EllCalc (Fl bin53)).helper.nPlus1 ∧ Pw 0 1 (EllCalc.new 2 : EllCalc (Fl bin53)).helper.cst1 := by
  have pn : Pw 1 1 (nat 2 : Fl bin53) := Pw.two
  have hq : (nat 2 * nat 2 : Fl bin53) = ⟨4⟩ := Fl.ext (by
    have e : (nat 2 : Fl bin53).val = 2 := by
      show rnd53 ((2 : Nat) : ℝ) = 2
      have := rnd53_pow 1
      rw [zpow_one] at this
      exact_mod_cast this
    show rnd53 ((nat 2 : Fl bin53).val * (nat 2 : Fl bin53).val) = 4
    rw [e]
    have := rnd53_pow 2
    norm_num at this ⊢
    exact this)
  have h3 : (nat 2 * nat 2 - 1 : Fl bin53).val = 3 := by
    rw [hq]
    show rnd53 (4 - 1) = 3
    have := rnd53_rep 3 0 (by norm_num)
    norm_num at this ⊢
    exact this
  refine ⟨(pn.add (Pw.one.mono le_rfl (by norm_num : (0 : ℤ) ≤ 1))).mono (by norm_num) (by norm_num), ?_⟩
  show Pw 0 1 ((nat 2 * nat 2) / (nat 2 * nat 2 - 1))
  refine rnd_band ?_
  rw [h3, hq]
  norm_num

theorem bias_safe : (disc : Ell (Fl bin53)).helper.BiasSafe 0 1 := by
  obtain ⟨hp, hc⟩ := consts
  refine ⟨zero_mulOk 0, fun _ => ⟨zero_le_one, mulOk_zero _, ?_, ?_⟩⟩
  · rw [mul_zero_x, sqrt_one]
    exact noOver_abs (b := 1) (by show |(1 : ℝ) + 0| ≤ _; norm_num) (by norm_num)
  · rw [mul_zero_x, sqrt_one, one_add_zero]
    have r := Pw.one.div hp
    refine ⟨Pw.one.divOk hp (by norm_num) (by norm_num), Pw.two.mulOk r (by norm_num) (by norm_num), ?_, ?_, ?_, ?_, ?_, ?_⟩
    · exact noOver_abs (b := 1) (by show |(1 : ℝ) + 0| ≤ _; norm_num) (by norm_num)
    · rw [one_add_zero]
      exact (Pw.two.mul r).divOk Pw.one (by norm_num) (by norm_num)
    · exact ⟨one_ne_zero, .inl (zero_div _), by show NoOver (0 / 1); rw [zero_div]; exact noOver_zero⟩
    · rw [zero_div_one]; exact zero_mulOk 0
    · rw [zero_div_one, zero_mul_x]
      exact noOver_abs (b := 1) (by show |(1 : ℝ) - 0| ≤ _; norm_num) (by norm_num)
    · rw [zero_div_one, zero_mul_x, one_sub_zero]
      exact hc.mulOk Pw.one (by norm_num) (by norm_num)

theorem call_eq : CutType.call .bias (cut (α := Fl bin53)).2 (disc : Ell (Fl bin53)).helper 1 =
    (.success, 1 / (EllCalc.new 2 : EllCalc (Fl bin53)).helper.nPlus1,
      nat 2 * (1 / (EllCalc.new 2 : EllCalc (Fl bin53)).helper.nPlus1) / 1, (EllCalc.new 2 : EllCalc (Fl bin53)).helper.cst1 * 1) := by
  show (if Scalar.lt (1 : Fl bin53) (0 * 0) then _ else _) = _
  rw [if_neg (by rw [zero_mul_x]; exact Bool.not_eq_true _ ▸ decide_eq_false (by show ¬ (1 : ℝ) < 0; norm_num))]
  show (_, EllCalcCore.calcBiasCut (EllCalc.new 2 : EllCalc (Fl bin53)).helper 0 (Scalar.sqrt 1)) = _
  unfold EllCalcCore.calcBiasCut EllCalcCore.calcBiasCutFast
  simp only [sqrt_one, mul_zero_x, one_add_zero, zero_div_one, one_sub_zero]

theorem update_safe : Ell.Safe 2 .bias (disc : Ell (Fl bin53)) cut := by
  have m00 : (disc : Ell (Fl bin53)).mq.mat 0 0 = 1 := rfl
  have m01 : (disc : Ell (Fl bin53)).mq.mat 0 1 = 0 := rfl
  have m10 : (disc : Ell (Fl bin53)).mq.mat 1 0 = 0 := rfl
  have m11 : (disc : Ell (Fl bin53)).mq.mat 1 1 = 1 := rfl
  have v0 : (cut (α := Fl bin53)).1.vec 0 = 1 := rfl
  have v1 : (cut (α := Fl bin53)).1.vec 1 = 0 := rfl
  have x0 : (disc : Ell (Fl bin53)).xc.vec 0 = 0 := rfl
  have x1 : (disc : Ell (Fl bin53)).xc.vec 1 = 0 := rfl
  have hk : (disc : Ell (Fl bin53)).kappa = 1 := rfl
  have one_ok : MulOk (1 : Fl bin53) 1 := Pw.one.mulOk Pw.one (by norm_num) (by norm_num)
  have a01 : AddOk (0 : Fl bin53) 1 := noOver_abs (b := 1) (by show |(0 : ℝ) + 1| ≤ _; norm_num) (by norm_num)
  have a10 : AddOk (1 : Fl bin53) 0 := noOver_abs (b := 1) (by show |(1 : ℝ) + 0| ≤ _; norm_num) (by norm_num)
  obtain ⟨hp, hc⟩ := consts
  have pr := Pw.one.div hp
  have ps := (Pw.two.mul pr).div Pw.one
  refine ⟨?_, ?_, ?_, ?_, ?_, ?_, ?_⟩
  · intro i hi j hj
    interval_cases i <;> interval_cases j
    · rw [m00, v0]; exact one_ok
    · rw [m01]; exact zero_mulOk _
    · rw [m10]; exact zero_mulOk _
    · rw [v1]; exact mulOk_zero _
  · intro i hi k hk
    interval_cases i <;> interval_cases k
    · show AddOk 0 (1 * 1); rw [one_mul_one]; exact a01
    · show AddOk (0 + 1 * 1) (0 * 0); rw [one_mul_one, zero_add_one, zero_mul_x]; exact a10
    · show AddOk 0 (0 * 1); rw [zero_mul_x]; exact addOk_zero
    · show AddOk (0 + 0 * 1) (1 * 0); rw [zero_mul_x, mul_zero_x, zero_add_zero]; exact addOk_zero
  · intro i hi
    interval_cases i
    · rw [v0, w0]; exact one_ok
    · rw [v1]; exact zero_mulOk _
  · intro k hk
    interval_cases k
    · simp only [sumTo]
      rw [v0, w0, one_mul_one]; exact a01
    · simp only [sumTo]
      rw [v0, v1, w0, one_mul_one, zero_add_one, zero_mul_x]; exact a10
  · rw [om1, hk]; exact one_ok
  · rw [om1, hk, one_mul_one]; exact bias_safe
  · intro ρ σ δ h
    rw [om1, hk, one_mul_one, call_eq] at h
    obtain ⟨-, rfl, rfl, rfl⟩ : CutStatus.success = .success ∧ _ ∧ _ ∧ _ := by simpa only [Prod.mk.injEq] using h
    rw [om1, hk]
    have pd := hc.mul Pw.one
    have pr' := pr.div Pw.one
    have ps' := ps.div Pw.one
    refine ⟨pr.divOk Pw.one (by norm_num) (by norm_num), ps.divOk Pw.one (by norm_num) (by norm_num),
      Pw.one.mulOk pd (by norm_num) (by norm_num), ?_, ?_, ?_⟩
    · intro i hi
      interval_cases i
      · rw [w0, x0]
        refine ⟨pr'.mulOk Pw.one (by norm_num) (by norm_num), noOver_abs (b := 10) ?_ (by norm_num)⟩
        have := pr'.mul Pw.one
        rw [show (0 : Fl bin53).val = 0 from rfl, zero_sub, abs_neg, abs_of_pos this.pos]
        exact this.2.trans (two_le_two (by norm_num))
      · rw [w1, x1, mul_zero_x]
        exact ⟨mulOk_zero _, by show NoOver (0 - 0); rw [sub_zero]; exact noOver_zero⟩
    · intro i hi
      interval_cases i
      · rw [w0]; exact ps'.mulOk Pw.one (by norm_num) (by norm_num)
      · rw [w1]; exact mulOk_zero _
    · intro i hi j hj
      interval_cases i
      · obtain rfl : j = 0 := by omega
        rw [w0, m00]
        have p1 := (ps'.mul Pw.one)
        have p2 := p1.mul Pw.one
        refine ⟨p1.mulOk Pw.one (by norm_num) (by norm_num), noOver_abs (b := 10) ?_ (by norm_num), fun h => by cases h⟩
        have q1 := p2.pos
        have q2 : _ ≤ (2 : ℝ) ^ (9 : ℤ) := p2.2.trans (two_le_two (by norm_num))
        rw [show (1 : Fl bin53).val = 1 from rfl, abs_le]
        generalize (nat 2 * (1 / (EllCalc.new 2 : EllCalc (Fl bin53)).helper.nPlus1) / 1 / 1 * 1 * 1 : Fl bin53).val = v at q1 q2
        norm_num at q2
        norm_num
        constructor <;> linarith
      · rw [w1, mul_zero_x]
        refine ⟨zero_mulOk _, ?_, fun h => by cases h⟩
        rw [zero_mul_x]
        interval_cases j
        · rw [m10]; show NoOver (0 - 0); rw [sub_zero]; exact noOver_zero
        · rw [m11]; exact noOver_abs (b := 1) (by show |(1 : ℝ) - 0| ≤ _; norm_num) (by norm_num)

theorem orc_honest (X : ℝ) : FlHonest 2 (orc : OracleFeas Unit (Arr (Fl bin53)) (SingleCut (Fl bin53)) (Fl bin53)) (fun _ => True)
    {y | y 0 ≤ 0} 1 X := by
  intro w x _ hs _
  have h2 := hs.isVec.idx (i := 0) (by norm_num)
  simp only [orc, h2, Res.ok_bind]
  refine ⟨_, w, rfl, trivial, fun g β h => ?_⟩
  split_ifs at h with hx
  have hx : (0 : ℝ) ≤ x.flVec 2 0 := of_decide_eq_true hx
  simp only [Option.some.injEq, Prod.mk.injEq, SingleCut.mk.injEq] at h
  obtain ⟨rfl, rfl⟩ := h
  have h0 : (Arr.mk [1, 0] 2 0 : Arr (Fl bin53)).flVec 2 0 = 1 := rfl
  have h1 : (Arr.mk [1, 0] 2 0 : Arr (Fl bin53)).flVec 2 1 = 0 := rfl
  refine ⟨⟨rfl, rfl, rfl⟩, fun h => ?_, ?_, le_rfl, fun y hy => ?_⟩
  · have := congrFun h 0
    rw [h0] at this
    exact one_ne_zero this
  · rw [normSq, dotProduct, Fin.sum_univ_two, h0, h1]
    norm_num
  · have : y 0 ≤ 0 := hy
    rw [dotProduct, Fin.sum_univ_two, h0, h1]
    simp only [Pi.sub_apply]
    show 1 * (y 0 - x.flVec 2 0) + 0 * (y 1 - x.flVec 2 1) + 0 ≤ 0
    linarith

theorem orc_first : orc.assess () (disc : Ell (Fl bin53)).xc = .ok (some cut, ()) := by
  have e : Scalar.le (0 : Fl bin53) 0 = true := decide_eq_true (le_refl (0 : ℝ))
  show (Res.ok (if Scalar.le (0 : Fl bin53) 0 = true then some cut else none, ()) : Res _) = _
  rw [if_pos e]

/-- after the first cut the centre is inside -/
theorem second {e' : Ell (Fl bin53)} (h : Ell.space.updateBias (disc : Ell (Fl bin53)) cut = .ok (.success, e')) :
    e'.xc.IsVecShape 2 ∧ (e'.xc.vec 0).val < 0 := by
  have hc : CutType.call .bias (cut (α := Fl bin53)).2 (disc : Ell (Fl bin53)).helper ((disc : Ell (Fl bin53)).kappa *
      Ell.om 2 (disc : Ell (Fl bin53)).mq.mat (cut (α := Fl bin53)).1.vec) =
      (.success, 1 / (EllCalc.new 2 : EllCalc (Fl bin53)).helper.nPlus1,
        nat 2 * (1 / (EllCalc.new 2 : EllCalc (Fl bin53)).helper.nPlus1) / 1, (EllCalc.new 2 : EllCalc (Fl bin53)).helper.cst1 * 1) := by
    rw [om1, show (disc : Ell (Fl bin53)).kappa = 1 from rfl, one_mul_one]
    exact call_eq
  have := Ell.updateCore_spec (e := (disc : Ell (Fl bin53))) (n := 2) (grad := (cut (α := Fl bin53)).1)
    (Arr.IsMatShape.isMat ⟨rfl, rfl, rfl⟩) (Arr.IsVecShape.isVec ⟨rfl, rfl, rfl⟩) (Arr.IsVecShape.isVec ⟨rfl, rfl, rfl⟩) (by norm_num)
    (CutType.call .bias (cut (α := Fl bin53)).2 (disc : Ell (Fl bin53)).helper) hc
  rcases this with ⟨h1, -⟩ | ⟨-, r, h1, -, h2, -⟩
  · exact absurd rfl h1
  · have h3 : Ell.space.updateBias (disc : Ell (Fl bin53)) cut = .ok (.success, r) := h1
    rw [h] at h3
    injection h3 with h3
    injection h3 with _ h3
    subst h3
    refine ⟨h2.shape, ?_⟩
    have e1 := h2.get 0 (by norm_num)
    have e2 := h2.shape.isVec.get 0 (by norm_num)
    rw [e1] at e2
    rw [← Option.some.inj e2, w0, om1]
    have pr := ((Pw.one.div consts.1).div Pw.one).mul Pw.one
    show rnd53 (0 - _) < 0
    have h5 : (0 : ℝ) - (1 / (EllCalc.new 2 : EllCalc (Fl bin53)).helper.nPlus1 / 1 * 1 : Fl bin53).val ≤ -(2 : ℝ) ^ (-2 : ℤ) := by
      have := pr.1
      norm_num at this ⊢
      exact this
    have h6 := rnd53_mono _ _ h5
    rw [rnd53_neg_pow] at h6
    exact h6.trans_lt (by norm_num)

theorem run_safe : FeasSafe orc 2 (fun _ x => x.IsVecShape 2) (0 : Fl bin53) 20 () disc := by
  refine ⟨⟨rfl, rfl, rfl⟩, fun c w' h => ?_⟩
  rw [orc_first] at h
  injection h with h
  injection h with h _
  injection h with h
  subst h
  refine ⟨⟨rfl, rfl, rfl⟩, update_safe, fun e' h _ => ?_⟩
  obtain ⟨h1, h2⟩ := second h
  refine ⟨h1, fun c w'' ha => ?_⟩
  have hi := h1.isVec.idx (i := 0) (by norm_num)
  have hle : Scalar.le (0 : Fl bin53) (e'.xc.vec 0) = false := decide_eq_false (not_le.2 h2)
  simp only [orc, hi, Res.ok_bind, hle] at ha
  simp at ha

/-- C109: an update of the unit disc in `f64` and in arithmetic rounded to 53 bits -/
example : Res.Rel (fun p q => p.1 = q.1 ∧ p.2.Same64 q.2) (Ell.space.update .bias (disc : Ell B64) cut)
    (Ell.space.update .bias (disc : Ell (Fl bin53)) cut) :=
  C109_update (n := 2) (by norm_num) disc_same ⟨⟨rfl, rfl, rfl⟩, ⟨rfl, rfl, rfl⟩⟩ ⟨⟨rfl, rfl, .cons .one (.cons .zero .nil)⟩, Same.zero⟩
    ⟨rfl, rfl, rfl⟩ .bias update_safe

/-- C109: in IEEE-754 `f64` the loop started with the unit disc finds a point of the half plane `x₀ < 0` -/
example : ∃ x k v f, cuttingPlaneFeas (orc : OracleFeas Unit (Arr B64) (SingleCut B64) B64) Ell.space () disc ⟨20, 0⟩ =
    .ok ((some x, k), v, f) ∧ k < 17 ∧ (∀ y ∈ x.data, y.Finite) ∧ (x.vec 0).val < 0 := by
  obtain ⟨x, k, v, f, h1, h2, h3, h4, w1, x1, v1, -, h5, h6⟩ := C109_disc_f64 (orc : OracleFeas Unit (Arr B64) (SingleCut B64) B64) orc
    (fun _ _ => True) (fun _ x => x.IsVecShape 2) orc_same (fun _ => True) {y | y 0 ≤ 0} 1 ![-1 / 2, 0] () () disc disc ⟨20, 0⟩ ⟨20, 0⟩
    trivial disc_same .zero rfl ⟨⟨rfl, rfl, rfl⟩, ⟨rfl, rfl, rfl⟩⟩ rfl rfl (by ext i j; fin_cases i <;> fin_cases j <;> rfl)
    (by ext i; fin_cases i <;> rfl) (by
      rw [norm2, Real.sqrt_le_iff]
      refine ⟨by norm_num, ?_⟩
      rw [dotProduct, Fin.sum_univ_two]
      norm_num) (by
      intro y hy
      have h : normSq (y - ![(-1 / 2 : ℝ), 0]) ≤ (1 / 4) ^ 2 := hy
      rw [normSq, dotProduct, Fin.sum_univ_two] at h
      simp only [Pi.sub_apply, cons_val_zero, cons_val_one] at h
      show y 0 ≤ 0
      nlinarith [sq_nonneg (y 1)]) trivial (orc_honest 27) (by
      intro w x g β w' h
      simp only [orc] at h
      rw [Res.bind_eq_ok] at h
      obtain ⟨v, -, h⟩ := h
      injection h with h
      injection h with h _
      split_ifs at h
      injection h with h
      injection h with _ h
      injection h with h
      rw [← h]
      rfl) (by show (0 : ℝ) ≤ _; norm_num) (by norm_num) run_safe
  refine ⟨x, k, v, f, h1, h2, h4, ?_⟩
  have hs1 : x1.IsVecShape 2 := ⟨h5.rows.symm.trans h3.1, h5.cols.symm.trans h3.2.1, h5.data.length_eq.symm.trans h3.2.2⟩
  have hi := hs1.isVec.idx (i := 0) (by norm_num)
  simp only [orc, hi, Res.ok_bind] at h6
  rw [(h5.vec hs1 0 (by norm_num)).2]
  injection h6 with h6
  injection h6 with h6 _
  split_ifs at h6 with hb
  exact not_le.1 fun hc => hb (decide_eq_true hc)

/-- cuts through the origin, and never improves -/
def orcO {α : Type} [Scalar α] : OracleOptim Unit (Arr α) (SingleCut α) α := ⟨fun w _ γ => .ok ((cut, false), γ, w)⟩

/-- C109: a run of the optimisation loop -/
example : Res.Rel (fun p q => OptRel Arr.Same p.1.1 q.1.1 ∧ p.1.2 = q.1.2 ∧ Same p.2.1 q.2.1 ∧ True ∧ p.2.2.2.Same64 q.2.2.2)
    (cuttingPlaneOptim orcO Ell.space () (disc : Ell B64) 1 ⟨1, 0⟩)
    (cuttingPlaneOptim orcO Ell.space () (disc : Ell (Fl bin53)) 1 ⟨1, 0⟩) := by
  refine C109_optim (n := 2) orcO orcO (fun _ _ => True) (fun _ _ _ => True) ?_ _ _ .zero rfl (by norm_num) () () disc disc 1 1 trivial
    disc_same ⟨⟨rfl, rfl, rfl⟩, ⟨rfl, rfl, rfl⟩⟩ .one ⟨trivial, ?_⟩
  · intro w w' x x' g g' _ _ hg _
    exact ⟨⟨⟨rfl, rfl, .cons .one (.cons .zero .nil)⟩, Same.zero⟩, rfl, hg, trivial⟩
  · intro c s g' w' h
    simp only [orcO, Res.ok.injEq, Prod.mk.injEq] at h
    obtain ⟨⟨rfl, rfl⟩, -, -⟩ := h
    exact ⟨⟨rfl, rfl, rfl⟩, update_safe, fun e' _ _ => trivial⟩

end Ellalgo.ExRun64
