import Verif.Props.Oracles64Runs
import Verif.Props.Binary64RunExamples

/-! Cases that meet the hypotheses of C126. -/

namespace Ellalgo.ExOr64
open Ellalgo ExRun64

/-- one sample `0` with label `-1` -/
def sv {α : Type} [Scalar α] : SvmOracle α := SvmOracle.new ⟨[0], 1, 1⟩ [-1]

theorem sv_same : (sv : SvmOracle B64).Same64 sv := ⟨⟨rfl, rfl, .cons .zero .nil⟩, rfl, rfl⟩

theorem sv_for : (sv : SvmOracle (Fl bin53)).FlFor 1 1 (fun _ => -1) := by
  refine ⟨one_pos, ⟨rfl, rfl, rfl⟩, rfl, rfl, fun _ => ?_⟩
  show rnd53 ((-1 : ℤ) : ℝ) = ((-1 : ℤ) : ℝ)
  have := rnd53_neg_pow 0
  simpa using this

/-- the numeric value of the label -/
theorem label : -(Scalar.ofInt (-1) : Fl bin53) = 1 := Fl.ext (by
  show -rnd53 ((-1 : ℤ) : ℝ) = 1
  have := rnd53_neg_pow 0
  simp only [zpow_zero] at this
  push_cast
  rw [this, neg_neg])

theorem sv_safe : (sv : SvmOracle (Fl bin53)).Safe 1 1 (disc : Ell (Fl bin53)).xc where
  pos := one_pos
  point := ⟨rfl, rfl, rfl⟩
  data := ⟨rfl, rfl, rfl⟩
  nfeat := rfl
  labels := ⟨rfl, fun y hy => by
    have : y = -1 := by simpa [sv, SvmOracle.new] using hy
    rw [this]; norm_num⟩
  dot := by
    intro i hi
    obtain rfl : i = 0 := by omega
    refine ⟨fun j hj => ?_, fun k hk => ?_⟩
    · obtain rfl : j = 0 := by omega
      exact zero_mulOk _
    · obtain rfl : k = 0 := by omega
      show AddOk 0 (0 * 0)
      rw [zero_mul_x]; exact addOk_zero
  bias := by
    intro i hi
    obtain rfl : i = 0 := by omega
    show AddOk (0 + 0 * 0) 0
    rw [zero_mul_x, zero_add_zero]; exact addOk_zero
  margin := by
    intro i hi
    obtain rfl : i = 0 := by omega
    show MulOk _ (0 + 0 * 0 + 0)
    rw [zero_mul_x, zero_add_zero, zero_add_zero]; exact mulOk_zero _
  grad := by
    intro i hi j hj
    obtain rfl : i = 0 := by omega
    obtain rfl : j = 0 := by omega
    exact mulOk_zero _

/-- the cut of the first step: towards a negative offset -/
def cut1 {α : Type} [Scalar α] : Arr α × SingleCut α := (⟨[0, 1], 2, 0⟩, ⟨0⟩)

theorem sv_first (γ : Fl bin53) : SvmOracle.oracle.assess (sv : SvmOracle (Fl bin53)) (disc : Ell (Fl bin53)).xc γ = .ok ((cut1, true), 0, sv) := by
  have e0 : (0 + 0 * 0 + 0 : Fl bin53) = 0 := by rw [zero_mul_x, zero_add_zero, zero_add_zero]
  have e1 : (Scalar.ofInt (-1) * (0 + 0 * 0 + 0) : Fl bin53) = 0 := by rw [e0, mul_zero_x]
  have h : SvmOracle.oracle.assess (sv : SvmOracle (Fl bin53)) (disc : Ell (Fl bin53)).xc γ =
      (if Scalar.ge (Scalar.ofInt (-1) * (0 + 0 * 0 + 0) : Fl bin53) 1 then .ok (((Arr.new 2, ⟨0⟩), true), 0, sv) else
        .ok (((Arr.ofList [-(Scalar.ofInt (-1) : Fl bin53) * 0, -(Scalar.ofInt (-1) : Fl bin53)], ⟨Scalar.ofInt (-1) * (0 + 0 * 0 + 0)⟩), true),
          Scalar.ofInt (-1) * (0 + 0 * 0 + 0), sv)) := rfl
  rw [h, e1, label, mul_zero_x, if_neg (Bool.not_eq_true _ ▸ decide_eq_false (by show ¬ (1 : ℝ) ≤ 0; norm_num))]
  rfl

noncomputable abbrev D : Nat → Nat → Fl bin53 := (disc : Ell (Fl bin53)).mq.mat

theorem w0' : Ell.gt 2 D (cut1 (α := Fl bin53)).1.vec 0 = 0 := by
  show (0 + 1 * 0) + 0 * 1 = (0 : Fl bin53)
  rw [mul_zero_x, zero_mul_x, zero_add_zero, zero_add_zero]
theorem w1' : Ell.gt 2 D (cut1 (α := Fl bin53)).1.vec 1 = 1 := by
  show (0 + 0 * 0) + 1 * 1 = (1 : Fl bin53)
  rw [zero_mul_x, one_mul_one, zero_add_zero, zero_add_one]
theorem om1' : Ell.om 2 D (cut1 (α := Fl bin53)).1.vec = 1 := by
  show (0 + 0 * Ell.gt 2 D (cut1 (α := Fl bin53)).1.vec 0) + 1 * Ell.gt 2 D (cut1 (α := Fl bin53)).1.vec 1 = (1 : Fl bin53)
  rw [w1', zero_mul_x, one_mul_one, zero_add_zero, zero_add_one]

theorem call_central : CutType.call .central (cut1 (α := Fl bin53)).2 (disc : Ell (Fl bin53)).helper 1 =
    (.success, 1 / (EllCalc.new 2 : EllCalc (Fl bin53)).helper.nPlus1,
      nat 2 * (1 / (EllCalc.new 2 : EllCalc (Fl bin53)).helper.nPlus1), (EllCalc.new 2 : EllCalc (Fl bin53)).helper.cst1) := by
  show (CutStatus.success, Scalar.sqrt (1 : Fl bin53) / _, _, _) = _
  rw [sqrt_one]
  rfl

theorem sv_update : Ell.Safe 2 .central (disc : Ell (Fl bin53)) cut1 := by
  have m00 : (disc : Ell (Fl bin53)).mq.mat 0 0 = 1 := rfl
  have m01 : (disc : Ell (Fl bin53)).mq.mat 0 1 = 0 := rfl
  have m10 : (disc : Ell (Fl bin53)).mq.mat 1 0 = 0 := rfl
  have m11 : (disc : Ell (Fl bin53)).mq.mat 1 1 = 1 := rfl
  have v0 : (cut1 (α := Fl bin53)).1.vec 0 = 0 := rfl
  have v1 : (cut1 (α := Fl bin53)).1.vec 1 = 1 := rfl
  have x0 : (disc : Ell (Fl bin53)).xc.vec 0 = 0 := rfl
  have x1 : (disc : Ell (Fl bin53)).xc.vec 1 = 0 := rfl
  have hk : (disc : Ell (Fl bin53)).kappa = 1 := rfl
  have one_ok : MulOk (1 : Fl bin53) 1 := Pw.one.mulOk Pw.one (by norm_num) (by norm_num)
  have a01 : AddOk (0 : Fl bin53) 1 := noOver_abs (b := 1) (by show |(0 : ℝ) + 1| ≤ _; norm_num) (by norm_num)
  obtain ⟨hp, hc⟩ := consts
  have pr := Pw.one.div hp
  have ps := Pw.two.mul pr
  refine ⟨?_, ?_, ?_, ?_, ?_, ?_, ?_⟩
  · intro i hi j hj
    interval_cases i <;> interval_cases j
    · rw [v0]; exact mulOk_zero _
    · rw [m01]; exact zero_mulOk _
    · rw [m10]; exact zero_mulOk _
    · rw [m11, v1]; exact one_ok
  · intro i hi k hk
    interval_cases i <;> interval_cases k
    · show AddOk 0 (1 * 0); rw [mul_zero_x]; exact addOk_zero
    · show AddOk (0 + 1 * 0) (0 * 1); rw [mul_zero_x, zero_mul_x, zero_add_zero]; exact addOk_zero
    · show AddOk 0 (0 * 0); rw [zero_mul_x]; exact addOk_zero
    · show AddOk (0 + 0 * 0) (1 * 1); rw [zero_mul_x, one_mul_one, zero_add_zero]; exact a01
  · intro i hi
    interval_cases i
    · rw [v0]; exact zero_mulOk _
    · rw [v1, w1']; exact one_ok
  · intro k hk
    interval_cases k
    · simp only [sumTo]
      rw [v0, zero_mul_x]; exact addOk_zero
    · simp only [sumTo]
      rw [v0, v1, w1', zero_mul_x, one_mul_one, zero_add_zero]; exact a01
  · rw [om1', hk]; exact one_ok
  · rw [om1', hk, one_mul_one]
    refine ⟨zero_le_one, ?_⟩
    rw [sqrt_one]
    exact Pw.one.divOk hp (by norm_num) (by norm_num)
  · intro ρ σ δ h
    rw [om1', hk, one_mul_one, call_central] at h
    obtain ⟨-, rfl, rfl, rfl⟩ : CutStatus.success = .success ∧ _ ∧ _ ∧ _ := by simpa only [Prod.mk.injEq] using h
    rw [om1', hk]
    have pr' := pr.div Pw.one
    have ps' := ps.div Pw.one
    refine ⟨pr.divOk Pw.one (by norm_num) (by norm_num), ps.divOk Pw.one (by norm_num) (by norm_num),
      Pw.one.mulOk hc (by norm_num) (by norm_num), ?_, ?_, ?_⟩
    · intro i hi
      interval_cases i
      · rw [w0', x0, mul_zero_x]
        exact ⟨mulOk_zero _, by show NoOver (0 - 0); rw [sub_zero]; exact noOver_zero⟩
      · rw [w1', x1]
        refine ⟨pr'.mulOk Pw.one (by norm_num) (by norm_num), noOver_abs (b := 10) ?_ (by norm_num)⟩
        have := pr'.mul Pw.one
        rw [show (0 : Fl bin53).val = 0 from rfl, zero_sub, abs_neg, abs_of_pos this.pos]
        exact this.2.trans (two_le_two (by norm_num))
    · intro i hi
      interval_cases i
      · rw [w0']; exact mulOk_zero _
      · rw [w1']; exact ps'.mulOk Pw.one (by norm_num) (by norm_num)
    · intro i hi j hj
      interval_cases i
      · obtain rfl : j = 0 := by omega
        rw [w0', m00, mul_zero_x, zero_mul_x]
        exact ⟨zero_mulOk _, noOver_abs (b := 1) (by show |(1 : ℝ) - 0| ≤ _; norm_num) (by norm_num), fun h => by cases h⟩
      · interval_cases j
        · rw [w0', m10, mul_zero_x]
          exact ⟨mulOk_zero _, by show NoOver (0 - 0); rw [sub_zero]; exact noOver_zero, fun h => by cases h⟩
        · rw [w1', m11]
          have p1 := (ps'.mul Pw.one)
          have p2 := p1.mul Pw.one
          refine ⟨p1.mulOk Pw.one (by norm_num) (by norm_num), noOver_abs (b := 10) ?_ (by norm_num), fun h => by cases h⟩
          have q1 := p2.pos
          have q2 : _ ≤ (2 : ℝ) ^ (9 : ℤ) := p2.2.trans (two_le_two (by norm_num))
          rw [show (1 : Fl bin53).val = 1 from rfl, abs_le]
          generalize (nat 2 * (1 / (EllCalc.new 2 : EllCalc (Fl bin53)).helper.nPlus1) / 1 * 1 * 1 : Fl bin53).val = v at q1 q2
          norm_num at q2
          norm_num
          constructor <;> linarith

/-- C126: a query of the SVM oracle at the origin, in both arithmetics -/
example : Res.Rel (fun p q => SameCut p.1.1 q.1.1 ∧ p.1.2 = q.1.2 ∧ Same p.2.1 q.2.1 ∧ p.2.2.Same64 q.2.2)
    (SvmOracle.oracle.assess (sv : SvmOracle B64) (disc : Ell B64).xc 1) (SvmOracle.oracle.assess (sv : SvmOracle (Fl bin53)) (disc : Ell (Fl bin53)).xc 1) :=
  C126_svm_optim (m := 1) (n := 1) _ _ _ _ _ _ sv_same disc_same.xc .one sv_safe

/-- C126: one step of training a classifier in `f64`, from the unit disc -/
example : ∃ r k γ1 o1 e1, cuttingPlaneOptim SvmOracle.oracle Ell.space (sv : SvmOracle B64) disc 1 ⟨1, 0⟩ = .ok ((r, k), γ1, o1, e1) ∧ γ1.Finite ∧
    ∀ x, r = some x → x.IsVecShape 2 ∧ ∀ y ∈ x.data, y.Finite := by
  obtain ⟨r, k, γ1, o1, e1, h1, h2, -, h3⟩ := C126_svm_run (m := 1) (n := 1) (opts := ⟨1, 0⟩) (opts' := ⟨1, 0⟩) sv_same sv_for disc_same
    ⟨⟨rfl, rfl, rfl⟩, ⟨rfl, rfl, rfl⟩⟩ Same.one .zero rfl (by
      refine ⟨sv_safe, fun c s g' w' h => ?_⟩
      rw [sv_first] at h
      simp only [Res.ok.injEq, Prod.mk.injEq] at h
      obtain ⟨⟨rfl, rfl⟩, -, -⟩ := h
      exact ⟨⟨rfl, rfl, rfl⟩, sv_update, fun e' _ _ => trivial⟩)
  exact ⟨r, k, γ1, o1, e1, h1, h2, fun x hx => ⟨(h3 x hx).1, (h3 x hx).2.1⟩⟩

/-! ### Filters -/

/-- two taps, the response at 0 must lie in `[0, 1]`, that at `π` is the stopband -/
def lp {α : Type} [Scalar α] : LowpassOracle α :=
  ⟨false, -1, [⟨[1, nat 2], 2, 0⟩, ⟨[1, -nat 2], 2, 0⟩], 1, 1, 0, 1, 1, 0, 0, none, -1⟩

def lpd : LpData := ⟨2, 1, 1, 0, 1⟩

theorem two_same : Same (nat 2) (nat 2) := Same.nat 2 (by
  have : (2 : ℝ) ^ 1 ≤ 2 ^ 1000 := pow_le_pow_right₀ (by norm_num) (by norm_num)
  simpa using this)

theorem lp_same : (lp : LowpassOracle B64).Same64 lp :=
  ⟨rfl, rfl, rfl, rfl, rfl, rfl, rfl,
    .cons ⟨rfl, rfl, .cons .one (.cons two_same .nil)⟩ (.cons ⟨rfl, rfl, .cons .one (.cons two_same.neg .nil)⟩ .nil), .zero, .one, .one, trivial⟩

theorem val_two : (nat 2 : Fl bin53).val = 2 := by
  show rnd53 ((2 : Nat) : ℝ) = 2
  have := rnd53_pow 1
  rw [zpow_one] at this
  exact_mod_cast this

theorem lp_for : (lp : LowpassOracle (Fl bin53)).FlFor lpd 2 0 where
  dim := by norm_num
  len := rfl
  shape := by
    intro i h
    have h2 : i < 2 := h
    interval_cases i <;> exact ⟨rfl, rfl, rfl⟩
  close := by
    intro i h j
    have h2 : i < 2 := h
    interval_cases i <;> fin_cases j
    · show |(1 : ℝ) - 1| ≤ 0; norm_num
    · show |(nat 2 : Fl bin53).val - (2 * Real.cos (lpd.freq 0 * ((1 : Nat) : ℝ)))| ≤ 0
      rw [val_two, LpData.freq]; simp
    · show |(1 : ℝ) - 1| ≤ 0; norm_num
    · show |-(nat 2 : Fl bin53).val - (2 * Real.cos (lpd.freq 1 * ((1 : Nat) : ℝ)))| ≤ 0
      rw [val_two, LpData.freq]
      simp [lpd]
  pass := rfl
  stop := rfl
  lp := rfl
  up := rfl
  idx1 := ⟨le_rfl, fun _ => by show (-1 : Int) < 1; norm_num⟩
  idx2 := ⟨le_rfl, fun h => absurd h (by show ¬ (1 : Nat) < 1; norm_num)⟩
  idx3 := ⟨le_rfl, fun _ => by show (0 : Int) < 2; norm_num⟩

theorem dot0 {r : Fl bin53} : dotV 2 (Arr.mk [1, r] 2 0 : Arr (Fl bin53)).vec (disc : Ell (Fl bin53)).xc.vec = 0 := by
  show 0 + 1 * 0 + r * 0 = (0 : Fl bin53)
  rw [mul_zero_x, mul_zero_x, zero_add_zero, zero_add_zero]

theorem lp_row {r : Fl bin53} : (lp : LowpassOracle (Fl bin53)).RowSafe 2 1 (disc : Ell (Fl bin53)).xc ⟨[1, r], 2, 0⟩ := by
  have s1 : SubOk (0 : Fl bin53) 1 := noOver_abs (b := 1) (by show |(0 : ℝ) - 1| ≤ _; norm_num) (by norm_num)
  have s0 : SubOk (0 : Fl bin53) 0 := noOver_abs (b := 1) (by show |(0 : ℝ) - 0| ≤ _; norm_num) (by norm_num)
  have a1 : AddOk (-0 : Fl bin53) 1 := noOver_abs (b := 1) (by show |-(0 : ℝ) + 1| ≤ _; norm_num) (by norm_num)
  have a0 : AddOk (-0 : Fl bin53) 0 := noOver_abs (b := 1) (by show |-(0 : ℝ) + 0| ≤ _; norm_num) (by norm_num)
  refine ⟨⟨rfl, rfl, rfl⟩, ⟨fun j hj => ?_, fun k hk => ?_⟩, ?_⟩
  · interval_cases j <;> exact mulOk_zero _
  · interval_cases k
    · show AddOk 0 (1 * 0); rw [mul_zero_x]; exact addOk_zero
    · show AddOk (0 + 1 * 0) (r * 0); rw [mul_zero_x, mul_zero_x, zero_add_zero]; exact addOk_zero
  · rw [dot0]
    exact ⟨s1, s0, s1, a0, a1, a1⟩

theorem lp_safe : (lp : LowpassOracle (Fl bin53)).Safe 2 1 (disc : Ell (Fl bin53)).xc := by
  refine ⟨⟨rfl, rfl, rfl⟩, fun col hc => ?_⟩
  simp only [lp, List.mem_cons, List.mem_nil_iff, or_false] at hc
  rcases hc with rfl | rfl <;> exact lp_row

/-- C126: a query of the low-pass oracle at the origin, in both arithmetics -/
example : Res.Rel SameLp ((lp : LowpassOracle B64).assessFeas (disc : Ell B64).xc)
    ((lp : LowpassOracle (Fl bin53)).assessFeas (disc : Ell (Fl bin53)).xc) :=
  C126_lowpass_query (n := 2) lp_same disc_same.xc lp_safe

/-- the cut of the first step: the origin is accepted, the response at `π` is to be made smaller than 0 -/
def cutL {α : Type} [Scalar α] : Arr α × ParallelCut α := (⟨[1, -nat 2], 2, 0⟩, ⟨0, some 0⟩)

theorem lp_first : ∃ w', LowpassOracle.oracle.assess (lp : LowpassOracle (Fl bin53)) (disc : Ell (Fl bin53)).xc 1 = .ok ((cutL, true), 0, w') := by
  have e0 : ∀ r : Fl bin53, (Arr.mk [1, r] 2 0 : Arr (Fl bin53)).dot (disc : Ell (Fl bin53)).xc = .ok 0 := fun r => by
    rw [dot_spec (Arr.IsVecShape.isVec ⟨rfl, rfl, rfl⟩) (Arr.IsVecShape.isVec (n := 2) ⟨rfl, rfl, rfl⟩)]
    exact congrArg Res.ok dot0
  have g01 : Scalar.gt (0 : Fl bin53) 1 = false := decide_eq_false (by show ¬ (0 : ℝ) > 1; norm_num)
  have l00 : Scalar.lt (0 : Fl bin53) 0 = false := decide_eq_false (by show ¬ (0 : ℝ) < 0; norm_num)
  refine ⟨{ (lp : LowpassOracle (Fl bin53)) with moreAlt := false, idx1 := 0, idx3 := 1, fmax := some 0, kmax := 1 }, ?_⟩
  have gi : Scalar.gtNegInf (0 : Fl bin53) = true := rfl
  have i0 : (disc : Ell (Fl bin53)).xc.idx 0 = .ok 0 := rfl
  have z0 : ¬ (0 : Fl bin53).val < 0 := by show ¬ (0 : ℝ) < 0; norm_num
  simp [LowpassOracle.oracle, LowpassOracle.assess, LowpassOracle.assessFeas, lp, rrLoop, nthI32, LowpassOracle.passBody, LowpassOracle.stopBody,
    LowpassOracle.transBody, e0, g01, l00, gtFmax, Res.ok_bind, cutL, Res.ofOption, gi, i0, z0]

/-! the numbers of that step -/

theorem mul_rep {x y : ℝ} (z : ℝ) (m e : ℤ) (hm : |m| ≤ 2 ^ 53) (h1 : x * y = z) (h2 : m * (2 : ℝ) ^ e = z) : (⟨x⟩ * ⟨y⟩ : Fl bin53) = ⟨z⟩ :=
  Fl.ext (by show rnd53 (x * y) = z; rw [h1, ← h2, rnd53_rep m e hm])
theorem add_rep {x y : ℝ} (z : ℝ) (m e : ℤ) (hm : |m| ≤ 2 ^ 53) (h1 : x + y = z) (h2 : m * (2 : ℝ) ^ e = z) : (⟨x⟩ + ⟨y⟩ : Fl bin53) = ⟨z⟩ :=
  Fl.ext (by show rnd53 (x + y) = z; rw [h1, ← h2, rnd53_rep m e hm])
theorem sub_rep {x y : ℝ} (z : ℝ) (m e : ℤ) (hm : |m| ≤ 2 ^ 53) (h1 : x - y = z) (h2 : m * (2 : ℝ) ^ e = z) : (⟨x⟩ - ⟨y⟩ : Fl bin53) = ⟨z⟩ :=
  Fl.ext (by show rnd53 (x - y) = z; rw [h1, ← h2, rnd53_rep m e hm])
theorem div_rep {x y : ℝ} (z : ℝ) (m e : ℤ) (hm : |m| ≤ 2 ^ 53) (h1 : x / y = z) (h2 : m * (2 : ℝ) ^ e = z) : (⟨x⟩ / ⟨y⟩ : Fl bin53) = ⟨z⟩ :=
  Fl.ext (by show rnd53 (x / y) = z; rw [h1, ← h2, rnd53_rep m e hm])

theorem noUnder_of {x : ℝ} (h : (2 : ℝ) ^ (-10 : ℤ) ≤ |x|) : NoUnder x := .inr ((two_le_two (by norm_num)).trans h)
theorem mulOk_of {x y : Fl bin53} (h1 : (2 : ℝ) ^ (-10 : ℤ) ≤ |x.val * y.val|) (h2 : |x.val * y.val| ≤ (2 : ℝ) ^ (10 : ℤ)) : MulOk x y :=
  ⟨noUnder_of h1, noOver_abs h2 (by norm_num)⟩
theorem divOk_of {x y : Fl bin53} (h0 : y.val ≠ 0) (h1 : (2 : ℝ) ^ (-10 : ℤ) ≤ |x.val / y.val|) (h2 : |x.val / y.val| ≤ (2 : ℝ) ^ (10 : ℤ)) :
    DivOk x y := ⟨h0, noUnder_of h1, noOver_abs h2 (by norm_num)⟩

theorem one_eq : (1 : Fl bin53) = ⟨1⟩ := rfl
theorem zero_eq : (0 : Fl bin53) = ⟨0⟩ := rfl
theorem two_eq : (nat 2 : Fl bin53) = ⟨2⟩ := Fl.ext val_two

theorem lv0 : (cutL (α := Fl bin53)).1.vec 0 = ⟨1⟩ := rfl
theorem lv1 : (cutL (α := Fl bin53)).1.vec 1 = ⟨-2⟩ := Fl.ext (by show -(nat 2 : Fl bin53).val = -2; rw [val_two])

theorem lw0 : Ell.gt 2 D (cutL (α := Fl bin53)).1.vec 0 = ⟨1⟩ := by
  show 0 + 1 * 1 + 0 * (cutL (α := Fl bin53)).1.vec 1 = (⟨1⟩ : Fl bin53)
  rw [zero_mul_x, one_mul_one, zero_add_one, one_add_zero]; rfl
theorem lw1 : Ell.gt 2 D (cutL (α := Fl bin53)).1.vec 1 = ⟨-2⟩ := by
  show 0 + 0 * 1 + 1 * (cutL (α := Fl bin53)).1.vec 1 = (⟨-2⟩ : Fl bin53)
  rw [lv1, zero_mul_x, zero_add_zero, one_eq, mul_rep (-2) (-1) 1 (by norm_num) (by norm_num) (by norm_num), zero_eq,
    add_rep (-2) (-1) 1 (by norm_num) (by norm_num) (by norm_num)]
theorem lom : Ell.om 2 D (cutL (α := Fl bin53)).1.vec = ⟨5⟩ := by
  show 0 + 1 * Ell.gt 2 D (cutL (α := Fl bin53)).1.vec 0 + (cutL (α := Fl bin53)).1.vec 1 * Ell.gt 2 D (cutL (α := Fl bin53)).1.vec 1 = _
  rw [lw0, lw1, lv1, ← one_eq, one_mul_one, zero_add_one, one_eq, mul_rep 4 1 2 (by norm_num) (by norm_num) (by norm_num),
    add_rep 5 5 0 (by norm_num) (by norm_num) (by norm_num)]
theorem ltsq : (disc : Ell (Fl bin53)).kappa * ⟨5⟩ = ⟨5⟩ := mul_rep 5 5 0 (by norm_num) (by norm_num) (by norm_num)

theorem inv_n : (disc : Ell (Fl bin53)).helper.helper.invN = ⟨1 / 2⟩ := by
  show 1 / nat 2 = (⟨1 / 2⟩ : Fl bin53)
  rw [two_eq, one_eq, div_rep (1 / 2) 1 (-1) (by norm_num) (by norm_num) (by norm_num)]

theorem root_eq (h : Fl bin53) : h * (0 * 0 / ⟨5⟩) + Scalar.sqrt (1 - 0 * 0 / ⟨5⟩ + h * (0 * 0 / ⟨5⟩) * (h * (0 * 0 / ⟨5⟩))) = 1 := by
  have e : (0 : Fl bin53) / ⟨5⟩ = 0 := div_rep 0 0 0 (by norm_num) (by norm_num) (by norm_num)
  rw [zero_mul_x, e, mul_zero_x, mul_zero_x, one_sub_zero, one_add_zero, sqrt_one, zero_add_one]

theorem call_L : CutType.call .central (cutL (α := Fl bin53)).2 (disc : Ell (Fl bin53)).helper ⟨5⟩ = (.success, 0, 1, ⟨2⟩) := by
  show EllCalc.calcParallelCentralCut (disc : Ell (Fl bin53)).helper 0 ⟨5⟩ = _
  have l00 : Scalar.lt (0 : Fl bin53) 0 = false := decide_eq_false (by show ¬ (0 : ℝ) < 0; norm_num)
  have l5 : Scalar.le (⟨5⟩ : Fl bin53) 0 = false := decide_eq_false (by show ¬ (5 : ℝ) ≤ 0; norm_num)
  have hu : (disc : Ell (Fl bin53)).helper.useParallelCut = true := rfl
  unfold EllCalc.calcParallelCentralCut EllCalcCore.calcParallelCentralCut
  simp only [root_eq]
  simp only [l00, zero_mul_x, l5, hu, inv_n]
  rw [one_eq, add_rep 2 2 0 (by norm_num) (by norm_num) (by norm_num), two_eq, sub_rep (1 / 2) 1 (-1) (by norm_num) (by norm_num) (by norm_num),
    div_rep (x := 1) (y := 1 / 2) 2 1 1 (by norm_num) (by norm_num) (by norm_num),
    div_rep (x := 2) (y := 2) 1 1 0 (by norm_num) (by norm_num) (by norm_num), zero_eq,
    div_rep (x := 0) (y := 2) 0 0 0 (by norm_num) (by norm_num) (by norm_num)]
  rfl

theorem half_n : (disc : Ell (Fl bin53)).helper.helper.halfN = 1 := by
  show nat 2 / nat 2 = (1 : Fl bin53)
  rw [two_eq, div_rep 1 1 0 (by norm_num) (by norm_num) (by norm_num)]; rfl

theorem lp_strategy : (disc : Ell (Fl bin53)).helper.ParallelCentralSafe 0 ⟨5⟩ := by
  intro _
  refine ⟨zero_mulOk _, ?_⟩
  have l5 : Scalar.le (⟨5⟩ : Fl bin53) (0 * 0) = false := by rw [zero_mul_x]; exact decide_eq_false (by show ¬ (5 : ℝ) ≤ 0; norm_num)
  have hu : (disc : Ell (Fl bin53)).helper.useParallelCut = true := rfl
  rw [l5, hu]
  simp only [Bool.not_true, Bool.or_self, Bool.false_eq_true, if_false]
  unfold EllCalcCore.ParallelCentralSafe
  have e : (0 : Fl bin53) / ⟨5⟩ = 0 := div_rep 0 0 0 (by norm_num) (by norm_num) (by norm_num)
  simp only [root_eq, inv_n]
  have a2 : (1 : Fl bin53) + 1 = ⟨2⟩ := add_rep 2 2 0 (by norm_num) (by norm_num) (by norm_num)
  have a3 : (1 : Fl bin53) - ⟨1 / 2⟩ = ⟨1 / 2⟩ := sub_rep (1 / 2) 1 (-1) (by norm_num) (by norm_num) (by norm_num)
  rw [a2, a3, two_eq, zero_mul_x, e, mul_zero_x, mul_zero_x, one_sub_zero, one_add_zero, sqrt_one]
  refine ⟨zero_mulOk _, ⟨by norm_num, .inl (by show (0 : ℝ) / 5 = 0; norm_num), noOver_abs (b := 1) (by show |(0 : ℝ) / 5| ≤ _; norm_num) (by norm_num)⟩,
    mulOk_zero _, noOver_abs (b := 1) (by show |(1 : ℝ) - 0| ≤ _; norm_num) (by norm_num), zero_mulOk _,
    noOver_abs (b := 1) (by show |(1 : ℝ) + 0| ≤ _; norm_num) (by norm_num), zero_le_one,
    noOver_abs (b := 1) (by show |(0 : ℝ) + 1| ≤ _; norm_num) (by norm_num), noOver_abs (b := 1) (by show |(1 : ℝ) + 1| ≤ _; norm_num) (by norm_num),
    ⟨by norm_num, .inl (by show (0 : ℝ) / 2 = 0; norm_num), noOver_abs (b := 1) (by show |(0 : ℝ) / 2| ≤ _; norm_num) (by norm_num)⟩,
    divOk_of (by norm_num) (by norm_num) (by norm_num), noOver_abs (b := 1) (by show |(1 : ℝ) - 1 / 2| ≤ _; norm_num) (by norm_num), ?_⟩
  exact divOk_of (by norm_num) (by show _ ≤ |(1 : ℝ) / (1 / 2)|; norm_num) (by show |(1 : ℝ) / (1 / 2)| ≤ _; norm_num)

theorem rnd_abs {z : ℝ} {b : ℤ} (h : |z| ≤ (2 : ℝ) ^ b) : |rnd53 z| ≤ (2 : ℝ) ^ b := by
  obtain ⟨h1, h2⟩ := abs_le.1 h
  have h3 := rnd53_mono _ _ h1
  have h4 := rnd53_mono _ _ h2
  rw [rnd53_neg_pow] at h3
  rw [rnd53_pow] at h4
  exact abs_le.2 ⟨h3, h4⟩

/-- a product of numbers up to 1 and 2, subtracted from a number up to 1 -/
theorem subOk_mul {x y z : Fl bin53} (hx : |x.val| ≤ 1) (hy : |y.val| ≤ 1) (hz : |z.val| ≤ 2) : SubOk x (y * z) := by
  have h : |y.val * z.val| ≤ (2 : ℝ) ^ (1 : ℤ) := by
    rw [abs_mul, zpow_one]
    nlinarith [abs_nonneg y.val, abs_nonneg z.val]
  have h2 : |(y * z).val| ≤ (2 : ℝ) ^ (1 : ℤ) := rnd_abs h
  rw [zpow_one] at h2
  have h3 : |x.val - (y * z).val| ≤ 3 := (abs_sub _ _).trans (by linarith)
  exact noOver_abs (b := 10) (h3.trans (by norm_num)) (by norm_num)

/-- a rounded `1/5` -/
theorem fifth : Pw (-3) (-2) (1 / ⟨5⟩ : Fl bin53) := rnd_band ⟨by show _ ≤ (1 : ℝ) / 5; norm_num, by show (1 : ℝ) / 5 ≤ _; norm_num⟩

theorem lp_update : Ell.Safe 2 .central (disc : Ell (Fl bin53)) cutL := by
  have m00 : (disc : Ell (Fl bin53)).mq.mat 0 0 = 1 := rfl
  have m01 : (disc : Ell (Fl bin53)).mq.mat 0 1 = 0 := rfl
  have m10 : (disc : Ell (Fl bin53)).mq.mat 1 0 = 0 := rfl
  have m11 : (disc : Ell (Fl bin53)).mq.mat 1 1 = 1 := rfl
  have x0 : (disc : Ell (Fl bin53)).xc.vec 0 = 0 := rfl
  have x1 : (disc : Ell (Fl bin53)).xc.vec 1 = 0 := rfl
  have hk : (disc : Ell (Fl bin53)).kappa = 1 := rfl
  have nz : NoOver (0 - 0 : ℝ) := by rw [sub_zero]; exact noOver_zero
  have e12 : (1 : Fl bin53) * ⟨-2⟩ = ⟨-2⟩ := mul_rep (-2) (-1) 1 (by norm_num) (by norm_num) (by norm_num)
  have e11 : (⟨1⟩ * ⟨1⟩ : Fl bin53) = ⟨1⟩ := one_mul_one
  have e22 : (⟨-2⟩ * ⟨-2⟩ : Fl bin53) = ⟨4⟩ := mul_rep 4 1 2 (by norm_num) (by norm_num) (by norm_num)
  have a01 : (0 + ⟨1⟩ : Fl bin53) = ⟨1⟩ := zero_add_one
  refine ⟨?_, ?_, ?_, ?_, ?_, ?_, ?_⟩
  · intro i hi j hj
    interval_cases i <;> interval_cases j
    · rw [m00, lv0]; exact mulOk_of (by show _ ≤ |(1 : ℝ) * 1|; norm_num) (by show |(1 : ℝ) * 1| ≤ _; norm_num)
    · rw [m01]; exact zero_mulOk _
    · rw [m10]; exact zero_mulOk _
    · rw [m11, lv1]; exact mulOk_of (by show _ ≤ |(1 : ℝ) * -2|; norm_num) (by show |(1 : ℝ) * -2| ≤ _; norm_num)
  · intro i hi k hk
    interval_cases i <;> interval_cases k
    · show AddOk 0 (1 * 1); rw [one_mul_one]
      exact noOver_abs (b := 10) (by show |(0 : ℝ) + 1| ≤ _; norm_num) (by norm_num)
    · show AddOk (0 + 1 * 1) (0 * (cutL (α := Fl bin53)).1.vec 1); rw [one_mul_one, zero_mul_x, zero_add_one]
      exact noOver_abs (b := 10) (by show |(1 : ℝ) + 0| ≤ _; norm_num) (by norm_num)
    · show AddOk 0 (0 * 1); rw [zero_mul_x]; exact addOk_zero
    · show AddOk (0 + 0 * 1) (1 * (cutL (α := Fl bin53)).1.vec 1); rw [zero_mul_x, zero_add_zero, lv1, e12]
      exact noOver_abs (b := 10) (by show |(0 : ℝ) + -2| ≤ _; norm_num) (by norm_num)
  · intro i hi
    interval_cases i
    · rw [lv0, lw0]; exact mulOk_of (by show _ ≤ |(1 : ℝ) * 1|; norm_num) (by show |(1 : ℝ) * 1| ≤ _; norm_num)
    · rw [lv1, lw1]; exact mulOk_of (by show _ ≤ |(-2 : ℝ) * -2|; norm_num) (by show |(-2 : ℝ) * -2| ≤ _; norm_num)
  · intro k hk
    interval_cases k
    · simp only [sumTo]
      rw [lv0, lw0, e11]
      exact noOver_abs (b := 10) (by show |(0 : ℝ) + 1| ≤ _; norm_num) (by norm_num)
    · simp only [sumTo]
      rw [lv0, lv1, lw0, lw1, e11, e22, a01]
      exact noOver_abs (b := 10) (by show |(1 : ℝ) + 4| ≤ _; norm_num) (by norm_num)
  · rw [lom, hk]; exact mulOk_of (by show _ ≤ |(1 : ℝ) * 5|; norm_num) (by show |(1 : ℝ) * 5| ≤ _; norm_num)
  · rw [lom, ltsq]; exact lp_strategy
  · intro ρ σ δ h
    rw [lom, ltsq, call_L] at h
    obtain ⟨-, rfl, rfl, rfl⟩ : CutStatus.success = .success ∧ _ ∧ _ ∧ _ := by simpa only [Prod.mk.injEq] using h
    rw [lom, hk]
    have e0 : (0 : Fl bin53) / ⟨5⟩ = 0 := div_rep 0 0 0 (by norm_num) (by norm_num) (by norm_num)
    have ps := fifth
    obtain ⟨s, hs⟩ : ∃ s, s = (1 / ⟨5⟩ : Fl bin53) := ⟨_, rfl⟩
    rw [← hs] at ps
    have s1 : 1 / 8 ≤ s.val := by have := ps.1; norm_num at this ⊢; exact this
    have s2 : s.val ≤ 1 / 4 := by have := ps.2; norm_num at this ⊢; exact this
    have t1 : 1 / 8 ≤ (s * ⟨1⟩).val ∧ (s * ⟨1⟩).val ≤ 1 / 4 := by
      have := ps.mul Pw.one
      refine ⟨?_, ?_⟩
      · have := this.1; norm_num at this ⊢; exact this
      · have := this.2; norm_num at this ⊢; exact this
    have neg2 : ∀ y : Fl bin53, y * ⟨-2⟩ = -(y * ⟨2⟩) := fun y => Fl.ext (by
      show rnd53 (y.val * -2) = -rnd53 (y.val * 2)
      rw [mul_neg, rnd53_neg])
    have pw2 : Pw 1 1 (⟨2⟩ : Fl bin53) := ⟨by norm_num, by norm_num⟩
    have t2 : 1 / 4 ≤ (s * ⟨2⟩).val ∧ (s * ⟨2⟩).val ≤ 1 / 2 := by
      have := ps.mul pw2
      refine ⟨?_, ?_⟩
      · have := this.1; norm_num at this ⊢; exact this
      · have := this.2; norm_num at this ⊢; exact this
    rw [e0, ← hs]
    refine ⟨⟨by norm_num, .inl (by show (0 : ℝ) / 5 = 0; norm_num), noOver_abs (b := 1) (by show |(0 : ℝ) / 5| ≤ _; norm_num) (by norm_num)⟩,
      divOk_of (by norm_num) (by show _ ≤ |(1 : ℝ) / 5|; norm_num [abs_of_pos]) (by show |(1 : ℝ) / 5| ≤ _; norm_num [abs_of_pos]),
      mulOk_of (by show _ ≤ |(1 : ℝ) * 2|; norm_num) (by show |(1 : ℝ) * 2| ≤ _; norm_num), ?_, ?_, ?_⟩
    · intro i hi
      interval_cases i
      · rw [x0, zero_mul_x]; exact ⟨zero_mulOk _, nz⟩
      · rw [x1, zero_mul_x]; exact ⟨zero_mulOk _, nz⟩
    · intro i hi
      interval_cases i
      · rw [lw0]
        refine mulOk_of ?_ ?_ <;> show _ <;> rw [mul_one, abs_of_pos ps.pos]
        · norm_num; linarith
        · norm_num; linarith
      · rw [lw1]
        have : |s.val * -2| = s.val * 2 := by rw [abs_mul, abs_of_pos ps.pos]; norm_num
        refine mulOk_of ?_ ?_ <;> rw [this]
        · norm_num; linarith
        · norm_num; linarith
    · intro i hi j hj
      have n2 : (s * ⟨-2⟩).val = -(s * ⟨2⟩).val := congrArg Fl.val (neg2 s)
      have one1 : |(1 : Fl bin53).val| ≤ 1 := by show |(1 : ℝ)| ≤ 1; norm_num
      have zero1 : |(0 : Fl bin53).val| ≤ 1 := by show |(0 : ℝ)| ≤ 1; norm_num
      have b1 : |(s * ⟨1⟩).val| ≤ 1 := by rw [abs_of_pos (by linarith [t1.1])]; linarith [t1.2]
      have a2 : |(s * ⟨-2⟩).val| = (s * ⟨2⟩).val := by rw [n2, abs_neg, abs_of_pos (by linarith [t2.1])]
      have b2 : |(s * ⟨-2⟩).val| ≤ 1 := by rw [a2]; linarith [t2.2]
      have w1 : |(⟨1⟩ : Fl bin53).val| ≤ 2 := by norm_num
      have w2 : |(⟨-2⟩ : Fl bin53).val| ≤ 2 := by norm_num
      interval_cases i
      · obtain rfl : j = 0 := by omega
        rw [lw0, m00]
        refine ⟨mulOk_of ?_ ?_, subOk_mul one1 b1 w1, fun h => by cases h⟩ <;> rw [mul_one, abs_of_pos (by linarith [t1.1])]
        · exact le_trans (by norm_num) t1.1
        · exact t1.2.trans (by norm_num)
      · interval_cases j
        · rw [lw0, lw1, m10]
          refine ⟨mulOk_of ?_ ?_, subOk_mul zero1 b2 w1, fun h => by cases h⟩ <;> rw [mul_one, a2]
          · exact le_trans (by norm_num) t2.1
          · exact t2.2.trans (by norm_num)
        · rw [lw1, m11]
          have f2 : |(⟨-2⟩ : Fl bin53).val| = 2 := by norm_num
          refine ⟨mulOk_of ?_ ?_, subOk_mul one1 b2 w2, fun h => by cases h⟩ <;> rw [abs_mul, a2, f2]
          · exact le_trans (by norm_num : (2 : ℝ) ^ (-10 : ℤ) ≤ 1 / 4 * 2) (mul_le_mul_of_nonneg_right t2.1 (by norm_num))
          · exact (mul_le_mul_of_nonneg_right t2.2 (by norm_num)).trans (by norm_num)

theorem lp_run_safe : OptimSafe LowpassOracle.oracle 2 (fun o x γ => o.Safe 2 γ x) (0 : Fl bin53) 1 (lp : LowpassOracle (Fl bin53)) disc 1 := by
  refine ⟨lp_safe, fun c s g' w' h => ?_⟩
  obtain ⟨w1, hw⟩ := lp_first
  rw [hw] at h
  simp only [Res.ok.injEq, Prod.mk.injEq] at h
  obtain ⟨⟨rfl, rfl⟩, -, -⟩ := h
  exact ⟨⟨rfl, rfl, rfl⟩, lp_update, fun e' _ _ => trivial⟩

/-- C126: one step of designing a filter in `f64`, from the unit disc: the result meets the specification up to the error bound -/
example : ∃ r k γ1 o1 e1, cuttingPlaneOptim LowpassOracle.oracle Ell.space (lp : LowpassOracle B64) disc 1 ⟨1, 0⟩ = .ok ((r, k), γ1, o1, e1) ∧
    γ1.Finite ∧ γ1.val ≤ 1 ∧ ∀ x, r = some x → (∀ y ∈ x.data, y.Finite) ∧
      x.vec64 2 ∈ lpd.feasibleWith γ1.val (-lpErr ((2 : ℝ) ^ (-53 : ℤ)) 0 2 0 (x.vec64 2) (x.vec64 2)) := by
  obtain ⟨r, k, γ1, o1, e1, h1, h2, h3, -, h4⟩ := C126_lowpass_run (n := 2) (d := lpd) (ε := 0) (opts := ⟨1, 0⟩) (opts' := ⟨1, 0⟩)
    ⟨le_rfl, by show 1 ≤ 2; norm_num, le_rfl⟩ (by show 1 < 2; norm_num) one_pos (by norm_num) lp_same lp_for disc_same
    ⟨⟨rfl, rfl, rfl⟩, ⟨rfl, rfl, rfl⟩⟩ Same.one .zero rfl lp_run_safe
  exact ⟨r, k, γ1, o1, e1, h1, h2, h3.trans_eq Same.one.2, fun x hx => ⟨(h4 x hx).2.1, (h4 x hx).2.2.1⟩⟩

end Ellalgo.ExOr64
