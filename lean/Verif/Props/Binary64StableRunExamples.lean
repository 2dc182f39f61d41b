import Verif.Props.Binary64StableRun
import Verif.Props.Binary64RunExamples

/-! Cases that meet the hypotheses of C125. -/

namespace Ellalgo.ExStable64
open Ellalgo ExRun64

/-- the unit disc -/
def sdisc {α : Type} [Scalar α] : EllStable α := EllStable.newWithMatrix 1 ⟨[1, 0, 0, 1], 2, 2⟩ ⟨[0, 0], 2, 0⟩

theorem sdisc_same : (sdisc : EllStable B64).Same64 sdisc :=
  C125_new _ _ _ _ _ _ .one ⟨rfl, rfl, .cons .one (.cons .zero (.cons .zero (.cons .one .nil)))⟩
    ⟨rfl, rfl, .cons .zero (.cons .zero .nil)⟩ (by show 2 ≤ 2; norm_num) (by show 2 ≤ 2 ^ 64; norm_num)

theorem zero_sub_zero : (0 : Fl bin53) - 0 = 0 := Fl.ext (by show rnd53 (0 - 0) = 0; rw [sub_zero, rnd53_zero])
theorem subOk_zero {x : Fl bin53} (h : |x.val| ≤ 2) : SubOk x 0 :=
  noOver_abs (b := 1) (by show |x.val - 0| ≤ _; rw [sub_zero]; norm_num; exact h) (by norm_num)

noncomputable abbrev M : Nat → Nat → Fl bin53 := (sdisc : EllStable (Fl bin53)).mq.mat
theorem m00 : M 0 0 = 1 := rfl
theorem m01 : M 0 1 = 0 := rfl
theorem m11 : M 1 1 = 1 := rfl
noncomputable abbrev G : Nat → Fl bin53 := (cut (α := Fl bin53)).1.vec

section
variable {w h : Nat → Fl bin53}

theorem w0 (hw : EllStable.IsFwd 2 M G w) : w 0 = 1 := hw 0 (by norm_num)
theorem w1 (hw : EllStable.IsFwd 2 M G w) : w 1 = 0 := by
  rw [hw 1 (by norm_num)]
  show (0 : Fl bin53) - 0 * w 0 = 0
  rw [zero_mul_x, zero_sub_zero]
theorem z0 (hw : EllStable.IsFwd 2 M G w) : w 0 * M 0 0 = 1 := by rw [w0 hw, m00, one_mul_one]
theorem z1 (hw : EllStable.IsFwd 2 M G w) : w 1 * M 1 1 = 0 := by rw [w1 hw, zero_mul_x]
theorem p0 (hw : EllStable.IsFwd 2 M G w) : w 0 * M 0 0 * w 0 = 1 := by rw [z0 hw, w0 hw, one_mul_one]
theorem p1 (hw : EllStable.IsFwd 2 M G w) : w 1 * M 1 1 * w 1 = 0 := by rw [z1 hw, zero_mul_x]
theorem om (hw : EllStable.IsFwd 2 M G w) : (sumTo 2 fun i => w i * M i i * w i) = 1 := by
  show 0 + w 0 * M 0 0 * w 0 + w 1 * M 1 1 * w 1 = 1
  rw [p0 hw, p1 hw, zero_add_one, one_add_zero]
theorem h1 (hw : EllStable.IsFwd 2 M G w) (hh : EllStable.IsBwd 2 M w (fun i => w i * M i i) h) : h 1 = 0 := by
  rw [hh 1 (by norm_num)]
  exact z1 hw
theorem h0 (hw : EllStable.IsFwd 2 M G w) (hh : EllStable.IsBwd 2 M w (fun i => w i * M i i) h) : h 0 = 1 := by
  rw [hh 0 (by norm_num)]
  show w 0 * M 0 0 - M 0 1 * w 0 * h 1 = 1
  rw [z0 hw, m01, zero_mul_x, zero_mul_x, one_sub_zero]

end

/-- `σ`, a rounded `2/3`, is between `1/2` and `3/4` -/
theorem sigma_band : (1 : ℝ) / 2 ≤ (nat 2 * (1 / (EllCalc.new 2 : EllCalc (Fl bin53)).helper.nPlus1) / 1 : Fl bin53).val ∧
    (nat 2 * (1 / (EllCalc.new 2 : EllCalc (Fl bin53)).helper.nPlus1) / 1 : Fl bin53).val ≤ 3 / 4 := by
  have e2 : (nat 2 : Fl bin53).val = 2 := by
    show rnd53 ((2 : Nat) : ℝ) = 2
    have := rnd53_pow 1
    rw [zpow_one] at this
    exact_mod_cast this
  have e3 : (EllCalc.new 2 : EllCalc (Fl bin53)).helper.nPlus1.val = 3 := by
    show rnd53 ((nat 2 : Fl bin53).val + 1) = 3
    rw [e2]
    have := rnd53_rep 3 0 (by norm_num)
    norm_num at this ⊢
    exact this
  have r38 : rnd53 (3 / 8) = 3 / 8 := by
    have := rnd53_rep 3 (-3) (by norm_num)
    norm_num at this ⊢
    exact this
  have r34 : rnd53 (3 / 4) = 3 / 4 := by
    have := rnd53_rep 3 (-2) (by norm_num)
    norm_num at this ⊢
    exact this
  have r14 : rnd53 (1 / 4) = 1 / 4 := by
    have := rnd53_rep 1 (-2) (by norm_num)
    norm_num at this ⊢
    exact this
  have r12 : rnd53 (1 / 2) = 1 / 2 := by
    have := rnd53_rep 1 (-1) (by norm_num)
    norm_num at this ⊢
    exact this
  obtain ⟨q, hq⟩ : ∃ q, q = (1 / (EllCalc.new 2 : EllCalc (Fl bin53)).helper.nPlus1 : Fl bin53).val := ⟨_, rfl⟩
  have hq' : q = rnd53 (1 / 3) := by rw [hq, ← e3]; rfl
  have q1 : 1 / 4 ≤ q := by rw [hq', ← r14]; exact rnd53_mono _ _ (by norm_num)
  have q2 : q ≤ 3 / 8 := by rw [hq', ← r38]; exact rnd53_mono _ _ (by norm_num)
  obtain ⟨s, hs⟩ : ∃ s, s = (nat 2 * (1 / (EllCalc.new 2 : EllCalc (Fl bin53)).helper.nPlus1) : Fl bin53).val := ⟨_, rfl⟩
  have hs' : s = rnd53 (2 * q) := by
    have : s = rnd53 ((nat 2 : Fl bin53).val * q) := by rw [hs, hq]; rfl
    rw [e2] at this
    exact this
  have s1 : 1 / 2 ≤ s := by rw [hs', ← r12]; exact rnd53_mono _ _ (by linarith)
  have s2 : s ≤ 3 / 4 := by rw [hs', ← r34]; exact rnd53_mono _ _ (by linarith)
  have ht : (nat 2 * (1 / (EllCalc.new 2 : EllCalc (Fl bin53)).helper.nPlus1) / 1 : Fl bin53).val = rnd53 (s / 1) := by rw [hs]; rfl
  rw [ht, div_one]
  exact ⟨by rw [← r12]; exact rnd53_mono _ _ s1, by rw [← r34]; exact rnd53_mono _ _ s2⟩

theorem update_safe_s (k : UpdateKind) (hk : k = .bias ∨ k = .q) : EllStable.Safe 2 k (sdisc : EllStable (Fl bin53)) cut := by
  intro w h hw hh
  have one_ok : MulOk (1 : Fl bin53) 1 := Pw.one.mulOk Pw.one (by norm_num) (by norm_num)
  have a01 : AddOk (0 : Fl bin53) 1 := noOver_abs (b := 1) (by show |(0 : ℝ) + 1| ≤ _; norm_num) (by norm_num)
  have a10 : AddOk (1 : Fl bin53) 0 := noOver_abs (b := 1) (by show |(1 : ℝ) + 0| ≤ _; norm_num) (by norm_num)
  have ho := om hw
  have hkap : (sdisc : EllStable (Fl bin53)).kappa = 1 := rfl
  obtain ⟨hp, hc⟩ := consts
  rw [ho]
  refine ⟨?_, ?_, ?_, ?_, ?_, ?_, ?_⟩
  · intro i hi j hj
    have hi1 : i = 1 := by omega
    have hj0 : j = 0 := by omega
    subst hi1 hj0
    show MulOk (M 0 1) (w 0) ∧ SubOk (0 : Fl bin53) (M 0 1 * w 0)
    rw [m01, zero_mul_x]
    exact ⟨zero_mulOk _, subOk_zero (by show |(0 : ℝ)| ≤ 2; norm_num)⟩
  · intro i hi
    interval_cases i
    · show MulOk (w 0) (M 0 0); rw [w0 hw, m00]; exact one_ok
    · show MulOk (w 1) (M 1 1); rw [w1 hw]; exact zero_mulOk _
  · intro i hi
    interval_cases i
    · show MulOk (w 0 * M 0 0) (w 0); rw [z0 hw, w0 hw]; exact one_ok
    · show MulOk (w 1 * M 1 1) (w 1); rw [z1 hw]; exact zero_mulOk _
  · intro i hi
    interval_cases i
    · show AddOk 0 (w 0 * M 0 0 * w 0); rw [p0 hw]; exact a01
    · show AddOk (0 + w 0 * M 0 0 * w 0) (w 1 * M 1 1 * w 1); rw [p0 hw, p1 hw, zero_add_one]; exact a10
  · rw [hkap]; exact one_ok
  · rw [hkap, one_mul_one]
    rcases hk with rfl | rfl
    · exact bias_safe
    · obtain ⟨-, h⟩ := bias_safe
      obtain ⟨h1, h2, h3, h4⟩ := h (by rw [zero_mul_x]; exact one_not_neg)
      refine ⟨h1, fun _ => ?_⟩
      rw [sqrt_one] at h3 h4 ⊢
      exact ⟨h2, h3, fun _ => h4⟩
  · intro ρ σ δ hcall
    have hcall : CutType.call .bias (cut (α := Fl bin53)).2 (disc : Ell (Fl bin53)).helper 1 = (.success, ρ, σ, δ) := by
      rw [hkap, one_mul_one] at hcall
      rcases hk with rfl | rfl
      · exact hcall
      · rw [← call_q]; exact hcall
    rw [call_eq] at hcall
    obtain ⟨-, rfl, hσ, rfl⟩ : CutStatus.success = .success ∧ _ ∧ _ ∧ _ := by simpa only [Prod.mk.injEq] using hcall
    obtain ⟨s1, s2⟩ := sigma_band
    rw [hσ] at s1 s2
    clear hσ hcall
    have pr := Pw.one.div hp
    have pr' := pr.div Pw.one
    have ps : Pw (-1) 0 σ := ⟨by norm_num; linarith, by norm_num; linarith⟩
    have b1s : (2 : ℝ) ^ (-2 : ℤ) ≤ 1 - σ.val ∧ 1 - σ.val ≤ (2 : ℝ) ^ (-1 : ℤ) := ⟨by norm_num; linarith, by norm_num; linarith⟩
    have p1s : Pw (-2) (-1) (1 - σ) := rnd_band b1s
    have pm := ps.div p1s
    have pt0 : Pw (-2) 0 (1 / (σ / (1 - σ))) := (Pw.one.div pm).mono (by norm_num) (by norm_num)
    refine ⟨?_, pr.divOk Pw.one (by norm_num) (by norm_num), ?_, ?_, ⟨⟨?_, ?_, ?_⟩, ?_, ?_⟩⟩
    · intro i hi k hk
      have hi0 : i = 0 := by omega
      have hk0 : k = 0 := by omega
      subst hi0 hk0
      show MulOk (M 0 1 * w 0) (h 1) ∧ SubOk (w 0 * M 0 0) (M 0 1 * w 0 * h 1)
      rw [m01, zero_mul_x, zero_mul_x, z0 hw]
      exact ⟨zero_mulOk _, subOk_zero (by show |(1 : ℝ)| ≤ 2; norm_num)⟩
    · intro i hi
      interval_cases i
      · rw [h0 hw hh]
        refine ⟨pr'.mulOk Pw.one (by norm_num) (by norm_num), noOver_abs (b := 10) ?_ (by norm_num)⟩
        have := pr'.mul Pw.one
        rw [show (sdisc : EllStable (Fl bin53)).xc.vec 0 = 0 from rfl, show (0 : Fl bin53).val = 0 from rfl, zero_sub, abs_neg,
          abs_of_pos this.pos]
        exact this.2.trans (two_le_two (by norm_num))
      · rw [h1 hw hh, mul_zero_x]
        exact ⟨mulOk_zero _, subOk_zero (by show |(0 : ℝ)| ≤ 2; norm_num)⟩
    · rw [hkap]
      exact Pw.one.mulOk (hc.mul Pw.one) (by norm_num) (by norm_num)
    · exact band_noOver b1s (by norm_num)
    · exact ps.divOk p1s (by norm_num) (by norm_num)
    · exact Pw.one.divOk pm (by norm_num) (by norm_num)
    · obtain ⟨t, ht⟩ : ∃ t, t = 1 / (σ / (1 - σ)) := ⟨_, rfl⟩
      rw [← ht] at pt0 ⊢
      have pt1 : Pw (-2) 1 (t + 1) := (pt0.add Pw.one).mono (by norm_num) (by norm_num)
      have b2 : (2 : ℝ) ^ (-2 : ℤ) ≤ (t + 1).val + (0 : Fl bin53).val ∧ (t + 1).val + (0 : Fl bin53).val ≤ (2 : ℝ) ^ (1 : ℤ) := by
        rw [show (0 : Fl bin53).val = 0 from rfl, add_zero]; exact pt1
      have pt2 : Pw (-2) 1 (t + 1 + 0) := rnd_band b2
      intro j hj
      interval_cases j
      · show AddOk t (w 0 * M 0 0 * w 0) ∧ DivOk t (t + w 0 * M 0 0 * w 0) ∧ MulOk (M 0 0) (t / (t + w 0 * M 0 0 * w 0))
        rw [p0 hw, m00]
        exact ⟨pt0.addOk Pw.one (by norm_num), pt0.divOk pt1 (by norm_num) (by norm_num),
          Pw.one.mulOk (pt0.div pt1) (by norm_num) (by norm_num)⟩
      · show AddOk (t + w 0 * M 0 0 * w 0) (w 1 * M 1 1 * w 1) ∧ DivOk (t + w 0 * M 0 0 * w 0) (t + w 0 * M 0 0 * w 0 + w 1 * M 1 1 * w 1) ∧
          MulOk (M 1 1) ((t + w 0 * M 0 0 * w 0) / (t + w 0 * M 0 0 * w 0 + w 1 * M 1 1 * w 1))
        rw [p0 hw, p1 hw, m11]
        exact ⟨band_noOver b2 (by norm_num), pt1.divOk pt2 (by norm_num) (by norm_num),
          Pw.one.mulOk (pt1.div pt2) (by norm_num) (by norm_num)⟩
    · intro j l hjl hl
      have hj0 : j = 0 := by omega
      have hl1 : l = 1 := by omega
      subst hj0 hl1
      obtain ⟨t, ht⟩ : ∃ t, t = 1 / (σ / (1 - σ)) := ⟨_, rfl⟩
      rw [← ht] at pt0 ⊢
      have pt1 : Pw (-2) 1 (t + 1) := (pt0.add Pw.one).mono (by norm_num) (by norm_num)
      show DivOk (w 0 * M 0 0) (t + w 0 * M 0 0 * w 0) ∧ MulOk (w 0 * M 0 0 / (t + w 0 * M 0 0 * w 0)) (M 0 1 * w 0) ∧
        AddOk (M 0 1) (w 0 * M 0 0 / (t + w 0 * M 0 0 * w 0) * (M 0 1 * w 0))
      rw [p0 hw, z0 hw, m01, zero_mul_x, mul_zero_x]
      exact ⟨Pw.one.divOk pt1 (by norm_num) (by norm_num), mulOk_zero _, addOk_zero⟩

theorem sdisc_shaped : (sdisc : EllStable (Fl bin53)).Shaped 2 := ⟨⟨rfl, rfl, rfl⟩, ⟨rfl, rfl, rfl⟩⟩

theorem cut_same : SameCut (cut (α := B64)) (cut (α := Fl bin53)) := ⟨⟨rfl, rfl, .cons .one (.cons .zero .nil)⟩, Same.zero⟩

/-- C125: an update of the unit disc in `f64` and in arithmetic rounded to 53 bits -/
example : Res.Rel (fun p q => p.1 = q.1 ∧ p.2.Same64 q.2) (EllStable.space.update .bias (sdisc : EllStable B64) cut)
    (EllStable.space.update .bias (sdisc : EllStable (Fl bin53)) cut) :=
  C125_update (n := 2) (by norm_num) sdisc_same sdisc_shaped cut_same ⟨rfl, rfl, rfl⟩ .bias (update_safe_s _ (.inl rfl))

/-- after the first cut the centre is inside -/
theorem second_s {e' : EllStable (Fl bin53)} (hu : EllStable.space.updateBias (sdisc : EllStable (Fl bin53)) cut = .ok (.success, e')) :
    e'.xc.IsVecShape 2 ∧ (e'.xc.vec 0).val < 0 := by
  obtain ⟨w, h, hw, hh, H⟩ := C125_update_value (n := 2) (by norm_num) .bias (sdisc : EllStable (Fl bin53)) sdisc_shaped cut ⟨rfl, rfl, rfl⟩
  obtain ⟨e1, a1, a2, -, -, -, -, a3⟩ := H 1 (om hw).symm .success (1 / (EllCalc.new 2 : EllCalc (Fl bin53)).helper.nPlus1)
    (nat 2 * (1 / (EllCalc.new 2 : EllCalc (Fl bin53)).helper.nPlus1) / 1) ((EllCalc.new 2 : EllCalc (Fl bin53)).helper.cst1 * 1) (by
    rw [show (sdisc : EllStable (Fl bin53)).kappa = 1 from rfl, one_mul_one]
    exact call_eq)
  have a4 : EllStable.space.updateBias (sdisc : EllStable (Fl bin53)) cut = .ok (.success, e1) := a1
  rw [hu] at a4
  injection a4 with a4
  injection a4 with _ a4
  subst a4
  refine ⟨a2.2, ?_⟩
  rw [(a3 rfl).1 0 (by norm_num), h0 hw hh]
  have pr := ((Pw.one.div consts.1).div Pw.one).mul Pw.one
  show rnd53 (0 - _) < 0
  have h5 : (0 : ℝ) - (1 / (EllCalc.new 2 : EllCalc (Fl bin53)).helper.nPlus1 / 1 * 1 : Fl bin53).val ≤ -(2 : ℝ) ^ (-2 : ℤ) := by
    have := pr.1
    norm_num at this ⊢
    exact this
  have h6 := rnd53_mono _ _ h5
  rw [rnd53_neg_pow] at h6
  exact h6.trans_lt (by norm_num)

theorem run_safe_s : EllStable.FeasSafe orc 2 (fun _ x => x.IsVecShape 2) (0 : Fl bin53) 20 () sdisc := by
  refine ⟨⟨rfl, rfl, rfl⟩, fun c w' h => ?_⟩
  have hf : orc.assess () (sdisc : EllStable (Fl bin53)).xc = .ok (some cut, ()) := orc_first
  rw [hf] at h
  injection h with h
  injection h with h _
  injection h with h
  subst h
  refine ⟨⟨rfl, rfl, rfl⟩, update_safe_s _ (.inl rfl), fun e' h _ => ?_⟩
  obtain ⟨h1, h2⟩ := second_s h
  refine ⟨h1, fun c w'' ha => ?_⟩
  have hi := h1.isVec.idx (i := 0) (by norm_num)
  have hle : Scalar.le (0 : Fl bin53) (e'.xc.vec 0) = false := decide_eq_false (not_le.2 h2)
  simp only [orc, hi, Res.ok_bind, hle] at ha
  simp at ha

/-- C125: the loop on `EllStable`, started with the unit disc -/
example : Res.Rel (fun p q => OptRel Arr.Same p.1.1 q.1.1 ∧ p.1.2 = q.1.2 ∧ True ∧ p.2.2.Same64 q.2.2)
    (cuttingPlaneFeas (orc : OracleFeas Unit (Arr B64) (SingleCut B64) B64) EllStable.space () sdisc ⟨20, 0⟩)
    (cuttingPlaneFeas (orc : OracleFeas Unit (Arr (Fl bin53)) (SingleCut (Fl bin53)) (Fl bin53)) EllStable.space () sdisc ⟨20, 0⟩) :=
  C125_feas (n := 2) orc orc (fun _ _ => True) (fun _ x => x.IsVecShape 2) orc_same ⟨20, 0⟩ ⟨20, 0⟩ .zero rfl (by norm_num) () () sdisc sdisc
    trivial sdisc_same sdisc_shaped run_safe_s

/-- cuts through the origin by a bias cut and keeps the best value -/
def orcO {α : Type} [Scalar α] : OracleOptim Unit (Arr α) (SingleCut α) α := ⟨fun w _ γ => .ok ((cut, false), γ, w)⟩

/-- C125: a run of the optimisation loop -/
example : Res.Rel (fun p q => OptRel Arr.Same p.1.1 q.1.1 ∧ p.1.2 = q.1.2 ∧ Same p.2.1 q.2.1 ∧ True ∧ p.2.2.2.Same64 q.2.2.2)
    (cuttingPlaneOptim orcO EllStable.space () (sdisc : EllStable B64) 1 ⟨1, 0⟩)
    (cuttingPlaneOptim orcO EllStable.space () (sdisc : EllStable (Fl bin53)) 1 ⟨1, 0⟩) := by
  refine C125_optim (n := 2) orcO orcO (fun _ _ => True) (fun _ _ _ => True) ?_ _ _ .zero rfl (by norm_num) () () sdisc sdisc 1 1 trivial
    sdisc_same sdisc_shaped .one ⟨trivial, ?_⟩
  · intro w w' x x' g g' _ _ hg _
    exact ⟨cut_same, rfl, hg, trivial⟩
  · intro c s g' w' h
    simp only [orcO, Res.ok.injEq, Prod.mk.injEq] at h
    obtain ⟨⟨rfl, rfl⟩, -, -⟩ := h
    exact ⟨⟨rfl, rfl, rfl⟩, update_safe_s _ (.inl rfl), fun e' _ _ => trivial⟩

/-- C125: a run of the discrete optimisation loop -/
example : Res.Rel (fun p q => OptRel Arr.Same p.1.1 q.1.1 ∧ p.1.2 = q.1.2 ∧ Same p.2.1 q.2.1 ∧ True ∧ p.2.2.2.Same64 q.2.2.2)
    (cuttingPlaneOptimQ orcQ EllStable.space () (sdisc : EllStable B64) 1 ⟨1, 0⟩)
    (cuttingPlaneOptimQ orcQ EllStable.space () (sdisc : EllStable (Fl bin53)) 1 ⟨1, 0⟩) := by
  refine C125_optim_q (n := 2) orcQ orcQ (fun _ _ => True) (fun _ _ _ _ => True) ?_ _ _ .zero rfl (by norm_num) () () sdisc sdisc 1 1 trivial
    sdisc_same sdisc_shaped .one ⟨trivial, ?_⟩
  · intro w w' x x' g g' r _ _ hg _
    exact ⟨cut_same, rfl, ⟨rfl, rfl, .cons .one (.cons .zero .nil)⟩, rfl, hg, trivial⟩
  · intro c s x more g' w' h
    simp only [orcQ, Res.ok.injEq, Prod.mk.injEq] at h
    obtain ⟨⟨rfl, rfl, rfl, rfl⟩, -, -⟩ := h
    exact ⟨⟨rfl, rfl, rfl⟩, update_safe_s _ (.inr rfl), fun st e' _ _ => ⟨fun _ => trivial, fun _ h => (by cases h), fun _ => trivial⟩⟩

end Ellalgo.ExStable64
