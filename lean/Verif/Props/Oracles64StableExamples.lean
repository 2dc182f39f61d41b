import Verif.Props.Oracles64Examples
import Verif.Props.Binary64StableRunExamples

/-! Cases that meet the hypotheses of C126 on `EllStable`. -/

namespace Ellalgo.ExOr64
open Ellalgo ExRun64 ExStable64

/-! ### A classifier -/
section svm
noncomputable abbrev G1 : Nat → Fl bin53 := (cut1 (α := Fl bin53)).1.vec
variable {w h : Nat → Fl bin53}

theorem sw0 (hw : EllStable.IsFwd 2 M G1 w) : w 0 = 0 := hw 0 (by norm_num)
theorem sw1 (hw : EllStable.IsFwd 2 M G1 w) : w 1 = 1 := by
  rw [hw 1 (by norm_num)]
  show (1 : Fl bin53) - 0 * w 0 = 1
  rw [zero_mul_x, one_sub_zero]
theorem sz0 (hw : EllStable.IsFwd 2 M G1 w) : w 0 * M 0 0 = 0 := by rw [sw0 hw, zero_mul_x]
theorem sz1 (hw : EllStable.IsFwd 2 M G1 w) : w 1 * M 1 1 = 1 := by rw [sw1 hw, m11, one_mul_one]
theorem sp0 (hw : EllStable.IsFwd 2 M G1 w) : w 0 * M 0 0 * w 0 = 0 := by rw [sz0 hw, zero_mul_x]
theorem sp1 (hw : EllStable.IsFwd 2 M G1 w) : w 1 * M 1 1 * w 1 = 1 := by rw [sz1 hw, sw1 hw, one_mul_one]
theorem som (hw : EllStable.IsFwd 2 M G1 w) : (sumTo 2 fun i => w i * M i i * w i) = 1 := by
  show 0 + w 0 * M 0 0 * w 0 + w 1 * M 1 1 * w 1 = 1
  rw [sp0 hw, sp1 hw, zero_add_zero, zero_add_one]
theorem sh1 (hw : EllStable.IsFwd 2 M G1 w) (hh : EllStable.IsBwd 2 M w (fun i => w i * M i i) h) : h 1 = 1 := by
  rw [hh 1 (by norm_num)]
  exact sz1 hw
theorem sh0 (hw : EllStable.IsFwd 2 M G1 w) (hh : EllStable.IsBwd 2 M w (fun i => w i * M i i) h) : h 0 = 0 := by
  rw [hh 0 (by norm_num)]
  show w 0 * M 0 0 - M 0 1 * w 0 * h 1 = 0
  rw [sz0 hw, m01, zero_mul_x, zero_mul_x, zero_sub_zero]

/-- `σ`, a rounded `2/3`, is between `1/2` and `3/4` -/
theorem sigma_band' : (1 : ℝ) / 2 ≤ (nat 2 * (1 / (EllCalc.new 2 : EllCalc (Fl bin53)).helper.nPlus1) : Fl bin53).val ∧
    (nat 2 * (1 / (EllCalc.new 2 : EllCalc (Fl bin53)).helper.nPlus1) : Fl bin53).val ≤ 3 / 4 := by
  have e3 : (EllCalc.new 2 : EllCalc (Fl bin53)).helper.nPlus1.val = 3 := by
    show rnd53 ((nat 2 : Fl bin53).val + 1) = 3
    rw [val_two]
    have := rnd53_rep 3 0 (by norm_num)
    norm_num at this ⊢
    exact this
  have r38 : rnd53 (3 / 8) = 3 / 8 := by
    have := rnd53_rep 3 (-3) (by norm_num)
    norm_num at this ⊢
    exact this
  have r34 : rnd53 (3 / 4) = 3 / 4 := by
    have := rnd53_rep 3 (-2) (by norm_num)
    norm_num at this ⊢
    exact this
  have r14 : rnd53 (1 / 4) = 1 / 4 := by
    have := rnd53_rep 1 (-2) (by norm_num)
    norm_num at this ⊢
    exact this
  have r12 : rnd53 (1 / 2) = 1 / 2 := by
    have := rnd53_rep 1 (-1) (by norm_num)
    norm_num at this ⊢
    exact this
  obtain ⟨q, hq⟩ : ∃ q, q = (1 / (EllCalc.new 2 : EllCalc (Fl bin53)).helper.nPlus1 : Fl bin53).val := ⟨_, rfl⟩
  have hq' : q = rnd53 (1 / 3) := by rw [hq, ← e3]; rfl
  have q1 : 1 / 4 ≤ q := by rw [hq', ← r14]; exact rnd53_mono _ _ (by norm_num)
  have q2 : q ≤ 3 / 8 := by rw [hq', ← r38]; exact rnd53_mono _ _ (by norm_num)
  have hs : (nat 2 * (1 / (EllCalc.new 2 : EllCalc (Fl bin53)).helper.nPlus1) : Fl bin53).val = rnd53 ((nat 2 : Fl bin53).val * q) := by rw [hq]; rfl
  rw [val_two] at hs
  rw [hs]
  exact ⟨by rw [← r12]; exact rnd53_mono _ _ (by linarith), by rw [← r34]; exact rnd53_mono _ _ (by linarith)⟩

theorem sv_update_s : EllStable.Safe 2 .central (sdisc : EllStable (Fl bin53)) cut1 := by
  intro w h hw hh
  have one_ok : MulOk (1 : Fl bin53) 1 := Pw.one.mulOk Pw.one (by norm_num) (by norm_num)
  have a01 : AddOk (0 : Fl bin53) 1 := noOver_abs (b := 1) (by show |(0 : ℝ) + 1| ≤ _; norm_num) (by norm_num)
  have ho := som hw
  have hkap : (sdisc : EllStable (Fl bin53)).kappa = 1 := rfl
  obtain ⟨hp, hc⟩ := consts
  rw [ho]
  refine ⟨?_, ?_, ?_, ?_, ?_, ?_, ?_⟩
  · intro i hi j hj
    have hi1 : i = 1 := by omega
    have hj0 : j = 0 := by omega
    subst hi1 hj0
    show MulOk (M 0 1) (w 0) ∧ SubOk (1 : Fl bin53) (M 0 1 * w 0)
    rw [m01, zero_mul_x]
    exact ⟨zero_mulOk _, subOk_zero (by show |(1 : ℝ)| ≤ 2; norm_num)⟩
  · intro i hi
    interval_cases i
    · show MulOk (w 0) (M 0 0); rw [sw0 hw]; exact zero_mulOk _
    · show MulOk (w 1) (M 1 1); rw [sw1 hw, m11]; exact one_ok
  · intro i hi
    interval_cases i
    · show MulOk (w 0 * M 0 0) (w 0); rw [sz0 hw]; exact zero_mulOk _
    · show MulOk (w 1 * M 1 1) (w 1); rw [sz1 hw, sw1 hw]; exact one_ok
  · intro i hi
    interval_cases i
    · show AddOk 0 (w 0 * M 0 0 * w 0); rw [sp0 hw]; exact addOk_zero
    · show AddOk (0 + w 0 * M 0 0 * w 0) (w 1 * M 1 1 * w 1); rw [sp0 hw, sp1 hw, zero_add_zero]; exact a01
  · rw [hkap]; exact one_ok
  · rw [hkap, one_mul_one]
    refine ⟨zero_le_one, ?_⟩
    rw [sqrt_one]
    exact Pw.one.divOk hp (by norm_num) (by norm_num)
  · intro ρ σ δ hcall
    have hcall : CutType.call .central (cut1 (α := Fl bin53)).2 (disc : Ell (Fl bin53)).helper 1 = (.success, ρ, σ, δ) := by
      rw [hkap, one_mul_one] at hcall
      exact hcall
    rw [call_central] at hcall
    obtain ⟨-, rfl, hσ, rfl⟩ : CutStatus.success = .success ∧ _ ∧ _ ∧ _ := by simpa only [Prod.mk.injEq] using hcall
    obtain ⟨s1, s2⟩ := sigma_band'
    rw [hσ] at s1 s2
    clear hσ hcall
    have pr := Pw.one.div hp
    have pr' := pr.div Pw.one
    have ps : Pw (-1) 0 σ := ⟨by norm_num; linarith, by norm_num; linarith⟩
    have b1s : (2 : ℝ) ^ (-2 : ℤ) ≤ 1 - σ.val ∧ 1 - σ.val ≤ (2 : ℝ) ^ (-1 : ℤ) := ⟨by norm_num; linarith, by norm_num; linarith⟩
    have p1s : Pw (-2) (-1) (1 - σ) := rnd_band b1s
    have pm := ps.div p1s
    have pt0 : Pw (-2) 0 (1 / (σ / (1 - σ))) := (Pw.one.div pm).mono (by norm_num) (by norm_num)
    refine ⟨?_, pr.divOk Pw.one (by norm_num) (by norm_num), ?_, ?_, ⟨⟨?_, ?_, ?_⟩, ?_, ?_⟩⟩
    · intro i hi k hk
      have hi0 : i = 0 := by omega
      have hk0 : k = 0 := by omega
      subst hi0 hk0
      show MulOk (M 0 1 * w 0) (h 1) ∧ SubOk (w 0 * M 0 0) (M 0 1 * w 0 * h 1)
      rw [m01, zero_mul_x, zero_mul_x, sz0 hw]
      exact ⟨zero_mulOk _, subOk_zero (by show |(0 : ℝ)| ≤ 2; norm_num)⟩
    · intro i hi
      interval_cases i
      · rw [sh0 hw hh, mul_zero_x]
        exact ⟨mulOk_zero _, subOk_zero (by show |(0 : ℝ)| ≤ 2; norm_num)⟩
      · rw [sh1 hw hh]
        refine ⟨pr'.mulOk Pw.one (by norm_num) (by norm_num), noOver_abs (b := 10) ?_ (by norm_num)⟩
        have := pr'.mul Pw.one
        rw [show (sdisc : EllStable (Fl bin53)).xc.vec 1 = 0 from rfl, show (0 : Fl bin53).val = 0 from rfl, zero_sub, abs_neg,
          abs_of_pos this.pos]
        exact this.2.trans (two_le_two (by norm_num))
    · rw [hkap]
      exact Pw.one.mulOk hc (by norm_num) (by norm_num)
    · exact band_noOver b1s (by norm_num)
    · exact ps.divOk p1s (by norm_num) (by norm_num)
    · exact Pw.one.divOk pm (by norm_num) (by norm_num)
    · obtain ⟨t, ht⟩ : ∃ t, t = 1 / (σ / (1 - σ)) := ⟨_, rfl⟩
      rw [← ht] at pt0 ⊢
      have b2 : (2 : ℝ) ^ (-2 : ℤ) ≤ t.val + (0 : Fl bin53).val ∧ t.val + (0 : Fl bin53).val ≤ (2 : ℝ) ^ (0 : ℤ) := by
        rw [show (0 : Fl bin53).val = 0 from rfl, add_zero]; exact pt0
      have pt1 : Pw (-2) 0 (t + 0) := rnd_band b2
      have pt2 : Pw (-2) 1 (t + 0 + 1) := (pt1.add Pw.one).mono (by norm_num) (by norm_num)
      intro j hj
      interval_cases j
      · show AddOk t (w 0 * M 0 0 * w 0) ∧ DivOk t (t + w 0 * M 0 0 * w 0) ∧ MulOk (M 0 0) (t / (t + w 0 * M 0 0 * w 0))
        rw [sp0 hw, m00]
        exact ⟨band_noOver b2 (by norm_num), pt0.divOk pt1 (by norm_num) (by norm_num),
          Pw.one.mulOk (pt0.div pt1) (by norm_num) (by norm_num)⟩
      · show AddOk (t + w 0 * M 0 0 * w 0) (w 1 * M 1 1 * w 1) ∧ DivOk (t + w 0 * M 0 0 * w 0) (t + w 0 * M 0 0 * w 0 + w 1 * M 1 1 * w 1) ∧
          MulOk (M 1 1) ((t + w 0 * M 0 0 * w 0) / (t + w 0 * M 0 0 * w 0 + w 1 * M 1 1 * w 1))
        rw [sp0 hw, sp1 hw, m11]
        exact ⟨pt1.addOk Pw.one (by norm_num), pt1.divOk pt2 (by norm_num) (by norm_num),
          Pw.one.mulOk (pt1.div pt2) (by norm_num) (by norm_num)⟩
    · intro j l hjl hl
      have hj0 : j = 0 := by omega
      have hl1 : l = 1 := by omega
      subst hj0 hl1
      obtain ⟨t, ht⟩ : ∃ t, t = 1 / (σ / (1 - σ)) := ⟨_, rfl⟩
      rw [← ht] at pt0 ⊢
      have b2 : (2 : ℝ) ^ (-2 : ℤ) ≤ t.val + (0 : Fl bin53).val ∧ t.val + (0 : Fl bin53).val ≤ (2 : ℝ) ^ (0 : ℤ) := by
        rw [show (0 : Fl bin53).val = 0 from rfl, add_zero]; exact pt0
      have pt1 : Pw (-2) 0 (t + 0) := rnd_band b2
      show DivOk (w 0 * M 0 0) (t + w 0 * M 0 0 * w 0) ∧ MulOk (w 0 * M 0 0 / (t + w 0 * M 0 0 * w 0)) (M 0 1 * w 0) ∧
        AddOk (M 0 1) (w 0 * M 0 0 / (t + w 0 * M 0 0 * w 0) * (M 0 1 * w 0))
      rw [sp0 hw, sz0 hw, m01, zero_mul_x, mul_zero_x]
      exact ⟨⟨pt1.pos.ne', .inl (zero_div _), by show NoOver (0 / _); rw [zero_div]; exact noOver_zero⟩, mulOk_zero _, addOk_zero⟩

end svm

/-- C126: one step of training a classifier in `f64` on `EllStable`, from the unit disc -/
example : ∃ r k γ1 o1 e1, cuttingPlaneOptim SvmOracle.oracle EllStable.space (sv : SvmOracle B64) sdisc 1 ⟨1, 0⟩ = .ok ((r, k), γ1, o1, e1) ∧
    γ1.Finite ∧ ∀ x, r = some x → x.IsVecShape 2 ∧ ∀ y ∈ x.data, y.Finite := by
  obtain ⟨r, k, γ1, o1, e1, h1, h2, -, h3⟩ := C126_svm_run_stable (m := 1) (n := 1) (opts := ⟨1, 0⟩) (opts' := ⟨1, 0⟩) sv_same sv_for sdisc_same
    sdisc_shaped Same.one .zero rfl (by
      refine ⟨sv_safe, fun c s g' w' h => ?_⟩
      have hf : SvmOracle.oracle.assess (sv : SvmOracle (Fl bin53)) (sdisc : EllStable (Fl bin53)).xc 1 = .ok ((cut1, true), 0, sv) := sv_first 1
      rw [hf] at h
      simp only [Res.ok.injEq, Prod.mk.injEq] at h
      obtain ⟨⟨rfl, rfl⟩, -, -⟩ := h
      exact ⟨⟨rfl, rfl, rfl⟩, sv_update_s, fun e' _ _ => trivial⟩)
  exact ⟨r, k, γ1, o1, e1, h1, h2, fun x hx => ⟨(h3 x hx).1, (h3 x hx).2.1⟩⟩

/-! ### A filter: a passband out of reach -/

/-- as `lp`, but the response at 0 must lie in `[4, 8]` -/
def lp4 {α : Type} [Scalar α] : LowpassOracle α :=
  ⟨false, -1, [⟨[1, nat 2], 2, 0⟩, ⟨[1, -nat 2], 2, 0⟩], 1, 1, nat 4, nat 8, 1, 0, 0, none, -1⟩

def lpd4 : LpData := ⟨2, 1, 1, 4, 8⟩

theorem nat_same (k : Nat) (h : k ≤ 8) : Same (nat k) (nat k) := Same.nat k (by
  have h1 : (2 : ℝ) ^ 3 ≤ 2 ^ 1000 := pow_le_pow_right₀ (by norm_num) (by norm_num)
  have h2 : (k : ℝ) ≤ 8 := by exact_mod_cast h
  exact h2.trans ((by norm_num : (8 : ℝ) = 2 ^ 3).le.trans h1))

theorem val_nat {k : Nat} (h : k ≤ 8) : (nat k : Fl bin53).val = k := by
  show rnd53 (k : ℝ) = k
  have := rnd53_rep k 0 (by rw [abs_of_nonneg (by positivity)]; have : (k : ℤ) ≤ 8 := by exact_mod_cast h
                            exact this.trans (by norm_num))
  simpa using this

theorem four_eq : (nat 4 : Fl bin53) = ⟨4⟩ := Fl.ext (by rw [val_nat (by norm_num)]; norm_num)
theorem eight_eq : (nat 8 : Fl bin53) = ⟨8⟩ := Fl.ext (by rw [val_nat (by norm_num)]; norm_num)

theorem lp4_same : (lp4 : LowpassOracle B64).Same64 lp4 :=
  ⟨rfl, rfl, rfl, rfl, rfl, rfl, rfl,
    .cons ⟨rfl, rfl, .cons .one (.cons two_same .nil)⟩ (.cons ⟨rfl, rfl, .cons .one (.cons two_same.neg .nil)⟩ .nil),
    nat_same 4 (by norm_num), nat_same 8 (by norm_num), .one, trivial⟩

theorem lp4_for : (lp4 : LowpassOracle (Fl bin53)).FlFor lpd4 2 0 :=
  { lp_for with
    lp := by show (nat 4 : Fl bin53).val = 4; rw [four_eq]
    up := by show (nat 8 : Fl bin53).val = 8; rw [eight_eq] }

theorem lp4_safe : (lp4 : LowpassOracle (Fl bin53)).Safe 2 1 (disc : Ell (Fl bin53)).xc := by
  obtain ⟨h1, h2⟩ := lp_safe
  refine ⟨h1, fun col hc => ?_⟩
  obtain ⟨a, b, -, -, c, -, -, d⟩ := h2 col hc
  have e : dotV 2 col.vec (disc : Ell (Fl bin53)).xc.vec = 0 := by
    simp only [lp4, List.mem_cons, List.mem_nil_iff, or_false] at hc
    rcases hc with rfl | rfl <;> exact dot0
  refine ⟨a, b, ?_, ?_, c, ?_, ?_, d⟩ <;> rw [e]
  · show SubOk 0 (nat 8); rw [eight_eq]; exact noOver_abs (b := 10) (by show |(0 : ℝ) - 8| ≤ _; norm_num) (by norm_num)
  · show SubOk 0 (nat 4); rw [four_eq]; exact noOver_abs (b := 10) (by show |(0 : ℝ) - 4| ≤ _; norm_num) (by norm_num)
  · show AddOk (-0) (nat 4); rw [four_eq]; exact noOver_abs (b := 10) (by show |-(0 : ℝ) + 4| ≤ _; norm_num) (by norm_num)
  · show AddOk (-0) (nat 8); rw [eight_eq]; exact noOver_abs (b := 10) (by show |-(0 : ℝ) + 8| ≤ _; norm_num) (by norm_num)

/-- the cut of the first step -/
noncomputable def cut4 : Arr (Fl bin53) × ParallelCut (Fl bin53) := (⟨[⟨-1⟩, ⟨-2⟩], 2, 0⟩, ⟨⟨4⟩, some ⟨8⟩⟩)

theorem lp4_first : ∃ w', LowpassOracle.oracle.assess (lp4 : LowpassOracle (Fl bin53)) (disc : Ell (Fl bin53)).xc 1 = .ok ((cut4, false), 1, w') := by
  have e0 : ∀ r : Fl bin53, (Arr.mk [1, r] 2 0 : Arr (Fl bin53)).dot (disc : Ell (Fl bin53)).xc = .ok 0 := fun r => by
    rw [dot_spec (Arr.IsVecShape.isVec ⟨rfl, rfl, rfl⟩) (Arr.IsVecShape.isVec (n := 2) ⟨rfl, rfl, rfl⟩)]
    exact congrArg Res.ok dot0
  have g08 : Scalar.gt (0 : Fl bin53) (nat 8) = false := by rw [eight_eq]; exact decide_eq_false (by show ¬ (0 : ℝ) > 8; norm_num)
  have l04 : Scalar.lt (0 : Fl bin53) (nat 4) = true := by rw [four_eq]; exact decide_eq_true (by show (0 : ℝ) < 4; norm_num)
  have c4 : -(0 : Fl bin53) + nat 4 = ⟨4⟩ := by
    rw [four_eq]; exact add_rep (x := -0) 4 1 2 (by norm_num) (by norm_num) (by norm_num)
  have c8 : -(0 : Fl bin53) + nat 8 = ⟨8⟩ := by
    rw [eight_eq]; exact add_rep (x := -0) 8 1 3 (by norm_num) (by norm_num) (by norm_num)
  have hb : ∀ o : LowpassOracle (Fl bin53), o.spectrum = [⟨[1, nat 2], 2, 0⟩, ⟨[1, -nat 2], 2, 0⟩] → o.lpSq = nat 4 → o.upSq = nat 8 →
      o.passBody (disc : Ell (Fl bin53)).xc 0 () = .ok (some cut4, ()) := by
    intro o h1 h2 h3
    have n0 : nthI32 [(⟨[1, nat 2], 2, 0⟩ : Arr (Fl bin53)), ⟨[1, -nat 2], 2, 0⟩] 0 = .ok ⟨[1, nat 2], 2, 0⟩ := rfl
    unfold LowpassOracle.passBody
    rw [h1, h2, h3, n0]
    simp only [Res.ok_bind, e0, g08, l04, c4, c8, Bool.false_eq_true, if_false, if_true]
    have : negVec (⟨[1, nat 2], 2, 0⟩ : Arr (Fl bin53)) = ⟨[⟨-1⟩, ⟨-2⟩], 2, 0⟩ := by
      show (⟨[-1, -nat 2], 2, 0⟩ : Arr (Fl bin53)) = _
      rw [two_eq]; rfl
    rw [this]; rfl
  refine ⟨{ (lp4 : LowpassOracle (Fl bin53)) with moreAlt := true, idx1 := 0 }, ?_⟩
  show (LowpassOracle.assess lp4 (disc : Ell (Fl bin53)).xc 1) = _
  unfold LowpassOracle.assess LowpassOracle.assessFeas
  have hloop : ∀ o : LowpassOracle (Fl bin53), o.spectrum = [⟨[1, nat 2], 2, 0⟩, ⟨[1, -nat 2], 2, 0⟩] → o.lpSq = nat 4 → o.upSq = nat 8 →
      rrLoop 0 1 (o.passBody (disc : Ell (Fl bin53)).xc) 1 (-1) () = .ok (some cut4, 0, ()) := by
    intro o h1 h2 h3
    show ((o.passBody (disc : Ell (Fl bin53)).xc 0 ()).bind _) = _
    rw [hb o h1 h2 h3]; rfl
  have hl := hloop { (lp4 : LowpassOracle (Fl bin53)) with moreAlt := true, spSq := 1 } rfl rfl rfl
  have hl' : rrLoop 0 (lp4 : LowpassOracle (Fl bin53)).nwpass
      (LowpassOracle.passBody { (lp4 : LowpassOracle (Fl bin53)) with moreAlt := true, spSq := 1 } (disc : Ell (Fl bin53)).xc)
      (lp4 : LowpassOracle (Fl bin53)).nwpass.toNat (lp4 : LowpassOracle (Fl bin53)).idx1 () = .ok (some cut4, 0, ()) := hl
  have n0 : nthI32 (lp4 : LowpassOracle (Fl bin53)).spectrum 0 = .ok ⟨[1, nat 2], 2, 0⟩ := rfl
  simp only [n0, Res.ok_bind, hl']
  rfl

theorem fw0 {w : Nat → Fl bin53} (hw : EllStable.IsFwd 2 M cut4.1.vec w) : w 0 = ⟨-1⟩ := hw 0 (by norm_num)
theorem fw1 {w : Nat → Fl bin53} (hw : EllStable.IsFwd 2 M cut4.1.vec w) : w 1 = ⟨-2⟩ := by
  rw [hw 1 (by norm_num)]
  show (⟨-2⟩ : Fl bin53) - 0 * w 0 = ⟨-2⟩
  rw [zero_mul_x]
  exact sub_rep (y := 0) (-2) (-1) 1 (by norm_num) (by norm_num) (by norm_num)
theorem fz0 : (⟨-1⟩ * M 0 0 : Fl bin53) = ⟨-1⟩ := mul_rep (-1) (-1) 0 (by norm_num) (by norm_num) (by norm_num)
theorem fz1 : (⟨-2⟩ * M 1 1 : Fl bin53) = ⟨-2⟩ := mul_rep (-2) (-1) 1 (by norm_num) (by norm_num) (by norm_num)
theorem fp0 : (⟨-1⟩ * ⟨-1⟩ : Fl bin53) = ⟨1⟩ := mul_rep 1 1 0 (by norm_num) (by norm_num) (by norm_num)
theorem fp1 : (⟨-2⟩ * ⟨-2⟩ : Fl bin53) = ⟨4⟩ := mul_rep 4 1 2 (by norm_num) (by norm_num) (by norm_num)
theorem fom {w : Nat → Fl bin53} (hw : EllStable.IsFwd 2 M cut4.1.vec w) : (sumTo 2 fun i => w i * M i i * w i) = ⟨5⟩ := by
  show 0 + w 0 * M 0 0 * w 0 + w 1 * M 1 1 * w 1 = _
  rw [fw0 hw, fw1 hw, fz0, fz1, fp0, fp1, ← one_eq, zero_add_one, one_eq]
  exact add_rep 5 5 0 (by norm_num) (by norm_num) (by norm_num)

theorem sq44 : (⟨4⟩ * ⟨4⟩ : Fl bin53) = ⟨16⟩ := mul_rep 16 1 4 (by norm_num) (by norm_num) (by norm_num)
theorem sq88 : (⟨8⟩ * ⟨8⟩ : Fl bin53) = ⟨64⟩ := mul_rep 64 1 6 (by norm_num) (by norm_num) (by norm_num)

/-- nothing in the unit disc meets the cut -/
theorem lp4_call : CutType.call .bias cut4.2 (sdisc : EllStable (Fl bin53)).helper ⟨5⟩ = (.noSoln, 0, 0, 0) := by
  have g80 : Scalar.gt (⟨8⟩ : Fl bin53) 0 = true := decide_eq_true (by show (8 : ℝ) > 0; norm_num)
  have l564 : Scalar.le (⟨5⟩ : Fl bin53) ⟨64⟩ = true := decide_eq_true (by show (5 : ℝ) ≤ 64; norm_num)
  have l516 : Scalar.lt (⟨5⟩ : Fl bin53) ⟨16⟩ = true := decide_eq_true (by show (5 : ℝ) < 16; norm_num)
  have l84 : Scalar.lt (⟨8⟩ : Fl bin53) ⟨4⟩ = false := decide_eq_false (by show ¬ (8 : ℝ) < 4; norm_num)
  show (sdisc : EllStable (Fl bin53)).helper.calcParallelBiasCut ⟨4⟩ ⟨8⟩ ⟨5⟩ = _
  unfold EllCalc.calcParallelBiasCut EllCalc.calcBiasCut
  rw [sq88, sq44, l84, g80, l564, l516]
  rfl

theorem lp4_update : EllStable.Safe 2 .bias (sdisc : EllStable (Fl bin53)) cut4 := by
  intro w h hw hh
  rw [fom hw]
  have g80 : Scalar.gt (⟨8⟩ : Fl bin53) 0 = true := decide_eq_true (by show (8 : ℝ) > 0; norm_num)
  have l564 : Scalar.le (⟨5⟩ : Fl bin53) ⟨64⟩ = true := decide_eq_true (by show (5 : ℝ) ≤ 64; norm_num)
  have l516 : Scalar.lt (⟨5⟩ : Fl bin53) ⟨16⟩ = true := decide_eq_true (by show (5 : ℝ) < 16; norm_num)
  have ht : (sdisc : EllStable (Fl bin53)).kappa * ⟨5⟩ = ⟨5⟩ := ltsq
  refine ⟨?_, ?_, ?_, ?_, ?_, ?_, ?_⟩
  · intro i hi j hj
    have hi1 : i = 1 := by omega
    have hj0 : j = 0 := by omega
    subst hi1 hj0
    show MulOk (M 0 1) (w 0) ∧ SubOk (⟨-2⟩ : Fl bin53) (M 0 1 * w 0)
    rw [m01, zero_mul_x]
    exact ⟨zero_mulOk _, subOk_zero (by show |(-2 : ℝ)| ≤ 2; norm_num)⟩
  · intro i hi
    interval_cases i
    · show MulOk (w 0) (M 0 0); rw [fw0 hw, m00]; exact mulOk_of (by show _ ≤ |(-1 : ℝ) * 1|; norm_num) (by show |(-1 : ℝ) * 1| ≤ _; norm_num)
    · show MulOk (w 1) (M 1 1); rw [fw1 hw, m11]; exact mulOk_of (by show _ ≤ |(-2 : ℝ) * 1|; norm_num) (by show |(-2 : ℝ) * 1| ≤ _; norm_num)
  · intro i hi
    interval_cases i
    · show MulOk (w 0 * M 0 0) (w 0); rw [fw0 hw, fz0]; exact mulOk_of (by show _ ≤ |(-1 : ℝ) * -1|; norm_num) (by show |(-1 : ℝ) * -1| ≤ _; norm_num)
    · show MulOk (w 1 * M 1 1) (w 1); rw [fw1 hw, fz1]; exact mulOk_of (by show _ ≤ |(-2 : ℝ) * -2|; norm_num) (by show |(-2 : ℝ) * -2| ≤ _; norm_num)
  · intro i hi
    interval_cases i
    · show AddOk 0 (w 0 * M 0 0 * w 0); rw [fw0 hw, fz0, fp0]
      exact noOver_abs (b := 10) (by show |(0 : ℝ) + 1| ≤ _; norm_num) (by norm_num)
    · show AddOk (0 + w 0 * M 0 0 * w 0) (w 1 * M 1 1 * w 1); rw [fw0 hw, fw1 hw, fz0, fz1, fp0, fp1, ← one_eq, zero_add_one]
      exact noOver_abs (b := 10) (by show |(1 : ℝ) + 4| ≤ _; norm_num) (by norm_num)
  · exact mulOk_of (by show _ ≤ |(1 : ℝ) * 5|; norm_num) (by show |(1 : ℝ) * 5| ≤ _; norm_num)
  · rw [ht]
    show (sdisc : EllStable (Fl bin53)).helper.ParallelSafe ⟨4⟩ ⟨8⟩ ⟨5⟩
    intro _
    rw [sq88, g80, l564]
    refine ⟨fun _ => mulOk_of (by norm_num) (by norm_num), ?_⟩
    simp only [Bool.and_self, Bool.true_or, if_true]
    refine ⟨mulOk_of (by norm_num) (by norm_num), fun hlt => ?_⟩
    rw [sq44, l516] at hlt
    cases hlt
  · intro ρ σ δ hcall
    rw [ht] at hcall
    rw [lp4_call] at hcall
    simp at hcall

/-- C126: the unit disc holds no such filter, and the run in `f64` says so -/
example : ∃ r k γ1 o1 e1, cuttingPlaneOptim LowpassOracle.oracle EllStable.space (lp4 : LowpassOracle B64) sdisc 1 ⟨20, 0⟩ =
    .ok ((r, k), γ1, o1, e1) ∧ γ1.Finite ∧ γ1.val ≤ 1 ∧ ∀ x, r = some x → (∀ y ∈ x.data, y.Finite) ∧
      x.vec64 2 ∈ lpd4.feasibleWith γ1.val (-lpErr ((2 : ℝ) ^ (-53 : ℤ)) 0 2 0 (x.vec64 2) (x.vec64 2)) := by
  obtain ⟨r, k, γ1, o1, e1, h1, h2, h3, -, h4⟩ := C126_lowpass_run_stable (n := 2) (d := lpd4) (ε := 0) (opts := ⟨20, 0⟩) (opts' := ⟨20, 0⟩)
    ⟨le_rfl, by show 1 ≤ 2; norm_num, le_rfl⟩ (by show 1 < 2; norm_num) one_pos (by norm_num) lp4_same lp4_for sdisc_same
    sdisc_shaped Same.one .zero rfl (by
      refine ⟨lp4_safe, fun c s g' w' h => ?_⟩
      obtain ⟨w1, hw⟩ := lp4_first
      have hw' : LowpassOracle.oracle.assess (lp4 : LowpassOracle (Fl bin53)) (sdisc : EllStable (Fl bin53)).xc 1 = .ok ((cut4, false), 1, w1) := hw
      rw [hw'] at h
      simp only [Res.ok.injEq, Prod.mk.injEq] at h
      obtain ⟨⟨rfl, rfl⟩, -, -⟩ := h
      refine ⟨⟨rfl, rfl, rfl⟩, lp4_update, fun e' he _ => ?_⟩
      obtain ⟨w, h, hw2, -, hv⟩ := C125_update_value (n := 2) (by norm_num) .bias (sdisc : EllStable (Fl bin53)) sdisc_shaped cut4 ⟨rfl, rfl, rfl⟩
      obtain ⟨e2, h2, -⟩ := hv _ rfl .noSoln 0 0 0 (by rw [fom hw2, show (sdisc : EllStable (Fl bin53)).kappa * ⟨5⟩ = ⟨5⟩ from ltsq]; exact lp4_call)
      have := h2.symm.trans he
      simp at this)
  exact ⟨r, k, γ1, o1, e1, h1, h2, h3.trans_eq Same.one.2, fun x hx => ⟨(h4 x hx).2.1, (h4 x hx).2.2.1⟩⟩

end Ellalgo.ExOr64
