import Verif.Spec.Checked
import Verif.Lib.EllBridge

/-! The strategies and the update over checked numbers. -/

namespace Ellalgo
open Matrix

variable {n : Nat}

section arr
variable {α : Type}

theorem IsVec.ext {a b : Arr α} {v : Nat → α} (ha : IsVec a n v) (hb : IsVec b n v) : a = b := by
  obtain ⟨da, ra, ca⟩ := a
  obtain ⟨db, rb, cb⟩ := b
  have h1 := ha.rows.trans hb.rows.symm
  have h2 := ha.cols.trans hb.cols.symm
  simp only at h1 h2
  subst h1 h2
  congr 1
  apply List.ext_getElem?
  intro i
  by_cases hi : i < n
  · rw [ha.get i hi, hb.get i hi]
  · rw [List.getElem?_eq_none (by rw [ha.len]; omega), List.getElem?_eq_none (by rw [hb.len]; omega)]

theorem IsMat.ext {r c : Nat} {a b : Arr α} {m : Nat → Nat → α} (ha : IsMat a r c m) (hb : IsMat b r c m) : a = b := by
  obtain ⟨da, ra, ca⟩ := a
  obtain ⟨db, rb, cb⟩ := b
  have h1 := ha.rows.trans hb.rows.symm
  have h2 := ha.cols.trans hb.cols.symm
  simp only at h1 h2
  subst h1 h2
  congr 1
  apply List.ext_getElem?
  intro i
  by_cases hi : i < r * c
  · have hc : 0 < c := by
      rcases Nat.eq_zero_or_pos c with h0 | h0
      · rw [h0, Nat.mul_zero] at hi; omega
      · exact h0
    have hr : i / c < r := by rw [Nat.div_lt_iff_lt_mul hc]; exact hi
    have e1 := ha.get (i / c) (i % c) hr (Nat.mod_lt _ hc)
    have e2 := hb.get (i / c) (i % c) hr (Nat.mod_lt _ hc)
    rw [Nat.div_add_mod'] at e1 e2
    exact e1.trans e2.symm
  · have h3 := ha.len
    have h4 := hb.len
    simp only at h3 h4
    rw [List.getElem?_eq_none (by omega), List.getElem?_eq_none (by omega)]

end arr

theorem IsVec.lift {a : Arr ℝ} {v : Nat → ℝ} (h : IsVec a n v) : IsVec a.lift n (fun i => .val (v i)) := by
  refine ⟨h.rows, h.cols, by simp [Arr.lift, h.len], fun i hi => ?_⟩
  simp only [Arr.lift, List.getElem?_map, h.get i hi, Option.map_some]

theorem IsMat.lift {r c : Nat} {a : Arr ℝ} {m : Nat → Nat → ℝ} (h : IsMat a r c m) :
    IsMat a.lift r c (fun i j => .val (m i j)) := by
  refine ⟨h.rows, h.cols, by simp [Arr.lift, h.len], fun i j hi hj => ?_⟩
  simp only [Arr.lift, List.getElem?_map, h.get i j hi hj, Option.map_some]

theorem sumTo_val (k : Nat) (f : Nat → ℝ) : sumTo k (fun i => Chk.val (f i)) = .val (sumTo k f) := by
  induction k with
  | zero => rfl
  | succ k ih => simp only [sumTo, ih, Chk.add_val]

theorem gt_val (m : Nat → Nat → ℝ) (g : Nat → ℝ) (i : Nat) :
    Ell.gt n (fun i j => Chk.val (m i j)) (fun i => Chk.val (g i)) i = .val (Ell.gt n m g i) := by
  simp only [Ell.gt, Chk.mul_val, sumTo_val]

theorem om_val (m : Nat → Nat → ℝ) (g : Nat → ℝ) :
    Ell.om n (fun i j => Chk.val (m i j)) (fun i => Chk.val (g i)) = .val (Ell.om n m g) := by
  simp only [Ell.om, gt_val, Chk.mul_val, sumTo_val]

/-- lift a strategy's answer -/
def liftCall (r : CutStatus × Triple ℝ) : CutStatus × Triple Chk := (r.1, .val r.2.1, .val r.2.2.1, .val r.2.2.2)

section strat
variable {tsq β : ℝ}

theorem ellCalc_new_lift (hn : 2 ≤ n) : (EllCalc.new n : EllCalc Chk) = (EllCalc.new n : EllCalc ℝ).lift := by
  have hn' : (1 : ℝ) < n := by exact_mod_cast (by omega : 1 < n)
  have h1 : (n : ℝ) ≠ 0 := by linarith
  have h2 : (n : ℝ) + 1 ≠ 0 := by linarith
  have h3 : (n : ℝ) * n - 1 ≠ 0 := by nlinarith
  have h4 : (2 : ℝ) ≠ 0 := two_ne_zero
  simp [EllCalc.new, EllCalcCore.new, EllCalc.lift, Chk.div_val, h1, h2, h3]

theorem fast_val (hn : 2 ≤ n) {τ η : ℝ} (hτ : τ ≠ 0) (hs : τ + β ≠ 0) :
    (EllCalc.new n : EllCalc ℝ).lift.helper.calcBiasCutFast (.val β) (.val τ) (.val η) =
      (liftCall (.success, (EllCalc.new n : EllCalc ℝ).helper.calcBiasCutFast β τ η)).2 := by
  have hn' : (1 : ℝ) < n := by exact_mod_cast (by omega : 1 < n)
  have h2 : (n : ℝ) + 1 ≠ 0 := by linarith
  simp [EllCalc.new, EllCalcCore.new, EllCalc.lift, liftCall, EllCalcCore.calcBiasCutFast, Chk.div_val, h2, hτ, hs]

theorem centralCall_val (hn : 2 ≤ n) (ht : 0 ≤ tsq) :
    (EllCalc.new n : EllCalc ℝ).lift.calcCentralCut (.val tsq) =
      liftCall ((EllCalc.new n : EllCalc ℝ).calcCentralCut tsq) := by
  have hn' : (1 : ℝ) < n := by exact_mod_cast (by omega : 1 < n)
  have h2 : (n : ℝ) + 1 ≠ 0 := by linarith
  simp [EllCalc.calcCentralCut, EllCalc.new, EllCalcCore.new, EllCalc.lift, liftCall, EllCalcCore.calcCentralCut,
    Chk.div_val, Chk.sqrt_val, h2, ht]

theorem par_val (hn : 2 ≤ n) {b0 b1 p η : ℝ} (ht : tsq ≠ 0)
    (hx : 0 ≤ (tsq - b0 * b0) * (tsq - b1 * b1) + (n / 2 * (b1 * b1 - b0 * b0)) * (n / 2 * (b1 * b1 - b0 * b0)))
    (hd : tsq + p + n / 2 * ((b0 + b1) * (b0 + b1)) + √((tsq - b0 * b0) * (tsq - b1 * b1) +
      (n / 2 * (b1 * b1 - b0 * b0)) * (n / 2 * (b1 * b1 - b0 * b0))) ≠ 0) :
    (EllCalc.new n : EllCalc ℝ).lift.helper.calcParallelBiasCutFast (.val b0) (.val b1) (.val tsq) (.val p) (.val η) =
      (liftCall (.success, (EllCalc.new n : EllCalc ℝ).helper.calcParallelBiasCutFast b0 b1 tsq p η)).2 := by
  have hn' : (1 : ℝ) < n := by exact_mod_cast (by omega : 1 < n)
  have h1 : (n : ℝ) ≠ 0 := by linarith
  simp [EllCalc.new, EllCalcCore.new, EllCalc.lift, liftCall, EllCalcCore.calcParallelBiasCutFast, Chk.div_val,
    Chk.sqrt_val, h1, ht, hx, hd]

theorem parCentral_val (hn : 2 ≤ n) {b1 : ℝ} (ht : 0 < tsq) (h1 : b1 * b1 ≤ tsq) (hb : 0 < b1) :
    (EllCalc.new n : EllCalc ℝ).lift.helper.calcParallelCentralCut (.val b1) (.val tsq) =
      (liftCall (.success, (EllCalc.new n : EllCalc ℝ).helper.calcParallelCentralCut b1 tsq)).2 := by
  have hn' : (2 : ℝ) ≤ n := by exact_mod_cast hn
  have hn1 : (n : ℝ) ≠ 0 := by linarith
  have ha : 0 ≤ 1 - b1 * b1 / tsq := by
    rw [sub_nonneg, div_le_one ht]; exact h1
  have ha1 : 0 < b1 * b1 / tsq := by positivity
  set a := b1 * b1 / tsq with had
  have hx : 0 ≤ 1 - a + n / 2 * a * (n / 2 * a) := by nlinarith [mul_self_nonneg ((n : ℝ) / 2 * a)]
  set r := (n : ℝ) / 2 * a + √(1 - a + n / 2 * a * (n / 2 * a)) with hr
  have hr1 : 1 ≤ r := by
    have hle : 1 - n / 2 * a ≤ √(1 - a + n / 2 * a * (n / 2 * a)) := by
      apply Real.le_sqrt_of_sq_le
      nlinarith
    linarith
  have h3 : r + 1 ≠ 0 := by linarith
  have h4 : r - 1 / n ≠ 0 := by
    have : 1 / (n : ℝ) ≤ 1 / 2 := one_div_le_one_div_of_le (by norm_num) hn'
    linarith
  have h4' : r - (n : ℝ)⁻¹ ≠ 0 := by rw [← one_div]; exact h4
  simp [EllCalc.new, EllCalcCore.new, EllCalc.lift, liftCall, EllCalcCore.calcParallelCentralCut, Chk.div_val,
    Chk.sqrt_val, ht.ne', ← had, hx, ← hr, h3, h4']

theorem callNone_val (hn : 2 ≤ n) (ht : 0 < tsq) (k : UpdateKind) (hadm : Cut.Adm.AdmSingle n k β tsq) :
    CutType.call k (⟨.val β, none⟩ : ParallelCut Chk) (EllCalc.new n : EllCalc ℝ).lift (.val tsq) =
      liftCall (CutType.call k (⟨β, none⟩ : ParallelCut ℝ) (EllCalc.new n) tsq) := by
  have hτ : 0 < √tsq := Real.sqrt_pos.mpr ht
  have hn' : (1 : ℝ) < n := by exact_mod_cast (by omega : 1 < n)
  cases k with
  | central => exact centralCall_val hn ht.le
  | bias =>
    obtain ⟨h1, h2⟩ := hadm
    show (EllCalc.new n : EllCalc ℝ).lift.calcBiasCut (.val β) (.val tsq) = liftCall ((EllCalc.new n).calcBiasCut β tsq)
    have hs : √tsq + β ≠ 0 := by nlinarith
    unfold EllCalc.calcBiasCut
    simp only [Chk.mul_val, Chk.lt_val]
    split
    · rfl
    · simp only [Chk.sqrt_val ht.le]
      have := fast_val (β := β) (η := √tsq + n * β) hn hτ.ne' hs
      rw [Prod.ext_iff]
      exact ⟨rfl, this⟩
  | q =>
    show (EllCalc.new n : EllCalc ℝ).lift.calcBiasCutQ (.val β) (.val tsq) = liftCall ((EllCalc.new n).calcBiasCutQ β tsq)
    unfold EllCalc.calcBiasCutQ
    simp only [Chk.sqrt_val ht.le, Chk.lt_val]
    simp only [EllCalc.lift, Chk.mul_val, Chk.add_val, Chk.zero_val, Chk.lt_val, Scalar.real_sqrt]
    split
    · rfl
    · split
      · rfl
      · rename_i h1 h2
        have h1 : ¬ √tsq < β := by simpa using h1
        have h2 : ¬ √tsq + n * β < 0 := by simpa [EllCalc.new] using h2
        have hadm : β ≠ √tsq := hadm
        have hs : √tsq + β ≠ 0 := by
          intro h0
          have : β = -√tsq := by linarith
          rw [this] at h2
          apply h2
          nlinarith
        have := fast_val (β := β) (η := √tsq + n * β) hn hτ.ne' hs
        rw [Prod.ext_iff]
        exact ⟨rfl, this⟩

theorem call_val (hn : 2 ≤ n) (ht : 0 < tsq) (k : UpdateKind) (c : ParallelCut ℝ) (hadm : Cut.Adm n k c tsq) :
    CutType.call k (LiftCut.lift c) (EllCalc.new n : EllCalc ℝ).lift (.val tsq) =
      liftCall (CutType.call k c (EllCalc.new n) tsq) := by
  have hn' : (1 : ℝ) < n := by exact_mod_cast (by omega : 1 < n)
  obtain ⟨β, b1⟩ := c
  cases b1 with
  | none => exact callNone_val hn ht k hadm
  | some b1 =>
    simp only [Cut.Adm, Cut.hi_parallel, Cut.lo_parallel] at hadm
    by_cases hk : k = .central
    · subst hk
      simp only [if_true] at hadm
      show (EllCalc.new n : EllCalc ℝ).lift.calcParallelCentralCut (.val b1) (.val tsq) =
        liftCall ((EllCalc.new n).calcParallelCentralCut b1 tsq)
      unfold EllCalc.calcParallelCentralCut
      have hb : Scalar.lt b1 0 = false := by simpa using hadm.le
      simp only [Chk.mul_val, Chk.lt_val, Chk.le_val, Chk.zero_val, hb, Bool.false_eq_true, if_false]
      by_cases hfar : tsq ≤ b1 * b1
      · rw [if_pos (by simp [hfar]), if_pos (by simp [hfar])]
        exact centralCall_val hn ht.le
      · rw [if_neg (by simp [hfar, EllCalc.lift, EllCalc.new]), if_neg (by simp [hfar, EllCalc.new])]
        rw [Prod.ext_iff]
        exact ⟨rfl, parCentral_val hn ht (not_le.mp hfar).le hadm⟩
    · rw [if_neg hk] at hadm
      obtain ⟨h01, hA, hB⟩ := hadm
      have hb : Scalar.lt b1 β = false := by simpa using h01.le
      by_cases hfar : √tsq ≤ b1
      · have hfar' := (lt_sqrt_iff_sq ht).mpr hfar
        have key := callNone_val hn ht k (hA hfar)
        cases k with
        | central => exact absurd rfl hk
        | bias =>
          show (EllCalc.new n : EllCalc ℝ).lift.calcParallelBiasCut (.val β) (.val b1) (.val tsq) =
            liftCall ((EllCalc.new n).calcParallelBiasCut β b1 tsq)
          unfold EllCalc.calcParallelBiasCut
          simp only [Chk.mul_val, Chk.lt_val, Chk.le_val, Chk.zero_val, Chk.gt_val, hb, Bool.false_eq_true, if_false]
          rw [if_pos (by simp [hfar'.1, hfar'.2]),
            if_pos (by simp [hfar'.1, hfar'.2])]
          exact key
        | q =>
          show (EllCalc.new n : EllCalc ℝ).lift.calcParallelQ (.val β) (.val b1) (.val tsq) =
            liftCall ((EllCalc.new n).calcParallelQ β b1 tsq)
          unfold EllCalc.calcParallelQ
          simp only [Chk.mul_val, Chk.lt_val, Chk.ge_val, Chk.zero_val, Chk.gt_val, hb, Bool.false_eq_true, if_false]
          rw [if_pos (by simp [hfar'.1, hfar'.2]),
            if_pos (by simp [hfar'.1, hfar'.2])]
          exact key
      · have hB := hB (not_le.mp hfar)
        have hfar' : ¬ (0 < b1 ∧ tsq ≤ b1 * b1) := fun hc => hfar ((lt_sqrt_iff_sq ht).mp hc)
        have par : 0 ≤ tsq + n * (β * b1) →
            (EllCalc.new n : EllCalc ℝ).lift.helper.calcParallelBiasCutFast (.val β) (.val b1) (.val tsq) (.val (β * b1))
              (.val (tsq + n * (β * b1))) =
            (liftCall (.success, (EllCalc.new n : EllCalc ℝ).helper.calcParallelBiasCutFast β b1 tsq (β * b1)
              (tsq + n * (β * b1)))).2 := by
          intro hη
          have hf := parFacts hn' h01 hη
          refine par_val hn ht.ne' (Real.sqrt_pos.mp hf.xi0).le ?_
          have h0 := hf.h0
          have h1 := hf.xi0
          have e : tsq + β * b1 + n / 2 * ((β + b1) * (β + b1)) = 2 * ((tsq + β * b1) / 2 + n * ((β + b1) / 2) ^ 2) := by
            ring
          rw [e]
          linarith
        cases k with
        | central => exact absurd rfl hk
        | bias =>
          show (EllCalc.new n : EllCalc ℝ).lift.calcParallelBiasCut (.val β) (.val b1) (.val tsq) =
            liftCall ((EllCalc.new n).calcParallelBiasCut β b1 tsq)
          unfold EllCalc.calcParallelBiasCut
          simp only [Chk.mul_val, Chk.lt_val, Chk.le_val, Chk.zero_val, Chk.gt_val, hb, Bool.false_eq_true, if_false]
          rw [if_neg (by simpa [EllCalc.lift, EllCalc.new] using hfar'), if_neg (by simpa [EllCalc.new] using hfar')]
          rw [Prod.ext_iff]
          exact ⟨rfl, par (hB.2 rfl)⟩
        | q =>
          show (EllCalc.new n : EllCalc ℝ).lift.calcParallelQ (.val β) (.val b1) (.val tsq) =
            liftCall ((EllCalc.new n).calcParallelQ β b1 tsq)
          unfold EllCalc.calcParallelQ
          simp only [Chk.mul_val, Chk.lt_val, Chk.ge_val, Chk.zero_val, Chk.gt_val, hb, Bool.false_eq_true, if_false]
          rw [if_neg (by simpa [EllCalc.lift, EllCalc.new] using hfar'), if_neg (by simpa [EllCalc.new] using hfar')]
          have e1 : Scalar.le (Chk.val tsq + (EllCalc.new n : EllCalc ℝ).lift.nF * Chk.val (β * b1)) (Chk.val 0) =
              decide (tsq + n * (β * b1) ≤ 0) := by simp [EllCalc.lift, EllCalc.new]
          have e2 : Scalar.le (tsq + (EllCalc.new n : EllCalc ℝ).nF * (β * b1)) 0 = decide (tsq + n * (β * b1) ≤ 0) := by
            simp [EllCalc.new]
          simp only [e1, e2]
          by_cases hη : tsq + n * (β * b1) ≤ 0
          · simp only [hη, decide_true, if_true]
            rfl
          · simp only [hη, decide_false, Bool.false_eq_true, if_false]
            rw [Prod.ext_iff]
            exact ⟨rfl, par (not_le.mp hη).le⟩

end strat

/-- cuts whose checked strategies agree with the real ones wherever they are admissible -/
class LawfulLift (T T' : Type) [Cut T] [CutType T' Chk] extends LiftCut T T' where
  call_lift : ∀ {n : Nat} {tsq : ℝ}, 2 ≤ n → 0 < tsq → ∀ (k : UpdateKind) (c : T), Cut.Adm n k c tsq →
    CutType.call k (LiftCut.lift c) (EllCalc.new n : EllCalc ℝ).lift (.val tsq) =
      liftCall (CutType.call k c (EllCalc.new n) tsq)

noncomputable instance : LawfulLift (ParallelCut ℝ) (ParallelCut Chk) where
  call_lift hn ht k c h := call_val hn ht k c h

noncomputable instance : LawfulLift (SingleCut ℝ) (SingleCut Chk) where
  call_lift hn ht k c h := by
    have := call_val hn ht k ⟨c.beta, none⟩ h
    cases k <;> exact this

variable {T T' : Type} [Cut T] [CutType T' Chk] [LawfulLift T T']

theorem Ell.update_val {e : Ell ℝ} (he : e.Valid n) (k : UpdateKind) (g : Arr ℝ) (c : T) (hs : g.IsVecShape n)
    (hg : g.toVec n ≠ 0) (hadm : Cut.Adm n k c (e.tsqOf n (g.toVec n))) :
    Ell.space.update k e.lift (g.lift, (LiftCut.lift c : T')) =
      (Ell.space.update k e (g, c)).map (fun p => (p.1, p.2.lift)) := by
  have htp := he.tsq_pos hg
  have hω : Ell.om n e.mq.mat g.vec ≠ 0 := by
    rw [om_eq]; exact (quad_pos he.posDef hg).ne'
  have ht : e.tsqOf n (g.toVec n) = e.kappa * Ell.om n e.mq.mat g.vec := by rw [om_eq]; rfl
  have hcall := LawfulLift.call_lift (T' := T') he.dim htp k c hadm
  rw [Ell.update_eq, Ell.update_eq]
  rcases hc : CutType.call k c (EllCalc.new n) (e.tsqOf n (g.toVec n)) with ⟨st, ρ, σ, δ⟩
  rw [hc] at hcall
  rw [ht] at hc hcall
  simp only [liftCall] at hcall
  rw [← he.helper] at hc
  have hcv : CutType.call k (LiftCut.lift c : T') e.lift.helper (e.lift.kappa *
      Ell.om n (fun i j => Chk.val (e.mq.mat i j)) (fun i => Chk.val (g.vec i))) = (st, .val ρ, .val σ, .val δ) := by
    rw [om_val]
    simp only [Ell.lift, he.helper, Chk.mul_val]
    exact hcall
  rcases Ell.updateCore_spec he.shaped.1.isMat he.shaped.2.isVec hs.isVec he.pos (CutType.call k c e.helper) hc with
    ⟨h1, h2⟩ | ⟨h1, e', h2, h3, h4, h5, h6, h7, h8⟩ <;>
  rcases Ell.updateCore_spec (e := e.lift) he.shaped.1.isMat.lift he.shaped.2.isVec.lift hs.isVec.lift he.pos
    (CutType.call k (LiftCut.lift c : T') e.lift.helper) hcv with
    ⟨g1, g2⟩ | ⟨g1, e1', g2, g3, g4, g5, g6, g7, g8⟩
  · rw [h2, g2]
    simp only [Res.map, om_val, Ell.lift, Chk.mul_val]
  · exact absurd g1 h1
  · exact absurd h1 g1
  · rw [h2, g2]
    simp only [Res.map, Res.ok.injEq, Prod.mk.injEq, true_and]
    have hm : e1'.mq = e'.mq.lift := by
      refine g3.ext (h3.lift.congr ?_)
      intro i j _ _
      simp only [Ell.deferM, newMq, gt_val, om_val, Chk.div_val _ hω, Ell.lift, Chk.mul_val, Chk.sub_val]
      split <;> split <;> rfl
    have hx : e1'.xc = e'.xc.lift := by
      refine g4.ext (h4.lift.congr ?_)
      intro i _
      simp only [gt_val, om_val, Chk.div_val _ hω, Chk.mul_val, Chk.sub_val]
    obtain ⟨nd, mq, xc, ka, hp, ts⟩ := e1'
    simp only at hm hx g5 g6 g7 g8
    subst hm hx g5 g6 g7 g8
    simp only [Ell.lift, h5, h6, h7, h8, om_val, Chk.mul_val, Chk.one_val]
    congr 1
    by_cases hb : e.noDeferTrick = true
    · exact (if_pos hb).trans (congrArg Chk.val (if_pos hb).symm)
    · exact (if_neg hb).trans (congrArg Chk.val (if_neg hb).symm)

end Ellalgo
