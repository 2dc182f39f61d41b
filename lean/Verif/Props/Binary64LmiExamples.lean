import Verif.Props.Binary64Lmi
import Verif.Props.Binary64RunExamples
import Verif.Props.Binary64CgExamples

/-! C124: the inequality `0 - 1 x₀ - 0 x₁ > 0`, started with the unit disc. -/

namespace Ellalgo.ExLmi64
open Ellalgo Matrix Ellalgo.ExRun64 Ellalgo.ExCg64

/-- `B = (0)`, `F_0 = (1)`, `F_1 = (0)` -/
def lmi {α : Type} [Scalar α] : LMIOracle α := LMIOracle.new [⟨[1], 1, 1⟩, ⟨[0], 1, 1⟩] ⟨[0], 1, 1⟩

theorem sized {α : Type} [Scalar α] : (lmi : LMIOracle α).mgr.Sized 1 := ⟨rfl, ⟨rfl, rfl, rfl⟩, ⟨rfl, rfl, rfl⟩⟩

theorem lmi_same : LMIOracle.Same64 2 1 lmi lmi :=
  ⟨⟨.cons ⟨rfl, rfl, .cons .one .nil⟩ (.cons ⟨rfl, rfl, .cons .zero .nil⟩ .nil), rfl, by
    intro f hf
    simp only [lmi, LMIOracle.new, List.mem_cons, List.not_mem_nil, or_false] at hf
    rcases hf with rfl | rfl <;> exact ⟨rfl, rfl, rfl⟩⟩, ⟨rfl, rfl, .cons .zero .nil⟩, ⟨rfl, rfl, rfl⟩, sized, sized⟩

/-- the only entry factored -/
noncomputable def ent (x : Arr (Fl bin53)) : Fl bin53 := 0 - 1 * x.vec 0 - 0 * x.vec 1

theorem z00 : (0 : Fl bin53) - 0 = 0 := Fl.ext (by show rnd53 (0 - 0) = 0; rw [sub_zero, rnd53_zero])

theorem rnd_le_two {t : ℝ} (h : |t| ≤ 2) : |rnd53 t| ≤ 2 := by
  have e : (2 : ℝ) ^ (1 : ℤ) = 2 := by norm_num
  obtain ⟨a, b⟩ := abs_le.1 h
  have h3 := rnd53_mono _ _ a
  have h4 := rnd53_mono _ _ b
  rw [← e, rnd53_neg_pow, e] at h3
  rw [← e, rnd53_pow, e] at h4
  exact abs_le.2 ⟨h3, h4⟩

theorem safe {o : LMIOracle (Fl bin53)} (hF : o.matF = (lmi : LMIOracle (Fl bin53)).matF) (hB : o.matB = (lmi : LMIOracle (Fl bin53)).matB)
    {x : Arr (Fl bin53)} (h : (x.vec 0).val = 0 ∨ 1 / 4 ≤ |(x.vec 0).val|) (h1 : |(x.vec 0).val| ≤ 2) : o.Safe 1 2 x := by
  have hr := rnd_le_two h1
  unfold LMIOracle.Safe
  rw [hF, hB]
  constructor
  · intro S p hp hb _
    obtain rfl : p = 0 := by omega
    refine ⟨fun j hj => ?_, fun b hb => ?_⟩
    · obtain rfl : j = 0 := by omega
      intro k hk
      obtain rfl | rfl : k = 0 ∨ k = 1 := by omega
      · refine ⟨⟨under ?_, over ?_⟩, ?_⟩
        · show 1 * (x.vec 0).val = 0 ∨ 1 / 4 ≤ |1 * (x.vec 0).val|
          rw [one_mul]; exact h
        · show |1 * (x.vec 0).val| ≤ 32
          rw [one_mul]; linarith
        · show NoOver (0 - rnd53 (1 * (x.vec 0).val))
          rw [one_mul, zero_sub]
          exact over (by rw [abs_neg]; linarith)
      · refine ⟨zero_mulOk _, ?_⟩
        show SubOk (0 - 1 * x.vec 0) (0 * x.vec 1)
        rw [zero_mul_x]
        show NoOver (rnd53 (0 - rnd53 (1 * (x.vec 0).val)) - 0)
        rw [one_mul, zero_sub, sub_zero]
        exact over ((rnd_le_two (by rw [abs_neg]; exact hr)).trans (by norm_num))
    · obtain rfl : b = 0 := by omega
      exact ⟨fun k hk => absurd hk (by omega), fun k hk => absurd hk (by omega), fun h => absurd h (by omega), fun h => absurd h (by omega)⟩
  · intro S p v hp hb _ _ hv
    obtain rfl : p = 0 := by omega
    refine ⟨fun i hi => absurd hi (by omega), fun k hk i hi j hj => ?_⟩
    obtain rfl : i = 0 := by omega
    obtain rfl : j = 0 := by omega
    rw [hv.1]
    have m11 : MulOk (1 : Fl bin53) 1 := ⟨under (by show (1 : ℝ) * 1 = 0 ∨ 1 / 4 ≤ |(1 : ℝ) * 1|; right; norm_num),
      over (by show |(1 : ℝ) * 1| ≤ 32; norm_num)⟩
    obtain rfl | rfl : k = 0 ∨ k = 1 := by omega
    · show MulOk 1 1 ∧ MulOk (1 * 1) 1 ∧ AddOk 0 (1 * 1 * 1)
      rw [one_mul_one, one_mul_one]
      exact ⟨m11, m11, over (by show |(0 : ℝ) + 1| ≤ 32; norm_num)⟩
    · show MulOk 1 0 ∧ MulOk (1 * 0) 1 ∧ AddOk 0 (1 * 0 * 1)
      rw [one_mul_zero, zero_mul_x]
      exact ⟨mulOk_zero _, zero_mulOk _, addOk_zero⟩

/-- the first query gives the cut `x₀ ≤ 0` -/
theorem first : ∃ o', (lmi : LMIOracle (Fl bin53)).assess (disc : Ell (Fl bin53)).xc = .ok (some cut, o') ∧
    o'.matF = (lmi : LMIOracle (Fl bin53)).matF ∧ o'.matB = (lmi : LMIOracle (Fl bin53)).matB := by
  have hA : ∀ i j, j ≤ i → i < 1 → (lmi : LMIOracle (Fl bin53)).elem (disc : Ell (Fl bin53)).xc i j = .ok 0 := by
    intro i j hj hi
    obtain rfl : i = 0 := by omega
    obtain rfl : j = 0 := by omega
    show Res.ok (0 - 1 * 0 - 0 * 0 : Fl bin53) = .ok 0
    rw [one_mul_zero, zero_mul_x, z00, z00]
  obtain ⟨S, hS⟩ := ldlEnd (A := fun _ _ => 0) (sized (α := Fl bin53)) hA
  have hle : Scalar.le (0 : Fl bin53) 0 = true := decide_eq_true (le_refl (0 : ℝ))
  rcases hS with ⟨m', h, hs, hB, hp⟩ | ⟨p, v, m1, m2, h, hw, hs, hpn, hB, hp, hpp, hv, hq⟩
  · have e : S 0 0 = 0 := (hB 0 (by omega)).1 0 le_rfl
    have := hp 0 (by omega)
    rw [e, hle] at this
    cases this
  · obtain rfl : p = 0 := by omega
    have e : S 0 0 = 0 := (hB 0 (by omega)).1 0 le_rfl
    rw [e, show (-(0 : Fl bin53)) = 0 from Fl.ext neg_zero] at hw
    have q0 := hq ⟨[1], 1, 1⟩ _ (Arr.IsMatShape.isMat ⟨rfl, rfl, rfl⟩)
    have q1 := hq ⟨[0], 1, 1⟩ _ (Arr.IsMatShape.isMat ⟨rfl, rfl, rfl⟩)
    rw [show quadTo (0 + 1) v (⟨[1], 1, 1⟩ : Arr (Fl bin53)).mat (0 + 1) = 0 + v 0 * 1 * v 0 from rfl, hv.1, one_mul_one, one_mul_one,
      zero_add_one] at q0
    rw [show quadTo (0 + 1) v (⟨[0], 1, 1⟩ : Arr (Fl bin53)).mat (0 + 1) = 0 + v 0 * 0 * v 0 from rfl, hv.1, one_mul_zero, zero_mul_x,
      zero_add_zero] at q1
    refine ⟨{ (lmi : LMIOracle (Fl bin53)) with mgr := m2 }, ?_, rfl, rfl⟩
    · unfold LMIOracle.assess
      rw [h]
      simp only [Res.ok_bind, Bool.false_eq_true, if_false, hw]
      have hg : lmiGrad m2 (lmi : LMIOracle (Fl bin53)).matF (disc : Ell (Fl bin53)).xc.len = .ok ⟨[1, 0], 2, 0⟩ := by
        have s1 : (nthMat (lmi : LMIOracle (Fl bin53)).matF 0 >>= fun f => m2.symQuad f >>= fun v => (Arr.new 2).setIdx 0 v) =
            .ok ⟨[1, 0], 2, 0⟩ := by
          show (m2.symQuad ⟨[1], 1, 1⟩ >>= fun v => (Arr.new 2).setIdx 0 v) = _
          rw [q0]; rfl
        have s2 : (nthMat (lmi : LMIOracle (Fl bin53)).matF 1 >>= fun f => m2.symQuad f >>= fun v =>
            (⟨[1, 0], 2, 0⟩ : Arr (Fl bin53)).setIdx 1 v) = .ok ⟨[1, 0], 2, 0⟩ := by
          show (m2.symQuad ⟨[0], 1, 1⟩ >>= fun v => (⟨[1, 0], 2, 0⟩ : Arr (Fl bin53)).setIdx 1 v) = _
          rw [q1]; rfl
        unfold lmiGrad
        rw [show (disc : Ell (Fl bin53)).xc.len = 2 from rfl, forRange_succ (by norm_num), s1]
        simp only [Res.ok_bind]
        rw [forRange_succ (by norm_num), s2]
        simp only [Res.ok_bind]
        rw [forRange_self]
      rw [hg]
      rfl

/-- after the first cut the centre is inside, by how much -/
theorem second : ∃ e', Ell.space.updateBias (disc : Ell (Fl bin53)) cut = .ok (.success, e') ∧ e'.tsq = 1 ∧ e'.xc.IsVecShape 2 ∧
    (e'.xc.vec 0).val ≤ -(1 / 4) ∧ -2 ≤ (e'.xc.vec 0).val := by
  have hc : CutType.call .bias (cut (α := Fl bin53)).2 (disc : Ell (Fl bin53)).helper ((disc : Ell (Fl bin53)).kappa *
      Ell.om 2 (disc : Ell (Fl bin53)).mq.mat (cut (α := Fl bin53)).1.vec) =
      (.success, 1 / (EllCalc.new 2 : EllCalc (Fl bin53)).helper.nPlus1,
        nat 2 * (1 / (EllCalc.new 2 : EllCalc (Fl bin53)).helper.nPlus1) / 1, (EllCalc.new 2 : EllCalc (Fl bin53)).helper.cst1 * 1) := by
    rw [om1, show (disc : Ell (Fl bin53)).kappa = 1 from rfl, one_mul_one]
    exact call_eq
  have := Ell.updateCore_spec (e := (disc : Ell (Fl bin53))) (n := 2) (grad := (cut (α := Fl bin53)).1)
    (Arr.IsMatShape.isMat ⟨rfl, rfl, rfl⟩) (Arr.IsVecShape.isVec ⟨rfl, rfl, rfl⟩) (Arr.IsVecShape.isVec ⟨rfl, rfl, rfl⟩) (by norm_num)
    (CutType.call .bias (cut (α := Fl bin53)).2 (disc : Ell (Fl bin53)).helper) hc
  rcases this with ⟨h1, -⟩ | ⟨-, r, h1, -, h2, -, -, -, h4⟩
  · exact absurd rfl h1
  · have h3 : Ell.space.updateBias (disc : Ell (Fl bin53)) cut = .ok (.success, r) := h1
    refine ⟨r, h3, by rw [h4, om1, show (disc : Ell (Fl bin53)).kappa = 1 from rfl, one_mul_one], h2.shape, ?_⟩
    have e1 := h2.get 0 (by norm_num)
    have e2 := h2.shape.isVec.get 0 (by norm_num)
    rw [e1] at e2
    rw [← Option.some.inj e2, w0, om1]
    have pr := ((Pw.one.div consts.1).div Pw.one).mul Pw.one
    obtain ⟨p1, p2⟩ := pr
    have a1 : (2 : ℝ) ^ (-2 : ℤ) = 1 / 4 := by norm_num
    have a2 : (2 : ℝ) ^ (1 : ℤ) = 2 := by norm_num
    obtain ⟨t, ht⟩ : ∃ t, t = (1 / (EllCalc.new 2 : EllCalc (Fl bin53)).helper.nPlus1 / 1 * 1 : Fl bin53).val := ⟨_, rfl⟩
    rw [← ht] at p1 p2
    norm_num at p1 p2
    constructor
    · show rnd53 (0 - (1 / (EllCalc.new 2 : EllCalc (Fl bin53)).helper.nPlus1 / 1 * 1 : Fl bin53).val) ≤ _
      rw [← ht]
      have h6 := rnd53_mono (0 - t) (-(2 : ℝ) ^ (-2 : ℤ)) (by
        rw [a1]; linarith)
      rw [rnd53_neg_pow, a1] at h6
      exact h6
    · show _ ≤ rnd53 (0 - (1 / (EllCalc.new 2 : EllCalc (Fl bin53)).helper.nPlus1 / 1 * 1 : Fl bin53).val)
      rw [← ht]
      have h6 := rnd53_mono (-(2 : ℝ) ^ (1 : ℤ)) (0 - t) (by
        rw [a2]; linarith)
      rw [rnd53_neg_pow, a2] at h6
      exact h6

/-- the second query accepts -/
theorem accepts {o : LMIOracle (Fl bin53)} (hF : o.matF = (lmi : LMIOracle (Fl bin53)).matF)
    (hB : o.matB = (lmi : LMIOracle (Fl bin53)).matB) (hm : o.mgr.Sized 1) {x : Arr (Fl bin53)} (hx : x.IsVecShape 2) (h : (x.vec 0).val ≤ -(1 / 4)) :
    ∃ o', o.assess x = .ok (none, o') := by
  have hA : ∀ i j, j ≤ i → i < 1 → o.elem x i j = .ok (ent x) := by
    intro i j hj hi
    obtain rfl : i = 0 := by omega
    obtain rfl : j = 0 := by omega
    rw [LMIOracle.elem_generic (n := 1) (by rw [hF]; exact lmi_same.mats.shape) (by rw [hB]; exact ⟨rfl, rfl, rfl⟩)
      (by rw [hx.isVec.len', hF]; exact le_refl 2) (by omega) (by omega), hx.isVec.len', hF, hB]
    rfl
  have hpos : 1 / 4 ≤ (ent x).val := by
    have a1 : (2 : ℝ) ^ (-2 : ℤ) = 1 / 4 := by norm_num
    show _ ≤ (0 - 1 * x.vec 0 - 0 * x.vec 1 : Fl bin53).val
    rw [zero_mul_x]
    show _ ≤ rnd53 (rnd53 (0 - rnd53 (1 * (x.vec 0).val)) - 0)
    rw [one_mul, sub_zero, zero_sub]
    have h1 := rnd53_mono _ _ h
    rw [← a1, rnd53_neg_pow] at h1
    have h2 := rnd53_mono ((2 : ℝ) ^ (-2 : ℤ)) (-rnd53 (x.vec 0).val) (by linarith)
    rw [rnd53_pow] at h2
    have h3 := rnd53_mono _ _ h2
    rw [rnd53_pow, a1] at h3
    exact h3
  have hle : Scalar.le (ent x) 0 = false := decide_eq_false (by
    show ¬ (ent x).val ≤ 0
    linarith)
  obtain ⟨S, hS⟩ := ldlEnd (A := fun _ _ => ent x) hm hA
  unfold LMIOracle.assess
  rcases hS with ⟨m', h, hs, hB, hp⟩ | ⟨p, v, m1, m2, h, hw, hs, hpn, hB, hp, hpp, hv, hq⟩
  · rw [h]
    exact ⟨_, rfl⟩
  · obtain rfl : p = 0 := by omega
    have e : S 0 0 = ent x := (hB 0 (by omega)).1 0 le_rfl
    rw [e, hle] at hpp
    cases hpp

theorem start : ((disc : Ell (Fl bin53)).xc.IsVecShape 2) ∧ (lmi : LMIOracle (Fl bin53)).Safe 1 2 (disc : Ell (Fl bin53)).xc :=
  ⟨⟨rfl, rfl, rfl⟩, safe rfl rfl (.inl rfl) (by show |(0 : ℝ)| ≤ 2; norm_num)⟩

/-- the two steps of the run in arithmetic rounded to 53 bits -/
theorem steps : ∃ o' e' o'', (lmi : LMIOracle (Fl bin53)).assess (disc : Ell (Fl bin53)).xc = .ok (some cut, o') ∧
    Ell.space.updateBias (disc : Ell (Fl bin53)) cut = .ok (.success, e') ∧ e'.tsq = 1 ∧ e'.xc.IsVecShape 2 ∧
    (e'.xc.vec 0).val ≤ -(1 / 4) ∧ -2 ≤ (e'.xc.vec 0).val ∧ o'.Safe 1 2 e'.xc ∧ o'.assess e'.xc = .ok (none, o'') := by
  obtain ⟨o', h1, h2, h3⟩ := first
  obtain ⟨e', k0, kt, k1, k2, k3⟩ := second
  have hsz := C124_lmi_oracle lmi lmi (disc : Ell B64).xc (disc : Ell (Fl bin53)).xc lmi_same disc_same.xc start
  have hm : o'.mgr.Sized 1 := by
    rw [show LMIOracle.oracle.assess lmi (disc : Ell (Fl bin53)).xc = _ from h1] at hsz
    cases hB : LMIOracle.oracle.assess (lmi : LMIOracle B64) (disc : Ell B64).xc with
    | panic => rw [hB] at hsz; exact hsz.elim
    | ok q => rw [hB] at hsz; exact hsz.2.mgr'
  have hab : |(e'.xc.vec 0).val| ≤ 2 := abs_le.2 ⟨k3, by linarith⟩
  have hab2 : 1 / 4 ≤ |(e'.xc.vec 0).val| := by rw [abs_of_nonpos (by linarith)]; linarith
  obtain ⟨o'', h4⟩ := accepts h2 h3 hm k1 k2
  exact ⟨o', e', o'', h1, k0, kt, k1, k2, k3, safe h2 h3 (.inr hab2) hab, h4⟩

theorem run_safe : FeasSafe LMIOracle.oracle 2 (fun o x => x.IsVecShape 2 ∧ o.Safe 1 2 x) (0 : Fl bin53) 20 lmi disc := by
  obtain ⟨o', e', o'', h1, h2, h3, h4, h5, h6, h7, h8⟩ := steps
  refine ⟨start, fun c w' h => ?_⟩
  have h' : (lmi : LMIOracle (Fl bin53)).assess (disc : Ell (Fl bin53)).xc = .ok (some c, w') := h
  rw [h1] at h'
  injection h' with h'
  injection h' with h' h''
  injection h' with h'
  subst h'
  subst h''
  refine ⟨⟨rfl, rfl, rfl⟩, update_safe, fun e h _ => ?_⟩
  rw [h2] at h
  injection h with h
  injection h with _ h
  subst h
  refine ⟨⟨h4, h7⟩, fun c w'' ha => ?_⟩
  rw [show LMIOracle.oracle.assess o' e'.xc = _ from h8] at ha
  injection ha with ha
  injection ha with ha
  cases ha

theorem run_fl : ∃ x o e, cuttingPlaneFeas LMIOracle.oracle Ell.space (lmi : LMIOracle (Fl bin53)) (disc : Ell (Fl bin53)) ⟨20, 0⟩ =
    .ok ((some x, 1), o, e) ∧ x.IsVecShape 2 ∧ |(x.vec 0).val| ≤ 2 := by
  obtain ⟨o', e', o'', h1, h2, h3, h4, h5, h6, h7, h8⟩ := steps
  refine ⟨e'.xc, o'', e', ?_, h4, abs_le.2 ⟨h6, by linarith⟩⟩
  have ht : Scalar.lt (1 : Fl bin53) 0 = false := decide_eq_false (by show ¬ (1 : ℝ) < 0; norm_num)
  unfold cuttingPlaneFeas
  simp only [feasLoop, LMIOracle.oracle, Ell.space] at h2 ⊢
  simp only [h1, Res.ok_bind, h2, h3, ht, h8]
  rfl

/-- C124: in IEEE-754 `f64` the run makes one cut and returns a point with `-x₀ + 2⁻⁴⁸ > 0`, computed with finite numbers -/
example : ∃ x o e, cuttingPlaneFeas LMIOracle.oracle Ell.space (lmi : LMIOracle B64) (disc : Ell B64) ⟨20, 0⟩ = .ok ((some x, 1), o, e) ∧
    (∀ y ∈ x.data, y.Finite) ∧ (lmiMat64 2 1 (lmi : LMIOracle B64).matF (lmi : LMIOracle B64).matB x +
      (4 * (1 : Nat) * (1 + 2 + 1 : Nat) * (2 : ℝ) ^ (-53 : ℤ) * 2) • (1 : Matrix (Fin 1) (Fin 1) ℝ)).PosDef := by
  obtain ⟨x', o', e', h1, h2, h3⟩ := run_fl
  have hs : (disc : Ell (Fl bin53)).Shaped 2 := ⟨⟨rfl, rfl, rfl⟩, ⟨rfl, rfl, rfl⟩⟩
  have hr := C109_feas LMIOracle.oracle LMIOracle.oracle (LMIOracle.Same64 2 1) _ C124_lmi_oracle ⟨20, 0⟩ ⟨20, 0⟩ Same.zero rfl
    (by norm_num : 0 < 2) lmi lmi disc disc lmi_same disc_same hs run_safe
  rw [h1] at hr
  cases hb : cuttingPlaneFeas LMIOracle.oracle Ell.space (lmi : LMIOracle B64) (disc : Ell B64) ⟨20, 0⟩ with
  | panic => rw [hb] at hr; exact hr.elim
  | ok q =>
    rw [hb] at hr
    obtain ⟨⟨x0, k⟩, o, e⟩ := q
    obtain ⟨hx, hk, -, -⟩ := hr
    cases x0 with
    | none => exact hx.elim
    | some x =>
      have hx : x.Same x' := hx
      have hk : k = 1 := hk
      subst hk
      have hxs := hx.vecShape h2
      refine ⟨x, o, e, rfl, C124_lmi_run (opts' := ⟨20, 0⟩) lmi_same ?_ ?_ (by norm_num) (by norm_num)
        disc_same hs Same.zero rfl run_safe hb hxs ?_⟩
      · intro f hf
        ext i j
        rw [Subsingleton.elim i j]
        rfl
      · ext i j
        rw [Subsingleton.elim i j]
        rfl
      · intro i j
        have ei : i = 0 := Subsingleton.elim _ _
        have ej : j = 0 := Subsingleton.elim _ _
        subst ei ej
        unfold lmiSize64
        rw [Fin.sum_univ_two]
        have e1 : (x.vec64 2 0) = (x'.vec 0).val := (hx.vec h2 0 (by norm_num)).2
        have e2 : ((lmi : LMIOracle B64).matB.mat64 1 0 0) = 0 := rfl
        have e3 : (((lmi : LMIOracle B64).matF.getD (0 : Fin 2) (Arr.new 0)).mat64 1 0 0) = 1 := Same.one.2
        have e4 : (((lmi : LMIOracle B64).matF.getD (1 : Fin 2) (Arr.new 0)).mat64 1 0 0) = 0 := rfl
        rw [e1, e2, e3, e4]
        simpa using h3

/-- the oracle's first answer in `f64` is the cut of the rounded run -/
example : ∃ g c o', (lmi : LMIOracle B64).assess (disc : Ell B64).xc = .ok (some (g, c), o') ∧
    g.Same (⟨[1, 0], 2, 0⟩ : Arr (Fl bin53)) ∧ Same c.beta 0 := by
  obtain ⟨o', h1, -, -⟩ := first
  have h := C124_lmi_oracle lmi lmi (disc : Ell B64).xc (disc : Ell (Fl bin53)).xc lmi_same disc_same.xc start
  rw [show LMIOracle.oracle.assess lmi (disc : Ell (Fl bin53)).xc = _ from h1] at h
  cases hB : LMIOracle.oracle.assess (lmi : LMIOracle B64) (disc : Ell B64).xc with
  | panic => rw [hB] at h; exact h.elim
  | ok q =>
    rw [hB] at h
    obtain ⟨r, o1⟩ := q
    cases r with
    | none => exact h.1.elim
    | some c => exact ⟨c.1, c.2, o1, hB, h.1.1, h.1.2⟩

/-- the same of the eager oracle -/
example : Res.Rel (fun p q => OptRel SameCut p.1 q.1 ∧ LMIOracle.Same64 2 1 p.2 q.2) ((lmi : LMIOracle B64).assessOld (disc : Ell B64).xc)
    ((lmi : LMIOracle (Fl bin53)).assessOld (disc : Ell (Fl bin53)).xc) :=
  C124_lmi_old_oracle lmi lmi _ _ lmi_same disc_same.xc start

/-- the homogeneous inequality `1 x₀ > 0` at `x₀ = 1` -/
def lmi0 {α : Type} [Scalar α] : LMI0Oracle α := ⟨[⟨[1], 1, 1⟩], LDLTMgr.new 1⟩

example : Res.Rel (fun p q => OptRel (fun c c' => c.1.Same c'.1 ∧ Same c.2 c'.2) p.1 q.1 ∧ LMI0Oracle.Same64 1 1 p.2 q.2)
    ((lmi0 : LMI0Oracle B64).assess ⟨[1], 1, 0⟩) ((lmi0 : LMI0Oracle (Fl bin53)).assess ⟨[1], 1, 0⟩) := by
  have m11 : MulOk (1 : Fl bin53) 1 := ⟨under (by show (1 : ℝ) * 1 = 0 ∨ 1 / 4 ≤ |(1 : ℝ) * 1|; right; norm_num),
    over (by show |(1 : ℝ) * 1| ≤ 32; norm_num)⟩
  have a01 : AddOk (0 : Fl bin53) 1 := over (by show |(0 : ℝ) + 1| ≤ 32; norm_num)
  refine C124_lmi0_oracle (d := 1) (n := 1) ⟨⟨.cons ⟨rfl, rfl, .cons .one .nil⟩ .nil, rfl, ?_⟩, ⟨rfl, ⟨rfl, rfl, rfl⟩, ⟨rfl, rfl, rfl⟩⟩,
    ⟨rfl, ⟨rfl, rfl, rfl⟩, ⟨rfl, rfl, rfl⟩⟩⟩ ⟨rfl, rfl, .cons .one .nil⟩ ⟨rfl, rfl, rfl⟩ ⟨?_, ?_⟩
  · intro f hf
    simp only [lmi0, List.mem_cons, List.not_mem_nil, or_false] at hf
    subst hf
    exact ⟨rfl, rfl, rfl⟩
  · intro S p hp hb _
    obtain rfl : p = 0 := by omega
    refine ⟨fun j hj => ?_, fun b hb => ?_⟩
    · obtain rfl : j = 0 := by omega
      refine ⟨fun k hk => ?_, fun k hk => ?_⟩
      · obtain rfl : k = 0 := by omega
        exact m11
      · obtain rfl : k = 0 := by omega
        show AddOk 0 (1 * 1)
        rw [one_mul_one]; exact a01
    · obtain rfl : b = 0 := by omega
      exact ⟨fun k hk => absurd hk (by omega), fun k hk => absurd hk (by omega), fun h => absurd h (by omega), fun h => absurd h (by omega)⟩
  · intro S p v hp hb _ _ hv
    obtain rfl : p = 0 := by omega
    refine ⟨fun i hi => absurd hi (by omega), fun k hk i hi j hj => ?_⟩
    obtain rfl : i = 0 := by omega
    obtain rfl : j = 0 := by omega
    obtain rfl : k = 0 := by omega
    rw [hv.1]
    show MulOk 1 1 ∧ MulOk (1 * 1) 1 ∧ AddOk 0 (1 * 1 * 1)
    rw [one_mul_one, one_mul_one]
    exact ⟨m11, m11, a01⟩

end Ellalgo.ExLmi64
