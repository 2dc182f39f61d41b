import Verif.Props.NanRuns
import Verif.Props.CheckedProps

/-! Concrete cases for C81.  Checked arithmetic (`Chk`, real numbers plus one undefined value) satisfies the laws; the
ellipsoids below are what the public constructors and one public update produce. -/

namespace Ellalgo
open Matrix

/-- the undefined value of checked arithmetic obeys the laws of NaN -/
theorem chk_nan : NanLaws (fun a : Chk => a = .bad) where
  add_left := by rintro _ rfl b; cases b <;> rfl
  add_right := by rintro a _ rfl; cases a <;> rfl
  sub_left := by rintro _ rfl b; cases b <;> rfl
  sub_right := by rintro a _ rfl; cases a <;> rfl
  mul_left := by rintro _ rfl b; cases b <;> rfl
  mul_right := by rintro a _ rfl; cases a <;> rfl
  div_left := by rintro _ rfl b; cases b <;> rfl
  div_right := by rintro a _ rfl; cases a <;> rfl
  neg := by rintro _ rfl; rfl
  sqrt := by rintro _ rfl; rfl
  exp := by rintro _ rfl; rfl
  ln := by rintro _ rfl; rfl
  abs := by rintro _ rfl; rfl
  round := by rintro _ rfl; rfl
  lt_left := by rintro _ rfl b; cases b <;> rfl
  lt_right := by rintro a _ rfl; cases a <;> rfl
  le_left := by rintro _ rfl b; cases b <;> rfl
  le_right := by rintro a _ rfl; cases a <;> rfl
  beq_left := by rintro _ rfl b; cases b <;> rfl
  ltInf := by rintro _ rfl; rfl
  gtNegInf := by rintro _ rfl; rfl

/-- `Ell::new_with_matrix(NaN, I, [0, 0])` -/
noncomputable def nanEll : Ell Chk :=
  Ell.newWithMatrix .bad ⟨[.val 1, .val 0, .val 0, .val 1], 2, 2⟩ (Arr.ofList [.val 0, .val 0])

theorem nanEll_shaped : nanEll.Shaped 2 := ⟨⟨rfl, rfl, rfl⟩, rfl, rfl, rfl⟩
theorem nanEll_spoilt : nanEll.Spoilt (fun a : Chk => a = .bad) := Or.inl rfl

/-- a healthy ellipsoid, spoilt by one cut with a NaN gradient entry -/
example : ∃ e', Ell.space.update .bias
    (Ell.newWithMatrix (.val 1) ⟨[.val 1, .val 0, .val 0, .val 1], 2, 2⟩ (Arr.ofList [.val 0, .val 0]))
    (Arr.ofList [.bad, .val 1], (⟨.val 0⟩ : SingleCut Chk)) = .ok (.success, e') ∧ e'.Shaped 2 ∧
    e'.xc.AllNan (fun a : Chk => a = .bad) ∧ e'.Spoilt fun a : Chk => a = .bad :=
  C81_nan_cut_succeeds chk_nan (n := 2) (by omega) _ _ ⟨⟨rfl, rfl, rfl⟩, rfl, rfl, rfl⟩ _ ⟨rfl, rfl, rfl⟩ _
    (Or.inl ⟨.bad, by simp [Arr.ofList], rfl⟩)

/-- a parallel cut whose second offset is a NaN -/
example : ∃ e', Ell.space.update .q
    (Ell.newWithMatrix (.val 1) ⟨[.val 1, .val 0, .val 0, .val 1], 2, 2⟩ (Arr.ofList [.val 0, .val 0]))
    (Arr.ofList [.val 1, .val 1], (⟨.val 0, some .bad⟩ : ParallelCut Chk)) = .ok (.success, e') ∧ e'.Shaped 2 ∧
    e'.xc.AllNan (fun a : Chk => a = .bad) ∧ e'.Spoilt fun a : Chk => a = .bad := by
  rcases C81_nan_parallel_cut chk_nan (n := 2) (by omega) .q
    (Ell.newWithMatrix (.val 1) ⟨[.val 1, .val 0, .val 0, .val 1], 2, 2⟩ (Arr.ofList [.val 0, .val 0]))
    ⟨⟨rfl, rfl, rfl⟩, rfl, rfl, rfl⟩ (Arr.ofList [.val 1, .val 1]) ⟨rfl, rfl, rfl⟩ (.val 0) .bad
    (Or.inr (Or.inr (Or.inr ⟨rfl, rfl⟩))) with ⟨h, -⟩ | ⟨-, h⟩
  · have : Scalar.lt Chk.bad (if UpdateKind.q = .central then 0 else Chk.val 0) = false := chk_nan.lt_left rfl _
    rw [this] at h; simp at h
  · exact h

example : ∃ tr, Ell.space.run nanEll
    [(.central, Arr.ofList [.val 1, .val 0], (⟨.val 0⟩ : SingleCut Chk)), (.bias, Arr.ofList [.val 0, .val 1], ⟨.val 5⟩)] =
    .ok tr ∧ tr.length = 2 ∧
    ∀ p ∈ tr, p.1 = .success ∧ p.2.xc.AllNan (fun a : Chk => a = .bad) ∧ p.2.Spoilt fun a : Chk => a = .bad :=
  C81_nan_is_permanent chk_nan (by omega) nanEll nanEll_shaped nanEll_spoilt _ (by
    intro c hc
    simp only [List.mem_cons, List.not_mem_nil, or_false] at hc
    rcases hc with rfl | rfl <;> exact ⟨rfl, rfl, rfl⟩)

/-- example 1 on the spoilt ellipsoid: the "best point" is made of NaN -/
example : ∃ x γ' e', cuttingPlaneOptim ex1Oracle Ell.space () nanEll (.val (-1)) ⟨2000, .val 0⟩ =
    .ok ((some x, 2000), γ', (), e') ∧ x.AllNan fun a : Chk => a = .bad :=
  C81_example1_answer_is_nan chk_nan nanEll nanEll_shaped nanEll_spoilt _ ⟨2000, .val 0⟩ (by norm_num)

/-- The matrix inequality `x·0 ≤ -1`, which no number satisfies, -/
noncomputable def nanLmi : LMIOracle Chk := LMIOracle.new [⟨[.val 0], 1, 1⟩] ⟨[.val (-1)], 1, 1⟩

/-- on a spoilt one-dimensional ellipsoid: reported feasible after one cut. -/
example : ∃ x o' e', cuttingPlaneFeas LMIOracle.oracle Ell.space nanLmi
      (Ell.newWithMatrix .bad ⟨[.val 1], 1, 1⟩ (Arr.ofList [.val 0])) ⟨10, .val 0⟩ = .ok ((some x, 1), o', e') ∧
      x.AllNan fun a : Chk => a = .bad := by
  set e : Ell Chk := Ell.newWithMatrix .bad ⟨[.val 1], 1, 1⟩ (Arr.ofList [.val 0]) with hed
  have hs : e.Shaped 1 := ⟨⟨rfl, rfl, rfl⟩, rfl, rfl, rfl⟩
  have hsp : e.Spoilt (fun a : Chk => a = .bad) := Or.inl rfl
  have ho : nanLmi.Fits 1 1 :=
    ⟨by intro f hf; simp [nanLmi, LMIOracle.new] at hf; subst hf; exact ⟨rfl, rfl, rfl⟩, ⟨rfl, rfl, rfl⟩, rfl,
      ⟨rfl, rfl, rfl⟩, le_rfl⟩
  have hle : Scalar.le (Chk.val (-1)) (Chk.val 0) = true := by simp
  have hq : ∃ g b o1, nanLmi.assess e.xc = .ok (some (g, b), o1) := by
    simp [hed, nanLmi, LMIOracle.assess, LDLTMgr.factor, LDLTMgr.factorLoop, LDLTMgr.factorRow, LMIOracle.elem, LMIOracle.new,
      LDLTMgr.new, Arr.new, Arr.zeros, Arr.get, Arr.idx, Arr.setIdx, Arr.is2d, forRange, forN, nthMat, Res.ofOption, Arr.len,
      Arr.ofList, Ell.newWithMatrix, LDLTMgr.isSpd, LDLTMgr.witness, forDown, forDownN, lmiGrad, LDLTMgr.symQuad, Res.assert,
      hle]
  obtain ⟨g, b, o1, hq⟩ := hq
  have hg : g.IsVecShape 1 := LMIOracle.assess_grad_shape hq
  obtain ⟨e1, h1, h2, h3, h4, h5⟩ := Ell.spoilt_step chk_nan (by omega : 0 < 1) .bias e hs hsp g hg b
  have h1 : (Ell.space (T := SingleCut Chk)).updateBias e (g, b) = .ok (.success, e1) := h1
  obtain ⟨o2, h6, -⟩ := C81_lmi_accepts_nan chk_nan o1 (ho.assess hq) e1.xc h2.2
    (h2.2.isVec.someNan.2 ⟨0, by omega, h3 _ (List.mem_of_getElem? (h2.2.isVec.get 0 (by omega)))⟩)
  have hrun : cuttingPlaneFeas LMIOracle.oracle Ell.space nanLmi e ⟨10, .val 0⟩ = .ok ((some e1.xc, 1), o2, e1) := by
    have hq : (LMIOracle.oracle (α := Chk)).assess nanLmi ((Ell.space (T := SingleCut Chk)).xc e) = .ok (some (g, b), o1) := hq
    have h6 : (LMIOracle.oracle (α := Chk)).assess o1 ((Ell.space (T := SingleCut Chk)).xc e1) = .ok (none, o2) := h6
    have hlt : Scalar.lt ((Ell.space (T := SingleCut Chk)).tsq e1) (.val 0) = false := chk_nan.lt_left h5 _
    simp only [cuttingPlaneFeas, feasLoop, hq, Res.ok_bind, h1, hlt, bne_self_eq_false, Bool.or_self, Bool.false_eq_true,
      if_false, h6]
    rfl
  rcases C81_lmi_run_reports_feasible chk_nan (by omega) nanLmi ho e hs hsp ⟨10, .val 0⟩ (by norm_num) _ _ _ _ hrun with
    ⟨-, h⟩ | ⟨x, -, -, hx⟩
  · simp at h
  · exact ⟨e1.xc, o2, e1, hrun, h3⟩

/-- the other oracles at a point made of NaN -/
example : ∃ γ', ex1Assess () (Arr.ofList [Chk.bad, .bad]) (.val 0) = .ok (((Arr.ofList [-1, -1], ⟨0⟩), true), γ', ()) ∧
    γ' = Chk.bad :=
  (C81_examples_accept_nan chk_nan (Arr.ofList [Chk.bad, .bad]) ⟨rfl, rfl, rfl⟩ (by intro v hv; simpa [Arr.ofList] using hv)
    (.val 0)).1

example : (SvmOracle.new (⟨[Chk.val 1, .val (-1)], 2, 1⟩) [1, -1]).assess (Arr.ofList [.bad, .bad]) (.val 7) =
    .ok (((Arr.new 2, ⟨0⟩), true), 0, SvmOracle.new (⟨[Chk.val 1, .val (-1)], 2, 1⟩) [1, -1]) :=
  C81_svm_accepts_nan chk_nan (by omega : 0 < 1) (SvmOracle.new (⟨[Chk.val 1, .val (-1)], 2, 1⟩) [1, -1]) ⟨rfl, rfl, rfl⟩ rfl rfl
    (Arr.ofList [.bad, .bad]) ⟨rfl, rfl, rfl⟩ (by intro v hv; simpa [Arr.ofList] using hv) _

example : ∃ g γ' o', (ProfitOracle.new (Chk.val 20) (.val 40) (.val 30) (Arr.ofList [.val 1, .val 1])
      (Arr.ofList [.val 10, .val 35])).assess (Arr.ofList [.bad, .bad]) (.val 0) = .ok (((g, ⟨0⟩), true), γ', o') ∧
    g.AllNan (fun a : Chk => a = .bad) ∧ γ' = .bad :=
  C81_profit_accepts_nan chk_nan _ (by simp [ProfitOracle.new]) (by simp [ProfitOracle.new]) ⟨rfl, rfl, rfl⟩ ⟨rfl, rfl, rfl⟩ _
    ⟨rfl, rfl, rfl⟩ (by intro v hv; simpa [Arr.ofList] using hv) _

/-- a low-pass oracle with three grid points -/
noncomputable def nanLowpass : LowpassOracle Chk :=
  { moreAlt := true, idx1 := -1, spectrum := [Arr.ofList [.val 1], Arr.ofList [.val 1], Arr.ofList [.val 1]], nwpass := 1,
    nwstop := 2, lpSq := .val 1, upSq := .val 2, spSq := .val 1, idx2 := 0, idx3 := 1, fmax := none, kmax := -1 }

example : (∃ o', nanLowpass.assessFeas (Arr.ofList [.bad]) = .ok (none, o')) ∧
    nanLowpass.assess (Arr.ofList [.bad]) (.val 1) = .panic :=
  C81_lowpass_on_nan chk_nan (by omega : 0 < 1) nanLowpass
    ⟨by intro c hc; simp [nanLowpass] at hc; subst hc; exact ⟨rfl, rfl, rfl⟩, by simp [nanLowpass], by simp [nanLowpass],
      by simp [nanLowpass], by simp [nanLowpass], by simp [nanLowpass], by simp [nanLowpass], by simp [nanLowpass]⟩ _
    ⟨rfl, rfl, rfl⟩ (by intro v hv; simpa [Arr.ofList] using hv) _

/-- numerical routines -/
example : ∀ f ∈ [powerIteration, powerIteration2, powerIteration3, powerIteration4],
    ∃ l x', f (⟨[.val 2, .val 0, .val 0, .bad], 2, 2⟩ : Arr Chk) (Arr.ofList [.val 1, .val 0]) ⟨100, .val 0⟩ =
      .ok ((l, 100), x') ∧ l = .bad :=
  C81_power_on_nan chk_nan (⟨[.val 2, .val 0, .val 0, .bad], 2, 2⟩ : Arr Chk) (Arr.ofList [.val 1, .val 0]) ⟨rfl, rfl, rfl⟩ ⟨rfl, rfl, rfl⟩ 
    (Or.inl ⟨.bad, by simp, rfl⟩) ⟨100, .val 0⟩

example : conjugateGradient (⟨[.val 2, .val 0, .val 0, .val 1], 2, 2⟩ : Arr Chk) (Arr.ofList [.val 1, .bad]) none (.val 1) 100 =
    .ok (.error .maxIters) :=
  C81_cg_on_nan chk_nan (n := 2) _ _ none ⟨rfl, rfl, rfl⟩ ⟨rfl, rfl, rfl⟩ nofun
    (Or.inr (Or.inl ⟨.bad, by simp [Arr.ofList], rfl⟩)) _ _

example (orc : OracleBS Unit Chk) : bsearch orc () (.val 0, .bad) ⟨100, .val 1⟩ = .panic :=
  (C81_bsearch_on_nan chk_nan orc () _ _ _).1 (Or.inr rfl)

example : ∃ m', (LDLTMgr.new 2 : LDLTMgr Chk).factorize ⟨[.bad, .val 0, .val 0, .val (-1)], 2, 2⟩ = .ok (true, m') :=
  C81_ldlt_accepts_nan chk_nan (n := 2) (by omega) _ ⟨rfl, rfl, rfl⟩ _ rfl ⟨rfl, rfl, rfl⟩ (by
    intro v hv
    simpa [Arr.get, Arr.is2d, Arr.idx, Res.assert, eq_comm] using hv)

/-- an oracle that always rejects, by a cut that misses the unit disc -/
noncomputable def farOracle : OracleFeas Unit (Arr Chk) (SingleCut Chk) Chk :=
  ⟨fun w _ => .ok (some (Arr.ofList [.val 1, .val 0], ⟨.val 5⟩), w), fun w _ => .ok w⟩

/-- an early "no solution" -/
example : ∃ e', cuttingPlaneFeas farOracle Ell.space ()
      (Ell.newWithMatrix (.val 1) ⟨[.val 1, .val 0, .val 0, .val 1], 2, 2⟩ (Arr.ofList [.val 0, .val 0])) ⟨10, .val 0⟩ =
      .ok ((none, 0), (), e') ∧ e'.tsq ≠ .bad := by
  set e : Ell Chk := Ell.newWithMatrix (.val 1) ⟨[.val 1, .val 0, .val 0, .val 1], 2, 2⟩ (Arr.ofList [.val 0, .val 0]) with hed
  have hs : e.Shaped 2 := ⟨⟨rfl, rfl, rfl⟩, rfl, rfl, rfl⟩
  have hlt : Scalar.lt (Chk.val 1) (Chk.val 25) = true := by simp
  have hu : ∃ e', (Ell.space (T := SingleCut Chk)).updateBias e (Arr.ofList [.val 1, .val 0], ⟨.val 5⟩) = .ok (.noSoln, e') := by
    rcases hc : CutType.call .bias (⟨.val 5⟩ : SingleCut Chk) e.helper
      (e.kappa * Ell.om 2 e.mq.mat (Arr.ofList [Chk.val 1, .val 0]).vec) with ⟨st, ρ, σ, δ⟩
    have ht : e.kappa * Ell.om 2 e.mq.mat (Arr.ofList [Chk.val 1, .val 0]).vec = .val 1 := by
      simp [hed, Ell.newWithMatrix, Ell.om, Ell.gt, sumTo, Arr.vec, Arr.mat, Arr.ofList]
    have h25 : Chk.val 5 * Chk.val 5 = .val 25 := by rw [Chk.mul_val]; norm_num
    have hst : st = .noSoln := by
      have := congrArg Prod.fst hc
      rw [ht] at this
      simpa [CutType.call, CutType.callBias, EllCalc.calcBiasCut, h25, hlt] using this.symm
    have hg : (Arr.ofList [Chk.val 1, .val 0]).IsVecShape 2 := ⟨rfl, rfl, rfl⟩
    rcases Ell.updateCore_spec hs.1.isMat hs.2.isVec hg.isVec (by omega) _ hc with ⟨-, h⟩ | ⟨h, -⟩
    · rw [hst] at h; exact ⟨_, h⟩
    · rw [hst] at h; simp at h
  obtain ⟨e', hu⟩ := hu
  have hrun : cuttingPlaneFeas farOracle Ell.space () e ⟨10, .val 0⟩ = .ok ((none, 0), (), e') := by
    simp only [cuttingPlaneFeas, feasLoop, farOracle, Res.ok_bind, hu]
    rfl
  exact ⟨e', hrun, (C81_early_stop_is_not_nan chk_nan (by omega : 0 < 2) farOracle (by
    intro w x g c w' h
    simp only [farOracle, Res.ok.injEq, Prod.mk.injEq, Option.some.injEq] at h
    rw [← h.1.1]; exact ⟨rfl, rfl, rfl⟩) () e hs ⟨10, .val 0⟩ 0 () e' hrun (by norm_num)).2⟩

end Ellalgo
