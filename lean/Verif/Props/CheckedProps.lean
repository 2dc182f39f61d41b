import Verif.Lib.Checked
import Verif.Props.ConvergeExamples

/-! C69: in exact arithmetic no update divides by zero or takes the square root of a negative number. -/

namespace Ellalgo
open Matrix

variable {n : Nat} {Ω Ω' T T' : Type}

theorem Res.lift_ok {β γ : Type} (f : β → γ) (b : β) : (Res.ok b).map f = .ok (f b) := rfl

/-- an admissible update keeps the state valid, whatever the status -/
theorem Ell.valid_of_update [Cut T] {e : Ell ℝ} (he : e.Valid n) (k : UpdateKind) (cut : Arr ℝ × T)
    (hs : cut.1.IsVecShape n) (hg : cut.1.toVec n ≠ 0) (hadm : Cut.Adm n k cut.2 (e.tsqOf n (cut.1.toVec n)))
    {st : CutStatus} {e' : Ell ℝ} (h : Ell.space.update k e cut = .ok (st, e')) : e'.Valid n := by
  by_cases hst : st = .success
  · subst hst
    exact (Ell.step_good he k cut hs hg hadm h).1
  · obtain ⟨ρ, σ, δ, -, h2⟩ := Ell.update_real he.shaped he.symm he.pos k cut hs h
    rcases h2 with ⟨-, rfl⟩ | ⟨h2, -⟩
    · exact he.setTsq _
    · exact absurd h2 hst

/-! ### sequences of updates -/

theorem checked_run [Cut T] [CutType T' Chk] [LawfulLift T T'] (cuts : List (UpdateKind × Arr ℝ × T)) :
    ∀ (e : Ell ℝ), e.Valid n → Ell.AdmRun n e cuts →
    Ell.space.run e.lift (cuts.map fun c => (c.1, (liftPair c.2 : Arr Chk × T'))) =
      (Ell.space.run e cuts).map (List.map fun p => (p.1, p.2.lift)) := by
  induction cuts with
  | nil => intro e _ _; rfl
  | cons c rest ih =>
    obtain ⟨k, g, c⟩ := c
    intro e he hr
    obtain ⟨hs, hg, hadm, hnext⟩ := hr
    simp only [List.map_cons, Space.run]
    rw [show (liftPair (g, c) : Arr Chk × T') = (g.lift, LiftCut.lift c) from rfl, Ell.update_val he k g c hs hg hadm]
    obtain ⟨e', h⟩ := Ell.update_exists he.shaped he.symm he.pos k (g, c) hs
    have hv := Ell.valid_of_update he k (g, c) hs hg hadm h
    have := ih e' hv (hnext _ _ h)
    simp only [h, Res.lift_ok, Res.ok_bind, this]
    cases Ell.space.run e' rest <;> rfl

/-- **C69**, one-plane cuts.  Read all numbers as "a real or undefined", where division by zero and the square root of a
negative number are undefined and undefinedness spreads.  Then any sequence of updates with nonzero gradients and admissible
cuts computes exactly the states of the run over ℝ: no operation in it is undefined. -/
theorem C69_updates_defined_single (e : Ell ℝ) (he : e.Valid n) (cuts : List (UpdateKind × Arr ℝ × SingleCut ℝ))
    (h : Ell.AdmRun n e cuts) :
    Ell.space.run e.lift (cuts.map fun c => (c.1, c.2.1.lift, (⟨.val c.2.2.beta⟩ : SingleCut Chk))) =
      (Ell.space.run e cuts).map (List.map fun p => (p.1, p.2.lift)) :=
  checked_run cuts e he h

/-- **C69**, two-plane cuts. -/
theorem C69_updates_defined_parallel (e : Ell ℝ) (he : e.Valid n) (cuts : List (UpdateKind × Arr ℝ × ParallelCut ℝ))
    (h : Ell.AdmRun n e cuts) :
    Ell.space.run e.lift
        (cuts.map fun c => (c.1, c.2.1.lift, (⟨.val c.2.2.beta0, c.2.2.beta1.map .val⟩ : ParallelCut Chk))) =
      (Ell.space.run e cuts).map (List.map fun p => (p.1, p.2.lift)) :=
  checked_run cuts e he h

/-- **C69**, the constructor: in dimension at least two all strategy constants are defined. -/
theorem C69_new_defined (κ : ℝ) (mq xc : Arr ℝ) (hn : 2 ≤ xc.len) :
    (Ell.newWithMatrix (.val κ) mq.lift xc.lift : Ell Chk) = (Ell.newWithMatrix κ mq xc).lift := by
  have hl : xc.lift.len = xc.len := by simp [Arr.len, Arr.lift]
  simp only [Ell.newWithMatrix, Ell.lift, hl, ellCalc_new_lift hn, Chk.zero_val]

/-- **C69**, limit: in dimension one the constant `n² / (n² - 1)` is undefined. -/
theorem C69_new_undefined_dim1 (κ : Chk) (mq xc : Arr Chk) (hn : xc.len = 1) :
    (Ell.newWithMatrix κ mq xc).helper.helper.cst1 = .bad := by
  simp only [Ell.newWithMatrix, hn, EllCalc.new, EllCalcCore.new, Chk.nat_val, Chk.mul_val, Chk.one_val, Chk.sub_val]
  norm_num [Chk.div_zero_bad]

theorem Chk.bad_mul (x : Chk) : Chk.bad * x = .bad := by cases x <;> rfl
theorem Chk.sub_bad (x : Chk) : x - Chk.bad = .bad := by cases x <;> rfl

/-- **C69**, limit: a zero gradient.  The update reports success and every coordinate of the new centre is undefined
(`0/0`; a `NaN` in floating point). -/
theorem C69_zero_gradient_undefined (e : Ell ℝ) (he : e.Valid n) (g : Arr ℝ) (hs : g.IsVecShape n)
    (hg : g.toVec n = 0) (β : ℝ) :
    ∃ e', Ell.space.update .central e.lift (g.lift, (⟨.val β⟩ : SingleCut Chk)) = .ok (.success, e') ∧
      ∀ i < n, e'.xc.data[i]? = some .bad := by
  have hω : Ell.om n e.mq.mat g.vec = 0 := by
    rw [om_eq, hg]; simp
  have hc : CutType.call .central (⟨.val β⟩ : SingleCut Chk) e.lift.helper (e.lift.kappa *
      Ell.om n (fun i j => Chk.val (e.mq.mat i j)) (fun i => Chk.val (g.vec i))) =
      liftCall ((EllCalc.new n : EllCalc ℝ).calcCentralCut (e.kappa * 0)) := by
    rw [om_val, hω]
    simp only [Ell.lift, he.helper, Chk.mul_val, mul_zero]
    exact centralCall_val he.dim le_rfl
  rw [Ell.update_eq]
  rcases Ell.updateCore_spec (e := e.lift) he.shaped.1.isMat.lift he.shaped.2.isVec.lift hs.isVec.lift he.pos
    (CutType.call .central (⟨.val β⟩ : SingleCut Chk) e.lift.helper) hc with
    ⟨g1, g2⟩ | ⟨g1, e1', g2, g3, g4, g5, g6, g7, g8⟩
  · exact absurd rfl g1
  · refine ⟨e1', g2, fun i hi => ?_⟩
    rw [g4.get i hi]
    simp only [om_val, hω, Chk.div_zero_bad, Chk.bad_mul, Chk.sub_bad]

/-! ### the loops -/

theorem checked_feas_loop [Cut T] [CutType T' Chk] [LawfulLift T T'] (orc : OracleFeas Ω (Arr ℝ) T ℝ)
    (L : Ω → Ω') (orc' : OracleFeas Ω' (Arr Chk) T' Chk) (I : Ω → Prop) (K : Set (Fin n → ℝ)) (G r : ℝ) (p : Fin n → ℝ)
    (hor : HonestFeas n orc I K G) (hc : orc.CheckedBy n I L orc') (hr : 0 < r) (hK : ball p r ⊆ K)
    (tol : ℝ) (m : Nat) : ∀ (n0 : Nat) (w : Ω) (e : Ell ℝ), I w → e.Valid n → ball p r ⊆ e.region n →
      feasLoop orc' Ell.space (.val tol) m n0 (L w) e.lift =
        (feasLoop orc Ell.space tol m n0 w e).map (fun q => ((q.1.1.map Arr.lift, q.1.2), L q.2.1, q.2.2.lift)) := by
  induction m with
  | zero => intro n0 w e _ _ _; rfl
  | succ m ih =>
    intro n0 w e hI he hb
    obtain ⟨ans, w', hq, hI', hcut⟩ := hor w e.xc hI he.shaped.2
    have hq' : orc.assess w (Ell.space (T := T).xc e) = .ok (ans, w') := hq
    have hqc : orc'.assess (L w) (Ell.space (T := T').xc e.lift) = .ok (ans.map liftPair, L w') := by
      have := hc w e.xc hI he.shaped.2
      rw [hq] at this
      exact this
    unfold feasLoop
    rw [hq', hqc]
    cases ans with
    | none => rfl
    | some c =>
      obtain ⟨g, c⟩ := c
      obtain ⟨hs, hg, -, hlo, hsat⟩ := hcut g c rfl
      obtain ⟨hadm, e', hu, hv, hb', -⟩ := Ell.step_ball_adm he .bias (g, c) hs hg
        (by simpa using hlo) hr hb (fun y hy => hsat y (hK hy))
      have hu' : Ell.space.updateBias e (g, c) = .ok (.success, e') := hu
      have huc : Ell.space.updateBias e.lift (liftPair (g, c) : Arr Chk × T') = .ok (.success, e'.lift) := by
        have := Ell.update_val (T' := T') he .bias g c hs hg hadm
        rw [hu] at this
        exact this
      have hlt : Scalar.lt (Ell.space (T := T').tsq e'.lift) (.val tol) = Scalar.lt (Ell.space (T := T).tsq e') tol :=
        Chk.lt_val _ _
      simp only [Res.ok_bind, Option.map_some, hu', huc, hlt]
      split
      · rfl
      · exact ih (n0 + 1) w' e' hI' hv hb'

/-- **C69**, `cutting_plane_feas`.  With an honest oracle whose own arithmetic is defined, and a feasible set containing a
ball inside the initial ellipsoid, the whole run in checked arithmetic coincides with the run over ℝ: nothing in it is
undefined.  (Any tolerance, any iteration limit, one- and two-plane cuts.) -/
theorem C69_feas_defined [Cut T] [CutType T' Chk] [LawfulLift T T'] (orc : OracleFeas Ω (Arr ℝ) T ℝ)
    (L : Ω → Ω') (orc' : OracleFeas Ω' (Arr Chk) T' Chk) (I : Ω → Prop) (K : Set (Fin n → ℝ)) (r : ℝ) (p : Fin n → ℝ)
    (w : Ω) (e : Ell ℝ) (opts : Options ℝ)
    (hor : HonestFeas n orc I K 0) (hc : orc.CheckedBy n I L orc') (hw : I w) (he : e.Valid n) (hr : 0 < r)
    (hK : ball p r ⊆ K) (hE : ball p r ⊆ e.region n) :
    cuttingPlaneFeas orc' Ell.space (L w) e.lift opts.lift =
      (cuttingPlaneFeas orc Ell.space w e opts).map (fun q => ((q.1.1.map Arr.lift, q.1.2), L q.2.1, q.2.2.lift)) :=
  checked_feas_loop orc L orc' I K 0 r p hor hc hr hK opts.tolerance opts.maxIters 0 w e hw he hE

theorem checked_optim_loop [Cut T] [CutType T' Chk] [LawfulLift T T'] (orc : OracleOptim Ω (Arr ℝ) T ℝ)
    (L : Ω → Ω') (orc' : OracleOptim Ω' (Arr Chk) T' Chk) (I : Ω → ℝ → Prop) (S : ℝ → Set (Fin n → ℝ)) (r : ℝ) (p : Fin n → ℝ)
    (hn : 0 < n) (hor : HonestOptim n orc I S 0) (hc : orc.CheckedBy n I L orc') (hr : 0 < r)
    (tol : ℝ) (m : Nat) : ∀ (n0 : Nat) (xb : Option (Arr ℝ)) (w : Ω) (e : Ell ℝ) (γ : ℝ), I w γ → e.Shaped n →
      ∃ xb' k γ' w' e', optimLoop orc Ell.space tol m n0 xb w e γ = .ok ((xb', k), γ', w', e') ∧ S γ' ⊆ S γ ∧
        (e.Valid n → ball p r ⊆ e.region n → ball p r ⊆ S γ' →
          optimLoop orc' Ell.space (.val tol) m n0 (xb.map Arr.lift) (L w) e.lift (.val γ) =
            .ok ((xb'.map Arr.lift, k), .val γ', L w', e'.lift)) := by
  induction m with
  | zero => intro n0 xb w e γ _ _; exact ⟨_, _, _, _, _, rfl, le_rfl, fun _ _ _ => rfl⟩
  | succ m ih =>
    intro n0 xb w e γ hI hsh
    obtain ⟨g, c, shrunk, γ1, w1, hq, hI1, hS1, hs, hg, -, hcen, hbias⟩ := hor w e.xc γ hI hsh.2
    have hq' : orc.assess w (Ell.space (T := T).xc e) γ = .ok (((g, c), shrunk), γ1, w1) := hq
    have hqc : orc'.assess (L w) (Ell.space (T := T').xc e.lift) (.val γ) =
        .ok ((liftPair (g, c), shrunk), .val γ1, L w1) := by
      have := hc w e.xc γ hI hsh.2
      rw [hq] at this
      exact this
    obtain ⟨kd, hkd, hlo, hsat⟩ : ∃ kd : UpdateKind,
        (kd = if shrunk then .central else .bias) ∧ 0 ≤ kd.lo (Cut.lo c) ∧
        ∀ y ∈ S γ1, Cut.Sat kd c (g.toVec n ⬝ᵥ (y - e.c n)) := by
      cases shrunk
      · exact ⟨.bias, rfl, by simpa using (hbias rfl).1, (hbias rfl).2⟩
      · exact ⟨.central, rfl, by simp, hcen rfl⟩
    have hif : (if shrunk = true then Ell.space.updateCentral e (g, c) else Ell.space.updateBias e (g, c)) =
        Ell.space.update kd e (g, c) := by rw [hkd]; cases shrunk <;> rfl
    have hifc : (if shrunk = true then Ell.space.updateCentral e.lift (liftPair (g, c) : Arr Chk × T')
        else Ell.space.updateBias e.lift (liftPair (g, c))) =
        Ell.space.update kd e.lift (liftPair (g, c)) := by rw [hkd]; cases shrunk <;> rfl
    obtain ⟨st, e1, hu, hsh1, -⟩ := Ell.update_shape hn kd e (g, c) hsh hs
    have good : e.Valid n → ball p r ⊆ e.region n → ball p r ⊆ S γ1 →
        e1.Valid n ∧ ball p r ⊆ e1.region n ∧
        Ell.space.update kd e.lift (liftPair (g, c) : Arr Chk × T') = .ok (st, e1.lift) := by
      intro he hb hsub
      obtain ⟨hadm, e2, hu2, hv, hb', -⟩ := Ell.step_ball_adm he kd (g, c) hs hg hlo hr hb
        (fun y hy => hsat y (hsub hy))
      have := Ell.update_val (T' := T') he kd g c hs hg hadm
      rw [hu2] at hu
      simp only [Res.ok.injEq, Prod.mk.injEq] at hu
      obtain ⟨rfl, rfl⟩ := hu
      rw [hu2] at this
      exact ⟨hv, hb', this⟩
    have hlt : Scalar.lt (Ell.space (T := T').tsq e1.lift) (.val tol) = Scalar.lt (Ell.space (T := T).tsq e1) tol :=
      Chk.lt_val _ _
    have hxb : (if shrunk = true then some (Ell.space (T := T').xc e.lift) else xb.map Arr.lift) =
        (if shrunk = true then some (Ell.space (T := T).xc e) else xb).map Arr.lift := by
      cases shrunk <;> rfl
    unfold optimLoop
    simp only [hq', hqc, Res.ok_bind, hif, hifc, hu, hxb]
    cases hstop : (st != .success || Scalar.lt (Ell.space (T := T).tsq e1) tol)
    · obtain ⟨xb', k, γ', w', e', h1, h2, h3⟩ := ih (n0 + 1)
        (if shrunk = true then some (Ell.space (T := T).xc e) else xb) w1 e1 γ1 hI1 hsh1
      refine ⟨xb', k, γ', w', e', by simpa using h1, h2.trans hS1, ?_⟩
      intro he hb hsub
      obtain ⟨hv, hb', huc⟩ := good he hb (hsub.trans h2)
      simp only [huc, Res.ok_bind, hlt, hstop]
      simpa using h3 hv hb' hsub
    · refine ⟨_, _, _, _, _, if_pos rfl, hS1, ?_⟩
      intro he hb hsub
      obtain ⟨hv, hb', huc⟩ := good he hb hsub
      simp only [huc, Res.ok_bind, hlt, hstop, if_true]

/-- **C69**, `cutting_plane_optim`.  With an honest oracle whose own arithmetic is defined: as long as the returned `γ'` still
leaves a ball (inside the initial ellipsoid) of strictly better points, the whole run in checked arithmetic coincides with
the run over ℝ. -/
theorem C69_optim_defined [Cut T] [CutType T' Chk] [LawfulLift T T'] (orc : OracleOptim Ω (Arr ℝ) T ℝ)
    (L : Ω → Ω') (orc' : OracleOptim Ω' (Arr Chk) T' Chk) (I : Ω → ℝ → Prop) (S : ℝ → Set (Fin n → ℝ)) (r : ℝ) (p : Fin n → ℝ)
    (w : Ω) (e : Ell ℝ) (γ : ℝ) (opts : Options ℝ)
    (hor : HonestOptim n orc I S 0) (hc : orc.CheckedBy n I L orc') (hw : I w γ) (he : e.Valid n) (hr : 0 < r)
    (hE : ball p r ⊆ e.region n) {xb : Option (Arr ℝ)} {k : Nat} {γ' : ℝ} {w' : Ω} {e' : Ell ℝ}
    (hrun : cuttingPlaneOptim orc Ell.space w e γ opts = .ok ((xb, k), γ', w', e')) (hS : ball p r ⊆ S γ') :
    cuttingPlaneOptim orc' Ell.space (L w) e.lift (.val γ) opts.lift =
      .ok ((xb.map Arr.lift, k), .val γ', L w', e'.lift) := by
  obtain ⟨xb1, k1, γ1, w1, e1, h1, -, h3⟩ := checked_optim_loop orc L orc' I S r p he.pos hor hc hr opts.tolerance
    opts.maxIters 0 none w e γ hw he.shaped
  have h1' : cuttingPlaneOptim orc Ell.space w e γ opts = .ok ((xb1, k1), γ1, w1, e1) := h1
  rw [hrun] at h1'
  simp only [Res.ok.injEq, Prod.mk.injEq] at h1'
  obtain ⟨⟨rfl, rfl⟩, rfl, rfl, rfl⟩ := h1'
  exact h3 he hE hS

end Ellalgo
