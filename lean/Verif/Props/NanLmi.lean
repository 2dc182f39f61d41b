import Verif.Lib.NanLdlt
import Verif.Lib.LmiOld
import Verif.Props.NanEll

/-! C81: matrix inequalities and NaN. -/

namespace Ellalgo
variable {α : Type} [Scalar α] {N : α → Prop}

/-- what holds before a loop and is kept by every round holds after it -/
theorem forRange_inv {σ : Type} (P : σ → Prop) {f : Nat → σ → Res σ} {lo hi : Nat} {s s' : σ} (h0 : P s)
    (hstep : ∀ i s s', f i s = .ok s' → P s → P s') (h : forRange lo hi s f = .ok s') : P s' := by
  by_cases hle : lo < hi
  · obtain ⟨k, rfl⟩ : ∃ k, hi = lo + k := ⟨hi - lo, by omega⟩
    clear hle
    induction k generalizing lo s with
    | zero =>
      rw [Nat.add_zero, forRange_self] at h
      cases h; exact h0
    | succ k ih =>
      rw [forRange_succ (by omega), Res.bind_eq_ok] at h
      obtain ⟨s1, h1, h2⟩ := h
      exact ih (hstep _ _ _ h1 h0) (by rw [show lo + (k + 1) = lo + 1 + k by omega] at h2; exact h2)
  · rw [forRange_empty (by omega)] at h
    cases h; exact h0

omit [Scalar α] in
theorem Arr.setIdx_shape {a a' : Arr α} {i : Nat} {v : α} (h : a.setIdx i v = .ok a') :
    a'.rows = a.rows ∧ a'.cols = a.cols ∧ a'.data.length = a.data.length := by
  simp only [Arr.setIdx] at h
  split at h
  · cases h; simp
  · simp at h

theorem factorRow_shape {elem : Nat → Nat → Res α} {n s i : Nat} {st st' : Arr α} {d : α} {r c : Nat}
    (h : LDLTMgr.factorRow elem n s i st = .ok (d, st')) (hs : st.IsMatShape r c) : st'.IsMatShape r c := by
  unfold LDLTMgr.factorRow at h
  simp only [Res.bind_eq_ok, Res.ok.injEq, Prod.mk.injEq] at h
  obtain ⟨d0, -, ⟨d1, st1⟩, h1, st2, h2, -, rfl⟩ := h
  have hP := forRange_inv (fun p : α × Arr α => p.2.IsMatShape r c) hs (by
    rintro j ⟨a, b⟩ ⟨a', b'⟩ hj hb
    simp only [Res.bind_eq_ok, Res.ok.injEq, Prod.mk.injEq] at hj
    obtain ⟨b1, e1, _, -, b2, e2, _, -, _, -, -, rfl⟩ := hj
    obtain ⟨f1, f2, f3⟩ := Arr.setIdx_shape e1
    obtain ⟨f4, f5, f6⟩ := Arr.setIdx_shape e2
    obtain ⟨g1, g2, g3⟩ := hb
    exact ⟨by rw [f4, f1, g1], by rw [f5, f2, g2], by rw [f6, f3, g3]⟩) h1
  obtain ⟨f1, f2, f3⟩ := Arr.setIdx_shape h2
  obtain ⟨g1, g2, g3⟩ := hP
  exact ⟨by rw [f1, g1], by rw [f2, g2], by rw [f3, g3]⟩

theorem factorLoop_shape {elem : Nat → Nat → Res α} {n r c : Nat} (k : Nat) : ∀ (i : Nat) (st : Arr α) (p : Nat × Nat)
    (st' : Arr α), LDLTMgr.factorLoop elem n k i st = .ok (p, st') → st.IsMatShape r c → st'.IsMatShape r c := by
  induction k with
  | zero => intro i st p st' h hs; cases h; exact hs
  | succ k ih =>
    intro i st p st' h hs
    simp only [LDLTMgr.factorLoop, Res.bind_eq_ok] at h
    obtain ⟨⟨d, st1⟩, h1, h⟩ := h
    have h2 := factorRow_shape h1 hs
    split at h
    · cases h; exact h2
    · exact ih _ _ _ _ h h2

/-- a generic LMI oracle for `n × n` matrices and at least `d` unknowns, in any state -/
def LMIOracle.Fits (d n : Nat) (o : LMIOracle α) : Prop :=
  (∀ f ∈ o.matF, f.IsMatShape n n) ∧ o.matB.IsMatShape n n ∧ o.mgr.ndim = n ∧ o.mgr.storage.IsMatShape n n ∧
    d ≤ o.matF.length

theorem LMIOracle.Fits.assess {d n : Nat} {o o' : LMIOracle α} (ho : o.Fits d n) {x : Arr α}
    {r : Option (Arr α × SingleCut α)} (h : o.assess x = .ok (r, o')) : o'.Fits d n := by
  obtain ⟨h1, h2, h3, h4, h5⟩ := ho
  obtain ⟨e1, e2, e3⟩ := LMIOracle.assess_data h
  refine ⟨by rw [e1]; exact h1, by rw [e2]; exact h2, by rw [e3]; exact h3, ?_, by rw [e1]; exact h5⟩
  unfold LMIOracle.assess LDLTMgr.factor at h
  simp only [Res.bind_eq_ok] at h
  obtain ⟨⟨b, m1⟩, ⟨⟨p, st⟩, h6, h7⟩, h⟩ := h
  have h8 := factorLoop_shape _ _ _ _ _ h6 h4
  cases h7
  split at h
  · cases h; exact h8
  · simp only [Res.bind_eq_ok] at h
    obtain ⟨⟨ep, m2⟩, h9, g, -, h⟩ := h
    simp only [Res.ok.injEq, Prod.mk.injEq] at h
    rw [← h.2]
    unfold LDLTMgr.witness at h9
    simp only [Res.bind_eq_ok] at h9
    obtain ⟨_, _, _, _, _, _, _, _, h9⟩ := h9
    simp only [Res.ok.injEq, Prod.mk.injEq] at h9
    rw [← h9.2]
    exact h8

theorem LMIOracle.assess_grad_shape {o o' : LMIOracle α} {x : Arr α} {g : Arr α} {c : SingleCut α}
    (h : o.assess x = .ok (some (g, c), o')) : g.IsVecShape x.len := by
  unfold LMIOracle.assess at h
  simp only [Res.bind_eq_ok] at h
  obtain ⟨⟨b, m1⟩, -, h⟩ := h
  split at h
  · simp at h
  · simp only [Res.bind_eq_ok] at h
    obtain ⟨⟨ep, m2⟩, -, g', hg, h⟩ := h
    simp only [Res.ok.injEq, Prod.mk.injEq, Option.some.injEq] at h
    rw [← h.1.1]
    unfold lmiGrad at hg
    exact forRange_inv (fun g : Arr α => g.IsVecShape x.len) (isVec_new _).shape (by
      intro k s s' hs ⟨g1, g2, g3⟩
      simp only [Res.bind_eq_ok] at hs
      obtain ⟨_, -, _, -, hs⟩ := hs
      obtain ⟨f1, f2, f3⟩ := Arr.setIdx_shape hs
      exact ⟨by rw [f1, g1], by rw [f2, g2], by rw [f3, g3]⟩) hg

theorem NanLaws.subTo (hN : NanLaws N) {n : Nat} {c : α} {f : Nat → α} {i : Nat} (hi : i < n) (h : N (f i)) :
    N (subTo c f n) := by
  induction n with
  | zero => omega
  | succ n ih =>
    rcases Nat.lt_succ_iff_lt_or_eq.1 hi with h' | rfl
    · exact hN.sub_left (ih h') _
    · exact hN.sub_right _ h

/-- **C81** (factorisation)  A matrix whose first entry is a NaN is reported as positive definite. -/
theorem C81_ldlt_accepts_nan (hN : NanLaws N) {n : Nat} (hn : 0 < n) (a : Arr α) (ha : a.IsMatShape n n)
    (m : LDLTMgr α) (hm : m.ndim = n) (hst : m.storage.IsMatShape n n) (h : ∀ v, a.get 0 0 = .ok v → N v) :
    ∃ m', m.factorize a = .ok (true, m') := by
  subst hm
  exact factor_nan (A := a.mat) hN hst (fun i j hi hj => ha.isMat.getij hi hj) (h _ (ha.isMat.getij hn hn))

/-- **C81** (matrix inequalities)  At a point with a NaN coordinate the LMI oracle reports that the matrix inequality holds,
whatever the matrices are; so does the older variant. -/
theorem C81_lmi_accepts_nan (hN : NanLaws N) {d n : Nat} (o : LMIOracle α) (ho : o.Fits d n) (x : Arr α)
    (hx : x.IsVecShape d) (h : x.SomeNan N) :
    ∃ o', o.assess x = .ok (none, o') ∧ o.assessOld x = .ok (none, o') := by
  obtain ⟨h1, h2, h3, h4, h5⟩ := id ho
  have hxl : x.len = d := hx.isVec.len'
  obtain ⟨i, hi, hv⟩ := hx.isVec.someNan.1 h
  have hf : ∃ m', o.mgr.factor (o.elem x) = .ok (true, m') := by
    refine factor_nan (A := fun i j => subTo (o.matB.mat i j) (fun k => fEntry o.matF k i j * x.vec k) x.len) hN
      (by rw [h3]; exact h4) (fun i j hi hj => ?_) (hN.subTo (i := i) (by rw [hxl]; exact hi) (hN.mul_right _ hv))
    rw [h3] at hi hj
    exact LMIOracle.elem_generic h1 h2 (by rw [hxl]; exact h5) hi hj
  obtain ⟨m', hm'⟩ := hf
  have : o.assess x = .ok (none, { o with mgr := m' }) := by
    simp only [LMIOracle.assess, hm', Res.ok_bind, if_true]
  exact ⟨_, this, by rw [LMIOracle.assessOld_eq h1 h2 h3 (by rw [hxl]; exact h5), this]⟩

/-- **C81** (matrix inequalities, homogeneous form)  The same for `LMI0Oracle`. -/
theorem C81_lmi0_accepts_nan (hN : NanLaws N) {d n : Nat} (o : LMI0Oracle α) (hF : ∀ f ∈ o.matF, f.IsMatShape n n)
    (hd : d ≤ o.matF.length) (hm : o.mgr.ndim = n) (hst : o.mgr.storage.IsMatShape n n) (x : Arr α)
    (hx : x.IsVecShape d) (h : x.SomeNan N) : ∃ o', o.assess x = .ok (none, o') := by
  have hxl : x.len = d := hx.isVec.len'
  obtain ⟨i, hi, hv⟩ := hx.isVec.someNan.1 h
  have hf : ∃ m', o.mgr.factor (o.elem x) = .ok (true, m') := by
    refine factor_nan (A := fun i j => sumTo x.len fun k => fEntry o.matF k i j * x.vec k) hN
      (by rw [hm]; exact hst) (fun i j hi hj => ?_) (hN.sumTo (i := i) (by rw [hxl]; exact hi) (hN.mul_right _ hv))
    rw [hm] at hi hj
    unfold LMI0Oracle.elem
    apply forRange_sum
    intro k acc hk
    rw [hxl] at hk
    obtain ⟨e1, e2⟩ := nthMat_ok hF (Nat.lt_of_lt_of_le hk hd)
    rw [e1]
    simp only [Res.ok_bind]
    rw [e2.getij hi hj, fEntry_eq (Nat.lt_of_lt_of_le hk hd), hx.isVec.idx hk]
    rfl
  obtain ⟨m', hm'⟩ := hf
  exact ⟨{ o with mgr := m' }, by simp only [LMI0Oracle.assess, hm', Res.ok_bind, if_true]⟩

/-- **C81** (end to end)  `cutting_plane_feas` with an LMI oracle, on a spoilt ellipsoid and with at least two iterations,
always ends with "feasible", after at most one cut, whether or not the matrix inequality has a solution. -/
theorem C81_lmi_run_reports_feasible (hN : NanLaws N) {d n : Nat} (hd : 0 < d) (o : LMIOracle α) (ho : o.Fits d n)
    (e : Ell α) (he : e.Shaped d) (hsp : e.Spoilt N) (opts : Options α) (h2 : 2 ≤ opts.maxIters)
    (r : Option (Arr α)) (k : Nat) (o' : LMIOracle α) (e' : Ell α)
    (h : cuttingPlaneFeas LMIOracle.oracle Ell.space o e opts = .ok ((r, k), o', e')) :
    (r = some e.xc ∧ k = 0) ∨ ∃ x, r = some x ∧ k = 1 ∧ x.AllNan N := by
  obtain ⟨m, hm⟩ : ∃ m, opts.maxIters = m + 2 := ⟨opts.maxIters - 2, by omega⟩
  unfold cuttingPlaneFeas at h
  rw [hm] at h
  rw [show m + 2 = (m + 1) + 1 from rfl, feasLoop] at h
  simp only [Res.bind_eq_ok] at h
  obtain ⟨⟨cut, o1⟩, hq, h⟩ := h
  have hq : o.assess e.xc = .ok (cut, o1) := hq
  cases cut with
  | none =>
    simp only [Res.ok.injEq, Prod.mk.injEq] at h
    obtain ⟨⟨rfl, rfl⟩, -, -⟩ := h
    exact Or.inl ⟨rfl, rfl⟩
  | some c =>
    obtain ⟨g, b⟩ := c
    have hg : g.IsVecShape d := by
      have := LMIOracle.assess_grad_shape hq
      rwa [show e.xc.len = d from he.2.isVec.len'] at this
    obtain ⟨e1, h1, h2, h3, h4, h5⟩ := Ell.spoilt_step hN hd .bias e he hsp g hg b
    have h1 : (Ell.space (T := SingleCut α)).updateBias e (g, b) = .ok (.success, e1) := h1
    have hlt : Scalar.lt ((Ell.space (T := SingleCut α)).tsq e1) opts.tolerance = false := hN.lt_left h5 _
    simp only [h1, Res.ok_bind, hlt, bne_self_eq_false, Bool.or_self, Bool.false_eq_true, if_false] at h
    have hx1 : e1.xc.SomeNan N :=
      h2.2.isVec.someNan.2 ⟨0, hd, h3 _ (List.mem_of_getElem? (h2.2.isVec.get 0 hd))⟩
    obtain ⟨o2, h6, -⟩ := C81_lmi_accepts_nan hN o1 (ho.assess hq) e1.xc h2.2 hx1
    have h6 : (LMIOracle.oracle (α := α)).assess o1 ((Ell.space (T := SingleCut α)).xc e1) = .ok (none, o2) := h6
    rw [feasLoop] at h
    simp only [h6, Res.ok_bind, Res.ok.injEq, Prod.mk.injEq] at h
    obtain ⟨⟨rfl, rfl⟩, -, -⟩ := h
    exact Or.inr ⟨e1.xc, rfl, rfl, h3⟩

end Ellalgo
