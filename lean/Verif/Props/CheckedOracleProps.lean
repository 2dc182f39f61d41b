import Verif.Lib.CheckedOracles
import Verif.Lib.CheckedNum
import Verif.Props.CheckedProps
import Verif.Props.LmiProps
import Verif.Props.LowpassSolve

/-! C76: the oracles, the factorisation, conjugate gradient and power iteration perform no undefined arithmetic operation.

As in C69, `Chk` is "a real number or `bad`": a division by zero, a square root of a negative number and a logarithm of a
non-positive number give `bad`, and `bad` spreads.  Each theorem says that the routine run on checked numbers returns the
checked reading of what it returns on real numbers; so no intermediate result that matters is `bad`. -/

namespace Ellalgo
open Matrix
open scoped ComplexOrder

/-! ### the factorisation -/

/-- **C76** `LDLTMgr::factor`: for every matrix, given by a function that may panic, and every previous state. -/
theorem C76_factor_defined (m : LDLTMgr ℝ) (elem : Nat → Nat → Res ℝ) (elem' : Nat → Nat → Res Chk)
    (h : ∀ i j, elem' i j = (elem i j).map .val) :
    m.lift.factor elem' = (m.factor elem).map (fun p => (p.1, p.2.lift)) ∧
      m.lift.factorSemi elem' = (m.factorSemi elem).map (fun p => (p.1, p.2.lift)) :=
  ⟨factor_lift h m, factorSemi_lift h m⟩

/-- **C76** `LDLTMgr::factorize`. -/
theorem C76_factorize_defined (m : LDLTMgr ℝ) (mat : Arr ℝ) :
    m.lift.factorize mat.lift = (m.factorize mat).map (fun p => (p.1, p.2.lift)) :=
  factor_lift (Arr.get_lift mat) m

/-- **C76** `LDLTMgr::sqrt` after a successful factorisation of either kind: no root of a negative number. -/
theorem C76_sqrt_defined (m m' : LDLTMgr ℝ) (elem : Nat → Nat → Res ℝ)
    (h : m.factor elem = .ok (true, m') ∨ m.factorSemi elem = .ok (true, m')) :
    m'.lift.sqrt = m'.sqrt.map Arr.lift := by
  have key : m'.ndim = m.ndim ∧ PivNonneg m.ndim m.ndim m'.storage := h.elim factor_nonneg factorSemi_nonneg
  refine ldltSqrt_lift m' fun i d hi hd => ?_
  rw [key.1] at hi hd
  exact key.2 i hi d hd

/-- **C76** `LDLTMgr::witness` and `sym_quad`. -/
theorem C76_witness_defined (m : LDLTMgr ℝ) (mat : Arr ℝ) :
    m.lift.witness = m.witness.map (fun p => (.val p.1, p.2.lift)) ∧ m.lift.symQuad mat.lift = (m.symQuad mat).map .val :=
  ⟨witness_lift m, symQuad_lift m mat⟩

/-! ### conjugate gradient and power iteration -/

/-- **C76** `conjugate_gradient`: for every matrix, right-hand side, starting point, tolerance and number of iterations.  Both
divisions are safe: the first by the test that reports `Breakdown`, the second because a zero residual makes the next
direction zero, so that this test comes first. -/
theorem C76_cg_defined (a b : Arr ℝ) (x0 : Option (Arr ℝ)) (tol : ℝ) (maxIter : Nat) :
    conjugateGradient a.lift b.lift (x0.map Arr.lift) (.val tol) maxIter = (conjugateGradient a b x0 tol maxIter).map liftCg :=
  cg_lift a b x0 tol maxIter

theorem allZero_iff {n : Nat} {x : Arr ℝ} (hx : x.IsVecShape n) : x.AllZero ↔ x.toVec n = 0 := by
  constructor
  · intro h
    funext i
    have hi : (i : Nat) < x.data.length := by rw [hx.2.2]; exact i.2
    have := h x.data[i] (List.getElem_mem _)
    simpa [Arr.toVec, Arr.vec, hi] using this
  · intro h v hv
    obtain ⟨i, hi, rfl⟩ := List.getElem_of_mem hv
    have := congrFun h ⟨i, by rw [← hx.2.2]; exact hi⟩
    simpa [Arr.toVec, Arr.vec, hi] using this

theorem injective_of {n : Nat} (hn : 0 < n) {a : Arr ℝ} (ha : a.IsMatShape n n) (hdet : (a.toMat n n).det ≠ 0) : a.Injective := by
  intro x y hxy hx0 hy0
  set x' : Arr ℝ := ⟨x.data, n, 0⟩ with hx'
  have hdim : x.cols = 0 ∧ x.data.length = n := by
    unfold Arr.dotMv at hxy
    simp only [Res.bind_eq_ok, Res.assert_eq_ok, ha.2.1, Arr.is2d, Arr.len] at hxy
    obtain ⟨_, _, _, h1, _, h2, _⟩ := hxy
    simp only [Bool.not_eq_true', decide_eq_false_iff_not, beq_iff_eq] at h1 h2
    exact ⟨by omega, h2.symm⟩
  have hx : x'.IsVecShape n := ⟨rfl, rfl, hdim.2⟩
  have hxy' : a.dotMv x' = .ok y := by
    rw [← hxy]
    obtain ⟨xd, xr, xc⟩ := x
    obtain ⟨h1, -⟩ := hdim
    simp only at h1
    subst h1
    rfl
  obtain ⟨y', h1, h2⟩ := RM.dotMv (A := a.toMat n n) ⟨ha, rfl⟩ ⟨hx, rfl⟩ hn
  rw [hxy', Res.ok.injEq] at h1
  subst h1
  have e := (allZero_iff h2.1).1 hy0
  rw [h2.2] at e
  exact hx0 ((allZero_iff hx).2 (Matrix.eq_zero_of_mulVec_eq_zero hdet e))

/-- **C76** All four power iterations: for an invertible matrix and a nonzero start no division by zero happens. -/
theorem C76_power_defined {n : Nat} (hn : 0 < n) (a x : Arr ℝ) (ha : a.IsMatShape n n) (hdet : (a.toMat n n).det ≠ 0)
    (hx : x.IsVecShape n) (hx0 : x.toVec n ≠ 0) (opts : Options ℝ) :
    powerIteration a.lift x.lift opts.lift = (powerIteration a x opts).map liftPow ∧
      powerIteration2 a.lift x.lift opts.lift = (powerIteration2 a x opts).map liftPow ∧
      powerIteration3 a.lift x.lift opts.lift = (powerIteration3 a x opts).map liftPow ∧
      powerIteration4 a.lift x.lift opts.lift = (powerIteration4 a x opts).map liftPow := by
  have h1 := injective_of hn ha hdet
  have h2 : ¬ x.AllZero := fun h => hx0 ((allZero_iff hx).1 h)
  exact ⟨power_lift h1 h2 opts, power2_lift h1 h2 opts, power3_lift h1 h2 opts, power4_lift h1 h2 opts⟩

theorem sumTo_bad {n : Nat} (hn : 0 < n) (f : Nat → Chk) (h : ∀ i < n, f i = .bad) : sumTo n f = .bad := by
  cases n with
  | zero => omega
  | succ n =>
    show sumTo n f + f n = _
    rw [h n (by omega)]
    cases sumTo n f <;> rfl

theorem Chk.mul_bad (x : Chk) : x * Chk.bad = .bad := by cases x <;> rfl
theorem Chk.bad_add (x : Chk) : Chk.bad + x = .bad := by cases x <;> rfl

/-- all coordinates undefined -/
abbrev BadVec (n : Nat) (x : Arr Chk) : Prop := IsVec x n fun _ => Chk.bad

theorem bad_dot {n : Nat} (hn : 0 < n) {x y : Arr Chk} {v : Nat → Chk} (hx : BadVec n x) (hy : IsVec y n v) :
    x.dot y = .ok .bad := by
  rw [dot_spec hx hy, sumTo_bad hn _ fun i _ => Chk.bad_mul _]

theorem bad_normalize {n : Nat} (hn : 0 < n) {x : Arr Chk} (hx : BadVec n x) : ∃ y, normalize2 x = .ok y ∧ BadVec n y := by
  refine ⟨_, ?_, hx.map (fun v => v * (1 / Scalar.sqrt Chk.bad))⟩
  simp only [normalize2, bad_dot hn hx hx, Res.ok_bind]
  rfl

theorem bad_dotMv {n : Nat} (hn : 0 < n) {a x : Arr Chk} {m : Nat → Nat → Chk} (ha : IsMat a n n m) (hx : BadVec n x) :
    ∃ y, a.dotMv x = .ok y ∧ BadVec n y := by
  obtain ⟨y, h1, h2⟩ := dotMv_spec ha hx hn
  refine ⟨y, h1, ?_⟩
  have : (fun i => sumTo n fun j => m i j * Chk.bad) = fun _ => Chk.bad := by
    funext i
    exact sumTo_bad hn _ fun j _ => Chk.mul_bad _
  rwa [this] at h2

theorem foldl_bad (l : List Chk) : l.foldl (· + ·) Chk.bad = .bad := by
  induction l with
  | nil => rfl
  | cons u l ih => rw [List.foldl_cons, Chk.bad_add]; exact ih

theorem bad_normL1 {n : Nat} (hn : 0 < n) {x : Arr Chk} (hx : BadVec n x) : normL1 x = .bad := by
  have h0 := hx.get 0 hn
  unfold normL1
  cases hd : x.data with
  | nil => rw [hd] at h0; simp at h0
  | cons u l =>
    rw [hd] at h0
    simp only [List.getElem?_cons_zero, Option.some.injEq] at h0
    subst h0
    exact foldl_bad _

theorem bad_rayleigh {n : Nat} (hn : 0 < n) {a x : Arr Chk} {m : Nat → Nat → Chk} (ha : IsMat a n n m) (hx : BadVec n x) :
    rayleigh a x = .ok .bad := by
  obtain ⟨y, h1, h2⟩ := bad_dotMv hn ha hx
  simp only [rayleigh, h1, Res.ok_bind, bad_dot hn hx h2]

theorem bad_powerLoop {n : Nat} (hn : 0 < n) {a : Arr Chk} {m : Nat → Nat → Chk} (ha : IsMat a n n m) (opts : Options Chk) (k : Nat) :
    ∀ (i : Nat) (x : Arr Chk), BadVec n x → ∃ x', powerLoop a opts k i x = .ok ((.bad, opts.maxIters), x') ∧ BadVec n x' := by
  induction k with
  | zero =>
    intro i x hx
    exact ⟨x, by simp only [powerLoop, bad_rayleigh hn ha hx, Res.ok_bind], hx⟩
  | succ k ih =>
    intro i x hx
    obtain ⟨y, h1, h2⟩ := bad_dotMv hn ha hx
    obtain ⟨z, h3, h4⟩ := bad_normalize hn h2
    obtain ⟨d, h5, h6⟩ := h4.zipWith hx (· - ·)
    obtain ⟨s, h7, h8⟩ := h4.zipWith hx (· + ·)
    have hc : closeUpToSign opts.tolerance z x = .ok false := by
      have e1 : z.sub x = .ok d := h5
      have e2 : z.add x = .ok s := h7
      simp only [closeUpToSign, e1, e2, Res.ok_bind, bad_normL1 hn h6, bad_normL1 hn h8]
      rfl
    simp only [powerLoop, h1, h3, hc, Res.ok_bind]
    exact ih (i + 1) z h4

/-- **C76**, limit: from the zero vector `power_iteration` runs to its iteration limit and returns an undefined eigenvalue and
an undefined vector (`NaN`s), whatever the matrix. -/
theorem C76_power_zero_start {n : Nat} (hn : 0 < n) (a : Arr ℝ) (ha : a.IsMatShape n n) (opts : Options ℝ) :
    ∃ x, powerIteration a.lift (Arr.new n : Arr ℝ).lift opts.lift = .ok ((.bad, opts.maxIters), x) ∧
      ∀ i < n, x.data[i]? = some .bad := by
  have h0 : IsVec (Arr.new n : Arr ℝ).lift n fun _ => (0 : Chk) := by rw [← Arr.new_lift]; exact isVec_new n
  have hz : ∃ z, normalize2 (Arr.new n : Arr ℝ).lift = .ok z ∧ BadVec n z := by
    refine ⟨(Arr.new n : Arr ℝ).lift.divScalar (Scalar.sqrt (sumTo n fun _ => (0 : Chk) * 0)), ?_, ?_⟩
    · simp only [normalize2, dot_spec h0 h0, Res.ok_bind]
    · have e : sumTo n (fun _ => (0 : Chk) * 0) = .val 0 := by
        clear hn ha h0
        induction n with
        | zero => rfl
        | succ n ih => show sumTo n _ + _ = _; rw [ih]; simp
      rw [e, Chk.sqrt_val le_rfl, Real.sqrt_zero]
      have := h0.map (fun v => v * (1 / Chk.val 0))
      rw [Chk.one_val, Chk.div_zero_bad] at this
      simp only [Chk.mul_bad] at this
      simpa only [Arr.divScalar, Chk.one_val, Chk.div_zero_bad, Chk.mul_bad] using this
  obtain ⟨z, h1, h2⟩ := hz
  obtain ⟨x, h3, h4⟩ := bad_powerLoop hn ha.isMat.lift opts.lift opts.maxIters 0 z h2
  refine ⟨x, ?_, fun i hi => h4.get i hi⟩
  simp only [powerIteration, h1, Res.ok_bind]
  exact h3

/-! ### the oracles -/

/-- **C76** `LMIOracle` and `LMIOldOracle`: every query in every state. -/
theorem C76_lmi_defined (d : Nat) :
    (LMIOracle.oracle (α := ℝ)).CheckedBy d (fun _ => True) LMIOracle.lift (LMIOracle.oracle (α := Chk)) ∧
      (LMIOracle.oracleOld (α := ℝ)).CheckedBy d (fun _ => True) LMIOracle.lift (LMIOracle.oracleOld (α := Chk)) :=
  ⟨fun o x _ _ => lmiAssess_lift o x, fun o x _ _ => lmiAssessOld_lift o x⟩

/-- **C76** `LMI0Oracle`. -/
theorem C76_lmi0_defined (o : LMI0Oracle ℝ) (x : Arr ℝ) :
    o.lift.assess x.lift = (o.assess x).map (fun p => (p.1.map fun c => (c.1.lift, .val c.2), p.2.lift)) :=
  lmi0Assess_lift o x

/-- **C76** `LowpassOracle`, both as a feasibility and as an optimisation oracle. -/
theorem C76_lowpass_defined (d : Nat) :
    (LowpassOracle.oracleFeas (α := ℝ)).CheckedBy d (fun _ => True) LowpassOracle.lift (LowpassOracle.oracleFeas (α := Chk)) ∧
      (LowpassOracle.oracle (α := ℝ)).CheckedBy d (fun _ _ => True) LowpassOracle.lift (LowpassOracle.oracle (α := Chk)) :=
  ⟨fun o x _ _ => lowpassFeas_lift o x, fun o x γ _ _ => lowpass_lift o x γ⟩

/-- **C76** the constructor of the low-pass oracle and `create_lowpass_case`, for every size. -/
theorem C76_lowpass_new_defined (n : Nat) (wpass wstop lp up sp : ℝ) :
    LowpassOracle.new n (.val wpass) (.val wstop) (.val lp) (.val up) (.val sp) =
        (LowpassOracle.new n wpass wstop lp up sp).map LowpassOracle.lift ∧
      createLowpassCase (α := Chk) n = (createLowpassCase (α := ℝ) n).map LowpassOracle.lift :=
  ⟨lowpassNew_lift n wpass wstop lp up sp, lowpassCase_lift n⟩

/-- **C76** `ProfitOracle`, `ProfitRbOracle`: as long as the incumbent value is not negative and the input prices are
positive (both are kept by every query, C48). -/
theorem C76_profit_defined :
    (ProfitOracle.oracle (α := ℝ)).CheckedBy 2 (fun o γ => 0 ≤ γ ∧ ∀ v ∈ o.priceOut.data, 0 < v) ProfitOracle.lift
        (ProfitOracle.oracle (α := Chk)) ∧
      (ProfitRbOracle.oracle (α := ℝ)).CheckedBy 2 (fun o γ => 0 ≤ γ ∧ ∀ v ∈ o.omega.priceOut.data, 0 < v) ProfitRbOracle.lift
        (ProfitRbOracle.oracle (α := Chk)) :=
  ⟨fun _ x _ h _ => profit_lift h x, fun _ x _ h _ => profitRb_lift h x⟩

/-- **C76** `ProfitOracleQ`: also the logarithm of the rounded point is defined. -/
theorem C76_profit_q_defined (o : ProfitOracleQ ℝ) (y : Arr ℝ) (hy : y.IsVecShape 2) (γ : ℝ) (hγ : 0 ≤ γ)
    (hp : ∀ v ∈ o.omega.priceOut.data, 0 < v) (retry : Bool) :
    (ProfitOracleQ.oracle (α := Chk)).assess o.lift y.lift (.val γ) retry =
      ((ProfitOracleQ.oracle (α := ℝ)).assess o y γ retry).map liftOptQ :=
  profitQ_lift ⟨hγ, hp⟩ hy.2.2 retry

/-- **C76** the constructor of the profit oracles: both logarithms are defined for positive data. -/
theorem C76_profit_new_defined (price scale limit : ℝ) (a v : Arr ℝ) (h1 : 0 < price * scale) (h2 : 0 < limit) :
    ProfitOracle.new (.val price) (.val scale) (.val limit) a.lift v.lift = (ProfitOracle.new price scale limit a v).lift ∧
      ProfitOracleQ.new (.val price) (.val scale) (.val limit) a.lift v.lift = (ProfitOracleQ.new price scale limit a v).lift := by
  have e : ProfitOracle.new (.val price) (.val scale) (.val limit) a.lift v.lift = (ProfitOracle.new price scale limit a v).lift := by
    simp only [ProfitOracle.new, Chk.mul_val, Chk.ln_val h1, Chk.ln_val h2, Arr.new_lift]
    rfl
  refine ⟨e, ?_⟩
  simp only [ProfitOracleQ.new, e]
  rfl

/-- **C76** the remaining oracles of the crate: the examples, `quasicvx` (its division is by an exponential), `SvmOracle` and
`MaxcutOracle`. -/
theorem C76_examples_defined (d : Nat) :
    (ex1Oracle (α := ℝ)).CheckedBy d (fun _ _ => True) id (ex1Oracle (α := Chk)) ∧
      (ex1rrOracle (α := ℝ)).CheckedBy d (fun _ _ => True) id (ex1rrOracle (α := Chk)) ∧
      (Ex3.oracle (α := ℝ)).CheckedBy d (fun _ => True) Ex3.lift (Ex3.oracle (α := Chk)) ∧
      (ex4Oracle (α := ℝ)).CheckedBy d (fun _ _ => True) id (ex4Oracle (α := Chk)) ∧
      (QcvxOracle.oracle (α := ℝ)).CheckedBy d (fun _ _ => True) id (QcvxOracle.oracle (α := Chk)) ∧
      (SvmOracle.oracle (α := ℝ)).CheckedBy d (fun _ _ => True) SvmOracle.lift (SvmOracle.oracle (α := Chk)) ∧
      (MaxcutOracle.oracle (α := ℝ)).CheckedBy d (fun _ _ => True) MaxcutOracle.lift (MaxcutOracle.oracle (α := Chk)) :=
  ⟨fun w x γ _ _ => ex1_lift w x γ, fun w x γ _ _ => ex1rr_lift w x γ, fun o x _ _ => ex3_lift o x,
    fun w x γ _ _ => ex4_lift w x γ, fun w x γ _ _ => qcvx_lift w x γ, fun o x γ _ _ => svm_lift o x γ,
    fun o x γ _ _ => maxcut_lift o x γ⟩

/-! ### whole runs -/

/-- **C76** A whole LMI feasibility run performs no undefined operation, if the feasible set contains a ball inside the first
ellipsoid: `cutting_plane_feas` with `LMIOracle` and `Ell`, all in checked arithmetic. -/
theorem C76_lmi_run_defined {d n : Nat} {fs : List (Arr ℝ)} {b : Arr ℝ} (hF : SymMats d n fs) (hb : b.IsMatShape n n)
    (hbs : (b.toMat n n).IsSymm) (e : Ell ℝ) (he : e.Valid d) {p : Fin d → ℝ} {r : ℝ} (hr : 0 < r)
    (hball : ∀ y ∈ ball p r, (lmiMat n fs b y).PosDef ∧ y ∈ e.region d) (opts : Options ℝ) :
    cuttingPlaneFeas LMIOracle.oracle Ell.space (LMIOracle.new (fs.map Arr.lift) b.lift) e.lift opts.lift =
      (cuttingPlaneFeas LMIOracle.oracle Ell.space (LMIOracle.new fs b) e opts).map
        (fun q => ((q.1.1.map Arr.lift, q.1.2), q.2.1.lift, q.2.2.lift)) := by
  have hp : p ∈ ball p r := by
    show normSq (p - p) ≤ r ^ 2
    rw [sub_self]; simp [normSq]; positivity
  have e1 : LMIOracle.new (fs.map Arr.lift) b.lift = (LMIOracle.new fs b).lift := by
    simp only [LMIOracle.new, LMIOracle.lift, LDLTMgr.new, LDLTMgr.lift, Arr.new_lift, Arr.zeros_lift, Arr.lift_rows]
  rw [e1]
  exact C69_feas_defined LMIOracle.oracle LMIOracle.lift LMIOracle.oracle (LMIOracle.For n fs b) _ r p _ e opts
    (lmi_honest hF hb hbs (hball p hp).1) (fun o x _ hx => (C76_lmi_defined d).1 o x trivial hx) (LMIOracle.for_new hb) he hr
    (fun y hy => (hball y hy).1) (fun y hy => (hball y hy).2)

/-- **C76** A whole low-pass design run performs no undefined operation, as long as filters better than the value it returns
fill a ball inside the first ellipsoid. -/
theorem C76_lowpass_run_defined {n : Nat} {d : LpData} (hd : d.Ok) (hs : d.stop < d.m) (o : LowpassOracle ℝ) {σ0 : ℝ}
    (ho : o.For d n σ0) (e : Ell ℝ) (he : e.Valid n) {γ : ℝ} (opts : Options ℝ) {p : Fin n → ℝ} {r : ℝ} (hr : 0 < r)
    (hE : ball p r ⊆ e.region n) {xb : Option (Arr ℝ)} {k : Nat} {γ' : ℝ} {o' : LowpassOracle ℝ} {e' : Ell ℝ}
    (hrun : cuttingPlaneOptim LowpassOracle.oracle Ell.space o e γ opts = .ok ((xb, k), γ', o', e'))
    (hbetter : ∀ x ∈ ball p r, x ∈ d.feasible γ' ∧ ∀ i, d.stop ≤ i → i < d.m → lpResponse x (d.freq i) < γ') :
    cuttingPlaneOptim LowpassOracle.oracle Ell.space o.lift e.lift (.val γ) opts.lift =
      .ok ((xb.map Arr.lift, k), .val γ', o'.lift, e'.lift) := by
  have hh : HonestOptim n LowpassOracle.oracle (fun o _ => ∃ σ, o.For d n σ) (lpBelow d) 0 := by
    intro w x γ hw hx
    obtain ⟨g, c, s, γ1, w1, h1, h2, h3, h4, h5, -, h7⟩ := lp_honest hd hs w x γ hw hx
    exact ⟨g, c, s, γ1, w1, h1, h2, h3, h4, h5, by simp only [normSq, dotProduct]; simpa using Finset.sum_nonneg fun i _ => mul_self_nonneg _, h7⟩
  exact C69_optim_defined LowpassOracle.oracle LowpassOracle.lift LowpassOracle.oracle _ (lpBelow d) r p o e γ opts hh
    (fun w x γ _ hx => (C76_lowpass_defined n).2 w x γ trivial hx) ⟨σ0, ho⟩ he hr hE hrun hbetter

end Ellalgo
