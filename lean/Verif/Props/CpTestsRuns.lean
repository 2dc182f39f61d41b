import Verif.Props.CpTestsProps
import Verif.Props.InfRuns
import Verif.Props.Bsearch

/-! C90, C91: the runs of `tests/cutting_plane_tests.rs`, from every start and with all options. -/

namespace Ellalgo
open Matrix
open scoped ComplexOrder

/-! ### the same cut for ever -/

theorem newWithScalar_reach {n : Nat} (hn : 2 ≤ n) {val : ℝ} (hv : 0 < val) {xc : Arr ℝ} (hx : xc.IsVecShape n) :
    ∃ e, Ell.newWithScalar val xc = .ok e ∧ e.Valid n ∧ e.xc = xc ∧ ∀ g, e.tsqOf n g = val * normSq g := by
  obtain ⟨y, h1, h2⟩ := eye_spec (α := ℝ) n
  have hl : xc.len = n := hx.2.2
  have hy : y.toMat n n = 1 := by
    rw [h2.toMat]
    ext i j
    simp only [of_apply, one_apply, Fin.ext_iff]
  refine ⟨Ell.newWithMatrix val y xc, by simp [Ell.newWithScalar, hl, h1], ?_, rfl, fun g => ?_⟩
  · refine C13_valid_with_matrix val y xc hn h2.shape hx ?_ hv
    rw [hy]
    exact PosDef.one
  · have hM : (Ell.newWithMatrix val y xc).M n = 1 := hy
    rw [Ell.tsqOf, hM, one_mulVec]
    rfl

theorem ones_reach : normSq (![1, 1] : Fin 2 → ℝ) = 2 := by simp [normSq]; norm_num

/-- the count of the tests: from `κ = 10` it is 2, for every tolerance of at most 1 and every limit of at least 3 -/
theorem cpt_two {tol : ℝ} (htol : tol ≤ 1) {m : Nat} (hm : 3 ≤ m) :
    FirstStop (fun i => stopsAt 1 tol (reach 2 (√(10 * 2)) 1 i)) m 2 := by
  have h1 : (4472 / 1000 : ℝ) < √(10 * 2) := by
    apply Real.lt_sqrt_of_sq_lt; norm_num
  have h2 : √(10 * 2) < (4473 / 1000 : ℝ) := by
    rw [Real.sqrt_lt (by norm_num) (by norm_num)]; norm_num
  refine ⟨by omega, fun i hi => ?_, fun _ => ?_⟩
  · have : i = 0 ∨ i = 1 := by omega
    rcases this with rfl | rfl
    · simp only [stopsAt, reach, pow_zero]
      push_cast
      generalize √(10 * 2) = s at h1 h2 ⊢
      rintro (h | h)
      · linarith
      · nlinarith
    · simp only [stopsAt, reach, pow_one]
      push_cast
      generalize √(10 * 2) = s at h1 h2 ⊢
      rintro (h | h)
      · linarith
      · nlinarith
  · left
    simp only [reach]
    push_cast
    linarith

/-- **C90** `MyOracleInfeas`, `MyOracleOptim2` and `MyOracleOptimQ2` on the ball of squared radius `val` around any point:
no point is found, `γ` is unchanged, and the three loops make the same, exactly known number of iterations. -/
theorem C90_test_oracles {val : ℝ} (hv : 0 < val) {xc : Arr ℝ} (hx : xc.IsVecShape 2) (γ : ℝ) (opts : Options ℝ) :
    ∃ e k e1 e2 e3, Ell.newWithScalar val xc = .ok e ∧
      cuttingPlaneFeas cptInfeas Ell.space () e opts = .ok ((none, k), (), e1) ∧
      cuttingPlaneOptim cptOptim2 Ell.space () e γ opts = .ok ((none, k), γ, (), e2) ∧
      cuttingPlaneOptimQ cptOptimQ2 Ell.space () e γ opts = .ok ((none, k), γ, (), e3) ∧
      FirstStop (fun i => stopsAt 1 opts.tolerance (reach 2 (√(val * 2)) 1 i)) opts.maxIters k := by
  obtain ⟨e, he, hval, -, ht⟩ := newWithScalar_reach le_rfl hv hx
  have hg := pair_shape 1 1
  have hgv := pair_toVec 1 1
  have hg0 : (Arr.ofList [(1 : ℝ), 1]).toVec 2 ≠ 0 := by
    rw [hgv]; intro h; simpa using congrFun h 0
  have hτ : e.tau 2 ((Arr.ofList [(1 : ℝ), 1]).toVec 2) = √(val * 2) := by
    rw [Ell.tau, ht, hgv, ones_reach]
  obtain ⟨k1, w1, e1, r1, f1⟩ := C90_feas_same_cut (c := (⟨1⟩ : SingleCut ℝ)) hval hg hg0 rfl zero_le_one (orc := cptInfeas)
    (fun w x _ => ⟨w, rfl⟩) () opts
  obtain ⟨k2, w2, e2, r2, f2⟩ := C90_optim_same_cut (c := (⟨1⟩ : SingleCut ℝ)) hval hg hg0 rfl zero_le_one (orc := cptOptim2)
    (fun w x γ _ => ⟨w, rfl⟩) () γ opts
  obtain ⟨k3, w3, e3, r3, f3⟩ := C90_optim_q_same_cut (c := (⟨1⟩ : SingleCut ℝ)) hval hg hg0 rfl zero_le_one
    (orc := cptOptimQ2) (fun w x γ r _ => ⟨x, true, w, rfl⟩) () γ opts
  obtain rfl := C90_first_stop_unique f1 f2
  obtain rfl := C90_first_stop_unique f1 f3
  rw [hτ] at f1
  exact ⟨e, k1, e1, e2, e3, he, r1, r2, r3, f1⟩

/-- **C90** The three tests: from `Ell::new_with_scalar(10.0, …)` the count is 2, for all tolerances of at most 1, all
limits of at least 3, all centres and all `γ`. -/
theorem C90_tests_count {xc : Arr ℝ} (hx : xc.IsVecShape 2) (γ : ℝ) {opts : Options ℝ} (htol : opts.tolerance ≤ 1)
    (hm : 3 ≤ opts.maxIters) :
    ∃ e e1 e2 e3, Ell.newWithScalar 10 xc = .ok e ∧
      cuttingPlaneFeas cptInfeas Ell.space () e opts = .ok ((none, 2), (), e1) ∧
      cuttingPlaneOptim cptOptim2 Ell.space () e γ opts = .ok ((none, 2), γ, (), e2) ∧
      cuttingPlaneOptimQ cptOptimQ2 Ell.space () e γ opts = .ok ((none, 2), γ, (), e3) := by
  obtain ⟨e, k, e1, e2, e3, h, r1, r2, r3, f⟩ := C90_test_oracles (val := 10) (by norm_num) hx γ opts
  obtain rfl := C90_first_stop_unique f (cpt_two htol hm)
  exact ⟨e, e1, e2, e3, h, r1, r2, r3⟩

/-! ### `MyOracleFeas` -/

theorem cptFeas_honest : HonestFeas 2 (cptFeas (α := ℝ)) (fun _ => True) cptHalf 1 := by
  intro w x _ hx
  rcases C91_feas_answer x hx with ⟨h, -⟩ | ⟨g, β, h, -, hg, hgv, hβ, hz⟩
  · exact ⟨none, (), h, trivial, by simp⟩
  · refine ⟨_, (), h, trivial, ?_⟩
    intro g' c' he
    simp only [Option.some.injEq, Prod.mk.injEq] at he
    obtain ⟨rfl, rfl⟩ := he
    refine ⟨hg, ?_, ?_, hβ.le, fun y hy => ⟨by simpa using hz y hy, by simp⟩⟩
    · rw [hgv]; intro h; simpa using congrFun h 0
    · rw [hgv, ones_reach]; norm_num

/-- **C91** `cutting_plane_feas` with `MyOracleFeas` never panics; what it returns satisfies `x + y ≤ 3`; a feasible centre is
returned after 0 iterations; and a feasible point is found within `3 ln(det(κM)/r⁴)` iterations if the ellipsoid contains a
ball of radius `r` of feasible points. -/
theorem C91_feas_run {e : Ell ℝ} (he : e.Valid 2) (opts : Options ℝ) :
    ∃ r k e', cuttingPlaneFeas cptFeas Ell.space () e opts = .ok ((r, k), (), e') ∧
      (∀ x, r = some x → x.IsVecShape 2 ∧ x.toVec 2 ∈ cptHalf) ∧
      (e.c 2 ∈ cptHalf → 0 < opts.maxIters → r = some e.xc ∧ k = 0 ∧ e' = e) ∧
      (∀ p ρ, 0 < ρ → ball p ρ ⊆ cptHalf → ball p ρ ⊆ e.region 2 → opts.tolerance ≤ ρ ^ 2 →
        3 * Real.log ((e.kappa • e.M 2).det / (ρ ^ 2) ^ 2) < opts.maxIters →
        r.isSome = true ∧ (k : ℝ) ≤ 3 * Real.log ((e.kappa • e.M 2).det / (ρ ^ 2) ^ 2)) := by
  obtain ⟨r, k, w', e', hrun, hr⟩ := feas_accepted (orc := cptFeas (α := ℝ)) (sp := Ell.space) (n := 2)
    (C86_ell_steady (by norm_num)).1 (I := fun _ => True)
    (fun w x _ hx => by
      obtain ⟨r, w', h, -, hc⟩ := cptFeas_honest w x trivial hx
      exact ⟨r, w', h, trivial, fun c hcc => (hc c.1 c.2 hcc).1⟩) (w := ()) (s := e) opts trivial he.shaped
  refine ⟨r, k, e', hrun, ?_, ?_, ?_⟩
  · intro x hx
    obtain ⟨hs, w1, -, ha⟩ := hr x hx
    refine ⟨hs, ?_⟩
    rcases C91_feas_answer x hs with ⟨-, h⟩ | ⟨g, β, h, -⟩
    · exact h
    · have : cptFeasAssess () x = .ok (none, w') := ha
      rw [h] at this
      simp at this
  · intro hc hm
    obtain ⟨m, hm'⟩ : ∃ m, opts.maxIters = m + 1 := ⟨opts.maxIters - 1, by omega⟩
    have hx : cptFeas.assess () (Ell.space (T := SingleCut ℝ).xc e) = .ok (none, ()) := by
      rcases C91_feas_answer e.xc he.shaped.2 with ⟨h, -⟩ | ⟨g, β, -, h, -⟩
      · exact h
      · exact absurd hc h
    rw [cuttingPlaneFeas, hm', feasLoop, hx, Res.ok_bind] at hrun
    simp only [Res.ok.injEq, Prod.mk.injEq] at hrun
    obtain ⟨⟨rfl, rfl⟩, -, rfl⟩ := hrun
    exact ⟨rfl, rfl, rfl⟩
  · intro p ρ hρ h1 h2 h3 h4
    obtain ⟨x, k', w1, w2, e2, hrun', -, -, -, hk⟩ := C22_feas_converges cptFeas (fun _ => True) cptHalf 1 ρ p () e opts
      cptFeas_honest trivial he hρ h1 h2 (by linarith) (by push_cast; linarith)
    rw [hrun] at hrun'
    simp only [Res.ok.injEq, Prod.mk.injEq] at hrun'
    obtain ⟨⟨rfl, rfl⟩, -⟩ := hrun'
    exact ⟨rfl, by push_cast at hk; linarith⟩

/-! ### the first point of an optimisation run -/

section
variable {Ω S X T α : Type} [Scalar α]

theorem optimLoop_stays_some {orc : OracleOptim Ω X T α} {sp : Space S X T α} {tol : α} :
    ∀ (m k0 : Nat) (x : X) (w : Ω) (s : S) (γ : α) r, optimLoop orc sp tol m k0 (some x) w s γ = .ok r → r.1.1.isSome = true := by
  intro m
  induction m with
  | zero => intro k0 x w s γ r h; simp only [optimLoop, Res.ok.injEq] at h; rw [← h]; rfl
  | succ m ih =>
    intro k0 x w s γ r h
    unfold optimLoop at h
    obtain ⟨⟨⟨cut, b⟩, γ1, w1⟩, hq, h⟩ := Res.bind_eq_ok.1 h
    obtain ⟨y, hy⟩ : ∃ y, (if b = true then some (sp.xc s) else some x) = some y := by
      cases b
      · exact ⟨x, rfl⟩
      · exact ⟨_, rfl⟩
    simp only [hy] at h
    obtain ⟨⟨st, s1⟩, hu, h⟩ := Res.bind_eq_ok.1 h
    dsimp only at h
    split at h
    · simp only [Res.ok.injEq] at h; rw [← h]; rfl
    · exact ih _ _ _ _ _ _ h

/-- **C91** (generic)  An optimisation run finds a point whenever the feasibility run on the same oracle, at the value of
`γ` it starts with, does.  For every oracle that leaves `γ` alone when it reports no improvement, and every search space. -/
theorem C91_first_point {orc : OracleOptim Ω X T α} {sp : Space S X T α}
    (hfix : ∀ w x γ c γ' w', orc.assess w x γ = .ok ((c, false), γ', w') → γ' = γ) (w : Ω) (s : S) (γ : α) (opts : Options α)
    {x : X} {k : Nat} {w1 : Ω} {s1 : S} (hf : cuttingPlaneFeas (orc.feasAt γ) sp w s opts = .ok ((some x, k), w1, s1))
    {r : Option X} {k' : Nat} {γ' : α} {w2 : Ω} {s2 : S}
    (ho : cuttingPlaneOptim orc sp w s γ opts = .ok ((r, k'), γ', w2, s2)) : r.isSome = true := by
  have key : ∀ (m k0 : Nat) (w : Ω) (s : S) f, feasLoop (orc.feasAt γ) sp opts.tolerance m k0 w s = .ok f → f.1.1.isSome = true →
      ∀ o, optimLoop orc sp opts.tolerance m k0 none w s γ = .ok o → o.1.1.isSome = true := by
    intro m
    induction m with
    | zero =>
      intro k0 w s f hf hs o ho
      simp only [feasLoop, Res.ok.injEq] at hf
      rw [← hf] at hs
      simp at hs
    | succ m ih =>
      intro k0 w s f hf hs o ho
      unfold feasLoop at hf
      unfold optimLoop at ho
      obtain ⟨⟨⟨cut, b⟩, γ1, w1⟩, hq, ho⟩ := Res.bind_eq_ok.1 ho
      simp only [OracleOptim.feasAt, hq, Res.ok_bind] at hf
      cases b with
      | true =>
        simp only [if_true] at ho
        obtain ⟨⟨st, s1⟩, hu, ho⟩ := Res.bind_eq_ok.1 ho
        dsimp only at ho
        split at ho
        · simp only [Res.ok.injEq] at ho; rw [← ho]; rfl
        · exact optimLoop_stays_some _ _ _ _ _ _ _ ho
      | false =>
        obtain rfl := (hfix _ _ _ _ _ _ hq).symm
        simp only [Bool.false_eq_true, if_false] at hf
        simp only [Bool.false_eq_true, if_false] at ho
        obtain ⟨⟨st, s1⟩, hu, ho⟩ := Res.bind_eq_ok.1 ho
        have hu' : sp.updateBias s cut = .ok (st, s1) := hu
        simp only [hu', Res.ok_bind] at hf
        dsimp only at ho
        split at ho
        · rename_i hc
          rw [if_pos hc] at hf
          simp only [Res.ok.injEq] at hf
          rw [← hf] at hs
          simp at hs
        · rename_i hc
          rw [if_neg hc] at hf
          exact ih _ _ _ _ hf hs _ ho
  exact key _ _ _ _ _ hf rfl _ ho

end

/-! ### `MyOracleOptim` -/

theorem cptOptim_feas_honest (γ : ℝ) : HonestFeas 2 ((cptOptim (α := ℝ)).feasAt γ) (fun _ => True) (cptBox γ) 1 := by
  intro w x _ hx
  obtain ⟨g, β, shrunk, h, hg, hg1, -, h2, -⟩ := C91_optim_answer x γ hx
  have hq : cptOptim.assess w x γ = .ok (((g, ⟨β⟩), shrunk), γ, ()) := h
  refine ⟨_, (), by simp only [OracleOptim.feasAt, hq, Res.ok_bind]; rfl, trivial, ?_⟩
  cases shrunk
  · intro g' c' he
    simp only [Bool.false_eq_true, if_false, Option.some.injEq, Prod.mk.injEq] at he
    obtain ⟨rfl, rfl⟩ := he
    obtain ⟨hβ, hz⟩ := h2 rfl
    refine ⟨hg, ?_, by linarith, hβ.le, fun y hy => ⟨by simpa using hz y hy, by simp⟩⟩
    intro h0
    rw [h0] at hg1
    simp [normSq] at hg1
    linarith
  · simp

/-- **C91** `cutting_plane_optim` with `MyOracleOptim` never panics and never changes `γ`; a returned point satisfies
`x ≤ 1`, `y ≤ 1` and `x + y ≥ γ`; a point is returned if the first centre is acceptable, or if the ellipsoid contains a ball
of radius `r` of acceptable points and there are at least `3 ln(det(κM)/r⁴)` iterations. -/
theorem C91_optim_run {e : Ell ℝ} (he : e.Valid 2) (γ : ℝ) (opts : Options ℝ) :
    ∃ r k e', cuttingPlaneOptim cptOptim Ell.space () e γ opts = .ok ((r, k), γ, (), e') ∧
      (∀ x, r = some x → x.IsVecShape 2 ∧ x.toVec 2 ∈ cptBox γ) ∧
      (e.c 2 ∈ cptBox γ → 0 < opts.maxIters → r.isSome = true) ∧
      (∀ p ρ, 0 < ρ → ball p ρ ⊆ cptBox γ → ball p ρ ⊆ e.region 2 → opts.tolerance ≤ ρ ^ 2 →
        3 * Real.log ((e.kappa • e.M 2).det / (ρ ^ 2) ^ 2) < opts.maxIters → r.isSome = true) := by
  obtain ⟨r, k, γ', w', e', hrun, hγ, -, hr⟩ := optim_accepted (orc := cptOptim (α := ℝ)) (sp := Ell.space) (n := 2)
    (C86_ell_steady (by norm_num)).1 (I := fun _ g => g = γ)
    (fun w x g hg hx => by
      obtain ⟨gr, β, shrunk, h, hgr, -⟩ := C91_optim_answer x g hx
      exact ⟨(gr, ⟨β⟩), shrunk, g, (), h, hg, fun _ => rfl, hgr⟩) (w := ()) (s := e) (g := γ) opts rfl he.shaped
  subst hγ
  have hfix : ∀ (w : Unit) (x : Arr ℝ) (γ : ℝ) c γ' w', cptOptim.assess w x γ = .ok ((c, false), γ', w') → γ' = γ := by
    intro w x γ c γ' w' h
    have h : cptOptimAssess w x γ = .ok ((c, false), γ', w') := h
    unfold cptOptimAssess at h
    obtain ⟨a, -, h⟩ := Res.bind_eq_ok.1 h
    obtain ⟨b, -, h⟩ := Res.bind_eq_ok.1 h
    dsimp only at h
    repeat' split at h
    all_goals simp_all
  refine ⟨r, k, e', hrun, ?_, ?_, ?_⟩
  · intro x hx
    obtain ⟨hs, w1, g1, c, w2, rfl, ha⟩ := hr x hx
    refine ⟨hs, ?_⟩
    obtain ⟨gr, β, shrunk, h, -, -, hb, -⟩ := C91_optim_answer x g1 hs
    have ha : cptOptimAssess () x g1 = _ := ha
    rw [h] at ha
    simp only [Res.ok.injEq, Prod.mk.injEq] at ha
    exact hb.1 ha.1.2
  · intro hc hm
    obtain ⟨m, hm'⟩ : ∃ m, opts.maxIters = m + 1 := ⟨opts.maxIters - 1, by omega⟩
    obtain ⟨gr, β, shrunk, h, -, -, hb, -⟩ := C91_optim_answer e.xc γ' he.shaped.2
    obtain rfl := hb.2 hc
    refine C91_first_point hfix () e γ' opts (x := e.xc) (k := 0) (w1 := ()) (s1 := e) ?_ hrun
    have hq : cptOptim.assess () e.xc γ' = .ok (((gr, ⟨β⟩), true), γ', ()) := h
    have hq' : ((cptOptim (α := ℝ)).feasAt γ').assess () (Ell.space (T := SingleCut ℝ).xc e) = .ok (none, ()) := by
      show ((cptOptim (α := ℝ)).feasAt γ').assess () e.xc = .ok (none, ())
      simp only [OracleOptim.feasAt, hq, Res.ok_bind]
      rfl
    rw [cuttingPlaneFeas, hm', feasLoop, hq', Res.ok_bind]
    rfl
  · intro p ρ hρ h1 h2 h3 h4
    obtain ⟨x, k', w1, w2, e2, hrun', -⟩ := C22_feas_converges ((cptOptim (α := ℝ)).feasAt γ') (fun _ => True) (cptBox γ') 1 ρ p () e
      opts (cptOptim_feas_honest γ') trivial he hρ h1 h2 (by linarith) (by push_cast; linarith)
    exact C91_first_point hfix () e γ' opts hrun' hrun

end Ellalgo
