import Verif.Props.InfOracles
import Verif.Props.CheckedOracleProps
import Verif.Props.RateExamples
import Verif.Props.NoSolnComplete

/-! C85: whole runs that start at an infinity, compared with the run over ℝ, and runs that start at the wrong infinity. -/

namespace Ellalgo
open Filter Matrix
variable {Ω Ω' : Type} {n : Nat}

theorem Arr.lift_noInf (a : Arr ℝ) : a.lift.All Chk.NoInf := by
  intro v hv
  simp only [Arr.lift, List.mem_map] at hv
  obtain ⟨x, -, rfl⟩ := hv
  exact Chk.noInf_val x

/-- an ellipsoid of real numbers has no infinite entries -/
theorem Ell.lift_noInf (e : Ell ℝ) : e.lift.All Chk.NoInf :=
  ⟨Arr.lift_noInf _, Arr.lift_noInf _, Chk.noInf_val _, Chk.noInf_val _, Chk.noInf_val _, Chk.noInf_val _, Chk.noInf_val _,
    Chk.noInf_val _, Chk.noInf_val _, Chk.noInf_val _⟩

theorem EllCalc.new_noInf (m : Nat) : (EllCalc.new m : EllCalc Chk).All Chk.NoInf := by
  have hC := noInf_closed
  have hN := hC.nat m
  exact ⟨hN, hN, hC.add hN hC.one, hC.div hN (hC.nat 2), hC.div hC.one hN,
    hC.div (hC.mul hN hN) (hC.sub (hC.mul hN hN) hC.one), hC.mul (hC.nat 2) (hC.div hC.one (hC.add hN hC.one))⟩

/-- **C85** (constructors)  The constructors from data without infinities give ellipsoids without infinite entries, in every
dimension (also in dimension 1, where some parameters are undefined). -/
theorem C85_constructors (κ : Chk) (hκ : κ.NoInf) (mq xc : Arr Chk) (hm : mq.All Chk.NoInf) (hx : xc.All Chk.NoInf) :
    (Ell.newWithMatrix κ mq xc).All Chk.NoInf ∧ (EllStable.newWithMatrix κ mq xc).All Chk.NoInf :=
  ⟨⟨hm, hx, hκ, EllCalc.new_noInf _⟩, ⟨hm, hx, hκ, EllCalc.new_noInf _⟩⟩

/-- **C85** (exact run)  For an honest oracle whose own arithmetic is defined, and every finite first `gamma` far enough in the
direction `l`: if the exact run from there still leaves a ball of better points, then the run from the infinity performs
the same steps, without an undefined operation, and returns the same point, iteration count, oracle and ellipsoid. -/
theorem C85_exact_run {l : Filter ℝ} {top : Chk} (orc : OracleOptim Ω (Arr ℝ) (SingleCut ℝ) ℝ) (L : Ω → Ω')
    (orc' : OracleOptim Ω' (Arr Chk) (SingleCut Chk) Chk) (I : Ω → ℝ → Prop) (J : Ω' → Prop) (S : ℝ → Set (Fin n → ℝ))
    (hor : HonestOptim n orc I S 0) (hc : orc.CheckedBy n I L orc') (hb : orc'.BlankAt l top J) (w : Ω) (hJ : J (L w))
    (hw : ∀ᶠ γ in l, I w γ) (e : Ell ℝ) (he : e.Valid n) (opts : Options ℝ) :
    ∀ᶠ γ in l, ∀ xb k γ' w' e', cuttingPlaneOptim orc Ell.space w e γ opts = .ok ((xb, k), γ', w', e') →
      (∃ p r, 0 < r ∧ ball p r ⊆ e.region n ∧ ball p r ⊆ S γ') →
      cuttingPlaneOptim orc' Ell.space (L w) e.lift top opts.lift =
        .ok ((xb.map Arr.lift, k), (if xb.isSome then .val γ' else top), L w', e'.lift) := by
  filter_upwards [hw, C85_infinite_start hb (L w) hJ e.lift e.lift_noInf opts.lift] with γ hγ h1
  rintro xb k γ' w' e' hr ⟨p, r, hr0, hE, hS⟩
  rw [h1, C69_optim_defined orc L orc' I S r p w e γ opts hor hc hγ he hr0 hE hr hS]
  cases xb <;> rfl

/-! ### the wrong infinity -/

/-- **C85** (wrong infinity)  An oracle that finds no better point when `gamma = top`: the run returns no point, and `gamma` is still
`top`, for every search space, option setting and oracle state. -/
theorem C85_never_improves {X T S : Type} {α : Type} [Scalar α] {top : α} {orc : OracleOptim Ω X T α}
    (h : ∀ w x c s γ' w', orc.assess w x top = .ok ((c, s), γ', w') → s = false ∧ γ' = top) (sp : Space S X T α)
    (w : Ω) (s : S) (opts : Options α) {xb k γ' w' s'}
    (hr : cuttingPlaneOptim orc sp w s top opts = .ok ((xb, k), γ', w', s')) : xb = none ∧ γ' = top := by
  have key : ∀ m n0 w s g0, g0 = top → optimLoop orc sp opts.tolerance m n0 none w s g0 = .ok ((xb, k), γ', w', s') →
      xb = none ∧ γ' = top := by
    intro m
    induction m with
    | zero =>
      intro n0 w s g0 hg hr
      simp only [optimLoop, Res.ok.injEq, Prod.mk.injEq] at hr
      exact ⟨hr.1.1.symm, hr.2.1.symm.trans hg⟩
    | succ m ih =>
      intro n0 w s g0 hg hr
      unfold optimLoop at hr
      cases hq : orc.assess w (sp.xc s) g0 with
      | panic => rw [hq] at hr; simp at hr
      | ok r =>
        obtain ⟨⟨c, sh⟩, g1, w1⟩ := r
        rw [hq] at hr
        obtain ⟨rfl, h1⟩ := h _ _ _ _ _ _ (hg ▸ hq)
        simp only [Res.ok_bind, Bool.false_eq_true, if_false] at hr
        cases hu : sp.updateBias s c with
        | panic => rw [hu] at hr; simp at hr
        | ok r =>
          obtain ⟨st, s1⟩ := r
          rw [hu] at hr
          simp only [Res.ok_bind] at hr
          split at hr
          · simp only [Res.ok.injEq, Prod.mk.injEq] at hr
            exact ⟨hr.1.1.symm, hr.2.1.symm.trans h1⟩
          · exact ih _ _ _ _ h1 hr
  exact key _ _ _ _ _ rfl hr

theorem lt_negInf (f : Chk) : Scalar.lt f Chk.negInf = false := by
  cases f with
  | bad => rfl
  | val x => rfl
  | inf s => cases s <;> rfl

theorem quadAnswer_negInf {o : Ω} {g : Arr Chk} {f : Chk} {c s γ' w'}
    (h : quadAnswer o g f Chk.negInf = .ok ((c, s), γ', w')) : s = false ∧ γ' = .negInf := by
  simp only [quadAnswer, lt_negInf, Bool.false_eq_true, if_false, Res.ok.injEq, Prod.mk.injEq] at h
  exact ⟨h.1.2.symm, h.2.1.symm⟩

/-- **C85** (benchmark)  benches/ellipsoid.rs:36 starts a minimisation at `f64::NEG_INFINITY`.  Whatever the ellipsoid, its
dimension and the options: if the run returns, then without a point and with `gamma` still `-∞`.  The same holds for the
quadratic oracles of the tests. -/
theorem C85_minimise_from_neg_inf {S : Type} (opts : Options Chk) :
    (∀ (sp : Space S (Arr Chk) (SingleCut Chk) Chk) s xb k γ' w' s',
      cuttingPlaneOptim benchOracle sp () s .negInf opts = .ok ((xb, k), γ', w', s') → xb = none ∧ γ' = .negInf) ∧
    (∀ (sp : Space S (Arr Chk) (SingleCut Chk) Chk) s xb k γ' w' s',
      cuttingPlaneOptim quadOracle sp () s .negInf opts = .ok ((xb, k), γ', w', s') → xb = none ∧ γ' = .negInf) ∧
    (∀ (sp : Space S (Arr Chk) (SingleCut Chk) Chk) w s xb k γ' w' s',
      cuttingPlaneOptim targetOracle sp w s .negInf opts = .ok ((xb, k), γ', w', s') → xb = none ∧ γ' = .negInf) := by
  refine ⟨fun sp s xb k γ' w' s' hr => C85_never_improves ?_ sp () s opts hr,
    fun sp s xb k γ' w' s' hr => C85_never_improves ?_ sp () s opts hr,
    fun sp w s xb k γ' w' s' hr => C85_never_improves ?_ sp w s opts hr⟩
  · intro w x c s γ' w' h
    obtain ⟨f, -, h⟩ := Res.bind_eq_ok.1 (show benchAssess w x _ = _ from h)
    exact quadAnswer_negInf h
  · intro w x c s γ' w' h
    obtain ⟨a, -, h⟩ := Res.bind_eq_ok.1 (show quadAssess w x _ = _ from h)
    obtain ⟨b, -, h⟩ := Res.bind_eq_ok.1 h
    exact quadAnswer_negInf h
  · intro w x c s γ' w' h
    obtain ⟨a, -, h⟩ := Res.bind_eq_ok.1 (show targetAssess w x _ = _ from h)
    obtain ⟨b, -, h⟩ := Res.bind_eq_ok.1 h
    exact quadAnswer_negInf h

/-- **C85** (benchmark)  On an ellipsoid of any dimension, with any entries (`Arr::new(dim)` and radius `10.0` in the benchmark)
the run does return: no panic, no point, `gamma = -∞`. -/
theorem C85_benchmark_returns (hn : 0 < n) (e : Ell Chk) (he : e.Shaped n) (opts : Options Chk) :
    ∃ k e', cuttingPlaneOptim benchOracle Ell.space () e .negInf opts = .ok ((none, k), .negInf, (), e') ∧
      k ≤ opts.maxIters := by
  have key : ∀ m n0 (e : Ell Chk), e.Shaped n → ∃ k e', optimLoop benchOracle Ell.space opts.tolerance m n0 none () e .negInf =
      .ok ((none, k), .negInf, (), e') ∧ k ≤ n0 + m := by
    intro m
    induction m with
    | zero => exact fun n0 e _ => ⟨_, _, rfl, le_rfl⟩
    | succ m ih =>
      intro n0 e he
      have hx := he.2
      obtain ⟨f, hf⟩ : ∃ f, e.xc.dot e.xc = .ok f := by
        have := hx.isVec
        exact ⟨_, dot_spec this this⟩
      obtain ⟨st, e1, hu, he1, -⟩ := Ell.update_shape hn .bias e (e.xc.smul (nat 2), (⟨f⟩ : SingleCut Chk)) he (by
        obtain ⟨a, b, c⟩ := hx
        exact ⟨a, b, by simpa [Arr.smul, Arr.map] using c⟩)
      have hq : (benchOracle (α := Chk)).assess () (Ell.space (T := SingleCut Chk).xc e) .negInf =
          .ok (((e.xc.smul (nat 2), ⟨f⟩), false), .negInf, ()) := by
        show benchAssess () e.xc _ = _
        simp only [benchAssess, hf, Res.ok_bind, quadAnswer, lt_negInf, Bool.false_eq_true, if_false]
      have hu' : (Ell.space (T := SingleCut Chk)).updateBias e (e.xc.smul (nat 2), ⟨f⟩) = .ok (st, e1) := hu
      unfold optimLoop
      simp only [hq, Res.ok_bind, Bool.false_eq_true, if_false, hu']
      split
      · exact ⟨_, _, rfl, by omega⟩
      · obtain ⟨k, e', h1, h2⟩ := ih (n0 + 1) e1 he1
        exact ⟨k, e', h1, by omega⟩
  obtain ⟨k, e', h1, h2⟩ := key opts.maxIters 0 e he
  exact ⟨k, e', h1, by omega⟩

/-- **C85** (wrong infinity)  `example1` (a maximisation) started at `gamma = +∞`: if the centre satisfies the two constraints, then the
first cut is `+∞` deep, the status is `NoSoln`, and the run ends in its first iteration without a point. -/
theorem C85_maximise_from_pos_inf (e : Ell ℝ) (he : e.Shaped 2) (hF : e.xc.toVec 2 ∈ ex1F)
    (opts : Options Chk) (hm : 1 ≤ opts.maxIters) :
    ∃ e', cuttingPlaneOptim ex1Oracle Ell.space () e.lift .posInf opts = .ok ((none, 0), .posInf, (), e') ∧
      e'.mq = e.lift.mq ∧ e'.xc = e.lift.xc ∧ e'.kappa = e.lift.kappa := by
  obtain ⟨m, hm'⟩ : ∃ m, opts.maxIters = m + 1 := ⟨opts.maxIters - 1, by omega⟩
  obtain ⟨h0, h1⟩ := idx_pair he.2
  have c1 : ¬ (0 : ℝ) < e.xc.toVec 2 0 + e.xc.toVec 2 1 - 3 := by have := hF.1; linarith
  have c2 : ¬ (0 : ℝ) < -e.xc.toVec 2 0 + e.xc.toVec 2 1 + 1 := by have := hF.2; linarith
  have hq : (ex1Oracle (α := Chk)).assess () (Ell.space (T := SingleCut Chk).xc e.lift) .posInf =
      .ok (((Arr.ofList [-1, -1], ⟨.posInf⟩), false), .posInf, ()) := by
    show ex1Assess () e.xc.lift _ = _
    have c1' : Scalar.gt (Chk.val (e.xc.toVec 2 0) + Chk.val (e.xc.toVec 2 1) - nat 3) 0 = false := by
      rw [Chk.add_val, Chk.ofNat_val, Chk.sub_val, Chk.zero_val, Chk.gt_val]
      simpa using c1
    have c2' : Scalar.gt (-Chk.val (e.xc.toVec 2 0) + Chk.val (e.xc.toVec 2 1) + 1) 0 = false := by
      rw [Chk.neg_val, Chk.add_val, Chk.one_val, Chk.add_val, Chk.zero_val, Chk.gt_val]
      simpa using c2
    simp only [ex1Assess, Arr.idx_lift, h0, h1, Res.map, Res.ok_bind, c1', c2', Bool.false_eq_true, if_false]
    rfl
  obtain ⟨v, hv, hv2⟩ := dotMv_spec he.1.isMat (pair_shape (-1 : ℝ) (-1)).isVec (by norm_num)
  obtain ⟨ω, hd⟩ : ∃ ω, (Arr.ofList [(-1 : ℝ), -1]).dot v = .ok ω := ⟨_, dot_spec (pair_shape (-1 : ℝ) (-1)).isVec hv2⟩
  have hl : (Arr.ofList [-1, -1] : Arr Chk) = (Arr.ofList [(-1 : ℝ), -1]).lift := by
    rw [← Arr.ofList_lift]; rfl
  have hv' : e.lift.mq.dotMv (Arr.ofList [-1, -1]) = .ok v.lift := by
    rw [hl]; exact (Arr.dotMv_lift _ _).trans (by rw [hv]; rfl)
  have hd' : (Arr.ofList [-1, -1] : Arr Chk).dot v.lift = .ok (.val ω) := by
    rw [hl]; exact (Arr.dot_lift _ _).trans (by rw [hd]; rfl)
  have hu : (Ell.space (T := SingleCut Chk)).updateBias e.lift (Arr.ofList [-1, -1], ⟨.posInf⟩) =
      .ok (.noSoln, { e.lift with tsq := .val (e.kappa * ω) }) := by
    show Ell.updateBias e.lift _ = _
    unfold Ell.updateBias Ell.updateCore
    simp only [hv', Res.ok_bind, hd']
    rfl
  refine ⟨{ e.lift with tsq := .val (e.kappa * ω) }, ?_, rfl, rfl, rfl⟩
  unfold cuttingPlaneOptim
  rw [hm']
  unfold optimLoop
  simp only [hq, Res.ok_bind, Bool.false_eq_true, if_false, hu]
  rfl

/-! ### minimisation from `+∞` finds a point -/

/-- an oracle that always answers, with a gradient of the right length, never makes the run panic -/
theorem optim_total {α : Type} [Scalar α] (hn : 0 < n) {orc : OracleOptim Ω (Arr α) (SingleCut α) α}
    (ho : ∀ w x γ, x.IsVecShape n → ∃ g β s γ' w', orc.assess w x γ = .ok (((g, ⟨β⟩), s), γ', w') ∧ g.IsVecShape n)
    (tol : α) (m : Nat) : ∀ n0 xb w (e : Ell α) γ, e.Shaped n →
      ∃ r, optimLoop orc Ell.space tol m n0 xb w e γ = .ok r := by
  induction m with
  | zero => exact fun n0 xb w e γ _ => ⟨_, rfl⟩
  | succ m ih =>
    intro n0 xb w e γ he
    obtain ⟨g, β, s, γ', w', h1, h2⟩ := ho w e.xc γ he.2
    have h1 : orc.assess w (Ell.space (T := SingleCut α).xc e) γ = _ := h1
    have key : ∀ k : UpdateKind, ∃ st e1, (Ell.space (T := SingleCut α)).update k e (g, ⟨β⟩) = .ok (st, e1) ∧ e1.Shaped n :=
      fun k => by
        obtain ⟨st, e1, hu, he1, -⟩ := Ell.update_shape hn k e (g, (⟨β⟩ : SingleCut α)) he h2
        exact ⟨st, e1, hu, he1⟩
    unfold optimLoop
    cases s with
    | true =>
      obtain ⟨st, e1, hu, he1⟩ := key .central
      have hu : (Ell.space (T := SingleCut α)).updateCentral e (g, ⟨β⟩) = _ := hu
      simp only [h1, Res.ok_bind, if_true, hu]
      split
      · exact ⟨_, rfl⟩
      · exact ih _ _ _ _ _ he1
    | false =>
      obtain ⟨st, e1, hu, he1⟩ := key .bias
      have hu : (Ell.space (T := SingleCut α)).updateBias e (g, ⟨β⟩) = _ := hu
      simp only [h1, Res.ok_bind, Bool.false_eq_true, if_false, hu]
      split
      · exact ⟨_, rfl⟩
      · exact ih _ _ _ _ _ he1

/-- if moreover the first query reports a better point, the run returns a point -/
theorem optim_some {α : Type} [Scalar α] (hn : 0 < n) {orc : OracleOptim Ω (Arr α) (SingleCut α) α}
    (ho : ∀ w x γ, x.IsVecShape n → ∃ g β s γ' w', orc.assess w x γ = .ok (((g, ⟨β⟩), s), γ', w') ∧ g.IsVecShape n)
    (w : Ω) (e : Ell α) (he : e.Shaped n) (γ : α) (opts : Options α) (hm : 1 ≤ opts.maxIters) {c γ1 w1}
    (hq : orc.assess w e.xc γ = .ok ((c, true), γ1, w1)) :
    ∃ x k γ' w' e', cuttingPlaneOptim orc Ell.space w e γ opts = .ok ((some x, k), γ', w', e') := by
  obtain ⟨m, hm⟩ : ∃ m, opts.maxIters = m + 1 := ⟨opts.maxIters - 1, by omega⟩
  obtain ⟨⟨⟨xb, k⟩, γ', w', e'⟩, hr⟩ := optim_total hn ho opts.tolerance opts.maxIters 0 none w e γ he
  have hs : xb.isSome = true := by
    have hq : orc.assess w (Ell.space (T := SingleCut α).xc e) γ = _ := hq
    rw [hm] at hr
    unfold optimLoop at hr
    simp only [hq, Res.ok_bind, if_true] at hr
    obtain ⟨⟨st, e1⟩, -, hr⟩ := Res.bind_eq_ok.1 hr
    simp only at hr
    split at hr
    · simp only [Res.ok.injEq, Prod.mk.injEq] at hr
      rw [← hr.1.1]; rfl
    · have := optimLoop_some orc Ell.space opts.tolerance m (0 + 1) (Ell.space (T := SingleCut α).xc e) w1 e1 γ1
      rw [hr] at this
      exact this
  obtain ⟨x, rfl⟩ := Option.isSome_iff_exists.1 hs
  exact ⟨x, k, γ', w', e', hr⟩

theorem quadAnswer_total {α : Type} [Scalar α] (o : Ω) {g : Arr α} (hg : g.IsVecShape n) (f γ : α) :
    ∃ g' β s γ' w', quadAnswer o g f γ = .ok (((g', ⟨β⟩), s), γ', w') ∧ g'.IsVecShape n := by
  unfold quadAnswer
  split
  · exact ⟨_, _, _, _, _, rfl, hg⟩
  · exact ⟨_, _, _, _, _, rfl, hg⟩

/-- **C85** (minimisation)  The documented minimisation (cutting_plane.rs:258-285, also tests/integration_test.rs and
tests/regression_tests.rs) starts at `f64::INFINITY`.  From every ellipsoid of real numbers and for every option setting with
at least one iteration it returns a point; in two dimensions for the quadratic of the documentation, in every dimension for
the one of the benchmark. -/
theorem C85_minimise_finds_point (e : Ell ℝ) (opts : Options Chk) (hm : 1 ≤ opts.maxIters) :
    (e.Shaped 2 → ∃ x k γ' e', cuttingPlaneOptim quadOracle Ell.space () e.lift .posInf opts = .ok ((some x, k), γ', (), e')) ∧
      ∀ n, 0 < n → e.Shaped n →
        ∃ x k γ' e', cuttingPlaneOptim benchOracle Ell.space () e.lift .posInf opts = .ok ((some x, k), γ', (), e') := by
  have hl : ∀ n, e.Shaped n → e.lift.Shaped n := fun n he =>
    ⟨⟨he.1.1, he.1.2.1, by simpa [Ell.lift, Arr.lift] using he.1.2.2⟩, ⟨he.2.1, he.2.2.1, by simpa [Ell.lift, Arr.lift] using he.2.2.2⟩⟩
  constructor
  · intro he
    obtain ⟨h0, h1⟩ := idx_pair he.2
    obtain ⟨x, k, γ', ⟨⟩, e', hr⟩ := optim_some (n := 2) (by norm_num) (orc := quadOracle) (fun w x γ hx => by
      have v := hx.isVec
      show ∃ g β s γ' w', quadAssess w x γ = _ ∧ _
      simp only [quadAssess, v.idx (by norm_num : 0 < 2), v.idx (by norm_num : 1 < 2), Res.ok_bind]
      exact quadAnswer_total w ⟨rfl, rfl, rfl⟩ _ _) () e.lift (hl 2 he) .posInf opts hm (by
        show quadAssess () e.xc.lift _ = _
        simp only [quadAssess, Arr.idx_lift, h0, h1, Res.map, Res.ok_bind, Chk.mul_val, Chk.add_val, quadAnswer]
        rfl)
    exact ⟨x, k, γ', e', hr⟩
  · intro n hn he
    have hd : e.xc.lift.dot e.xc.lift = _ := Arr.dot_lift _ _
    rw [dot_spec he.2.isVec he.2.isVec] at hd
    obtain ⟨x, k, γ', ⟨⟩, e', hr⟩ := optim_some (n := n) hn (orc := benchOracle) (fun w x γ hx => by
      have v := hx.isVec
      show ∃ g β s γ' w', benchAssess w x γ = _ ∧ _
      simp only [benchAssess, dot_spec v v, Res.ok_bind]
      exact quadAnswer_total (g := x.smul (nat 2)) w ⟨hx.1, hx.2.1, by simpa [Arr.smul, Arr.map] using hx.2.2⟩ _ _) () e.lift (hl n he) .posInf opts hm (by
        show benchAssess () e.xc.lift _ = _
        simp only [benchAssess, hd, Res.map, Res.ok_bind, quadAnswer]
        rfl)
    exact ⟨x, k, γ', e', hr⟩

/-! ### the first cut misses the ellipsoid -/

/-- a single bias cut that is reported as `NoSoln` over ℝ is reported as `NoSoln` in checked arithmetic -/
theorem lift_noSoln {e e' : Ell ℝ} {g : Arr ℝ} {β : ℝ}
    (h : (Ell.space (T := SingleCut ℝ)).updateBias e (g, ⟨β⟩) = .ok (.noSoln, e')) :
    (Ell.space (T := SingleCut Chk)).updateBias e.lift (g.lift, ⟨.val β⟩) = .ok (.noSoln, e'.lift) := by
  have h : e.updateBias (g, (⟨β⟩ : SingleCut ℝ)) = _ := h
  show e.lift.updateBias (g.lift, (⟨.val β⟩ : SingleCut Chk)) = _
  unfold Ell.updateBias Ell.updateCore at h ⊢
  have e1 : e.lift.mq.dotMv g.lift = _ := Arr.dotMv_lift _ _
  cases h1 : e.mq.dotMv g with
  | panic => simp [h1] at h
  | ok v =>
    have e2 : g.lift.dot v.lift = _ := Arr.dot_lift _ _
    rw [h1] at e1 h
    simp only [Res.ok_bind] at h
    cases h2 : g.dot v with
    | panic => simp [h2] at h
    | ok ω =>
      rw [h2] at e2 h
      simp only [Res.map] at e1 e2
      simp only [Res.ok_bind, CutType.callBias, EllCalc.calcBiasCut] at h
      simp only [e1, e2, Res.ok_bind, CutType.callBias, EllCalc.calcBiasCut]
      have ek : e.lift.kappa = .val e.kappa := rfl
      rw [ek, Chk.mul_val, Chk.mul_val, Chk.lt_val]
      by_cases hc : Scalar.lt (e.kappa * ω) (β * β) = true
      · rw [if_pos hc] at h ⊢
        simp only [bne_iff_ne, ne_eq, reduceCtorEq, not_false_eq_true, if_true, Res.ok.injEq, Prod.mk.injEq, true_and] at h ⊢
        rw [← h]; rfl
      · rw [if_neg hc] at h
        exfalso
        simp only [bne_self_eq_false, Bool.false_eq_true, if_false] at h
        obtain ⟨_, -, h⟩ := Res.bind_eq_ok.1 h
        obtain ⟨_, -, h⟩ := Res.bind_eq_ok.1 h
        split at h <;> simp at h

/-- **C85** (infeasible start)  `test_infeasible1` of example1.rs:52-61 starts at `-∞` with an ellipsoid whose points all violate
`x + y ≤ 3`.  For every such ellipsoid and every first `gamma`, infinite, finite or undefined, the run ends in its first
iteration without a point and leaves `gamma` alone. -/
theorem C85_example1_infeasible (e : Ell ℝ) (he : e.Valid 2) (hmiss : ∀ z ∈ e.region 2, 3 < z 0 + z 1) (γ : Chk)
    (opts : Options Chk) (hm : 1 ≤ opts.maxIters) :
    ∃ e', cuttingPlaneOptim ex1Oracle Ell.space () e.lift γ opts = .ok ((none, 0), γ, (), e') := by
  obtain ⟨m, hm⟩ : ∃ m, opts.maxIters = m + 1 := ⟨opts.maxIters - 1, by omega⟩
  obtain ⟨hx0, hx1⟩ := idx_pair he.shaped.2
  set v := e.xc.toVec 2 with hv
  have hc : 3 < v 0 + v 1 := by
    refine hmiss (e.c 2) ?_
    show (e.c 2 - e.c 2) ⬝ᵥ ((e.M 2)⁻¹ *ᵥ (e.c 2 - e.c 2)) ≤ e.kappa
    simp [he.kappa.le]
  obtain ⟨e', hu⟩ := C84_noSoln_complete_partial .bias e he (Arr.ofList [1, 1], (⟨v 0 + v 1 - 3⟩ : SingleCut ℝ))
    (pair_shape _ _) (by pair_ne0) (by intro b hb; simp [Cut.hi] at hb) (by
      rintro x hx ⟨h, -⟩
      have h : (Arr.ofList [(1 : ℝ), 1]).toVec 2 ⬝ᵥ (x - v) + (v 0 + v 1 - 3) ≤ 0 := h
      rw [pair_toVec, pair_dot] at h
      simp only [Pi.sub_apply] at h
      linarith [hmiss x hx])
  have hu' := lift_noSoln hu
  have hl : (Arr.ofList [(1 : ℝ), 1]).lift = Arr.ofList [(1 : Chk), 1] := by rw [← Arr.ofList_lift]; rfl
  rw [hl] at hu'
  have hq : (ex1Oracle (α := Chk)).assess () (Ell.space (T := SingleCut Chk).xc e.lift) γ =
      .ok (((Arr.ofList [1, 1], ⟨.val (v 0 + v 1 - 3)⟩), false), γ, ()) := by
    show ex1Assess () e.xc.lift _ = _
    have c1 : Scalar.gt (Chk.val (v 0) + Chk.val (v 1) - nat 3) 0 = true := by
      rw [Chk.add_val, Chk.ofNat_val, Chk.sub_val, Chk.zero_val, Chk.gt_val]
      simp only [Scalar.real_gt, decide_eq_true_eq]; linarith
    simp only [ex1Assess, Arr.idx_lift, hx0, hx1, Res.map, Res.ok_bind, c1, if_true]
    rfl
  refine ⟨e'.lift, ?_⟩
  unfold cuttingPlaneOptim
  rw [hm]
  unfold optimLoop
  simp only [hq, Res.ok_bind, Bool.false_eq_true, if_false, hu']
  rfl

/-! ### the documented maximisation -/

/-- `example1` leaves a ball of better points as long as the value is below the optimum -/
theorem ex1_better_ball {γ : ℝ} (hγ : γ < 3) (hγ0 : 0 ≤ γ) :
    ∃ p r, 0 < r ∧ ball p r ⊆ {x : Fin 2 → ℝ | x 0 ^ 2 + x 1 ^ 2 ≤ 10} ∧ ball p r ⊆ {x | x ∈ ex1F ∧ γ < ex1Obj x} := by
  set t := (3 - γ) / 5 with ht
  have ht0 : 0 < t := by rw [ht]; linarith
  have ht1 : t ≤ 3 / 5 := by rw [ht]; linarith
  refine ⟨![2 - t, 1 - 2 * t], t / 2, by linarith, ?_, ?_⟩
  all_goals
    intro z hz
    have h := mem_ball_pair hz
    simp only [cons_val_zero, cons_val_one] at h
    have hs : ∀ a b : ℝ, a ^ 2 + b ^ 2 = 2 → a * (z 0 - (2 - t)) + b * (z 1 - (1 - 2 * t)) ≤ t * (3 / 4) := by
      intro a b hab
      nlinarith [sq_nonneg (a * t / 3 - (z 0 - (2 - t))), sq_nonneg (b * t / 3 - (z 1 - (1 - 2 * t))), sq_nonneg t]
    have s1 := hs 1 1 (by norm_num)
    have s2 := hs (-1) 1 (by norm_num)
    have s3 := hs (-1) (-1) (by norm_num)
    have s4 := hs 1 (-1) (by norm_num)
  · have h2 := abs_le_of_sq_le_sq (a := z 0 - (2 - t)) (b := t / 2) (by nlinarith [sq_nonneg (z 1 - (1 - 2 * t))]) (by linarith)
    have h3 := abs_le_of_sq_le_sq (a := z 1 - (1 - 2 * t)) (b := t / 2) (by nlinarith [sq_nonneg (z 0 - (2 - t))]) (by linarith)
    rw [abs_le] at h2 h3
    show z 0 ^ 2 + z 1 ^ 2 ≤ 10
    have : z 0 ^ 2 ≤ 2 ^ 2 := sq_le_sq' (by linarith) (by linarith)
    have : z 1 ^ 2 ≤ 1 ^ 2 := sq_le_sq' (by linarith) (by linarith)
    linarith
  · exact ⟨⟨by linarith, by linarith⟩, by simp only [ex1Obj]; rw [ht] at *; linarith⟩

theorem HonestOptim.weaken {T : Type} [Cut T] {orc : OracleOptim Ω (Arr ℝ) T ℝ} {I : Ω → ℝ → Prop}
    {S : ℝ → Set (Fin n → ℝ)} {G : ℝ} (h : HonestOptim n orc I S G) : HonestOptim n orc I S 0 := by
  intro w x γ hI hx
  obtain ⟨g, c, s, γ', w', h1, h2, h3, h4, h5, -, h6⟩ := h w x γ hI hx
  exact ⟨g, c, s, γ', w', h1, h2, h3, h4, h5, by
    rw [normSq, dotProduct]; simpa using Finset.sum_nonneg fun i _ => mul_self_nonneg (g.toVec n i), h6⟩

theorem disc10_lift {e : Ell ℝ} (he : Ell.newWithScalar (10 : ℝ) (Arr.ofList [0, 0]) = .ok e) :
    Ell.newWithScalar (Chk.val 10) (Arr.ofList [0, 0]) = .ok e.lift := by
  obtain ⟨y, a1, -⟩ := eye_spec (α := ℝ) 2
  have hl : (Arr.ofList [(0 : ℝ), 0]).len = 2 := rfl
  have hl' : (Arr.ofList [(0 : Chk), 0]).len = 2 := rfl
  have hy : y = ⟨[1, 0, 0, 1], 2, 2⟩ := by
    have : Arr.eye (α := ℝ) 2 = .ok ⟨[1, 0, 0, 1], 2, 2⟩ := rfl
    rw [a1] at this
    simpa using this
  have hy' : Arr.eye (α := Chk) 2 = .ok y.lift := by rw [hy]; rfl
  simp only [Ell.newWithScalar, hl, a1, Res.ok_bind, Res.ok.injEq] at he
  simp only [Ell.newWithScalar, hl', hy', Res.ok_bind, Res.ok.injEq]
  rw [← he, ← C69_new_defined _ _ _ (by rw [hl])]
  rfl

/-- **C85** (documented run)  `test_feasible` of example1.rs:38-50 (radius `10`, centre the origin, start at
`f64::NEG_INFINITY`), with at least 200 iterations and a tolerance of at most `1e-10`.  For
every low enough finite `γ` the exact run from `γ` returns a feasible point `x` with value within `8e-5` of the optimum 3;
unless `x` is optimal exactly, the run from `-∞` returns the same `x`, iteration count and value. -/
theorem C85_example1_run (opts : Options ℝ) (h1 : 200 ≤ opts.maxIters) (h2 : opts.tolerance ≤ 1 / 10 ^ 10) :
    ∃ e e0, Ell.newWithScalar (Chk.val 10) (Arr.ofList [0, 0]) = .ok e ∧
      Ell.newWithScalar (10 : ℝ) (Arr.ofList [0, 0]) = .ok e0 ∧
      ∃ Γ : ℝ, ∀ γ ≤ Γ, ∃ x k γ' e', cuttingPlaneOptim ex1Oracle Ell.space () e0 γ opts = .ok ((some x, k), γ', (), e') ∧
        x.toVec 2 ∈ ex1F ∧ ex1Obj (x.toVec 2) = γ' ∧ 3 - 8 / 10 ^ 5 ≤ γ' ∧ γ' ≤ 3 ∧
        (γ' < 3 → cuttingPlaneOptim ex1Oracle Ell.space () e .negInf opts.lift =
          .ok ((some x.lift, k), .val γ', (), e'.lift)) := by
  obtain ⟨e0, he, hv, hreg, -⟩ := disc10
  refine ⟨e0.lift, e0, disc10_lift he, he, ?_⟩
  have key := C85_exact_run ex1Oracle id ex1Oracle (fun _ _ => True) (fun _ => True) _ (C58_example1.honest).weaken
    (C76_examples_defined 2).1 C85_example1_oracle () trivial (Eventually.of_forall fun _ => trivial) e0 hv opts
  obtain ⟨Γ, hΓ⟩ := eventually_atBot.1 key
  refine ⟨min Γ 0, fun γ hγ => ?_⟩
  have hγ0 : γ ≤ 0 := hγ.trans (min_le_right _ _)
  obtain ⟨e1, he1, xb, k, γ', e', r1, r2, r3, r4⟩ := C72_example1 (γ := γ) (by linarith) opts h1 h2
  have : e1 = e0 := by rw [he] at he1; simpa using he1.symm
  subst this
  rcases r4 with ⟨-, rfl⟩ | ⟨x, rfl, r5, r6⟩
  · norm_num at r2; linarith
  · refine ⟨x, k, γ', e', r1, r5, r6, r2, r3, fun h => ?_⟩
    have hb := ex1_better_ball h (by norm_num at r2; linarith)
    have := hΓ γ (hγ.trans (min_le_left _ _)) _ _ _ _ _ r1 (by rw [hreg]; exact hb)
    simpa using this

end Ellalgo
