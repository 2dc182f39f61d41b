import Verif.Props.CpTestsRuns
import Verif.Props.NoSolnComplete

/-! C91, continued: hopeless values of `γ`, the discrete run, and the binary searches. -/

namespace Ellalgo
open Matrix
open scoped ComplexOrder

/-! ### hopeless values -/

theorem cptOptim_low {x : Arr ℝ} {γ : ℝ} (hx : x.IsVecShape 2) (h0 : x.toVec 2 0 ≤ 1) (h1 : x.toVec 2 1 ≤ 1)
    (hγ : x.toVec 2 0 + x.toVec 2 1 < γ) :
    cptOptimAssess () x γ =
      .ok (((Arr.ofList [-1, -1], ⟨-(x.toVec 2 0 + x.toVec 2 1 - γ)⟩), false), γ, ()) ∧
    ∀ retry, cptOptimQ3Assess () x γ retry =
      .ok (((Arr.ofList [-1, -1], ⟨-(x.toVec 2 0 + x.toVec 2 1 - γ)⟩), false, x, true), γ, ()) := by
  obtain ⟨i0, i1⟩ := idx_pair hx
  simp only [cptOptimAssess, cptOptimQ3Assess, i0, i1, Res.ok_bind, Scalar.real_gt, Scalar.real_lt, decide_eq_true_eq]
  constructor
  · rw [if_neg (by linarith), if_neg (by linarith), if_pos (by linarith)]
  · intro retry
    rw [if_neg (by linarith), if_neg (by linarith), if_pos (by linarith)]

/-- **C91** If the first centre satisfies `x ≤ 1`, `y ≤ 1` and no point of the ellipsoid has the value `γ`, both loops say so
at once: `(None, 0)`, `γ` unchanged. -/
theorem C91_hopeless_value {e : Ell ℝ} (he : e.Valid 2) {γ : ℝ} (h0 : e.c 2 0 ≤ 1) (h1 : e.c 2 1 ≤ 1)
    (hγ : ∀ z ∈ e.region 2, z 0 + z 1 < γ) {opts : Options ℝ} (hm : 0 < opts.maxIters) :
    (∃ e', cuttingPlaneOptim cptOptim Ell.space () e γ opts = .ok ((none, 0), γ, (), e')) ∧
    (∃ e', cuttingPlaneOptimQ cptOptimQ3 Ell.space () e γ opts = .ok ((none, 0), γ, (), e')) := by
  have hc : e.c 2 ∈ e.region 2 := by
    simp [Ell.region, ellipsoid, he.kappa.le]
  have hcγ := hγ _ hc
  obtain ⟨a1, a2⟩ := cptOptim_low (x := e.xc) he.shaped.2 h0 h1 hcγ
  obtain ⟨m, hm'⟩ : ∃ m, opts.maxIters = m + 1 := ⟨opts.maxIters - 1, by omega⟩
  have key : ∀ k : UpdateKind, k ≠ .central → ∃ e', Ell.space.update k e
      (Arr.ofList [-1, -1], (⟨-(e.c 2 0 + e.c 2 1 - γ)⟩ : SingleCut ℝ)) = .ok (.noSoln, e') := by
    intro k hk
    have hv := pair_toVec (-1) (-1)
    refine C84_noSoln_complete_partial k e he _ (pair_shape _ _) ?_ (by simp) ?_
    · dsimp only
      rw [hv]; intro h; simpa using congrFun h 0
    · rintro x hx ⟨hs, -⟩
      dsimp only at hs
      rw [hv, pair_dot] at hs
      have hk' : k.lo (Cut.lo (⟨-(e.c 2 0 + e.c 2 1 - γ)⟩ : SingleCut ℝ)) = -(e.c 2 0 + e.c 2 1 - γ) := by
        rw [UpdateKind.lo, if_neg hk]; rfl
      rw [hk'] at hs
      simp only [Pi.sub_apply] at hs
      linarith [hγ x hx]
  constructor
  · obtain ⟨e', hu⟩ := key .bias (by simp)
    refine ⟨e', ?_⟩
    have hq : cptOptim.assess () (Ell.space (T := SingleCut ℝ).xc e) γ = _ := a1
    have hu' : Ell.space.updateBias e (Arr.ofList [-1, -1], (⟨-(e.c 2 0 + e.c 2 1 - γ)⟩ : SingleCut ℝ)) = .ok (.noSoln, e') := hu
    rw [cuttingPlaneOptim, hm', optimLoop, hq, Res.ok_bind]
    simp only [Bool.false_eq_true, if_false]
    have hu'' : Ell.space.updateBias e (Arr.ofList [-1, -1],
      (⟨-(e.xc.toVec 2 0 + e.xc.toVec 2 1 - γ)⟩ : SingleCut ℝ)) = .ok (.noSoln, e') := hu'
    rw [hu'', Res.ok_bind]
    simp
  · obtain ⟨e', hu⟩ := key .q (by simp)
    refine ⟨e', ?_⟩
    have hq : cptOptimQ3.assess () (Ell.space (T := SingleCut ℝ).xc e) γ false = _ := a2 false
    rw [cuttingPlaneOptimQ, hm', optimQLoop, hq, Res.ok_bind]
    have hu'' : Ell.space.updateQ e (Arr.ofList [-1, -1],
      (⟨-(e.xc.toVec 2 0 + e.xc.toVec 2 1 - γ)⟩ : SingleCut ℝ)) = .ok (.noSoln, e') := hu
    simp only [hu'', Res.ok_bind, Bool.false_eq_true, if_false]

/-! ### the discrete run -/

/-- **C91** `cutting_plane_optim_q` with `MyOracleOptimQ3`: never panics, from every 2-dimensional ellipsoid with all options;
`γ` never decreases; a returned point is a grid point (integer coordinates) with `x ≤ 1`, `y ≤ 1` whose value is exactly the
final `γ`; and if none is returned `γ` is unchanged. -/
theorem C91_q3_run {e : Ell ℝ} (he : e.Shaped 2) (γ : ℝ) (opts : Options ℝ) :
    ∃ r k γ' e', cuttingPlaneOptimQ cptOptimQ3 Ell.space () e γ opts = .ok ((r, k), γ', (), e') ∧ γ ≤ γ' ∧
      (r = none → γ' = γ) ∧
      (∀ x, r = some x → x.IsVecShape 2 ∧ (∀ i, ∃ m : ℤ, x.toVec 2 i = m) ∧ x.toVec 2 0 ≤ 1 ∧ x.toVec 2 1 ≤ 1 ∧
        x.toVec 2 0 + x.toVec 2 1 = γ') := by
  have key : ∀ (m k0 : Nat) (xb : Option (Arr ℝ)) (retry : Bool) (e : Ell ℝ) (γ1 : ℝ), e.Shaped 2 → γ ≤ γ1 →
      (xb = none → γ1 = γ) →
      (∀ x, xb = some x → x.IsVecShape 2 ∧ (∀ i, ∃ m : ℤ, x.toVec 2 i = m) ∧ x.toVec 2 0 ≤ 1 ∧ x.toVec 2 1 ≤ 1 ∧
        x.toVec 2 0 + x.toVec 2 1 = γ1) →
      ∃ r k γ' e', optimQLoop cptOptimQ3 Ell.space opts.tolerance m k0 xb retry () e γ1 = .ok ((r, k), γ', (), e') ∧ γ ≤ γ' ∧
      (r = none → γ' = γ) ∧
      (∀ x, r = some x → x.IsVecShape 2 ∧ (∀ i, ∃ m : ℤ, x.toVec 2 i = m) ∧ x.toVec 2 0 ≤ 1 ∧ x.toVec 2 1 ≤ 1 ∧
        x.toVec 2 0 + x.toVec 2 1 = γ') := by
    intro m
    induction m with
    | zero => exact fun k0 xb _ e γ1 _ h1 h2 h3 => ⟨xb, k0, γ1, e, rfl, h1, h2, h3⟩
    | succ m ih =>
      intro k0 xb retry e γ1 he h1 h2 h3
      obtain ⟨g, β, shrunk, xq, more, γ2, ha, hg, -, -, hs, hs1, hs0, -⟩ := C91_q3_answer e.xc γ1 retry he.2
      have hq : cptOptimQ3.assess () (Ell.space (T := SingleCut ℝ).xc e) γ1 retry = _ := ha
      obtain ⟨st, e1, hu, he1, -⟩ := Ell.update_shape (n := 2) (by norm_num) .q e (g, (⟨β⟩ : SingleCut ℝ)) he hg
      have hu : Ell.space.updateQ e (g, (⟨β⟩ : SingleCut ℝ)) = .ok (st, e1) := hu
      obtain ⟨c1, c2, c3⟩ : γ ≤ γ2 ∧ ((if shrunk then some xq else xb) = none → γ2 = γ) ∧
          (∀ x, (if shrunk then some xq else xb) = some x → x.IsVecShape 2 ∧ (∀ i, ∃ m : ℤ, x.toVec 2 i = m) ∧
            x.toVec 2 0 ≤ 1 ∧ x.toVec 2 1 ≤ 1 ∧ x.toVec 2 0 + x.toVec 2 1 = γ2) := by
        cases shrunk with
        | false =>
          obtain rfl := hs0 rfl
          exact ⟨h1, by simpa using h2, by simpa using h3⟩
        | true =>
          obtain ⟨-, b1, b2, b3⟩ := hs.1 rfl
          obtain ⟨s1, s2, s3⟩ := hs1 rfl
          refine ⟨by rw [s3]; linarith, by simp, ?_⟩
          intro x hx
          simp only [if_true, Option.some.injEq] at hx
          subst hx
          refine ⟨s1, fun i => ?_, by rw [s2]; exact b1, by rw [s2]; exact b2, by rw [s2, s3]⟩
          rw [s2]
          fin_cases i
          · exact round_integer _
          · exact round_integer _
      unfold optimQLoop
      rw [hq, Res.ok_bind]
      simp only [hu, Res.ok_bind]
      cases st <;> dsimp only
      · split
        · exact ⟨_, _, _, _, rfl, c1, c2, c3⟩
        · exact ih _ _ _ _ _ he1 c1 c2 c3
      · exact ⟨_, _, _, _, rfl, c1, c2, c3⟩
      · split
        · exact ⟨_, _, _, _, rfl, c1, c2, c3⟩
        · split
          · exact ⟨_, _, _, _, rfl, c1, c2, c3⟩
          · exact ih _ _ _ _ _ he1 c1 c2 c3
      · split
        · exact ⟨_, _, _, _, rfl, c1, c2, c3⟩
        · exact ih _ _ _ _ _ he1 c1 c2 c3
  exact key opts.maxIters 0 none false e γ he le_rfl (fun _ => rfl) (by simp)

/-! ### the binary searches -/

theorem bsearch_positive {tol : ℝ} : ∀ (m k0 : Nat) (l u : ℝ), l ≤ u →
    ∃ l' u' k, bsearchLoop cptBS tol m k0 () l u = .ok ((l', u'), k0 + k, ()) ∧
      FirstStop (fun i => (u - l) / 2 ^ (i + 1) < tol) m k ∧ u' ≤ u ∧
      (u' < u ↔ l < u ∧ 0 < k ∧ (u - l) / 2 ^ k < u) := by
  intro m
  induction m with
  | zero => exact fun k0 l u _ => ⟨l, u, 0, rfl, FirstStop.zero, le_rfl, by simp⟩
  | succ m ih =>
    intro k0 l u hlu
    unfold bsearchLoop
    simp only [Scalar.real_lt, decide_eq_true_eq, nat, Nat.cast_ofNat]
    split
    · rename_i h
      exact ⟨l, u, 0, rfl, FirstStop.now (by simpa using h), le_rfl, by simp⟩
    · rename_i h
      have h' : ¬ (u - l) / 2 ^ (0 + 1) < tol := by simpa using h
      have hq : cptBS.assess () (l + (u - l) / 2) = .ok (decide (0 < l + (u - l) / 2), ()) := by
        simp [cptBS]
      rw [hq, Res.ok_bind]
      by_cases hp : 0 < l + (u - l) / 2
      · simp only [hp, decide_true, if_true]
        obtain ⟨l', u', k, hr, hf, hle, hiff⟩ := ih (k0 + 1) l (l + (u - l) / 2) (by linarith)
        refine ⟨l', u', k + 1, by rw [hr]; congr 3; omega, FirstStop.later h' ?_, by linarith, ?_⟩
        · convert hf using 3 with i
          rw [pow_succ]; field_simp; ring
        · constructor
          · intro hlt
            have hl : l < u := by
              by_contra hl
              have : l = u := le_antisymm hlu (not_lt.mp hl)
              subst this
              have := hiff.1 (by linarith)
              linarith [this.1]
            refine ⟨hl, by omega, ?_⟩
            have : (u - l) / 2 ^ (k + 1) ≤ (u - l) / 2 := by
              rw [pow_succ, div_mul_eq_div_div]
              have : (u - l) / 2 ^ k ≤ u - l := div_le_self (by linarith) (one_le_pow₀ (by norm_num))
              linarith
            linarith
          · rintro ⟨hl, -, -⟩
            linarith
      · simp only [hp, decide_false, Bool.false_eq_true, if_false]
        obtain ⟨l', u', k, hr, hf, hle, hiff⟩ := ih (k0 + 1) (l + (u - l) / 2) u (by linarith)
        refine ⟨l', u', k + 1, by rw [hr]; congr 3; omega, FirstStop.later h' ?_, hle, ?_⟩
        · convert hf using 3 with i
          rw [pow_succ]; field_simp; ring
        · rw [hiff]
          have e1 : (u - (l + (u - l) / 2)) / 2 ^ k = (u - l) / 2 ^ (k + 1) := by
            rw [pow_succ]; field_simp; ring
          rw [e1]
          constructor
          · rintro ⟨a, b, c⟩
            exact ⟨by linarith, by omega, c⟩
          · rintro ⟨a, -, c⟩
            refine ⟨by linarith, ?_, c⟩
            rcases Nat.eq_zero_or_pos k with rfl | hk
            · exfalso
              rw [zero_add, pow_one] at c
              linarith
            · exact hk

/-- **C91** `bsearch` with `MyOracleBS2` (`γ > 0`), from every interval with all options: panics exactly if
`lower > upper`; the number of probes is the first `k` with `(upper - lower)/2^(k+1) < tolerance`, or the limit; the answer is
`true` exactly if one of these probes is positive, i.e. if `(upper - lower)/2^k < upper` (and `k > 0`, `lower < upper`). -/
theorem C91_bsearch (l u : ℝ) (opts : Options ℝ) :
    (u < l → bsearch cptBS () (l, u) opts = .panic) ∧
    (l ≤ u → ∃ flag k, bsearch cptBS () (l, u) opts = .ok ((flag, k), (), (l, u)) ∧
      FirstStop (fun i => (u - l) / 2 ^ (i + 1) < opts.tolerance) opts.maxIters k ∧
      (flag = true ↔ l < u ∧ 0 < k ∧ (u - l) / 2 ^ k < u)) := by
  constructor
  · intro h
    simp only [bsearch, Scalar.real_le, Res.assert, not_le.mpr h, decide_false, Bool.false_eq_true, if_false]
    rfl
  · intro h
    obtain ⟨l', u', k, hr, hf, hle, hiff⟩ := bsearch_positive (tol := opts.tolerance) opts.maxIters 0 l u h
    refine ⟨!Scalar.beq u' u, k, ?_, hf, ?_⟩
    · simp only [bsearch, Scalar.real_le, Res.assert, h, decide_true, if_true, hr, zero_add, Res.ok_bind]
    · rw [← hiff]
      simp only [Scalar.real_beq, Bool.not_eq_true', decide_eq_false_iff_not]
      exact ⟨fun hne => lt_of_le_of_ne hle hne, fun hlt => hlt.ne⟩

theorem bsearch_always {Ω : Type} {orc : OracleBS Ω ℝ} {w : Ω} (ho : ∀ γ, orc.assess w γ = .ok (true, w)) {tol : ℝ} :
    ∀ (m k0 : Nat) (l u : ℝ), l ≤ u →
    ∃ k, bsearchLoop orc tol m k0 w l u = .ok ((l, l + (u - l) / 2 ^ k), k0 + k, w) ∧
      FirstStop (fun i => (u - l) / 2 ^ (i + 1) < tol) m k := by
  intro m
  induction m with
  | zero => exact fun k0 l u _ => ⟨0, by simp [bsearchLoop], FirstStop.zero⟩
  | succ m ih =>
    intro k0 l u hlu
    unfold bsearchLoop
    simp only [Scalar.real_lt, decide_eq_true_eq, nat, Nat.cast_ofNat]
    split
    · rename_i h
      exact ⟨0, by simp, FirstStop.now (by simpa using h)⟩
    · rename_i h
      have h' : ¬ (u - l) / 2 ^ (0 + 1) < tol := by simpa using h
      rw [ho, Res.ok_bind]
      simp only [if_true]
      obtain ⟨k, hr, hf⟩ := ih (k0 + 1) l (l + (u - l) / 2) (by linarith)
      refine ⟨k + 1, ?_, FirstStop.later h' ?_⟩
      · rw [hr]
        have e1 : l + (l + (u - l) / 2 - l) / 2 ^ k = l + (u - l) / 2 ^ (k + 1) := by
          rw [pow_succ]; field_simp; ring
        rw [e1]
        congr 3; omega
      · convert hf using 3 with i
        rw [pow_succ]; field_simp; ring

/-- **C91** `bsearch` over a `BSearchAdaptor` with `MyOracleFeas2`, whose `update` is the default that ignores `γ`: if the
centre of the adaptor's ellipsoid satisfies `x + y ≤ 3`, every probe says yes without moving anything, whatever the interval
and the options; the answer is `true` as soon as there is one probe and the interval is not a point, and the adaptor (oracle,
ellipsoid, options) is what it was. -/
theorem C91_bsearch_adaptor {e : Ell ℝ} (he : e.Shaped 2) (hc : e.c 2 ∈ cptHalf) {inner : Options ℝ}
    (hin : 0 < inner.maxIters) {l u : ℝ} (hlu : l ≤ u) (opts : Options ℝ) :
    ∃ flag k, bsearch (BSearchAdaptor.oracle cptFeas Ell.space) ⟨(), e, inner⟩ (l, u) opts =
        .ok ((flag, k), ⟨(), e, inner⟩, (l, u)) ∧
      FirstStop (fun i => (u - l) / 2 ^ (i + 1) < opts.tolerance) opts.maxIters k ∧
      (flag = true ↔ l < u ∧ 0 < k) := by
  obtain ⟨m, hm⟩ : ∃ m, inner.maxIters = m + 1 := ⟨inner.maxIters - 1, by omega⟩
  have hx : cptFeas.assess () (Ell.space (T := SingleCut ℝ).xc e) = .ok (none, ()) := by
    rcases C91_feas_answer e.xc he.2 with ⟨h, -⟩ | ⟨g, β, -, h, -⟩
    · exact h
    · exact absurd hc h
  have hrun : cuttingPlaneFeas cptFeas Ell.space () e inner = .ok ((some e.xc, 0), (), e) := by
    rw [cuttingPlaneFeas, hm, feasLoop, hx, Res.ok_bind]; rfl
  have ho : ∀ γ, (BSearchAdaptor.oracle (cptFeas (α := ℝ)) Ell.space).assess ⟨(), e, inner⟩ γ =
      .ok (true, (⟨(), e, inner⟩ : BSearchAdaptor Unit (Ell ℝ) ℝ)) := by
    intro γ
    show BSearchAdaptor.assessBs _ _ _ _ = _
    unfold BSearchAdaptor.assessBs
    have h1 : cptFeas.update () γ = .ok () := rfl
    simp only [h1, Res.ok_bind, hrun]
    rfl
  obtain ⟨k, hr, hf⟩ := bsearch_always ho (tol := opts.tolerance) opts.maxIters 0 l u hlu
  refine ⟨!Scalar.beq (l + (u - l) / 2 ^ k) u, k, ?_, hf, ?_⟩
  · simp only [bsearch, Scalar.real_le, Res.assert, hlu, decide_true, if_true, hr, zero_add, Res.ok_bind]
  · simp only [Scalar.real_beq, Bool.not_eq_true', decide_eq_false_iff_not]
    constructor
    · intro hne
      constructor
      · rcases hlu.lt_or_eq with h | h
        · exact h
        · subst h; simp at hne
      · rcases Nat.eq_zero_or_pos k with rfl | h
        · simp at hne
        · exact h
    · rintro ⟨h1, h2⟩ heq
      have h3 : (u - l) / 2 ^ k < u - l := by
        rw [div_lt_iff₀ (by positivity)]
        have : (1 : ℝ) < 2 ^ k := one_lt_pow₀ (by norm_num) (by omega)
        nlinarith
      linarith

/-! ### the tests -/

/-- test_bsearch: `(true, 30)`, for all limits of at least 31 -/
example : bsearch cptBS () (-100, 100) (⟨2000, 1e-7⟩ : Options ℝ) = .ok ((true, 30), (), (-100, 100)) := by
  obtain ⟨flag, k, h, hf, hb⟩ := (C91_bsearch (-100) 100 ⟨2000, 1e-7⟩).2 (by norm_num)
  have h30 : FirstStop (fun i => ((100 : ℝ) - -100) / 2 ^ (i + 1) < 1e-7) 2000 30 := by
    refine ⟨by norm_num, fun i hi => ?_, fun _ => by norm_num⟩
    have : (2 : ℝ) ^ (i + 1) ≤ 2 ^ 30 := pow_le_pow_right₀ (by norm_num) (by omega)
    rw [not_lt, le_div_iff₀ (by positivity)]
    have h2 : (2 : ℝ) ^ 30 ≤ 1073741824 := by norm_num
    norm_num
    linarith
  obtain rfl := C90_first_stop_unique hf h30
  obtain rfl := hb.2 ⟨by norm_num, by norm_num, by norm_num⟩
  exact h

/-- test_bsearch_no_soln: `(false, 20)` -/
example : bsearch cptBS () (-100, -50) (⟨20, 1e-20⟩ : Options ℝ) = .ok ((false, 20), (), (-100, -50)) := by
  obtain ⟨flag, k, h, hf, hb⟩ := (C91_bsearch (-100) (-50) ⟨20, 1e-20⟩).2 (by norm_num)
  have h20 : FirstStop (fun i => ((-50 : ℝ) - -100) / 2 ^ (i + 1) < 1e-20) 20 20 := by
    refine ⟨le_rfl, fun i hi => ?_, by simp⟩
    have : (2 : ℝ) ^ (i + 1) ≤ 2 ^ 20 := pow_le_pow_right₀ (by norm_num) (by omega)
    rw [not_lt, le_div_iff₀ (by positivity)]
    norm_num
    norm_num at this
    linarith
  obtain rfl := C90_first_stop_unique hf h20
  have : flag = false := by
    cases flag
    · rfl
    · have := (hb.1 rfl).2.2
      norm_num at this
  subst this
  exact h

/-- the ball of squared radius 10 around the origin, where all the tests start -/
example : ∃ e, Ell.newWithScalar 10 (Arr.ofList [(0 : ℝ), 0]) = .ok e ∧ e.Valid 2 ∧ e.c 2 ∈ cptHalf ∧ e.c 2 ∈ cptBox 0 ∧
    (∀ z ∈ e.region 2, z 0 + z 1 < 100) := by
  obtain ⟨e, h1, h2, h3, -⟩ := newWithScalar_reach (n := 2) le_rfl (val := 10) (by norm_num) (pair_shape 0 0)
  obtain ⟨e', h1', -, h4⟩ := C13_valid_with_scalar (n := 2) 10 (Arr.ofList [(0 : ℝ), 0]) le_rfl (pair_shape 0 0) (by norm_num)
  rw [h1] at h1'
  simp only [Res.ok.injEq] at h1'
  subst h1'
  have hc : e.c 2 = ![0, 0] := by rw [Ell.c, h3, pair_toVec]
  refine ⟨e, h1, h2, ?_, ?_, ?_⟩
  · rw [hc]; simp only [cptHalf, Set.mem_ofPred_eq, cons_val_zero, cons_val_one]; norm_num
  · rw [hc]; simp only [cptBox, Set.mem_ofPred_eq, cons_val_zero, cons_val_one]; norm_num
  · intro z hz
    rw [h4, pair_toVec] at hz
    simp only [Set.mem_ofPred_eq, normSq, dotProduct, Fin.sum_univ_two, Pi.sub_apply, cons_val_zero, cons_val_one] at hz
    nlinarith [sq_nonneg (z 0 - 1), sq_nonneg (z 1 - 1)]

end Ellalgo
