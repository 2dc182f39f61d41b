import Verif.Props.LowpassProps
import Verif.Props.Solve

/-! C47, C64: designing a low-pass filter end to end; the built-in case. -/

namespace Ellalgo
open Matrix

variable {n : Nat} {d : LpData}

/-- an invariant relating best point and value is kept by `cutting_plane_optim` on ellipsoids -/
theorem optimLoop_inv {Ω T : Type} [Cut T] {orc : OracleOptim Ω (Arr ℝ) T ℝ} (hn : 0 < n) {I : Ω → ℝ → Prop}
    {J : Option (Arr ℝ) → ℝ → Prop}
    (hq : ∀ w x γ xb, I w γ → x.IsVecShape n → J xb γ → ∀ g c s γ' w', orc.assess w x γ = .ok (((g, c), s), γ', w') →
      I w' γ' ∧ g.IsVecShape n ∧ J (if s then some x else xb) γ') {tol : ℝ} (m : Nat) :
    ∀ (n0 : Nat) (xb : Option (Arr ℝ)) (w : Ω) (e : Ell ℝ) (γ : ℝ), I w γ → e.Shaped n → J xb γ →
      ∀ xb' k γ' w' e', optimLoop orc Ell.space tol m n0 xb w e γ = .ok ((xb', k), γ', w', e') → J xb' γ' := by
  induction m with
  | zero =>
    intro n0 xb w e γ _ _ hJ xb' k γ' w' e' hr
    simp only [optimLoop, Res.ok.injEq, Prod.mk.injEq] at hr
    obtain ⟨⟨rfl, rfl⟩, rfl, rfl, rfl⟩ := hr
    exact hJ
  | succ m ih =>
    intro n0 xb w e γ hw he hJ xb' k γ' w' e' hr
    have hxs : (Ell.space (T := T).xc e).IsVecShape n := he.2
    simp only [optimLoop] at hr
    obtain ⟨⟨⟨⟨g, c⟩, s⟩, γ1, w1⟩, h1, hr⟩ := Res.bind_eq_ok.1 hr
    obtain ⟨h2, h3, h4⟩ := hq w _ γ xb hw hxs hJ g c s γ1 w1 h1
    simp only at hr
    obtain ⟨⟨st, e1⟩, hu, hr⟩ := Res.bind_eq_ok.1 hr
    have he1 : e1.Shaped n := by
      cases hs : s with
      | true =>
        rw [hs] at hu
        exact shape_of_update hn .central he h3 hu
      | false =>
        rw [hs] at hu
        exact shape_of_update hn .bias he h3 hu
    simp only at hr
    split at hr
    · simp only [Res.ok.injEq, Prod.mk.injEq] at hr
      obtain ⟨⟨rfl, rfl⟩, rfl, rfl, rfl⟩ := hr
      exact h4
    · exact ih _ _ _ _ _ h2 he1 h4 _ _ _ _ _ hr

/-- filters meeting the specification whose largest stopband value is below `γ` -/
def lpBelow (d : LpData) (γ : ℝ) : Set (Fin n → ℝ) :=
  {x | x ∈ d.feasible γ ∧ ∀ i, d.stop ≤ i → i < d.m → lpResponse x (d.freq i) < γ}

theorem lp_honest (hd : d.Ok) (hs : d.stop < d.m) :
    HonestOptim n LowpassOracle.oracle (fun o _ => ∃ σ, o.For d n σ) (lpBelow d) 1 := by
  rintro o x γ ⟨σ, ho⟩ hx
  obtain ⟨g, b0, b1, s, γ', o', h1, h2, h3, h4, h5, -, h6, h7⟩ := C46_lowpass_optim hd hs o ho x hx γ
  have hmono : ∀ a b : ℝ, a ≤ b → (lpBelow d a : Set (Fin n → ℝ)) ⊆ lpBelow d b := by
    rintro a b hab y ⟨hy1, hy2⟩
    exact ⟨⟨hy1.1, fun i hi hm => ⟨(hy1.2.1 i hi hm).1, (hy1.2.1 i hi hm).2.trans hab⟩, hy1.2.2⟩,
      fun i hi hm => (hy2 i hi hm).trans_le hab⟩
  refine ⟨g, ⟨b0, b1⟩, s, γ', o', h1, ⟨γ, h2⟩, hmono _ _ h5, h3, ?_, by simpa using h4, ?_, ?_⟩
  · intro h0
    rw [h0] at h4
    simp [normSq] at h4
    linarith
  · intro hs y hy
    obtain ⟨-, -, -, hk⟩ := h6 hs
    exact ⟨by simpa using (hk y hy.1).1, (hk y hy.1).2⟩
  · intro hs
    obtain ⟨rfl, hb, hk⟩ := h7 hs
    exact ⟨hb.le, fun y hy => ⟨by simpa using (hk y hy.1).1, (hk y hy.1).2⟩⟩

/-- **C64** Let the initial ellipsoid contain a ball of radius `r` of filters meeting the specification with stopband
bound `σ`.  With tolerance at most `r²` and more than `(n+1) ln (vol²/r^{2n})` iterations, `cutting_plane_optim` with the
low-pass oracle, from any initial bound `γ`, returns a bound `γ' ≤ σ`; the returned filter meets the specification with
bound `γ'` and attains it (no filter is returned only if `γ' = γ`, i.e. the initial bound was at most `σ`). -/
theorem C64_lowpass_designed (hd : d.Ok) (hs : d.stop < d.m) (o : LowpassOracle ℝ) {σ0 : ℝ} (ho : o.For d n σ0)
    (e : Ell ℝ) (he : e.Valid n) (γ σ r : ℝ) (p : Fin n → ℝ) (hr : 0 < r) (hp : ball p r ⊆ d.feasible σ)
    (hb : ball p r ⊆ e.region n) (opts : Options ℝ) (ht : opts.tolerance ≤ r ^ 2)
    (hN : ((n : ℝ) + 1) * Real.log ((e.kappa • e.M n).det / (r ^ 2) ^ n) < opts.maxIters) :
    ∃ xb k γ' o' e', cuttingPlaneOptim LowpassOracle.oracle Ell.space o e γ opts = .ok ((xb, k), γ', o', e') ∧
      γ' ≤ σ ∧ ((xb = none ∧ γ' = γ) ∨ ∃ x, xb = some x ∧ x.toVec n ∈ d.feasible γ' ∧
        ∃ i, d.stop ≤ i ∧ i < d.m ∧ lpResponse (x.toVec n) (d.freq i) = γ') := by
  obtain ⟨xb, k, γ', o', e', h1, h2⟩ := C25_optim_converges LowpassOracle.oracle _ (lpBelow d) 1 r p o e γ opts
    (lp_honest hd hs) ⟨σ0, ho⟩ he hr hb (by simpa using ht) hN
  refine ⟨xb, k, γ', o', e', h1, ?_, ?_⟩
  · by_contra hlt
    push Not at hlt
    refine h2 fun x hx => ⟨?_, fun i hi hm => ((hp hx).2.1 i hi hm).2.trans_lt hlt⟩
    have hf := hp hx
    exact ⟨hf.1, fun i hi hm => ⟨(hf.2.1 i hi hm).1, (hf.2.1 i hi hm).2.trans hlt.le⟩, hf.2.2⟩
  · refine optimLoop_inv (T := ParallelCut ℝ) he.pos (I := fun o _ => ∃ σ, o.For d n σ)
      (J := fun xb γ' => (xb = none ∧ γ' = γ) ∨ ∃ x, xb = some x ∧ x.toVec n ∈ d.feasible γ' ∧
        ∃ i, d.stop ≤ i ∧ i < d.m ∧ lpResponse (x.toVec n) (d.freq i) = γ') ?_ opts.maxIters 0 none o e γ ⟨σ0, ho⟩
      he.shaped (Or.inl ⟨rfl, rfl⟩) xb k γ' o' e' h1
    rintro w x g0 xb ⟨σ1, hw⟩ hx hJ g c s γ1 w1 hq
    obtain ⟨g', b0, b1, s', γ1', o1, h1, h2, h3, -, h5, h6, h7, h8⟩ := C46_lowpass_optim hd hs w hw x hx g0
    rw [h1] at hq
    simp only [Res.ok.injEq, Prod.mk.injEq] at hq
    obtain ⟨⟨⟨rfl, rfl⟩, rfl⟩, rfl, rfl⟩ := hq
    refine ⟨⟨g0, h2⟩, h3, ?_⟩
    cases s' with
    | false =>
      obtain ⟨rfl, -⟩ := h8 rfl
      simpa using hJ
    | true =>
      obtain ⟨-, ⟨i, hi1, hi2, hi3⟩, hmax, -⟩ := h7 rfl
      have hf := h6.1 rfl
      refine Or.inr ⟨x, rfl, ⟨hf.1, fun i hi hm => ⟨(hf.2.1 i hi hm).1, hmax i hi hm⟩, hf.2.2⟩, i, hi1, hi2, hi3.symm⟩

/-! ### C47 -/

/-- the numbers `create_lowpass_case` computes: `10^(-delta1/20) = 1/(0.025π)` and `10^(delta1/20) = 0.025π` -/
noncomputable def caseLp : ℝ := ((25 / 1000 * Real.pi)⁻¹) ^ 2
noncomputable def caseUp : ℝ := (25 / 1000 * Real.pi) ^ 2
noncomputable def caseSp : ℝ := (125 / 1000 * Real.pi) ^ 2

/-- **C47** (what holds) For every `n ≥ 1` the built-in case is constructed without panic as the design problem with
passband `i ≤ 0.12 (15n-1)`, stopband `i > 0.2 (15n-1)`. -/
theorem C47_case_built_partial (hn : 0 < n) : ∃ o, createLowpassCase (α := ℝ) n = .ok o ∧
    o.For (lpOf n (12 / 100) (20 / 100) caseLp caseUp) n caseSp ∧ (lpOf n (12 / 100) (20 / 100) caseLp caseUp).Ok := by
  obtain ⟨o, h1, h2, h3, -⟩ := C45_lowpass_new hn (12 / 100) (20 / 100) caseLp caseUp caseSp (by norm_num) (by norm_num)
    (by norm_num)
  refine ⟨o, ?_, h2, h3⟩
  rw [← h1, createLowpassCase]
  have key : ∀ a : ℝ, 0 < a → (10 : ℝ) ^ (20 * Real.logb 10 a / 20) = a := by
    intro a ha
    rw [mul_div_cancel_left₀ _ (by norm_num), Real.rpow_logb (by norm_num) (by norm_num) ha]
  have key' : ∀ a : ℝ, 0 < a → (10 : ℝ) ^ (-(20 * Real.logb 10 a) / 20) = a⁻¹ := by
    intro a ha
    rw [neg_div, Real.rpow_neg (by norm_num), key a ha]
  have hp := Real.pi_pos
  have e20 : (nat 20 : ℝ) = 20 := by simp [nat]
  have e10 : (nat 10 : ℝ) = 10 := by simp [nat]
  simp only [Scalar.real_powf, Scalar.real_log10, Scalar.real_pi, Scalar.real_dec, e20, e10]
  rw [key _ (by positivity), key' _ (by positivity), key _ (by positivity)]
  simp only [caseLp, caseUp, caseSp, sq]
  norm_num

/-- **C47** The property is false of the code: the lower passband bound of the built-in case exceeds the upper one, so
for every `n ≥ 1` no filter meets the specification, whatever the stopband bound. -/
theorem C47_case_infeasible (hn : 0 < n) : ∃ (o : LowpassOracle ℝ) (d : LpData), createLowpassCase (α := ℝ) n = .ok o ∧
    o.For d n o.spSq ∧ o.upSq < o.lpSq ∧ ∀ σ, (d.feasible σ : Set (Fin n → ℝ)) = ∅ := by
  obtain ⟨o, h1, h2, h3⟩ := C47_case_built_partial hn
  have hlt : caseUp < caseLp := by
    have hp := Real.pi_pos
    have h4 := Real.pi_le_four
    have h5 : 25 / 1000 * Real.pi < 1 := by linarith
    have h6 : 1 < (25 / 1000 * Real.pi)⁻¹ := (one_lt_inv₀ (by positivity)).2 h5
    unfold caseUp caseLp
    nlinarith [show 0 < 25 / 1000 * Real.pi by positivity]
  refine ⟨o, _, h1, by rw [h2.sp]; exact h2, by rw [h2.up, h2.lp]; exact hlt, fun σ => ?_⟩
  ext x
  simp only [Set.mem_empty_iff_false, iff_false]
  intro hx
  have := hx.1 0 (by simp [lpOf])
  have a : caseLp ≤ caseUp := this.1.trans this.2
  linarith

/-- **C47** Hence `cutting_plane_optim` on the built-in case never returns a filter, from any ellipsoid of matching
shape, initial bound and options. -/
theorem C47_case_never_solved (hn : 0 < n) : ∃ o, createLowpassCase (α := ℝ) n = .ok o ∧
    ∀ (e : Ell ℝ) (γ : ℝ) (opts : Options ℝ) xb k γ' o' e', e.Shaped n →
      cuttingPlaneOptim LowpassOracle.oracle Ell.space o e γ opts = .ok ((xb, k), γ', o', e') → xb = none ∧ γ' = γ := by
  obtain ⟨o, h1, h2, h3⟩ := C47_case_built_partial hn
  obtain ⟨o', d, h4, h5, h6, h7⟩ := C47_case_infeasible hn
  obtain ⟨o'', h1'', h2'', h3'', h4'', -⟩ := C45_lowpass_new hn (12 / 100) (20 / 100) caseLp caseUp caseSp (by norm_num)
    (by norm_num) (by norm_num)
  have hempty : ∀ σ, ((lpOf n (12 / 100) (20 / 100) caseLp caseUp).feasible σ : Set (Fin n → ℝ)) = ∅ := by
    intro σ
    ext x
    simp only [Set.mem_empty_iff_false, iff_false]
    intro hx
    have := hx.1 0 (by simp [lpOf])
    have a : caseLp ≤ caseUp := this.1.trans this.2
    rw [h4] at h1
    obtain rfl : o' = o := Res.ok.inj h1
    rw [h2.up, h2.lp] at h6
    have : caseUp < caseLp := h6
    linarith
  refine ⟨o, h1, fun e γ opts xb k γ' o2 e' he hrun => ?_⟩
  refine optimLoop_inv (T := ParallelCut ℝ) hn
    (I := fun o _ => ∃ σ, o.For (lpOf n (12 / 100) (20 / 100) caseLp caseUp) n σ)
    (J := fun xb γ' => xb = none ∧ γ' = γ) ?_ opts.maxIters 0 none o e γ ⟨_, h2⟩ he ⟨rfl, rfl⟩ xb k γ' o2 e' hrun
  rintro w x g0 xb ⟨σ1, hw⟩ hx hJ g c s γ1 w1 hq
  obtain ⟨g', b0, b1, s', γ1', o1, a1, a2, a3, -, -, a6, -, a8⟩ := C46_lowpass_optim h3 (h4'' (by norm_num)) w hw x hx g0
  rw [a1] at hq
  simp only [Res.ok.injEq, Prod.mk.injEq] at hq
  obtain ⟨⟨⟨rfl, rfl⟩, rfl⟩, rfl, rfl⟩ := hq
  cases s' with
  | true =>
    have := a6.1 rfl
    rw [hempty] at this
    exact this.elim
  | false =>
    obtain ⟨rfl, -⟩ := a8 rfl
    exact ⟨⟨_, a2⟩, a3, by simpa using hJ⟩

end Ellalgo
