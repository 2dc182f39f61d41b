import Verif.Props.Solve
import Mathlib.Analysis.Convex.Function
import Mathlib.Analysis.SpecialFunctions.Log.Basic

/-! C72: how many iterations and which tolerance suffice for a given accuracy, explicitly. -/

namespace Ellalgo
open Matrix

variable {Ω : Type} {n : Nat} {orc : OracleOptim Ω (Arr ℝ) (SingleCut ℝ) ℝ} {I : Ω → ℝ → Prop}
  {F : Set (Fin n → ℝ)} {f : (Fin n → ℝ) → ℝ} {G : ℝ}

theorem quad_convex_comb {A : Matrix (Fin n) (Fin n) ℝ} (hA : A.PosDef) (a b : Fin n → ℝ) {s t : ℝ} (hs : 0 ≤ s)
    (ht : 0 ≤ t) (hst : s + t = 1) :
    (s • a + t • b) ⬝ᵥ (A *ᵥ (s • a + t • b)) ≤ s * (a ⬝ᵥ (A *ᵥ a)) + t * (b ⬝ᵥ (A *ᵥ b)) := by
  have h := quad_nonneg hA (a - b)
  have e1 : (a - b) ⬝ᵥ (A *ᵥ (a - b)) =
      a ⬝ᵥ (A *ᵥ a) - a ⬝ᵥ (A *ᵥ b) - b ⬝ᵥ (A *ᵥ a) + b ⬝ᵥ (A *ᵥ b) := by
    rw [mulVec_sub, dotProduct_sub, sub_dotProduct, sub_dotProduct]; ring
  have e2 : (s • a + t • b) ⬝ᵥ (A *ᵥ (s • a + t • b)) =
      s * s * (a ⬝ᵥ (A *ᵥ a)) + s * t * (a ⬝ᵥ (A *ᵥ b)) + s * t * (b ⬝ᵥ (A *ᵥ a)) + t * t * (b ⬝ᵥ (A *ᵥ b)) := by
    rw [mulVec_add, mulVec_smul, mulVec_smul, dotProduct_add, add_dotProduct, add_dotProduct]
    simp only [dotProduct_smul, smul_dotProduct, smul_eq_mul]
    ring
  have hs' : s = 1 - t := by linarith
  rw [e2]
  rw [e1] at h
  have h' := mul_nonneg (mul_nonneg hs ht) h
  subst hs'
  nlinarith

/-- the region of a valid search space is convex -/
theorem region_convex {e : Ell ℝ} (he : e.Valid n) : Convex ℝ (e.region n) := by
  intro x hx y hy s t hs ht hst
  have hx' : (x - e.c n) ⬝ᵥ ((e.M n)⁻¹ *ᵥ (x - e.c n)) ≤ e.kappa := hx
  have hy' : (y - e.c n) ⬝ᵥ ((e.M n)⁻¹ *ᵥ (y - e.c n)) ≤ e.kappa := hy
  show (s • x + t • y - e.c n) ⬝ᵥ ((e.M n)⁻¹ *ᵥ (s • x + t • y - e.c n)) ≤ e.kappa
  have : s • x + t • y - e.c n = s • (x - e.c n) + t • (y - e.c n) := by
    rw [smul_sub, smul_sub]
    have : e.c n = s • e.c n + t • e.c n := by rw [← add_smul, hst, one_smul]
    nth_rw 1 [this]
    abel
  rw [this]
  refine (quad_convex_comb he.posDef.inv _ _ hs ht hst).trans ?_
  calc _ ≤ s * e.kappa + t * e.kappa := by gcongr
    _ = e.kappa := by rw [← add_mul, hst, one_mul]

/-- the ball `(1 - θ) xs + θ ball p r` -/
theorem mem_shrunk_ball {xs p x : Fin n → ℝ} {θ r : ℝ} (hθ : 0 < θ)
    (hx : x ∈ ball ((1 - θ) • xs + θ • p) (θ * r)) :
    ∃ y ∈ ball p r, x = (1 - θ) • xs + θ • y := by
  refine ⟨p + θ⁻¹ • (x - ((1 - θ) • xs + θ • p)), ?_, ?_⟩
  · have hx' : normSq (x - ((1 - θ) • xs + θ • p)) ≤ (θ * r) ^ 2 := hx
    show normSq (p + θ⁻¹ • (x - ((1 - θ) • xs + θ • p)) - p) ≤ r ^ 2
    rw [add_sub_cancel_left, normSq, smul_dotProduct, dotProduct_smul, smul_eq_mul, smul_eq_mul, ← mul_assoc]
    rw [normSq] at hx'
    calc _ ≤ θ⁻¹ * θ⁻¹ * (θ * r) ^ 2 := by gcongr
      _ = r ^ 2 := by field_simp
  · rw [smul_add, smul_smul, mul_inv_cancel₀ hθ.ne', one_smul]
    abel

/-- **C72** Explicit complexity.  Let the oracle maximise the concave `f` over the convex set `F`; let a ball of feasible
points of radius `r` lie in the initial ellipsoid, and let no feasible point of the initial ellipsoid be better by more than
`V` than a point of that ball.  For `0 < ε ≤ V`, a tolerance of at most `(ε r G / V)²` and more than
`(n + 1) ln (det (κ M) / (ε r / V)^(2n))` iterations guarantee that no feasible point of the initial ellipsoid is better than
the returned value by more than `ε`; the value is the initial one or that of the returned feasible point. -/
theorem C72_iterations_for_accuracy (h : Maximizes n orc I F f G) (w : Ω) (e : Ell ℝ) (γ : ℝ) (hw : I w γ)
    (he : e.Valid n) (hf : ConcaveOn ℝ F f) {p : Fin n → ℝ} {r V ε : ℝ} (hr : 0 < r) (hpF : ball p r ⊆ F)
    (hpE : ball p r ⊆ e.region n) (hV : ∀ x ∈ F, x ∈ e.region n → ∀ y ∈ ball p r, f x - V ≤ f y)
    (hε : 0 < ε) (hεV : ε ≤ V) (opts : Options ℝ) (htol : opts.tolerance ≤ (ε * r * G / V) ^ 2)
    (hit : ((n : ℝ) + 1) * Real.log ((e.kappa • e.M n).det / (ε * r / V) ^ (2 * n)) < opts.maxIters) :
    ∃ xb k γ' w' e', cuttingPlaneOptim orc Ell.space w e γ opts = .ok ((xb, k), γ', w', e') ∧
      (∀ x ∈ F, x ∈ e.region n → f x ≤ γ' + ε) ∧
      ((xb = none ∧ γ' = γ) ∨ ∃ x, xb = some x ∧ x.toVec n ∈ F ∧ f (x.toVec n) = γ') := by
  have hV0 : 0 < V := lt_of_lt_of_le hε hεV
  set θ := ε / V with hθ
  have hθ0 : 0 < θ := by positivity
  have hθ1 : θ ≤ 1 := (div_le_one hV0).2 hεV
  have hrad : ε * r / V = θ * r := by rw [hθ]; ring
  have key : ∀ x ∈ F, x ∈ e.region n → ∃ xb k γ' w' e',
      cuttingPlaneOptim orc Ell.space w e γ opts = .ok ((xb, k), γ', w', e') ∧ f x - ε ≤ γ' := by
    intro x hxF hxE
    refine C25_optim_reaches_level orc I F f G (θ * r) (f x - ε)
      ((1 - θ) • x + θ • p) w e γ opts h.honest hw he (by positivity)
      (fun z hz => ?_) (fun z hz => ?_) ?_ ?_
    · obtain ⟨y, hy, rfl⟩ := mem_shrunk_ball hθ0 hz
      exact region_convex he hxE (hpE hy) (by linarith) hθ0.le (by ring)
    · obtain ⟨y, hy, rfl⟩ := mem_shrunk_ball hθ0 hz
      refine ⟨hf.1 hxF (hpF hy) (by linarith) hθ0.le (by ring), ?_⟩
      have hc := hf.2 hxF (hpF hy) (show 0 ≤ 1 - θ by linarith) hθ0.le (by ring)
      simp only [smul_eq_mul] at hc
      have hy' := mul_le_mul_of_nonneg_left (hV x hxF hxE y hy) hθ0.le
      have : θ * V = ε := by rw [hθ]; field_simp
      nlinarith
    · refine htol.trans (le_of_eq ?_)
      rw [hθ]; ring
    · rw [hrad] at hit
      rwa [← pow_mul]
  have hp : p ∈ ball p r := by
    show normSq (p - p) ≤ r ^ 2
    simp [normSq]; positivity
  obtain ⟨xb, k, γ', w', e', h1, -⟩ := key p (hpF hp) (hpE hp)
  refine ⟨xb, k, γ', w', e', h1, fun x hxF hxE => ?_, ?_⟩
  · obtain ⟨xb2, k2, γ2, w2, e2, a1, a2⟩ := key x hxF hxE
    rw [h1] at a1
    simp only [Res.ok.injEq, Prod.mk.injEq] at a1
    obtain ⟨-, rfl, -⟩ := a1
    linarith
  · rcases optimLoop_attained he.pos h opts.maxIters 0 none w e γ hw he.shaped (Or.inl ⟨rfl, rfl⟩) xb k γ' w' e' h1 with
      h | ⟨x, h1, -, h3, h4⟩
    · exact Or.inl h
    · exact Or.inr ⟨x, h1, h3, h4⟩

/-- **C72** Linear convergence.  With tolerance zero (or less) no feasible point of the initial ellipsoid is better than the
value after `N` iterations by more than `V · det(κM)^(1/2n) / r · exp(-N / (2n(n+1)))`, as soon as this is below `V`. -/
theorem C72_linear_convergence (h : Maximizes n orc I F f G) (w : Ω) (e : Ell ℝ) (γ : ℝ) (hw : I w γ)
    (he : e.Valid n) (hf : ConcaveOn ℝ F f) {p : Fin n → ℝ} {r V : ℝ} (hr : 0 < r) (hpF : ball p r ⊆ F)
    (hpE : ball p r ⊆ e.region n) (hV : ∀ x ∈ F, x ∈ e.region n → ∀ y ∈ ball p r, f x - V ≤ f y)
    (hV0 : 0 < V) (opts : Options ℝ) (htol : opts.tolerance ≤ 0) {ρ : ℝ}
    (hρ : ρ = (e.kappa • e.M n).det ^ (1 / (2 * (n : ℝ))) / r * Real.exp (-(opts.maxIters / (2 * n * (n + 1)))))
    (hρ1 : ρ < 1) :
    ∃ xb k γ' w' e', cuttingPlaneOptim orc Ell.space w e γ opts = .ok ((xb, k), γ', w', e') ∧
      (∀ x ∈ F, x ∈ e.region n → f x ≤ γ' + V * ρ) ∧
      ((xb = none ∧ γ' = γ) ∨ ∃ x, xb = some x ∧ x.toVec n ∈ F ∧ f (x.toVec n) = γ') := by
  have hn : (0 : ℝ) < n := by exact_mod_cast he.pos
  have hdet : 0 < (e.kappa • e.M n).det := by
    rw [det_smul]
    exact mul_pos (pow_pos he.kappa _) he.posDef.det_pos
  have hρ0 : 0 < ρ := by rw [hρ]; positivity
  -- every accuracy `θ V` with `ρ < θ ≤ 1` is reached
  have key : ∀ θ, ρ < θ → θ ≤ 1 → ∃ xb k γ' w' e',
      cuttingPlaneOptim orc Ell.space w e γ opts = .ok ((xb, k), γ', w', e') ∧
      (∀ x ∈ F, x ∈ e.region n → f x ≤ γ' + θ * V) ∧
      ((xb = none ∧ γ' = γ) ∨ ∃ x, xb = some x ∧ x.toVec n ∈ F ∧ f (x.toVec n) = γ') := by
    intro θ h1 h2
    have hθ0 : 0 < θ := hρ0.trans h1
    refine C72_iterations_for_accuracy h w e γ hw he hf hr hpF hpE hV (ε := θ * V) (by positivity)
      (by nlinarith) opts (htol.trans (sq_nonneg _)) ?_
    have hlog := Real.log_lt_log hρ0 h1
    have e1 : θ * V * r / V = θ * r := by field_simp
    rw [hρ, Real.log_mul (by positivity) (by positivity), Real.log_exp, Real.log_div (by positivity) hr.ne',
      Real.log_rpow hdet] at hlog
    rw [e1, Real.log_div hdet.ne' (by positivity), Real.log_pow, Real.log_mul hθ0.ne' hr.ne']
    push_cast
    have h2n : (0 : ℝ) < 2 * n * (n + 1) := by positivity
    have := mul_lt_mul_of_pos_left hlog h2n
    have e2 : 2 * (n : ℝ) * (n + 1) * (1 / (2 * n) * Real.log (e.kappa • e.M n).det - Real.log r +
        -(opts.maxIters / (2 * n * (n + 1)))) =
        (n + 1) * Real.log (e.kappa • e.M n).det - 2 * n * (n + 1) * Real.log r - opts.maxIters := by
      field_simp
      ring
    rw [e2] at this
    nlinarith
  obtain ⟨xb, k, γ', w', e', h1, -, h4⟩ := key 1 hρ1 le_rfl
  refine ⟨xb, k, γ', w', e', h1, fun x hxF hxE => ?_, h4⟩
  by_contra hc
  push Not at hc
  -- choose `θ` between `ρ` and `(f x - γ') / V`
  set q := min 1 ((f x - γ') / V) with hq
  have hρq : ρ < q := by
    refine lt_min hρ1 ?_
    rw [lt_div_iff₀ hV0]
    linarith
  obtain ⟨xb2, k2, γ2, w2, e2, a1, a2, -⟩ := key ((ρ + q) / 2) (by linarith) (by
    have := min_le_left 1 ((f x - γ') / V)
    linarith)
  rw [h1] at a1
  simp only [Res.ok.injEq, Prod.mk.injEq] at a1
  obtain ⟨-, rfl, -⟩ := a1
  have h5 : q ≤ (f x - γ') / V := min_le_right _ _
  rw [le_div_iff₀ hV0] at h5
  have := a2 x hxF hxE
  nlinarith

/-- **C72** An initial value that no feasible point attains is returned unchanged, without a point. -/
theorem C72_unreachable_level (h : Maximizes n orc I F f G) (w : Ω) (e : Ell ℝ) (γ : ℝ) (hw : I w γ)
    (he : e.Valid n) (hγ : ∀ x ∈ F, f x < γ) (opts : Options ℝ) {xb k γ' w' e'}
    (hr : cuttingPlaneOptim orc Ell.space w e γ opts = .ok ((xb, k), γ', w', e')) : xb = none ∧ γ' = γ := by
  suffices hs : ∀ (m n0 : Nat) (w : Ω) (e : Ell ℝ), I w γ → e.Shaped n → ∀ xb k γ' w' e',
      optimLoop orc Ell.space opts.tolerance m n0 none w e γ = .ok ((xb, k), γ', w', e') → xb = none ∧ γ' = γ from
    hs opts.maxIters 0 w e hw he.shaped xb k γ' w' e' hr
  intro m
  induction m with
  | zero =>
    intro n0 w e _ _ xb k γ' w' e' hr
    simp only [optimLoop, Res.ok.injEq, Prod.mk.injEq] at hr
    obtain ⟨⟨rfl, rfl⟩, rfl, rfl, rfl⟩ := hr
    exact ⟨rfl, rfl⟩
  | succ m ih =>
    intro n0 w e hw hsh xb k γ' w' e' hr
    have hxs : (Ell.space (T := SingleCut ℝ).xc e).IsVecShape n := hsh.2
    obtain ⟨g, b, s, γ1, w1, h1, h2, h3, h4, h5⟩ := h w (Ell.space (T := SingleCut ℝ).xc e) γ hw hxs
    have hs : s = false := by
      rw [← Bool.not_eq_true, h3.improves]
      rintro ⟨a, b⟩
      exact absurd (hγ _ a) (not_lt.2 b)
    subst hs
    have hv : γ1 = γ := by simpa using h3.value
    subst hv
    simp only [optimLoop, h1, Res.ok_bind, Bool.false_eq_true, if_false] at hr
    obtain ⟨⟨st, e1⟩, hu, hr⟩ := Res.bind_eq_ok.1 hr
    simp only at hr
    split at hr
    · simp only [Res.ok.injEq, Prod.mk.injEq] at hr
      obtain ⟨⟨rfl, rfl⟩, rfl, rfl, rfl⟩ := hr
      exact ⟨rfl, rfl⟩
    · exact ih _ _ _ h2 (shape_of_update he.pos .bias hsh h3.shape hu) _ _ _ _ _ hr

end Ellalgo
