import Verif.Spec.OptimAnswer
import Verif.Props.Converge
import Mathlib.Analysis.Convex.Basic
import Mathlib.Topology.MetricSpace.Pseudo.Pi
import Mathlib.Analysis.Normed.Module.Basic

/-! End-to-end: maximising with the ellipsoid method and an oracle that keeps its promises. -/

namespace Ellalgo
open Matrix

variable {Ω : Type} {n : Nat} {orc : OracleOptim Ω (Arr ℝ) (SingleCut ℝ) ℝ} {I : Ω → ℝ → Prop}
  {F : Set (Fin n → ℝ)} {f : (Fin n → ℝ) → ℝ} {G : ℝ}

theorem Maximizes.honest (h : Maximizes n orc I F f G) :
    HonestOptim n orc I (fun γ => {x | x ∈ F ∧ γ < f x}) G := by
  intro w x γ hw hx
  obtain ⟨g, b, s, γ', w', h1, h2, h3, h4, h5⟩ := h w x γ hw hx
  refine ⟨g, ⟨b⟩, s, γ', w', h1, h2, ?_, h3.shape, h4, h5, ?_, ?_⟩
  · rintro y ⟨hy1, hy2⟩
    exact ⟨hy1, h3.mono.trans_lt hy2⟩
  · rintro hs y ⟨hy1, hy2⟩
    refine ⟨?_, by simp⟩
    have := (h3.accepted hs).2 y hy1 hy2.le
    simpa using this
  · intro hs
    obtain ⟨a, c⟩ := h3.rejected hs
    refine ⟨a.le, ?_⟩
    rintro y ⟨hy1, hy2⟩
    refine ⟨?_, by simp⟩
    have hv := h3.value
    rw [hs] at hv
    have := c y hy1 (by simp only [Bool.false_eq_true, if_false] at hv; linarith)
    simpa using this

theorem Maximizes.complete (h : Maximizes n orc I F f G) :
    CompleteOptim n orc I (fun γ => {x | x ∈ F ∧ γ < f x}) := by
  intro w x γ g c s γ' w' hw hx hq
  obtain ⟨g0, b, s0, γ0, w0, h1, h2, h3, h4, h5⟩ := h w x γ hw hx
  rw [h1] at hq
  simp only [Res.ok.injEq, Prod.mk.injEq] at hq
  obtain ⟨⟨⟨rfl, rfl⟩, rfl⟩, rfl, rfl⟩ := hq
  refine ⟨?_, by simp, by simp⟩
  rintro ⟨hx1, hx2⟩
  have hv := h3.value
  cases hs : s0 with
  | true => rw [hs] at hv; simp only [if_true] at hv; linarith
  | false =>
    rw [hs] at hv
    simp only [Bool.false_eq_true, if_false] at hv
    have := h3.improves.2 ⟨hx1, by linarith⟩
    rw [hs] at this
    simp at this

/-- what the caller may conclude about the returned point: none with the value untouched, or a feasible point whose
objective is the returned value -/
def Attained (n : Nat) (F : Set (Fin n → ℝ)) (f : (Fin n → ℝ) → ℝ) (γ0 : ℝ) (xb : Option (Arr ℝ)) (γ : ℝ) : Prop :=
  (xb = none ∧ γ = γ0) ∨ ∃ x, xb = some x ∧ x.IsVecShape n ∧ x.toVec n ∈ F ∧ f (x.toVec n) = γ

theorem optimLoop_attained (hn : 0 < n) (h : Maximizes n orc I F f G) {γ0 tol : ℝ} (m : Nat) :
    ∀ (n0 : Nat) (xb : Option (Arr ℝ)) (w : Ω) (e : Ell ℝ) (γ : ℝ), I w γ → e.Shaped n → Attained n F f γ0 xb γ →
      ∀ xb' k γ' w' e', optimLoop orc Ell.space tol m n0 xb w e γ = .ok ((xb', k), γ', w', e') →
        Attained n F f γ0 xb' γ' := by
  induction m with
  | zero =>
    intro n0 xb w e γ _ _ hA xb' k γ' w' e' hr
    simp only [optimLoop, Res.ok.injEq, Prod.mk.injEq] at hr
    obtain ⟨⟨rfl, rfl⟩, rfl, rfl, rfl⟩ := hr
    exact hA
  | succ m ih =>
    intro n0 xb w e γ hw he hA xb' k γ' w' e' hr
    have hxs : (Ell.space (T := SingleCut ℝ).xc e).IsVecShape n := he.2
    obtain ⟨g, b, s, γ1, w1, h1, h2, h3, h4, h5⟩ := h w (Ell.space (T := SingleCut ℝ).xc e) γ hw hxs
    simp only [optimLoop, h1, Res.ok_bind] at hr
    have hA' : Attained n F f γ0 (if s = true then some (Ell.space (T := SingleCut ℝ).xc e) else xb) γ1 := by
      have hv := h3.value
      cases hs : s with
      | true =>
        rw [hs] at hv
        exact Or.inr ⟨_, rfl, hxs, (h3.improves.1 hs).1, by rw [hv]; rfl⟩
      | false =>
        rw [hs] at hv
        simp only [Bool.false_eq_true, if_false] at hv ⊢
        rw [hv]; exact hA
    obtain ⟨⟨st, e1⟩, hu, hr⟩ := Res.bind_eq_ok.1 hr
    have he1 : e1.Shaped n := by
      cases hs : s with
      | true =>
        rw [hs] at hu
        exact shape_of_update hn .central he h3.shape hu
      | false =>
        rw [hs] at hu
        exact shape_of_update hn .bias he h3.shape hu
    simp only at hr
    split at hr
    · simp only [Res.ok.injEq, Prod.mk.injEq] at hr
      obtain ⟨⟨rfl, rfl⟩, rfl, rfl, rfl⟩ := hr
      exact hA'
    · exact ih _ _ _ _ _ h2 he1 hA' _ _ _ _ _ hr

/-- a ball of feasible points near a point of a convex set with interior -/
theorem exists_ball_near (hF : Convex ℝ F) (hint : (interior F).Nonempty) {xs : Fin n → ℝ} (hxs : xs ∈ F)
    {U : Set (Fin n → ℝ)} (hU : U ∈ nhds xs) : ∃ p r, 0 < r ∧ ball p r ⊆ F ∧ ball p r ⊆ U := by
  obtain ⟨q, hq⟩ := hint
  obtain ⟨rho, hrho, hball⟩ := Metric.isOpen_iff.1 isOpen_interior q hq
  obtain ⟨d, hd, hdU⟩ := Metric.mem_nhds_iff.1 hU
  -- points within `t rho` of `xs + t (q - xs)`
  set D := dist q xs + rho with hD
  have hDpos : 0 < D := by have := dist_nonneg (x := q) (y := xs); linarith
  set t := min 1 (d / (2 * D)) with ht
  have ht0 : 0 < t := lt_min one_pos (by positivity)
  have ht1 : t ≤ 1 := min_le_left _ _
  have htD : t * D ≤ d / 2 := by
    have : t ≤ d / (2 * D) := min_le_right _ _
    calc t * D ≤ d / (2 * D) * D := by gcongr
      _ = d / 2 := by field_simp
  have key : ∀ x ∈ ball (xs + t • (q - xs)) (t * rho / 2), dist x (xs + t • (q - xs)) ≤ t * rho / 2 := by
    intro x hx
    have hnn : 0 ≤ t * rho / 2 := by positivity
    rw [dist_pi_le_iff hnn]
    intro i
    rw [Real.dist_eq]
    apply abs_le_of_sq_le_sq _ hnn
    have hx' : normSq (x - (xs + t • (q - xs))) ≤ (t * rho / 2) ^ 2 := hx
    refine le_trans ?_ hx'
    have := Finset.single_le_sum (f := fun i => (x - (xs + t • (q - xs))) i * (x - (xs + t • (q - xs))) i)
      (fun i _ => mul_self_nonneg _) (Finset.mem_univ i)
    simp only [Pi.sub_apply] at this
    rw [normSq, dotProduct]
    simp only [Pi.sub_apply]
    rw [sq]
    exact this
  refine ⟨xs + t • (q - xs), t * rho / 2, by positivity, ?_, ?_⟩
  · intro x hx
    have hdx := key x hx
    -- x = (1-t) xs + t y with y near q
    set y := q + t⁻¹ • (x - (xs + t • (q - xs))) with hy
    have hyF : y ∈ F := by
      apply interior_subset
      apply hball
      rw [Metric.mem_ball, dist_eq_norm, hy, add_sub_cancel_left, norm_smul, Real.norm_of_nonneg (by positivity)]
      rw [dist_eq_norm] at hdx
      calc t⁻¹ * ‖x - (xs + t • (q - xs))‖ ≤ t⁻¹ * (t * rho / 2) := by gcongr
        _ = rho / 2 := by field_simp
        _ < rho := by linarith
    have hx2 : x = (1 - t) • xs + t • y := by
      rw [hy, smul_add, smul_smul, mul_inv_cancel₀ ht0.ne', one_smul]
      ext i
      simp only [Pi.add_apply, Pi.smul_apply, Pi.sub_apply, smul_eq_mul]
      ring
    rw [hx2]
    exact hF hxs hyF (by linarith) ht0.le (by ring)
  · intro x hx
    have hdx := key x hx
    apply hdU
    rw [Metric.mem_ball]
    have h2 : dist (xs + t • (q - xs)) xs = t * dist q xs := by
      rw [dist_eq_norm, add_sub_cancel_left, norm_smul, Real.norm_of_nonneg ht0.le, ← dist_eq_norm]
    have h3 := dist_triangle x (xs + t • (q - xs)) xs
    have h4 : t * rho / 2 ≤ t * rho := by
      have : 0 < t * rho := by positivity
      linarith
    have h5 : t * D = t * dist q xs + t * rho := by rw [hD]; ring
    linarith

/-- **C56** Let the oracle maximise `f` over the convex set `F` (nonempty interior) and let the maximiser `xs` lie in
the interior of the initial ellipsoid.  Then for every `ε > 0` there are a number of iterations and a positive tolerance
such that with at least these many iterations and at most this tolerance `cutting_plane_optim` terminates normally with
a value within `ε` of the maximum, attained by the returned feasible point (unless the initial value was already within
`ε`, in which case no point need be returned). -/
theorem C56_epsilon_optimal (h : Maximizes n orc I F f G) (hG : 0 < G) (w : Ω) (e : Ell ℝ) (γ : ℝ) (hw : I w γ)
    (he : e.Valid n) (hF : Convex ℝ F) (hint : (interior F).Nonempty) {xs : Fin n → ℝ} (hxs : xs ∈ F)
    (hmax : ∀ x ∈ F, f x ≤ f xs) (hcont : ContinuousAt f xs) (hin : xs ∈ interior (e.region n)) (hγ : γ ≤ f xs)
    {ε : ℝ} (hε : 0 < ε) :
    ∃ (N : Nat) (tol0 : ℝ), 0 < tol0 ∧ ∀ opts : Options ℝ, N ≤ opts.maxIters → opts.tolerance ≤ tol0 →
      ∃ xb k γ' w' e', cuttingPlaneOptim orc Ell.space w e γ opts = .ok ((xb, k), γ', w', e') ∧
        f xs - ε ≤ γ' ∧ γ' ≤ f xs ∧
        ((xb = none ∧ γ' = γ) ∨ ∃ x, xb = some x ∧ x.toVec n ∈ F ∧ f (x.toVec n) = γ') := by
  have hU : {x | f xs - ε ≤ f x} ∩ e.region n ∈ nhds xs := by
    refine Filter.inter_mem ?_ (mem_interior_iff_mem_nhds.1 hin)
    have := hcont.eventually (lt_mem_nhds (show f xs - ε < f xs by linarith))
    filter_upwards [this] with x hx using hx.le
  obtain ⟨p, r, hr, hb1, hb2⟩ := exists_ball_near hF hint hxs hU
  refine ⟨Nat.floor (((n : ℝ) + 1) * Real.log ((e.kappa • e.M n).det / (r ^ 2) ^ n)) + 1, r ^ 2 * G ^ 2,
    by positivity, ?_⟩
  intro opts hN htol
  obtain ⟨xb, k, γ', w', e', h1, h2⟩ := C25_optim_reaches_level orc I F f G r (f xs - ε) p w e γ opts h.honest hw he hr
    (fun x hx => (hb2 hx).2) (fun x hx => ⟨hb1 hx, (hb2 hx).1⟩) htol
    (by
      have := Nat.lt_floor_add_one (((n : ℝ) + 1) * Real.log ((e.kappa • e.M n).det / (r ^ 2) ^ n))
      have hN' : ((Nat.floor (((n : ℝ) + 1) * Real.log ((e.kappa • e.M n).det / (r ^ 2) ^ n)) + 1 : ℕ) : ℝ) ≤
        opts.maxIters := by exact_mod_cast hN
      push_cast at hN'
      linarith)
  have hA := optimLoop_attained he.pos h opts.maxIters 0 none w e γ hw he.shaped (Or.inl ⟨rfl, rfl⟩) xb k γ' w' e' h1
  refine ⟨xb, k, γ', w', e', h1, h2, ?_, ?_⟩
  · rcases hA with ⟨-, rfl⟩ | ⟨x, -, -, hx, rfl⟩
    · exact hγ
    · exact hmax _ hx
  · rcases hA with h | ⟨x, h1, -, h3, h4⟩
    · exact Or.inl h
    · exact Or.inr ⟨x, h1, h3, h4⟩

end Ellalgo
