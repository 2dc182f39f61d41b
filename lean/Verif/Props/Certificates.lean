import Verif.Props.Rate

/-! C77: what an early stop proves when the tolerance is positive. -/

namespace Ellalgo
open Matrix

variable {n : Nat} {Ω : Type}

theorem feas_none_ball_loop {T : Type} [Cut T] (orc : OracleFeas Ω (Arr ℝ) T ℝ) (I : Ω → Prop) (K : Set (Fin n → ℝ))
    (G r : ℝ) (p : Fin n → ℝ) (hor : HonestFeas n orc I K G) (hr : 0 < r) (hK : ball p r ⊆ K)
    (tol : ℝ) (htol : tol ≤ r ^ 2 * G ^ 2) (m : Nat) :
    ∀ (n0 : Nat) (w : Ω) (e : Ell ℝ), I w → e.Valid n → ball p r ⊆ e.region n → ∀ k w' e',
      feasLoop orc Ell.space tol m n0 w e = .ok ((none, k), w', e') → k = n0 + m := by
  induction m with
  | zero =>
    intro n0 w e _ _ _ k w' e' h
    simp only [feasLoop, Res.ok.injEq, Prod.mk.injEq, true_and] at h
    omega
  | succ m ih =>
    intro n0 w e hI he hb k w2 e2 h
    obtain ⟨ans, w', hq, hI', hcut⟩ := hor w e.xc hI he.shaped.2
    have hq' : orc.assess w (Ell.space (T := T).xc e) = .ok (ans, w') := hq
    unfold feasLoop at h
    rw [hq'] at h
    cases ans with
    | none => simp at h
    | some c =>
      obtain ⟨g, c⟩ := c
      obtain ⟨hs, hg, hG, hlo, hsat⟩ := hcut g c rfl
      obtain ⟨e', hu, hv, hb', -, -, htsq⟩ := Ell.step_ball he .bias (g, c) hs hg
        (by simpa using hlo) hr hb (fun y hy => hsat y (hK hy))
      have hu' : Ell.space.updateBias e (g, c) = .ok (.success, e') := hu
      have hlt : Scalar.lt (Ell.space (T := T).tsq e') tol = false := by
        have : tol ≤ e'.tsq := htol.trans ((mul_le_mul_of_nonneg_left hG (by positivity)).trans htsq)
        show Scalar.lt e'.tsq tol = false
        rw [Scalar.real_lt]
        simpa using this
      simp only [Res.ok_bind, hu', hlt] at h
      have := ih (n0 + 1) w' e' hI' hv hb' k w2 e2 h
      omega

/-- **C77** (feasibility)  Whatever the tolerance: if `cutting_plane_feas` gives up before `max_iters`, the initial ellipsoid
contains no ball of feasible points of radius `√tol / G` or more. -/
theorem C77_none_excludes_balls {T : Type} [Cut T] (orc : OracleFeas Ω (Arr ℝ) T ℝ) (I : Ω → Prop) (K : Set (Fin n → ℝ))
    (G : ℝ) (w : Ω) (e : Ell ℝ) (opts : Options ℝ) (hor : HonestFeas n orc I K G) (hw : I w) (he : e.Valid n)
    (k : Nat) (w' : Ω) (e' : Ell ℝ) (h : cuttingPlaneFeas orc Ell.space w e opts = .ok ((none, k), w', e'))
    (hk : k < opts.maxIters) (p : Fin n → ℝ) (r : ℝ) (hr : 0 < r) (hb : ball p r ⊆ K ∩ e.region n) :
    r ^ 2 * G ^ 2 < opts.tolerance := by
  by_contra hcon
  have := feas_none_ball_loop orc I K G r p hor hr (fun x hx => (hb hx).1) opts.tolerance (not_lt.1 hcon) opts.maxIters 0
    w e hw he (fun x hx => (hb hx).2) k w' e' h
  omega

theorem optim_stop_ball_loop {T : Type} [Cut T] (orc : OracleOptim Ω (Arr ℝ) T ℝ) (I : Ω → ℝ → Prop)
    (S : ℝ → Set (Fin n → ℝ)) (G r : ℝ) (p : Fin n → ℝ) (hn : 0 < n) (hor : HonestOptim n orc I S G) (hr : 0 < r)
    (tol : ℝ) (htol : tol ≤ r ^ 2 * G ^ 2) (m : Nat) :
    ∀ (n0 : Nat) (xb : Option (Arr ℝ)) (w : Ω) (e : Ell ℝ) (γ : ℝ), I w γ → e.Shaped n → ∀ xb' k γ' w' e',
      optimLoop orc Ell.space tol m n0 xb w e γ = .ok ((xb', k), γ', w', e') →
        S γ' ⊆ S γ ∧ (e.Valid n → ball p r ⊆ e.region n → k < n0 + m → ¬ ball p r ⊆ S γ') := by
  induction m with
  | zero =>
    intro n0 xb w e γ _ _ xb' k γ' w' e' h
    simp only [optimLoop, Res.ok.injEq, Prod.mk.injEq] at h
    obtain ⟨⟨rfl, rfl⟩, rfl, rfl, rfl⟩ := h
    exact ⟨le_rfl, fun _ _ hk => by omega⟩
  | succ m ih =>
    intro n0 xb w e γ hI hsh xb' k γ' w' e' h
    obtain ⟨g, c, shrunk, γ1, w1, hq, hI1, hS1, hs, hg, hG, hcen, hbias⟩ := hor w e.xc γ hI hsh.2
    have hq' : orc.assess w (Ell.space (T := T).xc e) γ = .ok (((g, c), shrunk), γ1, w1) := hq
    obtain ⟨st, e1, hu, hsh1⟩ : ∃ st e1, (if shrunk then Ell.space.updateCentral e (g, c)
        else Ell.space.updateBias e (g, c)) = .ok (st, e1) ∧ e1.Shaped n := by
      cases shrunk
      · obtain ⟨st, e1, h1, h2, _⟩ := Ell.update_shape hn .bias e (g, c) hsh hs
        exact ⟨st, e1, h1, h2⟩
      · obtain ⟨st, e1, h1, h2, _⟩ := Ell.update_shape hn .central e (g, c) hsh hs
        exact ⟨st, e1, h1, h2⟩
    have good : e.Valid n → ball p r ⊆ e.region n → ball p r ⊆ S γ1 →
        st = .success ∧ e1.Valid n ∧ ball p r ⊆ e1.region n ∧ Scalar.lt (Ell.space (T := T).tsq e1) tol = false := by
      intro he hb hsub
      obtain ⟨kd, hkd, hlo, hsat⟩ : ∃ kd : UpdateKind,
          (kd = if shrunk then .central else .bias) ∧ 0 ≤ kd.lo (Cut.lo c) ∧
          ∀ y ∈ S γ1, Cut.Sat kd c (g.toVec n ⬝ᵥ (y - e.c n)) := by
        cases shrunk
        · exact ⟨.bias, rfl, by simpa using (hbias rfl).1, (hbias rfl).2⟩
        · exact ⟨.central, rfl, by simp, hcen rfl⟩
      obtain ⟨e2, hu2, hv, hb', -, -, htsq⟩ := Ell.step_ball he kd (g, c) hs hg hlo hr hb
        (fun y hy => hsat y (hsub hy))
      have hu' : Ell.space.update kd e (g, c) = .ok (st, e1) := by
        rw [← hu, hkd]
        cases shrunk <;> rfl
      rw [hu2] at hu'
      simp only [Res.ok.injEq, Prod.mk.injEq] at hu'
      obtain ⟨rfl, rfl⟩ := hu'
      refine ⟨rfl, hv, hb', ?_⟩
      have : tol ≤ e2.tsq := htol.trans ((mul_le_mul_of_nonneg_left hG (by positivity)).trans htsq)
      show Scalar.lt e2.tsq tol = false
      rw [Scalar.real_lt]
      simpa using this
    unfold optimLoop at h
    simp only [hq', Res.ok_bind, hu] at h
    split at h
    · rename_i hstop
      simp only [Res.ok.injEq, Prod.mk.injEq] at h
      obtain ⟨-, rfl, -, -⟩ := h
      refine ⟨hS1, ?_⟩
      intro he hb _ hsub
      obtain ⟨h1, -, -, h2⟩ := good he hb hsub
      rw [h1, h2] at hstop
      simp at hstop
    · obtain ⟨h2, h3⟩ := ih (n0 + 1) _ w1 e1 γ1 hI1 hsh1 _ _ _ _ _ h
      refine ⟨h2.trans hS1, ?_⟩
      intro he hb hk hsub
      obtain ⟨-, a1, a2, -⟩ := good he hb (hsub.trans h2)
      exact h3 a1 a2 (by omega) hsub

/-- **C77** (optimisation)  Whatever the tolerance: if `cutting_plane_optim` stops before `max_iters` with value `γ'`, the
initial ellipsoid contains no ball of radius `√tol / G` or more of points strictly better than `γ'`. -/
theorem C77_stop_excludes_balls {T : Type} [Cut T] (orc : OracleOptim Ω (Arr ℝ) T ℝ) (I : Ω → ℝ → Prop)
    (S : ℝ → Set (Fin n → ℝ)) (G : ℝ) (w : Ω) (e : Ell ℝ) (γ : ℝ) (opts : Options ℝ)
    (hor : HonestOptim n orc I S G) (hw : I w γ) (he : e.Valid n)
    (xb : Option (Arr ℝ)) (k : Nat) (γ' : ℝ) (w' : Ω) (e' : Ell ℝ)
    (h : cuttingPlaneOptim orc Ell.space w e γ opts = .ok ((xb, k), γ', w', e')) (hk : k < opts.maxIters)
    (p : Fin n → ℝ) (r : ℝ) (hr : 0 < r) (hb : ball p r ⊆ S γ' ∩ e.region n) : r ^ 2 * G ^ 2 < opts.tolerance := by
  by_contra hcon
  exact (optim_stop_ball_loop orc I S G r p he.pos hor hr opts.tolerance (not_lt.1 hcon) opts.maxIters 0 none
    w e γ hw he.shaped xb k γ' w' e' h).2 he (fun x hx => (hb hx).2) (by omega) (fun x hx => (hb hx).1)

/-- **C77** (accuracy of an early stop)  Let the oracle maximise the concave `f` over the convex set `F`, let a ball of feasible
points of radius `r` lie in the initial ellipsoid and let no feasible point of the initial ellipsoid be better by more than
`V` than a point of that ball.  If `cutting_plane_optim` stops before `max_iters`, no feasible point of the initial ellipsoid is
better than the returned value by more than `V √tol / (r G)`, as soon as this is at most `V`. -/
theorem C77_stop_gap {orc : OracleOptim Ω (Arr ℝ) (SingleCut ℝ) ℝ} {I : Ω → ℝ → Prop} {F : Set (Fin n → ℝ)}
    {f : (Fin n → ℝ) → ℝ} {G : ℝ} (hm : Maximizes n orc I F f G) (hG : 0 < G) (w : Ω) (e : Ell ℝ) (γ : ℝ) (hw : I w γ)
    (he : e.Valid n) (hf : ConcaveOn ℝ F f) {p : Fin n → ℝ} {r V : ℝ} (hr : 0 < r) (hpF : ball p r ⊆ F)
    (hpE : ball p r ⊆ e.region n) (hV : ∀ x ∈ F, x ∈ e.region n → ∀ y ∈ ball p r, f x - V ≤ f y) (hV0 : 0 ≤ V)
    (opts : Options ℝ) (ht : 0 < opts.tolerance) (htol : √opts.tolerance ≤ r * G)
    (xb : Option (Arr ℝ)) (k : Nat) (γ' : ℝ) (w' : Ω) (e' : Ell ℝ)
    (h : cuttingPlaneOptim orc Ell.space w e γ opts = .ok ((xb, k), γ', w', e')) (hk : k < opts.maxIters) :
    ∀ x ∈ F, x ∈ e.region n → f x ≤ γ' + V * (√opts.tolerance / (r * G)) := by
  intro x hxF hxE
  set θ := √opts.tolerance / (r * G) with hθ
  have hθ0 : 0 < θ := by positivity
  have hθ1 : θ ≤ 1 := (div_le_one (by positivity)).2 htol
  by_contra hcon
  have hlt := not_le.1 hcon
  have hexcl := C77_stop_excludes_balls orc I (fun γ => {x | x ∈ F ∧ γ < f x}) G w e γ opts hm.honest hw he xb k γ' w' e' h hk
    ((1 - θ) • x + θ • p) (θ * r) (by positivity) (fun z hz => by
      obtain ⟨y, hy, rfl⟩ := mem_shrunk_ball hθ0 hz
      refine ⟨⟨hf.1 hxF (hpF hy) (by linarith) hθ0.le (by ring), ?_⟩,
        region_convex he hxE (hpE hy) (by linarith) hθ0.le (by ring)⟩
      have hc := hf.2 hxF (hpF hy) (show 0 ≤ 1 - θ by linarith) hθ0.le (by ring)
      simp only [smul_eq_mul] at hc
      have hy' := mul_le_mul_of_nonneg_left (hV x hxF hxE y hy) hθ0.le
      nlinarith)
  have : (θ * r) ^ 2 * G ^ 2 = opts.tolerance := by
    have e1 : θ * r * G = √opts.tolerance := by rw [hθ]; field_simp
    rw [← mul_pow, e1, Real.sq_sqrt ht.le]
  linarith

end Ellalgo
