import Verif.Lib.StepPotential
import Verif.Spec.Termination
import Verif.Props.Certificates

/-! C78: with a positive tolerance the cutting-plane methods stop by themselves. -/

namespace Ellalgo
open Matrix

variable {n : Nat} {Ω : Type}

theorem pot_contra {e : Ell ℝ} (he : e.Weak n) {c y : ℝ} (hc : 0 < c) (h : e.pot n c * Real.exp (-(((0 : Nat) : ℝ) * y)) < c ^ n) :
    False := by
  have := he.pot_ge hc
  rw [Nat.cast_zero, zero_mul, neg_zero, Real.exp_zero, mul_one] at h
  linarith

theorem pot_next {e e' : Ell ℝ} {c y : ℝ} {m : Nat} (h : e.pot n c * Real.exp (-(((m + 1 : Nat) : ℝ) * y)) < c ^ n)
    (h2 : e'.pot n c ≤ Real.exp (-y) * e.pot n c) : e'.pot n c * Real.exp (-((m : ℝ) * y)) < c ^ n := by
  refine lt_of_le_of_lt ?_ h
  calc e'.pot n c * Real.exp (-((m : ℝ) * y)) ≤ Real.exp (-y) * e.pot n c * Real.exp (-((m : ℝ) * y)) :=
        mul_le_mul_of_nonneg_right h2 (Real.exp_pos _).le
    _ = e.pot n c * (Real.exp (-y) * Real.exp (-((m : ℝ) * y))) := by ring
    _ = _ := by
      rw [← Real.exp_add]
      congr 2
      push_cast
      ring

theorem feas_stop_loop {T : Type} [Cut T] {θ y : ℝ} (hr : CutRate T n θ y) (orc : OracleFeas Ω (Arr ℝ) T ℝ) (I : Ω → Prop)
    {L tol c : ℝ} (hor : BoundedFeas n orc I L) (ht : 0 < tol) (hc : 0 < c) (hcL : c * L ^ 2 ≤ θ * tol) (d m : Nat) :
    ∀ (n0 : Nat) (w : Ω) (e : Ell ℝ), I w → e.Weak n → e.pot n c * Real.exp (-((m : ℝ) * y)) < c ^ n →
      ∃ x k w' e', feasLoop orc Ell.space tol (m + d) n0 w e = .ok ((x, k), w', e') ∧ k < n0 + m := by
  induction m with
  | zero => intro n0 w e _ he h; exact (pot_contra he hc h).elim
  | succ m ih =>
    intro n0 w e hI he h
    obtain ⟨ans, w', hq, hI', hcut⟩ := hor w e.xc hI he.shaped.2
    have hq' : orc.assess w (Ell.space (T := T).xc e) = .ok (ans, w') := hq
    rw [show m + 1 + d = (m + d) + 1 by omega]
    unfold feasLoop
    rw [hq']
    cases ans with
    | none => exact ⟨_, _, _, _, rfl, by omega⟩
    | some cut =>
      obtain ⟨g, b⟩ := cut
      obtain ⟨hs, hL, hlo⟩ := hcut g b rfl
      obtain ⟨st, e', hu, hstep⟩ := Ell.step_potential hr he .bias (g, b) hs (by simpa using hlo) ht hc hcL hL
      have hu' : Ell.space.updateBias e (g, b) = .ok (st, e') := hu
      simp only [Res.ok_bind, hu']
      split
      · exact ⟨_, _, _, _, rfl, by omega⟩
      · rename_i hgo
        have hgo' : st = .success ∧ tol ≤ e'.tsq := by
          have : Scalar.lt e'.tsq tol = true ↔ e'.tsq < tol := by rw [Scalar.real_lt]; simp
          have hsp : Ell.space (T := T).tsq e' = e'.tsq := rfl
          rw [hsp] at hgo
          cases st <;> simp_all
        obtain ⟨hw, hp⟩ := hstep hgo'.1 hgo'.2
        obtain ⟨x, k, w2, e2, h1, h2⟩ := ih (n0 + 1) w' e' hI' hw (pot_next h hp)
        exact ⟨x, k, w2, e2, h1, by omega⟩

theorem optim_stop_loop {T : Type} [Cut T] {θ y : ℝ} (hr : CutRate T n θ y) (orc : OracleOptim Ω (Arr ℝ) T ℝ)
    (I : Ω → ℝ → Prop) {L tol c : ℝ} (hor : BoundedOptim n orc I L) (ht : 0 < tol) (hc : 0 < c) (hcL : c * L ^ 2 ≤ θ * tol)
    (d m : Nat) : ∀ (n0 : Nat) (xb : Option (Arr ℝ)) (w : Ω) (e : Ell ℝ) (γ : ℝ), I w γ → e.Weak n →
      e.pot n c * Real.exp (-((m : ℝ) * y)) < c ^ n →
      ∃ xb' k γ' w' e', optimLoop orc Ell.space tol (m + d) n0 xb w e γ = .ok ((xb', k), γ', w', e') ∧ k < n0 + m := by
  induction m with
  | zero => intro n0 xb w e γ _ he h; exact (pot_contra he hc h).elim
  | succ m ih =>
    intro n0 xb w e γ hI he h
    obtain ⟨g, b, shrunk, γ1, w1, hq, hI1, hs, hL, hlo⟩ := hor w e.xc γ hI he.shaped.2
    have hq' : orc.assess w (Ell.space (T := T).xc e) γ = .ok (((g, b), shrunk), γ1, w1) := hq
    obtain ⟨st, e1, hu, hstep⟩ : ∃ st e1, (if shrunk then Ell.space.updateCentral e (g, b)
        else Ell.space.updateBias e (g, b)) = .ok (st, e1) ∧
        (st = .success → tol ≤ e1.tsq → e1.Weak n ∧ e1.pot n c ≤ Real.exp (-y) * e.pot n c) := by
      cases shrunk
      · exact Ell.step_potential hr he .bias (g, b) hs (by simpa using hlo rfl) ht hc hcL hL
      · exact Ell.step_potential hr he .central (g, b) hs (by simp) ht hc hcL hL
    rw [show m + 1 + d = (m + d) + 1 by omega]
    unfold optimLoop
    simp only [hq', Res.ok_bind, hu]
    split
    · exact ⟨_, _, _, _, _, rfl, by omega⟩
    · rename_i hgo
      have hgo' : st = .success ∧ tol ≤ e1.tsq := by
        have : Scalar.lt e1.tsq tol = true ↔ e1.tsq < tol := by rw [Scalar.real_lt]; simp
        have hsp : Ell.space (T := T).tsq e1 = e1.tsq := rfl
        rw [hsp] at hgo
        cases st <;> simp_all
      obtain ⟨hw, hp⟩ := hstep hgo'.1 hgo'.2
      obtain ⟨x, k, γ2, w2, e2, h1, h2⟩ := ih (n0 + 1) _ w1 e1 γ1 hI1 hw (pot_next h hp)
      exact ⟨x, k, γ2, w2, e2, h1, by omega⟩

theorem pot_start {e : Ell ℝ} (he : e.Valid n) {c y a : ℝ} (hc : 0 < c) (hy : 0 < y) {N : Nat} (ha : a = 1 / y)
    (h : a * Real.log ((e.kappa • e.M n + c • (1 : Matrix (Fin n) (Fin n) ℝ)).det / c ^ n) < N) :
    e.pot n c * Real.exp (-((N : ℝ) * y)) < c ^ n := by
  have hp : 0 < e.pot n c := (pow_pos hc n).trans_le (he.weak.pot_ge hc)
  have h1 : Real.log (e.pot n c / c ^ n) < N * y := by
    rw [ha, one_div, inv_mul_lt_iff₀ hy] at h
    rw [mul_comm]
    exact h
  rw [Real.log_lt_iff_lt_exp (by positivity), div_lt_iff₀ (by positivity)] at h1
  calc e.pot n c * Real.exp (-((N : ℝ) * y)) < Real.exp (N * y) * c ^ n * Real.exp (-((N : ℝ) * y)) :=
        mul_lt_mul_of_pos_right h1 (Real.exp_pos _)
    _ = c ^ n * (Real.exp (N * y) * Real.exp (-((N : ℝ) * y))) := by ring
    _ = c ^ n := by rw [← Real.exp_add]; simp

theorem stop_any {T : Type} [Cut T] {e : Ell ℝ} (he : e.Valid n) {tol L : ℝ} (ht : 0 < tol) (hL : 0 < L) {N : Nat}
    (h : stopBound n (e.kappa • e.M n) tol L < N) :
    ∃ θ y c, CutRate T n θ y ∧ 0 < c ∧ c * L ^ 2 ≤ θ * tol ∧ e.pot n c * Real.exp (-((N : ℝ) * y)) < c ^ n := by
  have hn : (0 : ℝ) < n := by have := he.pos; exact_mod_cast this
  have hc : 0 < tol / (32 * (n : ℝ) * (n + 1) * L ^ 2) := by positivity
  refine ⟨_, _, _, cutRate_any he.dim, hc, le_of_eq ?_, pot_start he hc (by positivity) ?_ h⟩
  · field_simp
  · rw [one_div_one_div]

theorem stop_single {e : Ell ℝ} (he : e.Valid n) {tol L : ℝ} (ht : 0 < tol) (hL : 0 < L) {N : Nat}
    (h : stopBoundSingle n (e.kappa • e.M n) tol L < N) :
    ∃ θ y c, CutRate (SingleCut ℝ) n θ y ∧ 0 < c ∧ c * L ^ 2 ≤ θ * tol ∧
      e.pot n c * Real.exp (-((N : ℝ) * y)) < c ^ n := by
  have hn : (2 : ℝ) ≤ n := by have := he.dim; exact_mod_cast this
  have hc : 0 < ((n : ℝ) - 1) * tol / (4 * (n + 1) * L ^ 2) :=
    div_pos (mul_pos (by linarith) ht) (by positivity)
  refine ⟨_, _, _, cutRate_single he.dim, hc, le_of_eq ?_, pot_start he hc (by positivity) ?_ h⟩
  · field_simp
  · rw [one_div_one_div]

/-- **C78** (feasibility)  With a positive tolerance `cutting_plane_feas` ends by itself within any number `N > stopBound` of
iterations allowed by `max_iters`, whatever the oracle answers: with a point or with `None`. -/
theorem C78_feas_stops {T : Type} [Cut T] (orc : OracleFeas Ω (Arr ℝ) T ℝ) (I : Ω → Prop) {L : ℝ} (hL : 0 < L)
    (hor : BoundedFeas n orc I L) (w : Ω) (e : Ell ℝ) (opts : Options ℝ) (hw : I w) (he : e.Valid n)
    (ht : 0 < opts.tolerance) {N : Nat} (hN : stopBound n (e.kappa • e.M n) opts.tolerance L < N) (hmax : N ≤ opts.maxIters) :
    ∃ x k w' e', cuttingPlaneFeas orc Ell.space w e opts = .ok ((x, k), w', e') ∧ k < N := by
  obtain ⟨θ, y, c, hr, hc, hcL, hp⟩ := stop_any (T := T) he ht hL hN
  obtain ⟨x, k, w', e', h1, h2⟩ := feas_stop_loop hr orc I hor ht hc hcL (opts.maxIters - N) N 0 w e hw he.weak hp
  rw [Nat.add_sub_cancel' hmax] at h1
  exact ⟨x, k, w', e', h1, by omega⟩

/-- **C78** (optimisation)  The same for `cutting_plane_optim`. -/
theorem C78_optim_stops {T : Type} [Cut T] (orc : OracleOptim Ω (Arr ℝ) T ℝ) (I : Ω → ℝ → Prop) {L : ℝ} (hL : 0 < L)
    (hor : BoundedOptim n orc I L) (w : Ω) (e : Ell ℝ) (γ : ℝ) (opts : Options ℝ) (hw : I w γ) (he : e.Valid n)
    (ht : 0 < opts.tolerance) {N : Nat} (hN : stopBound n (e.kappa • e.M n) opts.tolerance L < N) (hmax : N ≤ opts.maxIters) :
    ∃ xb k γ' w' e', cuttingPlaneOptim orc Ell.space w e γ opts = .ok ((xb, k), γ', w', e') ∧ k < N := by
  obtain ⟨θ, y, c, hr, hc, hcL, hp⟩ := stop_any (T := T) he ht hL hN
  obtain ⟨x, k, γ', w', e', h1, h2⟩ := optim_stop_loop hr orc I hor ht hc hcL (opts.maxIters - N) N 0 none w e γ hw he.weak hp
  rw [Nat.add_sub_cancel' hmax] at h1
  exact ⟨x, k, γ', w', e', h1, by omega⟩

/-- **C78** (feasibility, single cuts)  The better bound for oracles without parallel cuts. -/
theorem C78_feas_stops_single (orc : OracleFeas Ω (Arr ℝ) (SingleCut ℝ) ℝ) (I : Ω → Prop) {L : ℝ} (hL : 0 < L)
    (hor : BoundedFeas n orc I L) (w : Ω) (e : Ell ℝ) (opts : Options ℝ) (hw : I w) (he : e.Valid n)
    (ht : 0 < opts.tolerance) {N : Nat} (hN : stopBoundSingle n (e.kappa • e.M n) opts.tolerance L < N) (hmax : N ≤ opts.maxIters) :
    ∃ x k w' e', cuttingPlaneFeas orc Ell.space w e opts = .ok ((x, k), w', e') ∧ k < N := by
  obtain ⟨θ, y, c, hr, hc, hcL, hp⟩ := stop_single he ht hL hN
  obtain ⟨x, k, w', e', h1, h2⟩ := feas_stop_loop hr orc I hor ht hc hcL (opts.maxIters - N) N 0 w e hw he.weak hp
  rw [Nat.add_sub_cancel' hmax] at h1
  exact ⟨x, k, w', e', h1, by omega⟩

/-- **C78** (optimisation, single cuts) -/
theorem C78_optim_stops_single (orc : OracleOptim Ω (Arr ℝ) (SingleCut ℝ) ℝ) (I : Ω → ℝ → Prop) {L : ℝ} (hL : 0 < L)
    (hor : BoundedOptim n orc I L) (w : Ω) (e : Ell ℝ) (γ : ℝ) (opts : Options ℝ) (hw : I w γ) (he : e.Valid n)
    (ht : 0 < opts.tolerance) {N : Nat} (hN : stopBoundSingle n (e.kappa • e.M n) opts.tolerance L < N) (hmax : N ≤ opts.maxIters) :
    ∃ xb k γ' w' e', cuttingPlaneOptim orc Ell.space w e γ opts = .ok ((xb, k), γ', w', e') ∧ k < N := by
  obtain ⟨θ, y, c, hr, hc, hcL, hp⟩ := stop_single he ht hL hN
  obtain ⟨x, k, γ', w', e', h1, h2⟩ := optim_stop_loop hr orc I hor ht hc hcL (opts.maxIters - N) N 0 none w e γ hw he.weak hp
  rw [Nat.add_sub_cancel' hmax] at h1
  exact ⟨x, k, γ', w', e', h1, by omega⟩

/-- **C78** (answer in finite time)  A feasibility run that is given enough iterations decides, up to the tolerance: it
returns an accepted point, or `None` and then no ball of feasible points of radius `√tol / G` or more lies in the initial
ellipsoid. -/
theorem C78_feas_decides {T : Type} [Cut T] (orc : OracleFeas Ω (Arr ℝ) T ℝ) (I : Ω → Prop) (K : Set (Fin n → ℝ)) {L G : ℝ}
    (hL : 0 < L) (hor : BoundedFeas n orc I L) (hon : HonestFeas n orc I K G) (w : Ω) (e : Ell ℝ) (opts : Options ℝ)
    (hw : I w) (he : e.Valid n) (ht : 0 < opts.tolerance)
    {N : Nat} (hN : stopBound n (e.kappa • e.M n) opts.tolerance L < N) (hmax : N ≤ opts.maxIters) :
    ∃ x k w' e', cuttingPlaneFeas orc Ell.space w e opts = .ok ((x, k), w', e') ∧ k < N ∧
      (x = none → ∀ (p : Fin n → ℝ) (r : ℝ), 0 < r → ball p r ⊆ K ∩ e.region n → r ^ 2 * G ^ 2 < opts.tolerance) := by
  obtain ⟨x, k, w', e', h1, h2⟩ := C78_feas_stops orc I hL hor w e opts hw he ht hN hmax
  refine ⟨x, k, w', e', h1, h2, ?_⟩
  rintro rfl p r hr hb
  exact C77_none_excludes_balls orc I K G w e opts hon hw he k w' e' h1 (by omega) p r hr hb

end Ellalgo
