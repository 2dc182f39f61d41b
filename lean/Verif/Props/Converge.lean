import Verif.Lib.StepCases
import Verif.Spec.Honest
import Verif.Props.EllGeneric

/-! C22-C25: what the loops guarantee when run on `Ell` with an honest oracle. -/

namespace Ellalgo
open Matrix
open scoped ComplexOrder

variable {n : Nat} {Ω T : Type} [Cut T]

/-- The number of iterations that suffices: `(n+1) ln(det(κM) / r^(2n))`. -/
noncomputable def iterBound (n : Nat) (e : Ell ℝ) (r : ℝ) : ℝ :=
  ((n : ℝ) + 1) * Real.log ((e.kappa • e.M n).det / (r ^ 2) ^ n)

theorem iterBound_nonneg {e : Ell ℝ} (he : e.Valid n) {p : Fin n → ℝ} {r : ℝ} (hr : 0 < r)
    (hb : ball p r ⊆ e.region n) : 0 ≤ iterBound n e r := by
  have h := ball_det he.posDef he.kappa hr.le hb
  have h2 : 0 < (r ^ 2) ^ n := by positivity
  refine mul_nonneg (by positivity) (Real.log_nonneg ?_)
  rwa [le_div_iff₀ h2, one_mul]

theorem iterBound_step {e e' : Ell ℝ} (he : e.Valid n) (he' : e'.Valid n) {r : ℝ} (hr : 0 < r)
    (h : e'.vol2 n ≤ Real.exp (-(1 / ((n : ℝ) + 1))) * e.vol2 n) :
    iterBound n e' r ≤ iterBound n e r - 1 := by
  have hv := Ell.vol2_pos he
  have hv' := Ell.vol2_pos he'
  have h2 : 0 < (r ^ 2) ^ n := by positivity
  have hn : (0 : ℝ) < n + 1 := by positivity
  unfold iterBound
  change _ * Real.log (e'.vol2 n / _) ≤ _ * Real.log (e.vol2 n / _) - 1
  have hle : Real.log (e'.vol2 n / (r ^ 2) ^ n) ≤ -(1 / ((n : ℝ) + 1)) + Real.log (e.vol2 n / (r ^ 2) ^ n) := by
    rw [← Real.log_exp (-(1 / ((n : ℝ) + 1))), ← Real.log_mul (Real.exp_pos _).ne' (by positivity)]
    refine Real.log_le_log (by positivity) ?_
    rw [← mul_div_assoc]
    exact div_le_div_of_nonneg_right h h2.le
  have := mul_le_mul_of_nonneg_left hle hn.le
  have e1 : ((n : ℝ) + 1) * (-(1 / ((n : ℝ) + 1)) + Real.log (e.vol2 n / (r ^ 2) ^ n)) =
    ((n : ℝ) + 1) * Real.log (e.vol2 n / (r ^ 2) ^ n) - 1 := by field_simp; ring
  linarith

/-! ### C22 -/

theorem feas_converge_loop (orc : OracleFeas Ω (Arr ℝ) T ℝ) (I : Ω → Prop) (K : Set (Fin n → ℝ))
    (G r : ℝ) (p : Fin n → ℝ) (hor : HonestFeas n orc I K G) (hr : 0 < r) (hK : ball p r ⊆ K)
    (tol : ℝ) (htol : tol ≤ r ^ 2 * G ^ 2) (m : Nat) :
    ∀ (n0 : Nat) (w : Ω) (e : Ell ℝ), I w → e.Valid n → ball p r ⊆ e.region n →
      iterBound n e r < m →
      ∃ x k w1 w' e', feasLoop orc Ell.space tol m n0 w e = .ok ((some x, k), w', e') ∧
        orc.assess w1 x = .ok (none, w') ∧ I w1 ∧ x.IsVecShape n ∧ (k : ℝ) ≤ n0 + iterBound n e r := by
  induction m with
  | zero =>
    intro n0 w e _ he hb hit
    have := iterBound_nonneg he hr hb
    simp only [Nat.cast_zero] at hit
    linarith
  | succ m ih =>
    intro n0 w e hI he hb hit
    obtain ⟨ans, w', hq, hI', hcut⟩ := hor w e.xc hI he.shaped.2
    have hq' : orc.assess w (Ell.space (T := T).xc e) = .ok (ans, w') := hq
    unfold feasLoop
    rw [hq']
    cases ans with
    | none =>
      refine ⟨e.xc, n0, w, w', e, rfl, hq, hI, he.shaped.2, ?_⟩
      have := iterBound_nonneg he hr hb
      linarith
    | some c =>
      obtain ⟨g, c⟩ := c
      obtain ⟨hs, hg, hG, hlo, hsat⟩ := hcut g c rfl
      obtain ⟨e', hu, hv, hb', hvol, -, htsq⟩ := Ell.step_ball he .bias (g, c) hs hg
        (by simpa using hlo) hr hb (fun y hy => hsat y (hK hy))
      have hu' : Ell.space.updateBias e (g, c) = .ok (.success, e') := hu
      have hstep := iterBound_step he hv hr hvol
      have hlt : Scalar.lt (Ell.space (T := T).tsq e') tol = false := by
        have : tol ≤ e'.tsq :=
          htol.trans ((mul_le_mul_of_nonneg_left hG (by positivity)).trans htsq)
        show Scalar.lt e'.tsq tol = false
        rw [Scalar.real_lt]
        simpa using this
      obtain ⟨x, k, w1, w2, e2, h1, h2, h3, h4, h5⟩ := ih (n0 + 1) w' e' hI' hv hb' (by
        push_cast at hit; linarith)
      refine ⟨x, k, w1, w2, e2, ?_, h2, h3, h4, ?_⟩
      · simp only [Res.ok_bind, hu', hlt]
        exact h1
      · push_cast at h5; linarith

/-- **C22**.  If the oracle is honest for a set `K` that contains a ball of radius `r` lying in the initial
ellipsoid, the tolerance is at most `r²G²`, and `max_iters > (n+1) ln(det(κM)/r^(2n))`, then
`cutting_plane_feas` returns a point the oracle accepted, after at most that many cuts. -/
theorem C22_feas_converges (orc : OracleFeas Ω (Arr ℝ) T ℝ) (I : Ω → Prop) (K : Set (Fin n → ℝ))
    (G r : ℝ) (p : Fin n → ℝ) (w : Ω) (e : Ell ℝ) (opts : Options ℝ)
    (hor : HonestFeas n orc I K G) (hw : I w) (he : e.Valid n) (hr : 0 < r) (hK : ball p r ⊆ K)
    (hE : ball p r ⊆ e.region n) (htol : opts.tolerance ≤ r ^ 2 * G ^ 2)
    (hit : ((n : ℝ) + 1) * Real.log ((e.kappa • e.M n).det / (r ^ 2) ^ n) < opts.maxIters) :
    ∃ x k w1 w' e', cuttingPlaneFeas orc Ell.space w e opts = .ok ((some x, k), w', e') ∧
      orc.assess w1 x = .ok (none, w') ∧ I w1 ∧ x.IsVecShape n ∧
      (k : ℝ) ≤ ((n : ℝ) + 1) * Real.log ((e.kappa • e.M n).det / (r ^ 2) ^ n) := by
  obtain ⟨x, k, w1, w', e', h1, h2, h3, h4, h5⟩ := feas_converge_loop orc I K G r p hor hr hK
    opts.tolerance htol opts.maxIters 0 w e hw he hE hit
  exact ⟨x, k, w1, w', e', h1, h2, h3, h4, by simpa [iterBound] using h5⟩

/-! ### C22 without a gradient bound -/

theorem feas_converge_loop_small (orc : OracleFeas Ω (Arr ℝ) T ℝ) (I : Ω → Prop) (K : Set (Fin n → ℝ))
    (r : ℝ) (p : Fin n → ℝ) (hor : HonestFeas n orc I K 0) (hr : 0 < r) (hK : ball p r ⊆ K) (j : Nat) :
    ∀ (n0 : Nat) (w : Ω) (e : Ell ℝ), I w → e.Valid n → ball p r ⊆ e.region n →
      iterBound n e r < j →
      ∃ tol0 x k w1 w' e', 0 < tol0 ∧
        (∀ tol m, tol ≤ tol0 → j ≤ m → feasLoop orc Ell.space tol m n0 w e = .ok ((some x, k), w', e')) ∧
        orc.assess w1 x = .ok (none, w') ∧ I w1 ∧ x.IsVecShape n ∧ (k : ℝ) ≤ n0 + iterBound n e r := by
  induction j with
  | zero =>
    intro n0 w e _ he hb hit
    have := iterBound_nonneg he hr hb
    simp only [Nat.cast_zero] at hit
    linarith
  | succ j ih =>
    intro n0 w e hI he hb hit
    obtain ⟨ans, w', hq, hI', hcut⟩ := hor w e.xc hI he.shaped.2
    have hq' : orc.assess w (Ell.space (T := T).xc e) = .ok (ans, w') := hq
    cases ans with
    | none =>
      refine ⟨1, e.xc, n0, w, w', e, one_pos, ?_, hq, hI, he.shaped.2, ?_⟩
      · intro tol m _ hm
        obtain ⟨m, rfl⟩ : ∃ m', m = m' + 1 := ⟨m - 1, by omega⟩
        unfold feasLoop
        rw [hq']; rfl
      · have := iterBound_nonneg he hr hb
        linarith
    | some c =>
      obtain ⟨g, c⟩ := c
      obtain ⟨hs, hg, -, hlo, hsat⟩ := hcut g c rfl
      obtain ⟨e', hu, hv, hb', hvol, htsq, -⟩ := Ell.step_ball he .bias (g, c) hs hg
        (by simpa using hlo) hr hb (fun y hy => hsat y (hK hy))
      have hu' : Ell.space.updateBias e (g, c) = .ok (.success, e') := hu
      have hstep := iterBound_step he hv hr hvol
      have hpos : 0 < e'.tsq := by rw [htsq]; exact he.tsq_pos hg
      obtain ⟨tol0, x, k, w1, w2, e2, h0, h1, h2, h3, h4, h5⟩ := ih (n0 + 1) w' e' hI' hv hb' (by
        push_cast at hit; linarith)
      refine ⟨min tol0 e'.tsq, x, k, w1, w2, e2, lt_min h0 hpos, ?_, h2, h3, h4, ?_⟩
      · intro tol m htol hm
        obtain ⟨m, rfl⟩ : ∃ m', m = m' + 1 := ⟨m - 1, by omega⟩
        have hlt : Scalar.lt (Ell.space (T := T).tsq e') tol = false := by
          show Scalar.lt e'.tsq tol = false
          rw [Scalar.real_lt]
          simpa using htol.trans (min_le_right _ _)
        unfold feasLoop
        rw [hq']
        simp only [Res.ok_bind, hu', hlt]
        exact h1 tol m (htol.trans (min_le_left _ _)) (by omega)
      · push_cast at h5; linarith

/-- **C22**, variant without a lower bound on the gradients: for every honest oracle there is a positive
tolerance below which `cutting_plane_feas`, given enough iterations, returns an accepted point (the same one
for all smaller tolerances and larger iteration limits). -/
theorem C22_feas_converges_small_tol (orc : OracleFeas Ω (Arr ℝ) T ℝ) (I : Ω → Prop) (K : Set (Fin n → ℝ))
    (r : ℝ) (p : Fin n → ℝ) (w : Ω) (e : Ell ℝ)
    (hor : HonestFeas n orc I K 0) (hw : I w) (he : e.Valid n) (hr : 0 < r) (hK : ball p r ⊆ K)
    (hE : ball p r ⊆ e.region n) :
    ∃ tol0 x k w1 w' e', 0 < tol0 ∧
      (∀ opts : Options ℝ, opts.tolerance ≤ tol0 →
        ((n : ℝ) + 1) * Real.log ((e.kappa • e.M n).det / (r ^ 2) ^ n) < opts.maxIters →
        cuttingPlaneFeas orc Ell.space w e opts = .ok ((some x, k), w', e')) ∧
      orc.assess w1 x = .ok (none, w') ∧ I w1 ∧ x.IsVecShape n ∧
      (k : ℝ) ≤ ((n : ℝ) + 1) * Real.log ((e.kappa • e.M n).det / (r ^ 2) ^ n) := by
  obtain ⟨tol0, x, k, w1, w', e', h0, h1, h2, h3, h4, h5⟩ := feas_converge_loop_small orc I K r p hor hr hK
    (Nat.floor (iterBound n e r) + 1) 0 w e hw he hE (by push_cast; exact Nat.lt_floor_add_one _)
  refine ⟨tol0, x, k, w1, w', e', h0, ?_, h2, h3, h4, by simpa [iterBound] using h5⟩
  intro opts ht hm
  refine h1 opts.tolerance opts.maxIters ht ?_
  rw [Nat.add_one_le_iff, Nat.floor_lt (iterBound_nonneg he hr hE)]
  exact hm

/-! ### C23 -/

theorem feas_none_loop (orc : OracleFeas Ω (Arr ℝ) T ℝ) (I : Ω → Prop) (K F : Set (Fin n → ℝ))
    (hor : HonestFeas n orc I K 0) (hco : CompleteFeas n orc I K) (hF : F ⊆ K)
    (tol : ℝ) (htol : tol ≤ 0) (m : Nat) :
    ∀ (n0 : Nat) (w : Ω) (e : Ell ℝ), I w →
      (e.Valid n ∧ F ⊆ e.region n) ∨ (e.Shaped n ∧ F ⊆ {e.c n}) →
      ∀ k w' e', feasLoop orc Ell.space tol m n0 w e = .ok ((none, k), w', e') → k < n0 + m → F = ∅ := by
  induction m with
  | zero =>
    intro n0 w e _ _ k w' e' h hk
    simp only [feasLoop, Res.ok.injEq, Prod.mk.injEq, true_and] at h
    omega
  | succ m ih =>
    intro n0 w e hI hinv k w' e' h hk
    have hsh : e.Shaped n := by
      rcases hinv with ⟨h, _⟩ | ⟨h, _⟩
      · exact h.shaped
      · exact h
    obtain ⟨ans, w1, hq, hI', hcut⟩ := hor w e.xc hI hsh.2
    have hq' : orc.assess w (Ell.space (T := T).xc e) = .ok (ans, w1) := hq
    unfold feasLoop at h
    rw [hq'] at h
    cases ans with
    | none => simp at h
    | some c =>
      obtain ⟨g, c⟩ := c
      obtain ⟨hs, hg, -, hlo, hsat⟩ := hcut g c rfl
      obtain ⟨hx, hne⟩ := hco w e.xc g c w1 hI hsh.2 hq
      rcases hinv with ⟨he, hreg⟩ | ⟨_, hpt⟩
      swap
      · -- the last candidate has just been rejected
        rw [Set.eq_empty_iff_forall_notMem]
        intro y hy
        have h1 : y = e.c n := hpt hy
        exact hx (by rw [h1] at hy; exact hF hy)
      obtain ⟨st, e1, hu, hsh1, htsq, hcases⟩ := Ell.step_cases he .bias (g, c) hs hg
        (by simpa using hlo) (by simpa using hne)
      have hu' : Ell.space.updateBias e (g, c) = .ok (st, e1) := hu
      have hlt : Scalar.lt (Ell.space (T := T).tsq e1) tol = false := by
        have : tol ≤ e1.tsq := by rw [htsq]; exact htol.trans (he.tsq_pos hg).le
        show Scalar.lt e1.tsq tol = false
        rw [Scalar.real_lt]
        simpa using this
      simp only [Res.ok_bind, hu', hlt, Bool.or_false, bne_iff_ne, ne_eq, ite_not] at h
      rcases hcases with ⟨rfl, hv, hkeep, -⟩ | ⟨rfl, hpt⟩ | ⟨rfl, hno⟩
      · rw [if_pos rfl] at h
        refine ih (n0 + 1) w1 e1 hI' (Or.inl ⟨hv, fun y hy => hkeep y (hreg hy) (hsat y (hF hy))⟩) k w' e' h
          (by omega)
      · rw [if_pos rfl] at h
        refine ih (n0 + 1) w1 e1 hI' (Or.inr ⟨hsh1, fun y hy => hpt y (hreg hy) (hsat y (hF hy))⟩) k w' e' h
          (by omega)
      · rw [Set.eq_empty_iff_forall_notMem]
        intro y hy
        exact hno y (hreg hy) (hsat y (hF hy))

/-- **C23**.  With tolerance `≤ 0`, an honest oracle that does not reject points of `K`, and distinct planes:
if `cutting_plane_feas` gives up before `max_iters`, the initial ellipsoid contains no point of `K`. -/
theorem C23_none_certifies_infeasible (orc : OracleFeas Ω (Arr ℝ) T ℝ) (I : Ω → Prop)
    (K : Set (Fin n → ℝ)) (w : Ω) (e : Ell ℝ) (opts : Options ℝ)
    (hor : HonestFeas n orc I K 0) (hco : CompleteFeas n orc I K) (hw : I w) (he : e.Valid n)
    (htol : opts.tolerance ≤ 0) (k : Nat) (w' : Ω) (e' : Ell ℝ)
    (h : cuttingPlaneFeas orc Ell.space w e opts = .ok ((none, k), w', e')) (hk : k < opts.maxIters) :
    K ∩ e.region n = ∅ := by
  refine feas_none_loop orc I K (K ∩ e.region n) hor hco Set.inter_subset_left opts.tolerance htol
    opts.maxIters 0 w e hw (Or.inl ⟨he, Set.inter_subset_right⟩) k w' e' h (by omega)

/-! ### C24 -/

theorem shape_of_update (hn : 0 < n) {e e1 : Ell ℝ} {st : CutStatus} {cut : Arr ℝ × T} (k : UpdateKind)
    (he : e.Shaped n) (hs : cut.1.IsVecShape n) (h : Ell.space.update k e cut = .ok (st, e1)) :
    e1.Shaped n := by
  obtain ⟨st', e', h1, h2, _⟩ := Ell.update_shape hn k e cut he hs
  rw [h] at h1
  simp only [Res.ok.injEq, Prod.mk.injEq] at h1
  rw [h1.2]; exact h2

theorem optim_keep_loop (orc : OracleOptim Ω (Arr ℝ) T ℝ) (I : Ω → ℝ → Prop)
    (S : ℝ → Set (Fin n → ℝ)) (E0 : Set (Fin n → ℝ)) (hn : 0 < n)
    (hor : HonestOptim n orc I S 0) (hco : CompleteOptim n orc I S) (tol : ℝ) (m : Nat) :
    ∀ (n0 : Nat) (xb : Option (Arr ℝ)) (w : Ω) (e : Ell ℝ) (γ : ℝ), I w γ →
      (e.Valid n ∧ S γ ∩ E0 ⊆ e.region n) ∨ (e.Shaped n ∧ S γ ∩ E0 ⊆ {e.c n}) →
      ∀ xb' k γ' w' e', optimLoop orc Ell.space tol m n0 xb w e γ = .ok ((xb', k), γ', w', e') →
        S γ' ⊆ S γ ∧ ((e'.Valid n ∧ S γ' ∩ E0 ⊆ e'.region n) ∨ (S γ' ∩ E0 ⊆ {e'.c n}) ∨ S γ' ∩ E0 = ∅) ∧
        (tol ≤ 0 → k < n0 + m → S γ' ∩ E0 = ∅) := by
  have empty_mono : ∀ {A B : Set (Fin n → ℝ)}, A ⊆ B → B ∩ E0 = ∅ → A ∩ E0 = ∅ := by
    intro A B h h2
    exact Set.subset_eq_empty (Set.inter_subset_inter_left _ h) h2
  -- once nothing is left, only monotonicity matters
  have mono : ∀ (m n0 : Nat) (xb : Option (Arr ℝ)) (w : Ω) (e : Ell ℝ) (γ : ℝ), I w γ → e.Shaped n →
      ∀ xb' k γ' w' e', optimLoop orc Ell.space tol m n0 xb w e γ = .ok ((xb', k), γ', w', e') →
        S γ' ⊆ S γ := by
    intro m
    induction m with
    | zero =>
      intro n0 xb w e γ _ _ xb' k γ' w' e' h
      simp only [optimLoop, Res.ok.injEq, Prod.mk.injEq] at h
      rw [h.2.1]
    | succ m ih =>
      intro n0 xb w e γ hI hsh xb' k γ' w' e' h
      obtain ⟨g, c, shrunk, γ1, w1, hq, hI1, hS1, hs, -⟩ := hor w e.xc γ hI hsh.2
      have hq' : orc.assess w (Ell.space (T := T).xc e) γ = .ok (((g, c), shrunk), γ1, w1) := hq
      unfold optimLoop at h
      simp only [hq', Res.ok_bind] at h
      rw [Res.bind_eq_ok] at h
      obtain ⟨⟨st, e1⟩, hu, h⟩ := h
      have hsh1 : e1.Shaped n := by
        cases shrunk
        · exact shape_of_update hn .bias hsh hs hu
        · exact shape_of_update hn .central hsh hs hu
      split at h
      · simp only [Res.ok.injEq, Prod.mk.injEq] at h
        rw [← h.2.1]; exact hS1
      · exact (ih _ _ _ _ _ hI1 hsh1 _ _ _ _ _ h).trans hS1
  induction m with
  | zero =>
    intro n0 xb w e γ _ hinv xb' k γ' w' e' h
    simp only [optimLoop, Res.ok.injEq, Prod.mk.injEq] at h
    obtain ⟨⟨rfl, rfl⟩, rfl, rfl, rfl⟩ := h
    refine ⟨le_rfl, ?_, fun _ hk => by omega⟩
    rcases hinv with h | h
    · exact Or.inl h
    · exact Or.inr (Or.inl h.2)
  | succ m ih =>
    intro n0 xb w e γ hI hinv xb' k γ' w' e' h
    have hsh : e.Shaped n := by
      rcases hinv with ⟨h, _⟩ | ⟨h, _⟩
      · exact h.shaped
      · exact h
    obtain ⟨g, c, shrunk, γ1, w1, hq, hI1, hS1, hs, hg, -, hcen, hbias⟩ := hor w e.xc γ hI hsh.2
    obtain ⟨hx, hne1, hne2⟩ := hco w e.xc γ g c shrunk γ1 w1 hI hsh.2 hq
    have hx : e.c n ∉ S γ1 := hx
    rcases hinv with ⟨he, hreg⟩ | ⟨_, hpt⟩
    swap
    · have hγ1 := mono (m + 1) n0 xb w e γ hI hsh _ _ _ _ _ h
      -- final gamma is at least as good as gamma1, and S γ1 ∩ E0 is empty
      have hemp : S γ1 ∩ E0 = ∅ := by
        rw [Set.eq_empty_iff_forall_notMem]
        rintro y ⟨hy, hyE⟩
        have h1 : y = e.c n := hpt ⟨hS1 hy, hyE⟩
        exact hx (h1 ▸ hy)
      have hγ' : S γ' ⊆ S γ1 := by
        have hq' : orc.assess w (Ell.space (T := T).xc e) γ = .ok (((g, c), shrunk), γ1, w1) := hq
        unfold optimLoop at h
        simp only [hq', Res.ok_bind] at h
        rw [Res.bind_eq_ok] at h
        obtain ⟨⟨st, e1⟩, hu, h⟩ := h
        have hsh1 : e1.Shaped n := by
          cases shrunk
          · exact shape_of_update hn .bias hsh hs hu
          · exact shape_of_update hn .central hsh hs hu
        split at h
        · simp only [Res.ok.injEq, Prod.mk.injEq] at h
          rw [← h.2.1]
        · exact mono _ _ _ _ _ _ hI1 hsh1 _ _ _ _ _ h
      have := empty_mono hγ' hemp
      exact ⟨hγ1, Or.inr (Or.inr this), fun _ _ => this⟩
    -- the update
    obtain ⟨kd, hkd, hlo, hne, hsat⟩ : ∃ kd : UpdateKind,
        (kd = if shrunk then .central else .bias) ∧ 0 ≤ kd.lo (Cut.lo c) ∧
        Cut.hi c ≠ some (kd.lo (Cut.lo c)) ∧
        ∀ y ∈ S γ1, Cut.Sat kd c (g.toVec n ⬝ᵥ (y - e.c n)) := by
      cases shrunk
      · exact ⟨.bias, rfl, by simpa using (hbias rfl).1, by simpa using hne2 rfl, (hbias rfl).2⟩
      · exact ⟨.central, rfl, by simp, by simpa using hne1 rfl, hcen rfl⟩
    obtain ⟨st, e1, hu, hsh1, htsq, hcases⟩ := Ell.step_cases he kd (g, c) hs hg hlo hne
    have hq' : orc.assess w (Ell.space (T := T).xc e) γ = .ok (((g, c), shrunk), γ1, w1) := hq
    have hu' : (if shrunk then Ell.space.updateCentral e (g, c) else Ell.space.updateBias e (g, c)) =
        .ok (st, e1) := by
      rw [← hu, hkd]
      cases shrunk <;> rfl
    unfold optimLoop at h
    simp only [hq', Res.ok_bind, hu'] at h
    have hlt0 : tol ≤ 0 → Scalar.lt (Ell.space (T := T).tsq e1) tol = false := by
      intro htol
      have : tol ≤ e1.tsq := by rw [htsq]; exact htol.trans (he.tsq_pos hg).le
      show Scalar.lt e1.tsq tol = false
      rw [Scalar.real_lt]
      simpa using this
    have keep : ∀ {P : (Fin n → ℝ) → Prop}, (∀ x ∈ e.region n, Cut.Sat kd c (g.toVec n ⬝ᵥ (x - e.c n)) → P x) →
        ∀ y ∈ S γ1 ∩ E0, P y := by
      intro P hP y hy
      exact hP y (hreg ⟨hS1 hy.1, hy.2⟩) (hsat y hy.1)
    split at h
    · rename_i hstop
      simp only [Res.ok.injEq, Prod.mk.injEq] at h
      obtain ⟨⟨rfl, rfl⟩, rfl, rfl, rfl⟩ := h
      refine ⟨hS1, ?_, ?_⟩
      · rcases hcases with ⟨rfl, hv, hkeep, -⟩ | ⟨rfl, hpt⟩ | ⟨rfl, hno⟩
        · exact Or.inl ⟨hv, keep hkeep⟩
        · exact Or.inr (Or.inl (keep hpt))
        · refine Or.inr (Or.inr ?_)
          rw [Set.eq_empty_iff_forall_notMem]
          intro y hy
          exact keep (P := fun _ => False) (fun x hx hs => hno x hx hs) y hy
      · intro htol _
        rw [hlt0 htol] at hstop
        rcases hcases with ⟨rfl, _⟩ | ⟨rfl, _⟩ | ⟨rfl, hno⟩
        · simp at hstop
        · simp at hstop
        · rw [Set.eq_empty_iff_forall_notMem]
          intro y hy
          exact keep (P := fun _ => False) (fun x hx hs => hno x hx hs) y hy
    · rename_i hstop
      have hinv1 : (e1.Valid n ∧ S γ1 ∩ E0 ⊆ e1.region n) ∨ (e1.Shaped n ∧ S γ1 ∩ E0 ⊆ {e1.c n}) := by
        rcases hcases with ⟨rfl, hv, hkeep, -⟩ | ⟨rfl, hpt⟩ | ⟨rfl, hno⟩
        · exact Or.inl ⟨hv, keep hkeep⟩
        · exact Or.inr ⟨hsh1, keep hpt⟩
        · simp at hstop
      obtain ⟨a1, a2, a3⟩ := ih _ _ _ _ _ hI1 hinv1 _ _ _ _ _ h
      exact ⟨a1.trans hS1, a2, fun ht hk => a3 ht (by omega)⟩

/-- **C24**.  With an honest oracle, whatever `max_iters` and the tolerance: every point of the initial
ellipsoid that is strictly better than the returned `γ` lies in the final ellipsoid (if a cut only touched
the ellipsoid, the final ellipsoid is a single point and that is the final centre). -/
theorem C24_better_points_kept (orc : OracleOptim Ω (Arr ℝ) T ℝ) (I : Ω → ℝ → Prop)
    (S : ℝ → Set (Fin n → ℝ)) (w : Ω) (e : Ell ℝ) (γ : ℝ) (opts : Options ℝ)
    (hor : HonestOptim n orc I S 0) (hco : CompleteOptim n orc I S) (hw : I w γ) (he : e.Valid n)
    (xb : Option (Arr ℝ)) (k : Nat) (γ' : ℝ) (w' : Ω) (e' : Ell ℝ)
    (h : cuttingPlaneOptim orc Ell.space w e γ opts = .ok ((xb, k), γ', w', e')) :
    S γ' ⊆ S γ ∧
    ((e'.Valid n ∧ ∀ x ∈ e.region n, x ∈ S γ' → x ∈ e'.region n) ∨
     (∀ x ∈ e.region n, x ∈ S γ' → x = e'.c n)) := by
  obtain ⟨h1, h2, -⟩ := optim_keep_loop orc I S (e.region n) he.pos hor hco opts.tolerance opts.maxIters 0 none
    w e γ hw (Or.inl ⟨he, Set.inter_subset_right⟩) xb k γ' w' e' h
  refine ⟨h1, ?_⟩
  rcases h2 with ⟨hv, h2⟩ | h2 | h2
  · exact Or.inl ⟨hv, fun x hx hS => h2 ⟨hS, hx⟩⟩
  · exact Or.inr fun x hx hS => h2 ⟨hS, hx⟩
  · exact Or.inr fun x hx hS => absurd (h2 ▸ ⟨hS, hx⟩ : x ∈ (∅ : Set _)) (Set.notMem_empty x)

/-- **C24** (certificate).  With tolerance `≤ 0`, stopping before `max_iters` certifies that no point of the
initial ellipsoid is strictly better than the returned `γ`. -/
theorem C24_early_stop_certifies_optimal (orc : OracleOptim Ω (Arr ℝ) T ℝ) (I : Ω → ℝ → Prop)
    (S : ℝ → Set (Fin n → ℝ)) (w : Ω) (e : Ell ℝ) (γ : ℝ) (opts : Options ℝ)
    (hor : HonestOptim n orc I S 0) (hco : CompleteOptim n orc I S) (hw : I w γ) (he : e.Valid n)
    (htol : opts.tolerance ≤ 0)
    (xb : Option (Arr ℝ)) (k : Nat) (γ' : ℝ) (w' : Ω) (e' : Ell ℝ)
    (h : cuttingPlaneOptim orc Ell.space w e γ opts = .ok ((xb, k), γ', w', e'))
    (hk : k < opts.maxIters) : S γ' ∩ e.region n = ∅ :=
  (optim_keep_loop orc I S (e.region n) he.pos hor hco opts.tolerance opts.maxIters 0 none
    w e γ hw (Or.inl ⟨he, Set.inter_subset_right⟩) xb k γ' w' e' h).2.2 htol (by omega)

/-! ### C25 -/

theorem optim_converge_loop (orc : OracleOptim Ω (Arr ℝ) T ℝ) (I : Ω → ℝ → Prop)
    (S : ℝ → Set (Fin n → ℝ)) (G r : ℝ) (p : Fin n → ℝ) (hn : 0 < n) (hor : HonestOptim n orc I S G) (hr : 0 < r)
    (tol : ℝ) (htol : tol ≤ r ^ 2 * G ^ 2) (m : Nat) :
    ∀ (n0 : Nat) (xb : Option (Arr ℝ)) (w : Ω) (e : Ell ℝ) (γ : ℝ), I w γ → e.Shaped n →
      ∃ xb' k γ' w' e', optimLoop orc Ell.space tol m n0 xb w e γ = .ok ((xb', k), γ', w', e') ∧
        S γ' ⊆ S γ ∧
        (e.Valid n → ball p r ⊆ e.region n → iterBound n e r < m → ¬ ball p r ⊆ S γ') := by
  induction m with
  | zero =>
    intro n0 xb w e γ _ _
    refine ⟨_, _, _, _, _, rfl, le_rfl, ?_⟩
    intro he hb hit
    have := iterBound_nonneg he hr hb
    simp only [Nat.cast_zero] at hit
    linarith
  | succ m ih =>
    intro n0 xb w e γ hI hsh
    obtain ⟨g, c, shrunk, γ1, w1, hq, hI1, hS1, hs, hg, hG, hcen, hbias⟩ := hor w e.xc γ hI hsh.2
    have hq' : orc.assess w (Ell.space (T := T).xc e) γ = .ok (((g, c), shrunk), γ1, w1) := hq
    obtain ⟨st, e1, hu, hsh1⟩ : ∃ st e1, (if shrunk then Ell.space.updateCentral e (g, c)
        else Ell.space.updateBias e (g, c)) = .ok (st, e1) ∧ e1.Shaped n := by
      cases shrunk
      · obtain ⟨st, e1, h1, h2, _⟩ := Ell.update_shape hn .bias e (g, c) hsh hs
        exact ⟨st, e1, h1, h2⟩
      · obtain ⟨st, e1, h1, h2, _⟩ := Ell.update_shape hn .central e (g, c) hsh hs
        exact ⟨st, e1, h1, h2⟩
    -- while the ball consists of better points, the update succeeds and does not stop the loop
    have good : e.Valid n → ball p r ⊆ e.region n → ball p r ⊆ S γ1 →
        st = .success ∧ e1.Valid n ∧ ball p r ⊆ e1.region n ∧ iterBound n e1 r ≤ iterBound n e r - 1 ∧
        Scalar.lt (Ell.space (T := T).tsq e1) tol = false := by
      intro he hb hsub
      obtain ⟨kd, hkd, hlo, hsat⟩ : ∃ kd : UpdateKind,
          (kd = if shrunk then .central else .bias) ∧ 0 ≤ kd.lo (Cut.lo c) ∧
          ∀ y ∈ S γ1, Cut.Sat kd c (g.toVec n ⬝ᵥ (y - e.c n)) := by
        cases shrunk
        · exact ⟨.bias, rfl, by simpa using (hbias rfl).1, (hbias rfl).2⟩
        · exact ⟨.central, rfl, by simp, hcen rfl⟩
      obtain ⟨e2, hu2, hv, hb', hvol, -, htsq⟩ := Ell.step_ball he kd (g, c) hs hg hlo hr hb
        (fun y hy => hsat y (hsub hy))
      have hu' : Ell.space.update kd e (g, c) = .ok (st, e1) := by
        rw [← hu, hkd]
        cases shrunk <;> rfl
      rw [hu2] at hu'
      simp only [Res.ok.injEq, Prod.mk.injEq] at hu'
      obtain ⟨rfl, rfl⟩ := hu'
      refine ⟨rfl, hv, hb', iterBound_step he hv hr hvol, ?_⟩
      have : tol ≤ e2.tsq :=
        htol.trans ((mul_le_mul_of_nonneg_left hG (by positivity)).trans htsq)
      show Scalar.lt e2.tsq tol = false
      rw [Scalar.real_lt]
      simpa using this
    unfold optimLoop
    simp only [hq', Res.ok_bind, hu]
    split
    · rename_i hstop
      refine ⟨_, _, _, _, _, rfl, hS1, ?_⟩
      intro he hb _ hsub
      obtain ⟨h1, -, -, -, h2⟩ := good he hb hsub
      rw [h1, h2] at hstop
      simp at hstop
    · obtain ⟨xb', k, γ', w', e', h1, h2, h3⟩ := ih (n0 + 1)
        (if shrunk = true then some (Ell.space (T := T).xc e) else xb) w1 e1 γ1 hI1 hsh1
      refine ⟨xb', k, γ', w', e', h1, h2.trans hS1, ?_⟩
      intro he hb hit hsub
      obtain ⟨-, a1, a2, a3, -⟩ := good he hb (hsub.trans h2)
      exact h3 a1 a2 (by push_cast at hit; linarith) hsub

/-- **C25** (abstract).  Under the iteration and tolerance bounds for a ball in the initial ellipsoid,
`cutting_plane_optim` returns a `γ'` for which the ball does not consist of strictly better points only. -/
theorem C25_optim_converges (orc : OracleOptim Ω (Arr ℝ) T ℝ) (I : Ω → ℝ → Prop)
    (S : ℝ → Set (Fin n → ℝ)) (G r : ℝ) (p : Fin n → ℝ) (w : Ω) (e : Ell ℝ) (γ : ℝ) (opts : Options ℝ)
    (hor : HonestOptim n orc I S G) (hw : I w γ) (he : e.Valid n) (hr : 0 < r)
    (hE : ball p r ⊆ e.region n) (htol : opts.tolerance ≤ r ^ 2 * G ^ 2)
    (hit : ((n : ℝ) + 1) * Real.log ((e.kappa • e.M n).det / (r ^ 2) ^ n) < opts.maxIters) :
    ∃ xb k γ' w' e', cuttingPlaneOptim orc Ell.space w e γ opts = .ok ((xb, k), γ', w', e') ∧
      ¬ ball p r ⊆ S γ' := by
  obtain ⟨xb, k, γ', w', e', h1, -, h3⟩ := optim_converge_loop orc I S G r p he.pos hor hr opts.tolerance
    htol opts.maxIters 0 none w e γ hw he.shaped
  exact ⟨xb, k, γ', w', e', h1, h3 he hE hit⟩

/-- **C25**.  Maximisation of `f` over a set `F`: if a ball of radius `r` in the initial ellipsoid consists of
feasible points with `f ≥ g*`, then under the iteration and tolerance bounds the returned `γ'` is at least
`g*`. -/
theorem C25_optim_reaches_level (orc : OracleOptim Ω (Arr ℝ) T ℝ) (I : Ω → ℝ → Prop)
    (F : Set (Fin n → ℝ)) (f : (Fin n → ℝ) → ℝ) (G r gstar : ℝ) (p : Fin n → ℝ) (w : Ω) (e : Ell ℝ)
    (γ : ℝ) (opts : Options ℝ)
    (hor : HonestOptim n orc I (fun γ => {x | x ∈ F ∧ γ < f x}) G) (hw : I w γ) (he : e.Valid n)
    (hr : 0 < r) (hE : ball p r ⊆ e.region n) (hF : ∀ x ∈ ball p r, x ∈ F ∧ gstar ≤ f x)
    (htol : opts.tolerance ≤ r ^ 2 * G ^ 2)
    (hit : ((n : ℝ) + 1) * Real.log ((e.kappa • e.M n).det / (r ^ 2) ^ n) < opts.maxIters) :
    ∃ xb k γ' w' e', cuttingPlaneOptim orc Ell.space w e γ opts = .ok ((xb, k), γ', w', e') ∧
      gstar ≤ γ' := by
  obtain ⟨xb, k, γ', w', e', h1, h2⟩ := C25_optim_converges orc I _ G r p w e γ opts hor hw he hr hE htol hit
  refine ⟨xb, k, γ', w', e', h1, ?_⟩
  by_contra hlt
  push Not at hlt
  exact h2 fun x hx => ⟨(hF x hx).1, hlt.trans_le (hF x hx).2⟩

end Ellalgo
