import Verif.Props.LmiProps

/-! C22 and C36 with explicit tolerances, from a margin instead of a bound on the gradients. -/

namespace Ellalgo
open Finset Matrix

variable {n : Nat} {Ω T : Type} [Cut T]

/-- The oracle separates the point `p` with margin `δ` whenever it rejects. -/
def SeparatesFeas (n : Nat) (orc : OracleFeas Ω (Arr ℝ) T ℝ) (I : Ω → Prop) (p : Fin n → ℝ) (δ : ℝ) : Prop :=
  ∀ w x g c w', I w → x.IsVecShape n → orc.assess w x = .ok (some (g, c), w') →
    g.toVec n ⬝ᵥ (p - x.toVec n) ≤ -δ

theorem feas_converge_loop_margin (orc : OracleFeas Ω (Arr ℝ) T ℝ) (I : Ω → Prop) (K : Set (Fin n → ℝ))
    (r δ : ℝ) (p : Fin n → ℝ) (hor : HonestFeas n orc I K 0) (hsep : SeparatesFeas n orc I p δ) (hδ : 0 ≤ δ) (hr : 0 < r)
    (hK : ball p r ⊆ K) (tol : ℝ) (htol : tol ≤ δ ^ 2) (m : Nat) :
    ∀ (n0 : Nat) (w : Ω) (e : Ell ℝ), I w → e.Valid n → ball p r ⊆ e.region n →
      iterBound n e r < m →
      ∃ x k w1 w' e', feasLoop orc Ell.space tol m n0 w e = .ok ((some x, k), w', e') ∧
        orc.assess w1 x = .ok (none, w') ∧ I w1 ∧ x.IsVecShape n ∧ (k : ℝ) ≤ n0 + iterBound n e r := by
  induction m with
  | zero =>
    intro n0 w e _ he hb hit
    have := iterBound_nonneg he hr hb
    simp only [Nat.cast_zero] at hit
    linarith
  | succ m ih =>
    intro n0 w e hI he hb hit
    obtain ⟨ans, w', hq, hI', hcut⟩ := hor w e.xc hI he.shaped.2
    have hq' : orc.assess w (Ell.space (T := T).xc e) = .ok (ans, w') := hq
    unfold feasLoop
    rw [hq']
    cases ans with
    | none =>
      refine ⟨e.xc, n0, w, w', e, rfl, hq, hI, he.shaped.2, ?_⟩
      have := iterBound_nonneg he hr hb
      linarith
    | some c =>
      obtain ⟨g, c⟩ := c
      obtain ⟨hs, hg, -, hlo, hsat⟩ := hcut g c rfl
      obtain ⟨e', hu, hv, hb', hvol, htsq, -⟩ := Ell.step_ball he .bias (g, c) hs hg
        (by simpa using hlo) hr hb (fun y hy => hsat y (hK hy))
      have hu' : Ell.space.updateBias e (g, c) = .ok (.success, e') := hu
      have hstep := iterBound_step he hv hr hvol
      have hp : p ∈ ball p r := by
        show normSq (p - p) ≤ r ^ 2
        simp [normSq]; positivity
      have hm := hsep w e.xc g c w' hI he.shaped.2 hq
      have hd : (g.toVec n ⬝ᵥ (p - e.c n)) ^ 2 ≤ e.kappa * (g.toVec n ⬝ᵥ (e.M n *ᵥ g.toVec n)) :=
        dot_sq_le he.posDef (hb hp) (g.toVec n)
      have hle : tol ≤ e'.tsq := by
        rw [htsq]
        refine htol.trans (le_trans ?_ hd)
        have : g.toVec n ⬝ᵥ (p - e.c n) ≤ -δ := hm
        nlinarith
      have hlt : Scalar.lt (Ell.space (T := T).tsq e') tol = false := by
        show Scalar.lt e'.tsq tol = false
        rw [Scalar.real_lt]
        simpa using hle
      obtain ⟨x, k, w1, w2, e2, h1, h2, h3, h4, h5⟩ := ih (n0 + 1) w' e' hI' hv hb' (by
        push_cast at hit; linarith)
      refine ⟨x, k, w1, w2, e2, ?_, h2, h3, h4, ?_⟩
      · simp only [Res.ok_bind, hu', hlt]
        exact h1
      · push_cast at h5; linarith

/-- **C22**, with a margin: if every rejection separates the centre `p` of the ball by at least `δ`, any tolerance up to
`δ²` will do. -/
theorem C22_feas_converges_margin (orc : OracleFeas Ω (Arr ℝ) T ℝ) (I : Ω → Prop) (K : Set (Fin n → ℝ))
    (r δ : ℝ) (p : Fin n → ℝ) (w : Ω) (e : Ell ℝ) (opts : Options ℝ)
    (hor : HonestFeas n orc I K 0) (hsep : SeparatesFeas n orc I p δ) (hδ : 0 ≤ δ) (hw : I w) (he : e.Valid n) (hr : 0 < r)
    (hK : ball p r ⊆ K) (hE : ball p r ⊆ e.region n) (htol : opts.tolerance ≤ δ ^ 2)
    (hit : ((n : ℝ) + 1) * Real.log ((e.kappa • e.M n).det / (r ^ 2) ^ n) < opts.maxIters) :
    ∃ x k w1 w' e', cuttingPlaneFeas orc Ell.space w e opts = .ok ((some x, k), w', e') ∧
      orc.assess w1 x = .ok (none, w') ∧ I w1 ∧ x.IsVecShape n ∧
      (k : ℝ) ≤ ((n : ℝ) + 1) * Real.log ((e.kappa • e.M n).det / (r ^ 2) ^ n) := by
  obtain ⟨x, k, w1, w', e', h1, h2, h3, h4, h5⟩ := feas_converge_loop_margin orc I K r δ p hor hsep hδ hr hK
    opts.tolerance htol opts.maxIters 0 w e hw he hE hit
  exact ⟨x, k, w1, w', e', h1, h2, h3, h4, by simpa [iterBound] using h5⟩

/-- the LMI oracle separates every point whose matrix dominates `λ I` with margin `λ` -/
theorem lmi_separates {d m : Nat} {fs : List (Arr ℝ)} {b : Arr ℝ} (hF : SymMats d m fs) (hb : b.IsMatShape m m)
    (hbs : (b.toMat m m).IsSymm) {p : Fin d → ℝ} {lam : ℝ} (hl : 0 ≤ lam)
    (hp : (lmiMat m fs b p - lam • (1 : Matrix (Fin m) (Fin m) ℝ)).PosSemidef) :
    SeparatesFeas d (LMIOracle.oracle (α := ℝ)) (LMIOracle.For m fs b) p lam := by
  intro w x g c w' hw hx hq
  obtain ⟨r, w2, h1, h2, h3, h4⟩ := lmi_assess hF hb hbs hw hx
  have hq' : w.assess x = .ok (some (g, c), w') := hq
  rw [hq'] at h1
  simp only [Res.ok.injEq, Prod.mk.injEq] at h1
  obtain ⟨-, k2, -, -, k5⟩ := h4 g c h1.1.symm
  have := k5 p lam hl hp
  linarith

/-- **C36** with explicit numbers: if `B - Σ y_k F_k` is positive definite for all `y` in a ball of radius `r` around `p`
inside the initial ellipsoid, and `B - Σ p_k F_k ≥ λ I` at its centre, then any tolerance up to `λ²` and any iteration limit
above `(d+1) ln(det(κM)/r^(2d))` make `cutting_plane_feas` return a point whose matrix is positive definite, after at most
that many cuts. -/
theorem C36_lmi_solved_explicit {d m : Nat} {fs : List (Arr ℝ)} {b : Arr ℝ} (hF : SymMats d m fs)
    (hb : b.IsMatShape m m) (hbs : (b.toMat m m).IsSymm) {p : Fin d → ℝ} {r lam : ℝ} (hr : 0 < r) (hl : 0 < lam)
    (hK : ∀ y ∈ ball p r, (lmiMat m fs b y).PosDef)
    (hp : (lmiMat m fs b p - lam • (1 : Matrix (Fin m) (Fin m) ℝ)).PosSemidef) {e : Ell ℝ} (he : e.Valid d)
    (hE : ball p r ⊆ e.region d) (opts : Options ℝ) (htol : opts.tolerance ≤ lam ^ 2)
    (hit : ((d : ℝ) + 1) * Real.log ((e.kappa • e.M d).det / (r ^ 2) ^ d) < opts.maxIters) :
    ∃ x k o e', cuttingPlaneFeas LMIOracle.oracle Ell.space (LMIOracle.new fs b) e opts = .ok ((some x, k), o, e') ∧
      x.IsVecShape d ∧ (lmiMat m fs b (x.toVec d)).PosDef ∧
      (k : ℝ) ≤ ((d : ℝ) + 1) * Real.log ((e.kappa • e.M d).det / (r ^ 2) ^ d) := by
  have hpb : p ∈ ball p r := by
    show normSq (p - p) ≤ r ^ 2
    simp [normSq]; positivity
  obtain ⟨x, k, w1, o, e', h1, h2, h3, h4, h5⟩ := C22_feas_converges_margin LMIOracle.oracle (LMIOracle.For m fs b)
    {y | (lmiMat m fs b y).PosDef} r lam p (LMIOracle.new fs b) e opts (lmi_honest hF hb hbs (hK p hpb))
    (lmi_separates hF hb hbs hl.le hp) hl.le (LMIOracle.for_new hb) he hr hK hE htol hit
  obtain ⟨r', o', k1, k2, k3, k4⟩ := lmi_assess hF hb hbs h3 h4
  have h2' : w1.assess x = .ok (none, o) := h2
  rw [h2'] at k1
  simp only [Res.ok.injEq, Prod.mk.injEq] at k1
  exact ⟨x, k, o, e', h1, h4, k3.1 k1.1.symm, h5⟩

end Ellalgo
