import Verif.Props.RoundedPrecision

/-! **C104** with a margin: oracles whose cuts separate the centre of the ball from the rejected point by a known amount, whatever the
size of the gradients. -/

namespace Ellalgo
open Matrix
variable {u : ℝ} {R : Rounding u} {n : Nat} {Ω : Type} {p : Plan} {D : ℝ} {m : Fin n → ℝ}

theorem feas_fl_loop_margin (orc : OracleFeas Ω (Arr (Fl R)) (SingleCut (Fl R)) (Fl R)) (I : Ω → Prop) (K : Set (Fin n → ℝ)) (δ : ℝ)
    (hb : Plan.Basics n p) (hp : p.EnoughPrecision n u) (hm : norm2 m ≤ p.P) (hor : FlHonest n orc I K 0 (p.far n))
    (hsep : FlSeparates n orc I m δ (p.far n)) (hδ : 0 ≤ δ)
    (hdep : OnlyCentral orc ∨ p.γ ≤ 1 - p.t + 2 * (p.r / p.reach n))
    (hK : ball m p.r ⊆ K) (tol : Fl R) (htol : tol.val ≤ δ ^ 2 / (2 * p.t ^ 2))
    (hN : Real.log ((p.t ^ 2) ^ n * D / (p.r ^ 2) ^ n) < p.N * p.ρ) (j : Nat) :
    ∀ (i k : Nat) (w : Ω) (e : Ell (Fl R)), i + j = p.N → j ≤ k → I w → Plan.Inv n p D m i e →
      ∃ x l w1 w' e', feasLoop orc Ell.space tol k i w e = .ok ((some x, l), w', e') ∧
        orc.assess w1 x = .ok (none, w') ∧ I w1 ∧ x.IsVecShape n ∧ norm2 (x.flVec n) ≤ p.far n ∧
        (l : ℝ) * p.ρ ≤ Real.log ((p.t ^ 2) ^ n * D / (p.r ^ 2) ^ n) := by
  induction j with
  | zero =>
    intro i k w e hij _ _ h
    obtain rfl : i = p.N := by omega
    have := Plan.bound hb hp hm h le_rfl
    linarith
  | succ j ih =>
    intro i k w e hij hk hI h
    obtain ⟨k, rfl⟩ : ∃ k', k = k' + 1 := ⟨k - 1, by omega⟩
    have hi : i < p.N := by omega
    have hfar := (h.facts hb hp hm hi.le).1
    obtain ⟨ans, w', hq, hI', hcut⟩ := hor w e.xc hI h.shaped.2 hfar
    have hq' : orc.assess w (Ell.space (T := SingleCut (Fl R)).xc e) = .ok (ans, w') := hq
    unfold feasLoop
    rw [hq']
    cases ans with
    | none => exact ⟨e.xc, i, w, w', e, rfl, hq, hI, h.shaped.2, hfar, Plan.bound hb hp hm h hi.le⟩
    | some c =>
      obtain ⟨g, ⟨β⟩⟩ := c
      obtain ⟨hs, hg, -, hβ, hsat⟩ := hcut g β rfl
      obtain ⟨e', hu, hv, -, htsq⟩ := Plan.step_tsq hb hp hm h hi g hs hg .bias β _ (.inr ⟨.inl rfl, rfl⟩) hβ
        (fun y hy => hsat y (hK hy)) (hdep.imp (fun hc => hc _ _ _ _ _ hq) id)
      have hu' : Ell.space.updateBias e (g, SingleCut.mk β) = .ok (.success, e') := hu
      have hlt : Scalar.lt (Ell.space (T := SingleCut (Fl R)).tsq e') tol = false := by
        have : tol.val ≤ e'.tsq.val := by
          have h1 := hsep w e.xc g β w' hI h.shaped.2 hfar hq
          have h2 : δ ^ 2 ≤ (g.flVec n ⬝ᵥ (m - e.xc.flVec n)) ^ 2 := by nlinarith
          have ht := hp.infl
          exact htol.trans (le_trans (div_le_div_of_nonneg_right h2 (by positivity)) htsq)
        exact decide_eq_false (not_lt.2 this)
      obtain ⟨x, l, w1, w2, e2, h1, h2⟩ := ih (i + 1) k w' e' (by omega) (by omega) hI' hv
      refine ⟨x, l, w1, w2, e2, ?_, h2⟩
      simp only [Res.ok_bind, hu', hlt]
      exact h1

/-- **C104**, with a margin.  As `C104_high_precision`, for an oracle whose cuts separate the centre of the ball from the rejected point by
at least `δ`: any tolerance up to `δ²/8` will do, however small the gradients are. -/
theorem C104_margin (n N : Nat) (B κ r P : ℝ) (hn : 2 ≤ n) (hB : 0 < B) (hκ : 0 < κ) (hr : 0 < r) :
    ∃ u0 > 0, ∀ u ≤ u0, ∀ (R : Rounding u) (Ω : Type) (orc : OracleFeas Ω (Arr (Fl R)) (SingleCut (Fl R)) (Fl R)) (I : Ω → Prop)
      (K : Set (Fin n → ℝ)) (δ : ℝ) (m : Fin n → ℝ) (w : Ω) (e : Ell (Fl R)) (opts : Options (Fl R)),
      e.Shaped n → e.helper = EllCalc.new n → e.kappa.val = κ → (e.mq.flMat n).PosDef →
      (∀ i j, |e.mq.flMat n i j| ≤ B) → norm2 m ≤ P → ball m r ⊆ K → ball m r ⊆ ellipsoid (e.mq.flMat n) κ (e.xc.flVec n) → I w →
      FlHonest n orc I K 0 (P + 2 * √(2 ^ N * κ * (n * (2 * B)))) →
      FlSeparates n orc I m δ (P + 2 * √(2 ^ N * κ * (n * (2 * B)))) → 0 ≤ δ → opts.tolerance.val ≤ δ ^ 2 / 8 →
      2 * ((n : ℝ) + 1) * Real.log (4 ^ n * (κ • e.mq.flMat n).det / (r ^ 2) ^ n) < N → N ≤ opts.maxIters →
      ∃ x k w1 w' e', cuttingPlaneFeas orc Ell.space w e opts = .ok ((some x, k), w', e') ∧
        orc.assess w1 x = .ok (none, w') ∧ I w1 ∧ x.IsVecShape n ∧ norm2 (x.flVec n) ≤ P + 2 * √(2 ^ N * κ * (n * (2 * B))) ∧
        (k : ℝ) ≤ 2 * ((n : ℝ) + 1) * Real.log (4 ^ n * (κ • e.mq.flMat n).det / (r ^ 2) ^ n) := by
  have hn2 : (2 : ℝ) ≤ n := by exact_mod_cast hn
  obtain ⟨s, hs⟩ : ∃ s, s = √(2 ^ N * κ * (n * (2 * B))) := ⟨_, rfl⟩
  have hs0 : 0 < s := hs ▸ Real.sqrt_pos.2 (by positivity)
  obtain ⟨γ, hγ⟩ : ∃ γ, γ = min 1 (r / s) := ⟨_, rfl⟩
  have hγ0 : 0 < γ := by rw [hγ]; positivity
  have hγ1 : γ ≤ 1 := hγ ▸ min_le_left _ _
  have hγr : γ ≤ r / s := hγ ▸ min_le_right _ _
  have hpl : Plan.standard n N B κ r P = { N, B, κ, r, P, z := 2, γ := γ, t := 1 + γ, ρ := 1 / (2 * ((n : ℝ) + 1)) } := by
    rw [Plan.standard, hγ, hs]
  obtain ⟨u0, h0, h⟩ := C104_precision_exists n (Plan.standard n N B κ r P) (by rw [hpl]; exact hγ0) (by rw [hpl]; exact hγ1)
    (by rw [hpl]; exact lt_add_of_pos_right 1 hγ0) (by rw [hpl]; norm_num) (by
      rw [hpl]
      rw [div_lt_iff₀ (by nlinarith)]
      nlinarith) (by
      rw [hpl]
      exact one_div_lt_one_div_of_lt (by positivity) (by linarith))
  refine ⟨u0, h0, fun u hu R Ω orc I K δ m w e opts he hh hek hM hEB hmP hK hE hw hor hsep hδ htol hN hit => ?_⟩
  subst hek
  have hp := h u R.unit_nonneg hu
  have hdet : 0 < (e.kappa.val • e.mq.flMat n).det := (hM.smul hκ).det_pos
  have ht2 : ((1 + γ) ^ 2) ^ n ≤ 4 ^ n := pow_le_pow_left₀ (by positivity) (by nlinarith) n
  have hlog : Real.log (((1 + γ) ^ 2) ^ n * (e.kappa.val • e.mq.flMat n).det / (r ^ 2) ^ n) ≤
      Real.log (4 ^ n * (e.kappa.val • e.mq.flMat n).det / (r ^ 2) ^ n) :=
    Real.log_le_log (by positivity) (div_le_div_of_nonneg_right (mul_le_mul_of_nonneg_right ht2 hdet.le) (by positivity))
  have hn1 : (0 : ℝ) < 2 * ((n : ℝ) + 1) := by positivity
  have hfar : (Plan.standard n N B e.kappa.val r P).far n ≤ P + 2 * √(2 ^ N * e.kappa.val * (n * (2 * B))) := by
    rw [hpl]; exact Plan.far_le hs hs0 hγ1
  have hbas : Plan.Basics n (Plan.standard n N B e.kappa.val r P) :=
    Plan.Basics.of_ball hn hM (by rw [hpl]; exact hEB) (by rw [hpl]; exact hκ) (by rw [hpl]; exact hr) (by rw [hpl]; exact hmP)
      (by rw [hpl]; exact hE)
  obtain ⟨x, k, w1, w', e', a1, a2, a3, a4, a5, a6⟩ := feas_fl_loop_margin (D := (e.kappa.val • e.mq.flMat n).det)
    (p := Plan.standard n N B e.kappa.val r P) orc I K δ hbas hp (by rw [hpl]; exact hmP) (hor.anti hfar)
    (fun w x g b w' hI hx hn => hsep w x g b w' hI hx (hn.trans hfar)) hδ (.inr (by
      rw [hpl]
      show γ ≤ 1 - (1 + γ) + 2 * (r / √(2 ^ N * e.kappa.val * (n * (2 * B))))
      rw [← hs]
      linarith)) (by rw [hpl]; exact hK) opts.tolerance (by
      rw [hpl]
      refine htol.trans ?_
      exact div_le_div_of_nonneg_left (sq_nonneg δ) (by positivity) (show 2 * (1 + γ) ^ 2 ≤ 8 by nlinarith)) (by
      rw [hpl]
      refine lt_of_le_of_lt hlog ?_
      show _ < (N : ℝ) * (1 / (2 * ((n : ℝ) + 1)))
      rw [mul_one_div, lt_div_iff₀ hn1]
      linarith) N 0 opts.maxIters w e (by rw [hpl]; simp) hit hw
    ⟨he, hn, hh, hκ, hM, ⟨1, one_pos, by rw [hpl]; simpa using hEB, by rw [hpl]; simp, by rw [hpl]; simp⟩,
      by rw [hpl]; simpa [Plan.inflated] using hE, by simp⟩
  refine ⟨x, k, w1, w', e', a1, a2, a3, a4, a5.trans hfar, ?_⟩
  rw [hpl] at a6
  have a7 := le_trans a6 hlog
  rw [show (k : ℝ) * (1 / (2 * ((n : ℝ) + 1))) = k / (2 * ((n : ℝ) + 1)) by ring, div_le_iff₀ hn1] at a7
  linarith

end Ellalgo
