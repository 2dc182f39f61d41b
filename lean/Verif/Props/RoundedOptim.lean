import Verif.Props.RoundedConverge
import Verif.Props.RoundedPrecision
import Verif.Spec.RoundedOptim
import Verif.Props.RoundedPlane

/-! C105: the optimisation loop in rounded arithmetic. -/

namespace Ellalgo
open Matrix
open scoped ComplexOrder
variable {u : ℝ} {R : Rounding u} {n : Nat} {p : Plan} {D : ℝ} {m : Fin n → ℝ} {Ω : Type}

theorem optim_fl_loop (orc : OracleOptim Ω (Arr (Fl R)) (SingleCut (Fl R)) (Fl R)) (I : Ω → Fl R → Prop) (S : ℝ → Set (Fin n → ℝ))
    (G : ℝ) (hb : Plan.Basics n p) (hp : p.EnoughPrecision n u) (hm : norm2 m ≤ p.P) (hor : FlHonestOptim n orc I S G (p.far n))
    (hdep : OnlyCentralOptim orc ∨ p.γ ≤ 1 - p.t + 2 * (p.r / p.reach n))
    (tol : Fl R) (htol : tol.val ≤ p.r ^ 2 * G ^ 2 / (2 * p.t ^ 2))
    (hN : Real.log ((p.t ^ 2) ^ n * D / (p.r ^ 2) ^ n) < p.N * p.ρ) (k : Nat) :
    ∀ (i : Nat) (xb : Option (Arr (Fl R))) (w : Ω) (e : Ell (Fl R)) (γ : Fl R), I w γ → e.Shaped n →
      ∃ xb' l γ' w' e', optimLoop orc Ell.space tol k i xb w e γ = .ok ((xb', l), γ', w', e') ∧ S γ'.val ⊆ S γ.val ∧
        (i ≤ p.N → p.N ≤ i + k → Plan.Inv n p D m i e → ¬ ball m p.r ⊆ S γ'.val) := by
  have hn : 0 < n := by linarith [hb.dim]
  induction k with
  | zero =>
    intro i xb w e γ _ _
    refine ⟨_, _, _, _, _, rfl, le_rfl, fun hi hk h => ?_⟩
    obtain rfl : i = p.N := by omega
    have := Plan.bound hb hp hm h le_rfl
    linarith
  | succ k ih =>
    intro i xb w e γ hI hsh
    obtain ⟨g, β, shrunk, γ1, w1, hq, hI1, hS1, hs, hok⟩ := hor w e.xc γ hI hsh.2
    have hq' : orc.assess w (Ell.space (T := SingleCut (Fl R)).xc e) γ = .ok (((g, ⟨β⟩), shrunk), γ1, w1) := hq
    obtain ⟨st, e1, hu, hsh1⟩ : ∃ st e1, (if shrunk then Ell.space.updateCentral e (g, SingleCut.mk β)
        else Ell.space.updateBias e (g, SingleCut.mk β)) = .ok (st, e1) ∧ e1.Shaped n := by
      cases shrunk
      · obtain ⟨st, e1, h1, h2, _⟩ := Ell.update_shape hn .bias e (g, SingleCut.mk β) hsh hs
        exact ⟨st, e1, h1, h2⟩
      · obtain ⟨st, e1, h1, h2, _⟩ := Ell.update_shape hn .central e (g, SingleCut.mk β) hsh hs
        exact ⟨st, e1, h1, h2⟩
    -- while the ball consists of better points, the update succeeds and does not stop the loop
    have good : i ≤ p.N → Plan.Inv n p D m i e → ball m p.r ⊆ S γ1.val →
        i < p.N ∧ st = .success ∧ Plan.Inv n p D m (i + 1) e1 ∧
        Scalar.lt (Ell.space (T := SingleCut (Fl R)).tsq e1) tol = false := by
      intro hi h hsub
      obtain hi | rfl := hi.lt_or_eq
      swap
      · have := Plan.bound hb hp hm h le_rfl
        linarith
      obtain ⟨hg, hG, hcen, hbias⟩ := hok (h.facts hb hp hm hi.le).1
      obtain ⟨kd, b, hkd, hkd', hb0, hsat, hdep'⟩ : ∃ (kd : UpdateKind) (b : ℝ), (kd = if shrunk then .central else .bias) ∧
          (kd = .central ∧ b = 0 ∨ (kd = .bias ∨ kd = .q) ∧ b = β.val) ∧ 0 ≤ b ∧
          (∀ y ∈ S γ1.val, g.flVec n ⬝ᵥ (y - e.xc.flVec n) + b ≤ 0) ∧ (b = 0 ∨ p.γ ≤ 1 - p.t + 2 * (p.r / p.reach n)) := by
        cases shrunk
        · exact ⟨.bias, β.val, rfl, .inr ⟨.inl rfl, rfl⟩, (hbias rfl).1, (hbias rfl).2, hdep.imp (fun hc => hc _ _ _ _ _ _ _ hq) id⟩
        · exact ⟨.central, 0, rfl, .inl ⟨rfl, rfl⟩, le_rfl, fun y hy => by simpa using hcen rfl y hy, .inl rfl⟩
      obtain ⟨e2, hu2, hv, htsq⟩ := Plan.step hb hp hm h hi g hs hg kd β b hkd' hb0 (fun y hy => hsat y (hsub hy)) hdep'
      have hu' : Ell.space.update kd e (g, SingleCut.mk β) = .ok (st, e1) := by
        rw [← hu, hkd]
        cases shrunk <;> rfl
      rw [hu2] at hu'
      simp only [Res.ok.injEq, Prod.mk.injEq] at hu'
      obtain ⟨rfl, rfl⟩ := hu'
      refine ⟨hi, rfl, hv, ?_⟩
      have : tol.val ≤ e2.tsq.val := by
        have := mul_le_mul_of_nonneg_left hG (sq_nonneg p.r)
        have ht := hp.infl
        refine htol.trans (le_trans ?_ htsq)
        exact div_le_div_of_nonneg_right this (by positivity)
      exact decide_eq_false (not_lt.2 this)
    unfold optimLoop
    simp only [hq', Res.ok_bind, hu]
    split
    · rename_i hstop
      refine ⟨_, _, _, _, _, rfl, hS1, ?_⟩
      intro hi _ h hsub
      obtain ⟨-, h1, -, h2⟩ := good hi h hsub
      rw [h1, h2] at hstop
      simp at hstop
    · obtain ⟨xb', l, γ', w', e', h1, h2, h3⟩ := ih (i + 1)
        (if shrunk = true then some (Ell.space (T := SingleCut (Fl R)).xc e) else xb) w1 e1 γ1 hI1 hsh1
      refine ⟨xb', l, γ', w', e', h1, h2.trans hS1, ?_⟩
      intro hi hk h hsub
      obtain ⟨a1, -, a2, -⟩ := good hi h (hsub.trans h2)
      exact h3 (by omega) (by omega) a2 hsub

/-- **C105**.  The optimisation loop in rounded arithmetic.  The oracle is honest for the sets `S γ` of better points; a ball of radius
`r` lies in the first ellipsoid, whose matrix is positive definite with entries at most `B`; the plan `p` fixes the numbers of the run as
in C104 and the unit roundoff is small enough for it.  Then `cutting_plane_optim` returns, and the ball does not consist of better
points than the returned `γ'` only. -/
theorem C105_optim_converges (orc : OracleOptim Ω (Arr (Fl R)) (SingleCut (Fl R)) (Fl R)) (I : Ω → Fl R → Prop)
    (S : ℝ → Set (Fin n → ℝ)) (G : ℝ) (m : Fin n → ℝ) (w : Ω) (e : Ell (Fl R)) (γ : Fl R) (opts : Options (Fl R)) (p : Plan)
    (he : e.Shaped n) (hn : 2 ≤ n) (hh : e.helper = EllCalc.new n) (hκ : 0 < e.kappa.val)
    (hM : (e.mq.flMat n).PosDef) (hB : ∀ i j, |e.mq.flMat n i j| ≤ p.B) (hr : 0 < p.r)
    (hE : ball m p.r ⊆ ellipsoid (e.mq.flMat n) e.kappa.val (e.xc.flVec n)) (hw : I w γ)
    (hpκ : p.κ = e.kappa.val) (hpP : norm2 m ≤ p.P) (hor : FlHonestOptim n orc I S G (p.far n))
    (hdep : OnlyCentralOptim orc ∨ p.γ ≤ 1 - p.t + 2 * (p.r / p.reach n))
    (htol : opts.tolerance.val ≤ p.r ^ 2 * G ^ 2 / (2 * p.t ^ 2))
    (hN : Real.log ((p.t ^ 2) ^ n * (e.kappa.val • e.mq.flMat n).det / (p.r ^ 2) ^ n) < p.N * p.ρ) (hit : p.N ≤ opts.maxIters)
    (hu : p.EnoughPrecision n u) :
    ∃ xb k γ' w' e', cuttingPlaneOptim orc Ell.space w e γ opts = .ok ((xb, k), γ', w', e') ∧ ¬ ball m p.r ⊆ S γ'.val := by
  obtain ⟨xb, k, γ', w', e', h1, -, h2⟩ := optim_fl_loop orc I S G (Plan.Basics.of_ball hn hM hB (hpκ ▸ hκ) hr hpP (hpκ ▸ hE)) hu
    hpP hor hdep opts.tolerance htol hN opts.maxIters 0 none w e γ hw he
  exact ⟨xb, k, γ', w', e', h1, h2 (by omega) (by omega)
    ⟨he, hn, hh, hκ, hM, ⟨1, one_pos, by simpa using hB, by simp [hpκ], by simp [hpκ]⟩, by simpa [Plan.inflated] using hE, by simp⟩⟩

theorem FlHonestOptim.anti {orc : OracleOptim Ω (Arr (Fl R)) (SingleCut (Fl R)) (Fl R)} {I : Ω → Fl R → Prop}
    {S : ℝ → Set (Fin n → ℝ)} {G X X' : ℝ} (h : FlHonestOptim n orc I S G X) (hX : X' ≤ X) : FlHonestOptim n orc I S G X' := by
  intro w x γ hI hs
  obtain ⟨g, β, sh, γ', w', h1, h2, h3, h4, h5⟩ := h w x γ hI hs
  exact ⟨g, β, sh, γ', w', h1, h2, h3, h4, fun hx => h5 (hx.trans hX)⟩

/-- **C105**, without a plan.  For every dimension `n ≥ 2`, bounds `κ`, `B`, `r`, `P` and number of cuts `N` there is a unit roundoff
`u0` such that in every arithmetic with at most this unit: if the oracle is honest for the sets `S γ`, at least when it is asked about
points of norm at most `P + 2√(2^(N+1) κ n B)`, a ball of radius `r` around a point of norm at most `P` lies inside the first ellipsoid
`{κ, M}` (entries of `M` at most `B`), the tolerance is at most `r²G²/8` and `2(n+1) ln(4ⁿ det(κM)/r^(2n)) < N ≤ max_iters`, then
`cutting_plane_optim` returns, and the ball does not consist of points better than the returned `γ'` only. -/
theorem C105_high_precision (n N : Nat) (B κ r P : ℝ) (hn : 2 ≤ n) (hB : 0 < B) (hκ : 0 < κ) (hr : 0 < r) :
    ∃ u0 > 0, ∀ u ≤ u0, ∀ (R : Rounding u) (Ω : Type) (orc : OracleOptim Ω (Arr (Fl R)) (SingleCut (Fl R)) (Fl R))
      (I : Ω → Fl R → Prop) (S : ℝ → Set (Fin n → ℝ)) (G : ℝ) (m : Fin n → ℝ) (w : Ω) (e : Ell (Fl R)) (γ : Fl R)
      (opts : Options (Fl R)),
      e.Shaped n → e.helper = EllCalc.new n → e.kappa.val = κ → (e.mq.flMat n).PosDef →
      (∀ i j, |e.mq.flMat n i j| ≤ B) → norm2 m ≤ P → ball m r ⊆ ellipsoid (e.mq.flMat n) κ (e.xc.flVec n) → I w γ →
      FlHonestOptim n orc I S G (P + 2 * √(2 ^ N * κ * (n * (2 * B)))) → opts.tolerance.val ≤ r ^ 2 * G ^ 2 / 8 →
      2 * ((n : ℝ) + 1) * Real.log (4 ^ n * (κ • e.mq.flMat n).det / (r ^ 2) ^ n) < N → N ≤ opts.maxIters →
      ∃ xb k γ' w' e', cuttingPlaneOptim orc Ell.space w e γ opts = .ok ((xb, k), γ', w', e') ∧ ¬ ball m r ⊆ S γ'.val := by
  have hn2 : (2 : ℝ) ≤ n := by exact_mod_cast hn
  obtain ⟨s, hs⟩ : ∃ s, s = √(2 ^ N * κ * (n * (2 * B))) := ⟨_, rfl⟩
  have hs0 : 0 < s := hs ▸ Real.sqrt_pos.2 (by positivity)
  obtain ⟨γ, hγ⟩ : ∃ γ, γ = min 1 (r / s) := ⟨_, rfl⟩
  have hγ0 : 0 < γ := by rw [hγ]; positivity
  have hγ1 : γ ≤ 1 := hγ ▸ min_le_left _ _
  have hγr : γ ≤ r / s := hγ ▸ min_le_right _ _
  have hpl : Plan.standard n N B κ r P = { N, B, κ, r, P, z := 2, γ := γ, t := 1 + γ, ρ := 1 / (2 * ((n : ℝ) + 1)) } := by
    rw [Plan.standard, hγ, hs]
  obtain ⟨u0, h0, h⟩ := C104_precision_exists n (Plan.standard n N B κ r P) (by rw [hpl]; exact hγ0) (by rw [hpl]; exact hγ1)
    (by rw [hpl]; exact lt_add_of_pos_right 1 hγ0) (by rw [hpl]; norm_num) (by
      rw [hpl]
      rw [div_lt_iff₀ (by nlinarith)]
      nlinarith) (by
      rw [hpl]
      exact one_div_lt_one_div_of_lt (by positivity) (by linarith))
  refine ⟨u0, h0, fun u hu R Ω orc I S G m w e γ0 opts he hh hek hM hEB hmP hE hw hor htol hN hit => ?_⟩
  subst hek
  have hp := h u R.unit_nonneg hu
  have hdet : 0 < (e.kappa.val • e.mq.flMat n).det := (hM.smul hκ).det_pos
  have ht2 : ((1 + γ) ^ 2) ^ n ≤ 4 ^ n := pow_le_pow_left₀ (by positivity) (by nlinarith) n
  have hlog : Real.log (((1 + γ) ^ 2) ^ n * (e.kappa.val • e.mq.flMat n).det / (r ^ 2) ^ n) ≤
      Real.log (4 ^ n * (e.kappa.val • e.mq.flMat n).det / (r ^ 2) ^ n) :=
    Real.log_le_log (by positivity) (div_le_div_of_nonneg_right (mul_le_mul_of_nonneg_right ht2 hdet.le) (by positivity))
  have hn1 : (0 : ℝ) < 2 * ((n : ℝ) + 1) := by positivity
  have hc := C105_optim_converges orc I S G m w e γ0 opts (Plan.standard n N B e.kappa.val r P) he hn hh
    hκ hM (by rw [hpl]; exact hEB) (by rw [hpl]; exact hr) (by rw [hpl]; exact hE) hw (by rw [hpl])
    (by rw [hpl]; exact hmP) (hor.anti (by rw [hpl]; exact Plan.far_le hs hs0 hγ1)) (.inr (by
      rw [hpl]
      show γ ≤ 1 - (1 + γ) + 2 * (r / √(2 ^ N * e.kappa.val * (n * (2 * B))))
      rw [← hs]
      linarith)) (by
      rw [hpl]
      refine htol.trans ?_
      have : 0 ≤ r ^ 2 * G ^ 2 := by positivity
      exact div_le_div_of_nonneg_left this (by positivity) (show 2 * (1 + γ) ^ 2 ≤ 8 by nlinarith)) (by
      rw [hpl]
      refine lt_of_le_of_lt hlog ?_
      show _ < (N : ℝ) * (1 / (2 * ((n : ℝ) + 1)))
      rw [mul_one_div, lt_div_iff₀ hn1]
      linarith) (by rw [hpl]; exact hit) hp
  rw [hpl] at hc
  exact hc

/-- an oracle that is correct in rounded arithmetic is honest for the clearly better points -/
theorem FlMaximizes.honest (hu : u ≤ 1 / 2) {orc : OracleOptim Ω (Arr (Fl R)) (SingleCut (Fl R)) (Fl R)} {I : Ω → Prop}
    {F : ℝ → Set (Fin n → ℝ)} {f δ : (Fin n → ℝ) → ℝ} (ho : FlMaximizes n orc I F f δ) (hF : Antitone F) {G Δ X : ℝ}
    (hG : GradientsAtLeast n orc I G) (hΔ : ∀ x, norm2 x ≤ X → δ x ≤ Δ) :
    FlHonestOptim n orc (fun w _ => I w) (clearlyBetter u F f Δ) G X := by
  have h0 := R.unit_nonneg
  intro w x γ hI hs
  obtain ⟨g, β, sh, γ', w', h1, h2, ha⟩ := ho w x γ hI hs
  have hle : γ.val ≤ γ'.val := by
    cases sh
    · exact (ha.rejected rfl).1.ge
    · exact (ha.accepted rfl).2.2.1
  refine ⟨g, β, sh, γ', w', h1, h2, ?_, ha.shape, fun hx => ⟨ha.nonzero, hG _ _ _ _ _ _ _ _ hI hs h1, ?_, ?_⟩⟩
  · rintro z ⟨hz1, hz2⟩
    refine ⟨hz1, lt_of_le_of_lt ?_ hz2⟩
    have a : |γ.val| ≤ |γ'.val| + |γ.val - γ'.val| := by
      have := abs_add_le γ'.val (γ.val - γ'.val)
      simpa using this
    rw [abs_of_nonpos (by linarith : γ.val - γ'.val ≤ 0)] at a
    nlinarith
  · rintro rfl z ⟨hz1, hz2⟩
    obtain ⟨-, b, -, -, c⟩ := ha.accepted rfl
    refine c z ?_
    have := (abs_le.1 b).1
    have := hΔ _ hx
    have : 0 ≤ 2 * u * |γ'.val| := by positivity
    linarith
  · rintro rfl
    obtain ⟨a, b, c⟩ := ha.rejected rfl
    refine ⟨b.le, fun z hz => c z (hF (hΔ _ hx) hz.1) ?_⟩
    have := hΔ _ hx
    have := hz.2
    rw [a] at this
    linarith

/-- **C105** for oracles that are correct in rounded arithmetic.  If a ball of radius `r` in the first ellipsoid consists of points that
satisfy the inequalities with margin `Δ` and have `f ≥ g*`, and rounding changes the inequalities and `f` by at most `Δ` near there,
then the value that `cutting_plane_optim` returns is at least `g*` up to `Δ + 2 u |γ'|`, and the returned point satisfies the
inequalities and has this value up to `δ`. -/
theorem C105_reaches_level (n N : Nat) (B κ r P : ℝ) (hn : 2 ≤ n) (hB : 0 < B) (hκ : 0 < κ) (hr : 0 < r) :
    ∃ u0 > 0, ∀ u ≤ u0, ∀ (R : Rounding u) (Ω : Type) (orc : OracleOptim Ω (Arr (Fl R)) (SingleCut (Fl R)) (Fl R))
      (I : Ω → Prop) (F : ℝ → Set (Fin n → ℝ)) (f δ : (Fin n → ℝ) → ℝ) (G Δ gstar : ℝ) (m : Fin n → ℝ) (w : Ω) (e : Ell (Fl R))
      (γ : Fl R) (opts : Options (Fl R)),
      e.Shaped n → e.helper = EllCalc.new n → e.kappa.val = κ → (e.mq.flMat n).PosDef →
      (∀ i j, |e.mq.flMat n i j| ≤ B) → norm2 m ≤ P → ball m r ⊆ ellipsoid (e.mq.flMat n) κ (e.xc.flVec n) → I w →
      FlMaximizes n orc I F f δ → Antitone F → GradientsAtLeast n orc I G →
      (∀ x, norm2 x ≤ P + 2 * √(2 ^ N * κ * (n * (2 * B))) → δ x ≤ Δ) → (∀ x ∈ ball m r, x ∈ F Δ ∧ gstar ≤ f x) →
      opts.tolerance.val ≤ r ^ 2 * G ^ 2 / 8 →
      2 * ((n : ℝ) + 1) * Real.log (4 ^ n * (κ • e.mq.flMat n).det / (r ^ 2) ^ n) < N → N ≤ opts.maxIters →
      ∃ xb k γ' w' e', cuttingPlaneOptim orc Ell.space w e γ opts = .ok ((xb, k), γ', w', e') ∧
        gstar ≤ γ'.val + (Δ + 2 * u * |γ'.val|) ∧ (xb = none → γ' = γ) ∧
        ∀ x, xb = some x → x.IsVecShape n ∧ x.flVec n ∈ F (-δ (x.flVec n)) ∧ |γ'.val - f (x.flVec n)| ≤ δ (x.flVec n) := by
  obtain ⟨u0, h0, h⟩ := C105_high_precision n N B κ r P hn hB hκ hr
  refine ⟨min u0 (1 / 2), lt_min h0 (by norm_num), fun u hu R Ω orc I F f δ G Δ gstar m w e γ opts he hh hek hM hEB hmP hE hw
    ho hF hG hΔ hgood htol hN hit => ?_⟩
  obtain ⟨xb, k, γ', w', e', h1, h2⟩ := h u (hu.trans (min_le_left _ _)) R Ω orc (fun w _ => I w) (clearlyBetter u F f Δ) G m w e γ opts
    he hh hek hM hEB hmP hE hw (ho.honest (hu.trans (min_le_right _ _)) hF hG hΔ) htol hN hit
  obtain ⟨xb2, k2, γ2, w2, e2, h1', -, h3, h4⟩ := C86_optim_run (C86_ell_steady (α := Fl R) (T := SingleCut (Fl R)) (by omega)).1 ho (w := w) (s := e) γ opts hw he
  rw [h1] at h1'
  simp only [Res.ok.injEq, Prod.mk.injEq] at h1'
  obtain ⟨⟨rfl, rfl⟩, rfl, rfl, rfl⟩ := h1'
  refine ⟨xb, k, γ', w', e', h1, ?_, h3, h4⟩
  by_contra hlt
  exact h2 fun x hx => ⟨(hgood x hx).1, (not_le.1 hlt).trans_le (hgood x hx).2⟩

/-- **C105** for feasibility oracles that are correct in rounded arithmetic.  If a ball of radius `r` in the first ellipsoid satisfies
the inequalities with margin `Δ`, and rounding changes them by at most `Δ` near there, then `cutting_plane_feas` returns a point that
satisfies them up to `δ`. -/
theorem C105_finds_point (n N : Nat) (B κ r P : ℝ) (hn : 2 ≤ n) (hB : 0 < B) (hκ : 0 < κ) (hr : 0 < r) :
    ∃ u0 > 0, ∀ u ≤ u0, ∀ (R : Rounding u) (Ω : Type) (orc : OracleFeas Ω (Arr (Fl R)) (SingleCut (Fl R)) (Fl R))
      (I : Ω → Prop) (F : ℝ → Set (Fin n → ℝ)) (δ : (Fin n → ℝ) → ℝ) (G Δ : ℝ) (m : Fin n → ℝ) (w : Ω) (e : Ell (Fl R))
      (opts : Options (Fl R)),
      e.Shaped n → e.helper = EllCalc.new n → e.kappa.val = κ → (e.mq.flMat n).PosDef →
      (∀ i j, |e.mq.flMat n i j| ≤ B) → norm2 m ≤ P → ball m r ⊆ ellipsoid (e.mq.flMat n) κ (e.xc.flVec n) → I w →
      FlFeasible n orc I F δ → Antitone F → CutGradientsAtLeast n orc I G →
      (∀ x, norm2 x ≤ P + 2 * √(2 ^ N * κ * (n * (2 * B))) → δ x ≤ Δ) → ball m r ⊆ F Δ →
      opts.tolerance.val ≤ r ^ 2 * G ^ 2 / 8 →
      2 * ((n : ℝ) + 1) * Real.log (4 ^ n * (κ • e.mq.flMat n).det / (r ^ 2) ^ n) < N → N ≤ opts.maxIters →
      ∃ x k w' e', cuttingPlaneFeas orc Ell.space w e opts = .ok ((some x, k), w', e') ∧ k < N ∧ x.IsVecShape n ∧
        x.flVec n ∈ F (-δ (x.flVec n)) := by
  obtain ⟨u0, h0, h⟩ := C104_high_precision n N B κ r P hn hB hκ hr
  refine ⟨u0, h0, fun u hu R Ω orc I F δ G Δ m w e opts he hh hek hM hEB hmP hE hw ho hF hG hΔ hgood htol hN hit => ?_⟩
  obtain ⟨x, k, w1, w', e', h1, h2, h3, h4, h5⟩ := h u hu R Ω orc I (F Δ) G m w e opts he hh hek hM hEB hmP hgood hE hw (by
    intro w x hI hs hx
    obtain ⟨a, w', a1, a2, a3, a4⟩ := ho w x hI hs
    refine ⟨a, w', a1, a2, ?_⟩
    rintro g β rfl
    obtain ⟨b1, b2, b3, b4⟩ := a4 g β rfl
    exact ⟨b1, b2, hG _ _ _ _ _ hI hs a1, b3.le, fun y hy => b4 y (hF (hΔ _ hx) hy)⟩) htol hN hit
  refine ⟨x, k, w', e', h1, by exact_mod_cast h5.trans_lt hN, h4, ?_⟩
  obtain ⟨a, w2, a1, a2, a3, a4⟩ := ho w1 x h3 h4
  rw [h2] at a1
  simp only [Res.ok.injEq, Prod.mk.injEq] at a1
  exact a3 a1.1.symm

end Ellalgo
