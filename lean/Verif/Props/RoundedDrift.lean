import Verif.Props.RoundedOptim

/-! The optimisation loop in rounded arithmetic with an oracle whose level may fall a little at each query. -/

namespace Ellalgo
open Matrix
open scoped ComplexOrder
variable {u : ℝ} {R : Rounding u} {n : Nat} {p : Plan} {D : ℝ} {m : Fin n → ℝ} {Ω : Type}

/-- the standard plan has enough precision below some unit roundoff -/
theorem Plan.standard_ok (n N : Nat) (B κ r P : ℝ) (hn : 2 ≤ n) (hB : 0 < B) (hκ : 0 < κ) (hr : 0 < r) :
    ∃ u0 > 0, ∀ u, 0 ≤ u → u ≤ u0 → (Plan.standard n N B κ r P).EnoughPrecision n u ∧
      (Plan.standard n N B κ r P).far n ≤ P + 2 * √(2 ^ N * κ * (n * (2 * B))) ∧ (Plan.standard n N B κ r P).t ≤ 2 ∧
      (Plan.standard n N B κ r P).γ ≤ 1 - (Plan.standard n N B κ r P).t + 2 * ((Plan.standard n N B κ r P).r /
        (Plan.standard n N B κ r P).reach n) := by
  have hn2 : (2 : ℝ) ≤ n := by exact_mod_cast hn
  obtain ⟨s, hs⟩ : ∃ s, s = √(2 ^ N * κ * (n * (2 * B))) := ⟨_, rfl⟩
  have hs0 : 0 < s := hs ▸ Real.sqrt_pos.2 (by positivity)
  obtain ⟨γ, hγ⟩ : ∃ γ, γ = min 1 (r / s) := ⟨_, rfl⟩
  have hγ0 : 0 < γ := by rw [hγ]; positivity
  have hγ1 : γ ≤ 1 := hγ ▸ min_le_left _ _
  have hγr : γ ≤ r / s := hγ ▸ min_le_right _ _
  have hpl : Plan.standard n N B κ r P = { N, B, κ, r, P, z := 2, γ := γ, t := 1 + γ, ρ := 1 / (2 * ((n : ℝ) + 1)) } := by
    rw [Plan.standard, hγ, hs]
  obtain ⟨u0, h0, h⟩ := C104_precision_exists n (Plan.standard n N B κ r P) (by rw [hpl]; exact hγ0) (by rw [hpl]; exact hγ1)
    (by rw [hpl]; exact lt_add_of_pos_right 1 hγ0) (by rw [hpl]; norm_num) (by
      rw [hpl]
      rw [div_lt_iff₀ (by nlinarith)]
      nlinarith) (by
      rw [hpl]
      exact one_div_lt_one_div_of_lt (by positivity) (by linarith))
  refine ⟨u0, h0, fun u h1 h2 => ⟨h u h1 h2, ?_, ?_, ?_⟩⟩
  · rw [hpl]; exact Plan.far_le hs hs0 hγ1
  · rw [hpl]; show 1 + γ ≤ 2; linarith
  · rw [hpl]
    show γ ≤ 1 - (1 + γ) + 2 * (r / √(2 ^ N * κ * (n * (2 * B))))
    rw [← hs]
    linarith

/-- An optimisation oracle in rounded arithmetic for `Nmax` queries; `S γ` is the set of points that count as better than `γ`, and `I i` an
invariant of its state and of `γ` before query `i`.  It never panics, and a query lowers `γ` by at most `η`.  At points of norm at most `X`,
and as long as some point is better than the new `γ'`, the gradient is not zero and of norm at least `G`, and every better point satisfies
the returned cut. -/
def FlDriftOptim (n : Nat) (orc : OracleOptim Ω (Arr (Fl R)) (SingleCut (Fl R)) (Fl R)) (I : Nat → Ω → Fl R → Prop)
    (S : ℝ → Set (Fin n → ℝ)) (Q : Arr (Fl R) → Fl R → Prop) (G η X : ℝ) (Nmax : Nat) : Prop :=
  ∀ i < Nmax, ∀ w x γ, I i w γ → x.IsVecShape n → ∃ g beta shrunk γ' w',
    orc.assess w x γ = .ok (((g, ⟨beta⟩), shrunk), γ', w') ∧ I (i + 1) w' γ' ∧ γ.val ≤ γ'.val + η ∧ g.IsVecShape n ∧
    (shrunk = true → Q x γ') ∧ (shrunk = false → γ' = γ) ∧
    (norm2 (x.flVec n) ≤ X → (S γ'.val).Nonempty → g.flVec n ≠ 0 ∧ G ^ 2 ≤ normSq (g.flVec n) ∧
      (shrunk = true → ∀ y ∈ S γ'.val, g.flVec n ⬝ᵥ (y - x.flVec n) ≤ 0) ∧
      (shrunk = false → 0 ≤ beta.val ∧ ∀ y ∈ S γ'.val, g.flVec n ⬝ᵥ (y - x.flVec n) + beta.val ≤ 0))

theorem optim_fl_drift (orc : OracleOptim Ω (Arr (Fl R)) (SingleCut (Fl R)) (Fl R)) (I : Nat → Ω → Fl R → Prop)
    (S : ℝ → Set (Fin n → ℝ)) (hS : Antitone S) (Q : Arr (Fl R) → Fl R → Prop) (G η : ℝ) (hη : 0 ≤ η) (Nmax : Nat) (hb : Plan.Basics n p)
    (hp : p.EnoughPrecision n u) (hm : norm2 m ≤ p.P) (hor : FlDriftOptim n orc I S Q G η (p.far n) Nmax)
    (hdep : p.γ ≤ 1 - p.t + 2 * (p.r / p.reach n))
    (tol : Fl R) (htol : tol.val ≤ p.r ^ 2 * G ^ 2 / (2 * p.t ^ 2))
    (hN : Real.log ((p.t ^ 2) ^ n * D / (p.r ^ 2) ^ n) < p.N * p.ρ) (k : Nat) :
    ∀ (i : Nat) (xb : Option (Arr (Fl R))) (w : Ω) (e : Ell (Fl R)) (γ : Fl R), i + k ≤ Nmax → I i w γ → e.Shaped n →
      ∃ xb' l γ' w' e', optimLoop orc Ell.space tol k i xb w e γ = .ok ((xb', l), γ', w', e') ∧ γ.val ≤ γ'.val + k * η ∧
        (xb' = xb ∧ γ' = γ ∨ ∃ x, xb' = some x ∧ x.IsVecShape n ∧ Q x γ') ∧
        (i ≤ p.N → p.N ≤ i + k → Plan.Inv n p D m i e → ¬ ball m p.r ⊆ S (γ'.val + k * η)) := by
  have hn : 0 < n := by linarith [hb.dim]
  induction k with
  | zero =>
    intro i xb w e γ _ _ _
    refine ⟨_, _, _, _, _, rfl, by simp, .inl ⟨rfl, rfl⟩, fun hi hk h => ?_⟩
    obtain rfl : i = p.N := by omega
    have := Plan.bound hb hp hm h le_rfl
    linarith
  | succ k ih =>
    intro i xb w e γ hik hI hsh
    obtain ⟨g, β, shrunk, γ1, w1, hq, hI1, hS1, hs, hQ1, hQ2, hok⟩ := hor i (by omega) w e.xc γ hI hsh.2
    have hq' : orc.assess w (Ell.space (T := SingleCut (Fl R)).xc e) γ = .ok (((g, ⟨β⟩), shrunk), γ1, w1) := hq
    obtain ⟨st, e1, hu, hsh1⟩ : ∃ st e1, (if shrunk then Ell.space.updateCentral e (g, SingleCut.mk β)
        else Ell.space.updateBias e (g, SingleCut.mk β)) = .ok (st, e1) ∧ e1.Shaped n := by
      cases shrunk
      · obtain ⟨st, e1, h1, h2, _⟩ := Ell.update_shape hn .bias e (g, SingleCut.mk β) hsh hs
        exact ⟨st, e1, h1, h2⟩
      · obtain ⟨st, e1, h1, h2, _⟩ := Ell.update_shape hn .central e (g, SingleCut.mk β) hsh hs
        exact ⟨st, e1, h1, h2⟩
    -- while the ball consists of better points, the update succeeds and does not stop the loop
    have good : i ≤ p.N → Plan.Inv n p D m i e → ball m p.r ⊆ S γ1.val →
        i < p.N ∧ st = .success ∧ Plan.Inv n p D m (i + 1) e1 ∧
        Scalar.lt (Ell.space (T := SingleCut (Fl R)).tsq e1) tol = false := by
      intro hi h hsub
      obtain hi | rfl := hi.lt_or_eq
      swap
      · have := Plan.bound hb hp hm h le_rfl
        linarith
      have hne : (S γ1.val).Nonempty := ⟨m, hsub (by
        show normSq (m - m) ≤ p.r ^ 2
        rw [sub_self]; simp [normSq, sq_nonneg])⟩
      obtain ⟨hg, hG, hcen, hbias⟩ := hok (h.facts hb hp hm hi.le).1 hne
      obtain ⟨kd, b, hkd, hkd', hb0, hsat⟩ : ∃ (kd : UpdateKind) (b : ℝ), (kd = if shrunk then .central else .bias) ∧
          (kd = .central ∧ b = 0 ∨ (kd = .bias ∨ kd = .q) ∧ b = β.val) ∧ 0 ≤ b ∧
          (∀ y ∈ S γ1.val, g.flVec n ⬝ᵥ (y - e.xc.flVec n) + b ≤ 0) := by
        cases shrunk
        · exact ⟨.bias, β.val, rfl, .inr ⟨.inl rfl, rfl⟩, (hbias rfl).1, (hbias rfl).2⟩
        · exact ⟨.central, 0, rfl, .inl ⟨rfl, rfl⟩, le_rfl, fun y hy => by simpa using hcen rfl y hy⟩
      obtain ⟨e2, hu2, hv, htsq⟩ := Plan.step hb hp hm h hi g hs hg kd β b hkd' hb0 (fun y hy => hsat y (hsub hy)) (.inr hdep)
      have hu' : Ell.space.update kd e (g, SingleCut.mk β) = .ok (st, e1) := by
        rw [← hu, hkd]
        cases shrunk <;> rfl
      rw [hu2] at hu'
      simp only [Res.ok.injEq, Prod.mk.injEq] at hu'
      obtain ⟨rfl, rfl⟩ := hu'
      refine ⟨hi, rfl, hv, ?_⟩
      have : tol.val ≤ e2.tsq.val := by
        have := mul_le_mul_of_nonneg_left hG (sq_nonneg p.r)
        have ht := hp.infl
        refine htol.trans (le_trans ?_ htsq)
        exact div_le_div_of_nonneg_right this (by positivity)
      exact decide_eq_false (not_lt.2 this)
    have hkη : 0 ≤ (k : ℝ) * η := by positivity
    have hxb : (if shrunk = true then some (Ell.space (T := SingleCut (Fl R)).xc e) else xb) = xb ∧ γ1 = γ ∨
        ∃ x, (if shrunk = true then some (Ell.space (T := SingleCut (Fl R)).xc e) else xb) = some x ∧ x.IsVecShape n ∧ Q x γ1 := by
      cases shrunk
      · exact .inl ⟨rfl, hQ2 rfl⟩
      · exact .inr ⟨_, rfl, hsh.2, hQ1 rfl⟩
    unfold optimLoop
    simp only [hq', Res.ok_bind, hu]
    split
    · rename_i hstop
      refine ⟨_, _, _, _, _, rfl, by push_cast; linarith, hxb, ?_⟩
      intro hi _ h hsub
      obtain ⟨-, h1, -, h2⟩ := good hi h (hsub.trans (hS (by push_cast; linarith)))
      rw [h1, h2] at hstop
      simp at hstop
    · obtain ⟨xb', l, γ', w', e', h1, h2, hx2, h3⟩ := ih (i + 1)
        (if shrunk = true then some (Ell.space (T := SingleCut (Fl R)).xc e) else xb) w1 e1 γ1 (by omega) hI1 hsh1
      refine ⟨xb', l, γ', w', e', h1, by push_cast; linarith, ?_, ?_⟩
      · rcases hx2 with ⟨c1, c2⟩ | hx2
        · rw [c1, c2]; exact hxb
        · exact .inr hx2
      intro hi hk h hsub
      obtain ⟨a1, -, a2, -⟩ := good hi h (hsub.trans (hS (by push_cast; linarith)))
      exact h3 (by omega) (by omega) a2 (hsub.trans (hS (by push_cast; linarith)))

/-- the same without a plan, for every unit roundoff small enough for the bounds -/
theorem optim_drift_high_precision (n N : Nat) (B κ r P : ℝ) (hn : 2 ≤ n) (hB : 0 < B) (hκ : 0 < κ) (hr : 0 < r) :
    ∃ u0 > 0, ∀ u ≤ u0, ∀ (R : Rounding u) (Ω : Type) (orc : OracleOptim Ω (Arr (Fl R)) (SingleCut (Fl R)) (Fl R))
      (I : Nat → Ω → Fl R → Prop) (S : ℝ → Set (Fin n → ℝ)) (Q : Arr (Fl R) → Fl R → Prop) (G η : ℝ) (m : Fin n → ℝ) (w : Ω) (e : Ell (Fl R)) (γ : Fl R)
      (opts : Options (Fl R)), Antitone S → 0 ≤ η →
      e.Shaped n → e.helper = EllCalc.new n → e.kappa.val = κ → (e.mq.flMat n).PosDef →
      (∀ i j, |e.mq.flMat n i j| ≤ B) → norm2 m ≤ P → ball m r ⊆ ellipsoid (e.mq.flMat n) κ (e.xc.flVec n) → I 0 w γ →
      FlDriftOptim n orc I S Q G η (P + 2 * √(2 ^ N * κ * (n * (2 * B)))) opts.maxIters → opts.tolerance.val ≤ r ^ 2 * G ^ 2 / 8 →
      2 * ((n : ℝ) + 1) * Real.log (4 ^ n * (κ • e.mq.flMat n).det / (r ^ 2) ^ n) < N → N ≤ opts.maxIters →
      ∃ xb k γ' w' e', cuttingPlaneOptim orc Ell.space w e γ opts = .ok ((xb, k), γ', w', e') ∧
        γ.val ≤ γ'.val + opts.maxIters * η ∧ (xb = none ∧ γ' = γ ∨ ∃ x, xb = some x ∧ x.IsVecShape n ∧ Q x γ') ∧
        ¬ ball m r ⊆ S (γ'.val + opts.maxIters * η) := by
  obtain ⟨u0, h0, hplan⟩ := Plan.standard_ok n N B κ r P hn hB hκ hr
  refine ⟨u0, h0, fun u hu R Ω orc I S Q G η m w e γ opts hS hη he hh hek hM hEB hmP hE hw hor htol hN hit => ?_⟩
  subst hek
  obtain ⟨hp, hfar, ht2, hdep⟩ := hplan u R.unit_nonneg hu
  have hdet : 0 < (e.kappa.val • e.mq.flMat n).det := (hM.smul hκ).det_pos
  have ht1 := hp.infl
  have hlog : Real.log (((Plan.standard n N B e.kappa.val r P).t ^ 2) ^ n * (e.kappa.val • e.mq.flMat n).det / (r ^ 2) ^ n) ≤
      Real.log (4 ^ n * (e.kappa.val • e.mq.flMat n).det / (r ^ 2) ^ n) :=
    Real.log_le_log (by positivity) (div_le_div_of_nonneg_right (mul_le_mul_of_nonneg_right
      (pow_le_pow_left₀ (by positivity) (by nlinarith) _) hdet.le) (by positivity))
  obtain ⟨xb, k, γ', w', e', h1, h3, h4, h2⟩ := optim_fl_drift (p := Plan.standard n N B e.kappa.val r P)
    (D := (e.kappa.val • e.mq.flMat n).det) (m := m) orc I S hS Q G η hη opts.maxIters
    (Plan.Basics.of_ball hn hM hEB hκ hr hmP hE) hp hmP (by
      intro i hi w x γ hI hs
      obtain ⟨g, β, sh, γ', w', a1, a2, a3, a4, b1, b2, a5⟩ := hor i hi w x γ hI hs
      exact ⟨g, β, sh, γ', w', a1, a2, a3, a4, b1, b2, fun hx => a5 (hx.trans hfar)⟩) hdep opts.tolerance (by
      refine htol.trans ?_
      have : 0 ≤ r ^ 2 * G ^ 2 := by positivity
      exact div_le_div_of_nonneg_left this (by positivity) (by nlinarith)) (by
      refine lt_of_le_of_lt hlog ?_
      show _ < (N : ℝ) * (1 / (2 * ((n : ℝ) + 1)))
      rw [mul_one_div, lt_div_iff₀ (by positivity)]
      linarith) opts.maxIters 0 none w e γ (by omega) hw he
  exact ⟨xb, k, γ', w', e', h1, h3, h4, h2 (Nat.zero_le _) (by rw [zero_add]; exact hit) ⟨he, hn, hh, hκ, hM, ⟨1, one_pos,
    by simpa [Plan.standard] using hEB, by simp [Plan.standard], by simp [Plan.standard]⟩,
    by simpa [Plan.inflated, Plan.standard] using hE, by simp⟩⟩

end Ellalgo
