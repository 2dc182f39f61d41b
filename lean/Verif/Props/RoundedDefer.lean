import Verif.Lib.AnyCut

/-! C103: one cut in rounded arithmetic, with or without `no_defer_trick`. -/

namespace Ellalgo
open Matrix
open scoped ComplexOrder

/-- with the switch on, an update does the same as without it and then multiplies the size into the matrix -/
theorem Ell.update_noDefer {α T : Type} [Scalar α] [CutType T α] (e : Ell α) (kd : UpdateKind) (cut : Arr α × T) {e0 : Ell α}
    (h : Ell.space.update kd { e with noDeferTrick := false } cut = .ok (.success, e0)) :
    Ell.space.update kd e cut = .ok (.success,
      if e.noDeferTrick then { e0 with noDeferTrick := true, mq := e0.mq.smul e0.kappa, kappa := 1 } else e0) := by
  rw [Ell.update_eq] at h ⊢
  unfold Ell.updateCore at h ⊢
  simp only [Res.bind_eq_ok] at h ⊢
  obtain ⟨gt, h1, om, h2, h3⟩ := h
  refine ⟨gt, h1, om, h2, ?_⟩
  obtain ⟨⟨st, ρ, σ, δ⟩, hs⟩ : ∃ s, s = CutType.call kd cut.2 e.helper (e.kappa * om) := ⟨_, rfl⟩
  rw [← hs] at h3 ⊢
  simp only at h3 ⊢
  split at h3
  · simp only [Res.ok.injEq, Prod.mk.injEq] at h3
    rename_i hne
    rw [h3.1] at hne
    simp at hne
  · rename_i hne
    rw [if_neg hne]
    simp only [Res.bind_eq_ok, Bool.false_eq_true, if_false] at h3 ⊢
    obtain ⟨xc, h4, mq, h5, h6⟩ := h3
    refine ⟨xc, h4, mq, h5, ?_⟩
    simp only [Res.ok.injEq, Prod.mk.injEq] at h6
    obtain ⟨rfl, rfl⟩ := h6
    cases hd : e.noDeferTrick <;> simp [hd]
    
variable {u : ℝ} {R : Rounding u} {n : Nat}

/-- a matrix that is off by a relative error of `u` from `c` times another one -/
theorem scaled_perturb {M N : Matrix (Fin n) (Fin n) ℝ} {lam B c ε : ℝ} (hM : M.IsSymm) (hN : N.IsSymm) (hl : 0 < lam)
    (hlam : ∀ v : Fin n → ℝ, lam * (v ⬝ᵥ v) ≤ v ⬝ᵥ (M *ᵥ v)) (hB : ∀ i j, |M i j| ≤ B) (hB0 : 0 ≤ B) (hc : 0 < c) (h0 : 0 ≤ u)
    (h : ∀ i j, |N i j - c * M i j| ≤ u * (c * |M i j|)) (hε0 : 0 ≤ ε) (hε1 : ε < 1) (hε : u * B * n ≤ ε * lam) :
    (∀ v : Fin n → ℝ, c * ((1 - ε) * lam) * (v ⬝ᵥ v) ≤ v ⬝ᵥ (N *ᵥ v)) ∧ (∀ i j, |N i j| ≤ c * ((1 + u) * B)) ∧ N.PosDef ∧
      N.det ≤ (1 + ε) ^ n * (c • M).det ∧
      ∀ (K : ℝ) (a x : Fin n → ℝ), x ∈ ellipsoid M (K * c) a → x ∈ ellipsoid N (K / (1 - ε)) a := by
  have hpM := posDef_of_lower hM hl hlam
  have hcM : (c • M).PosDef := hpM.smul hc
  have hq : ∀ v : Fin n → ℝ, v ⬝ᵥ ((c • M) *ᵥ v) = c * (v ⬝ᵥ (M *ᵥ v)) := fun v => by
    rw [smul_mulVec, dotProduct_smul, smul_eq_mul]
  have hlc : ∀ v : Fin n → ℝ, c * lam * (v ⬝ᵥ v) ≤ v ⬝ᵥ ((c • M) *ᵥ v) := fun v => by
    rw [hq, mul_assoc]
    exact mul_le_mul_of_nonneg_left (hlam v) hc.le
  have hd : ∀ i j, |N i j - (c • M) i j| ≤ u * (c * B) := fun i j =>
    (h i j).trans (mul_le_mul_of_nonneg_left (mul_le_mul_of_nonneg_left (hB i j) hc.le) h0)
  have hε' : u * (c * B) * n ≤ ε * (c * lam) := by nlinarith
  have h1 := perturb_quad hlc (by positivity) hε0 hd hε'
  have h2 := perturb_quad_upper hlc (by positivity) hd hε' hε0
  have h1e : 0 < 1 - ε := by linarith
  have hlow : ∀ v : Fin n → ℝ, c * ((1 - ε) * lam) * (v ⬝ᵥ v) ≤ v ⬝ᵥ (N *ᵥ v) := fun v => by
    have := mul_le_mul_of_nonneg_left (hlc v) h1e.le
    have := h1 v
    linarith
  have hpN := posDef_of_lower hN (by positivity) hlow
  refine ⟨hlow, fun i j => ?_, hpN, det_perturb hcM hpN h2, fun K a x hx => ?_⟩
  · have t := abs_add_le (N i j - c * M i j) (c * M i j)
    rw [sub_add_cancel, abs_mul, abs_of_pos hc] at t
    have t2 := mul_le_mul_of_nonneg_left (mul_le_mul_of_nonneg_left (hB i j) hc.le) h0
    have t3 := mul_le_mul_of_nonneg_left (hB i j) hc.le
    linarith [h i j]
  · show (x - a) ⬝ᵥ (N⁻¹ *ᵥ (x - a)) ≤ _
    have hx' : (x - a) ⬝ᵥ (M⁻¹ *ᵥ (x - a)) ≤ K * c := hx
    refine (inv_quad_anti hpM hpN (mul_pos h1e hc) (fun v => by
      have := h1 v
      rw [hq] at this
      linarith) _).trans ?_
    rw [div_le_div_iff₀ (by positivity) h1e]
    have := mul_le_mul_of_nonneg_right hx' h1e.le
    linarith

theorem deepInflation_loss {θ η η0 ε ν γ t : ℝ} (hu1 : u < 1) (hθ : 3 * θ / γ < 1) (hη : η < 1) (hε1 : ε < 1) (hη0 : η0 < 1)
    (h : 1 - η ≤ (1 - η0) * (1 - ε)) :
    deepInflation u n θ η0 ν γ t ^ 2 / (1 - ε) ≤ deepInflation u n θ η ν γ t ^ 2 := by
  have hp : 0 < (1 - u) ^ 13 := pow_sub_nonneg hu1 13
  have hq : 0 < (1 - 3 * θ / γ) * (1 - u) ^ 13 := mul_pos (by linarith) hp
  obtain ⟨q, hqd⟩ : ∃ q, q = (1 - 3 * θ / γ) * (1 - u) ^ 13 := ⟨_, rfl⟩
  unfold deepInflation
  rw [← hqd] at hq ⊢
  have p1 : 0 < (1 - η0) * q := mul_pos (by linarith) hq
  have p2 : 0 < (1 - η) * q := mul_pos (by linarith) hq
  rw [div_pow, div_pow, Real.sq_sqrt p1.le, Real.sq_sqrt p2.le, div_div]
  refine div_le_div_of_nonneg_left (sq_nonneg _) p2 ?_
  have := mul_le_mul_of_nonneg_right h hq.le
  linarith

theorem defer_consts {θ η γ x : ℝ} (h0 : 0 ≤ u) (hγ0 : 0 < γ) (hx : 0 ≤ x) (h12 : 12 * u ≤ θ) (hη : η = 192 * θ * x / γ)
    (hη2 : 97 / 96 * η ≤ 1 / 2) : ∃ ε, ε = 16 * u * x / γ ∧ 0 ≤ ε ∧ ε < 1 ∧ 1 - 97 / 96 * η ≤ (1 - η) * (1 - ε) ∧
      (1 + η) * (1 + ε) ≤ 1 + 97 / 96 * η := by
  refine ⟨_, rfl, by positivity, ?_⟩
  have h1 : 144 * (16 * u * x / γ) ≤ η := by
    rw [hη, ← mul_div_assoc]
    refine div_le_div_of_nonneg_right ?_ hγ0.le
    have := mul_le_mul_of_nonneg_right h12 hx
    nlinarith
  have h2 : 0 ≤ 16 * u * x / γ := by positivity
  obtain ⟨ε, hε⟩ : ∃ ε, ε = 16 * u * x / γ := ⟨_, rfl⟩
  rw [← hε] at h1 h2 ⊢
  refine ⟨by linarith, by nlinarith, ?_⟩
  have : η * ε ≤ 1 / 2 * ε := mul_le_mul_of_nonneg_right (by linarith) h2
  nlinarith

/-- **C103** (with or without `no_defer_trick`)  One cut of any kind and depth `b` (`b = 0` for a central cut).  With the switch on, the
update also multiplies the size into the matrix, with one more rounding per entry; the new pair `κ'`, `M'` therefore satisfies the bounds
after moving a factor `c` from the matrix to the size.  `det κM`, `tsq` and the inflation do not depend on this factor. -/
theorem C103_step_any_flag {lam B γ : ℝ} (hu : u ≤ 1 / 64) (e : Ell (Fl R)) (he : Ell.Conditioned n lam B { e with noDeferTrick := false })
    (g : Arr (Fl R)) (hg : g.IsVecShape n) (hne : g.flVec n ≠ 0) (kd : UpdateKind) (β : Fl R) (b : ℝ)
    (hkd : kd = .central ∧ b = 0 ∨ (kd = .bias ∨ kd = .q) ∧ b = β.val) (hβ : 0 ≤ b)
    (hγ0 : 0 < γ) (hγ1 : γ ≤ 1)
    (hdeep : b ≤ (1 - γ) * √(e.kappa.val * (g.flVec n ⬝ᵥ (e.mq.flMat n *ᵥ g.flVec n))))
    (hη : 97 / 96 * deepLoss u n B lam γ ≤ 1 / 2) :
    ∃ e' c, Ell.space.update kd e (g, SingleCut.mk β) = .ok (.success, e') ∧ 0 < c ∧
      Ell.Conditioned n (c * ((1 - 97 / 96 * deepLoss u n B lam γ) * (γ / 6) * lam)) (c * ((1 + 33 * quadErr u n B lam) * B))
        { e' with noDeferTrick := false } ∧
      (γ / 2 * e.kappa.val ≤ c * e'.kappa.val ∧
        (1 - u) ^ 13 * (c * e'.kappa.val) ≤ (1 + 3 * quadErr u n B lam / γ) * (e.kappa.val * ((n : ℝ) * n / (n * n - 1)))) ∧
      (1 - u) ^ (13 * n) * (e'.kappa.val • e'.mq.flMat n).det ≤
        ((1 + 3 * quadErr u n B lam / γ) * (1 + 97 / 96 * deepLoss u n B lam γ)) ^ n *
        (Real.exp (-(1 / ((n : ℝ) + 1))) * (e.kappa.val • e.mq.flMat n).det) ∧
      e.kappa.val * (g.flVec n ⬝ᵥ (e.mq.flMat n *ᵥ g.flVec n)) / 2 ≤ e'.tsq.val ∧
      ∀ t, 1 ≤ t → ∀ x ∈ ellipsoid (e.mq.flMat n) (t ^ 2 * e.kappa.val) (e.xc.flVec n),
        g.flVec n ⬝ᵥ (x - e.xc.flVec n) + b ≤ 0 →
        x ∈ ellipsoid (e'.mq.flMat n)
          (deepInflation u n (quadErr u n B lam) (97 / 96 * deepLoss u n B lam γ)
            (deepDrift u n B lam e.kappa.val (norm2 (e.xc.flVec n)) γ) γ t ^ 2 * e'.kappa.val)
          (e'.xc.flVec n) := by
  have h0 := R.unit_nonneg
  have hu1 : u < 1 := by linarith
  have hn := he.dim
  have hn2 : (2 : ℝ) ≤ n := by exact_mod_cast hn
  have hl := he.lam_pos
  have hκ : 0 < e.kappa.val := he.kappa
  have hlB : lam ≤ B := lam_le_entry he.lower he.entries ⟨0, by omega⟩
  have hB0 : 0 < B := by linarith
  have hdl : 0 ≤ deepLoss u n B lam γ := by
    have := quadErr_ge h0 hn hl hlB
    have : 0 ≤ quadErr u n B lam := by linarith
    unfold deepLoss
    positivity
  have hη' : deepLoss u n B lam γ ≤ 1 / 2 := by linarith
  obtain ⟨hθ0, h12, hθ, hη0⟩ := deepLoss_small h0 hn hl hlB hγ0 hη'
  obtain ⟨e0, h1, h2, ⟨hk1, hk2, hk3⟩, h4, h5, h6⟩ := Ell.any_step hu { e with noDeferTrick := false } he g hg hne kd β b hkd hβ hγ0 hγ1 hdeep hη'
  have hx0 : 0 ≤ (n : ℝ) * (B / lam) := by positivity
  obtain ⟨ε, hεd, hε0, hε1, e1, e2⟩ := defer_consts (θ := quadErr u n B lam) (η := deepLoss u n B lam γ) h0 hγ0 hx0 h12 rfl hη
  -- the state after the update
  obtain ⟨e', c, hup, hc, hcκ, hsh, hhe, hts, hxc, hsy, hcl⟩ : ∃ e' c, Ell.space.update kd e (g, SingleCut.mk β) = .ok (.success, e') ∧ 0 < c ∧
      c * e'.kappa.val = e0.kappa.val ∧ e'.Shaped n ∧ e'.helper = e0.helper ∧ e'.tsq = e0.tsq ∧ e'.xc = e0.xc ∧ (e'.mq.flMat n).IsSymm ∧
      ∀ i j, |e'.mq.flMat n i j - c * e0.mq.flMat n i j| ≤ u * (c * |e0.mq.flMat n i j|) := by
    have hup := Ell.update_noDefer e kd (g, SingleCut.mk β) h1
    cases hd : e.noDeferTrick with
    | false =>
      rw [hd] at hup
      simp only [Bool.false_eq_true, if_false] at hup
      refine ⟨e0, 1, hup, one_pos, one_mul _, h2.shaped, rfl, rfl, rfl, h2.symm, fun i j => ?_⟩
      rw [one_mul, sub_self, abs_zero]
      positivity
    | true =>
      rw [hd] at hup
      simp only [if_true] at hup
      have hm : IsMat (e0.mq.smul e0.kappa) n n (fun i j => e0.mq.mat i j * e0.kappa) := h2.shaped.1.isMat.map _
      have hval : ∀ i j : Fin n, (e0.mq.smul e0.kappa).flMat n i j = R.rnd (e0.mq.flMat n i j * e0.kappa.val) := fun i j => by
        show ((e0.mq.smul e0.kappa).mat i j).val = _
        rw [hm.mat i.2 j.2]
        rfl
      refine ⟨_, e0.kappa.val, hup, h2.kappa, mul_one _, ⟨hm.shape, h2.shaped.2⟩, rfl, rfl, rfl, ?_, fun i j => ?_⟩
      · ext i j
        show (e0.mq.smul e0.kappa).flMat n j i = (e0.mq.smul e0.kappa).flMat n i j
        rw [hval, hval, h2.symm.apply i j]
      · show |(e0.mq.smul e0.kappa).flMat n i j - _| ≤ _
        rw [hval, mul_comm (e0.kappa.val)]
        refine (R.err _).trans (le_of_eq ?_)
        rw [abs_mul, abs_of_pos h2.kappa, mul_comm |_|]
  have hl0 : 0 < (1 - deepLoss u n B lam γ) * (γ / 6) * lam := h2.lam_pos
  have hq1 : 32 * quadErr u n B lam ≤ 1 / 3 := by linarith
  obtain ⟨p1, p2, p3, p4, p5⟩ := scaled_perturb (u := u) (ε := ε) h2.symm hsy hl0 h2.lower h2.entries (by positivity) hc h0 hcl hε0 hε1 (by
    have a1 : ε * lam = 16 * u * (n * B) / γ := by rw [hεd]; field_simp
    have a2 : ε * ((1 - deepLoss u n B lam γ) * (γ / 6) * lam) = (1 - deepLoss u n B lam γ) * (γ / 6) * (16 * u * (n * B) / γ) := by
      rw [← a1]; ring
    have a3 : (1 - deepLoss u n B lam γ) * (γ / 6) * (16 * u * (n * B) / γ) = (1 - deepLoss u n B lam γ) * (8 / 3) * (u * (n * B)) := by
      field_simp; ring
    rw [a2, a3]
    have a4 : 0 ≤ u * (n * B) := by positivity
    have a5 : (1 + 32 * quadErr u n B lam) * (u * (n * B)) ≤ 4 / 3 * (u * (n * B)) := mul_le_mul_of_nonneg_right (by linarith) a4
    have a6 : 4 / 3 * (u * (n * B)) ≤ (1 - deepLoss u n B lam γ) * (8 / 3) * (u * (n * B)) := mul_le_mul_of_nonneg_right (by linarith) a4
    linarith)
  have hκ' : 0 < e'.kappa.val := by
    have := h2.kappa
    rw [← hcκ] at this
    exact (mul_pos_iff_of_pos_left hc).1 this
  refine ⟨e', c, hup, hc, ⟨hsh, hn, hhe.trans h2.helper, rfl, hκ', hsy, ?_, ?_, ?_⟩, ⟨?_, ?_⟩, ?_, ?_, ?_⟩
  · have : 0 < 1 - 97 / 96 * deepLoss u n B lam γ := by linarith
    positivity
  · intro v
    refine le_trans (mul_le_mul_of_nonneg_right (mul_le_mul_of_nonneg_left ?_ hc.le) (dot_self_nonneg' v)) (p1 v)
    have : 0 ≤ γ / 6 * lam := by positivity
    have := mul_le_mul_of_nonneg_right e1 this
    linarith
  · intro i j
    refine (p2 i j).trans (mul_le_mul_of_nonneg_left ?_ hc.le)
    have : (1 + u) * (1 + 32 * quadErr u n B lam) ≤ 1 + 33 * quadErr u n B lam := by nlinarith
    have := mul_le_mul_of_nonneg_right this hB0.le
    linarith
  · rw [hcκ]; exact hk1
  · rw [hcκ]; exact hk3
  · have hq : 0 < (1 - u) ^ (13 * n) := pow_sub_nonneg hu1 _
    have a1 : (e'.kappa.val • e'.mq.flMat n).det ≤ (1 + ε) ^ n * (e0.kappa.val • e0.mq.flMat n).det := by
      rw [det_smul, det_smul, Fintype.card_fin, ← hcκ, mul_pow]
      rw [det_smul, Fintype.card_fin] at p4
      have := mul_le_mul_of_nonneg_left p4 (pow_nonneg hκ'.le n)
      linarith
    have a2 := mul_le_mul_of_nonneg_left a1 hq.le
    have a3 := mul_le_mul_of_nonneg_left h4 (by positivity : 0 ≤ (1 + ε) ^ n)
    have hD : 0 ≤ Real.exp (-(1 / ((n : ℝ) + 1))) * (e.kappa.val • e.mq.flMat n).det :=
      mul_nonneg (Real.exp_pos _).le ((posDef_of_lower he.symm hl he.lower).smul hκ).det_pos.le
    have hq0 : 0 ≤ 3 * quadErr u n B lam / γ := by positivity
    have a4 : (1 + ε) ^ n * ((1 + 3 * quadErr u n B lam / γ) * (1 + deepLoss u n B lam γ)) ^ n ≤
        ((1 + 3 * quadErr u n B lam / γ) * (1 + 97 / 96 * deepLoss u n B lam γ)) ^ n := by
      rw [← mul_pow]
      refine pow_le_pow_left₀ (by positivity) ?_ n
      have := mul_le_mul_of_nonneg_left e2 (by linarith : 0 ≤ 1 + 3 * quadErr u n B lam / γ)
      linarith
    have a5 := mul_le_mul_of_nonneg_right a4 hD
    refine le_trans (a2.trans (le_of_eq (by ring))) (a3.trans (le_trans (le_of_eq (by ring)) a5))
  · rw [hts]; exact h5
  · intro t ht x hx hcut
    have a := h6 t ht x hx hcut
    rw [hxc]
    rw [← hcκ, mul_comm c, ← mul_assoc] at a
    have b := p5 _ _ x a
    refine le_trans (show (x - _) ⬝ᵥ (_ *ᵥ (x - _)) ≤ _ from b) ?_
    rw [mul_div_right_comm]
    refine mul_le_mul_of_nonneg_right (deepInflation_loss hu1 ?_ (by linarith) hε1 (by linarith) e1) hκ'.le
    rw [div_lt_one hγ0]
    linarith

end Ellalgo
