import Verif.Lib.SlabCore

/-! One cut with an optional upper plane in rounded arithmetic, with or without `no_defer_trick`. -/

namespace Ellalgo
open Matrix
open scoped ComplexOrder
variable {u : ℝ} {R : Rounding u} {n : Nat}

theorem Ell.updateCore_congr {α : Type} [Scalar α] {e : Ell α} {grad : Arr α} (he : e.Shaped n) (hg : grad.IsVecShape n) (hn : 0 < n)
    {s1 s2 : α → CutStatus × Triple α} (h : s1 (e.kappa * Ell.om n e.mq.mat grad.vec) = s2 (e.kappa * Ell.om n e.mq.mat grad.vec)) :
    e.updateCore grad s1 = e.updateCore grad s2 := by
  obtain ⟨gT, h1, hgT⟩ := dotMv_spec he.1.isMat hg.isVec hn
  have hgT' : IsVec gT n (Ell.gt n e.mq.mat grad.vec) := hgT
  have hdot : grad.dot gT = .ok (Ell.om n e.mq.mat grad.vec) := dot_spec hg.isVec hgT'
  unfold Ell.updateCore
  simp only [h1, Res.ok_bind, hdot, h]

/-- the state after an update with any setting of the switch -/
theorem Ell.update_close {T : Type} [CutType T (Fl R)] (e : Ell (Fl R)) (kd : UpdateKind) (cut : Arr (Fl R) × T) {e0 : Ell (Fl R)}
    (h : Ell.space.update kd { e with noDeferTrick := false } cut = .ok (.success, e0)) (hs : e0.Shaped n) (hκ : 0 < e0.kappa.val)
    (hsym : (e0.mq.flMat n).IsSymm) :
    ∃ e' c, Ell.space.update kd e cut = .ok (.success, e') ∧ 0 < c ∧
      c * e'.kappa.val = e0.kappa.val ∧ e'.Shaped n ∧ e'.helper = e0.helper ∧ e'.tsq = e0.tsq ∧ e'.xc = e0.xc ∧ (e'.mq.flMat n).IsSymm ∧
      ∀ i j, |e'.mq.flMat n i j - c * e0.mq.flMat n i j| ≤ u * (c * |e0.mq.flMat n i j|) := by
  have h0 := R.unit_nonneg
  have hup := Ell.update_noDefer e kd cut h
  cases hd : e.noDeferTrick with
  | false =>
    rw [hd] at hup
    simp only [Bool.false_eq_true, if_false] at hup
    refine ⟨e0, 1, hup, one_pos, one_mul _, hs, rfl, rfl, rfl, hsym, fun i j => ?_⟩
    rw [one_mul, sub_self, abs_zero]
    positivity
  | true =>
    rw [hd] at hup
    simp only [if_true] at hup
    have hm : IsMat (e0.mq.smul e0.kappa) n n (fun i j => e0.mq.mat i j * e0.kappa) := hs.1.isMat.map _
    have hval : ∀ i j : Fin n, (e0.mq.smul e0.kappa).flMat n i j = R.rnd (e0.mq.flMat n i j * e0.kappa.val) := fun i j => by
      show ((e0.mq.smul e0.kappa).mat i j).val = _
      rw [hm.mat i.2 j.2]
      rfl
    refine ⟨_, e0.kappa.val, hup, hκ, mul_one _, ⟨hm.shape, hs.2⟩, rfl, rfl, rfl, ?_, fun i j => ?_⟩
    · ext i j
      show (e0.mq.smul e0.kappa).flMat n j i = (e0.mq.smul e0.kappa).flMat n i j
      rw [hval, hval, hsym.apply i j]
    · show |(e0.mq.smul e0.kappa).flMat n i j - _| ≤ _
      rw [hval, mul_comm (e0.kappa.val)]
      refine (R.err _).trans (le_of_eq ?_)
      rw [abs_mul, abs_of_pos hκ, mul_comm |_|]

theorem slab_small2 {l H P w ε h : ℝ} (hn : 2 ≤ n) (hl : 0 < l) (hlH : l ≤ H) (hP : 0 ≤ P) (hw0 : 0 < w) (hh : 0 ≤ h)
    (hsm : h * slabL n l H P w ≤ ε * (w / 2)) : 6 * (n * (slabE n l H w * h / w) * (2 + 3 / w ^ 4)) ≤ ε := by
  have hn2 : (2 : ℝ) ≤ n := by exact_mod_cast hn
  have hH : 0 < H := by linarith
  have hF : 0 ≤ slabF n l H P w := by unfold slabF; positivity
  have hE : 0 ≤ slabE n l H w := by unfold slabE; positivity
  have h1 : h * (n * (3 * slabE n l H w * (2 + 3 / w ^ 4))) ≤ ε * (w / 2) := by
    refine le_trans (mul_le_mul_of_nonneg_left ?_ hh) hsm
    unfold slabL
    refine mul_le_mul_of_nonneg_left ?_ (by linarith)
    have a : 0 ≤ 6 * slabF n l H P w / w ^ 3 := by positivity
    have b : 0 ≤ 3 / w ^ 4 := by positivity
    nlinarith [sq_nonneg (slabF n l H P w)]
  have e1 : 6 * (n * (slabE n l H w * h / w) * (2 + 3 / w ^ 4)) = h * (n * (3 * slabE n l H w * (2 + 3 / w ^ 4))) / (w / 2) := by
    field_simp
    ring
  rw [e1, div_le_iff₀ (by linarith)]
  exact h1

/-- from the update without the switch to any setting -/
theorem cut_any_flag {T : Type} [CutType T (Fl R)] {l' H ε ε' A : ℝ} {g : Fin n → ℝ} {S : Set (Fin n → ℝ)} (hu : u ≤ 1 / 64) {e : Ell (Fl R)}
    (hD : 0 ≤ (e.kappa.val • e.mq.flMat n).det) (kd : UpdateKind) (cut : Arr (Fl R) × T) {e0 : Ell (Fl R)}
    (h : Ell.space.update kd { e with noDeferTrick := false } cut = .ok (.success, e0)) (hs : e0.Shaped n)
    (hhe : e0.helper = EllCalc.new n) (hκ : 0 < e0.kappa.val) (hsym : (e0.mq.flMat n).IsSymm) (hl : 0 < l') (hH : 0 < H)
    (hlow : ∀ v : Fin n → ℝ, l' * (v ⬝ᵥ v) ≤ e0.kappa.val * (v ⬝ᵥ (e0.mq.flMat n *ᵥ v)))
    (hent : ∀ i j, e0.kappa.val * |e0.mq.flMat n i j| ≤ 4 * H)
    (hvol : (e0.kappa.val • e0.mq.flMat n).det ≤ (1 + ε) * (Real.exp (-(1 / ((n : ℝ) + 1))) * (e.kappa.val • e.mq.flMat n).det))
    (htsq : e.kappa.val * (g ⬝ᵥ (e.mq.flMat n *ᵥ g)) / 2 ≤ e0.tsq.val)
    (hkeep : ∀ a, 0 ≤ a → a ≤ 1 → ∀ x ∈ S, x ∈ ellipsoid (e.mq.flMat n) ((1 + a) * e.kappa.val) (e.xc.flVec n) →
      x ∈ ellipsoid (e0.mq.flMat n) ((1 + A * a + ε) * e0.kappa.val) (e0.xc.flVec n))
    (hA : 0 ≤ A) (hε0 : 0 ≤ ε) (hε1 : ε ≤ 1) (hε'0 : 0 ≤ ε') (hε'1 : ε' < 1) (hε' : u * (4 * H) * n ≤ ε' * l') (hn' : 2 * (n * ε') ≤ ε)
    (hA' : ε' * (2 + A) ≤ ε) :
    ∃ e', Ell.space.update kd e cut = .ok (.success, e') ∧ e.CutTo n H (3 * ε) A g S e' := by
  have h0 := R.unit_nonneg
  obtain ⟨e', c, hup, hc, hcκ, hsh, hhe', hts, hxc, hsy, hcl⟩ := Ell.update_close e kd cut h hs hκ hsym
  have hκ' : 0 < e'.kappa.val := by
    rw [← hcκ] at hκ
    exact (mul_pos_iff_of_pos_left hc).1 hκ
  obtain ⟨p1, p2, p3, p4, p5⟩ := scaled_perturb (u := u) (ε := ε') hsym hsy (div_pos hl hκ)
    (fun v => by rw [div_mul_eq_mul_div, div_le_iff₀ hκ]; linarith [hlow v])
    (B := 4 * H / e0.kappa.val) (fun i j => by rw [le_div_iff₀ hκ]; linarith [hent i j]) (by positivity) hc h0 hcl hε'0 hε'1 (by
      have := div_le_div_of_nonneg_right hε' hκ.le
      calc u * (4 * H / e0.kappa.val) * n = u * (4 * H) * n / e0.kappa.val := by ring
        _ ≤ _ := this
        _ = _ := by ring)
  refine ⟨e', hup, ⟨hsh, hhe'.trans hhe, hκ', p3, fun i j => ?_, ?_, hts ▸ htsq, ?_⟩⟩
  · have a := mul_le_mul_of_nonneg_left (p2 i j) hκ'.le
    refine a.trans ?_
    have e1 : e'.kappa.val * (c * ((1 + u) * (4 * H / e0.kappa.val))) = (1 + u) * (4 * H) := by
      rw [← hcκ]; field_simp
    rw [e1]
    have := mul_le_mul_of_nonneg_right hu hH.le
    linarith
  · have a1 : (e'.kappa.val • e'.mq.flMat n).det ≤ (1 + ε') ^ n * (e0.kappa.val • e0.mq.flMat n).det := by
      rw [det_smul, det_smul, Fintype.card_fin, ← hcκ, mul_pow]
      rw [det_smul, Fintype.card_fin] at p4
      have := mul_le_mul_of_nonneg_left p4 (pow_nonneg hκ'.le n)
      linarith
    have a2 : (1 + ε') ^ n ≤ 1 + ε := by
      have b1 : 1 + ε' ≤ Real.exp ε' := by have := Real.add_one_le_exp ε'; linarith
      refine (pow_le_pow_left₀ (by linarith) b1 n).trans ?_
      rw [← Real.exp_nat_mul]
      exact exp_le_of_small hn' (by linarith) (by positivity)
    have hE : 0 ≤ Real.exp (-(1 / ((n : ℝ) + 1))) * (e.kappa.val • e.mq.flMat n).det := mul_nonneg (Real.exp_pos _).le hD
    have a3 := mul_le_mul_of_nonneg_left hvol (by positivity : 0 ≤ (1 + ε') ^ n)
    have a4 := mul_le_mul_of_nonneg_right a2 (mul_nonneg (by linarith : 0 ≤ 1 + ε) hE)
    refine a1.trans (a3.trans (a4.trans ?_))
    rw [← mul_assoc]
    exact mul_le_mul_of_nonneg_right (by nlinarith) hE
  · intro a ha0 ha1 x hx hxe
    have b := hkeep a ha0 ha1 x hx hxe
    rw [← hcκ, mul_comm c, ← mul_assoc] at b
    rw [hxc]
    have b2 := p5 _ _ x b
    refine le_trans (show (x - _) ⬝ᵥ (_ *ᵥ (x - _)) ≤ _ from b2) ?_
    rw [div_le_iff₀ (by linarith)]
    have c1 : 1 + A * a + ε ≤ (1 + A * a + 3 * ε) * (1 - ε') := by
      have d1 : ε' * (1 + A * a + 3 * ε) ≤ ε' * (2 * (2 + A)) := by
        refine mul_le_mul_of_nonneg_left ?_ hε'0
        have := mul_le_mul_of_nonneg_left ha1 hA
        linarith
      linarith
    have := mul_le_mul_of_nonneg_right c1 hκ'.le
    linarith

/-- the parallel cut with any setting of the switch -/
theorem slab_any {l H P w ε h : ℝ} (hu : u ≤ 1 / 64) {e : Ell (Fl R)} (he : e.Held n l H P) {g : Arr (Fl R)}
    (hg : g.IsVecShape n) (hne : g.flVec n ≠ 0) (kd : UpdateKind) {β0 β1 : Fl R} {b0 : ℝ}
    (hkd : kd = .central ∧ b0 = 0 ∨ (kd = .bias ∨ kd = .q) ∧ b0 = β0.val) (hb0 : 0 ≤ b0)
    (hw0 : 0 < w) (hw1 : w ≤ 1) (hb : b0 + 2 * w * √(e.kappa.val * (g.flVec n ⬝ᵥ (e.mq.flMat n *ᵥ g.flVec n))) ≤ β1.val)
    (hbr : (β1 * β1).val < (e.kappa * Ell.om n e.mq.mat g.vec).val) (hθ : quadErr u n H l ≤ h) (hv : 32 * (u * (n : ℝ) ^ 2) / w ^ 2 ≤ h)
    (hε0 : 0 ≤ ε) (hε1 : ε ≤ 1) (hsm : h * slabL n l H P w ≤ ε * (w / 2)) :
    ∃ e', Ell.space.update kd e (g, ParallelCut.mk β0 (some β1)) = .ok (.success, e') ∧
      e.CutTo n H (3 * ε) (3 / w ^ 4) (g.flVec n) (slab (g.flVec n) (e.xc.flVec n) b0 (some β1.val)) e' := by
  have h0 := R.unit_nonneg
  have hn := he.dim
  have hn2 : (2 : ℝ) ≤ n := by exact_mod_cast hn
  have hl := he.low_pos
  have hlH := he.low_le
  have hH : 0 < H := by linarith
  have hP := (norm2_nonneg _).trans he.centre
  have h12 := quadErr_ge h0 hn hl hlH
  have hh0 : 0 ≤ h := by linarith
  obtain ⟨e0, p1, p2, p3, p4, p5, p6, p7, p8, p9, p10⟩ := slab_core (e := { e with noDeferTrick := false }) hu
    ⟨he.shaped, hn, he.helper, he.kappa, he.symm, hl, he.lower, he.entries, he.centre⟩ rfl hg hne kd hkd hb0 hw0 hw1 hb hbr hθ hv
    hε0 hε1 hsm
  have hE : 0 ≤ slabE n l H w := by unfold slabE; positivity
  have hs2 := slab_small2 hn hl hlH hP hw0 hh0 hsm
  obtain ⟨y, hy⟩ : ∃ y, y = slabE n l H w * h / w := ⟨_, rfl⟩
  obtain ⟨A, hA⟩ : ∃ A, A = 3 / w ^ 4 := ⟨_, rfl⟩
  have hA0 : 0 < A := by rw [hA]; positivity
  rw [← hy, ← hA] at hs2
  rw [← hA] at p10 ⊢
  have hy0 : 0 ≤ y := by rw [hy]; positivity
  have hny : 2 * y ≤ n * y := mul_le_mul_of_nonneg_right hn2 hy0
  have q0 : 6 * (2 * y * (2 + A)) ≤ ε := by
    have := mul_le_mul_of_nonneg_right hny (by linarith : 0 ≤ 2 + A)
    linarith
  have q1 : 6 * (n * y * 2) ≤ ε := by
    have : 0 ≤ n * y * A := by positivity
    linarith
  refine cut_any_flag (ε' := y) hu (he.posDef.smul he.kappa).det_pos.le kd _ p1 p2 p3 p4 p5 (l' := w ^ 3 * l / (96 * n)) (by positivity) hH p6 p7 p8
    p9 p10 hA0.le hε0 hε1 hy0 ?_ ?_ (by linarith) (by nlinarith)
  · linarith
  · have e1 : y * (w ^ 3 * l / (96 * n)) = 26 * (h * (n * H)) := by
      rw [hy]; unfold slabE; field_simp; ring
    rw [e1]
    have : u * (n * H) ≤ h * (n * H) := mul_le_mul_of_nonneg_right (by linarith) (by positivity)
    have : 0 ≤ u * (n * H) := by positivity
    linarith

end Ellalgo
