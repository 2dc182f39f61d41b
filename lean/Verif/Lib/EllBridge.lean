import Verif.Lib.Strategy

/-! `Ell.updateCore` at `ℝ` in matrix terms. -/

namespace Ellalgo
open Matrix
open scoped ComplexOrder

variable {n : Nat} {e : Ell ℝ} {grad : Arr ℝ}

theorem gt_eq (e : Ell ℝ) (grad : Arr ℝ) (i : Fin n) :
    Ell.gt n e.mq.mat grad.vec i = (e.M n *ᵥ grad.toVec n) i := by
  rw [Ell.gt, sumTo_fin]; rfl

theorem om_eq (e : Ell ℝ) (grad : Arr ℝ) :
    Ell.om n e.mq.mat grad.vec = grad.toVec n ⬝ᵥ (e.M n *ᵥ grad.toVec n) := by
  rw [Ell.om, sumTo_fin]
  simp only [gt_eq]
  rfl

theorem toMat_symm {a : Arr ℝ} (h : (a.toMat n n).IsSymm) {i j : Nat} (hi : i < n) (hj : j < n) :
    a.mat i j = a.mat j i := by
  have := congrFun (congrFun h.eq ⟨j, hj⟩) ⟨i, hi⟩
  simpa [Arr.toMat, transpose_apply] using this

theorem Ell.updateCore_real (he : e.Shaped n) (hsym : (e.M n).IsSymm) (hg : grad.IsVecShape n)
    (hn : 0 < n) (strategy : ℝ → CutStatus × Triple ℝ) {st : CutStatus} {ρ σ δ : ℝ}
    (hs : strategy (e.tsqOf n (grad.toVec n)) = (st, ρ, σ, δ)) :
    (st ≠ .success ∧ e.updateCore grad strategy = .ok (st, { e with tsq := e.tsqOf n (grad.toVec n) })) ∨
    (st = .success ∧ ∃ e', e.updateCore grad strategy = .ok (.success, e') ∧ e'.Shaped n ∧
      e'.M n = (if e.noDeferTrick then (e.kappa * δ) • cutM (e.M n) (grad.toVec n) σ
        else cutM (e.M n) (grad.toVec n) σ) ∧
      e'.c n = e.c n - (ρ / (grad.toVec n ⬝ᵥ (e.M n *ᵥ grad.toVec n))) • (e.M n *ᵥ grad.toVec n) ∧
      e'.kappa = (if e.noDeferTrick then 1 else e.kappa * δ) ∧ e'.helper = e.helper ∧
      e'.noDeferTrick = e.noDeferTrick ∧ e'.tsq = e.tsqOf n (grad.toVec n)) := by
  have ht : e.tsqOf n (grad.toVec n) = e.kappa * Ell.om n e.mq.mat grad.vec := by rw [om_eq]; rfl
  rw [ht] at hs ⊢
  rcases Ell.updateCore_spec he.1.isMat he.2.isVec hg.isVec hn strategy hs with
    h | ⟨h1, e', h2, h3, h4, h5, h6, h7, h8⟩
  · exact Or.inl h
  · refine Or.inr ⟨h1, e', h2, ⟨h3.shape, h4.shape⟩, ?_, ?_, h5, h6, h7, h8⟩
    · have key : ∀ i j : Fin n, newMq e.mq.mat (gt n e.mq.mat grad.vec) (σ / om n e.mq.mat grad.vec) i j =
          cutM (e.M n) (grad.toVec n) σ i j := by
        intro i j
        have e1 : cutM (e.M n) (grad.toVec n) σ i j = e.mq.mat i j -
            σ / om n e.mq.mat grad.vec * ((e.M n *ᵥ grad.toVec n) i * (e.M n *ᵥ grad.toVec n) j) := by
          rw [om_eq]; rfl
        rw [e1, newMq, gt_eq, gt_eq]
        split
        · ring
        · rw [toMat_symm hsym j.2 i.2]; ring
      rw [Ell.M, h3.toMat]
      ext i j
      simp only [of_apply, Ell.deferM]
      rw [key]
      split
      · rw [Matrix.smul_apply, smul_eq_mul, mul_comm]
      · rfl
    · rw [Ell.c, h4.toVec]
      funext i
      rw [om_eq, gt_eq]
      rfl

theorem ellipsoid_smul {M : Matrix (Fin n) (Fin n) ℝ} (hM : M.PosDef) {a : ℝ} (ha : 0 < a) (κ : ℝ)
    (c : Fin n → ℝ) : ellipsoid (a • M) κ c = ellipsoid M (a * κ) c := by
  ext x
  unfold ellipsoid
  have : (a • M)⁻¹ = a⁻¹ • M⁻¹ := by
    apply inv_eq_left_inv
    rw [smul_mul_assoc, mul_smul_comm, smul_smul, inv_mul_cancel₀ ha.ne', one_smul,
      nonsing_inv_mul _ (Ne.isUnit (det_ne hM))]
  simp only [Set.mem_ofPred_eq, this, smul_mulVec, dotProduct_smul, smul_eq_mul]
  rw [inv_mul_le_iff₀ ha]

/-- state after a successful update, `no_defer_trick` on or off -/
structure AfterCut (n : Nat) (e e' : Ell ℝ) (g : Fin n → ℝ) (ρ σ δ : ℝ) : Prop where
  shaped : e'.Shaped n
  M : e'.M n = (if e.noDeferTrick then (e.kappa * δ) • cutM (e.M n) g σ else cutM (e.M n) g σ)
  c : e'.c n = e.c n - (ρ / (g ⬝ᵥ (e.M n *ᵥ g))) • (e.M n *ᵥ g)
  kappa : e'.kappa = (if e.noDeferTrick then 1 else e.kappa * δ)
  helper : e'.helper = e.helper
  defer : e'.noDeferTrick = e.noDeferTrick
  tsq : e'.tsq = e.tsqOf n g

theorem Ell.update_real {T : Type} [CutType T ℝ] (he : e.Shaped n) (hsym : (e.M n).IsSymm)
    (hn : 0 < n) (k : UpdateKind) (cut : Arr ℝ × T) (hg : cut.1.IsVecShape n) {st : CutStatus} {e' : Ell ℝ}
    (h : Ell.space.update k e cut = .ok (st, e')) :
    ∃ ρ σ δ, CutType.call k cut.2 e.helper (e.tsqOf n (cut.1.toVec n)) = (st, ρ, σ, δ) ∧
      ((st ≠ .success ∧ e' = { e with tsq := e.tsqOf n (cut.1.toVec n) }) ∨
       (st = .success ∧ AfterCut n e e' (cut.1.toVec n) ρ σ δ)) := by
  rw [Ell.update_eq] at h
  rcases hs : CutType.call k cut.2 e.helper (e.tsqOf n (cut.1.toVec n)) with ⟨st', ρ, σ, δ⟩
  rcases Ell.updateCore_real he hsym hg hn (CutType.call k cut.2 e.helper) hs with
    ⟨h1, h2⟩ | ⟨h1, e1, h2, h3, h4, h5, h6, h7, h8, h9⟩
  · rw [h2] at h
    simp only [Res.ok.injEq, Prod.mk.injEq] at h
    obtain ⟨rfl, rfl⟩ := h
    exact ⟨ρ, σ, δ, rfl, Or.inl ⟨h1, rfl⟩⟩
  · rw [h2] at h
    simp only [Res.ok.injEq, Prod.mk.injEq] at h
    obtain ⟨rfl, rfl⟩ := h
    exact ⟨ρ, σ, δ, by rw [h1], Or.inr ⟨rfl, ⟨h3, h4, h5, h6, h7, h8, h9⟩⟩⟩

theorem Ell.Valid.symm (he : e.Valid n) : (e.M n).IsSymm := isSymm_of_posDef he.posDef

theorem Ell.Valid.pos (he : e.Valid n) : 0 < n := by have := he.dim; omega

theorem Ell.Valid.tsq_pos (he : e.Valid n) {g : Fin n → ℝ} (hg : g ≠ 0) : 0 < e.tsqOf n g :=
  mul_pos he.kappa (quad_pos he.posDef hg)

theorem Ell.tau_sq (he : e.Valid n) (g : Fin n → ℝ) : e.tau n g * e.tau n g = e.tsqOf n g :=
  Real.mul_self_sqrt (mul_nonneg he.kappa.le (quad_nonneg he.posDef g))

theorem Ell.Valid.setTsq (he : e.Valid n) (t : ℝ) : ({ e with tsq := t } : Ell ℝ).Valid n :=
  ⟨he.shaped, he.dim, he.posDef, he.kappa, he.helper⟩

/-- validity and region after a cut with `σ < 1`, `δ > 0` -/
theorem AfterCut.valid {e' : Ell ℝ} {g : Fin n → ℝ} {ρ σ δ : ℝ} (h : AfterCut n e e' g ρ σ δ)
    (he : e.Valid n) (hg : g ≠ 0) (hσ : σ < 1) (hδ : 0 < δ) :
    e'.Valid n ∧ e'.region n = ellipsoid (cutM (e.M n) g σ) (e.kappa * δ) (e'.c n) ∧
      e'.vol2 n = δ ^ n * (1 - σ) * e.vol2 n := by
  have hP := cutM_posDef he.posDef hg hσ
  have hκ : 0 < e.kappa * δ := mul_pos he.kappa hδ
  have hvol : (e.kappa * δ) ^ n * (cutM (e.M n) g σ).det = δ ^ n * (1 - σ) * e.vol2 n := by
    rw [cutM_det he.posDef σ hg, Ell.vol2, det_smul, Fintype.card_fin, mul_pow]
    ring
  cases hb : e.noDeferTrick
  · have hM := h.M
    have hk := h.kappa
    rw [hb] at hM hk
    simp only [Bool.false_eq_true, if_false] at hM hk
    refine ⟨⟨h.shaped, he.dim, hM ▸ hP, hk ▸ hκ, h.helper.trans he.helper⟩, ?_, ?_⟩
    · rw [Ell.region, hM, hk]
    · rw [Ell.vol2, hM, hk, det_smul, Fintype.card_fin, hvol]
  · have hM := h.M
    have hk := h.kappa
    rw [hb] at hM hk
    simp only [if_true] at hM hk
    refine ⟨⟨h.shaped, he.dim, hM ▸ hP.smul hκ, hk ▸ one_pos, h.helper.trans he.helper⟩, ?_, ?_⟩
    · rw [Ell.region, hM, hk, ellipsoid_smul hP hκ, mul_one]
    · rw [Ell.vol2, hM, hk, one_smul, det_smul, Fintype.card_fin, hvol]

theorem Ell.vol2_pos (he : e.Valid n) : 0 < e.vol2 n := (he.posDef.smul he.kappa).det_pos

/-- one admissible successful step -/
theorem Ell.step_good {T : Type} [Cut T] (he : e.Valid n) (k : UpdateKind) (cut : Arr ℝ × T)
    (hsh : cut.1.IsVecShape n) (hg : cut.1.toVec n ≠ 0)
    (hadm : Cut.Adm n k cut.2 (e.tsqOf n (cut.1.toVec n))) {e' : Ell ℝ}
    (h : Ell.space.update k e cut = .ok (.success, e')) :
    e'.Valid n ∧
    (∀ x ∈ e.region n, Cut.Sat k cut.2 (cut.1.toVec n ⬝ᵥ (x - e.c n)) → x ∈ e'.region n) ∧
    (0 ≤ k.lo (Cut.lo cut.2) → e'.vol2 n ≤ Real.exp (-(1 / ((n : ℝ) + 1))) * e.vol2 n) ∧
    e'.tsq = e.tsqOf n (cut.1.toVec n) := by
  obtain ⟨ρ, σ, δ, hc, h2⟩ := Ell.update_real he.shaped he.symm he.pos k cut hsh h
  rcases h2 with ⟨h2, _⟩ | ⟨_, ha⟩
  · exact absurd rfl h2
  have htp := he.tsq_pos hg
  rw [he.helper] at hc
  have hS := strat_good he.dim htp k cut.2 hadm hc
  obtain ⟨b0, b1, hgood, hsat⟩ := hS.good
  obtain ⟨hv, hr, hvol⟩ := ha.valid he hg hgood.sig1 hS.del
  refine ⟨hv, ?_, ?_, ha.tsq⟩
  · intro x hx hs
    rw [hr, ha.c]
    obtain ⟨h0, h1⟩ := hsat _ (dot_sq_le he.posDef hx _) hs
    exact cut_contains he.posDef hg hgood hx h0 h1
  · intro h0
    rw [hvol]
    exact mul_le_mul_of_nonneg_right (hS.vol h0) (Ell.vol2_pos he).le

end Ellalgo
