import Verif.Lib.StableLemmas
import Verif.Props.EllReal

/-! C28: `EllStable` against `Ell`.  The claim "`EllStable` is equivalent to `Ell`" is false: the rank-one update
of the factors reads the scratch values of the forward substitution, so an `EllStable` that starts with a diagonal
matrix keeps a diagonal matrix forever (`C28_stable_stays_diagonal`), and from the first step on it loses points
that every cut keeps (`C28_stable_loses_points`) and a run with an honest oracle reports that there is no solution
although there is one (`Props/StableWrong`).  What does hold: status, centre, `tsq`, `kappa` and volume of each
single step agree with `Ell` started from the same diagonal matrix; everything agrees when the gradient is a
multiple of a unit vector. -/

namespace Ellalgo
open Matrix
open scoped ComplexOrder

variable {T : Type} {n : Nat}

/-- both updates of the same diagonal state, side by side -/
theorem EllStable.update_both [CutType T ℝ] (hn : 0 < n) (k : UpdateKind) (s : EllStable ℝ) (cut : Arr ℝ × T)
    (hs : s.Diagonal n) (hg : cut.1.IsVecShape n) :
    let g := cut.1.toVec n
    let ω := g ⬝ᵥ (s.M n *ᵥ g)
    ∃ st ρ σ δ s', CutType.call k cut.2 s.helper (s.kappa * ω) = (st, ρ, σ, δ) ∧
      EllStable.space.update k s cut = .ok (st, s') ∧ s'.Diagonal n ∧ s'.helper = s.helper ∧
      s'.tsq = s.kappa * ω ∧
      (st ≠ .success → s'.M n = s.M n ∧ s'.c n = s.c n ∧ s'.kappa = s.kappa) ∧
      (st = .success →
        s'.M n = diagonal (fun i : Fin n => s.M n i i *
          (tt (ω / (σ / (1 - σ))) (fun i => cut.1.vec i * s.mq.mat i i * cut.1.vec i) i /
           tt (ω / (σ / (1 - σ))) (fun i => cut.1.vec i * s.mq.mat i i * cut.1.vec i) (i + 1))) ∧
        s'.c n = s.c n - (ρ / ω) • (s.M n *ᵥ g) ∧ s'.kappa = s.kappa * δ) := by
  intro g ω
  have hom : (sumTo n fun i => cut.1.vec i * s.mq.mat i i * cut.1.vec i) = ω :=
    EllStable.omega_eq (s.M n) (fun i => s.mq.mat i i) g cut.1.vec (fun _ => rfl) (EllStable.M_of hs.isMat)
  rcases hc : CutType.call k cut.2 s.helper (s.kappa * ω) with ⟨st, ρ, σ, δ⟩
  have hc' : CutType.call k cut.2 s.helper (s.kappa * sumTo n fun i => cut.1.vec i * s.mq.mat i i * cut.1.vec i) =
      (st, ρ, σ, δ) := by rw [hom]; exact hc
  obtain ⟨s', h1, h2, h3, h4, h5⟩ := EllStable.updateCore_diag hn hs.isMat hs.shaped.2.isVec hg.isVec
    (CutType.call k cut.2 s.helper) hc'
  rw [hom] at h3 h5
  refine ⟨st, ρ, σ, δ, s', rfl, by rw [EllStable.update_eq]; exact h1, ?_, h2, h3, ?_, ?_⟩
  · by_cases hst : st = .success
    · obtain ⟨a, b, -⟩ := h5 hst
      exact EllStable.diagonal_of a b
    · obtain ⟨a, b, -⟩ := h4 hst
      exact EllStable.diagonal_of a b
  · intro hst
    obtain ⟨a, b, c⟩ := h4 hst
    exact ⟨(EllStable.M_of a).trans (EllStable.M_of hs.isMat).symm, b.toVec, c⟩
  · intro hst
    obtain ⟨a, b, c⟩ := h5 hst
    refine ⟨EllStable.M_of a, ?_, c⟩
    rw [EllStable.c, b.toVec]
    funext i
    have : (s.M n *ᵥ g) i = cut.1.vec i * s.mq.mat i i := by
      rw [hs.M_eq, mulVec_diagonal, mul_comm]
      rfl
    simp only [Pi.sub_apply, Pi.smul_apply, smul_eq_mul, this]
    rfl

theorem EllStable.asEll_symm {s : EllStable ℝ} (hs : s.Diagonal n) : (s.asEll.M n).IsSymm := by
  show (s.M n).IsSymm
  rw [hs.M_eq]
  exact isSymm_diagonal _

/-- **C28, partial.**  One step from a diagonal matrix (the matrix `EllStable::new` and
`EllStable::new_with_scalar` build): `EllStable` and `Ell` report the same status and have the same centre,
`tsq` and `kappa` afterwards, for every kind of update, every cut and every gradient; and `EllStable` is again
diagonal.  Missing: the same for *sequences* of steps, which is false (`C28_stable_loses_points`). -/
theorem C28_stable_step_partial [CutType T ℝ] (hn : 0 < n) (k : UpdateKind) (s : EllStable ℝ) (cut : Arr ℝ × T)
    (hs : s.Diagonal n) (hg : cut.1.IsVecShape n) :
    ∃ st s' e', EllStable.space.update k s cut = .ok (st, s') ∧ Ell.space.update k s.asEll cut = .ok (st, e') ∧
      s'.c n = e'.c n ∧ s'.tsq = e'.tsq ∧ s'.kappa = e'.kappa ∧ s'.Diagonal n ∧ s'.helper = s.helper := by
  obtain ⟨st, ρ, σ, δ, s', h1, h2, h3, h4, h5, h6, h7⟩ := EllStable.update_both hn k s cut hs hg
  obtain ⟨st', ρ', σ', δ', e', a1, a2, a3, a4, a5⟩ :=
    C12_rank_one_update k s.asEll cut hn hs.shaped (EllStable.asEll_symm hs) hg
  have heq : (st, ρ, σ, δ) = (st', ρ', σ', δ') := h1.symm.trans a1
  simp only [Prod.mk.injEq] at heq
  obtain ⟨rfl, rfl, rfl, rfl⟩ := heq
  refine ⟨st, s', e', h2, a2, ?_, h5.trans a3.symm, ?_, h3, h4⟩
  · by_cases hst : st = .success
    · rw [(h7 hst).2.1, (a5 hst).1]; rfl
    · rw [(h6 hst).2.1, (a4 hst).1]; rfl
  · by_cases hst : st = .success
    · rw [(h7 hst).2.2, ((a5 hst).2.2.1 rfl).2]; rfl
    · rw [(h6 hst).2.2, (a4 hst).2.2]; rfl

/-- **C28** (the defect).  Whatever cuts are applied, an `EllStable` that starts with a diagonal matrix has a
diagonal matrix after every step of every sequence of updates (and no step panics): it can never represent a
tilted ellipsoid, while a single `Ell` update generally produces one. -/
theorem C28_stable_stays_diagonal [CutType T ℝ] (hn : 0 < n) (cuts : List (UpdateKind × Arr ℝ × T))
    (s : EllStable ℝ) (hs : s.Diagonal n) (hg : ∀ c ∈ cuts, c.2.1.IsVecShape n) :
    ∃ tr, EllStable.space.run s cuts = .ok tr ∧ tr.length = cuts.length ∧ ∀ p ∈ tr, p.2.Diagonal n := by
  induction cuts generalizing s with
  | nil => exact ⟨[], rfl, rfl, by simp⟩
  | cons a rest ih =>
    obtain ⟨k, cut⟩ := a
    obtain ⟨st, s', e', h2, -, -, -, -, h3, -⟩ := C28_stable_step_partial hn k s cut hs (hg (k, cut) (by simp))
    obtain ⟨tr, b1, b2, b3⟩ := ih s' h3 fun c hc => hg c (by simp [hc])
    refine ⟨(st, s') :: tr, ?_, by simp [b2], ?_⟩
    · simp only [Space.run, h2, Res.ok_bind, b1]
    · intro p hp
      rcases List.mem_cons.mp hp with rfl | hp
      · exact h3
      · exact b3 p hp

/-- **C28, partial.**  If the gradient is a multiple of a unit vector (a bound on one coordinate), `EllStable` and
`Ell` agree completely after the step, matrix included. -/
theorem C28_stable_axis_partial [CutType T ℝ] (hn : 0 < n) (k : UpdateKind) (s : EllStable ℝ) (cut : Arr ℝ × T)
    (hs : s.Diagonal n) (hg : cut.1.IsVecShape n) (q : Fin n) (hq : s.M n q q ≠ 0)
    (hgq : cut.1.toVec n q ≠ 0) (haxis : ∀ i, i ≠ q → cut.1.toVec n i = 0)
    (hσ : ∀ st ρ σ δ, CutType.call k cut.2 s.helper
      (s.kappa * (cut.1.toVec n ⬝ᵥ (s.M n *ᵥ cut.1.toVec n))) = (st, ρ, σ, δ) → st = .success → 0 < σ ∧ σ < 1) :
    ∃ st s' e', EllStable.space.update k s cut = .ok (st, s') ∧ Ell.space.update k s.asEll cut = .ok (st, e') ∧
      s'.M n = e'.M n ∧ s'.c n = e'.c n ∧ s'.tsq = e'.tsq ∧ s'.kappa = e'.kappa := by
  obtain ⟨st, ρ, σ, δ, s', h1, h2, h3, h4, h5, h6, h7⟩ := EllStable.update_both hn k s cut hs hg
  obtain ⟨st', ρ', σ', δ', e', a1, a2, a3, a4, a5⟩ :=
    C12_rank_one_update k s.asEll cut hn hs.shaped (EllStable.asEll_symm hs) hg
  have heq : (st, ρ, σ, δ) = (st', ρ', σ', δ') := h1.symm.trans a1
  simp only [Prod.mk.injEq] at heq
  obtain ⟨rfl, rfl, rfl, rfl⟩ := heq
  have hσ' := hσ st ρ σ δ h1
  set g := cut.1.toVec n with hgdef
  have hMg : s.M n *ᵥ g = fun i => s.M n i i * g i := by
    conv_lhs => rw [hs.M_eq]
    funext i
    rw [mulVec_diagonal]
  have hω : g ⬝ᵥ (s.M n *ᵥ g) = g q * (s.M n q q * g q) := by
    rw [hMg, dotProduct, Finset.sum_eq_single q]
    · intro i _ hi
      rw [haxis i hi, zero_mul]
    · simp
  refine ⟨st, s', e', h2, a2, ?_, ?_, h5.trans a3.symm, ?_⟩
  · by_cases hst : st = .success
    · obtain ⟨hσ0, hσ1⟩ := hσ' hst
      rw [(h7 hst).1, ((a5 hst).2.2.1 rfl).1]
      show _ = s.M n - (σ / (g ⬝ᵥ (s.M n *ᵥ g))) • vecMulVec (s.M n *ᵥ g) (s.M n *ᵥ g)
      set ω := g ⬝ᵥ (s.M n *ᵥ g) with hωd
      have hω0 : ω ≠ 0 := by rw [hω]; positivity
      have hp : ∀ k, sumTo k (fun i => if i = (q : Nat) then ω else 0) = if (q : Nat) < k then ω else 0 := by
        intro k
        induction k with
        | zero => simp [sumTo]
        | succ k ih =>
          rw [sumTo, ih]
          rcases lt_trichotomy (q : Nat) k with h | h | h
          · simp [h, h.ne', Nat.lt_succ_of_lt h]
          · subst h; simp
          · have : ¬ (q : Nat) < k + 1 := by omega
            simp [h.not_gt, h.ne, this]
      have htt : ∀ k ≤ n, EllStable.tt (ω / (σ / (1 - σ))) (fun i => cut.1.vec i * s.mq.mat i i * cut.1.vec i) k =
          ω * ((1 - σ) / σ) + if (q : Nat) < k then ω else 0 := by
        intro k hk
        rw [EllStable.tt, ← hp k, div_div_eq_mul_div, mul_div_assoc]
        congr 1
        apply sumTo_congr
        intro i hi
        split
        · rename_i h
          subst h
          rw [hω]
          show g q * s.M n q q * g q = _
          ring
        · rename_i h
          have := haxis ⟨i, by omega⟩ (by simpa [Fin.ext_iff] using h)
          have : cut.1.vec i = 0 := this
          rw [this]; ring
      have h1σ : (1 - σ) ≠ 0 := by linarith
      have hb : ω * ((1 - σ) / σ) ≠ 0 := mul_ne_zero hω0 (div_ne_zero h1σ hσ0.ne')
      have hb2 : ω * ((1 - σ) / σ) + ω = ω / σ := by field_simp; ring
      ext i j
      rw [diagonal_apply, Matrix.sub_apply, Matrix.smul_apply, vecMulVec_apply, smul_eq_mul]
      simp only [hMg]
      by_cases hij : i = j
      · subst hij
        rw [if_pos rfl, htt i (by omega), htt (i + 1) (by omega)]
        by_cases hiq : i = q
        · subst hiq
          rw [if_neg (lt_irrefl _), if_pos (by omega), add_zero, hb2]
          have : ω * ((1 - σ) / σ) / (ω / σ) = 1 - σ := by field_simp
          rw [this]
          have : σ / ω * (s.M n i i * g i * (s.M n i i * g i)) = σ * s.M n i i * (g i * (s.M n i i * g i) / ω) := by ring
          rw [this, ← hω, div_self hω0]
          ring
        · have e1 : ((q : Nat) < i ↔ (q : Nat) < i + 1) := by
            have : (i : Nat) ≠ q := by simpa [Fin.ext_iff] using hiq
            omega
          simp only [← e1]
          rw [div_self, haxis i hiq]
          · ring
          · split
            · rw [hb2]; exact div_ne_zero hω0 hσ0.ne'
            · simpa using hb
      · rw [if_neg hij, hs.off i j hij]
        by_cases hiq : i = q
        · rw [haxis j (by rintro rfl; exact hij hiq)]; ring
        · rw [haxis i hiq]; ring
    · rw [(h6 hst).1, (a4 hst).2.1]; rfl
  · by_cases hst : st = .success
    · rw [(h7 hst).2.1, (a5 hst).1]; rfl
    · rw [(h6 hst).2.1, (a4 hst).1]; rfl
  · by_cases hst : st = .success
    · rw [(h7 hst).2.2, ((a5 hst).2.2.1 rfl).2]; rfl
    · rw [(h6 hst).2.2, (a4 hst).2.2]; rfl

theorem telescope {t : Nat → ℝ} (m : Nat) (h : ∀ k ≤ m, t k ≠ 0) :
    ∏ i ∈ Finset.range m, t i / t (i + 1) = t 0 / t m := by
  induction m with
  | zero => simp [div_self (h 0 le_rfl)]
  | succ m ih =>
    rw [Finset.prod_range_succ, ih fun k hk => h k (by omega)]
    have := h m (by omega)
    have := h (m + 1) le_rfl
    field_simp

theorem sumTo_nonneg {p : Nat → ℝ} (k : Nat) (h : ∀ i < k, 0 ≤ p i) : 0 ≤ sumTo k p := by
  rw [sumTo_real]
  exact Finset.sum_nonneg fun i hi => h i (by simpa using hi)

/-- **C28, partial.**  The volume: as long as the diagonal is positive and the strategy shrinks (`0 < σ < 1`),
the step keeps the diagonal positive, and the volume after the step is that of `Ell`, `δⁿ (1 - σ)` times the volume
before, although the shape differs. -/
theorem C28_stable_volume_partial [CutType T ℝ] (hn : 0 < n) (k : UpdateKind) (s : EllStable ℝ)
    (cut : Arr ℝ × T) (hs : s.Diagonal n) (hpos : ∀ i, 0 < s.M n i i) (hg : cut.1.IsVecShape n)
    (hg0 : cut.1.toVec n ≠ 0) {ρ σ δ : ℝ}
    (hcall : CutType.call k cut.2 s.helper (s.kappa * (cut.1.toVec n ⬝ᵥ (s.M n *ᵥ cut.1.toVec n))) =
      (.success, ρ, σ, δ)) (hσ0 : 0 < σ) (hσ1 : σ < 1) :
    ∃ s' e', EllStable.space.update k s cut = .ok (.success, s') ∧
      Ell.space.update k s.asEll cut = .ok (.success, e') ∧
      (∀ i, 0 < s'.M n i i) ∧ s'.vol2 n = e'.vol2 n ∧ s'.vol2 n = δ ^ n * (1 - σ) * s.vol2 n := by
  obtain ⟨st, ρ', σ', δ', s', h1, h2, h3, h4, h5, h6, h7⟩ := EllStable.update_both hn k s cut hs hg
  obtain ⟨st'', ρ'', σ'', δ'', e', a1, a2, a3, a4, a5⟩ :=
    C12_rank_one_update k s.asEll cut hn hs.shaped (EllStable.asEll_symm hs) hg
  have heq := h1.symm.trans hcall
  have heq2 := a1.symm.trans hcall
  simp only [Prod.mk.injEq] at heq heq2
  obtain ⟨rfl, rfl, rfl, rfl⟩ := heq
  obtain ⟨rfl, rfl, rfl, rfl⟩ := heq2
  have hPD : (s.M n).PosDef := by
    rw [hs.M_eq]
    exact posDef_diagonal_iff.mpr hpos
  set g := cut.1.toVec n with hgdef
  set ω := g ⬝ᵥ (s.M n *ᵥ g) with hω
  have hω0 : 0 < ω := quad_pos hPD hg0
  set t := EllStable.tt (ω / (σ'' / (1 - σ''))) (fun i => cut.1.vec i * s.mq.mat i i * cut.1.vec i) with ht
  have hbase : 0 < ω / (σ'' / (1 - σ'')) := div_pos hω0 (div_pos hσ0 (by linarith))
  have htpos : ∀ k ≤ n, 0 < t k := by
    intro k hk
    have : 0 ≤ sumTo k (fun i => cut.1.vec i * s.mq.mat i i * cut.1.vec i) := by
      apply sumTo_nonneg
      intro i hi
      have := (hpos ⟨i, by omega⟩).le
      have : 0 ≤ s.mq.mat i i := this
      have h2 := mul_nonneg this (mul_self_nonneg (cut.1.vec i))
      linarith
    rw [ht, EllStable.tt]
    linarith
  have ht0 : t 0 = ω / (σ'' / (1 - σ'')) := by simp [ht, EllStable.tt, sumTo]
  have htn : t n = ω / (σ'' / (1 - σ'')) + ω := by
    rw [ht, EllStable.tt]
    congr 1
    exact EllStable.omega_eq (s.M n) (fun i => s.mq.mat i i) g cut.1.vec (fun _ => rfl) (EllStable.M_of hs.isMat)
  have hM := (h7 rfl).1
  have hdet : (s'.M n).det = (1 - σ'') * (s.M n).det := by
    have e1 : (s.M n).det = ∏ i, s.M n i i := by
      conv_lhs => rw [hs.M_eq]
      rw [det_diagonal]
    rw [hM, det_diagonal, Finset.prod_mul_distrib, e1, Finset.prod_range (fun i => t i / t (i + 1)) |>.symm,
      telescope n fun k hk => (htpos k hk).ne', ht0, htn, mul_comm]
    congr 1
    have : (1 - σ'') ≠ 0 := by linarith
    field_simp
    ring
  have hvs : s'.vol2 n = δ'' ^ n * (1 - σ'') * s.vol2 n := by
    rw [EllStable.vol2, EllStable.vol2, det_smul, det_smul, Fintype.card_fin, hdet, (h7 rfl).2.2, mul_pow]
    ring
  refine ⟨s', e', h2, a2, ?_, ?_, hvs⟩
  · intro i
    rw [hM, diagonal_apply_eq]
    exact mul_pos (hpos i) (div_pos (htpos i (by omega)) (htpos (i + 1) (by omega)))
  · have hb := (a5 rfl).2.2.1 rfl
    have hMe : e'.M n = cutM (s.M n) g σ'' := hb.1
    have hke : e'.kappa = s.kappa * δ'' := hb.2
    rw [hvs, Ell.vol2, EllStable.vol2, det_smul, det_smul, Fintype.card_fin, hMe, hke, cutM_det hPD σ'' hg0, mul_pow]
    ring

end Ellalgo
