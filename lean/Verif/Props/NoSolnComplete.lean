import Verif.Props.EllReal2

/-! C84: when a cut misses the ellipsoid, is `NoSoln` reported? -/

namespace Ellalgo
open Matrix
variable {n : Nat} {T : Type}

/-- `gᵀ(x - xc)` attains every value between `-τ` and `τ` on the ellipsoid -/
theorem Ell.Valid.attains {e : Ell ℝ} (he : e.Valid n) {g : Fin n → ℝ} (hg : g ≠ 0) {t : ℝ} (h1 : -e.tau n g ≤ t)
    (h2 : t ≤ e.tau n g) : ∃ x ∈ e.region n, g ⬝ᵥ (x - e.c n) = t := by
  have hω : 0 < g ⬝ᵥ (e.M n *ᵥ g) := quad_pos he.posDef hg
  refine ⟨e.c n + (t / (g ⬝ᵥ (e.M n *ᵥ g))) • (e.M n *ᵥ g), ?_, ?_⟩
  · show (e.c n + _ - e.c n) ⬝ᵥ ((e.M n)⁻¹ *ᵥ (e.c n + _ - e.c n)) ≤ e.kappa
    rw [add_sub_cancel_left, mulVec_smul, mulVec_mulVec, nonsing_inv_mul _ he.posDef.det_pos.ne'.isUnit, one_mulVec,
      smul_dotProduct, dotProduct_smul, smul_eq_mul, smul_eq_mul, dotProduct_comm (e.M n *ᵥ g) g]
    have ht : t * t ≤ e.kappa * (g ⬝ᵥ (e.M n *ᵥ g)) := by
      have := Ell.tau_sq he g
      have h0 : 0 ≤ e.tau n g := Real.sqrt_nonneg _
      rw [Ell.tsqOf] at this
      nlinarith
    have : t / (g ⬝ᵥ (e.M n *ᵥ g)) * (t / (g ⬝ᵥ (e.M n *ᵥ g)) * (g ⬝ᵥ (e.M n *ᵥ g))) = t * t / (g ⬝ᵥ (e.M n *ᵥ g)) := by
      field_simp
    rw [this, div_le_iff₀ hω]
    exact ht
  · rw [add_sub_cancel_left, dotProduct_smul, smul_eq_mul, div_mul_cancel₀ _ hω.ne']

/-- **C84** (partial: a second offset `beta1` must be at least `-τ`)  If no point of the ellipsoid satisfies the cut, the
update reports `NoSoln`, for all three kinds of update and both kinds of cut.  The condition on `beta1` holds in particular
for every `beta1 ≥ 0`; for single cuts there is none. -/
theorem C84_noSoln_complete_partial [Cut T] (k : UpdateKind) (e : Ell ℝ) (he : e.Valid n) (cut : Arr ℝ × T)
    (hs : cut.1.IsVecShape n) (hg : cut.1.toVec n ≠ 0)
    (hhi : ∀ b1, Cut.hi cut.2 = some b1 → -e.tau n (cut.1.toVec n) ≤ b1)
    (hmiss : ∀ x ∈ e.region n, ¬ Cut.Sat k cut.2 (cut.1.toVec n ⬝ᵥ (x - e.c n))) :
    ∃ e', Ell.space.update k e cut = .ok (.noSoln, e') := by
  obtain ⟨e', h⟩ := Ell.update_exists he.shaped he.symm he.pos k cut hs
  refine ⟨e', ?_⟩
  rw [h]
  congr 2
  rw [he.helper, Cut.call_eq]
  have hτ0 : 0 ≤ e.tau n (cut.1.toVec n) := Real.sqrt_nonneg _
  have hτ2 := Ell.tau_sq he (cut.1.toVec n)
  have hsq : √(e.tsqOf n (cut.1.toVec n)) = e.tau n (cut.1.toVec n) := rfl
  have hno : ∀ t, -e.tau n (cut.1.toVec n) ≤ t → t ≤ e.tau n (cut.1.toVec n) → ¬ Cut.Sat k cut.2 t := by
    intro t h1 h2
    obtain ⟨x, hx, rfl⟩ := he.attains hg h1 h2
    exact hmiss x hx
  clear hmiss h
  unfold Cut.Sat at hno
  generalize e.tsqOf n (cut.1.toVec n) = tsq at *
  generalize e.tau n (cut.1.toVec n) = τ at *
  generalize Cut.lo cut.2 = β at *
  generalize Cut.hi cut.2 = hi at *
  cases hi with
  | none =>
    have hlt : τ < k.lo β := by
      by_contra hc
      exact hno (-τ) le_rfl (by linarith) ⟨by linarith, by simp⟩
    cases k with
    | bias =>
      have hlt : τ < β := hlt
      show ((EllCalc.new n).calcBiasCut β tsq).1 = _
      rw [calcBias_real, if_pos (by nlinarith)]
    | q =>
      have hlt : τ < β := hlt
      show ((EllCalc.new n).calcBiasCutQ β tsq).1 = _
      rw [calcBiasQ_real, if_pos (by linarith)]
    | central =>
      have hlt : τ < 0 := hlt
      linarith
  | some b1 =>
    have hb1 := hhi b1 rfl
    have hlt : b1 < k.lo β ∨ τ < k.lo β := by
      by_contra! hc
      rcases le_total b1 τ with h1 | h1
      · exact hno (-b1) (by linarith) (by linarith) ⟨by linarith, by rintro b ⟨rfl⟩; linarith⟩
      · exact hno (-τ) le_rfl (by linarith) ⟨by linarith, by rintro b ⟨rfl⟩; linarith⟩
    cases k with
    | bias =>
      have hlt : b1 < β ∨ τ < β := hlt
      show ((EllCalc.new n).calcParallelBiasCut β b1 tsq).1 = _
      rw [calcParallelBias_real]
      split
      · rfl
      · rename_i h
        have hlt := hlt.resolve_left h
        rw [if_pos ⟨by linarith, by nlinarith⟩, calcBias_real, if_pos (by nlinarith)]
    | q =>
      have hlt : b1 < β ∨ τ < β := hlt
      show ((EllCalc.new n).calcParallelQ β b1 tsq).1 = _
      rw [calcParallelQ_real]
      split
      · rfl
      · rename_i h
        have hlt := hlt.resolve_left h
        rw [if_pos ⟨by linarith, by nlinarith⟩, calcBiasQ_real, if_pos (by linarith)]
    | central =>
      have hlt : b1 < 0 ∨ τ < 0 := hlt
      show ((EllCalc.new n).calcParallelCentralCut b1 tsq).1 = _
      rw [calcParallelCentralS_real, if_pos (by rcases hlt with h | h <;> linarith)]

/-- **C84** (both directions)  With a nonnegative `beta` (or `beta0`), `NoSoln` is reported if and only if no point of the
ellipsoid satisfies the cut; `beta1` may be absent or any number from `-τ` on. -/
theorem C84_noSoln_iff [Cut T] (k : UpdateKind) (e : Ell ℝ) (he : e.Valid n) (cut : Arr ℝ × T)
    (hs : cut.1.IsVecShape n) (hg : cut.1.toVec n ≠ 0) (hlo : 0 ≤ Cut.lo cut.2)
    (hhi : ∀ b1, Cut.hi cut.2 = some b1 → -e.tau n (cut.1.toVec n) ≤ b1) :
    (∃ e', Ell.space.update k e cut = .ok (.noSoln, e')) ↔
      ∀ x ∈ e.region n, ¬ Cut.Sat k cut.2 (cut.1.toVec n ⬝ᵥ (x - e.c n)) := by
  constructor
  · rintro ⟨e', h⟩
    have hτ0 : 0 ≤ e.tau n (cut.1.toVec n) := Real.sqrt_nonneg _
    exact C18_noSoln_sound k e e' cut he.pos he.shaped he.posDef he.kappa.le he.helper hs (fun _ => by linarith) h
  · exact C84_noSoln_complete_partial k e he cut hs hg hhi

/-- **C84, refuted without the condition.**  A parallel cut with `beta0 ≤ beta1 < -τ` is satisfied by no point of the
ellipsoid, yet `update_bias_cut` and `update_q` report `Success` - for every ellipsoid, gradient and such offsets. -/
theorem C84_missed_parallel_cut_succeeds (k : UpdateKind) (hk : k = .bias ∨ k = .q) (e : Ell ℝ) (he : e.Valid n)
    (grad : Arr ℝ) (hs : grad.IsVecShape n) (b0 b1 : ℝ) (h01 : b0 ≤ b1) (h1 : b1 < -e.tau n (grad.toVec n)) :
    (∀ x ∈ e.region n, ¬ Cut.Sat k (⟨b0, some b1⟩ : ParallelCut ℝ) (grad.toVec n ⬝ᵥ (x - e.c n))) ∧
    ∃ e', Ell.space.update k e (grad, (⟨b0, some b1⟩ : ParallelCut ℝ)) = .ok (.success, e') := by
  have hτ0 : 0 ≤ e.tau n (grad.toVec n) := Real.sqrt_nonneg _
  refine ⟨?_, ?_⟩
  · rintro x hx ⟨-, h2⟩
    have := (abs_le.mp (dot_abs_le he.posDef hx (grad.toVec n) (Real.sqrt_nonneg _) (Ell.tau_sq he _))).2
    have h3 : grad.toVec n ⬝ᵥ (x - e.c n) ≤ e.tau n (grad.toVec n) := this
    have := h2 b1 rfl
    linarith
  · obtain ⟨e', h⟩ := Ell.update_exists he.shaped he.symm he.pos k ((grad, ⟨b0, some b1⟩) : Arr ℝ × ParallelCut ℝ) hs
    refine ⟨e', ?_⟩
    rw [h]
    congr 2
    rw [he.helper]
    have hts : 0 ≤ e.tsqOf n (grad.toVec n) := by rw [← Ell.tau_sq he]; positivity
    have hn : (0 : ℝ) < n := by exact_mod_cast he.pos
    have hb : 0 < b0 * b1 := mul_pos_of_neg_of_neg (by linarith) (by linarith)
    rcases hk with rfl | rfl
    · show ((EllCalc.new n).calcParallelBiasCut b0 b1 _).1 = _
      rw [calcParallelBias_real, if_neg (by linarith), if_neg (by rintro ⟨h, -⟩; linarith)]
    · show ((EllCalc.new n).calcParallelQ b0 b1 _).1 = _
      have : 0 < n * (b0 * b1) := mul_pos hn hb
      rw [calcParallelQ_real, if_neg (by linarith), if_neg (by rintro ⟨h, -⟩; linarith), if_neg (by linarith)]

end Ellalgo
