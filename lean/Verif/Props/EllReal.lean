import Verif.Lib.EllBridge
import Verif.Lib.ArrLemmas

/-! C12-C20, C53: geometry of `Ell` in exact arithmetic. -/

namespace Ellalgo
open Matrix
open scoped ComplexOrder

variable {n : Nat} {T : Type}

/-- an update of a well-shaped ellipsoid always returns, with the status of the cut strategy -/
theorem Ell.update_exists [CutType T ℝ] {e : Ell ℝ} (he : e.Shaped n) (hsym : (e.M n).IsSymm)
    (hn : 0 < n) (k : UpdateKind) (cut : Arr ℝ × T) (hg : cut.1.IsVecShape n) :
    ∃ e', Ell.space.update k e cut =
      .ok ((CutType.call k cut.2 e.helper (e.tsqOf n (cut.1.toVec n))).1, e') := by
  rw [Ell.update_eq]
  rcases hs : CutType.call k cut.2 e.helper (e.tsqOf n (cut.1.toVec n)) with ⟨st', ρ, σ, δ⟩
  rcases Ell.updateCore_real he hsym hg hn (CutType.call k cut.2 e.helper) hs with
    ⟨h1, h2⟩ | ⟨h1, e1, h2, _⟩
  · exact ⟨_, h2⟩
  · exact ⟨e1, by rw [h1]; exact h2⟩

/-! ### C12 -/

/-- **C12**.  With `ω = gᵀMg` and `(st, (ρ, σ, δ))` the answer of the cut strategy at `tsq = κ ω`: the
update reports `st` and stores `tsq`; on success
`xc' = xc - (ρ/ω) M g`, `M' = M - (σ/ω) (M g)(M g)ᵀ`, `κ' = κ δ` (with `no_defer_trick` the factor is
moved: `M' = κδ (M - ...)`, `κ' = 1`); otherwise centre, matrix, `κ` are unchanged. -/
theorem C12_rank_one_update [CutType T ℝ] (k : UpdateKind) (e : Ell ℝ) (cut : Arr ℝ × T) (hn : 0 < n)
    (he : e.Shaped n) (hsym : (e.M n).IsSymm) (hg : cut.1.IsVecShape n) :
    let g := cut.1.toVec n
    let M := e.M n
    let ω := g ⬝ᵥ (M *ᵥ g)
    ∃ st ρ σ δ e', CutType.call k cut.2 e.helper (e.kappa * ω) = (st, ρ, σ, δ) ∧
      Ell.space.update k e cut = .ok (st, e') ∧ e'.tsq = e.kappa * ω ∧
      (st ≠ .success → e'.c n = e.c n ∧ e'.M n = M ∧ e'.kappa = e.kappa) ∧
      (st = .success →
        e'.c n = e.c n - (ρ / ω) • (M *ᵥ g) ∧
        e'.kappa • e'.M n = (e.kappa * δ) • (M - (σ / ω) • vecMulVec (M *ᵥ g) (M *ᵥ g)) ∧
        (e.noDeferTrick = false →
          e'.M n = M - (σ / ω) • vecMulVec (M *ᵥ g) (M *ᵥ g) ∧ e'.kappa = e.kappa * δ) ∧
        (e.noDeferTrick = true → e'.kappa = 1)) := by
  intro g M ω
  obtain ⟨e', h⟩ := Ell.update_exists he hsym hn k cut hg
  obtain ⟨ρ, σ, δ, hc, h2⟩ := Ell.update_real he hsym hn k cut hg h
  refine ⟨_, ρ, σ, δ, e', hc, h, ?_, ?_, ?_⟩
  · rcases h2 with ⟨_, rfl⟩ | ⟨_, ha⟩
    · rfl
    · exact ha.tsq
  · intro hst
    rcases h2 with ⟨_, rfl⟩ | ⟨h1, _⟩
    · exact ⟨rfl, rfl, rfl⟩
    · exact absurd h1 hst
  · intro hst
    rcases h2 with ⟨h1, _⟩ | ⟨_, ha⟩
    · exact absurd hst h1
    · have hM := ha.M
      have hk := ha.kappa
      refine ⟨ha.c, ?_, ?_, ?_⟩
      · rw [hM, hk]
        cases e.noDeferTrick
        · rfl
        · simp only [if_true, one_smul]; rfl
      · intro hd
        rw [hd] at hM hk
        exact ⟨hM, hk⟩
      · intro hd
        rw [hd] at hk
        exact hk

/-! ### C13 -/

theorem bias_single_pd {τ tsq β ρ σ δ : ℝ} (hn : 2 ≤ n) (ht : 0 < tsq) (hτ : τ = √tsq) (h1 : -τ < β) (h2 : β < τ)
    (h : (EllCalcCore.new (n : ℝ)).calcBiasCutFast β τ (τ + n * β) = (ρ, σ, δ)) : σ < 1 ∧ 0 < δ := by
  have hn' : (1 : ℝ) < n := by exact_mod_cast (by omega : 1 < n)
  have hτ0 : 0 < τ := hτ ▸ Real.sqrt_pos.mpr ht
  rw [calcBiasCutFast_real] at h
  simp only [Prod.mk.injEq] at h
  obtain ⟨-, rfl, rfl⟩ := h
  have hs : 0 < τ + β := by linarith
  have hd : 0 < τ - β := by linarith
  have hn1 : (0 : ℝ) < n + 1 := by linarith
  have hn2 : (0 : ℝ) < n - 1 := by linarith
  have hnn : 0 < (n : ℝ) * n - 1 := by nlinarith
  constructor
  · have e1 : 1 - 2 * ((τ + n * β) / (n + 1)) / (τ + β) = (n - 1) * (τ - β) / ((n + 1) * (τ + β)) := by
      field_simp; ring
    have : 0 < 1 - 2 * ((τ + n * β) / (n + 1)) / (τ + β) := by rw [e1]; positivity
    linarith
  · have e : 1 - β / τ * (β / τ) = (τ - β) * (τ + β) / (τ * τ) := by field_simp; ring
    rw [e]; positivity

theorem strat_pd [Cut T] {tsq : ℝ} {ρ σ δ : ℝ} (hn : 2 ≤ n) (ht : 0 < tsq) (k : UpdateKind) (c : T)
    (hadm : Cut.NonDegenerate n k c tsq)
    (h : CutType.call k c (EllCalc.new n) tsq = (.success, ρ, σ, δ)) : σ < 1 ∧ 0 < δ := by
  rcases hadm with hadm | ⟨hk, h1, h2, h3⟩
  · have hS := strat_good hn ht k c hadm h
    obtain ⟨_, _, hg, _⟩ := hS.good
    exact ⟨hg.sig1, hS.del⟩
  subst hk
  rw [Cut.call_eq] at h
  generalize Cut.lo c = β at *
  generalize Cut.hi c = hi at *
  have hn' : (1 : ℝ) < n := by exact_mod_cast (by omega : 1 < n)
  have hb : β * β < tsq := by
    have := mul_self_lt_mul_self (abs_nonneg _) (abs_lt.mpr ⟨h1, h2⟩)
    rwa [Real.mul_self_sqrt ht.le, abs_mul_abs_self] at this
  have single : (EllCalc.new n).calcBiasCut β tsq = (.success, ρ, σ, δ) → σ < 1 ∧ 0 < δ := by
    intro h
    rw [calcBias_real, if_neg hb.le.not_gt] at h
    simp only [Prod.mk.injEq, true_and] at h
    exact bias_single_pd hn ht rfl h1 h2 h
  cases hi with
  | none => exact single h
  | some b1 =>
    have h : (EllCalc.new n).calcParallelBiasCut β b1 tsq = _ := h
    have h01 := h3 b1 rfl
    rw [calcParallelBias_real, if_neg h01.le.not_gt] at h
    split at h
    · exact single h
    · rename_i hfar
      have hfar' : ¬ √tsq ≤ b1 := fun hc => hfar ((lt_sqrt_iff_sq ht).mpr hc)
      simp only [Prod.mk.injEq, true_and, calcParallelFast_real] at h
      obtain ⟨-, rfl, rfl⟩ := h
      have hb1 : b1 * b1 < tsq := by
        have := mul_self_lt_mul_self (abs_nonneg _) (abs_lt.mpr ⟨by linarith, not_le.mp hfar'⟩)
        rwa [Real.mul_self_sqrt ht.le, abs_mul_abs_self] at this
      have hn0 : (0 : ℝ) < n := by linarith
      have hnn : 0 < (n : ℝ) * n - 1 := by nlinarith
      have z0 : 0 < tsq - β * β := by linarith
      have z1 : 0 < tsq - b1 * b1 := by linarith
      have hξ : 0 ≤ √((tsq - β * β) * (tsq - b1 * b1) +
        (n / 2 * (b1 * b1 - β * β)) * (n / 2 * (b1 * b1 - β * β))) := Real.sqrt_nonneg _
      have hprod : 0 < tsq + β * b1 := by nlinarith [sq_nonneg (β + b1)]
      constructor
      · rcases le_or_gt 0 (tsq + n * (β * b1)) with hη | hη
        · exact (goodCut_parallel hn' ht hη (parFacts hn' h01 hη)).1.sig1
        · refine lt_of_le_of_lt (div_nonpos_of_nonpos_of_nonneg (by linarith) ?_) one_pos
          have : 0 ≤ (n : ℝ) / 2 * ((β + b1) * (β + b1)) :=
            mul_nonneg (by linarith) (mul_self_nonneg _)
          linarith
      · positivity

/-- **C13** (one step).  A successful non-degenerate cut of a valid ellipsoid (`M` positive definite,
`κ > 0`, `n ≥ 2`) by a nonzero gradient leaves a valid ellipsoid. -/
theorem C13_posDef_step [Cut T] (k : UpdateKind) (e e' : Ell ℝ) (cut : Arr ℝ × T) (he : e.Valid n)
    (hs : cut.1.IsVecShape n) (hg : cut.1.toVec n ≠ 0)
    (hc : Cut.NonDegenerate n k cut.2 (e.tsqOf n (cut.1.toVec n)))
    (h : Ell.space.update k e cut = .ok (.success, e')) :
    (e'.M n).PosDef ∧ 0 < e'.kappa ∧ e'.Valid n := by
  obtain ⟨ρ, σ, δ, hc', h2⟩ := Ell.update_real he.shaped he.symm he.pos k cut hs h
  rcases h2 with ⟨h2, _⟩ | ⟨_, ha⟩
  · exact absurd rfl h2
  rw [he.helper] at hc'
  obtain ⟨hσ, hδ⟩ := strat_pd he.dim (he.tsq_pos hg) k cut.2 hc hc'
  have := (ha.valid he hg hσ hδ).1
  exact ⟨this.posDef, this.kappa, this⟩

/-- **C13** (histories).  After any sequence of updates by nonzero gradients and non-degenerate cuts
(rejected or not), the ellipsoid is still positive definite with `κ > 0`. -/
theorem C13_posDef_sequence [Cut T] (m : Nat) (e e' : Ell ℝ) (he : e.Valid n)
    (h : Ell.Steps (T := T) n (fun k e g c => g ≠ 0 ∧ Cut.NonDegenerate n k c (e.tsqOf n g)) m e e') :
    (e'.M n).PosDef ∧ 0 < e'.kappa ∧ e'.Valid n := by
  suffices e'.Valid n from ⟨this.posDef, this.kappa, this⟩
  induction h with
  | nil => exact he
  | success _ hs hP hu ih => exact (C13_posDef_step _ _ _ _ (ih he) hs hP.1 hP.2 hu).2.2
  | rejected _ hs hP hu hst ih =>
    have ih := ih he
    obtain ⟨ρ, σ, δ, _, h2⟩ := Ell.update_real ih.shaped ih.symm ih.pos _ _ hs hu
    rcases h2 with ⟨_, rfl⟩ | ⟨h2, _⟩
    · exact ih.setTsq _
    · exact absurd h2 hst

/-- **C13** (start).  `Ell::new_with_matrix` with a positive definite matrix and `κ > 0`. -/
theorem C13_valid_with_matrix (kappa : ℝ) (mq xc : Arr ℝ) (hn : 2 ≤ n) (hm : mq.IsMatShape n n)
    (hx : xc.IsVecShape n) (hp : (mq.toMat n n).PosDef) (hk : 0 < kappa) :
    (Ell.newWithMatrix kappa mq xc).Valid n := by
  refine ⟨⟨hm, hx⟩, hn, hp, hk, ?_⟩
  have : xc.len = n := hx.2.2
  simp [Ell.newWithMatrix, this]

/-- **C13** (start).  `Ell::new(val, xc)` with positive `val`: the shape matrix is `diag(val)`, `κ = 1`. -/
theorem C13_valid_new (val xc : Arr ℝ) (hn : 2 ≤ n) (hv : val.IsVecShape n) (hx : xc.IsVecShape n)
    (hpos : ∀ i, 0 < val.toVec n i) :
    ∃ e, Ell.new val xc = .ok e ∧ e.Valid n ∧ e.M n = diagonal (val.toVec n) ∧ e.kappa = 1 ∧
      e.c n = xc.toVec n := by
  obtain ⟨y, h1, h2⟩ := fromDiag_spec hv.isVec
  have hy : y.toMat n n = diagonal (val.toVec n) := by
    rw [h2.toMat]
    ext i j
    simp only [of_apply, diagonal_apply, Fin.ext_iff]
    rfl
  refine ⟨Ell.newWithMatrix 1 y xc, ?_, ?_, hy, rfl, rfl⟩
  · simp [Ell.new, h1]
  · refine C13_valid_with_matrix 1 y xc hn h2.shape hx ?_ one_pos
    rw [hy]
    exact PosDef.diagonal hpos

/-- **C13** (start).  `Ell::new_with_scalar(val, xc)` with `val > 0` is the ball of squared radius `val`. -/
theorem C13_valid_with_scalar (val : ℝ) (xc : Arr ℝ) (hn : 2 ≤ n) (hx : xc.IsVecShape n) (hpos : 0 < val) :
    ∃ e, Ell.newWithScalar val xc = .ok e ∧ e.Valid n ∧
      e.region n = {x | normSq (x - xc.toVec n) ≤ val} := by
  obtain ⟨y, h1, h2⟩ := eye_spec (α := ℝ) n
  have hl : xc.len = n := hx.2.2
  have hy : y.toMat n n = 1 := by
    rw [h2.toMat]
    ext i j
    simp only [of_apply, one_apply, Fin.ext_iff]
  refine ⟨Ell.newWithMatrix val y xc, ?_, ?_, ?_⟩
  · simp [Ell.newWithScalar, hl, h1]
  · refine C13_valid_with_matrix val y xc hn h2.shape hx ?_ hpos
    rw [hy]
    exact PosDef.one
  · have : (Ell.newWithMatrix val y xc).M n = 1 := hy
    rw [Ell.region, this]
    ext x
    simp [ellipsoid, normSq, Ell.c, Ell.newWithMatrix]

/-! ### C14 - C17: containment -/

/-- **C14**.  A central cut succeeds and keeps the half of the ellipsoid with `gᵀ(x - xc) ≤ 0`. -/
theorem C14_central_keeps_half (e : Ell ℝ) (grad : Arr ℝ) (β : ℝ) (he : e.Valid n)
    (hs : grad.IsVecShape n) (hg : grad.toVec n ≠ 0) :
    ∃ e', Ell.space.update .central e (grad, (⟨β⟩ : SingleCut ℝ)) = .ok (.success, e') ∧
      ∀ x ∈ e.region n, grad.toVec n ⬝ᵥ (x - e.c n) ≤ 0 → x ∈ e'.region n := by
  obtain ⟨e', h⟩ := Ell.update_exists he.shaped he.symm he.pos .central
    ((grad, ⟨β⟩) : Arr ℝ × SingleCut ℝ) hs
  have hst : (CutType.call .central (⟨β⟩ : SingleCut ℝ) e.helper (e.tsqOf n (grad.toVec n))).1 = .success := by
    rfl
  rw [hst] at h
  refine ⟨e', h, fun x hx hle => ?_⟩
  refine (Ell.step_good he .central ((grad, ⟨β⟩) : Arr ℝ × SingleCut ℝ) hs hg
    ((Cut.adm_single ..).mpr trivial) h).2.1 x hx ⟨?_, by intro b hb; cases hb⟩
  simpa [UpdateKind.lo] using hle

/-- **C15**.  A bias cut with `-τ/n ≤ β < τ` succeeds and keeps every point with `gᵀ(x - xc) + β ≤ 0`. -/
theorem C15_bias_keeps_halfspace (e : Ell ℝ) (grad : Arr ℝ) (β : ℝ) (he : e.Valid n)
    (hs : grad.IsVecShape n) (hg : grad.toVec n ≠ 0)
    (h1 : -(e.tau n (grad.toVec n) / n) ≤ β) (h2 : β < e.tau n (grad.toVec n)) :
    ∃ e', Ell.space.update .bias e (grad, (⟨β⟩ : SingleCut ℝ)) = .ok (.success, e') ∧
      ∀ x ∈ e.region n, grad.toVec n ⬝ᵥ (x - e.c n) + β ≤ 0 → x ∈ e'.region n := by
  have hn : (1 : ℝ) < n := by exact_mod_cast (by have := he.dim; omega : 1 < n)
  have hn0 : (0 : ℝ) < n := by linarith
  have htp := he.tsq_pos hg
  have hτ : 0 < e.tau n (grad.toVec n) := Real.sqrt_pos.mpr htp
  have h1' : 0 ≤ e.tau n (grad.toVec n) + n * β := by
    have := mul_le_mul_of_nonneg_left h1 hn0.le
    have e1 : (n : ℝ) * -(e.tau n (grad.toVec n) / n) = -e.tau n (grad.toVec n) := by field_simp
    linarith
  obtain ⟨e', h⟩ := Ell.update_exists he.shaped he.symm he.pos .bias
    ((grad, ⟨β⟩) : Arr ℝ × SingleCut ℝ) hs
  have hst : (CutType.call .bias (⟨β⟩ : SingleCut ℝ) e.helper (e.tsqOf n (grad.toVec n))).1 = .success := by
    show (EllCalc.calcBiasCut _ _ _).1 = _
    rw [he.helper, calcBias_real, if_neg]
    have h3 : -e.tau n (grad.toVec n) ≤ β := by nlinarith
    rw [← Ell.tau_sq he]
    nlinarith
  rw [hst] at h
  refine ⟨e', h, fun x hx hle => ?_⟩
  refine (Ell.step_good he .bias ((grad, ⟨β⟩) : Arr ℝ × SingleCut ℝ) hs hg
    ((Cut.adm_single ..).mpr ⟨h1', h2⟩) h).2.1 x hx ⟨?_, by intro b hb; cases hb⟩
  simp only [Cut.lo_single, UpdateKind.lo_bias]
  exact hle

/-- **C16**.  A parallel bias cut whose slab meets the interior (`β0 < τ`, `-τ < β1`), with `β0 < β1`
and `τ² + n β0 β1 ≥ 0`, succeeds and keeps every point with `-β1 ≤ gᵀ(x - xc) ≤ -β0`. -/
theorem C16_parallel_keeps_slab (e : Ell ℝ) (grad : Arr ℝ) (β0 β1 : ℝ) (he : e.Valid n)
    (hs : grad.IsVecShape n) (hg : grad.toVec n ≠ 0) (h01 : β0 < β1)
    (h0 : β0 < e.tau n (grad.toVec n)) (h1 : -e.tau n (grad.toVec n) < β1)
    (hη : 0 ≤ e.tau n (grad.toVec n) ^ 2 + n * (β0 * β1)) :
    ∃ e', Ell.space.update .bias e (grad, (⟨β0, some β1⟩ : ParallelCut ℝ)) = .ok (.success, e') ∧
      ∀ x ∈ e.region n, -β1 ≤ grad.toVec n ⬝ᵥ (x - e.c n) → grad.toVec n ⬝ᵥ (x - e.c n) ≤ -β0 →
        x ∈ e'.region n := by
  have hn : (1 : ℝ) < n := by exact_mod_cast (by have := he.dim; omega : 1 < n)
  have hn0 : (0 : ℝ) < n := by linarith
  have htp := he.tsq_pos hg
  have hτ : 0 < e.tau n (grad.toVec n) := Real.sqrt_pos.mpr htp
  have hτ2 := Ell.tau_sq he (grad.toVec n)
  have hfar : e.tau n (grad.toVec n) ≤ β1 → 0 ≤ e.tau n (grad.toVec n) + n * β0 := by
    intro hf
    by_contra hc
    push Not at hc
    have hb : β0 < 0 := by nlinarith
    have h3 : (n : ℝ) * (β0 * β1) ≤ n * (β0 * e.tau n (grad.toVec n)) :=
      mul_le_mul_of_nonneg_left (mul_le_mul_of_nonpos_left hf hb.le) hn0.le
    nlinarith
  have hadm : Cut.Adm n .bias (⟨β0, some β1⟩ : ParallelCut ℝ) (e.tsqOf n (grad.toVec n)) := by
    refine ⟨h01, fun hf => ⟨hfar hf, h0⟩, fun _ => ⟨h1, fun _ => ?_⟩⟩
    show 0 ≤ _ + (n : ℝ) * (β0 * β1)
    rw [← hτ2]; linarith
  obtain ⟨e', h⟩ := Ell.update_exists he.shaped he.symm he.pos .bias
    ((grad, ⟨β0, some β1⟩) : Arr ℝ × ParallelCut ℝ) hs
  have hst : (CutType.call .bias (⟨β0, some β1⟩ : ParallelCut ℝ) e.helper
      (e.tsqOf n (grad.toVec n))).1 = .success := by
    show (EllCalc.calcParallelBiasCut _ _ _ _).1 = _
    rw [he.helper, calcParallelBias_real, if_neg h01.le.not_gt]
    split
    · rename_i hf
      have hf' := hfar ((lt_sqrt_iff_sq htp).mp hf)
      rw [calcBias_real, if_neg]
      have h3 : -e.tau n (grad.toVec n) ≤ β0 := by nlinarith
      rw [← hτ2]
      nlinarith
    · rfl
  rw [hst] at h
  refine ⟨e', h, fun x hx hge hle => ?_⟩
  refine (Ell.step_good he .bias _ hs hg hadm h).2.1 x hx ⟨?_, ?_⟩
  · have : UpdateKind.bias.lo β0 = β0 := by simp [UpdateKind.lo]
    show _ + UpdateKind.bias.lo β0 ≤ 0
    rw [this]; linarith
  · intro b hb
    have : β1 = b := by simpa [Cut.hi] using hb
    subst this
    linarith

/-- **C17**.  A parallel central cut with `β1 > 0` succeeds and keeps every point with
`-β1 ≤ gᵀ(x - xc) ≤ 0`. -/
theorem C17_parallel_central_keeps_slab (e : Ell ℝ) (grad : Arr ℝ) (β0 β1 : ℝ) (he : e.Valid n)
    (hs : grad.IsVecShape n) (hg : grad.toVec n ≠ 0) (h1 : 0 < β1) :
    ∃ e', Ell.space.update .central e (grad, (⟨β0, some β1⟩ : ParallelCut ℝ)) = .ok (.success, e') ∧
      ∀ x ∈ e.region n, -β1 ≤ grad.toVec n ⬝ᵥ (x - e.c n) → grad.toVec n ⬝ᵥ (x - e.c n) ≤ 0 →
        x ∈ e'.region n := by
  obtain ⟨e', h⟩ := Ell.update_exists he.shaped he.symm he.pos .central
    ((grad, ⟨β0, some β1⟩) : Arr ℝ × ParallelCut ℝ) hs
  have hst : (CutType.call .central (⟨β0, some β1⟩ : ParallelCut ℝ) e.helper
      (e.tsqOf n (grad.toVec n))).1 = .success := by
    show (EllCalc.calcParallelCentralCut _ _ _).1 = _
    rw [he.helper, calcParallelCentralS_real, if_neg (by linarith)]
    split <;> rfl
  rw [hst] at h
  have hadm : Cut.Adm n .central (⟨β0, some β1⟩ : ParallelCut ℝ) (e.tsqOf n (grad.toVec n)) := h1
  refine ⟨e', h, fun x hx hge hle => ?_⟩
  refine (Ell.step_good he .central _ hs hg hadm h).2.1 x hx ⟨?_, ?_⟩
  · simpa [UpdateKind.lo] using hle
  · intro b hb
    have : β1 = b := by simpa [Cut.hi] using hb
    subst this
    linarith

/-! ### C18, C19 -/

/-- **C18**.  If any update reports `NoSoln`, no point of the current ellipsoid satisfies the cut; for
bias cuts this needs `lo ≥ -τ` (in particular every `β ≥ 0`), see C53. -/
theorem C18_noSoln_sound [Cut T] (k : UpdateKind) (e e' : Ell ℝ) (cut : Arr ℝ × T) (hn : 0 < n)
    (hsh : e.Shaped n) (hpd : (e.M n).PosDef) (hκ : 0 ≤ e.kappa) (hh : e.helper = EllCalc.new n)
    (hs : cut.1.IsVecShape n)
    (hlo : k = .bias → -e.tau n (cut.1.toVec n) ≤ Cut.lo cut.2)
    (h : Ell.space.update k e cut = .ok (.noSoln, e')) :
    ∀ x ∈ e.region n, ¬ Cut.Sat k cut.2 (cut.1.toVec n ⬝ᵥ (x - e.c n)) := by
  intro x hx hsat
  obtain ⟨ρ, σ, δ, hc, _⟩ := Ell.update_real hsh (isSymm_of_posDef hpd) hn k cut hs h
  rw [hh, Cut.call_eq] at hc
  obtain ⟨hs1, hs2⟩ := hsat
  have htau := t_le_tau (dot_sq_le hpd hx (cut.1.toVec n))
  have ht0 : 0 ≤ e.tsqOf n (cut.1.toVec n) := mul_nonneg hκ (quad_nonneg hpd _)
  have hτ2 : e.tau n (cut.1.toVec n) * e.tau n (cut.1.toVec n) = e.tsqOf n (cut.1.toVec n) :=
    Real.mul_self_sqrt ht0
  have hτ0 : 0 ≤ e.tau n (cut.1.toVec n) := Real.sqrt_nonneg _
  have htau : 0 ≤ cut.1.toVec n ⬝ᵥ (x - e.c n) + e.tau n (cut.1.toVec n) := htau
  have htd : √(e.tsqOf n (cut.1.toVec n)) = e.tau n (cut.1.toVec n) := rfl
  clear h
  generalize e.tsqOf n (cut.1.toVec n) = tsq at *
  generalize e.tau n (cut.1.toVec n) = τ at *
  generalize cut.1.toVec n ⬝ᵥ (x - e.c n) = t at *
  generalize Cut.lo cut.2 = β at *
  generalize Cut.hi cut.2 = hi at *
  have bias : k = .bias → (EllCalc.new n).calcBiasCut β tsq = (.noSoln, ρ, σ, δ) → False := by
    intro hk h
    subst hk
    rw [calcBias_real] at h
    split at h
    · rename_i hlt
      have := hlo rfl
      have hs1 : t + β ≤ 0 := by simpa [UpdateKind.lo] using hs1
      have h1 : β ≤ τ := by linarith
      nlinarith
    · simp at h
  have q : k = .q → (EllCalc.new n).calcBiasCutQ β tsq = (.noSoln, ρ, σ, δ) → False := by
    intro hk h
    subst hk
    rw [calcBiasQ_real] at h
    have hs1 : t + β ≤ 0 := by simpa [UpdateKind.lo] using hs1
    split at h
    · rename_i hlt
      rw [htd] at hlt
      linarith
    · split at h <;> simp at h
  cases hi with
  | none =>
    cases k with
    | bias => exact bias rfl hc
    | q => exact q rfl hc
    | central =>
      have hc : (EllCalc.new n).calcCentralCut tsq = _ := hc
      rw [calcCentralS_real] at hc
      simp at hc
  | some b1 =>
    have hs2 := hs2 b1 rfl
    cases k with
    | bias =>
      have hs1 : t + β ≤ 0 := by simpa [UpdateKind.lo] using hs1
      have hc : (EllCalc.new n).calcParallelBiasCut β b1 tsq = _ := hc
      rw [calcParallelBias_real] at hc
      split at hc
      · linarith
      · split at hc
        · exact bias rfl hc
        · simp at hc
    | q =>
      have hs1 : t + β ≤ 0 := by simpa [UpdateKind.lo] using hs1
      have hc : (EllCalc.new n).calcParallelQ β b1 tsq = _ := hc
      rw [calcParallelQ_real] at hc
      split at hc
      · linarith
      · split at hc
        · exact q rfl hc
        · split at hc <;> simp at hc
    | central =>
      have hs1 : t ≤ 0 := by simpa [UpdateKind.lo] using hs1
      have hc : (EllCalc.new n).calcParallelCentralCut b1 tsq = _ := hc
      rw [calcParallelCentralS_real] at hc
      split at hc
      · linarith
      · rw [calcCentralS_real] at hc
        split at hc <;> simp at hc

/-- **C19**.  `update_q` with `SingleCut(β)`, for every `β ≠ τ`: whatever the status, every point of the
old ellipsoid satisfying the cut is in the new one; `NoSoln` means there is none; `NoEffect` leaves the
ellipsoid as it was; no other status occurs. -/
theorem C19_q_sound (e : Ell ℝ) (grad : Arr ℝ) (β : ℝ) (he : e.Valid n)
    (hs : grad.IsVecShape n) (hg : grad.toVec n ≠ 0) (hβ : β ≠ e.tau n (grad.toVec n)) :
    ∃ st e', Ell.space.update .q e (grad, (⟨β⟩ : SingleCut ℝ)) = .ok (st, e') ∧ e'.Valid n ∧
      (∀ x ∈ e.region n, grad.toVec n ⬝ᵥ (x - e.c n) + β ≤ 0 → x ∈ e'.region n) ∧
      (st = .noSoln → ∀ x ∈ e.region n, ¬ grad.toVec n ⬝ᵥ (x - e.c n) + β ≤ 0) ∧
      (st ≠ .success → e'.region n = e.region n) ∧
      (st = .success ∨ st = .noSoln ∨ st = .noEffect) := by
  obtain ⟨e', h⟩ := Ell.update_exists he.shaped he.symm he.pos .q
    ((grad, ⟨β⟩) : Arr ℝ × SingleCut ℝ) hs
  generalize hst : (CutType.call .q (⟨β⟩ : SingleCut ℝ) e.helper (e.tsqOf n (grad.toVec n))).1 = st at h
  have hsat : ∀ t, t + β ≤ 0 ↔ Cut.Sat .q (⟨β⟩ : SingleCut ℝ) t := by
    intro t
    constructor
    · intro h
      exact ⟨by simpa using h, by intro b hb; cases hb⟩
    · intro h; simpa using h.1
  have hrej : st ≠ .success → e' = { e with tsq := e.tsqOf n (grad.toVec n) } := by
    intro hne
    obtain ⟨ρ, σ, δ, _, h2⟩ := Ell.update_real he.shaped he.symm he.pos .q _ hs h
    rcases h2 with ⟨_, h2⟩ | ⟨h2, _⟩
    · exact h2
    · exact absurd h2 hne
  have hno : st = .noSoln → ∀ x ∈ e.region n, ¬ grad.toVec n ⬝ᵥ (x - e.c n) + β ≤ 0 := by
    intro hst' x hx hc
    subst hst'
    refine C18_noSoln_sound .q e e' _ he.pos he.shaped he.posDef he.kappa.le he.helper hs (by simp)
      h x hx ((hsat _).mp hc)
  refine ⟨st, e', h, ?_, ?_, hno, ?_, ?_⟩
  · by_cases hsu : st = .success
    · subst hsu
      exact (Ell.step_good he .q ((grad, ⟨β⟩) : Arr ℝ × SingleCut ℝ) hs hg
        ((Cut.adm_single ..).mpr hβ) h).1
    · rw [hrej hsu]; exact he.setTsq _
  · intro x hx hle
    by_cases hsu : st = .success
    · subst hsu
      exact (Ell.step_good he .q ((grad, ⟨β⟩) : Arr ℝ × SingleCut ℝ) hs hg
        ((Cut.adm_single ..).mpr hβ) h).2.1 x hx ((hsat _).mp hle)
    · rw [hrej hsu]; exact hx
  · intro hne
    rw [hrej hne]; rfl
  · rw [← hst]
    have e1 : CutType.call .q (⟨β⟩ : SingleCut ℝ) e.helper (e.tsqOf n (grad.toVec n)) =
      (EllCalc.new n).calcBiasCutQ β (e.tsqOf n (grad.toVec n)) := by rw [he.helper]; rfl
    rw [e1, calcBiasQ_real]
    split
    · exact Or.inr (Or.inl rfl)
    · split
      · exact Or.inr (Or.inr rfl)
      · exact Or.inl rfl

/-- **C19** (parallel).  `update_q` with `ParallelCut(β0, Some(β1))` whose planes differ and whose slab is
not outside or merely touching (`β0 ≠ β1`, `β0 ≠ τ`, `-τ < β1`): no sign conditions; all points of the
old ellipsoid in the slab are kept, `NoSoln` is only reported if there are none. -/
theorem C19_q_parallel_sound (e : Ell ℝ) (grad : Arr ℝ) (β0 β1 : ℝ) (he : e.Valid n)
    (hs : grad.IsVecShape n) (hg : grad.toVec n ≠ 0) (h01 : β0 ≠ β1)
    (h0 : β0 ≠ e.tau n (grad.toVec n)) (h1 : -e.tau n (grad.toVec n) < β1) :
    ∃ st e', Ell.space.update .q e (grad, (⟨β0, some β1⟩ : ParallelCut ℝ)) = .ok (st, e') ∧ e'.Valid n ∧
      (∀ x ∈ e.region n, -β1 ≤ grad.toVec n ⬝ᵥ (x - e.c n) → grad.toVec n ⬝ᵥ (x - e.c n) ≤ -β0 →
        x ∈ e'.region n) ∧
      (st = .noSoln → ∀ x ∈ e.region n,
        ¬ (-β1 ≤ grad.toVec n ⬝ᵥ (x - e.c n) ∧ grad.toVec n ⬝ᵥ (x - e.c n) ≤ -β0)) ∧
      (st ≠ .success → e'.region n = e.region n) := by
  obtain ⟨e', h⟩ := Ell.update_exists he.shaped he.symm he.pos .q
    ((grad, ⟨β0, some β1⟩) : Arr ℝ × ParallelCut ℝ) hs
  generalize hst : (CutType.call .q (⟨β0, some β1⟩ : ParallelCut ℝ) e.helper
    (e.tsqOf n (grad.toVec n))).1 = st at h
  have hsat : ∀ t, -β1 ≤ t → t ≤ -β0 → Cut.Sat .q (⟨β0, some β1⟩ : ParallelCut ℝ) t := by
    intro t h1 h2
    refine ⟨?_, ?_⟩
    · have : UpdateKind.q.lo β0 = β0 := by simp [UpdateKind.lo]
      show t + UpdateKind.q.lo β0 ≤ 0
      rw [this]; linarith
    · intro b hb
      have : β1 = b := by simpa [Cut.hi] using hb
      subst this; linarith
  have hrej : st ≠ .success → e' = { e with tsq := e.tsqOf n (grad.toVec n) } := by
    intro hne
    obtain ⟨ρ, σ, δ, _, h2⟩ := Ell.update_real he.shaped he.symm he.pos .q _ hs h
    rcases h2 with ⟨_, h2⟩ | ⟨h2, _⟩
    · exact h2
    · exact absurd h2 hne
  have hadm : st = .success → Cut.Adm n .q (⟨β0, some β1⟩ : ParallelCut ℝ) (e.tsqOf n (grad.toVec n)) := by
    intro hsu
    have hlt : β0 < β1 := by
      rcases lt_or_gt_of_ne h01 with h | h
      · exact h
      · exfalso
        have hst : ((EllCalc.new n).calcParallelQ β0 β1 (e.tsqOf n (grad.toVec n))).1 = st := by
          rw [← hst, he.helper]; rfl
        rw [calcParallelQ_real, if_pos h] at hst
        rw [hsu] at hst; cases hst
    exact ⟨hlt, fun _ => h0, fun _ => ⟨h1, fun h => by cases h⟩⟩
  refine ⟨st, e', h, ?_, ?_, ?_, ?_⟩
  · by_cases hsu : st = .success
    · have := hadm hsu
      subst hsu
      exact (Ell.step_good he .q _ hs hg this h).1
    · rw [hrej hsu]; exact he.setTsq _
  · intro x hx hge hle
    by_cases hsu : st = .success
    · have := hadm hsu
      subst hsu
      exact (Ell.step_good he .q _ hs hg this h).2.1 x hx (hsat _ hge hle)
    · rw [hrej hsu]; exact hx
  · intro hst' x hx hc
    subst hst'
    exact C18_noSoln_sound .q e e' _ he.pos he.shaped he.posDef he.kappa.le he.helper hs (by simp)
      h x hx (hsat _ hc.1 hc.2)
  · intro hne
    rw [hrej hne]; rfl

/-! ### C20 -/

/-- **C20** (one step).  A successful cut through or beyond the centre (central, or `lo ≥ 0`) multiplies
`det(κM)` by at most `exp(-1/(n+1))`. -/
theorem C20_volume_step [Cut T] (k : UpdateKind) (e e' : Ell ℝ) (cut : Arr ℝ × T) (he : e.Valid n)
    (hs : cut.1.IsVecShape n) (hg : cut.1.toVec n ≠ 0)
    (hc : Cut.Adm n k cut.2 (e.tsqOf n (cut.1.toVec n))) (hlo : k = .central ∨ 0 ≤ Cut.lo cut.2)
    (h : Ell.space.update k e cut = .ok (.success, e')) :
    (e'.kappa • e'.M n).det ≤ Real.exp (-(1 / ((n : ℝ) + 1))) * (e.kappa • e.M n).det := by
  refine (Ell.step_good he k cut hs hg hc h).2.2.1 ?_
  unfold UpdateKind.lo
  split
  · exact le_rfl
  · rcases hlo with h | h
    · exact absurd h ‹_›
    · exact h

/-- **C20** (`m` steps).  After `m` successful such cuts (and any number of rejected ones)
`det(κM)` has been multiplied by at most `exp(-m/(n+1))`. -/
theorem C20_volume_sequence [Cut T] (m : Nat) (e e' : Ell ℝ) (he : e.Valid n)
    (h : Ell.Steps (T := T) n (fun k e g c => g ≠ 0 ∧ Cut.Adm n k c (e.tsqOf n g) ∧
      (k = .central ∨ 0 ≤ Cut.lo c)) m e e') :
    (e'.kappa • e'.M n).det ≤ Real.exp (-((m : ℝ) / ((n : ℝ) + 1))) * (e.kappa • e.M n).det := by
  suffices e'.Valid n ∧
      e'.vol2 n ≤ Real.exp (-((m : ℝ) / ((n : ℝ) + 1))) * e.vol2 n from this.2
  induction h with
  | nil => exact ⟨he, by simp⟩
  | @success m' _ _ _ _ _ _ hs hP hu ih =>
    have ih := ih he
    refine ⟨(Ell.step_good ih.1 _ _ hs hP.1 hP.2.1 hu).1, ?_⟩
    have h1 := C20_volume_step _ _ _ _ ih.1 hs hP.1 hP.2.1 hP.2.2 hu
    refine h1.trans ?_
    have h2 := mul_le_mul_of_nonneg_left ih.2 (Real.exp_pos (-(1 / ((n : ℝ) + 1)))).le
    refine h2.trans (le_of_eq ?_)
    rw [← mul_assoc, ← Real.exp_add]
    congr 2
    push_cast
    ring
  | rejected _ hs hP hu hst ih =>
    have ih := ih he
    obtain ⟨ρ, σ, δ, _, h2⟩ := Ell.update_real ih.1.shaped ih.1.symm ih.1.pos _ _ hs hu
    rcases h2 with ⟨_, rfl⟩ | ⟨h2, _⟩
    · exact ⟨ih.1.setTsq _, ih.2⟩
    · exact absurd h2 hst

end Ellalgo
