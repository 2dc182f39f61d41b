import Verif.Props.EllReal

/-! C21, C27, C53. -/

namespace Ellalgo
open Matrix
open scoped ComplexOrder

variable {n : Nat} {T : Type}

/-! ### C21 -/

/-- Two ellipsoid objects that stand for the same ellipsoid: same centre, same `tsq`, same helper and
`κ₁ M₁ = κ₂ M₂`. -/
structure Ell.Same (n : Nat) (e1 e2 : Ell ℝ) : Prop where
  xc : e1.c n = e2.c n
  tsq : e1.tsq = e2.tsq
  shape : e1.kappa • e1.M n = e2.kappa • e2.M n

/-- invariant of the bisimulation -/
structure Ell.Rel (n : Nat) (e1 e2 : Ell ℝ) : Prop where
  same : e1.Same n e2
  helper : e1.helper = e2.helper
  sh1 : e1.Shaped n
  sh2 : e2.Shaped n
  sy1 : (e1.M n).IsSymm
  sy2 : (e2.M n).IsSymm
  k1 : e1.kappa ≠ 0
  k2 : e2.kappa ≠ 0

theorem cutM_smul (M : Matrix (Fin n) (Fin n) ℝ) (g : Fin n → ℝ) (σ a : ℝ) :
    cutM (a • M) g σ = a • cutM M g σ := by
  unfold cutM
  rw [smul_sub, smul_mulVec, dotProduct_smul, smul_smul]
  congr 1
  ext i j
  simp only [Matrix.smul_apply, vecMulVec_apply, Pi.smul_apply, smul_eq_mul]
  by_cases ha : a = 0
  · simp [ha]
  · rw [div_mul_eq_div_div]; field_simp

theorem Ell.rel_step [CutType T ℝ] {e1 e2 : Ell ℝ} (hR : Ell.Rel n e1 e2) (hn : 0 < n) (k : UpdateKind)
    (cut : Arr ℝ × T) (hs : cut.1.IsVecShape n) :
    ∃ st e1' e2', Ell.space.update k e1 cut = .ok (st, e1') ∧ Ell.space.update k e2 cut = .ok (st, e2') ∧
      e1'.Same n e2' ∧ (e1'.kappa ≠ 0 → e2'.kappa ≠ 0 → Ell.Rel n e1' e2') ∧
      (e1'.noDeferTrick = e1.noDeferTrick) ∧ (e2'.noDeferTrick = e2.noDeferTrick) ∧
      (e2.noDeferTrick = true → e2'.kappa ≠ 0) := by
  have hM2 : e2.M n = (e1.kappa / e2.kappa) • e1.M n := by
    have h := hR.same.shape
    rw [div_eq_inv_mul, ← smul_smul, h, smul_smul, inv_mul_cancel₀ hR.k2, one_smul]
  set g := cut.1.toVec n
  have htsq : e1.tsqOf n g = e2.tsqOf n g := by
    unfold Ell.tsqOf
    rw [hM2, smul_mulVec, dotProduct_smul, smul_eq_mul, ← mul_assoc, mul_div_cancel₀ _ hR.k2]
  obtain ⟨e1', h1⟩ := Ell.update_exists hR.sh1 hR.sy1 hn k cut hs
  obtain ⟨e2', h2⟩ := Ell.update_exists hR.sh2 hR.sy2 hn k cut hs
  rw [← hR.helper, ← htsq] at h2
  rcases hc : CutType.call k cut.2 e1.helper (e1.tsqOf n (cut.1.toVec n)) with ⟨st, ρ, σ, δ⟩
  have hst : (CutType.call k cut.2 e1.helper (e1.tsqOf n g)).1 = st := by rw [hc]
  have hst' : (CutType.call k cut.2 e1.helper (e1.tsqOf n (cut.1.toVec n))).1 = st := hst
  rw [hst'] at h1
  rw [hst] at h2
  obtain ⟨ρ1, σ1, δ1, hc1, hr1⟩ := Ell.update_real hR.sh1 hR.sy1 hn k cut hs h1
  obtain ⟨ρ2, σ2, δ2, hc2, hr2⟩ := Ell.update_real hR.sh2 hR.sy2 hn k cut hs h2
  have hc2' : CutType.call k cut.2 e1.helper (e1.tsqOf n (cut.1.toVec n)) = (st, ρ2, σ2, δ2) := by
    rw [hR.helper]; rw [← hc2]; congr 1
  rw [hc] at hc1 hc2'
  simp only [Prod.mk.injEq, true_and] at hc1 hc2'
  obtain ⟨rfl, rfl, rfl⟩ := hc1
  obtain ⟨rfl, rfl, rfl⟩ := hc2'
  refine ⟨st, e1', e2', h1, h2, ?_⟩
  by_cases hsu : st = .success
  · rcases hr1 with ⟨h, _⟩ | ⟨_, ha1⟩
    · exact absurd hsu h
    rcases hr2 with ⟨h, _⟩ | ⟨_, ha2⟩
    · exact absurd hsu h
    have hk1 : e1'.kappa • e1'.M n = (e1.kappa * δ) • cutM (e1.M n) g σ := by
      rw [ha1.M, ha1.kappa]; cases e1.noDeferTrick
      · rfl
      · simp only [if_true, one_smul]; rfl
    have hk2 : e2'.kappa • e2'.M n = (e2.kappa * δ) • cutM (e2.M n) g σ := by
      rw [ha2.M, ha2.kappa]; cases e2.noDeferTrick
      · rfl
      · simp only [if_true, one_smul]; rfl
    have hsame : e1'.Same n e2' := by
      refine ⟨?_, ?_, ?_⟩
      · rw [ha1.c, ha2.c, hR.same.xc, hM2]
        congr 1
        rw [smul_mulVec, dotProduct_smul, smul_smul, smul_eq_mul]
        congr 1
        have := hR.k1
        have := hR.k2
        by_cases hω : cut.1.toVec n ⬝ᵥ (e1.M n *ᵥ cut.1.toVec n) = 0
        · simp [hω]
        · field_simp
      · rw [ha1.tsq, ha2.tsq]; exact htsq
      · rw [hk1, hk2, hM2, cutM_smul, smul_smul]
        congr 1
        have := hR.k2
        field_simp
    refine ⟨hsame, ?_, ha1.defer, ha2.defer, ?_⟩
    · intro k1 k2
      refine ⟨hsame, ?_, ha1.shaped, ha2.shaped, ?_, ?_, k1, k2⟩
      · rw [ha1.helper, ha2.helper, hR.helper]
      · rw [ha1.M]
        split
        · exact (cutM_symm hR.sy1 _ _).smul _
        · exact cutM_symm hR.sy1 _ _
      · rw [ha2.M]
        split
        · exact (cutM_symm hR.sy2 _ _).smul _
        · exact cutM_symm hR.sy2 _ _
    · intro hd
      rw [ha2.kappa, hd]; simp
  · rcases hr1 with ⟨_, ha1⟩ | ⟨h, _⟩
    swap
    · exact absurd h hsu
    rcases hr2 with ⟨_, ha2⟩ | ⟨h, _⟩
    swap
    · exact absurd h hsu
    subst ha1 ha2
    refine ⟨⟨hR.same.xc, htsq, hR.same.shape⟩, ?_, rfl, rfl, fun _ => hR.k2⟩
    intro _ _
    exact ⟨⟨hR.same.xc, htsq, hR.same.shape⟩, hR.helper, hR.sh1, hR.sh2, hR.sy1, hR.sy2, hR.k1, hR.k2⟩

/-- **C21**.  Run the same cuts on an ellipsoid and on its copy with `no_defer_trick` switched on.  Both
runs return; as long as `κ` has not become exactly 0 in the first one (which for admissible cuts never
happens, C13), at every step the statuses, `tsq`, the centres and the ellipsoids `κM` are the same. -/
theorem C21_no_defer_trick [CutType T ℝ] (e : Ell ℝ) (hn : 0 < n) (he : e.Shaped n)
    (hsym : (e.M n).IsSymm) (hk : e.kappa ≠ 0)
    (cuts : List (UpdateKind × Arr ℝ × T)) (hs : ∀ c ∈ cuts, c.2.1.IsVecShape n) :
    ∃ tr1 tr2, Ell.space.run e cuts = .ok tr1 ∧
      Ell.space.run { e with noDeferTrick := true } cuts = .ok tr2 ∧
      tr1.length = cuts.length ∧ tr2.length = cuts.length ∧
      ∀ i (h1 : i < tr1.length) (h2 : i < tr2.length),
        (∀ j (hj : j < i), (tr1[j]'(by omega)).2.kappa ≠ 0) →
        tr1[i].1 = tr2[i].1 ∧ tr1[i].2.c n = tr2[i].2.c n ∧ tr1[i].2.tsq = tr2[i].2.tsq ∧
        tr1[i].2.kappa • tr1[i].2.M n = tr2[i].2.kappa • tr2[i].2.M n := by
  -- totality of runs
  have total : ∀ (cuts : List (UpdateKind × Arr ℝ × T)) (e : Ell ℝ), e.Shaped n → (e.M n).IsSymm →
      (∀ c ∈ cuts, c.2.1.IsVecShape n) → ∃ tr, Ell.space.run e cuts = .ok tr ∧ tr.length = cuts.length := by
    intro cuts
    induction cuts with
    | nil => intro e _ _ _; exact ⟨[], rfl, rfl⟩
    | cons c cs ih =>
      intro e he hsy hs
      obtain ⟨kd, cut⟩ := c
      have hsc : cut.1.IsVecShape n := hs (kd, cut) List.mem_cons_self
      obtain ⟨e', h1⟩ := Ell.update_exists he hsy hn kd cut hsc
      obtain ⟨ρ, σ, δ, _, hr⟩ := Ell.update_real he hsy hn kd cut hsc h1
      have hse : e'.Shaped n ∧ (e'.M n).IsSymm := by
        rcases hr with ⟨_, rfl⟩ | ⟨_, ha⟩
        · exact ⟨he, hsy⟩
        · refine ⟨ha.shaped, ?_⟩
          rw [ha.M]
          split
          · exact (cutM_symm hsy _ _).smul _
          · exact cutM_symm hsy _ _
      obtain ⟨tr, h2, h3⟩ := ih e' hse.1 hse.2 (fun c hc => hs c (List.mem_cons_of_mem _ hc))
      refine ⟨_, by simp only [Space.run, h1, Res.ok_bind, h2]; rfl, by simp [h3]⟩
  have key : ∀ (cuts : List (UpdateKind × Arr ℝ × T)) (e1 e2 : Ell ℝ), Ell.Rel n e1 e2 →
      e2.noDeferTrick = true → (∀ c ∈ cuts, c.2.1.IsVecShape n) →
      ∀ tr1 tr2, Ell.space.run e1 cuts = .ok tr1 → Ell.space.run e2 cuts = .ok tr2 →
      ∀ i (h1 : i < tr1.length) (h2 : i < tr2.length),
        (∀ j (hj : j < i), (tr1[j]'(by omega)).2.kappa ≠ 0) →
        tr1[i].1 = tr2[i].1 ∧ tr1[i].2.Same n tr2[i].2 := by
    intro cuts
    induction cuts with
    | nil =>
      intro e1 e2 _ _ _ tr1 tr2 h1 _ i hi
      simp only [Space.run, Res.ok.injEq] at h1
      subst h1
      simp at hi
    | cons c cs ih =>
      intro e1 e2 hR hd2 hs tr1 tr2 h1 h2 i hi1 hi2 hk
      obtain ⟨kd, cut⟩ := c
      have hsc : cut.1.IsVecShape n := hs (kd, cut) List.mem_cons_self
      obtain ⟨st, e1', e2', u1, u2, hsame, hrel, hd1', hd2', hk2⟩ := Ell.rel_step hR hn kd cut hsc
      simp only [Space.run, u1, u2, Res.ok_bind, Res.bind_eq_ok] at h1 h2
      obtain ⟨t1, r1, h1⟩ := h1
      obtain ⟨t2, r2, h2⟩ := h2
      simp only [Res.ok.injEq] at h1 h2
      subst h1 h2
      cases i with
      | zero => exact ⟨rfl, hsame⟩
      | succ i =>
        simp only [List.getElem_cons_succ]
        have hk0 : e1'.kappa ≠ 0 := hk 0 (by omega)
        refine ih e1' e2' (hrel hk0 (hk2 hd2)) (hd2'.trans hd2)
          (fun c hc => hs c (List.mem_cons_of_mem _ hc)) t1 t2 r1 r2 i (by simpa using hi1)
          (by simpa using hi2) ?_
        intro j hj
        exact hk (j + 1) (by omega)
  obtain ⟨tr1, r1, l1⟩ := total cuts e he hsym hs
  obtain ⟨tr2, r2, l2⟩ := total cuts { e with noDeferTrick := true } he hsym hs
  refine ⟨tr1, tr2, r1, r2, l1, l2, ?_⟩
  intro i h1 h2 hk'
  have hR : Ell.Rel n e { e with noDeferTrick := true } :=
    ⟨⟨rfl, rfl, rfl⟩, rfl, he, he, hsym, hsym, hk, hk⟩
  obtain ⟨a, b⟩ := key cuts e _ hR rfl hs tr1 tr2 r1 r2 i h1 h2 hk'
  exact ⟨a, b.xc, b.tsq, b.shape⟩

/-! ### C27 -/

section C27
variable {τ : ℝ} {β0 β1 β tsq : ℝ}

theorem GoodCut.del_eq {tsq b0 b1 ρ σ δ : ℝ} (h : GoodCut tsq b0 b1 ρ σ δ) (ht : 0 < tsq) :
    δ = (tsq + σ / (1 - σ) * (σ * ((b0 + b1) / 2) ^ 2 - b0 * b1)) / tsq := by
  rw [eq_div_iff ht.ne', h.del]

/-- **C27** (fast = old).  The two parallel-cut formulas agree for every dimension `n > 1`, `tsq > 0`,
`β0 < β1`, `η = tsq + n β0 β1 ≥ 0`. -/
theorem C27_fast_eq_old (n : ℝ) (hn : 1 < n) (ht : 0 < tsq) (h01 : β0 < β1)
    (hη : 0 ≤ tsq + n * (β0 * β1)) :
    (EllCalcCore.new n).calcParallelBiasCutFast β0 β1 tsq (β0 * β1) (tsq + n * (β0 * β1)) =
    (EllCalcCore.new n).calcParallelBiasCutFastOld β0 β1 tsq (β0 * β1) (tsq + n * (β0 * β1)) := by
  have hf := parFacts hn h01 hη
  obtain ⟨hg, -⟩ := goodCut_parallel hn ht hη hf
  rw [calcParallelFast_real]
  have hξ : √((tsq - β0 * β0) * (tsq - β1 * β1) +
      (n / 2 * (β1 * β1 - β0 * β0)) * (n / 2 * (β1 * β1 - β0 * β0))) =
      2 * √(((tsq + β0 * β1) / 2 + n * ((β0 + β1) / 2) ^ 2) ^ 2 -
      (n + 1) * (tsq + n * (β0 * β1)) * ((β0 + β1) / 2) ^ 2) := by
    rw [xi_sq_eq, Real.sqrt_mul (by norm_num)]
    congr 1
    rw [show (4 : ℝ) = 2 ^ 2 by norm_num, Real.sqrt_sq (by norm_num)]
  have hdec : (Scalar.dec 5 1 : ℝ) = 1 / 2 := by rw [Scalar.real_dec]; norm_num
  dsimp only at hg ⊢
  have hh := hf.h0
  have hx := hf.xi0
  rw [hξ] at hg hx ⊢
  set h := (tsq + β0 * β1) / 2 + n * ((β0 + β1) / 2) ^ 2 with hhd
  set η := tsq + n * (β0 * β1) with hηd
  set s := √(h ^ 2 - (n + 1) * η * ((β0 + β1) / 2) ^ 2) with hs
  have hden : tsq + β0 * β1 + n / 2 * ((β0 + β1) * (β0 + β1)) + 2 * s = 2 * (h + s) := by
    rw [hhd]; ring
  rw [hden] at hg ⊢
  have hks : 0 < h + s := by linarith
  have hσ : 2 * η / (2 * (h + s)) = η / (h + s) := by field_simp
  rw [hσ] at hg ⊢
  have hdel := hg.del_eq ht
  have hs1 := hg.sig1
  have hlt : η < h + s := by rwa [div_lt_one hks] at hs1
  have hne : h + s - η ≠ 0 := by linarith
  unfold EllCalcCore.calcParallelBiasCutFastOld
  simp only [EllCalcCore.new, hdec, Scalar.real_sqrt]
  have e1 : (tsq + β0 * β1) * (1 / 2) + n * ((β0 + β1) * (1 / 2) * ((β0 + β1) * (1 / 2))) = h := by
    rw [hhd]; ring
  have e2 : h * h - η * (n + 1) * ((β0 + β1) * (1 / 2) * ((β0 + β1) * (1 / 2))) =
      h ^ 2 - (n + 1) * η * ((β0 + β1) / 2) ^ 2 := by ring
  rw [e1, e2, ← hs]
  refine Prod.ext ?_ (Prod.ext rfl ?_)
  · show η / (h + s) * (β0 + β1) / 2 = (β0 + β1) * (1 / 2) * (η / (h + s))
    ring
  · refine hdel.trans ?_
    show _ = (tsq + η / (h + s - η) * ((β0 + β1) * (1 / 2) * ((β0 + β1) * (1 / 2)) * (η / (h + s)) - β0 * β1)) / tsq
    have e3 : η / (h + s) / (1 - η / (h + s)) = η / (h + s - η) := by
      have : 1 - η / (h + s) = (h + s - η) / (h + s) := by field_simp
      rw [this]; field_simp
    rw [e3]
    congr 2
    ring

/-- **C27** (central parallel).  `calc_parallel_central_cut(β1) = calc_parallel_bias_cut(0, β1)` for
`0 < β1 < τ`. -/
theorem C27_parallel_central_eq (n : ℝ) (hn : 1 < n) (ht : 0 < tsq) (h1 : 0 < β1) (hlt : β1 * β1 < tsq) :
    (EllCalcCore.new n).calcParallelCentralCut β1 tsq =
      (EllCalcCore.new n).calcParallelBiasCut 0 β1 tsq := by
  obtain ⟨hr, -, hg1⟩ := goodCut_parallel_central hn ht h1 hlt
  have hη : 0 ≤ tsq + n * (0 * β1) := by simp; exact ht.le
  obtain ⟨hg2, -⟩ := goodCut_parallel hn ht hη (parFacts hn h1 hη)
  have e0 : (EllCalcCore.new n).calcParallelBiasCut 0 β1 tsq =
      (EllCalcCore.new n).calcParallelBiasCutFast 0 β1 tsq (0 * β1) (tsq + n * (0 * β1)) := by
    simp [EllCalcCore.calcParallelBiasCut, EllCalcCore.new]
  rw [e0, calcParallelFast_real, calcParallelCentral_real]
  dsimp only at hg1 hg2 hr ⊢
  have ha : 0 < β1 * β1 / tsq := by positivity
  have hξ : √((tsq - 0 * 0) * (tsq - β1 * β1) +
      (n / 2 * (β1 * β1 - 0 * 0)) * (n / 2 * (β1 * β1 - 0 * 0))) =
      tsq * √(1 - β1 * β1 / tsq + n / 2 * (β1 * β1 / tsq) * (n / 2 * (β1 * β1 / tsq))) := by
    have : (tsq - 0 * 0) * (tsq - β1 * β1) +
      (n / 2 * (β1 * β1 - 0 * 0)) * (n / 2 * (β1 * β1 - 0 * 0)) = tsq ^ 2 *
      (1 - β1 * β1 / tsq + n / 2 * (β1 * β1 / tsq) * (n / 2 * (β1 * β1 / tsq))) := by
      field_simp; ring
    rw [this, Real.sqrt_mul (by positivity), Real.sqrt_sq ht.le]
  rw [hξ] at hg2 ⊢
  generalize √(1 - β1 * β1 / tsq + n / 2 * (β1 * β1 / tsq) * (n / 2 * (β1 * β1 / tsq))) = s at *
  have hσ : 2 * (tsq + n * (0 * β1)) / (tsq + 0 * β1 + n / 2 * ((0 + β1) * (0 + β1)) + tsq * s) =
      2 / (n / 2 * (β1 * β1 / tsq) + s + 1) := by
    have e : tsq + 0 * β1 + n / 2 * ((0 + β1) * (0 + β1)) + tsq * s =
        tsq * (n / 2 * (β1 * β1 / tsq) + s + 1) := by field_simp; ring
    rw [e]
    have : n / 2 * (β1 * β1 / tsq) + s + 1 ≠ 0 := by linarith
    field_simp
    ring
  rw [hσ] at hg2 ⊢
  refine Prod.ext ?_ (Prod.ext rfl ?_)
  · simp only; ring
  · exact (hg1.del_eq ht).trans (hg2.del_eq ht).symm

/-- **C27** (central).  `calc_central_cut = calc_bias_cut(0)` (status and parameters), `tsq > 0`. -/
theorem C27_central_eq_bias_zero (n : Nat) (ht : 0 < tsq) :
    (EllCalc.new n).calcBiasCut 0 tsq = (EllCalc.new n).calcCentralCut tsq := by
  rw [calcBias_real, if_neg (by linarith), calcCentralS_real, calcBiasCutFast_real, calcCentralCut_real]
  have hτ : √tsq ≠ 0 := (Real.sqrt_pos.mpr ht).ne'
  have hn : (n : ℝ) + 1 ≠ 0 := by positivity
  refine Prod.ext rfl (Prod.ext ?_ (Prod.ext ?_ ?_))
  · simp
  · show 2 * ((√tsq + n * 0) / (n + 1)) / (√tsq + 0) = 2 * (1 / (n + 1))
    field_simp
    ring
  · simp

/-- **C27** (limit).  At `β1 = τ` the parallel formula is the single deep cut, `-τ < β0 ≤ τ`. -/
theorem C27_parallel_at_tau_eq_single (n : ℝ) (hn : 1 < n) (hτ : 0 < τ) (h1 : -τ < β0) (h2 : β0 ≤ τ) :
    (EllCalcCore.new n).calcParallelBiasCut β0 τ (τ * τ) = (EllCalcCore.new n).calcBiasCut β0 τ := by
  have e0 : (EllCalcCore.new n).calcParallelBiasCut β0 τ (τ * τ) =
      (EllCalcCore.new n).calcParallelBiasCutFast β0 τ (τ * τ) (β0 * τ) (τ * τ + n * (β0 * τ)) := by
    simp [EllCalcCore.calcParallelBiasCut, EllCalcCore.new]
  have e1 : (EllCalcCore.new n).calcBiasCut β0 τ =
      (EllCalcCore.new n).calcBiasCutFast β0 τ (τ + n * β0) := by
    simp [EllCalcCore.calcBiasCut, EllCalcCore.new]
  have hξ : √((τ * τ - β0 * β0) * (τ * τ - τ * τ) +
        (n / 2 * (τ * τ - β0 * β0)) * (n / 2 * (τ * τ - β0 * β0))) = n / 2 * (τ * τ - β0 * β0) := by
    rw [sub_self, mul_zero, zero_add, Real.sqrt_mul_self]
    have : 0 ≤ τ * τ - β0 * β0 := by nlinarith
    have : 0 ≤ n / 2 := by linarith
    positivity
  rw [e0, e1, calcParallelFast_real, calcBiasCutFast_real]
  dsimp only
  rw [hξ]
  have hs : 0 < τ + β0 := by linarith
  have hn1 : 0 < n + 1 := by linarith
  have hn0 : 0 < n := by linarith
  have hden : τ * τ + β0 * τ + n / 2 * ((β0 + τ) * (β0 + τ)) + n / 2 * (τ * τ - β0 * β0) =
      (n + 1) * τ * (τ + β0) := by ring
  rw [hden]
  refine Prod.ext ?_ (Prod.ext ?_ ?_)
  · simp only; field_simp; ring
  · simp only; field_simp
  · simp only
    have : n * n - 1 ≠ 0 := by nlinarith
    field_simp; ring

end C27

/-! ### C53 -/

/-- a nonzero vector orthogonal to `g` (dimension at least 2) -/
theorem exists_orthogonal (hn : 2 ≤ n) (g : Fin n → ℝ) : ∃ y : Fin n → ℝ, y ≠ 0 ∧ g ⬝ᵥ y = 0 := by
  have h0 : 0 < n := by omega
  have h1 : 1 < n := by omega
  set i : Fin n := ⟨0, h0⟩
  set j : Fin n := ⟨1, h1⟩
  have hij : i ≠ j := by simp [i, j]
  by_cases hi : g i = 0
  · refine ⟨Pi.single i 1, ?_, by simp [hi]⟩
    intro h
    have := congrFun h i
    simp at this
  · refine ⟨Pi.single i (g j) - Pi.single j (g i), ?_, ?_⟩
    · intro h
      have := congrFun h j
      simp [Ne.symm hij] at this
      exact hi this
    · rw [dotProduct_sub, dotProduct_single, dotProduct_single]
      ring

/-- **C53, refuted (1).**  A bias cut with `β < -τ` is satisfied by the whole ellipsoid, yet
`update_bias_cut` answers `NoSoln` - for every ellipsoid, gradient and such `β`. -/
theorem C53_inactive_cut_reported_noSoln (e : Ell ℝ) (grad : Arr ℝ) (β : ℝ) (he : e.Valid n)
    (hs : grad.IsVecShape n) (hβ : β < -e.tau n (grad.toVec n)) :
    (∃ e', Ell.space.update .bias e (grad, (⟨β⟩ : SingleCut ℝ)) = .ok (.noSoln, e')) ∧
    (∀ x ∈ e.region n, grad.toVec n ⬝ᵥ (x - e.c n) + β < 0) ∧ e.c n ∈ e.region n := by
  refine ⟨?_, ?_, ?_⟩
  · obtain ⟨e', h⟩ := Ell.update_exists he.shaped he.symm he.pos .bias
      ((grad, ⟨β⟩) : Arr ℝ × SingleCut ℝ) hs
    refine ⟨e', ?_⟩
    rw [h]
    have hst : (CutType.call .bias (⟨β⟩ : SingleCut ℝ) e.helper (e.tsqOf n (grad.toVec n))).1 = .noSoln := by
      show (EllCalc.calcBiasCut _ _ _).1 = _
      rw [he.helper, calcBias_real, if_pos]
      have := Real.sqrt_nonneg (e.tsqOf n (grad.toVec n))
      rw [← Ell.tau_sq he]
      have h0 : 0 ≤ e.tau n (grad.toVec n) := this
      nlinarith
    rw [← hst]
  · intro x hx
    have := (abs_le.mp (dot_abs_le he.posDef hx (grad.toVec n) (Real.sqrt_nonneg _)
      (Ell.tau_sq he _))).2
    have h2 : grad.toVec n ⬝ᵥ (x - e.c n) ≤ e.tau n (grad.toVec n) := this
    linarith
  · show (e.c n - e.c n) ⬝ᵥ ((e.M n)⁻¹ *ᵥ (e.c n - e.c n)) ≤ e.kappa
    simp [he.kappa.le]

/-- **C53, refuted (2).**  A shallow bias cut `-τ < β < -τ/n` succeeds, but some point of the ellipsoid that
satisfies the cut is not in the new ellipsoid - for every ellipsoid, gradient and such `β`. -/
theorem C53_shallow_cut_loses_points (e : Ell ℝ) (grad : Arr ℝ) (β : ℝ) (he : e.Valid n)
    (hs : grad.IsVecShape n) (hg : grad.toVec n ≠ 0)
    (h1 : -e.tau n (grad.toVec n) < β) (h2 : β < -(e.tau n (grad.toVec n) / n)) :
    ∃ e', Ell.space.update .bias e (grad, (⟨β⟩ : SingleCut ℝ)) = .ok (.success, e') ∧
      ∃ x ∈ e.region n, grad.toVec n ⬝ᵥ (x - e.c n) + β ≤ 0 ∧ x ∉ e'.region n := by
  have hn : (1 : ℝ) < n := by exact_mod_cast (by have := he.dim; omega : 1 < n)
  have hn0 : (0 : ℝ) < n := by linarith
  have htp := he.tsq_pos hg
  have hτ : 0 < e.tau n (grad.toVec n) := Real.sqrt_pos.mpr htp
  have hτ2 := Ell.tau_sq he (grad.toVec n)
  have hη : e.tau n (grad.toVec n) + n * β < 0 := by
    have := mul_lt_mul_of_pos_left h2 hn0
    have e1 : (n : ℝ) * -(e.tau n (grad.toVec n) / n) = -e.tau n (grad.toVec n) := by field_simp
    linarith
  have hβ : β < 0 := by nlinarith
  obtain ⟨e', h⟩ := Ell.update_exists he.shaped he.symm he.pos .bias
    ((grad, ⟨β⟩) : Arr ℝ × SingleCut ℝ) hs
  have hcall : CutType.call .bias (⟨β⟩ : SingleCut ℝ) e.helper (e.tsqOf n (grad.toVec n)) =
      (.success, (EllCalcCore.new (n : ℝ)).calcBiasCutFast β (e.tau n (grad.toVec n))
        (e.tau n (grad.toVec n) + n * β)) := by
    show EllCalc.calcBiasCut _ _ _ = _
    rw [he.helper, calcBias_real, if_neg]
    · rfl
    · rw [← hτ2]; nlinarith
  rw [hcall] at h
  refine ⟨e', h, ?_⟩
  obtain ⟨ρ, σ, δ, hc, hr⟩ := Ell.update_real he.shaped he.symm he.pos .bias _ hs h
  have hc : CutType.call .bias (⟨β⟩ : SingleCut ℝ) e.helper (e.tsqOf n (grad.toVec n)) =
    (.success, ρ, σ, δ) := hc
  rw [hcall] at hc
  simp only [Prod.mk.injEq, true_and] at hc
  rcases hr with ⟨hr, _⟩ | ⟨_, ha⟩
  · exact absurd rfl hr
  have ha : AfterCut n e e' (grad.toVec n) ρ σ δ := ha
  obtain ⟨hσ1, hδ⟩ := bias_single_pd he.dim htp rfl h1
    (by linarith : β < e.tau n (grad.toVec n)) hc
  obtain ⟨hv, hreg, -⟩ := ha.valid he hg hσ1 hδ
  -- a boundary point with gᵀ(x - c) = 0
  obtain ⟨y, hy0, hy⟩ := exists_orthogonal he.dim (grad.toVec n)
  have hq := quad_pos he.posDef.inv hy0
  set q := y ⬝ᵥ ((e.M n)⁻¹ *ᵥ y) with hqd
  set s := √(e.kappa / q) with hsd
  have hs2 : s * s = e.kappa / q := Real.mul_self_sqrt (by have := he.kappa; positivity)
  have hd : e.c n + s • y - e.c n = s • y := by simp
  have hQ : (s • y) ⬝ᵥ ((e.M n)⁻¹ *ᵥ (s • y)) = e.kappa := by
    rw [mulVec_smul, dotProduct_smul, smul_dotProduct, smul_eq_mul, smul_eq_mul, ← hqd, ← mul_assoc, hs2]
    field_simp
  have ht : grad.toVec n ⬝ᵥ (s • y) = 0 := by rw [dotProduct_smul, hy, smul_zero]
  refine ⟨e.c n + s • y, ?_, ?_, ?_⟩
  · show (e.c n + s • y - e.c n) ⬝ᵥ ((e.M n)⁻¹ *ᵥ (e.c n + s • y - e.c n)) ≤ e.kappa
    rw [hd, hQ]
  · rw [hd, ht]; linarith
  · rw [hreg, ha.c]
    intro hmem
    have hmem : (_ - _) ⬝ᵥ (_ *ᵥ (_ - _)) ≤ e.kappa * δ := hmem
    rw [cut_quad he.posDef ρ hg hσ1, hd, hQ, ht] at hmem
    have hω := quad_pos he.posDef hg
    have htd : e.kappa * (grad.toVec n ⬝ᵥ (e.M n *ᵥ grad.toVec n)) =
      e.tau n (grad.toVec n) * e.tau n (grad.toVec n) := hτ2.symm
    set ω := grad.toVec n ⬝ᵥ (e.M n *ᵥ grad.toVec n)
    set τ := e.tau n (grad.toVec n)
    rw [calcBiasCutFast_real] at hc
    simp only [Prod.mk.injEq] at hc
    obtain ⟨rfl, rfl, rfl⟩ := hc
    have hsum : 0 < τ + β := by linarith
    have hdif : 0 < τ - β := by linarith
    have hn1 : (0 : ℝ) < n + 1 := by linarith
    have hn2 : (0 : ℝ) < n - 1 := by linarith
    have hnn : (n : ℝ) * n - 1 = (n - 1) * (n + 1) := by ring
    have e1 : 1 - 2 * ((τ + n * β) / (n + 1)) / (τ + β) = (n - 1) * (τ - β) / ((n + 1) * (τ + β)) := by
      field_simp; ring
    have e2 : (2 * ((τ + n * β) / (n + 1)) / (τ + β) / (1 - 2 * ((τ + n * β) / (n + 1)) / (τ + β)) *
        (0 + (τ + n * β) / (n + 1)) ^ 2 + 2 * ((τ + n * β) / (n + 1)) * 0 + ((τ + n * β) / (n + 1)) ^ 2) =
        (n * n / (n * n - 1) * (1 - β / τ * (β / τ)) - 1) * (τ * τ) +
          2 * (τ + n * β) / ((n - 1) * (τ - β)) * (β * τ) := by
      rw [e1, hnn]
      field_simp
      ring
    rw [e2] at hmem
    have h3 : 0 < 2 * (τ + n * β) / ((n - 1) * (τ - β)) * (β * τ) := by
      have : 0 < -(2 * (τ + n * β)) / ((n - 1) * (τ - β)) * (-β * τ) := by
        have : 0 < -β := by linarith
        have : 0 < -(2 * (τ + n * β)) := by linarith
        positivity
      calc 0 < _ := this
        _ = _ := by ring
    have hmem2 := mul_le_mul_of_nonneg_right hmem hω.le
    rw [add_mul, div_mul_cancel₀ _ hω.ne', htd] at hmem2
    have : e.kappa * (n * n / (n * n - 1) * (1 - β / τ * (β / τ))) * ω =
        n * n / (n * n - 1) * (1 - β / τ * (β / τ)) * (τ * τ) := by rw [← htd]; ring
    rw [this] at hmem2
    linarith

/-- **C53, what holds.**  Full statement: every shallow bias cut (`-τ ≤ β < 0`) keeps all points satisfying
it, and `β < -τ` is reported as having no effect.  Missing: `β < -τ/n` (refuted above).
Proved: for `-τ/n ≤ β < 0`, `update_bias_cut` keeps all such points; and `update_q` handles every
negative `β` safely, with `NoEffect` and an unchanged ellipsoid for `β < -τ/n`. -/
theorem C53_shallow_cut_partial (e : Ell ℝ) (grad : Arr ℝ) (β : ℝ) (he : e.Valid n)
    (hs : grad.IsVecShape n) (hg : grad.toVec n ≠ 0) (hβ : β < 0) :
    (-(e.tau n (grad.toVec n) / n) ≤ β →
      ∃ e', Ell.space.update .bias e (grad, (⟨β⟩ : SingleCut ℝ)) = .ok (.success, e') ∧
        ∀ x ∈ e.region n, grad.toVec n ⬝ᵥ (x - e.c n) + β ≤ 0 → x ∈ e'.region n) ∧
    (β < -(e.tau n (grad.toVec n) / n) →
      ∃ e', Ell.space.update .q e (grad, (⟨β⟩ : SingleCut ℝ)) = .ok (.noEffect, e') ∧
        e'.region n = e.region n) := by
  have htp := he.tsq_pos hg
  have hτ : 0 < e.tau n (grad.toVec n) := Real.sqrt_pos.mpr htp
  have hn0 : (0 : ℝ) < n := by exact_mod_cast he.pos
  constructor
  · intro h
    exact C15_bias_keeps_halfspace e grad β he hs hg h (by linarith)
  · intro h
    obtain ⟨e', hu⟩ := Ell.update_exists he.shaped he.symm he.pos .q
      ((grad, ⟨β⟩) : Arr ℝ × SingleCut ℝ) hs
    have hη : e.tau n (grad.toVec n) + n * β < 0 := by
      have := mul_lt_mul_of_pos_left h hn0
      have e1 : (n : ℝ) * -(e.tau n (grad.toVec n) / n) = -e.tau n (grad.toVec n) := by field_simp
      linarith
    have hst : (CutType.call .q (⟨β⟩ : SingleCut ℝ) e.helper (e.tsqOf n (grad.toVec n))).1 = .noEffect := by
      show (EllCalc.calcBiasCutQ _ _ _).1 = _
      have h1 : ¬ √(e.tsqOf n (grad.toVec n)) < β := by
        have : √(e.tsqOf n (grad.toVec n)) = e.tau n (grad.toVec n) := rfl
        rw [this]; linarith
      have h2 : √(e.tsqOf n (grad.toVec n)) + n * β < 0 := hη
      rw [he.helper, calcBiasQ_real, if_neg h1, if_pos h2]
    rw [hst] at hu
    refine ⟨e', hu, ?_⟩
    obtain ⟨ρ, σ, δ, _, h2⟩ := Ell.update_real he.shaped he.symm he.pos .q _ hs hu
    rcases h2 with ⟨_, rfl⟩ | ⟨h2, _⟩
    · rfl
    · cases h2

end Ellalgo
