import Verif.Lib.LoopSim
import Verif.Lib.ScaleCut
import Verif.Props.EllRealExamples

/-! C67: scaling a cut does not matter.  C68: the method is invariant under affine changes of coordinates. -/

namespace Ellalgo
open Matrix

variable {n : Nat} {T : Type}

theorem aff_quad {A M : Matrix (Fin n) (Fin n) ℝ} {s : ℝ} {g h : Fin n → ℝ} (hg : Aᵀ *ᵥ h = s • g) :
    (A * M * Aᵀ) *ᵥ h = s • (A *ᵥ (M *ᵥ g)) ∧ h ⬝ᵥ ((A * M * Aᵀ) *ᵥ h) = s * s * (g ⬝ᵥ (M *ᵥ g)) := by
  have h1 : (A * M * Aᵀ) *ᵥ h = s • (A *ᵥ (M *ᵥ g)) := by
    rw [← mulVec_mulVec, ← mulVec_mulVec, hg, mulVec_smul, mulVec_smul]
  refine ⟨h1, ?_⟩
  rw [h1, dotProduct_smul, dotProduct_mulVec, ← mulVec_transpose, hg, smul_dotProduct, smul_eq_mul, smul_eq_mul, mul_assoc]

theorem aff_cutM {A M : Matrix (Fin n) (Fin n) ℝ} {s : ℝ} (hs : s ≠ 0) {g h : Fin n → ℝ} (hg : Aᵀ *ᵥ h = s • g) (σ : ℝ) :
    cutM (A * M * Aᵀ) h σ = A * cutM M g σ * Aᵀ := by
  obtain ⟨h1, h2⟩ := aff_quad (M := M) hg
  unfold cutM
  rw [h2, h1, mul_sub, sub_mul]
  congr 1
  rw [mul_smul_comm, smul_mul_assoc, mul_vecMulVec, vecMulVec_mul, vecMul_transpose]
  ext i j
  simp only [Matrix.smul_apply, vecMulVec_apply, Pi.smul_apply, smul_eq_mul]
  by_cases hω : g ⬝ᵥ (M *ᵥ g) = 0
  · simp [hω]
  · field_simp

/-- one step, scaled and moved -/
theorem Ell.aff_step [CutType T ℝ] {A : Matrix (Fin n) (Fin n) ℝ} {b : Fin n → ℝ} {s : ℝ} (hs : 0 < s) {e1 e2 : Ell ℝ}
    (he : EllAff A b e1 e2) (hn : 0 < n) (k : UpdateKind) {c d : Arr ℝ × T} (hc : c.1.IsVecShape n)
    (hd : d.1.IsVecShape n) (hg : Aᵀ *ᵥ d.1.toVec n = s • c.1.toVec n)
    (hcall : ∀ tsq st ρ σ δ, CutType.call k c.2 e1.helper tsq = (st, ρ, σ, δ) →
      CutType.call k d.2 e1.helper (s * s * tsq) = (st, s * ρ, σ, δ)) :
    ∃ st e1' e2', Ell.space.update k e1 c = .ok (st, e1') ∧ Ell.space.update k e2 d = .ok (st, e2') ∧
      EllAff A b e1' e2' ∧ e2'.tsq = s * s * e1'.tsq := by
  obtain ⟨hq1, hq2⟩ := aff_quad (M := e1.M n) hg
  have hsy2 : (e2.M n).IsSymm := by
    rw [he.M, IsSymm, transpose_mul, transpose_mul, transpose_transpose, he.symm, Matrix.mul_assoc]
  have htsq : e2.tsqOf n (d.1.toVec n) = s * s * e1.tsqOf n (c.1.toVec n) := by
    unfold Ell.tsqOf
    rw [he.M, hq2, he.kappa]; ring
  obtain ⟨e1', h1⟩ := Ell.update_exists he.sh1 he.symm hn k c hc
  obtain ⟨e2', h2⟩ := Ell.update_exists he.sh2 hsy2 hn k d hd
  rcases hcc : CutType.call k c.2 e1.helper (e1.tsqOf n (c.1.toVec n)) with ⟨st, ρ, σ, δ⟩
  have hcd := hcall _ _ _ _ _ hcc
  rw [hcc] at h1
  rw [he.helper, htsq, hcd] at h2
  simp only at h1 h2
  obtain ⟨ρ1, σ1, δ1, hc1, hr1⟩ := Ell.update_real he.sh1 he.symm hn k c hc h1
  obtain ⟨ρ2, σ2, δ2, hc2, hr2⟩ := Ell.update_real he.sh2 hsy2 hn k d hd h2
  rw [he.helper, htsq, hcd] at hc2
  rw [hcc] at hc1
  simp only [Prod.mk.injEq, true_and] at hc1 hc2
  obtain ⟨rfl, rfl, rfl⟩ := hc1
  obtain ⟨rfl, rfl, rfl⟩ := hc2
  refine ⟨st, e1', e2', h1, h2, ?_⟩
  by_cases hsu : st = .success
  · rcases hr1 with ⟨h, _⟩ | ⟨_, ha1⟩
    · exact absurd hsu h
    rcases hr2 with ⟨h, _⟩ | ⟨_, ha2⟩
    · exact absurd hsu h
    refine ⟨⟨ha1.shaped, ha2.shaped, ?_, ?_, ?_, ?_, ?_, ?_⟩, ?_⟩
    · rw [ha1.M]
      split
      · exact (cutM_symm he.symm _ _).smul _
      · exact cutM_symm he.symm _ _
    · rw [ha1.M, ha2.M, he.defer, he.kappa, he.M, aff_cutM hs.ne' hg]
      split
      · rw [mul_smul_comm, smul_mul_assoc]
      · rfl
    · rw [ha1.c, ha2.c, he.c, he.M, hq2, hq1, mulVec_sub, mulVec_smul, smul_smul, add_sub_right_comm]
      congr 3
      by_cases hω : c.1.toVec n ⬝ᵥ (e1.M n *ᵥ c.1.toVec n) = 0
      · simp [hω]
      · have := hs.ne'
        field_simp
    · rw [ha1.kappa, ha2.kappa, he.defer, he.kappa]
    · rw [ha1.helper, ha2.helper, he.helper]
    · rw [ha1.defer, ha2.defer, he.defer]
    · rw [ha1.tsq, ha2.tsq, htsq]
  · rcases hr1 with ⟨_, rfl⟩ | ⟨h, _⟩
    swap
    · exact absurd h hsu
    rcases hr2 with ⟨_, rfl⟩ | ⟨h, _⟩
    swap
    · exact absurd h hsu
    exact ⟨⟨he.sh1, he.sh2, he.symm, he.M, he.c, he.kappa, he.helper, he.defer⟩, htsq⟩

/-! ### C67 -/

theorem EllAff.refl {e : Ell ℝ} (he : e.Shaped n) (hsy : (e.M n).IsSymm) : EllAff (n := n) 1 0 e e :=
  ⟨he, he, hsy, by simp, by simp, rfl, rfl, rfl⟩

theorem EllAff.eq_of_one {e1 e2 : Ell ℝ} (h : EllAff (n := n) 1 0 e1 e2) : e2 = { e1 with tsq := e2.tsq } := by
  have h1 : e2.mq = e1.mq := arr_ext_mat h.sh2.1 h.sh1.1 (by have := h.M; simpa [Ell.M] using this)
  have h2 : e2.xc = e1.xc := arr_ext_vec h.sh2.2 h.sh1.2 (by have := h.c; simpa [Ell.c] using this)
  obtain ⟨nd, mq, xc, ka, he, ts⟩ := e2
  have := h.kappa
  have := h.helper
  have := h.defer
  simp_all

/-- **C67**, one plane.  Replacing a cut `(g, β)` by `(s g, s β)` with `s > 0` changes neither the status nor the new
ellipsoid; `tsq` is multiplied by `s²`. -/
theorem C67_scaled_cut_single {e : Ell ℝ} (he : e.Shaped n) (hsy : (e.M n).IsSymm) (hn : 0 < n)
    (hh : e.helper = EllCalc.new n) (k : UpdateKind) (g g' : Arr ℝ) (β : ℝ) (hg : g.IsVecShape n) (hg' : g'.IsVecShape n)
    {s : ℝ} (hs : 0 < s) (hsg : g'.toVec n = s • g.toVec n) :
    ∃ st e', Ell.space.update k e (g, (⟨β⟩ : SingleCut ℝ)) = .ok (st, e') ∧
      Ell.space.update k e (g', (⟨s * β⟩ : SingleCut ℝ)) = .ok (st, { e' with tsq := s ^ 2 * e'.tsq }) := by
  obtain ⟨st, e1, e2, h1, h2, h3, h4⟩ := Ell.aff_step (T := SingleCut ℝ) hs (EllAff.refl he hsy) hn k (c := (g, ⟨β⟩))
    (d := (g', ⟨s * β⟩)) hg hg' (by rw [transpose_one, one_mulVec]; exact hsg)
    (fun tsq st ρ σ δ h => by rw [hh] at h ⊢; exact call_scale_single hs k ⟨β⟩ tsq h)
  refine ⟨st, e1, h1, ?_⟩
  rw [h2, h3.eq_of_one, h4]
  simp only [sq]

/-- **C67**, two planes. -/
theorem C67_scaled_cut_parallel {e : Ell ℝ} (he : e.Shaped n) (hsy : (e.M n).IsSymm) (hn : 0 < n)
    (hh : e.helper = EllCalc.new n) (k : UpdateKind) (g g' : Arr ℝ) (β0 : ℝ) (β1 : Option ℝ) (hg : g.IsVecShape n)
    (hg' : g'.IsVecShape n) {s : ℝ} (hs : 0 < s) (hsg : g'.toVec n = s • g.toVec n) :
    ∃ st e', Ell.space.update k e (g, (⟨β0, β1⟩ : ParallelCut ℝ)) = .ok (st, e') ∧
      Ell.space.update k e (g', (⟨s * β0, β1.map (s * ·)⟩ : ParallelCut ℝ)) =
        .ok (st, { e' with tsq := s ^ 2 * e'.tsq }) := by
  obtain ⟨st, e1, e2, h1, h2, h3, h4⟩ := Ell.aff_step (T := ParallelCut ℝ) hs (EllAff.refl he hsy) hn k
    (c := (g, ⟨β0, β1⟩)) (d := (g', ⟨s * β0, β1.map (s * ·)⟩)) hg hg' (by rw [transpose_one, one_mulVec]; exact hsg)
    (fun tsq st ρ σ δ h => by rw [hh] at h ⊢; exact call_scale hs k ⟨β0, β1⟩ tsq h)
  refine ⟨st, e1, h1, ?_⟩
  rw [h2, h3.eq_of_one, h4]
  simp only [sq]

/-! ### C68 -/

section
variable (A : Matrix (Fin n) (Fin n) ℝ) (b : Fin n → ℝ)

/-- lockstep relation of the ellipsoids -/
def EllAffT (e1 e2 : Ell ℝ) : Prop := EllAff A b e1 e2 ∧ e2.tsq = e1.tsq

theorem ell_spaceSim [CutType T ℝ] (hn : 0 < n) :
    SpaceSim (T := T) (EllAffT A b) (PtAff A b) (CutAff A) Ell.space Ell.space := by
  have key : ∀ k (s s' : Ell ℝ) (c c' : Arr ℝ × T), EllAffT A b s s' → CutAff A c c' →
      Res.Rel (fun p q => p.1 = q.1 ∧ EllAffT A b p.2 q.2) (Ell.space.update k s c) (Ell.space.update k s' c') := by
    intro k s s' c c' hs hc
    obtain ⟨h1, h2, h3, h4⟩ := hc
    obtain ⟨st, e1, e2, h5, h6, h7, h8⟩ := Ell.aff_step (T := T) one_pos hs.1 hn k (c := c) (d := c') h1 h2
      (by rw [one_smul, h3]) (fun tsq st ρ σ δ h => by rw [← h4, one_mul, one_mul, one_mul]; exact h)
    rw [h5, h6]
    exact ⟨rfl, h7, by rw [h8, one_mul, one_mul]⟩
  refine ⟨?_, fun s s' h => h.2.symm, key .bias, key .central, key .q, ?_⟩
  · intro s s' h
    exact ⟨h.1.sh1.2, h.1.sh2.2, h.1.c⟩
  · intro s s' x x' h hx
    exact ⟨⟨⟨h.1.sh1.1, hx.1⟩, ⟨h.1.sh2.1, hx.2.1⟩, h.1.symm, h.1.M, hx.2.2, h.1.kappa, h.1.helper, h.1.defer⟩, h.2⟩

variable {Ω Ω' : Type} {A b}

/-- **C68**, `cutting_plane_feas`.  If `e2` is the image of `e1` under `x ↦ Ax + b` and the two oracles describe the same
problem in the two coordinate systems (`Rw` relates their internal states), the two runs do the same: both panic, or both
return after the same number of iterations, both without a solution or with solutions `x` and `Ax + b`. -/
theorem C68_affine_feas [CutType T ℝ] (hn : 0 < n) {orc : OracleFeas Ω (Arr ℝ) T ℝ} {orc' : OracleFeas Ω' (Arr ℝ) T ℝ}
    {Rw : Ω → Ω' → Prop}
    (ho : ∀ w w' x y, Rw w w' → PtAff A b x y →
      Res.Rel (fun p q => OptRel (CutAff A) p.1 q.1 ∧ Rw p.2 q.2) (orc.assess w x) (orc'.assess w' y))
    {w : Ω} {w' : Ω'} (hw : Rw w w') {e1 e2 : Ell ℝ} (he : EllAff A b e1 e2) (ht : e2.tsq = e1.tsq) (opts : Options ℝ) :
    Res.Rel (fun p q => p.1.2 = q.1.2 ∧ OptRel (PtAff A b) p.1.1 q.1.1 ∧ Rw p.2.1 q.2.1 ∧ EllAff A b p.2.2 q.2.2)
      (cuttingPlaneFeas orc Ell.space w e1 opts) (cuttingPlaneFeas orc' Ell.space w' e2 opts) := by
  -- the loop never calls `update`
  have hsim : FeasSim Rw (PtAff A b) (CutAff A) (⟨orc.assess, fun _ _ => .panic⟩ : OracleFeas Ω (Arr ℝ) T ℝ)
      (⟨orc'.assess, fun _ _ => .panic⟩ : OracleFeas Ω' (Arr ℝ) T ℝ) := ⟨ho, fun _ _ _ _ => trivial⟩
  have hl : ∀ {Ω : Type} (o : OracleFeas Ω (Arr ℝ) T ℝ) (tol : ℝ) (k i : Nat) (w : Ω) (e : Ell ℝ),
      feasLoop o Ell.space tol k i w e = feasLoop ⟨o.assess, fun _ _ => .panic⟩ Ell.space tol k i w e := by
    intro Ω o tol k
    induction k with
    | zero => intros; rfl
    | succ k ih =>
      intro i w e
      unfold feasLoop
      simp only [ih]
  unfold cuttingPlaneFeas
  rw [hl orc, hl orc']
  refine (feasLoop_sim (ell_spaceSim A b hn) hsim opts.tolerance opts.maxIters 0 hw ⟨he, ht⟩).mono ?_
  rintro p q ⟨h1, h2, h3, h4⟩
  exact ⟨h1, h2, h3, h4.1⟩

/-- **C68**, `cutting_plane_optim`: the best points are `x` and `Ax + b`, the values `gamma` are equal. -/
theorem C68_affine_optim [CutType T ℝ] (hn : 0 < n) {orc : OracleOptim Ω (Arr ℝ) T ℝ}
    {orc' : OracleOptim Ω' (Arr ℝ) T ℝ} {Rw : Ω → Ω' → Prop}
    (ho : ∀ w w' x y g, Rw w w' → PtAff A b x y →
      Res.Rel (fun p q => CutAff A p.1.1 q.1.1 ∧ p.1.2 = q.1.2 ∧ p.2.1 = q.2.1 ∧ Rw p.2.2 q.2.2)
        (orc.assess w x g) (orc'.assess w' y g))
    {w : Ω} {w' : Ω'} (hw : Rw w w') {e1 e2 : Ell ℝ} (he : EllAff A b e1 e2) (ht : e2.tsq = e1.tsq) (g : ℝ)
    (opts : Options ℝ) :
    Res.Rel (fun p q => p.1.2 = q.1.2 ∧ OptRel (PtAff A b) p.1.1 q.1.1 ∧ p.2.1 = q.2.1 ∧ Rw p.2.2.1 q.2.2.1 ∧
        EllAff A b p.2.2.2 q.2.2.2)
      (cuttingPlaneOptim orc Ell.space w e1 g opts) (cuttingPlaneOptim orc' Ell.space w' e2 g opts) := by
  refine (optimLoop_sim (ell_spaceSim A b hn) ho opts.tolerance opts.maxIters 0 (xb := none) (xb' := none) g trivial hw
    ⟨he, ht⟩).mono ?_
  rintro p q ⟨h1, h2, h3, h4, h5⟩
  exact ⟨h1, h2, h3, h4, h5.1⟩

/-- **C68**, `cutting_plane_optim_q`. -/
theorem C68_affine_optim_q [CutType T ℝ] (hn : 0 < n) {orc : OracleOptimQ Ω (Arr ℝ) T ℝ}
    {orc' : OracleOptimQ Ω' (Arr ℝ) T ℝ} {Rw : Ω → Ω' → Prop}
    (ho : ∀ w w' x y g r, Rw w w' → PtAff A b x y →
      Res.Rel (fun p q => CutAff A p.1.1 q.1.1 ∧ p.1.2.1 = q.1.2.1 ∧ PtAff A b p.1.2.2.1 q.1.2.2.1 ∧
          p.1.2.2.2 = q.1.2.2.2 ∧ p.2.1 = q.2.1 ∧ Rw p.2.2 q.2.2)
        (orc.assess w x g r) (orc'.assess w' y g r))
    {w : Ω} {w' : Ω'} (hw : Rw w w') {e1 e2 : Ell ℝ} (he : EllAff A b e1 e2) (ht : e2.tsq = e1.tsq) (g : ℝ)
    (opts : Options ℝ) :
    Res.Rel (fun p q => p.1.2 = q.1.2 ∧ OptRel (PtAff A b) p.1.1 q.1.1 ∧ p.2.1 = q.2.1 ∧ Rw p.2.2.1 q.2.2.1 ∧
        EllAff A b p.2.2.2 q.2.2.2)
      (cuttingPlaneOptimQ orc Ell.space w e1 g opts) (cuttingPlaneOptimQ orc' Ell.space w' e2 g opts) := by
  refine (optimQLoop_sim (ell_spaceSim A b hn) ho opts.tolerance opts.maxIters 0 (xb := none) (xb' := none) false g
    trivial hw ⟨he, ht⟩).mono ?_
  rintro p q ⟨h1, h2, h3, h4, h5⟩
  exact ⟨h1, h2, h3, h4, h5.1⟩

/-- **C68**, `bsearch` over a `BSearchAdaptor`: the same answer after the same number of iterations, and the adaptors'
ellipsoids still correspond. -/
theorem C68_affine_bsearch [CutType T ℝ] (hn : 0 < n) {orc : OracleFeas Ω (Arr ℝ) T ℝ}
    {orc' : OracleFeas Ω' (Arr ℝ) T ℝ} {Rw : Ω → Ω' → Prop}
    (ho : ∀ w w' x y, Rw w w' → PtAff A b x y →
      Res.Rel (fun p q => OptRel (CutAff A) p.1 q.1 ∧ Rw p.2 q.2) (orc.assess w x) (orc'.assess w' y))
    (hu : ∀ w w' g, Rw w w' → Res.Rel Rw (orc.update w g) (orc'.update w' g))
    {w : Ω} {w' : Ω'} (hw : Rw w w') {e1 e2 : Ell ℝ} (he : EllAff A b e1 e2) (ht : e2.tsq = e1.tsq)
    (iv : ℝ × ℝ) (popts opts : Options ℝ) :
    Res.Rel (fun p q => p.1 = q.1 ∧ EllAff A b p.2.1.space q.2.1.space)
      (bsearch (BSearchAdaptor.oracle orc Ell.space) ⟨w, e1, popts⟩ iv opts)
      (bsearch (BSearchAdaptor.oracle orc' Ell.space) ⟨w', e2, popts⟩ iv opts) := by
  refine (bsearch_sim (ell_spaceSim A b hn) ⟨ho, hu⟩ (a := ⟨w, e1, popts⟩) (a' := ⟨w', e2, popts⟩) ⟨hw, ⟨he, ht⟩, rfl⟩ iv
    opts).mono ?_
  rintro p q ⟨h1, h2⟩
  exact ⟨h1, h2.space.1⟩

/-- the relation `EllAff` says what it should: the region of `e2` is the image of the region of `e1` -/
theorem C68_region_image {e1 e2 : Ell ℝ} (he : EllAff A b e1 e2) (hA : IsUnit A.det) (hv : (e1.M n).PosDef) :
    e2.region n = (fun x => A *ᵥ x + b) '' e1.region n := by
  have hA' : IsUnit (Aᵀ).det := by rwa [det_transpose]
  have hM : IsUnit (e1.M n).det := isUnit_iff_ne_zero.mpr hv.det_pos.ne'
  have hinv : (e2.M n)⁻¹ = (Aᵀ)⁻¹ * ((e1.M n)⁻¹ * A⁻¹) := by
    rw [he.M, Matrix.mul_inv_rev, Matrix.mul_inv_rev]
  have key : ∀ x, (A *ᵥ x + b - e2.c n) ⬝ᵥ ((e2.M n)⁻¹ *ᵥ (A *ᵥ x + b - e2.c n)) =
      (x - e1.c n) ⬝ᵥ ((e1.M n)⁻¹ *ᵥ (x - e1.c n)) := by
    intro x
    have : A *ᵥ x + b - e2.c n = A *ᵥ (x - e1.c n) := by
      rw [he.c, mulVec_sub]; abel
    rw [this, hinv, ← mulVec_mulVec, ← mulVec_mulVec, mulVec_mulVec _ A⁻¹, nonsing_inv_mul _ hA, one_mulVec,
      dotProduct_comm, dotProduct_mulVec, ← mulVec_transpose, mulVec_mulVec, mul_nonsing_inv _ hA', one_mulVec,
      dotProduct_comm]
  ext y
  rw [Ell.region, Ell.region, ellipsoid, ellipsoid, Set.mem_ofPred_eq, Set.mem_image, he.kappa]
  constructor
  · intro hy
    refine ⟨A⁻¹ *ᵥ (y - b), ?_, ?_⟩
    · rw [Set.mem_ofPred_eq, ← key]
      rwa [mulVec_mulVec, mul_nonsing_inv _ hA, one_mulVec, sub_add_cancel]
    · rw [mulVec_mulVec, mul_nonsing_inv _ hA, one_mulVec, sub_add_cancel]
  · rintro ⟨x, hx, rfl⟩
    rw [Set.mem_ofPred_eq, ← key] at hx
    exact hx

end

/-! ### Non-vacuity -/

namespace ExInv

/-- C67: the disc of radius 2, gradient doubled -/
example : ExR.disc.Shaped 2 ∧ (ExR.disc.M 2).IsSymm ∧ ExR.disc.helper = EllCalc.new 2 ∧
    (⟨[6/5, 8/5], 2, 0⟩ : Arr ℝ).toVec 2 = (2 : ℝ) • ExR.g.toVec 2 := by
  refine ⟨ExR.disc_valid.shaped, ExR.disc_valid.symm, ExR.disc_valid.helper, ?_⟩
  rw [ExR.g_vec]
  ext i; fin_cases i <;> simp [Arr.toVec, Arr.vec] <;> norm_num

/-- C68: stretch by `diag(2,3)` and move by `(1,-1)` -/
noncomputable def A : Matrix (Fin 2) (Fin 2) ℝ := !![2, 0; 0, 3]
noncomputable def b : Fin 2 → ℝ := ![1, -1]
noncomputable def disc' : Ell ℝ := Ell.newWithMatrix 4 ⟨[4, 0, 0, 9], 2, 2⟩ ⟨[3, 2], 2, 0⟩

example : EllAff A b ExR.disc disc' ∧ disc'.tsq = ExR.disc.tsq ∧ IsUnit A.det := by
  refine ⟨⟨ExR.disc_valid.shaped, ⟨⟨rfl, rfl, rfl⟩, ⟨rfl, rfl, rfl⟩⟩, ExR.disc_valid.symm, ?_, ?_, rfl, rfl, rfl⟩, rfl, ?_⟩
  · rw [ExR.disc_M, Matrix.mul_one]
    ext i j
    fin_cases i <;> fin_cases j <;>
      simp [Ell.M, Arr.toMat, disc', Ell.newWithMatrix, Arr.mat, A, Matrix.mul_apply, Fin.sum_univ_two] <;> norm_num
  · ext i
    fin_cases i <;> simp [Ell.c, Arr.toVec, Arr.vec, disc', ExR.disc, Ell.newWithMatrix, A, b, mulVec, dotProduct,
      Fin.sum_univ_two] <;> norm_num
  · rw [isUnit_iff_ne_zero, A, det_fin_two_of]; norm_num

/-- the problem `x₀ ≤ 0` -/
noncomputable def orc : OracleFeas Unit (Arr ℝ) (SingleCut ℝ) ℝ where
  assess _ x := by
    classical exact .ok (if x.toVec 2 0 ≤ 0 then none else some (⟨[1, 0], 2, 0⟩, ⟨x.toVec 2 0⟩), ())
  update _ _ := .ok ()

/-- the same problem for `y = A x + b` -/
noncomputable def orc' : OracleFeas Unit (Arr ℝ) (SingleCut ℝ) ℝ where
  assess _ y := by
    classical exact .ok (if (y.toVec 2 0 - 1) / 2 ≤ 0 then none else some (⟨[1/2, 0], 2, 0⟩, ⟨(y.toVec 2 0 - 1) / 2⟩), ())
  update _ _ := .ok ()

example (w w' : Unit) (x y : Arr ℝ) (h : PtAff A b x y) :
    Res.Rel (fun p q => OptRel (CutAff (n := 2) A) p.1 q.1 ∧ (fun _ _ => True) p.2 q.2) (orc.assess w x)
      (orc'.assess w' y) := by
  have e : (y.toVec 2 0 - 1) / 2 = x.toVec 2 0 := by
    rw [h.2.2]
    simp [A, b, mulVec, dotProduct, Fin.sum_univ_two]
  simp only [orc, orc', Res.Rel, e, and_true]
  split
  · trivial
  · refine ⟨⟨rfl, rfl, rfl⟩, ⟨rfl, rfl, rfl⟩, ?_, rfl⟩
    ext i
    fin_cases i <;> simp [A, Arr.toVec, Arr.vec, mulVec, dotProduct, Fin.sum_univ_two]

end ExInv

end Ellalgo
