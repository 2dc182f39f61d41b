import Verif.Lib.StableNear

/-! C96: `EllStable` in rounded arithmetic. -/

namespace Ellalgo
open Matrix
open scoped ComplexOrder
variable {u : ℝ} {R : Rounding u} {n : Nat}

section Constants
variable (R) (hu : u ≤ 1 / 64) (hn : 2 ≤ n)
include hu hn

theorem nF_near : Near u 1 ((Nat.cast n : Fl R)).val (n : ℝ) := Near.rnd (R := R) (by linarith) (Nat.cast_nonneg n)

theorem nPlus1_near : Near u 2 (EllCalcCore.new (Nat.cast n : Fl R)).nPlus1.val ((n : ℝ) + 1) := by
  have h0 := R.unit_nonneg
  have hu1 : u < 1 := by linarith
  have h1 := (Near.of_eq (u := u) (rfl : (1 : ℝ) = 1)).mono h0 hu1 (show 0 ≤ 1 by norm_num) zero_le_one zero_le_one
  exact ((nF_near R hu hn).add h1).round hu1 (by positivity)

theorem cst2_near : Near u 4 (EllCalcCore.new (Nat.cast n : Fl R)).cst2.val (2 * (1 / ((n : ℝ) + 1))) := by
  have hu1 : u < 1 := by linarith
  have h1 : Near u 3 (1 / ((Nat.cast n : Fl R) + 1) : Fl R).val (1 / ((n : ℝ) + 1)) :=
    ((Near.of_eq rfl).div hu1 zero_le_one (by positivity) (nPlus1_near R hu hn)).round hu1 (by positivity)
  have h2 : Near u 0 (nat 2 : Fl R).val 2 := Near.of_eq (by
    show R.rnd ((2 : Nat) : ℝ) = 2
    exact_mod_cast R.two)
  exact (h2.mul hu1 (by norm_num) (by positivity) h1).round hu1 (by positivity)

theorem cst1_near : Near u 10 (EllCalcCore.new (Nat.cast n : Fl R)).cst1.val ((n : ℝ) * n / (n * n - 1)) := by
  have h0 := R.unit_nonneg
  have hu1 : u < 1 := by linarith
  have hn2 : (2 : ℝ) ≤ n := by exact_mod_cast hn
  have hnn : (4 : ℝ) ≤ n * n := by nlinarith
  have h1 : Near u 3 ((Nat.cast n : Fl R) * (Nat.cast n : Fl R)).val ((n : ℝ) * n) :=
    ((nF_near R hu hn).mul hu1 (by positivity) (by positivity) (nF_near R hu hn)).round hu1 (by positivity)
  have h2 : Near u 5 (((Nat.cast n : Fl R) * (Nat.cast n : Fl R)).val - 1) ((n : ℝ) * n - 1) := by
    have ha := h1.abs_le' h0 hu1 (by positivity) (by norm_num; linarith)
    refine Near.of_abs h0 hu1 (ε := 3 * u / (1 - 3 * u) * (4 / 3)) (by linarith) ?_ ?_
    · rw [show ((Nat.cast n : Fl R) * (Nat.cast n : Fl R)).val - 1 - ((n : ℝ) * n - 1) =
        ((Nat.cast n : Fl R) * (Nat.cast n : Fl R)).val - (n : ℝ) * n by ring]
      refine ha.trans ?_
      have : 0 ≤ 3 * u / (1 - 3 * u) := div_nonneg (by linarith) (by linarith)
      push_cast
      nlinarith
    · have hd : (0 : ℝ) < 1 - 3 * u := by linarith
      rw [show 3 * u / (1 - 3 * u) * (4 / 3) * (1 + (5 : ℕ) * u) = 4 * u * (1 + 5 * u) / (1 - 3 * u) by
        push_cast; field_simp, div_le_iff₀ hd]
      push_cast
      nlinarith
  exact (h1.div hu1 (by positivity) (by linarith) (h2.round (R := R) hu1 (by linarith))).round hu1
    (div_nonneg (by positivity) (by linarith))

theorem one_sub_cst2_near :
    Near u 11 (1 - (EllCalcCore.new (Nat.cast n : Fl R)).cst2 : Fl R).val (1 - 2 * (1 / ((n : ℝ) + 1))) := by
  have h0 := R.unit_nonneg
  have hu1 : u < 1 := by linarith
  have hn2 : (2 : ℝ) ≤ n := by exact_mod_cast hn
  set σ := 2 * (1 / ((n : ℝ) + 1)) with hσ
  have hs0 : 0 ≤ σ := by positivity
  have hs1 : σ ≤ 2 / 3 := by
    rw [hσ, mul_one_div, div_le_div_iff₀ (by positivity) (by norm_num)]
    linarith
  have h1 := cst2_near R hu hn
  have ha := h1.abs_le' h0 hu1 hs0 (by norm_num; linarith)
  have h2 : Near u 10 (1 - (EllCalcCore.new (Nat.cast n : Fl R)).cst2.val) (1 - σ) := by
    refine Near.of_abs h0 hu1 (ε := 4 * u / (1 - 4 * u) * 2) (by linarith) ?_ ?_
    · rw [show 1 - (EllCalcCore.new (Nat.cast n : Fl R)).cst2.val - (1 - σ) =
        -((EllCalcCore.new (Nat.cast n : Fl R)).cst2.val - σ) by ring, abs_neg]
      refine ha.trans ?_
      have : 0 ≤ 4 * u / (1 - 4 * u) := div_nonneg (by linarith) (by linarith)
      push_cast
      nlinarith
    · have hd : (0 : ℝ) < 1 - 4 * u := by linarith
      rw [show 4 * u / (1 - 4 * u) * 2 * (1 + (10 : ℕ) * u) = 8 * u * (1 + 10 * u) / (1 - 4 * u) by
        push_cast; ring, div_le_iff₀ hd]
      push_cast
      nlinarith
  exact h2.round (R := R) hu1 (by linarith)

end Constants

/-- **C96** (the matrix stays exactly diagonal)  Any update of a diagonal `EllStable` in rounded arithmetic, with any kind of cut and
a gradient of floating-point numbers, ends without a panic in a diagonal `EllStable`; a cut that is not successful changes neither
matrix nor centre nor `kappa`. -/
theorem C96_stays_diagonal {T : Type} [CutType T (Fl R)] (hn : 0 < n) (k : UpdateKind) (s : EllStable (Fl R))
    (cut : Arr (Fl R) × T) (hs : s.FlDiagonal n) (hg : cut.1.IsVecShape n) (hrep : ∀ i, R.Rep (cut.1.flVec n i)) :
    ∃ st s', EllStable.space.update k s cut = .ok (st, s') ∧ s'.FlDiagonal n ∧ s'.helper = s.helper ∧
      (st ≠ .success → s'.mq.flMat n = s.mq.flMat n ∧ s'.xc.flVec n = s.xc.flVec n ∧ s'.kappa = s.kappa) := by
  obtain ⟨st, ρ, σ, δ, s', -, h1, h2, -, h3, h4, -⟩ := EllStable.update_diagF hn k s cut hs hg hrep
  exact ⟨st, s', h1, h3, h2, h4⟩

/-- **C96** (`tsq` to full relative accuracy)  After any update of an `EllStable` that stands for an ellipsoid, `tsq()` agrees with
`κ gᵀMg` up to `n + 3` roundings: no cancellation, whatever the gradient. -/
theorem C96_tsq_accurate {T : Type} [CutType T (Fl R)] (hu : u < 1) (hn : 0 < n) (k : UpdateKind) (s : EllStable (Fl R))
    (cut : Arr (Fl R) × T) (hs : s.FlPos n) (hg : cut.1.IsVecShape n) (hrep : ∀ i, R.Rep (cut.1.flVec n i))
    {st : CutStatus} {s' : EllStable (Fl R)} (hrun : EllStable.space.update k s cut = .ok (st, s')) :
    Near u (n + 3) s'.tsq.val (s.kappa.val * (cut.1.flVec n ⬝ᵥ (s.mq.flMat n *ᵥ cut.1.flVec n))) := by
  obtain ⟨st', ρ, σ, δ, s1, -, h1, -, h3, -⟩ := EllStable.update_diagF hn k s cut hs.toFlDiagonal hg hrep
  rw [hrun] at h1
  simp only [Res.ok.injEq, Prod.mk.injEq] at h1
  obtain ⟨rfl, rfl⟩ := h1
  have hd : ∀ i < n, 0 < (s.mq.mat i i).val := fun i hi => hs.diag ⟨i, hi⟩
  obtain ⟨a, b⟩ := EllStable.sum_near (R := R) hu (p := fun i => cut.1.vec i * s.mq.mat i i * cut.1.vec i)
    (q := fun i => (cut.1.vec i).val * (s.mq.mat i i).val * (cut.1.vec i).val) n
    (fun i hi => by nlinarith [mul_self_nonneg (cut.1.vec i).val, hd i hi]) (fun i hi => EllStable.term_near hu (hd i hi))
  have e : cut.1.flVec n ⬝ᵥ (s.mq.flMat n *ᵥ cut.1.flVec n) =
      sumTo n fun i => (cut.1.vec i).val * (s.mq.mat i i).val * (cut.1.vec i).val := by
    refine (EllStable.omega_eq _ (fun i => (s.mq.mat i i).val) _ (fun i => (cut.1.vec i).val) (fun _ => rfl) ?_).symm
    ext i j
    by_cases hij : i = j
    · subst hij; simp; rfl
    · rw [hs.off i j hij, diagonal_apply_ne _ hij]
  rw [h3, e]
  have := ((Near.of_eq rfl).mul hu hs.kappa.le b a).round (R := R) hu (mul_nonneg hs.kappa.le b)
  rw [show 0 + (n + 2) + 1 = n + 3 by ring] at this
  exact this

/-- **C96** (a central cut, against exact arithmetic)  A central cut of an `EllStable` that stands for an ellipsoid, dimension at
least two: the update succeeds, the result stands for an ellipsoid again (its matrix is positive definite), no diagonal entry grows,
and `tsq`, `kappa`, every diagonal entry and the centre agree with those of the exact update of the same numbers to the stated
number of roundings. -/
theorem C96_central_step (hu : u ≤ 1 / 64) (hn : 2 ≤ n) (s : EllStable (Fl R)) (hs : s.FlPos n) (g : Arr (Fl R))
    (hg : g.IsVecShape n) (hrep : ∀ i, R.Rep (g.flVec n i)) (hne : g.flVec n ≠ 0) (c : SingleCut (Fl R))
    (r : EllStable ℝ) (hr : s.Reads n r) (gr : Arr ℝ) (hgr : gr.IsVecShape n) (hgg : gr.toVec n = g.flVec n) (cr : SingleCut ℝ) :
    ∃ s' r', EllStable.space.update .central s (g, c) = .ok (.success, s') ∧
      EllStable.space.update .central r (gr, cr) = .ok (.success, r') ∧
      s'.FlPos n ∧ (s'.mq.flMat n).PosDef ∧ (∀ i, s'.mq.flMat n i i ≤ s.mq.flMat n i i) ∧
      Near u (n + 3) s'.tsq.val r'.tsq ∧ Near u 11 s'.kappa.val r'.kappa ∧
      (∀ i, Near u (4 * n + 40) (s'.mq.flMat n i i) (r'.M n i i)) ∧
      ∀ i, |s'.xc.flVec n i - r'.c n i| ≤
        u * |r'.c n i| + (1 + u) * (((1 - u) ^ (2 * n + 12))⁻¹ - 1) * |r'.c n i - r.c n i| := by
  have h0 := R.unit_nonneg
  have hu1 : u < 1 := by linarith
  have hn0 : 0 < n := by omega
  have hn2 : (2 : ℝ) ≤ n := by exact_mod_cast hn
  obtain ⟨st, ρ, σ, δ, s', hc, h1, h2, h3, h4, -, h6⟩ := EllStable.update_diagF hn0 .central s (g, c) hs.toFlDiagonal hg hrep
  have htsq := C96_tsq_accurate hu1 hn0 .central s (g, c) hs hg hrep h1
  rw [hs.helper] at hc
  have hrd : r.Diagonal n := ⟨hr.shaped, fun i j hij => by rw [hr.mat]; exact hs.off i j hij⟩
  obtain ⟨st', ρ', σ', δ', r', k1, k2, k3, k4, k5, -, k7⟩ := EllStable.update_both hn0 .central r (gr, cr) hrd hgr
  rw [hr.helper] at k1
  have hcF : CutType.call .central c (EllCalc.new n) (s.kappa * sumTo n fun i => g.vec i * s.mq.mat i i * g.vec i) =
      (.success, (EllCalcCore.new (Nat.cast n : Fl R)).calcCentralCut
        (s.kappa * sumTo n fun i => g.vec i * s.mq.mat i i * g.vec i)) := rfl
  have hkR : CutType.call .central cr (EllCalc.new n) (r.kappa * (gr.toVec n ⬝ᵥ (r.M n *ᵥ gr.toVec n))) =
      (.success, (EllCalcCore.new (Nat.cast n : ℝ)).calcCentralCut (r.kappa * (gr.toVec n ⬝ᵥ (r.M n *ᵥ gr.toVec n)))) := rfl
  dsimp only at hc k1
  rw [hcF] at hc
  rw [hkR, calcCentralCut_real] at k1
  simp only [EllCalcCore.calcCentralCut, Prod.mk.injEq] at hc k1
  obtain ⟨rfl, hρ, hσ, hδ⟩ := hc
  obtain ⟨rfl, hρ', hσ', hδ'⟩ := k1
  obtain ⟨m1, m2, m3⟩ := h6 rfl
  obtain ⟨l1, l2, l3⟩ := k7 rfl
  dsimp only at m1 m2 m3 l1 l2 l3 h3 htsq k5
  -- the exact quantities
  set ω : ℝ := gr.toVec n ⬝ᵥ (r.M n *ᵥ gr.toVec n) with hω
  set ωF : Fl R := sumTo n fun i => g.vec i * s.mq.mat i i * g.vec i with hωF
  have hvec : ∀ i < n, gr.vec i = (g.vec i).val := fun i hi => congrFun hgg ⟨i, hi⟩
  have hmat : ∀ i < n, r.mq.mat i i = (s.mq.mat i i).val := fun i hi => congrFun (congrFun hr.mat ⟨i, hi⟩) ⟨i, hi⟩
  have hd : ∀ i < n, 0 < (s.mq.mat i i).val := fun i hi => hs.diag ⟨i, hi⟩
  have hq : ∀ i < n, 0 ≤ gr.vec i * r.mq.mat i i * gr.vec i := fun i hi => by
    rw [hvec i hi, hmat i hi]
    nlinarith [mul_self_nonneg (g.vec i).val, hd i hi]
  have hterm : ∀ i < n, Near u 2 (g.vec i * s.mq.mat i i * g.vec i).val (gr.vec i * r.mq.mat i i * gr.vec i) := fun i hi => by
    rw [hvec i hi, hmat i hi]
    exact EllStable.term_near hu1 (hd i hi)
  obtain ⟨hω1, hω2⟩ := EllStable.sum_near (R := R) hu1 n hq hterm
  have hωs : (sumTo n fun i => gr.vec i * r.mq.mat i i * gr.vec i) = ω :=
    EllStable.omega_eq (r.M n) (fun i => r.mq.mat i i) (gr.toVec n) gr.vec (fun _ => rfl) (EllStable.M_of hrd.isMat)
  rw [hωs] at hω1 hω2
  obtain ⟨i0, hi0⟩ : ∃ i, g.flVec n i ≠ 0 := Function.ne_iff.1 hne
  have hωpos : 0 < ω := by
    rw [← hωs, sumTo_real]
    refine Finset.sum_pos' (fun j hj => hq j (Finset.mem_range.1 hj)) ⟨i0, Finset.mem_range.2 i0.2, ?_⟩
    rw [hvec i0 i0.2, hmat i0 i0.2]
    have : 0 < (g.vec i0).val * (g.vec i0).val := mul_self_pos.2 hi0
    nlinarith [hd i0 i0.2]
  -- strategy constants
  have hσn := cst2_near R hu hn
  have hσ1 := one_sub_cst2_near R hu hn
  have hδn := cst1_near R hu hn
  rw [hσ, hσ'] at hσn hσ1
  rw [hδ, hδ'] at hδn
  have hσpos : 0 < σ' := by rw [← hσ']; positivity
  have hσlt : 0 < 1 - σ' := by
    rw [← hσ', mul_one_div, sub_pos, div_lt_one (by positivity)]
    linarith
  have hδpos : 0 < δ' := by
    rw [← hδ']
    exact div_pos (by positivity) (by nlinarith)
  have hσF : 0 < σ.val := hσn.pos hu1 hσpos
  have hσF1 : σ.val < 1 := by
    have := hσ1.pos hu1 hσlt
    by_contra hcon
    have h2 := R.mono (1 - σ.val) 0 (by linarith)
    rw [R.zero] at h2
    exact absurd this (not_lt.2 h2)
  obtain ⟨hpos, hle⟩ := EllStable.update_posF hu1 hs (v := g.vec) ⟨i0, i0.2, hi0⟩ h4 h2 hσF hσF1 (hδn.pos hu1 hδpos) m1 m3
  refine ⟨s', r', h1, k2, hpos, hpos.posDef, hle, ?_, ?_, ?_, ?_⟩
  · rw [k5, hω, hr.mat, hgg, hr.kappa]
    exact htsq
  · rw [m3, l3, hr.kappa]
    have := ((Near.of_eq rfl).mul hu1 hs.kappa.le hδpos.le hδn).round (R := R) hu1 (mul_nonneg hs.kappa.le hδpos.le)
    simpa using this
  · intro i
    have hmu : Near u 16 (σ / (1 - σ)).val (σ' / (1 - σ')) :=
      (hσn.div hu1 hσpos.le hσlt hσ1).round hu1 (div_nonneg hσpos.le hσlt.le)
    have hmu' : 0 < σ' / (1 - σ') := div_pos hσpos hσlt
    have hold : Near u (n + 2 + 16 + 1) (ωF / (σ / (1 - σ))).val (ω / (σ' / (1 - σ'))) :=
      (hω1.div hu1 hωpos.le hmu' hmu).round hu1 (div_nonneg hωpos.le hmu'.le)
    have hold' : 0 < ω / (σ' / (1 - σ')) := div_pos hωpos hmu'
    obtain ⟨a1, a2⟩ := EllStable.tt_near (R := R) hu1 (by omega) hold'.le hold i (fun j hj => hq j (hj.trans i.2))
      (fun j hj => hterm j (hj.trans i.2))
    obtain ⟨b1, b2⟩ := EllStable.tt_near (R := R) hu1 (by omega) hold'.le hold (i + 1) (fun j hj => hq j (by omega))
      (fun j hj => hterm j (by omega))
    have hA : 0 < EllStable.tt (ω / (σ' / (1 - σ'))) (fun i => gr.vec i * r.mq.mat i i * gr.vec i) i := lt_of_lt_of_le hold' a2
    have hB : 0 < EllStable.tt (ω / (σ' / (1 - σ'))) (fun i => gr.vec i * r.mq.mat i i * gr.vec i) (i + 1) :=
      lt_of_lt_of_le hold' b2
    have hq1 := (a1.div hu1 hA.le hB b1).round (R := R) hu1 (div_nonneg hA.le hB.le)
    have hdi := hs.diag i
    have hfin := ((Near.of_eq (u := u) (rfl : (s.mq.mat i i).val = _)).mul hu1 hdi.le (div_nonneg hA.le hB.le) hq1).round
      (R := R) hu1 (mul_nonneg hdi.le (div_nonneg hA.le hB.le))
    have hM : r'.M n i i = (s.mq.mat i i).val * (EllStable.tt (ω / (σ' / (1 - σ'))) (fun i => gr.vec i * r.mq.mat i i * gr.vec i) i /
        EllStable.tt (ω / (σ' / (1 - σ'))) (fun i => gr.vec i * r.mq.mat i i * gr.vec i) (i + 1)) := by
      rw [l1, diagonal_apply_eq, hr.mat]
      rfl
    have hS : s'.mq.flMat n i i = (s.mq.mat i i * (EllStable.ttF (ωF / (σ / (1 - σ))) (fun i => g.vec i * s.mq.mat i i * g.vec i) i /
        EllStable.ttF (ωF / (σ / (1 - σ))) (fun i => g.vec i * s.mq.mat i i * g.vec i) (i + 1))).val := by
      show (s'.mq.mat i i).val = _
      rw [m1 i]
    rw [hM, hS]
    refine Near.mono h0 hu1 ?_ ?_ (mul_nonneg hdi.le (div_nonneg hA.le hB.le)) hfin
    · have := i.2
      omega
    · rw [← hS]
      exact (hpos.diag i).le
  · intro i
    -- the step
    have hρn : Near u (n + 7) ρ.val ρ' := by
      rw [← hρ, ← hρ']
      have ht : Near u (n + 3) (s.kappa * ωF).val (r.kappa * ω) := by
        rw [← h3, hω, hr.mat, hgg, hr.kappa]; exact htsq
      have hs1 : Near u (n + 3 + 1) (Scalar.sqrt (s.kappa * ωF)).val (√(r.kappa * ω)) :=
        (ht.sqrt h0 hu1).round hu1 (Real.sqrt_nonneg _)
      exact (hs1.div hu1 (Real.sqrt_nonneg _) (by positivity) (nPlus1_near R hu hn)).round hu1
        (div_nonneg (Real.sqrt_nonneg _) (by positivity))
    have hρ0 : 0 ≤ ρ' := by rw [← hρ']; positivity
    have hrat : Near u (n + 7 + (n + 2) + 1) (ρ / ωF).val (ρ' / ω) :=
      (hρn.div hu1 hρ0 hωpos hω1).round hu1 (div_nonneg hρ0 hωpos.le)
    have hrat0 : 0 ≤ ρ' / ω := div_nonneg hρ0 hωpos.le
    set zz : ℝ := (g.vec i).val * (s.mq.mat i i).val with hzz
    obtain ⟨sg, hsg, hsg1⟩ : ∃ sg : ℝ, 0 ≤ zz * sg ∧ |sg| = 1 := by
      rcases le_total 0 zz with h | h
      · exact ⟨1, by simpa using h, abs_one⟩
      · exact ⟨-1, by simpa using h, by simp⟩
    have hz1 : Near u 1 (R.rnd zz * sg) (zz * sg) := Near.rnd_mul hu1 hsg
    have hz2 := hrat.mul hu1 hrat0 hsg hz1
    have hz3 : 0 ≤ ((ρ / ωF).val * R.rnd zz) * sg := by
      have := hz2.nonneg hu1 (mul_nonneg hrat0 hsg)
      rwa [← mul_assoc] at this
    have hz4 := (Near.rnd_mul (R := R) hu1 hz3).trans hu1 (by rw [mul_assoc]; exact hz2)
    have hab := hz4.abs_le h0 hu1 (mul_nonneg hrat0 hsg)
    have hx : s'.xc.flVec n i = R.rnd ((s.xc.vec i).val - R.rnd ((ρ / ωF).val * R.rnd zz)) := by
      show (s'.xc.vec i).val = _
      rw [m2 i]
      rfl
    have hstepR : r'.c n i = (s.xc.vec i).val - ρ' / ω * zz := by
      rw [l2]
      have hv : (r.M n *ᵥ gr.toVec n) i = zz := by
        rw [hrd.M_eq, mulVec_diagonal, hr.mat, hgg, mul_comm]
        rfl
      simp only [Pi.sub_apply, Pi.smul_apply, smul_eq_mul, hv, hr.centre]
      rfl
    have hci : r.c n i = (s.xc.vec i).val := by rw [hr.centre]; rfl
    have hdiff : |r'.c n i - r.c n i| = ρ' / ω * (zz * sg) := by
      rw [hstepR, hci, show (s.xc.vec i).val - ρ' / ω * zz - (s.xc.vec i).val = -(ρ' / ω * zz) by ring, abs_neg, abs_mul,
        abs_of_nonneg hrat0]
      have : |zz| = zz * sg := by
        rw [← abs_of_nonneg hsg, abs_mul zz sg, hsg1, mul_one]
      rw [this]
    have herr : |R.rnd ((ρ / ωF).val * R.rnd zz) - ρ' / ω * zz| ≤ (((1 - u) ^ (2 * n + 12))⁻¹ - 1) * |r'.c n i - r.c n i| := by
      rw [hdiff]
      have e : |R.rnd ((ρ / ωF).val * R.rnd zz) - ρ' / ω * zz| =
          |R.rnd ((ρ / ωF).val * R.rnd zz) * sg - ρ' / ω * (zz * sg)| := by
        rw [show R.rnd ((ρ / ωF).val * R.rnd zz) * sg - ρ' / ω * (zz * sg) =
          (R.rnd ((ρ / ωF).val * R.rnd zz) - ρ' / ω * zz) * sg by ring, abs_mul, hsg1, mul_one]
      rw [e]
      refine hab.trans (le_of_eq ?_)
      rw [show 1 + (n + 7 + (n + 2) + 1 + 1) = 2 * n + 12 by ring]
    set step := R.rnd ((ρ / ωF).val * R.rnd zz) with hstep
    rw [hx]
    have e1 := R.err ((s.xc.vec i).val - step)
    have e2 : |(s.xc.vec i).val - step| ≤ |r'.c n i| + |step - ρ' / ω * zz| := by
      have : (s.xc.vec i).val - step = r'.c n i - (step - ρ' / ω * zz) := by rw [hstepR]; ring
      rw [this]
      exact abs_sub _ _
    have e3 : |R.rnd ((s.xc.vec i).val - step) - r'.c n i| ≤
        |R.rnd ((s.xc.vec i).val - step) - ((s.xc.vec i).val - step)| + |step - ρ' / ω * zz| := by
      have : R.rnd ((s.xc.vec i).val - step) - r'.c n i =
          (R.rnd ((s.xc.vec i).val - step) - ((s.xc.vec i).val - step)) - (step - ρ' / ω * zz) := by rw [hstepR]; ring
      rw [this]
      exact abs_sub _ _
    have := abs_nonneg (step - ρ' / ω * zz)
    nlinarith

/-- the gradient read as real numbers -/
theorem Arr.flVec_real {g : Arr (Fl R)} (hg : g.IsVecShape n) : ∃ gr : Arr ℝ, gr.IsVecShape n ∧ gr.toVec n = g.flVec n := by
  have h : IsVec (⟨g.data.map Fl.val, g.rows, g.cols⟩ : Arr ℝ) n fun i => (g.vec i).val :=
    ⟨hg.1, hg.2.1, by simpa using hg.2.2, fun i hi => by simp [hg.isVec.get i hi]⟩
  exact ⟨_, h.shape, by ext i; exact h.vec i.2⟩

/-- every `EllStable` that stands for an ellipsoid can be read as one of real numbers -/
theorem EllStable.FlPos.reads {s : EllStable (Fl R)} (hs : s.FlPos n) : ∃ r, s.Reads n r := by
  obtain ⟨c, hc1, hc2⟩ := Arr.flVec_real hs.shaped.2
  have h : IsMat (⟨s.mq.data.map Fl.val, s.mq.rows, s.mq.cols⟩ : Arr ℝ) n n fun i j => (s.mq.mat i j).val :=
    ⟨hs.shaped.1.1, hs.shaped.1.2.1, by simpa using hs.shaped.1.2.2, fun i j hi hj => by simp [hs.shaped.1.isMat.get i j hi hj]⟩
  exact ⟨{ kappa := s.kappa.val, mq := _, xc := c, helper := EllCalc.new n, tsq := 0 }, ⟨h.shape, hc1⟩, by ext i j; exact h.mat i.2 j.2, hc2, rfl, rfl⟩

/-- **C96** (central cuts, any run)  Along any sequence of central cuts with nonzero gradients every update succeeds and every
state reached stands for an ellipsoid: its matrix is diagonal and positive definite, its diagonal entries are at most those of the
first state.  (For `Ell` this is false already for one update: `C71_posDef_lost`.) -/
theorem C96_central_run (hu : u ≤ 1 / 64) (hn : 2 ≤ n) (cuts : List (Arr (Fl R) × SingleCut (Fl R)))
    (hcuts : ∀ c ∈ cuts, c.1.IsVecShape n ∧ (∀ i, R.Rep (c.1.flVec n i)) ∧ c.1.flVec n ≠ 0)
    (s : EllStable (Fl R)) (hs : s.FlPos n) :
    ∃ tr, EllStable.space.run s (cuts.map fun c => (UpdateKind.central, c)) = .ok tr ∧ tr.length = cuts.length ∧
      ∀ p ∈ tr, p.1 = .success ∧ p.2.FlPos n ∧ (p.2.mq.flMat n).PosDef ∧ ∀ i, p.2.mq.flMat n i i ≤ s.mq.flMat n i i := by
  induction cuts generalizing s with
  | nil => exact ⟨[], rfl, rfl, by simp⟩
  | cons c cuts ih =>
    obtain ⟨hg, hrep, hne⟩ := hcuts c (by simp)
    obtain ⟨r, hr⟩ := hs.reads
    obtain ⟨gr, hg1, hg2⟩ := Arr.flVec_real hg
    obtain ⟨s', -, h1, -, h3, h4, h5, -⟩ :=
      C96_central_step hu hn s hs c.1 hg hrep hne c.2 r hr gr hg1 hg2 (.mk 0)
    obtain ⟨tr, k1, k2, k3⟩ := ih (fun c hc => hcuts c (by simp [hc])) s' h3
    refine ⟨(.success, s') :: tr, ?_, by simp [k2], ?_⟩
    · rw [List.map_cons]
      unfold Space.run
      rw [h1]
      simp only [Res.ok_bind, k1]
    · intro p hp
      rcases List.mem_cons.1 hp with rfl | hp
      · exact ⟨rfl, h3, h4, h5⟩
      · obtain ⟨a, b, c, d⟩ := k3 p hp
        exact ⟨a, b, c, fun i => (d i).trans (h5 i)⟩

/-- **C96** (deep cuts)  A bias cut, or a cut for discrete problems, whose depth `β` is nonnegative and below `√tsq` by a relative
margin of 64 roundings succeeds and leaves an `EllStable` that stands for an ellipsoid, with diagonal entries no larger than before.
Here `tsq` is the number the update itself reports. -/
theorem C96_deep_cut (hu : u ≤ 1 / 64) (hn : 2 ≤ n) (k : UpdateKind) (hk : k = .bias ∨ k = .q) (s : EllStable (Fl R))
    (hs : s.FlPos n) (g : Arr (Fl R)) (hg : g.IsVecShape n) (hrep : ∀ i, R.Rep (g.flVec n i)) (hne : g.flVec n ≠ 0)
    (β : Fl R) (hβ : 0 ≤ β.val) {st : CutStatus} {s' : EllStable (Fl R)}
    (hrun : EllStable.space.update k s (g, SingleCut.mk β) = .ok (st, s')) (hdeep : β.val < (1 - 64 * u) * √s'.tsq.val) :
    st = .success ∧ s'.FlPos n ∧ (s'.mq.flMat n).PosDef ∧ ∀ i, s'.mq.flMat n i i ≤ s.mq.flMat n i i := by
  have h0 := R.unit_nonneg
  have hu1 : u < 1 := by linarith
  have hn0 : 0 < n := by omega
  have hn2 : (2 : ℝ) ≤ n := by exact_mod_cast hn
  obtain ⟨st1, ρ, σ, δ, s1, hc, h1, h2, h3, h4, -, h6⟩ :=
    EllStable.update_diagF hn0 k s (g, SingleCut.mk β) hs.toFlDiagonal hg hrep
  rw [hrun] at h1
  simp only [Res.ok.injEq, Prod.mk.injEq] at h1
  obtain ⟨rfl, rfl⟩ := h1
  rw [hs.helper] at hc
  dsimp only at hc h3 h6
  rw [← h3] at hc
  have hidem : R.Rep s'.tsq.val := by rw [h3]; exact R.idem _
  set t := s'.tsq with ht
  set T : ℝ := √t.val with hT
  have hTpos : 0 < T := by
    by_contra hcon
    have : T = 0 := le_antisymm (not_lt.1 hcon) (Real.sqrt_nonneg _)
    rw [this] at hdeep
    linarith
  have htpos : 0 < t.val := Real.sqrt_pos.1 hTpos
  have hTT : T * T = t.val := Real.mul_self_sqrt htpos.le
  have hβT : β.val < T := by nlinarith
  -- τ
  set τ : Fl R := Scalar.sqrt t with hτ
  have hτn : Near u 1 τ.val T := Near.rnd (R := R) hu1 hTpos.le
  have hτ1 : (1 - u) * T ≤ τ.val := by simpa using hτn.1
  have hτpos : 0 < τ.val := hτn.pos hu1 hTpos
  -- the strategy is `calcBiasCutFast`
  have hnot1 : ¬ t.val < (β * β).val := by
    have := R.mono (β.val * β.val) t.val (by nlinarith)
    rw [hidem] at this
    exact not_lt.2 this
  have hnot2 : ¬ τ.val < β.val := by nlinarith
  have hη : Near u 3 (τ + (Nat.cast n : Fl R) * β).val (T + n * β.val) := by
    have a : Near u 2 ((Nat.cast n : Fl R) * β).val (n * β.val) := by
      have := ((nF_near R hu hn).mul hu1 (by positivity) hβ (Near.of_eq rfl)).round (R := R) hu1 (mul_nonneg (by positivity) hβ)
      simpa using this
    have b := hτn.mono h0 hu1 (show 1 ≤ 2 by norm_num) hτpos.le hTpos.le
    exact (b.add a).round hu1 (by positivity)
  have hηpos : 0 < (τ + (Nat.cast n : Fl R) * β).val := hη.pos hu1 (by positivity)
  have hcall : CutType.call k (SingleCut.mk β) (EllCalc.new n) t =
      (.success, (EllCalcCore.new (Nat.cast n : Fl R)).calcBiasCutFast β τ (τ + (Nat.cast n : Fl R) * β)) := by
    rcases hk with rfl | rfl
    · show (EllCalc.new n : EllCalc (Fl R)).calcBiasCut β t = _
      unfold EllCalc.calcBiasCut
      rw [if_neg (by simpa [Scalar.lt] using not_lt.1 hnot1)]
      rfl
    · show (EllCalc.new n : EllCalc (Fl R)).calcBiasCutQ β t = _
      unfold EllCalc.calcBiasCutQ
      dsimp only
      have e1 : Scalar.lt (Scalar.sqrt t) β = false := decide_eq_false hnot2
      have e2 : Scalar.lt (Scalar.sqrt t + (EllCalc.new n : EllCalc (Fl R)).nF * β) 0 = false := decide_eq_false (not_lt.2 hηpos.le)
      rw [e1, e2]
      rfl
  rw [hcall] at hc
  simp only [EllCalcCore.calcBiasCutFast, Prod.mk.injEq] at hc
  obtain ⟨rfl, hρ, hσ, hδ⟩ := hc
  obtain ⟨m1, m2, m3⟩ := h6 rfl
  -- σ
  have hT1 : 0 < T + n * β.val := by positivity
  have hρn : Near u 6 ρ.val ((T + n * β.val) / (n + 1)) := by
    rw [← hρ]
    exact (hη.div hu1 hT1.le (by positivity) (nPlus1_near R hu hn)).round hu1 (by positivity)
  have hρ0 : 0 < (T + n * β.val) / ((n : ℝ) + 1) := by positivity
  have h2' : Near u 0 (nat 2 : Fl R).val 2 := Near.of_eq (by
    show R.rnd ((2 : Nat) : ℝ) = 2
    exact_mod_cast R.two)
  have hTβ : Near u 2 (τ + β).val (T + β.val) := by
    have : Near u 1 β.val β.val := (Near.of_eq rfl).mono h0 hu1 (Nat.zero_le 1) hβ hβ
    exact (hτn.add this).round hu1 (by positivity)
  have hσn : Near u 10 σ.val (2 * ((T + n * β.val) / (n + 1)) / (T + β.val)) := by
    rw [← hσ, hρ]
    have a : Near u 7 (nat 2 * ρ).val (2 * ((T + n * β.val) / (n + 1))) := by
      have := (h2'.mul hu1 (by norm_num) hρ0.le hρn).round (R := R) hu1 (by positivity)
      simpa using this
    exact (a.div hu1 (by positivity) (by positivity) hTβ).round hu1 (by positivity)
  have hσpos : 0 < σ.val := hσn.pos hu1 (by positivity)
  have hσlt : σ.val < 1 := by
    have hb : 2 * ((T + n * β.val) / (n + 1)) / (T + β.val) < 1 - 10 * u := by
      rw [← mul_div_assoc, div_div, div_lt_iff₀ (by positivity)]
      have e1 : ((n : ℝ) - 1) * (64 * u * T) ≤ (n - 1) * (T - β.val) :=
        mul_le_mul_of_nonneg_left (by nlinarith) (by linarith)
      have e2 : ((n : ℝ) + 1) ≤ 3 * (n - 1) := by linarith
      have e4 : ((n : ℝ) - 1) * (64 * u * T) < (n - 1) * (T - β.val) :=
        mul_lt_mul_of_pos_left (by nlinarith) (by linarith)
      have e3 : 10 * u * ((n + 1) * (T + β.val)) ≤ 60 * u * ((n - 1) * T) := by
        have : ((n : ℝ) + 1) * (T + β.val) ≤ 3 * (n - 1) * (2 * T) :=
          mul_le_mul e2 (by linarith) (by linarith) (by linarith)
        nlinarith
      have e5 : 0 ≤ u * ((n - 1) * T) := mul_nonneg h0 (mul_nonneg (by linarith) hTpos.le)
      nlinarith
    have hb2 : 1 - (10 : ℕ) * u ≤ (1 - u) ^ 10 := by
      have := one_add_mul_le_pow (show (-2 : ℝ) ≤ -u by linarith) 10
      push_cast at this ⊢
      rw [show (1 : ℝ) - u = 1 + -u by ring]
      linarith
    have := hσn.2
    have hp := pow_sub_nonneg hu1 10
    push_cast at hb2
    by_contra hcon
    nlinarith
  -- δ
  have hδpos : 0 < δ.val := by
    rw [← hδ]
    have hc1 := (cst1_near R hu hn).pos hu1 (div_pos (by positivity) (by nlinarith))
    refine R.pos hu1 (mul_pos hc1 (R.pos hu1 ?_))
    have hq0 : 0 ≤ β.val / τ.val := div_nonneg hβ hτpos.le
    have hα0 : 0 ≤ (β / τ).val := R.nonneg hq0
    have hα : (β / τ).val < 1 - 62 * u := by
      have e := abs_le.1 (R.err (β.val / τ.val))
      rw [abs_of_nonneg hq0] at e
      have e1 : (β / τ).val ≤ (1 + u) * (β.val / τ.val) := by
        show R.rnd _ ≤ _
        linarith [e.2]
      refine lt_of_le_of_lt e1 ?_
      rw [← mul_div_assoc, div_lt_iff₀ hτpos]
      have e2 : (1 + u) * β.val < (1 + u) * ((1 - 64 * u) * T) := mul_lt_mul_of_pos_left hdeep (by linarith)
      have e3 : (1 - 62 * u) * ((1 - u) * T) ≤ (1 - 62 * u) * τ.val := mul_le_mul_of_nonneg_left hτ1 (by linarith)
      have e4 : (1 + u) * ((1 - 64 * u) * T) ≤ (1 - 62 * u) * ((1 - u) * T) := by
        have : 0 ≤ u * u * T := by positivity
        nlinarith
      linarith
    have hα2 : (β / τ).val * (β / τ).val ≤ 1 - 62 * u := by nlinarith
    have e := abs_le.1 (R.err ((β / τ).val * (β / τ).val))
    rw [abs_of_nonneg (mul_nonneg hα0 hα0)] at e
    have e2 : (β / τ).val * (β / τ).val < 1 - 62 * u := by nlinarith
    have e1 : (β / τ * (β / τ)).val ≤ (1 + u) * ((β / τ).val * (β / τ).val) := by
      show R.rnd _ ≤ _
      linarith [e.2]
    show 0 < 1 - (β / τ * (β / τ)).val
    nlinarith
  obtain ⟨i0, hi0⟩ : ∃ i, g.flVec n i ≠ 0 := Function.ne_iff.1 hne
  obtain ⟨hpos, hle⟩ := EllStable.update_posF hu1 hs (v := g.vec) ⟨i0, i0.2, hi0⟩ h4 h2 hσpos hσlt hδpos m1 m3
  exact ⟨rfl, hpos, hpos.posDef, hle⟩

/-- **C96** (the constructors)  Both constructors give an `EllStable` that stands for an ellipsoid, for positive floating-point
arguments. -/
theorem C96_new (val xc : Arr (Fl R)) (hval : val.IsVecShape n) (hxc : xc.IsVecShape n) (hpos : ∀ i, 0 < val.flVec n i)
    (hrep : ∀ i, R.Rep (val.flVec n i)) (k : Fl R) (hk : 0 < k.val) :
    (∃ s, EllStable.new val xc = .ok s ∧ s.FlPos n) ∧ ∃ s, EllStable.newWithScalar k xc = .ok s ∧ s.FlPos n := by
  have hl : xc.len = n := hxc.2.2
  constructor
  · obtain ⟨y, h1, h2⟩ := fromDiag_spec hval.isVec
    refine ⟨_, by simp only [EllStable.new, h1, Res.ok_bind]; rfl, ⟨⟨h2.shape, hxc⟩, fun i j hij => ?_⟩, fun i => ?_, fun i => ?_,
      one_pos, by simp [EllStable.newWithMatrix, hl]⟩
    · show (y.mat i j).val = 0
      rw [h2.mat i.2 j.2, if_neg (by simpa [Fin.ext_iff] using hij)]
      rfl
    · show 0 < (y.mat i i).val
      rw [h2.mat i.2 i.2, if_pos rfl]
      exact hpos i
    · show R.Rep (y.mat i i).val
      rw [h2.mat i.2 i.2, if_pos rfl]
      exact hrep i
  · obtain ⟨y, h1, h2⟩ := eye_spec (α := Fl R) xc.len
    rw [hl] at h2
    refine ⟨_, by simp only [EllStable.newWithScalar, h1, Res.ok_bind]; rfl, ⟨⟨h2.shape, hxc⟩, fun i j hij => ?_⟩, fun i => ?_,
      fun i => ?_, hk, by simp [EllStable.newWithMatrix, hl]⟩
    · show (y.mat i j).val = 0
      rw [h2.mat i.2 j.2, if_neg (by simpa [Fin.ext_iff] using hij)]
      rfl
    · show 0 < (y.mat i i).val
      rw [h2.mat i.2 i.2, if_pos rfl]
      exact one_pos
    · show R.Rep (y.mat i i).val
      rw [h2.mat i.2 i.2, if_pos rfl]
      exact R.one

end Ellalgo
