import Verif.Props.RoundedMargin
import Verif.Props.RoundedLmiCut
import Verif.Props.RoundedSolve

/-! **C108**: linear matrix inequalities are solved in floating point of high enough precision. -/

namespace Ellalgo
open Matrix Finset
open scoped ComplexOrder
variable {u : ℝ} {R : Rounding u} {n d : Nat}

theorem flLmiMat_entry {fs : List (Arr (Fl R))} {b : Arr (Fl R)} {x : Fin d → ℝ} (i j : Fin n) :
    |flLmiMat n fs b x i j| ≤ |b.flMat n i j| + flLinSize n fs x i j := by
  have h : flLmiMat n fs b x i j = b.flMat n i j - ∑ k, x k * flMatAt n fs k i j := by
    simp only [flLmiMat, flLinMat, Matrix.sub_apply, Matrix.sum_apply, Matrix.smul_apply, smul_eq_mul]
  rw [h]
  refine (abs_sub _ _).trans (add_le_add le_rfl ?_)
  refine (abs_sum_le_sum_abs _ _).trans (le_of_eq ?_)
  exact sum_congr rfl fun k _ => abs_mul _ _

/-- the matrix of a point between `y` and `x` -/
theorem flLmiMat_mix {fs : List (Arr (Fl R))} {b : Arr (Fl R)} (x y : Fin d → ℝ) (ε : ℝ) :
    flLmiMat n fs b (y + ε • (x - y)) = (1 - ε) • flLmiMat n fs b y + ε • flLmiMat n fs b x := by
  ext i j
  simp only [flLmiMat, flLinMat, Matrix.sub_apply, Matrix.sum_apply, Matrix.smul_apply, smul_eq_mul, Matrix.add_apply, Pi.add_apply,
    Pi.smul_apply, Pi.sub_apply]
  have : ∑ k, (y k + ε * (x k - y k)) * flMatAt n fs k i j =
      (1 - ε) * ∑ k, y k * flMatAt n fs k i j + ε * ∑ k, x k * flMatAt n fs k i j := by
    rw [mul_sum, mul_sum, ← sum_add_distrib]
    exact sum_congr rfl fun k _ => by ring
  rw [this]
  ring

/-- a cut of the LMI oracle in rounded arithmetic separates the point from everything that satisfies the inequality with margin `lam`,
by half that margin, if the unit is small enough -/
theorem lmi_cut_separates {fs : List (Arr (Fl R))} {b x : Arr (Fl R)} {o : LMIOracle (Fl R)} (hF : FlSymMats d n fs)
    (hb : b.IsMatShape n n) (hbs : (b.flMat n).IsSymm) (hoF : o.matF = fs) (hoB : o.matB = b) (hm : o.mgr.Sized n)
    (hx : x.IsVecShape d) (hu : 16 * ((n * n + n + d + 2 : Nat) * u) ≤ 1) {s : ℝ}
    (hs : ∀ i j, |b.flMat n i j| + flLinSize n fs (x.flVec d) i j ≤ s)
    {f : Fin d → ℝ} (hf : ∀ (k : Fin d) i j, |flMatAt n fs k i j| ≤ f k) (hf0 : ∀ k, 0 ≤ f k) {lam T : ℝ} (hlam : 0 < lam)
    (hT : 12 * (n * u) * (lam + n * s) + n * u * (8 * (n + d + 1 : Nat) * s + 2 * (n * n + 2 : Nat) * T) ≤ lam / 2) :
    ∃ r o', o.assess x = .ok (r, o') ∧ o'.matF = fs ∧ o'.matB = b ∧ o'.mgr.Sized n ∧
      ∀ g c, r = some (g, c) → g.IsVecShape d ∧ 0 ≤ c.beta.val ∧
        ∀ y : Fin d → ℝ, ∑ k, f k * |y k - x.flVec d k| ≤ T →
          (flLmiMat n fs b y - lam • (1 : Matrix (Fin n) (Fin n) ℝ)).PosSemidef →
            g.flVec d ⬝ᵥ (y - x.flVec d) + c.beta.val ≤ -(lam / 2) := by
  have hu0 := R.unit_nonneg
  obtain ⟨r, o', h1, h2, h3, h4, h5⟩ := lmi_cut_margin hF hb hbs hoF hoB hm hx hu hs hf
  refine ⟨r, o', h1, h2, h3, h4, fun g c h => ?_⟩
  obtain ⟨a1, a2, a3⟩ := h5 g c h
  refine ⟨a1, a2, fun y hy hp => ?_⟩
  have hnu0 : 0 ≤ n * u := by positivity
  have hε1 : 12 * (n * u) ≤ 3 / 4 := by
    push_cast at hu
    have : 0 ≤ (n : ℝ) * n * u := by positivity
    have : 0 ≤ (d : ℝ) * u := by positivity
    linarith
  have hsum0 : 0 ≤ ∑ k, f k * |y k - x.flVec d k| := sum_nonneg fun k _ => mul_nonneg (hf0 k) (abs_nonneg _)
  obtain ⟨ε, hε⟩ : ∃ ε, ε = 12 * (n * u) := ⟨_, rfl⟩
  have hε0 : 0 ≤ ε := by rw [hε]; positivity
  rw [← hε] at hε1 hT a3
  -- the point a little nearer to `x`
  have hmix := flLmiMat_mix (n := n) (fs := fs) (b := b) (x.flVec d) y ε
  have hdiff : ∀ k, (y + ε • (x.flVec d - y)) k - x.flVec d k = (1 - ε) * (y k - x.flVec d k) := by
    intro k
    simp only [Pi.add_apply, Pi.smul_apply, Pi.sub_apply, smul_eq_mul]
    ring
  have hsum : ∑ k, f k * |(y + ε • (x.flVec d - y)) k - x.flVec d k| ≤ T := by
    refine le_trans (sum_le_sum fun k _ => ?_) hy
    rw [hdiff, abs_mul, abs_of_nonneg (by linarith : 0 ≤ 1 - ε)]
    have := mul_nonneg (hf0 k) (abs_nonneg (y k - x.flVec d k))
    have := mul_nonneg hε0 this
    linarith
  obtain ⟨Q, hQ⟩ : ∃ Q, Q = ∑ k, f k * |(y + ε • (x.flVec d - y)) k - x.flVec d k| := ⟨_, rfl⟩
  have hQT : n * u * (8 * (n + d + 1 : Nat) * s + 2 * (n * n + 2 : Nat) * Q) ≤
      n * u * (8 * (n + d + 1 : Nat) * s + 2 * (n * n + 2 : Nat) * T) := by
    have : (0 : ℝ) ≤ 2 * (n * n + 2 : Nat) := by positivity
    have := mul_le_mul_of_nonneg_left (hQ ▸ hsum : Q ≤ T) this
    exact mul_le_mul_of_nonneg_left (by linarith) hnu0
  have hpsd : (flLmiMat n fs b (y + ε • (x.flVec d - y)) -
      ((1 - ε) * lam - ε * (n * s)) • (1 : Matrix (Fin n) (Fin n) ℝ)).PosSemidef := by
    refine PosSemidef.of_dotProduct_mulVec_nonneg ?_ fun v => ?_
    · have hs1 : (flLmiMat n fs b (y + ε • (x.flVec d - y))).IsSymm := flLmiMat_symm hF hbs
      rw [IsHermitian, conjTranspose_eq_transpose_of_trivial, transpose_sub, transpose_smul, transpose_one, hs1]
    · simp only [star_trivial]
      rw [sub_eq_add_neg, ← neg_smul, quad_shift, hmix, add_mulVec, dotProduct_add, smul_mulVec, smul_mulVec, dotProduct_smul,
        dotProduct_smul, smul_eq_mul, smul_eq_mul]
      have q1 := hp.dotProduct_mulVec_nonneg v
      simp only [star_trivial] at q1
      rw [sub_eq_add_neg, ← neg_smul, quad_shift] at q1
      have q2 := (abs_le.1 (quad_perturb (M := flLmiMat n fs b (x.flVec d)) (H := 0) (h := s)
        (fun i j => by simpa using (flLmiMat_entry i j).trans (hs i j)) v)).1
      simp only [zero_mulVec, dotProduct_zero, sub_zero] at q2
      have q3 := mul_nonneg (by linarith : 0 ≤ 1 - ε) q1
      have q4 := mul_le_mul_of_nonneg_left q2 hε0
      linarith
  have key := a3 (y + ε • (x.flVec d - y)) _ (by rw [← hQ]; linarith) hpsd
  rw [← hQ] at key
  have hvec : y + ε • (x.flVec d - y) - x.flVec d = (1 - ε) • (y - x.flVec d) := by
    funext k
    have := hdiff k
    simp only [Pi.sub_apply, Pi.smul_apply, smul_eq_mul] at this ⊢
    exact this
  rw [hvec, dotProduct_smul, smul_eq_mul] at key
  obtain ⟨G, hG⟩ : ∃ G, G = g.flVec d ⬝ᵥ (y - x.flVec d) + c.beta.val := ⟨_, rfl⟩
  have k2 : (1 - ε) * G ≤ -(lam / 2) := by rw [hG]; linarith
  rw [← hG]
  by_contra hc
  rw [not_le] at hc
  have k3 := mul_lt_mul_of_pos_left hc (by linarith : 0 < 1 - ε)
  have k4 := mul_nonneg hε0 hlam.le
  linarith

theorem flLinSize_le {fs : List (Arr (Fl R))} {x : Fin d → ℝ} {fb X : ℝ} (hfb : ∀ (k : Fin d) (i j : Fin n), |flMatAt n fs k i j| ≤ fb)
    (hx : norm2 x ≤ X) (i j : Fin n) : flLinSize n fs x i j ≤ d * (X * fb) := by
  unfold flLinSize
  refine (sum_le_card_nsmul univ _ (X * fb) fun k _ => ?_).trans (by simp)
  exact mul_le_mul ((norm2_coord x k).trans hx) (hfb k i j) (abs_nonneg _) ((norm2_nonneg x).trans hx)

/-- the LMI oracle is honest and separates, in arithmetic of high enough precision -/
theorem lmi_fl_honest {fs : List (Arr (Fl R))} {b : Arr (Fl R)} (hF : FlSymMats d n fs) (hb : b.IsMatShape n n)
    (hbs : (b.flMat n).IsSymm) {fb bb X Y lam : ℝ} (hfb : ∀ (k : Fin d) (i j : Fin n), |flMatAt n fs k i j| ≤ fb)
    (hbb : ∀ i j : Fin n, |b.flMat n i j| ≤ bb) (hfb0 : 0 ≤ fb)
    (hu : 16 * ((n * n + n + d + 2 : Nat) * u) ≤ 1) (hlam : 0 < lam)
    (hT : 12 * (n * u) * (lam + n * (bb + d * (X * fb))) + n * u * (8 * (n + d + 1 : Nat) * (bb + d * (X * fb)) +
      2 * (n * n + 2 : Nat) * (d * (fb * (Y + X)))) ≤ lam / 2) {m : Fin d → ℝ}
    (hm : m ∈ {y : Fin d → ℝ | norm2 y ≤ Y ∧ (flLmiMat n fs b y - lam • (1 : Matrix (Fin n) (Fin n) ℝ)).PosSemidef}) :
    FlHonest d (LMIOracle.oracle (α := Fl R)) (LMIOracle.HasData n fs b)
      {y | norm2 y ≤ Y ∧ (flLmiMat n fs b y - lam • (1 : Matrix (Fin n) (Fin n) ℝ)).PosSemidef} 0 X ∧
    FlSeparates d (LMIOracle.oracle (α := Fl R)) (LMIOracle.HasData n fs b) m (lam / 2) X := by
  have hcut : ∀ (o : LMIOracle (Fl R)) (x : Arr (Fl R)), LMIOracle.HasData n fs b o → x.IsVecShape d → norm2 (x.flVec d) ≤ X →
      ∃ r o', o.assess x = .ok (r, o') ∧ LMIOracle.HasData n fs b o' ∧
      ∀ g c, r = some (g, c) → g.IsVecShape d ∧ 0 ≤ c.beta.val ∧
        ∀ y : Fin d → ℝ, norm2 y ≤ Y → (flLmiMat n fs b y - lam • (1 : Matrix (Fin n) (Fin n) ℝ)).PosSemidef →
            g.flVec d ⬝ᵥ (y - x.flVec d) + c.beta.val ≤ -(lam / 2) := by
    intro o x ho hx hX
    obtain ⟨r, o', h1, h2, h3, h4, h5⟩ := lmi_cut_separates hF hb hbs ho.1 ho.2.1 ho.2.2 hx hu
      (fun i j => add_le_add (hbb i j) (flLinSize_le hfb hX i j)) (f := fun _ => fb) hfb (fun _ => hfb0) hlam hT
    refine ⟨r, o', h1, ⟨h2, h3, h4⟩, fun g c h => ?_⟩
    obtain ⟨a1, a2, a3⟩ := h5 g c h
    refine ⟨a1, a2, fun y hy hp => a3 y ?_ hp⟩
    refine (sum_le_card_nsmul univ _ (fb * (Y + X)) fun k _ => ?_).trans (by simp)
    refine mul_le_mul_of_nonneg_left ?_ hfb0
    exact (abs_sub _ _).trans (add_le_add ((norm2_coord y k).trans hy) ((norm2_coord _ k).trans hX))
  constructor
  · intro o x ho hx hX
    obtain ⟨r, o', h1, h2, h3⟩ := hcut o x ho hx hX
    refine ⟨r, o', h1, h2, fun g beta h => ?_⟩
    obtain ⟨a1, a2, a3⟩ := h3 g _ h
    refine ⟨a1, ?_, by rw [zero_pow two_ne_zero]; exact dot_self_nonneg' _, a2, fun y hy => ?_⟩
    · intro h0
      have := a3 m hm.1 hm.2
      rw [h0, zero_dotProduct] at this
      simp only at this a2
      linarith
    · have := a3 y hy.1 hy.2
      simp only at this
      linarith
  · intro o x g beta o2 ho hx hX hq
    obtain ⟨r, o', h1, h2, h3⟩ := hcut o x ho hx hX
    have hq' : o.assess x = .ok (some (g, ⟨beta⟩), o2) := hq
    rw [h1] at hq'
    simp only [Res.ok.injEq, Prod.mk.injEq] at hq'
    obtain ⟨a1, a2, a3⟩ := h3 g _ hq'.1
    have := a3 m hm.1 hm.2
    simp only at this a2
    linarith

/-- **C108**.  For all dimensions, bounds on the data and on the start, margin `lam`, radius `r`, accuracy `η` and number of cuts `N` there
is a unit roundoff `u0` such that in every arithmetic with at most this unit: if `B - Σ y_k F_k ⪰ lam I` for all `y` of a ball of radius `r`
inside the first ellipsoid `{κ, M}`, the tolerance is at most `lam²/32` and `2(d+1) ln(4^d det(κM)/r^(2d)) < N ≤ max_iters`, then
`cutting_plane_feas` with an `LMIOracle` of these matrices (fresh or used) does not panic and returns a point `x` with
`B - Σ x_k F_k ≻ -η I`, after at most that many cuts. -/
theorem C108_lmi_feasible (d n N : Nat) (B κ r P lam η fb bb : ℝ) (hd : 2 ≤ d) (hB : 0 < B) (hκ : 0 < κ) (hr : 0 < r) (hlam : 0 < lam)
    (hη : 0 < η) :
    ∃ u0 > 0, ∀ u ≤ u0, ∀ (R : Rounding u) (fs : List (Arr (Fl R))) (b : Arr (Fl R)) (o : LMIOracle (Fl R)) (m : Fin d → ℝ)
      (e : Ell (Fl R)) (opts : Options (Fl R)),
      FlSymMats d n fs → b.IsMatShape n n → (b.flMat n).IsSymm → (∀ (k : Fin d) (i j : Fin n), |flMatAt n fs k i j| ≤ fb) →
      (∀ i j : Fin n, |b.flMat n i j| ≤ bb) → LMIOracle.HasData n fs b o →
      e.Shaped d → e.helper = EllCalc.new d → e.kappa.val = κ → (e.mq.flMat d).PosDef →
      (∀ i j, |e.mq.flMat d i j| ≤ B) → norm2 m ≤ P → ball m r ⊆ ellipsoid (e.mq.flMat d) κ (e.xc.flVec d) →
      (∀ y ∈ ball m r, (flLmiMat n fs b y - lam • (1 : Matrix (Fin n) (Fin n) ℝ)).PosSemidef) →
      opts.tolerance.val ≤ lam ^ 2 / 32 →
      2 * ((d : ℝ) + 1) * Real.log (4 ^ d * (κ • e.mq.flMat d).det / (r ^ 2) ^ d) < N → N ≤ opts.maxIters →
      ∃ x k o' e', cuttingPlaneFeas LMIOracle.oracle Ell.space o e opts = .ok ((some x, k), o', e') ∧ x.IsVecShape d ∧
        (flLmiMat n fs b (x.flVec d) + η • (1 : Matrix (Fin n) (Fin n) ℝ)).PosDef ∧
        (k : ℝ) ≤ 2 * ((d : ℝ) + 1) * Real.log (4 ^ d * (κ • e.mq.flMat d).det / (r ^ 2) ^ d) := by
  obtain ⟨u0, h0, h⟩ := C104_margin d N B κ r P hd hB hκ hr
  obtain ⟨X, hX⟩ : ∃ X, X = P + 2 * √(2 ^ N * κ * (d * (2 * B))) := ⟨_, rfl⟩
  obtain ⟨s, hs⟩ : ∃ s, s = bb + d * (X * fb) := ⟨_, rfl⟩
  obtain ⟨C, hC⟩ : ∃ C, C = 12 * n * (lam + n * s) + n * (8 * (n + d + 1 : Nat) * s + 2 * (n * n + 2 : Nat) * (d * (fb * (P + r + X)))) :=
    ⟨_, rfl⟩
  obtain ⟨E, hE⟩ : ∃ E, E = 4 * n * (n + d + 1 : Nat) * s := ⟨_, rfl⟩
  have hp1 : (0 : ℝ) < 16 * (n * n + n + d + 2 : Nat) := by positivity
  have hp2 : 0 < 2 * (|C| + 1) := by positivity
  have hp3 : 0 < |E| + 1 := by positivity
  refine ⟨min u0 (min (1 / (16 * (n * n + n + d + 2 : Nat))) (min (lam / (2 * (|C| + 1))) (η / (|E| + 1)))), by positivity, ?_⟩
  intro u hu R fs b o m e opts hF hb hbs hfb hbb ho he hh hek hM hMB hmP hball hlmi htol hN hit
  have hu0 := R.unit_nonneg
  obtain ⟨g1, g2⟩ := le_min_iff.1 hu
  obtain ⟨g2, g3⟩ := le_min_iff.1 g2
  obtain ⟨g3, g4⟩ := le_min_iff.1 g3
  have k1 : 16 * ((n * n + n + d + 2 : Nat) * u) ≤ 1 := by
    rw [le_div_iff₀ hp1] at g2
    linarith
  have k2 : u * C ≤ lam / 2 := by
    rw [le_div_iff₀ hp2] at g3
    have := mul_le_mul_of_nonneg_left (le_abs_self C) hu0
    linarith
  have k3 : u * E ≤ η := by
    rw [le_div_iff₀ hp3] at g4
    have := mul_le_mul_of_nonneg_left (le_abs_self E) hu0
    linarith
  have hfin : ∀ y ∈ ball m r, norm2 y ≤ P + r := by
    intro y hy
    have h1 : norm2 (y - m) ≤ r := by
      have : normSq (y - m) ≤ r ^ 2 := hy
      exact Real.sqrt_le_iff.2 ⟨hr.le, this⟩
    have := norm2_sub_le y m
    linarith
  have hmm : m ∈ ball m r := by
    show normSq (m - m) ≤ r ^ 2
    simp only [sub_self, normSq, dotProduct_zero]
    positivity
  by_cases hn0 : n = 0
  · subst hn0
    have hans : ∀ (o : LMIOracle (Fl R)) x, LMIOracle.HasData 0 fs b o → ∃ o', o.assess x = .ok (none, o') ∧ LMIOracle.HasData 0 fs b o' := by
      intro o x ho
      refine ⟨{ o with mgr := { o.mgr with pos := (0, 0) } }, ?_, ho⟩
      unfold LMIOracle.assess LDLTMgr.factor
      rw [ho.2.2.1]
      simp [LDLTMgr.factorLoop, LDLTMgr.isSpd, ho.2.2.1]
    obtain ⟨x, k, w1, o', e', a1, a2, a3, a4, -, a5⟩ := h u g1 R _ LMIOracle.oracle (LMIOracle.HasData 0 fs b) (ball m r) (lam / 2) m o e opts
      he hh hek hM hMB hmP subset_rfl hball ho (by
        intro o x ho _ _
        obtain ⟨o', h1, h2⟩ := hans o x ho
        exact ⟨none, o', h1, h2, fun _ _ h => by simp at h⟩) (by
        intro o x g beta o2 ho _ _ hq
        obtain ⟨o', h1, h2⟩ := hans o x ho
        have hq' : o.assess x = .ok (some (g, ⟨beta⟩), o2) := hq
        rw [h1] at hq'
        simp at hq') (by linarith) (by linarith) hN hit
    refine ⟨x, k, o', e', a1, a4, ?_, a5⟩
    rw [posDef_iff_real]
    exact ⟨by ext i; exact i.elim0, fun y hy => absurd (Subsingleton.elim _ _) hy⟩
  have hfb0 : 0 ≤ fb := by
    have hn1 : 0 < n := Nat.pos_of_ne_zero hn0
    exact (abs_nonneg _).trans (hfb ⟨0, by omega⟩ ⟨0, hn1⟩ ⟨0, hn1⟩)
  obtain ⟨ho1, ho2⟩ := lmi_fl_honest (X := X) (Y := P + r) (lam := lam) hF hb hbs hfb hbb hfb0 k1 hlam (by
    rw [← hs]
    refine le_trans (le_of_eq ?_) k2
    rw [hC]
    ring) (m := m) ⟨hfin m hmm, hlmi m hmm⟩
  obtain ⟨x, k, w1, o', e', a1, a2, a3, a4, a5, a6⟩ := h u g1 R _ LMIOracle.oracle (LMIOracle.HasData n fs b)
    {y | norm2 y ≤ P + r ∧ (flLmiMat n fs b y - lam • (1 : Matrix (Fin n) (Fin n) ℝ)).PosSemidef} (lam / 2) m o e opts
    he hh hek hM hMB hmP (fun y hy => ⟨hfin y hy, hlmi y hy⟩) hball ho (hX ▸ ho1) (hX ▸ ho2) (by linarith) (by linarith) hN hit
  refine ⟨x, k, o', e', a1, a4, ?_, a6⟩
  have hsx : ∀ i j, |b.flMat n i j| + flLinSize n fs (x.flVec d) i j ≤ s := fun i j => by
    rw [hs, hX]
    exact add_le_add (hbb i j) (flLinSize_le hfb a5 i j)
  have acc := (C82_lmi_rounded hF hb hbs a3.1 a3.2.1 ⟨a3.2.2.1, a3.2.2.2.1⟩ a4 (by
    push_cast at k1 ⊢
    have : 0 ≤ (n : ℝ) * n * u := by positivity
    linarith) hsx).1 _ a2
  rw [posDef_iff_real] at acc ⊢
  refine ⟨?_, fun v hv => ?_⟩
  · have hs1 : (flLmiMat n fs b (x.flVec d)).IsSymm := flLmiMat_symm hF hbs
    rw [IsSymm, transpose_add, transpose_smul, transpose_one, hs1]
  · have q1 := acc.2 v hv
    rw [quad_shift] at q1 ⊢
    have q2 : 0 ≤ v ⬝ᵥ v := dot_self_nonneg' v
    have q3 : 4 * n * (n + d + 1 : Nat) * u * s ≤ η := by
      refine le_trans (le_of_eq ?_) k3
      rw [hE]; ring
    have := mul_le_mul_of_nonneg_right q3 q2
    linarith

end Ellalgo
