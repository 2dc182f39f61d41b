import Verif.Props.RoundedParallel
import Verif.Props.RoundedLowpassExamples
import Verif.Props.RoundedSolve
import Verif.Props.LowpassExamples

/-! C111: low-pass filters are found in rounded arithmetic. -/

namespace Ellalgo
open Matrix
open scoped ComplexOrder
variable {u : ℝ} {R : Rounding u} {n : Nat} {d : LpData} {ε : ℝ}

/-- the gradients of the low-pass oracle -/
theorem lp_form_grad {o : LowpassOracle (Fl R)} (ho : o.FlFor d n ε) (hε : ε ≤ 1 / 2) {xc : Arr (Fl R)} {V : Nat → Fl R}
    {cut : Arr (Fl R) × ParallelCut (Fl R)} (h : LpForm o d n V xc cut) : (1 / 2 : ℝ) ^ 2 ≤ normSq (cut.1.flVec n) := by
  have key : ∀ v : Fin n → ℝ, 1 / 2 ≤ |v ⟨0, ho.dim⟩| → (1 / 2 : ℝ) ^ 2 ≤ normSq v := by
    intro v hv
    have h1 : (1 / 2 : ℝ) ^ 2 ≤ v ⟨0, ho.dim⟩ * v ⟨0, ho.dim⟩ := by
      rw [← abs_mul_abs_self]; nlinarith
    exact h1.trans (Finset.single_le_sum (f := fun i => v i * v i) (fun j _ => mul_self_nonneg _) (Finset.mem_univ _))
  have col : ∀ (i : Nat) (col : Arr (Fl R)), o.spectrum[i]? = some col → col.IsVecShape n ∧ 1 / 2 ≤ |col.flVec n ⟨0, ho.dim⟩| := by
    intro i col hc
    obtain ⟨hi, rfl⟩ := List.getElem?_eq_some_iff.1 hc
    refine ⟨ho.shape i hi, ?_⟩
    have h1 := ho.close i hi ⟨0, ho.dim⟩
    simp only [if_true] at h1
    have := abs_le.1 (h1.trans hε)
    rw [le_abs]
    left
    linarith
  have neg : ∀ (i : Nat) (col' : Arr (Fl R)), o.spectrum[i]? = some col' → (1 / 2 : ℝ) ^ 2 ≤ normSq ((negVec col').flVec n) := by
    intro i col' hc
    obtain ⟨a, b⟩ := col i col' hc
    rw [(fl_negVec a).2]
    refine key _ ?_
    rw [Pi.neg_apply, abs_neg]
    exact b
  cases h with
  | over i c h hc hv => exact key _ (col i c hc).2
  | under i c h hc hv => exact neg i c hc
  | high i c h1 h hc hv => exact key _ (col i c hc).2
  | low i c h1 h hc hv => exact neg i c hc
  | trans i c h1 h hc hv => exact neg i c hc
  | first g hg hv =>
    obtain ⟨g', hg1, hg2⟩ := (isVec_new (α := Fl R) n).setIdx ho.dim (-1)
    rw [hg] at hg1
    simp only [Res.ok.injEq] at hg1
    subst hg1
    refine key _ ?_
    have : g.flVec n ⟨0, ho.dim⟩ = -1 := by
      simp only [Arr.flVec]
      rw [hg2.vec ho.dim]
      simp only [upd1, if_true]
      rfl
    show 1 / 2 ≤ |g.flVec n ⟨0, ho.dim⟩|
    rw [this]
    norm_num

theorem norm1_le_norm2 (v : Fin n → ℝ) {X : ℝ} (h : norm2 v ≤ X) : norm1 v ≤ n * X := by
  have : ∑ i, |v i| ≤ ∑ _i : Fin n, X := Finset.sum_le_sum fun i _ => (norm2_coord v i).trans h
  simpa [norm1] using this

/-- bound on `lpErr` for filters of bounded norm -/
theorem lpErr_le {s X B : ℝ} (h0 : 0 ≤ u) (hu : u ≤ s) (hε0 : 0 ≤ ε) (hε : ε ≤ s) (hs : s ≤ 1) {B' : ℝ} (hB0 : 0 ≤ B') (hB : B' ≤ B)
    {x z : Fin n → ℝ} (hx : norm2 x ≤ X) (hz : norm2 z ≤ X) :
    lpErr u ε n B' x z ≤ ((1 + s) ^ (n + 2) - 1) * 3 * (n * X) + s * (n * X) + s * B := by
  have h1 := norm1_le_norm2 x hx
  have h2 := norm1_le_norm2 z hz
  have h3 : 0 ≤ norm1 x := norm1_nonneg' x
  have h4 : 0 ≤ norm1 z := norm1_nonneg' z
  have h5 : (1 : ℝ) ≤ (1 + u) ^ (n + 2) := one_le_pow₀ (by linarith)
  have h6 : (1 + u) ^ (n + 2) ≤ (1 + s) ^ (n + 2) := pow_le_pow_left₀ (by linarith) (by linarith) _
  unfold lpErr
  have a1 : ((1 + u) ^ (n + 2) - 1) * (2 + ε) * norm1 x ≤ ((1 + s) ^ (n + 2) - 1) * 3 * (n * X) :=
    mul_le_mul (mul_le_mul (by linarith) (by linarith) (by linarith) (by linarith)) h1 h3 (mul_nonneg (by linarith) (by norm_num))
  have a2 : ε * norm1 z ≤ s * (n * X) := mul_le_mul hε h2 h4 (by linarith)
  have a3 : u * B' ≤ s * B := mul_le_mul hu hB hB0 (by linarith)
  linarith

/-- **C111**.  Low-pass filters are found in rounded arithmetic of high enough precision.  Suppose that all filters in a ball of radius `r` meet
the specification with a margin `μ > 0` and that this ball lies in the first ellipsoid.  There is a bound `u0`, which depends on the dimension,
on `μ`, on `N > (n+1) ln(D / r^(2n))` and on bounds for the ball, the ellipsoid and the specification; if the unit roundoff and the error of the
oracle's table are below `u0`, then `cutting_plane_feas` with the low-pass oracle returns, after fewer than `N` cuts, a filter that meets the
specification up to `μ`. -/
theorem C111_lowpass_found (hn : 2 ≤ n) (N : Nat) {r P H D B μ : ℝ} (hr : 0 < r) (hH : 0 < H) (hD : 0 < D) (hP : 0 ≤ P) (hB : 0 ≤ B) (hμ : 0 < μ)
    (hN : ((n : ℝ) + 1) * Real.log (D / (r ^ 2) ^ n) < N) :
    ∃ u0, 0 < u0 ∧ ∀ (u : ℝ) (R : Rounding u) (ε : ℝ), u ≤ u0 → ε ≤ u0 → ∀ (d : LpData), d.Ok → ∀ (o : LowpassOracle (Fl R)), o.FlFor d n ε →
      |d.lp| + |d.up| + |o.spSq.val| ≤ B → ∀ (m : Fin n → ℝ) (e : Ell (Fl R)) (opts : Options (Fl R)),
      e.Shaped n → e.helper = EllCalc.new n → 0 < e.kappa.val → (e.mq.flMat n).PosDef →
      (∀ i j, e.kappa.val * |e.mq.flMat n i j| ≤ H) → (e.kappa.val • e.mq.flMat n).det ≤ D → norm2 m ≤ P →
      ball m r ⊆ d.feasibleWith o.spSq.val μ → ball m r ⊆ ellipsoid (e.mq.flMat n) e.kappa.val (e.xc.flVec n) →
      opts.tolerance.val ≤ r ^ 2 / 16 → N ≤ opts.maxIters →
      ∃ x k o' e', cuttingPlaneFeas LowpassOracle.oracleFeas Ell.space o e opts = .ok ((some x, k), o', e') ∧ k < N ∧
        x.IsVecShape n ∧ x.flVec n ∈ d.feasibleWith o.spSq.val (-μ) := by
  obtain ⟨u1, hu1, hconv⟩ := C110_feas_converges (P := P) hn N hr hH hD hN
  obtain ⟨X, hX⟩ : ∃ X, X = P + 2 * √(n * (5 ^ N * H)) + r := ⟨_, rfl⟩
  have hc : Continuous fun s : ℝ => ((1 + s) ^ (n + 2) - 1) * 3 * (n * X) + s * (n * X) + s * B := by fun_prop
  have h1 := (hc.tendsto 0).eventually (gt_mem_nhds (show _ < μ by simpa using hμ))
  obtain ⟨δ, hδ, hball⟩ := Metric.eventually_nhds_iff.1 h1
  obtain ⟨s, hs⟩ : ∃ s, s = min (δ / 2) (1 / 8) := ⟨_, rfl⟩
  have hs0 : 0 < s := hs ▸ lt_min (by linarith) (by norm_num)
  have hs1 : s ≤ 1 / 8 := hs ▸ min_le_right _ _
  have hsδ : s ≤ δ / 2 := hs ▸ min_le_left _ _
  have hsμ : ((1 + s) ^ (n + 2) - 1) * 3 * (n * X) + s * (n * X) + s * B < μ :=
    hball (show dist s 0 < δ by rw [Real.dist_eq, sub_zero, abs_of_pos hs0]; linarith)
  refine ⟨min u1 s, lt_min hu1 hs0, fun u R ε hu hε d hd o ho hBd m e opts he hh hκ hM hent hdet hm hK hE htol hit => ?_⟩
  have h0 := R.unit_nonneg
  have hus := hu.trans (min_le_right _ _)
  have hεs := hε.trans (min_le_right _ _)
  have hε0 : 0 ≤ ε :=
    (abs_nonneg _).trans (ho.close 0 (by rw [ho.len]; have := hd.grid; omega) ⟨0, ho.dim⟩)
  have hq0 := Real.sqrt_nonneg ((n : ℝ) * (5 ^ N * H))
  have hzX : ∀ z ∈ ball m r, norm2 z ≤ X := by
    intro z hz
    have a := norm2_sub_le z m
    have b : norm2 (z - m) ≤ r := by
      rw [norm2, Real.sqrt_le_iff]
      exact ⟨hr.le, hz⟩
    linarith
  obtain ⟨x, k, o1, o', e', q1, q2, ⟨q3, q3'⟩, q4, q5, q6⟩ := hconv u R (hu.trans (min_le_left _ _)) _ LowpassOracle.oracleFeas
    (fun w => w.FlFor d n ε ∧ w.spSq = o.spSq) (ball m r) (1 / 2) m o e opts he hh hκ hM hent hdet hm subset_rfl hE ⟨ho, rfl⟩ (by
      rintro w x ⟨hw, hsp⟩ hx hxX
      obtain ⟨V, hV⟩ := lp_values hw hx
      obtain ⟨r', o', a1, a2, a3, a4, a5, a6, -⟩ := lpFl_assessFeas hd w hw x hx V hV
      refine ⟨r', o', a1, ⟨a2, a4.trans hsp⟩, fun g cut hr' => ?_⟩
      have hform := a6 _ hr'
      have hcut := lp_form_cut hd (by linarith) (by linarith) hw hx hV hform
      refine ⟨hcut.shape, hcut.nonzero, lp_form_grad hw (by linarith) hform, hcut.deep.le, fun z hz => ?_⟩
      have hz' : z ∈ d.feasibleWith w.spSq.val (lpErr u ε n (|d.lp| + |d.up| + |w.spSq.val|) (x.flVec n) z) := by
        rw [hsp]
        exact feasibleWith_mono ((lpErr_le h0 hus hε0 hεs (by linarith) (by positivity) hBd (by linarith) (hzX z hz)).trans hsμ.le) (hK hz)
      obtain ⟨b1, b2⟩ := hcut.keeps z hz'
      refine ⟨b1, fun b hb => ?_⟩
      obtain ⟨b', hb', rfl⟩ := Option.map_eq_some_iff.1 hb
      exact b2 b' hb') (by linarith) hit
  refine ⟨x, k, o', e', q1, q6, q4, ?_⟩
  obtain ⟨r', o2, c1, c2, c3, c4, -⟩ := C88_lowpass_feas hd (by linarith) (by linarith) o1 q3 x q4
  rw [q2] at c1
  simp only [Res.ok.injEq, Prod.mk.injEq] at c1
  have := c4 c1.1.symm
  rw [q3'] at this
  refine feasibleWith_mono ?_ this
  have := lpErr_le (B := B) h0 hus hε0 hεs (by linarith) le_rfl hB (by linarith : norm2 (x.flVec n) ≤ X) (by linarith : norm2 (x.flVec n) ≤ X)
  linarith

/-- two-tap filters around `(3/2, 0)` have responses well between the bounds, whatever the bands -/
theorem lp_two_taps {d : LpData} (hl : d.lp = 1) (hh : d.up = 3) :
    ball (![3 / 2, 0] : Fin 2 → ℝ) (1 / 10) ⊆ d.feasibleWith 2 (1 / 10) := by
  intro z hz
  have h0 := abs_le.1 (ball_entries (by norm_num) hz 0)
  have h1 := abs_le.1 (ball_entries (by norm_num) hz 1)
  simp only [cons_val_zero, cons_val_one, sub_zero] at h0 h1
  have key : ∀ ω, 11 / 10 ≤ lpResponse z ω ∧ lpResponse z ω ≤ 19 / 10 := by
    intro ω
    rw [resp2]
    have a := Real.neg_one_le_cos ω
    have b := Real.cos_le_one ω
    constructor <;> nlinarith
  refine ⟨fun i _ => ?_, fun i _ _ => ?_, fun i _ _ => ?_, fun j hj => ?_⟩
  · rw [hl, hh]
    obtain ⟨a, b⟩ := key (d.freq i)
    constructor <;> linarith
  · obtain ⟨a, b⟩ := key (d.freq i)
    constructor <;> linarith
  · linarith [(key (d.freq i)).1]
  · obtain rfl : j = 0 := Fin.ext hj
    linarith

/-- **C111** (a run from start to end)  Two taps, passband bounds `1` and `3`, stopband bound `2`, from the disc of radius `4` around the origin:
if the precision is high enough and the numbers up to `30` are representable, then for all band edges `0 ≤ wpass ≤ wstop ≤ 1` the constructor
and the loop yield a filter that meets the specification up to `1/10`. -/
theorem C111_lowpass_example : ∃ u0 > 0, ∃ N : Nat, ∀ u ≤ u0, ∀ (R : Rounding u), (∀ k ≤ 30, R.Rep ((k : Nat) : ℝ)) →
    ∀ (wpass wstop lp up sp v : Fl R), 0 ≤ wpass.val → wpass.val ≤ wstop.val → wstop.val ≤ 1 → lp.val = 1 → up.val = 3 → sp.val = 2 → v.val = 16 →
    ∀ (opts : Options (Fl R)), opts.tolerance.val ≤ 1 / 1600 → N ≤ opts.maxIters →
    ∃ (o : LowpassOracle (Fl R)) (d : LpData) (e : Ell (Fl R)) (x : Arr (Fl R)) (k : Nat) (o' : LowpassOracle (Fl R)) (e' : Ell (Fl R)),
      LowpassOracle.new 2 wpass wstop lp up sp = .ok o ∧ Ell.newWithScalar v (Arr.ofList [0, 0]) = .ok e ∧
      d.m = 30 ∧ d.lp = 1 ∧ d.up = 3 ∧ (∀ i : Nat, (i : ℝ) ≤ wpass.val * 29 → i < d.pass) ∧
      (∀ i : Nat, i < d.stop → (i : ℝ) ≤ (1 + u) * (wstop.val * 29)) ∧
      cuttingPlaneFeas LowpassOracle.oracleFeas Ell.space o e opts = .ok ((some x, k), o', e') ∧ k < N ∧
      x.flVec 2 ∈ d.feasibleWith 2 (-(1 / 10)) := by
  obtain ⟨N, hN⟩ := exists_nat_gt (((2 : Nat) + 1 : ℝ) * Real.log (256 / (((1 : ℝ) / 10) ^ 2) ^ 2))
  obtain ⟨u1, hu1, hfound⟩ := C111_lowpass_found (n := 2) le_rfl N (r := 1 / 10) (P := 3) (H := 16) (D := 256) (B := 6) (μ := 1 / 10)
    (by norm_num) (by norm_num) (by norm_num) (by norm_num) (by norm_num) (by norm_num) hN
  have hc : Continuous fun u : ℝ => lpTableErr u 2 := by unfold lpTableErr; fun_prop
  have h1 := (hc.tendsto 0).eventually (gt_mem_nhds (show lpTableErr 0 2 < u1 by simpa [lpTableErr] using hu1))
  obtain ⟨δ, hδ, hball⟩ := Metric.eventually_nhds_iff.1 h1
  refine ⟨min u1 (δ / 2), lt_min hu1 (by linarith), N, ?_⟩
  intro u hu R hrep wpass wstop lp up sp v hw0 hw1 hw2 hlp hup hsp hv opts htol hit
  have h0 := R.unit_nonneg
  have hu2 := hu.trans (min_le_right _ _)
  have htab : lpTableErr u 2 < u1 := hball (show dist u 0 < δ by rw [Real.dist_eq, sub_zero, abs_of_nonneg h0]; linarith)
  obtain ⟨o, d, a1, a2, a3, a4, a5, a6, a7, a8, a9, a10, a11⟩ := C88_lowpass_new (n := 2) (by norm_num) hrep wpass wstop lp up sp hw0 hw1 hw2
  obtain ⟨e, b1, b2, b3, -, b4, b5, b6⟩ := disc_new_fl v
  have hκ : e.kappa.val = 16 := by rw [b4, hv]
  have hsp' : o.spSq.val = 2 := by rw [a4, hsp]
  have hm2 : norm2 (![3 / 2, 0] : Fin 2 → ℝ) ≤ 3 := by
    rw [norm2, Real.sqrt_le_iff]
    refine ⟨by norm_num, ?_⟩
    simp only [dotProduct, Fin.sum_univ_two, cons_val_zero, cons_val_one]
    norm_num
  obtain ⟨x, k, o', e', c1, c2, -, c3⟩ := hfound u R (lpTableErr u 2) (hu.trans (min_le_left _ _)) htab.le d a3 o a2
    (by rw [a6, a7, hlp, hup, hsp']; norm_num) ![3 / 2, 0] e opts b2 b3 (by rw [hκ]; norm_num) (by rw [b5]; exact PosDef.one)
    (by
      intro i j
      rw [hκ, b5, one_apply]
      split <;> norm_num)
    (by rw [hκ, b5, det_smul, det_one, Fintype.card_fin]; norm_num) hm2
    (by rw [hsp']; exact lp_two_taps (a6.trans hlp) (a7.trans hup))
    (by
      intro y hy
      have h0 := abs_le.1 (ball_entries (by norm_num) hy 0)
      have h1 := abs_le.1 (ball_entries (by norm_num) hy 1)
      simp only [cons_val_zero, cons_val_one, sub_zero] at h0 h1
      rw [hκ]
      exact disc_ellipsoid b5 b6 (by nlinarith))
    (by linarith) hit
  rw [hsp'] at c3
  have e29 : ((15 * 2 - 1 : Nat) : ℝ) = 29 := by norm_num
  rw [e29] at a8 a11
  exact ⟨o, d, e, x, k, o', e', a1, b1, a5, a6.trans hlp, a7.trans hup, a8, a11, c1, c2, c3⟩

end Ellalgo
