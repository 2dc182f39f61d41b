import Verif.Props.RoundedParallelLowpass
import Verif.Props.RoundedBsearchSolve

/-! C112: optimisation with parallel cuts in rounded arithmetic. -/

namespace Ellalgo
open Matrix
open scoped ComplexOrder
variable {u : ℝ} {R : Rounding u} {n : Nat} {D : ℝ} {m : Fin n → ℝ} {Ω : Type}

theorem ParPlan.optim_loop {p : ParPlan} (orc : OracleOptim Ω (Arr (Fl R)) (ParallelCut (Fl R)) (Fl R)) (I : Ω → Fl R → Prop)
    (S : ℝ → Set (Fin n → ℝ)) (G : ℝ) (hb : ParPlan.Basics n p) (hp : p.EnoughPrecision n u D) (hm : norm2 m ≤ p.P)
    (hor : FlHonestParOptim n orc I S G (p.far n)) (tol : Fl R) (htol : tol.val ≤ p.r ^ 2 * G ^ 2 / 4) (k : Nat) :
    ∀ (i : Nat) (xb : Option (Arr (Fl R))) (w : Ω) (e : Ell (Fl R)) (γ : Fl R), I w γ → e.Shaped n →
      ∃ xb' l γ' w' e', optimLoop orc Ell.space tol k i xb w e γ = .ok ((xb', l), γ', w', e') ∧ S γ'.val ⊆ S γ.val ∧
        (i ≤ p.N → p.N ≤ i + k → ParPlan.Inv n p D m i e → ¬ ball m p.r ⊆ S γ'.val) := by
  have hn : 0 < n := by linarith [hb.dim]
  induction k with
  | zero =>
    intro i xb w e γ _ _
    refine ⟨_, _, _, _, _, rfl, le_rfl, fun hi hk h => ?_⟩
    obtain rfl : i = p.N := by omega
    exact (ParPlan.not_last hb hp h).elim
  | succ k ih =>
    intro i xb w e γ hI hsh
    obtain ⟨g, ⟨β0, β1⟩, shrunk, γ1, w1, hq, hI1, hS1, hs, hok⟩ := hor w e.xc γ hI hsh.2
    have hq' : orc.assess w (Ell.space (T := ParallelCut (Fl R)).xc e) γ = .ok (((g, ⟨β0, β1⟩), shrunk), γ1, w1) := hq
    obtain ⟨st, e1, hu, hsh1⟩ : ∃ st e1, (if shrunk then Ell.space.updateCentral e (g, ParallelCut.mk β0 β1)
        else Ell.space.updateBias e (g, ParallelCut.mk β0 β1)) = .ok (st, e1) ∧ e1.Shaped n := by
      cases shrunk
      · obtain ⟨st, e1, h1, h2, _⟩ := Ell.update_shape hn .bias e (g, ParallelCut.mk β0 β1) hsh hs
        exact ⟨st, e1, h1, h2⟩
      · obtain ⟨st, e1, h1, h2, _⟩ := Ell.update_shape hn .central e (g, ParallelCut.mk β0 β1) hsh hs
        exact ⟨st, e1, h1, h2⟩
    -- while the ball consists of better points, the update succeeds and does not stop the loop
    have good : i ≤ p.N → ParPlan.Inv n p D m i e → ball m p.r ⊆ S γ1.val →
        i < p.N ∧ st = .success ∧ ParPlan.Inv n p D m (i + 1) e1 ∧
        Scalar.lt (Ell.space (T := ParallelCut (Fl R)).tsq e1) tol = false := by
      intro hi h hsub
      obtain hi | rfl := hi.lt_or_eq
      swap
      · exact (ParPlan.not_last hb hp h).elim
      obtain ⟨hg, hG, hcen, hbias⟩ := hok (ParPlan.Inv.facts hb hp hm h hi.le).1.centre
      obtain ⟨kd, b, hkd, hkd', hb0, hsat⟩ : ∃ (kd : UpdateKind) (b : ℝ), (kd = if shrunk then .central else .bias) ∧
          (kd = .central ∧ b = 0 ∨ (kd = .bias ∨ kd = .q) ∧ b = β0.val) ∧ 0 ≤ b ∧
          S γ1.val ⊆ slab (g.flVec n) (e.xc.flVec n) b (β1.map Fl.val) := by
        cases shrunk
        · exact ⟨.bias, β0.val, rfl, .inr ⟨.inl rfl, rfl⟩, (hbias rfl).1, (hbias rfl).2⟩
        · exact ⟨.central, 0, rfl, .inl ⟨rfl, rfl⟩, le_rfl, hcen rfl⟩
      obtain ⟨e2, hu2, hv, htsq⟩ := ParPlan.step hb hp hm h hi g hs hg kd β0 β1 b hkd' hb0 (hsub.trans hsat)
      have hu' : Ell.space.update kd e (g, ParallelCut.mk β0 β1) = .ok (st, e1) := by
        rw [← hu, hkd]
        cases shrunk <;> rfl
      rw [hu2] at hu'
      simp only [Res.ok.injEq, Prod.mk.injEq] at hu'
      obtain ⟨rfl, rfl⟩ := hu'
      refine ⟨hi, rfl, hv, ?_⟩
      have : tol.val ≤ e2.tsq.val := by
        have := mul_le_mul_of_nonneg_left hG (sq_nonneg p.r)
        refine htol.trans (le_trans ?_ htsq)
        exact div_le_div_of_nonneg_right this (by norm_num)
      exact decide_eq_false (not_lt.2 this)
    unfold optimLoop
    simp only [hq', Res.ok_bind, hu]
    split
    · rename_i hstop
      refine ⟨_, _, _, _, _, rfl, hS1, ?_⟩
      intro hi _ h hsub
      obtain ⟨-, h1, -, h2⟩ := good hi h hsub
      rw [h1, h2] at hstop
      simp at hstop
    · obtain ⟨xb', l, γ', w', e', h1, h2, h3⟩ := ih (i + 1)
        (if shrunk = true then some (Ell.space (T := ParallelCut (Fl R)).xc e) else xb) w1 e1 γ1 hI1 hsh1
      refine ⟨xb', l, γ', w', e', h1, h2.trans hS1, ?_⟩
      intro hi hk h hsub
      obtain ⟨a1, -, a2, -⟩ := good hi h (hsub.trans h2)
      exact h3 (by omega) (by omega) a2 hsub

/-- **C112**.  The optimisation loop with parallel cuts in rounded arithmetic.  The oracle is honest for the sets `S γ` of points better than `γ`,
and its gradients are not too small for the tolerance.  A ball of radius `r` lies inside the first ellipsoid.  If
`N > (n+1) ln(D / r^(2n))`, then there is a bound `u0` on the unit roundoff, which depends on the dimension, on `N` and on bounds for the
radius, the first ellipsoid and the norm of the midpoint of the ball, but neither on the oracle nor on the run; below it `cutting_plane_optim`
returns with `max_iters ≥ N`, and the ball does not consist of points better than the returned `γ'` only. -/
theorem C112_optim_converges (hn : 2 ≤ n) (N : Nat) {r P H D : ℝ} (hr : 0 < r) (hH : 0 < H) (hD : 0 < D)
    (hN : ((n : ℝ) + 1) * Real.log (D / (r ^ 2) ^ n) < N) :
    ∃ u0, 0 < u0 ∧ ∀ (u : ℝ) (R : Rounding u), u ≤ u0 → ∀ (Ω : Type) (orc : OracleOptim Ω (Arr (Fl R)) (ParallelCut (Fl R)) (Fl R))
      (I : Ω → Fl R → Prop) (S : ℝ → Set (Fin n → ℝ)) (G : ℝ) (m : Fin n → ℝ) (w : Ω) (e : Ell (Fl R)) (γ : Fl R) (opts : Options (Fl R)),
      e.Shaped n → e.helper = EllCalc.new n → 0 < e.kappa.val → (e.mq.flMat n).PosDef →
      (∀ i j, e.kappa.val * |e.mq.flMat n i j| ≤ H) → (e.kappa.val • e.mq.flMat n).det ≤ D → norm2 m ≤ P →
      ball m r ⊆ ellipsoid (e.mq.flMat n) e.kappa.val (e.xc.flVec n) → I w γ →
      FlHonestParOptim n orc I S G (P + 2 * √(n * (5 ^ N * H))) → opts.tolerance.val ≤ r ^ 2 * G ^ 2 / 4 → N ≤ opts.maxIters →
      ∃ xb k γ' w' e', cuttingPlaneOptim orc Ell.space w e γ opts = .ok ((xb, k), γ', w', e') ∧ ¬ ball m r ⊆ S γ'.val := by
  obtain ⟨ε, u0, hu0, hprec⟩ := ParPlan.exists_precision ⟨N, H, r, P, 0⟩ hn hH hr hD hN
  refine ⟨u0, hu0, fun u R hu Ω orc I S G m w e γ opts he hh hκ hM hB hdet hm hE hw hor htol hit => ?_⟩
  obtain ⟨xb, k, γ', w', e', h1, -, h2⟩ := ParPlan.optim_loop (p := ⟨N, H, r, P, ε⟩) (D := D) (m := m) orc I S G
    (ParPlan.Basics.of_ball hn hM hκ hB hr hm hE) (hprec u R.unit_nonneg hu) hm hor opts.tolerance htol opts.maxIters 0 none w e γ hw he
  exact ⟨xb, k, γ', w', e', h1, h2 (by omega) (by simpa using hit)
    ⟨he, hh, hκ, hM, by simpa using hB, by simpa [ParPlan.grown] using hE, by simpa using hdet⟩⟩

variable {d : LpData} {ε : ℝ}

/-- the gradients and bounds of the low-pass oracle in optimisation -/
theorem lp_optim_grad (hd : d.Ok) (hs : d.stop < d.m) (hε : ε ≤ 1 / 2) {o : LowpassOracle (Fl R)} (ho : o.FlFor d n ε) {xc : Arr (Fl R)}
    (hx : xc.IsVecShape n) {γ : Fl R} {g : Arr (Fl R)} {cut : ParallelCut (Fl R)} {shrunk : Bool} {γ' : Fl R} {o' : LowpassOracle (Fl R)}
    (h : LowpassOracle.oracle.assess o xc γ = .ok (((g, cut), shrunk), γ', o')) :
    (1 / 2 : ℝ) ^ 2 ≤ normSq (g.flVec n) ∧ |γ'.val| ≤ |γ.val| := by
  have hof : ({ o with spSq := γ } : LowpassOracle (Fl R)).FlFor d n ε :=
    ⟨ho.dim, ho.len, ho.shape, ho.close, ho.pass, ho.stop, ho.lp, ho.up, ho.idx1, ho.idx2, ho.idx3⟩
  obtain ⟨V, hV⟩ := lp_values hof hx
  obtain ⟨r, o1, h1, h2, h3, h4, h5, h6, h7⟩ := lpFl_assessFeas hd _ hof xc hx V hV
  cases r with
  | some c =>
    simp only [LowpassOracle.oracle, LowpassOracle.assess, h1, Res.ok_bind, Res.ok.injEq, Prod.mk.injEq] at h
    obtain ⟨⟨hc, -⟩, rfl, -⟩ := h
    have := lp_form_grad hof hε (h6 _ rfl)
    rw [hc] at this
    exact ⟨this, le_rfl⟩
  | none =>
    obtain ⟨k, hk1, hk2, hk3, hk4, hk5⟩ := h7 rfl hs
    obtain ⟨a1, a2, a3, a4⟩ := h5 rfl
    have hlt : k < o1.spectrum.length := by rw [h2.len]; exact hk2
    have hcol : nthI32 o1.spectrum (k : Int) = .ok (o1.spectrum[k]) := by
      rw [nthI32, if_pos (by omega), Int.toNat_natCast, List.getElem?_eq_getElem hlt]
      rfl
    simp only [LowpassOracle.oracle, LowpassOracle.assess, h1, Res.ok_bind, hk3, hcol, hk4, Res.ofOption, Res.ok.injEq, Prod.mk.injEq] at h
    obtain ⟨⟨⟨rfl, -⟩, -⟩, rfl, -⟩ := h
    obtain ⟨b1, b2⟩ := a2 k hk1 hk2
    refine ⟨?_, ?_⟩
    · have e1 := h2.close k hlt ⟨0, ho.dim⟩
      simp only [if_true] at e1
      have e2 := abs_le.1 (e1.trans hε)
      have e3 : (1 / 2 : ℝ) ^ 2 ≤ (o1.spectrum[k]).flVec n ⟨0, ho.dim⟩ * (o1.spectrum[k]).flVec n ⟨0, ho.dim⟩ := by nlinarith
      exact e3.trans (Finset.single_le_sum (f := fun i => (o1.spectrum[k]).flVec n i * (o1.spectrum[k]).flVec n i)
        (fun j _ => mul_self_nonneg _) (Finset.mem_univ _))
    · rw [abs_of_nonneg b1]
      exact b2.trans (le_abs_self _)

/-- a larger stopband bound is easier to meet -/
theorem feasibleWith_bound {σ σ' μ : ℝ} (h : σ ≤ σ') : d.feasibleWith (n := n) σ μ ⊆ d.feasibleWith σ' μ :=
  fun _ hx => ⟨hx.1, fun i h1 h2 => ⟨(hx.2.1 i h1 h2).1, (hx.2.1 i h1 h2).2.trans h⟩, hx.2.2⟩

/-- **C112** for low-pass filters.  Suppose that all filters in a ball of radius `r` in the first ellipsoid meet the specification with stopband
bound `σ` and with a margin `μ > 0`, and that the search starts from a bound `γ ≥ σ`.  If the unit roundoff and the error of the oracle's table are
below some `u0`, which depends on the dimension, on `μ`, on `N > (n+1) ln(D / r^(2n))` and on bounds for the ball, the ellipsoid and the
specification, then `cutting_plane_optim` returns a filter and a bound `γ' < σ`, and the filter meets the specification with bound `γ'` up to the error
`lpErr` of evaluating it. -/
theorem C112_lowpass_optim (hn : 2 ≤ n) (N : Nat) {r P H D B μ : ℝ} (hr : 0 < r) (hH : 0 < H) (hD : 0 < D) (hB : 0 ≤ B) (hμ : 0 < μ)
    (hN : ((n : ℝ) + 1) * Real.log (D / (r ^ 2) ^ n) < N) :
    ∃ u0, 0 < u0 ∧ ∀ (u : ℝ) (R : Rounding u) (ε : ℝ), u ≤ u0 → ε ≤ u0 → ∀ (d : LpData), d.Ok → d.stop < d.m →
      ∀ (o : LowpassOracle (Fl R)), o.FlFor d n ε →
      ∀ (σ : ℝ) (m : Fin n → ℝ) (e : Ell (Fl R)) (γ : Fl R) (opts : Options (Fl R)), |d.lp| + |d.up| + |γ.val| ≤ B →
      e.Shaped n → e.helper = EllCalc.new n → 0 < e.kappa.val → (e.mq.flMat n).PosDef →
      (∀ i j, e.kappa.val * |e.mq.flMat n i j| ≤ H) → (e.kappa.val • e.mq.flMat n).det ≤ D → norm2 m ≤ P →
      ball m r ⊆ d.feasibleWith σ μ → σ ≤ γ.val → ball m r ⊆ ellipsoid (e.mq.flMat n) e.kappa.val (e.xc.flVec n) →
      opts.tolerance.val ≤ r ^ 2 / 16 → N ≤ opts.maxIters →
      ∃ x k γ' o' e', cuttingPlaneOptim LowpassOracle.oracle Ell.space o e γ opts = .ok ((some x, k), γ', o', e') ∧ γ'.val < σ ∧
        x.IsVecShape n ∧ x.flVec n ∈ d.feasibleWith γ'.val (-lpErr u ε n 0 (x.flVec n) (x.flVec n)) := by
  obtain ⟨u1, hu1, hconv⟩ := C112_optim_converges (P := P) hn N hr hH hD hN
  obtain ⟨X, hX⟩ : ∃ X, X = P + 2 * √(n * (5 ^ N * H)) + r := ⟨_, rfl⟩
  have hc : Continuous fun s : ℝ => ((1 + s) ^ (n + 2) - 1) * 3 * (n * X) + s * (n * X) + s * B := by fun_prop
  have h1 := (hc.tendsto 0).eventually (gt_mem_nhds (show _ < μ by simpa using hμ))
  obtain ⟨δ, hδ, hball⟩ := Metric.eventually_nhds_iff.1 h1
  obtain ⟨s, hs⟩ : ∃ s, s = min (δ / 2) (1 / 8) := ⟨_, rfl⟩
  have hs0 : 0 < s := hs ▸ lt_min (by linarith) (by norm_num)
  have hs1 : s ≤ 1 / 8 := hs ▸ min_le_right _ _
  have hsδ : s ≤ δ / 2 := hs ▸ min_le_left _ _
  have hsμ : ((1 + s) ^ (n + 2) - 1) * 3 * (n * X) + s * (n * X) + s * B < μ :=
    hball (show dist s 0 < δ by rw [Real.dist_eq, sub_zero, abs_of_pos hs0]; linarith)
  refine ⟨min u1 s, lt_min hu1 hs0, fun u R ε hu hε d hd hst o ho σ m e γ opts hBd he hh hκ hM hent hdet hm hK hσ hE htol hit => ?_⟩
  have h0 := R.unit_nonneg
  have hus := hu.trans (min_le_right _ _)
  have hεs := hε.trans (min_le_right _ _)
  have hε0 : 0 ≤ ε :=
    (abs_nonneg _).trans (ho.close 0 (by rw [ho.len]; have := hd.grid; omega) ⟨0, ho.dim⟩)
  have hP : 0 ≤ P := (norm2_nonneg m).trans hm
  have hq0 := Real.sqrt_nonneg ((n : ℝ) * (5 ^ N * H))
  have hzX : ∀ z ∈ ball m r, norm2 z ≤ X := by
    intro z hz
    have a := norm2_sub_le z m
    have b : norm2 (z - m) ≤ r := by
      rw [norm2, Real.sqrt_le_iff]
      exact ⟨hr.le, hz⟩
    linarith
  obtain ⟨xb, k, γ', o', e', q1, q2⟩ := hconv u R (hu.trans (min_le_left _ _)) _ LowpassOracle.oracle
    (fun w g => w.FlFor d n ε ∧ |g.val| ≤ |γ.val|) (fun g => ball m r ∩ d.feasibleWith g μ) (1 / 2) m o e γ opts he hh hκ hM hent hdet hm hE
    ⟨ho, le_rfl⟩ (by
      rintro w x g ⟨hw, hg⟩ hx
      obtain ⟨gr, b0, b1, b, g', w', hq, hI, a1, a2, a3, a4, a5⟩ := C88_lowpass_optim hd hst (by linarith) (by linarith) w hw x hx g
      obtain ⟨c1, c2⟩ := lp_optim_grad hd hst (by linarith) hw hx hq
      refine ⟨gr, ⟨b0, b1⟩, b, g', w', hq, ⟨hI, c2.trans hg⟩, fun z hz => ⟨hz.1, feasibleWith_bound a3 hz.2⟩, a1, fun hxX =>
        ⟨a2, c1, fun hb => ?_, fun hb => ?_⟩⟩
      · obtain ⟨-, -, -, hkeep⟩ := a4 hb
        rintro z ⟨hz1, hz2⟩
        obtain ⟨k1, k2⟩ := hkeep z (feasibleWith_mono ((lpErr_le h0 hus hε0 hεs (by linarith) le_rfl hB (by linarith)
          (hzX z hz1)).trans hsμ.le) hz2)
        refine ⟨by rw [add_zero]; exact k1, fun b hb => ?_⟩
        obtain ⟨b', hb', rfl⟩ := Option.map_eq_some_iff.1 hb
        exact k2 b' hb'
      · obtain ⟨rfl, hb0, hkeep⟩ := a5 hb
        refine ⟨hb0.le, ?_⟩
        rintro z ⟨hz1, hz2⟩
        obtain ⟨k1, k2⟩ := hkeep z (feasibleWith_mono ((lpErr_le (B := B) h0 hus hε0 hεs (by linarith) (by positivity) (by linarith) (by linarith)
          (hzX z hz1)).trans hsμ.le) hz2)
        refine ⟨k1, fun b hb => ?_⟩
        obtain ⟨b', hb', rfl⟩ := Option.map_eq_some_iff.1 hb
        exact k2 b' hb') (by linarith) hit
  have hlt : γ'.val < σ := by
    by_contra hge
    exact q2 fun z hz => ⟨hz, feasibleWith_bound (not_lt.1 hge) (hK hz)⟩
  obtain ⟨xb2, k2, γ2, o2, e2, r1, -, r2, r3⟩ := C88_lowpass_optim_run hd hst (by linarith) (by linarith)
    (C86_ell_steady (α := Fl R) (T := ParallelCut (Fl R)) (by omega)).1 ho (s := e) he γ opts
  rw [q1] at r1
  simp only [Res.ok.injEq, Prod.mk.injEq] at r1
  obtain ⟨⟨rfl, rfl⟩, rfl, rfl, rfl⟩ := r1
  cases xb with
  | none =>
    have := r2 rfl
    rw [this] at hlt
    linarith
  | some x =>
    obtain ⟨t1, t2, -⟩ := r3 x rfl
    exact ⟨x, k, γ', o', e', q1, hlt, t1, t2⟩

/-- two-tap filters around `(13/10, 0)` have responses between `115/100` and `145/100`, whatever the bands -/
theorem lp_two_taps_low {d : LpData} (hl : d.lp = 1) (hh : d.up = 3) :
    ball (![13 / 10, 0] : Fin 2 → ℝ) (1 / 20) ⊆ d.feasibleWith (8 / 5) (1 / 10) := by
  intro z hz
  have h0 := abs_le.1 (ball_entries (by norm_num) hz 0)
  have h1 := abs_le.1 (ball_entries (by norm_num) hz 1)
  simp only [cons_val_zero, cons_val_one, sub_zero] at h0 h1
  have key : ∀ ω, 115 / 100 ≤ lpResponse z ω ∧ lpResponse z ω ≤ 145 / 100 := by
    intro ω
    rw [resp2]
    have a := Real.neg_one_le_cos ω
    have b := Real.cos_le_one ω
    constructor <;> nlinarith
  refine ⟨fun i _ => ?_, fun i _ _ => ?_, fun i _ _ => ?_, fun j hj => ?_⟩
  · rw [hl, hh]
    obtain ⟨a, b⟩ := key (d.freq i)
    constructor <;> linarith
  · obtain ⟨a, b⟩ := key (d.freq i)
    constructor <;> linarith
  · linarith [(key (d.freq i)).1]
  · obtain rfl : j = 0 := Fin.ext hj
    linarith

/-- **C112** (a run from start to end)  Two taps, passband bounds `1` and `3`, from the disc of radius `4` around the origin and with the stopband
bound `10`: if the precision is high enough and the numbers up to `30` are representable, then for all band edges
`0 ≤ wpass ≤ wstop ≤ 9/10` the constructor and the loop yield a filter and a stopband bound below `8/5` that the filter meets up to `lpErr`. -/
theorem C112_lowpass_example : ∃ u0 > 0, ∃ N : Nat, ∀ u ≤ u0, ∀ (R : Rounding u), (∀ k ≤ 30, R.Rep ((k : Nat) : ℝ)) →
    ∀ (wpass wstop lp up sp v γ : Fl R), 0 ≤ wpass.val → wpass.val ≤ wstop.val → wstop.val ≤ 9 / 10 → lp.val = 1 → up.val = 3 → v.val = 16 →
    γ.val = 10 → ∀ (opts : Options (Fl R)), opts.tolerance.val ≤ 1 / 6400 → N ≤ opts.maxIters →
    ∃ (o : LowpassOracle (Fl R)) (d : LpData) (e : Ell (Fl R)) (x : Arr (Fl R)) (k : Nat) (γ' : Fl R) (o' : LowpassOracle (Fl R)) (e' : Ell (Fl R)),
      LowpassOracle.new 2 wpass wstop lp up sp = .ok o ∧ Ell.newWithScalar v (Arr.ofList [0, 0]) = .ok e ∧
      d.m = 30 ∧ d.lp = 1 ∧ d.up = 3 ∧ (∀ i : Nat, (i : ℝ) ≤ wpass.val * 29 → i < d.pass) ∧
      (∀ i : Nat, i < d.stop → (i : ℝ) ≤ (1 + u) * (wstop.val * 29)) ∧
      cuttingPlaneOptim LowpassOracle.oracle Ell.space o e γ opts = .ok ((some x, k), γ', o', e') ∧ γ'.val < 8 / 5 ∧
      x.flVec 2 ∈ d.feasibleWith γ'.val (-lpErr u (lpTableErr u 2) 2 0 (x.flVec 2) (x.flVec 2)) := by
  obtain ⟨N, hN⟩ := exists_nat_gt (((2 : Nat) + 1 : ℝ) * Real.log (256 / (((1 : ℝ) / 20) ^ 2) ^ 2))
  obtain ⟨u1, hu1, hfound⟩ := C112_lowpass_optim (n := 2) le_rfl N (r := 1 / 20) (P := 3) (H := 16) (D := 256) (B := 14) (μ := 1 / 10)
    (by norm_num) (by norm_num) (by norm_num) (by norm_num) (by norm_num) hN
  have hc : Continuous fun u : ℝ => lpTableErr u 2 := by unfold lpTableErr; fun_prop
  have h1 := (hc.tendsto 0).eventually (gt_mem_nhds (show lpTableErr 0 2 < u1 by simpa [lpTableErr] using hu1))
  obtain ⟨δ, hδ, hball⟩ := Metric.eventually_nhds_iff.1 h1
  refine ⟨min (min u1 (δ / 2)) (1 / 100), lt_min (lt_min hu1 (by linarith)) (by norm_num), N, ?_⟩
  intro u hu' R hrep wpass wstop lp up sp v γ hw0 hw1 hw2 hlp hup hv hγ opts htol hit
  have h0 := R.unit_nonneg
  have hu := hu'.trans (min_le_left _ _)
  have hu3 := hu'.trans (min_le_right _ _)
  have hu2 := hu.trans (min_le_right _ _)
  have htab : lpTableErr u 2 < u1 := hball (show dist u 0 < δ by rw [Real.dist_eq, sub_zero, abs_of_nonneg h0]; linarith)
  obtain ⟨o, d, a1, a2, a3, a4, a5, a6, a7, a8, a9, a10, a11⟩ := C88_lowpass_new (n := 2) (by norm_num) hrep wpass wstop lp up sp hw0 hw1
    (hw2.trans (by norm_num))
  have e29 : ((15 * 2 - 1 : Nat) : ℝ) = 29 := by norm_num
  rw [e29] at a8 a11
  have hst : d.stop < d.m := by
    rw [a5]
    by_contra hge
    have := a11 29 (by omega)
    push_cast at this
    nlinarith
  obtain ⟨e, b1, b2, b3, -, b4, b5, b6⟩ := disc_new_fl v
  have hκ : e.kappa.val = 16 := by rw [b4, hv]
  have hm2 : norm2 (![13 / 10, 0] : Fin 2 → ℝ) ≤ 3 := by
    rw [norm2, Real.sqrt_le_iff]
    refine ⟨by norm_num, ?_⟩
    simp only [dotProduct, Fin.sum_univ_two, cons_val_zero, cons_val_one]
    norm_num
  obtain ⟨x, k, γ', o', e', c1, c2, -, c3⟩ := hfound u R (lpTableErr u 2) (hu.trans (min_le_left _ _)) htab.le d a3 hst o a2
    (8 / 5) ![13 / 10, 0] e γ opts (by rw [a6, a7, hlp, hup, hγ]; norm_num) b2 b3 (by rw [hκ]; norm_num) (by rw [b5]; exact PosDef.one)
    (by
      intro i j
      rw [hκ, b5, one_apply]
      split <;> norm_num)
    (by rw [hκ, b5, det_smul, det_one, Fintype.card_fin]; norm_num) hm2
    (lp_two_taps_low (a6.trans hlp) (a7.trans hup)) (by rw [hγ]; norm_num)
    (by
      intro y hy
      have h0 := abs_le.1 (ball_entries (by norm_num) hy 0)
      have h1 := abs_le.1 (ball_entries (by norm_num) hy 1)
      simp only [cons_val_zero, cons_val_one, sub_zero] at h0 h1
      rw [hκ]
      exact disc_ellipsoid b5 b6 (by nlinarith))
    (by linarith) hit
  exact ⟨o, d, e, x, k, γ', o', e', a1, b1, a5, a6.trans hlp, a7.trans hup, a8, a11, c1, c2, c3⟩

/-- such arithmetic exists -/
example : ∃ (u : ℝ) (R : Rounding u) (N : Nat) (o : LowpassOracle (Fl R)) (e : Ell (Fl R)) (x : Arr (Fl R)) (k : Nat) (γ' : Fl R)
    (o' : LowpassOracle (Fl R)) (e' : Ell (Fl R)), LowpassOracle.new 2 ⟨1 / 8⟩ ⟨1 / 4⟩ ⟨1⟩ ⟨3⟩ ⟨2⟩ = .ok o ∧
      cuttingPlaneOptim LowpassOracle.oracle Ell.space o e ⟨10⟩ ⟨N, ⟨1 / 10 ^ 20⟩⟩ = .ok ((some x, k), γ', o', e') ∧ γ'.val < 8 / 5 := by
  obtain ⟨u0, h0, N, h⟩ := C112_lowpass_example
  obtain ⟨u, hu, R, hR⟩ := fine_int u0 h0
  obtain ⟨o, d, e, x, k, γ', o', e', a1, -, -, -, -, -, -, a6, a7, -⟩ := h u hu R
    (fun k hk => by simpa using hR (k : ℤ) (by rw [abs_of_nonneg (by positivity)]; omega)) ⟨1 / 8⟩ ⟨1 / 4⟩ ⟨1⟩ ⟨3⟩ ⟨2⟩ ⟨16⟩ ⟨10⟩
    (by norm_num) (by norm_num) (by norm_num) rfl rfl rfl rfl ⟨N, ⟨1 / 10 ^ 20⟩⟩ (by norm_num) le_rfl
  exact ⟨u, R, N, o, e, x, k, γ', o', e', a1, a6, a7⟩

end Ellalgo
