import Verif.Spec.RoundedBsearch
import Verif.Props.Bsearch
import Verif.Props.RoundedOptim

/-! # C107: bisection in rounded arithmetic -/

namespace Ellalgo
open Matrix
open scoped ComplexOrder
variable {u : ℝ} {R : Rounding u} {Ω : Type}

/-- The midpoint as computed: between the ends and close to the true midpoint. -/
theorem fl_mid (R : Rounding u) (hu : u ≤ 1 / 8) {L U B : ℝ} (hL : R.Rep L) (hU : R.Rep U) (hLU : L ≤ U) (hLB : |L| ≤ B) (hUB : |U| ≤ B) :
    L ≤ R.rnd (L + R.rnd (R.rnd (U - L) / 2)) ∧ R.rnd (L + R.rnd (R.rnd (U - L) / 2)) ≤ U ∧
    |R.rnd (L + R.rnd (R.rnd (U - L) / 2)) - (L + U) / 2| ≤ u * ((U - L) / 2) + u * B := by
  have h0 := R.unit_nonneg
  rw [R.half, R.idem]
  obtain ⟨τ, hτ⟩ : ∃ τ, τ = R.rnd (U - L) / 2 := ⟨_, rfl⟩
  rw [← hτ]
  have e1 := R.err (U - L)
  rw [abs_of_nonneg (sub_nonneg.2 hLU), abs_le] at e1
  have hw : 0 ≤ u * (U - L) := mul_nonneg h0 (sub_nonneg.2 hLU)
  have hw2 : u * (U - L) ≤ 1 / 8 * (U - L) := mul_le_mul_of_nonneg_right hu (sub_nonneg.2 hLU)
  have t0 : 0 ≤ τ := by linarith [e1.1]
  have t1 : τ ≤ U - L := by linarith [e1.2]
  have t2 : |τ - (U - L) / 2| ≤ u * ((U - L) / 2) := by
    rw [abs_le]
    constructor <;> linarith [e1.1, e1.2]
  have e2 := R.err (L + τ)
  have hB : |L + τ| ≤ B := by
    rw [abs_le] at *
    constructor <;> linarith [hLB.1, hUB.2]
  have e3 : |R.rnd (L + τ) - (L + τ)| ≤ u * B := e2.trans (mul_le_mul_of_nonneg_left hB h0)
  refine ⟨?_, ?_, ?_⟩
  · have := R.mono L (L + τ) (by linarith)
    rwa [hL] at this
  · have := R.mono (L + τ) U (by linarith)
    rwa [hU] at this
  · have : R.rnd (L + τ) - (L + U) / 2 = (R.rnd (L + τ) - (L + τ)) + (τ - (U - L) / 2) := by ring
    rw [this]
    linarith [abs_add_le (R.rnd (L + τ) - (L + τ)) (τ - (U - L) / 2)]

theorem fl_nat_two : (nat 2 : Fl R).val = 2 := R.two

/-- The loop of `bsearch` with an invariant `J w L U` of the state and the bracket. -/
theorem bsearchLoop_inv_fl (orc : OracleBS Ω (Fl R)) (hu : u ≤ 1 / 8) (B : ℝ) (J : Ω → ℝ → ℝ → Prop)
    (step : ∀ w L U (γ : Fl R), J w L U → L ≤ γ.val → γ.val ≤ U → |γ.val - (L + U) / 2| ≤ u * ((U - L) / 2) + u * B →
      ∃ b w', orc.assess w γ = .ok (b, w') ∧ (b = true → J w' L γ.val) ∧ (b = false → J w' γ.val U)) (tol : Fl R) (m : Nat) :
    ∀ (k0 : Nat) (w : Ω) (L U : Fl R), R.Rep L.val → R.Rep U.val → L.val ≤ U.val → |L.val| ≤ B → |U.val| ≤ B → J w L.val U.val →
    ∃ L' U' k w', bsearchLoop orc tol m k0 w L U = .ok ((L', U'), k0 + k, w') ∧ J w' L'.val U'.val ∧ L'.val ≤ U'.val ∧ k ≤ m ∧
      U'.val - L'.val - 16 / 7 * (u * B) ≤ (9 / 16) ^ k * (U.val - L.val - 16 / 7 * (u * B)) ∧ (k < m → U'.val - L'.val ≤ 3 * tol.val) := by
  have h0 := R.unit_nonneg
  induction m with
  | zero =>
    intro k0 w L U hL hU hLU hLB hUB hJ
    have hB : 0 ≤ u * B := mul_nonneg h0 ((abs_nonneg _).trans hLB)
    exact ⟨L, U, 0, w, rfl, hJ, hLU, le_rfl, by simp, by simp⟩
  | succ m ih =>
    intro k0 w L U hL hU hLU hLB hUB hJ
    have hB : 0 ≤ u * B := mul_nonneg h0 ((abs_nonneg _).trans hLB)
    have htau : ((U - L) / nat 2 : Fl R).val = R.rnd (R.rnd (U.val - L.val) / 2) := by
      show R.rnd (R.rnd (U.val - L.val) / (nat 2 : Fl R).val) = _
      rw [fl_nat_two]
    have hlt : (Scalar.lt ((U - L) / nat 2) tol = true) ↔ R.rnd (R.rnd (U.val - L.val) / 2) < tol.val := by
      rw [← htau]; exact decide_eq_true_iff
    have hg : (L + (U - L) / nat 2 : Fl R).val = R.rnd (L.val + R.rnd (R.rnd (U.val - L.val) / 2)) := by
      rw [← htau]; rfl
    have e1 := R.err (U.val - L.val)
    rw [abs_of_nonneg (sub_nonneg.2 hLU), abs_le] at e1
    have hw2 : u * (U.val - L.val) ≤ 1 / 8 * (U.val - L.val) := mul_le_mul_of_nonneg_right hu (sub_nonneg.2 hLU)
    unfold bsearchLoop
    simp only []
    split
    · rename_i hlt'
      rw [hlt, R.half, R.idem] at hlt'
      exact ⟨L, U, 0, w, rfl, hJ, hLU, by omega, by simp, fun _ => by linarith [e1.1]⟩
    · obtain ⟨g1, g2, g3⟩ := fl_mid R hu hL hU hLU hLB hUB
      rw [← hg] at g1 g2 g3
      have hgR : R.Rep (L + (U - L) / nat 2 : Fl R).val := by rw [hg]; exact R.idem _
      obtain ⟨γ, hγ⟩ : ∃ γ, γ = (L + (U - L) / nat 2 : Fl R) := ⟨_, rfl⟩
      rw [← hγ] at g1 g2 g3 hgR
      have hgB : |γ.val| ≤ B := by
        rw [abs_le] at *
        constructor <;> linarith [hLB.1, hUB.2]
      rw [abs_le] at g3
      obtain ⟨b, w', s1, s2, s3⟩ := step w L.val U.val γ hJ g1 g2 (abs_le.2 g3)
      simp only [← hγ, s1, Res.ok_bind]
      have next : ∀ (w1 : Ω) (L1 U1 : Fl R), R.Rep L1.val → R.Rep U1.val → L1.val ≤ U1.val → |L1.val| ≤ B → |U1.val| ≤ B →
          J w1 L1.val U1.val → U1.val - L1.val ≤ 9 / 16 * (U.val - L.val) + u * B →
          ∃ L' U' k w', bsearchLoop orc tol m (k0 + 1) w1 L1 U1 = .ok ((L', U'), k0 + k, w') ∧ J w' L'.val U'.val ∧
            L'.val ≤ U'.val ∧ k ≤ m + 1 ∧
            U'.val - L'.val - 16 / 7 * (u * B) ≤ (9 / 16) ^ k * (U.val - L.val - 16 / 7 * (u * B)) ∧ (k < m + 1 → U'.val - L'.val ≤ 3 * tol.val) := by
        intro w1 L1 U1 r1 r2 r3 r4 r5 r6 r7
        obtain ⟨L', U', k, w', c1, c2, c3, c4, c5, c6⟩ := ih (k0 + 1) w1 L1 U1 r1 r2 r3 r4 r5 r6
        refine ⟨L', U', k + 1, w', by rw [c1]; congr 3; omega, c2, c3, by omega, c5.trans ?_, fun h => c6 (by omega)⟩
        rw [pow_succ, mul_assoc]
        exact mul_le_mul_of_nonneg_left (by linarith) (by positivity)
      cases b with
      | true =>
        exact next w' L γ hL hgR g1 hLB hgB (s2 rfl) (by linarith [g3.2])
      | false =>
        exact next w' γ U hgR hU g2 hgB hUB (s3 rfl) (by linarith [g3.1])

/-- over `Ell` the feasibility loop ends, keeps the oracle's invariant, and a returned point was accepted -/
theorem feas_fl_total {n : Nat} (hn : 0 < n) {orc : OracleFeas Ω (Arr (Fl R)) (SingleCut (Fl R)) (Fl R)} {I : Ω → Prop}
    {F : ℝ → Set (Fin n → ℝ)} {δ : (Fin n → ℝ) → ℝ} (ho : FlFeasible n orc I F δ) (tol : Fl R) (m : Nat) :
    ∀ (k0 : Nat) (w : Ω) (e : Ell (Fl R)), I w → e.Shaped n →
    ∃ r k w' e', feasLoop orc Ell.space tol m k0 w e = .ok ((r, k), w', e') ∧ I w' ∧
      ∀ x, r = some x → x.IsVecShape n ∧ x.flVec n ∈ F (-δ (x.flVec n)) := by
  induction m with
  | zero =>
    intro k0 w e hw he
    exact ⟨none, k0, w, e, rfl, hw, by simp⟩
  | succ m ih =>
    intro k0 w e hw he
    obtain ⟨r, w', h1, h2, h3, h4⟩ := ho w e.xc hw he.2
    have h1' : orc.assess w (Ell.space (T := SingleCut (Fl R)).xc e) = .ok (r, w') := h1
    unfold feasLoop
    rw [h1', Res.ok_bind]
    cases r with
    | none => exact ⟨some e.xc, k0, w', e, rfl, h2, fun x hx => by
        simp only [Option.some.injEq] at hx
        subst hx
        exact ⟨he.2, h3 rfl⟩⟩
    | some c =>
      obtain ⟨g, ⟨c⟩⟩ := c
      obtain ⟨hg, -⟩ := h4 g c rfl
      obtain ⟨st, e1, u1, u2, -⟩ := Ell.update_shape hn .bias e (g, (⟨c⟩ : SingleCut (Fl R))) he hg
      have u1' : Ell.space.updateBias e (g, (⟨c⟩ : SingleCut (Fl R))) = .ok (st, e1) := u1
      simp only [u1', Res.ok_bind]
      split
      · exact ⟨none, k0, w', e1, rfl, h2, by simp⟩
      · exact ih _ w' e1 h2 u2

/-- the adaptor between two probes of `[l, up]`, when the lower end of the bracket is `L` and the upper one `U` -/
structure FlAdInv (n : Nat) (I : Ω → Fl R → Prop) (F : ℝ → ℝ → Set (Fin n → ℝ)) (δ : ℝ → (Fin n → ℝ) → ℝ) (e : Ell (Fl R))
    (o : Options (Fl R)) (l up t1 : ℝ) (a : BSearchAdaptor Ω (Ell (Fl R)) (Fl R)) (L U : ℝ) : Prop where
  opts : a.options = o
  om : ∃ t, I a.omega t
  sp : ∃ y : Arr (Fl R), y.IsVecShape n ∧ a.space = { e with xc := y } ∧
    (y.flVec n = e.xc.flVec n ∨ ∃ t, l ≤ t ∧ t ≤ up ∧ y.flVec n ∈ F t (-δ t (y.flVec n)))
  lower : l ≤ L ∧ L < t1
  upper : U ≤ up ∧ (U < up → a.space.xc.flVec n ∈ F U (-δ U (a.space.xc.flVec n)))

/-- **C107**.  Bisection over a feasibility problem with a level, `bsearch` on `BSearchAdaptor` on `Ell`, in rounded arithmetic.  For
every dimension `n ≥ 2`, bounds `κ`, `B`, `r`, `P` and number of cuts `N` there is a unit roundoff `u0` such that in every arithmetic with
at most this unit: let the ball of radius `r` around `m` (of norm at most `P`) satisfy the inequalities of every level `t ≥ t1` with
margin `Δ`, where rounding changes them by at most `Δ`, and let the ellipsoid of the adaptor cover this ball from its own centre and from
every point the oracle may accept.  With `2(n+1) ln(4ⁿ det(κM)/r^(2n)) < N ≤ max_iters` and a tolerance of at most `r²G²/8` for the inner
loop, `bsearch` on `[l, up]`, `l < t1`, does not panic, and with `D` the larger of `3 tol` and
`(9/16)^max_iters (up - l) + (16/7) u max(|l|, |up|)`: if it returns `true`, the centre the adaptor is left with satisfies the inequalities
of some level `t ≤ t1 + D` up to rounding; if it returns `false`, then `up ≤ t1 + D`. -/
theorem C107_bisection (n N : Nat) (B κ r P : ℝ) (hn : 2 ≤ n) (hB : 0 < B) (hκ : 0 < κ) (hr : 0 < r) :
    ∃ u0 > 0, ∀ u ≤ u0, ∀ (R : Rounding u) (Ω : Type) (orc : OracleFeas Ω (Arr (Fl R)) (SingleCut (Fl R)) (Fl R))
      (I : Ω → Fl R → Prop) (F : ℝ → ℝ → Set (Fin n → ℝ)) (δ : ℝ → (Fin n → ℝ) → ℝ) (G Δ t1 : ℝ) (m : Fin n → ℝ) (w : Ω) (s : Fl R)
      (e : Ell (Fl R)) (inner outer : Options (Fl R)) (l up : Fl R),
      e.Shaped n → e.helper = EllCalc.new n → e.kappa.val = κ → (e.mq.flMat n).PosDef →
      (∀ i j, |e.mq.flMat n i j| ≤ B) → norm2 m ≤ P → I w s → FlLevels n orc I F δ G →
      R.Rep l.val → R.Rep up.val → l.val ≤ up.val → l.val < t1 →
      (∀ c, (c = e.xc.flVec n ∨ ∃ t, l.val ≤ t ∧ t ≤ up.val ∧ c ∈ F t (-δ t c)) → ball m r ⊆ ellipsoid (e.mq.flMat n) κ c) →
      (∀ t, l.val ≤ t → t ≤ up.val → ∀ x, norm2 x ≤ P + 2 * √(2 ^ N * κ * (n * (2 * B))) → δ t x ≤ Δ) →
      (∀ t, t1 ≤ t → t ≤ up.val → ball m r ⊆ F t Δ) →
      inner.tolerance.val ≤ r ^ 2 * G ^ 2 / 8 →
      2 * ((n : ℝ) + 1) * Real.log (4 ^ n * (κ • e.mq.flMat n).det / (r ^ 2) ^ n) < N → N ≤ inner.maxIters →
      ∃ flag k a' D, bsearch (BSearchAdaptor.oracle orc Ell.space) ⟨w, e, inner⟩ (l, up) outer = .ok ((flag, k), a', (l, up)) ∧
        D = max (3 * outer.tolerance.val)
          ((9 / 16) ^ outer.maxIters * (up.val - l.val) + 16 / 7 * (u * max |l.val| |up.val|)) ∧ k ≤ outer.maxIters ∧
        (flag = true → ∃ t, l.val ≤ t ∧ t < up.val ∧ t ≤ t1 + D ∧ a'.space.xc.flVec n ∈ F t (-δ t (a'.space.xc.flVec n))) ∧
        (flag = false → up.val ≤ t1 + D) := by
  obtain ⟨u0, h0, h⟩ := C105_finds_point n N B κ r P hn hB hκ hr
  refine ⟨min u0 (1 / 8), lt_min h0 (by norm_num), fun u hu R Ω orc I F δ G Δ t1 m w s e inner outer l up he hh hek hM hMB hmP hw
    hfam hlR hupR hlup hlt1 hcov hδ hball htol hN hit => ?_⟩
  have hu1 := hu.trans (min_le_left _ _)
  have hu2 := hu.trans (min_le_right _ _)
  have hun := R.unit_nonneg
  have hstep : ∀ (a : BSearchAdaptor Ω (Ell (Fl R)) (Fl R)) (L U : ℝ) (γ : Fl R), FlAdInv n I F δ e inner l.val up.val t1 a L U →
      L ≤ γ.val → γ.val ≤ U → |γ.val - (L + U) / 2| ≤ u * ((U - L) / 2) + u * max |l.val| |up.val| →
      ∃ b a', (BSearchAdaptor.oracle orc Ell.space).assess a γ = .ok (b, a') ∧
        (b = true → FlAdInv n I F δ e inner l.val up.val t1 a' L γ.val) ∧
        (b = false → FlAdInv n I F δ e inner l.val up.val t1 a' γ.val U) := by
    intro a L U γ ha hLγ hγU _
    obtain ⟨t, ht⟩ := ha.om
    obtain ⟨w1, hw1, hI1⟩ := hfam.update a.omega t γ ht
    obtain ⟨y, hy, hsp, hyF⟩ := ha.sp
    have hshape : a.space.Shaped n := by rw [hsp]; exact ⟨he.1, hy⟩
    have hγl : l.val ≤ γ.val := ha.lower.1.trans hLγ
    have hγu : γ.val ≤ up.val := hγU.trans ha.upper.1
    obtain ⟨res, k, w', e', l1, l2, l3⟩ := feas_fl_total (by omega) (hfam.answers γ) a.options.tolerance a.options.maxIters 0 w1 a.space
      hI1 hshape
    have hrun : cuttingPlaneFeas orc Ell.space w1 a.space a.options = .ok ((res, k), w', e') := l1
    have hsome : ∀ x, res = some x → (BSearchAdaptor.oracle orc Ell.space).assess a γ =
        .ok (true, { a with omega := w', space := { a.space with xc := x } }) := by
      rintro x rfl
      show BSearchAdaptor.assessBs orc Ell.space a γ = _
      unfold BSearchAdaptor.assessBs
      simp only [hw1, Res.ok_bind, hrun]
      rfl
    have hnone : res = none → (BSearchAdaptor.oracle orc Ell.space).assess a γ = .ok (false, { a with omega := w' }) := by
      rintro rfl
      show BSearchAdaptor.assessBs orc Ell.space a γ = _
      unfold BSearchAdaptor.assessBs
      simp only [hw1, Res.ok_bind, hrun]
    cases hres : res with
    | some x =>
      obtain ⟨hx, hxF⟩ := l3 x hres
      refine ⟨true, _, hsome x hres, fun _ => ⟨ha.opts, ⟨γ, l2⟩, ⟨x, hx, by simp only [hsp], Or.inr ⟨γ.val, hγl, hγu, hxF⟩⟩,
        ⟨ha.lower.1, ha.lower.2⟩, hγu, fun _ => hxF⟩, by simp⟩
    | none =>
      refine ⟨false, _, hnone hres, by simp, fun _ => ⟨ha.opts, ⟨γ, l2⟩, ⟨y, hy, hsp, hyF⟩, ⟨hγl, ?_⟩, ha.upper⟩⟩
      by_contra hle
      push Not at hle
      have hmq : a.space.mq = e.mq := by rw [hsp]
      have hxc : a.space.xc = y := by rw [hsp]
      obtain ⟨x, k', w3, e3, hc, -⟩ := h u hu1 R Ω orc (fun w => I w γ) (F γ.val) (δ γ.val) G Δ m w1 a.space a.options hshape
        (by rw [hsp]; exact hh) (by rw [hsp]; exact hek) (by rw [hmq]; exact hM) (by rw [hmq]; exact hMB) hmP
        (by rw [hmq, hxc]; exact hcov _ hyF) hI1 (hfam.answers γ) (hfam.margins γ.val) (hfam.gradients γ) (hδ γ.val hγl hγu)
        (hball γ.val hle hγu) (by rw [ha.opts]; exact htol) (by rw [hmq]; exact hN) (by rw [ha.opts]; exact hit)
      rw [hrun, hres] at hc
      simp at hc
  obtain ⟨L', U', k, a', c1, c2, c3, c4, c5, c6⟩ := bsearchLoop_inv_fl (BSearchAdaptor.oracle orc Ell.space) hu2 (max |l.val| |up.val|)
    (FlAdInv n I F δ e inner l.val up.val t1) hstep outer.tolerance outer.maxIters 0 ⟨w, e, inner⟩ l up hlR hupR hlup (le_max_left _ _)
    (le_max_right _ _) ⟨rfl, ⟨s, hw⟩, ⟨e.xc, he.2, rfl, Or.inl rfl⟩, ⟨le_rfl, hlt1⟩, le_rfl, fun h => absurd h (lt_irrefl _)⟩
  rw [Nat.zero_add] at c1
  obtain ⟨D, hD⟩ : ∃ D, D = max (3 * outer.tolerance.val)
      ((9 / 16) ^ outer.maxIters * (up.val - l.val) + 16 / 7 * (u * max |l.val| |up.val|)) := ⟨_, rfl⟩
  have hX : 0 ≤ 16 / 7 * (u * max |l.val| |up.val|) := by
    have : 0 ≤ max |l.val| |up.val| := (abs_nonneg _).trans (le_max_left _ _)
    positivity
  have hw : U'.val - L'.val ≤ D := by
    rcases Nat.lt_or_ge k outer.maxIters with hk | hk
    · rw [hD]; exact (c6 hk).trans (le_max_left _ _)
    · have hk' : k = outer.maxIters := le_antisymm c4 hk
      rw [hk'] at c5
      rw [hD]
      refine le_trans ?_ (le_max_right _ _)
      have hp : (0 : ℝ) ≤ (9 / 16) ^ outer.maxIters := by positivity
      nlinarith [mul_nonneg hp hX]
  have hle : Scalar.le l up = true := decide_eq_true hlup
  have hrun : bsearch (BSearchAdaptor.oracle orc Ell.space) ⟨w, e, inner⟩ (l, up) outer = .ok ((!Scalar.beq U' up, k), a', (l, up)) := by
    unfold bsearch
    simp only [hle, Res.assert_true, Res.ok_bind, c1]
  refine ⟨!Scalar.beq U' up, k, a', D, hrun, hD, c4, fun hf => ?_, fun hf => ?_⟩
  · have hne : U'.val ≠ up.val := by
      intro heq
      have : Scalar.beq U' up = true := decide_eq_true heq
      simp [this] at hf
    have hlt : U'.val < up.val := lt_of_le_of_ne c2.upper.1 hne
    exact ⟨U'.val, c2.lower.1.trans c3, hlt, by linarith [c2.lower.2], c2.upper.2 hlt⟩
  · have heq : U'.val = up.val := by
      by_contra hne
      have : Scalar.beq U' up = false := decide_eq_false hne
      simp [this] at hf
    linarith [c2.lower.2]

end Ellalgo
