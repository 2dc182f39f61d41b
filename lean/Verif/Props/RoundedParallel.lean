import Verif.Lib.DeepAny

/-! C110: parallel cuts in rounded arithmetic. -/

namespace Ellalgo
open Matrix
open scoped ComplexOrder
variable {u : ℝ} {R : Rounding u} {n : Nat}

/-- **C110**, one cut.  A deep parallel cut, a nondeep one (`update_q`), or a central one, for which `beta0` counts as `0`.  The lower value `b0` is
nonnegative and both its distance from the edge of the ellipsoid and its distance from `beta1`, if there is one, are at least a part `w` of the
radius `√(κ gᵀMg)`.  In rounded arithmetic of small enough unit the cut succeeds; the new ellipsoid contains the points of the old one
between the planes and its volume falls by the factor `e^(-1/(n+1))` of exact arithmetic, both up to a factor near one.  Both settings of
`no_defer_trick` are covered, and no bound on `beta1` is needed. -/
theorem C110_parallel_step {l H P w ε : ℝ} (hu : u ≤ 1 / 64) (e : Ell (Fl R)) (he : e.Held n l H P) (g : Arr (Fl R))
    (hg : g.IsVecShape n) (hne : g.flVec n ≠ 0) (kd : UpdateKind) (β0 : Fl R) (β1 : Option (Fl R)) (b0 : ℝ)
    (hkd : kd = .central ∧ b0 = 0 ∨ (kd = .bias ∨ kd = .q) ∧ b0 = β0.val) (hb0 : 0 ≤ b0) (hw0 : 0 < w) (hw1 : w ≤ 1)
    (hdeep : b0 ≤ (1 - w) * √(e.kappa.val * (g.flVec n ⬝ᵥ (e.mq.flMat n *ᵥ g.flVec n))))
    (hwide : ∀ b ∈ β1, b0 + 2 * w * √(e.kappa.val * (g.flVec n ⬝ᵥ (e.mq.flMat n *ᵥ g.flVec n))) ≤ b.val)
    (hε0 : 0 ≤ ε) (hε1 : ε ≤ 1) (hsm : slabUnit u n l H w * slabL n l H P w ≤ ε / 3 * (w / 2)) :
    ∃ e', Ell.space.update kd e (g, ParallelCut.mk β0 β1) = .ok (.success, e') ∧
      e.CutTo n H ε (3 / w ^ 4) (g.flVec n) (slab (g.flVec n) (e.xc.flVec n) b0 (β1.map Fl.val)) e' := by
  have h0 := R.unit_nonneg
  have hn := he.dim
  have hq0 : 0 ≤ quadErr u n H l := by have := quadErr_ge h0 hn he.low_pos he.low_le; linarith
  have hv0 : 0 ≤ 32 * (u * (n : ℝ) ^ 2) / w ^ 2 := by positivity
  have hθ : quadErr u n H l ≤ slabUnit u n l H w := by unfold slabUnit; linarith
  have hv : 32 * (u * (n : ℝ) ^ 2) / w ^ 2 ≤ slabUnit u n l H w := by unfold slabUnit; linarith
  have e3 : 3 * (ε / 3) = ε := by ring
  have hτ : 0 < √(e.kappa.val * (g.flVec n ⬝ᵥ (e.mq.flMat n *ᵥ g.flVec n))) :=
    Real.sqrt_pos.2 (mul_pos he.kappa (quad_pos he.posDef hne))
  by_cases hbr : ∃ b ∈ β1, (b * b).val < (e.kappa * Ell.om n e.mq.mat g.vec).val
  · obtain ⟨b, hb, hbr⟩ := hbr
    obtain rfl : β1 = some b := hb
    have := slab_any hu he hg hne kd hkd hb0 hw0 hw1 (hwide b rfl) hbr hθ hv (by linarith : 0 ≤ ε / 3) (by linarith) hsm
    rw [e3] at this
    exact this
  · push Not at hbr
    obtain ⟨e', h1, h2⟩ := deep_any hu he hg hne kd hkd hb0 hw0 hw1 hdeep hθ (by linarith : 0 ≤ ε / 3) (by linarith) hsm
    rw [e3] at h2
    refine ⟨e', ?_, ?_⟩
    · rw [← h1, Ell.update_eq, Ell.update_eq]
      refine Ell.updateCore_congr he.shaped hg (by omega) ?_
      show CutType.call kd (ParallelCut.mk β0 β1) e.helper _ = CutType.call kd (SingleCut.mk β0) e.helper _
      rw [he.helper]
      refine single_call kd hkd (fun b hb => ⟨?_, ?_, hbr b hb⟩)
      · have := hwide b hb
        nlinarith
      · have := hwide b hb
        nlinarith
    · exact ⟨h2.shaped, h2.helper, h2.kappa, h2.pos, h2.entries, h2.vol, h2.tsq, fun a ha0 ha1 x hx => h2.keep a ha0 ha1 x hx.1⟩

/-- between two planes with a ball between them there is room for the ball -/
theorem slab_room {r β0 b : ℝ} {m c g : Fin n → ℝ} (hg : g ≠ 0) (h0 : ∀ x ∈ ball m r, g ⬝ᵥ (x - c) + β0 ≤ 0)
    (h1 : ∀ x ∈ ball m r, 0 ≤ g ⬝ᵥ (x - c) + b) : β0 + 2 * (r * norm2 g) ≤ b := by
  have hgg : 0 < g ⬝ᵥ g := lt_of_le_of_ne (dot_self_nonneg' g) (fun h => hg (dotProduct_self_eq_zero.1 h.symm))
  have hN : norm2 g * norm2 g = g ⬝ᵥ g := norm2_sq g
  have hN0 : 0 < norm2 g := Real.sqrt_pos.2 hgg
  have hmem : ∀ s : ℝ, s ^ 2 = r ^ 2 → m + (s / norm2 g) • g ∈ ball m r := by
    intro s hs
    show normSq _ ≤ _
    rw [add_sub_cancel_left]
    unfold normSq
    rw [smul_dotProduct, dotProduct_smul, smul_eq_mul, smul_eq_mul, ← hN, ← hs]
    apply le_of_eq
    field_simp
  have hval : ∀ s : ℝ, g ⬝ᵥ (m + (s / norm2 g) • g - c) = g ⬝ᵥ (m - c) + s * norm2 g := by
    intro s
    have : m + (s / norm2 g) • g - c = (m - c) + (s / norm2 g) • g := by abel
    rw [this, dotProduct_add, dotProduct_smul, smul_eq_mul, ← hN]
    congr 1
    field_simp
  have a := h0 _ (hmem r rfl)
  have b := h1 _ (hmem (-r) (by ring))
  rw [hval] at a b
  linarith

theorem slabE_mono {l H H' w : ℝ} (hl : 0 < l) (h : H ≤ H') : slabE n l H w ≤ slabE n l H' w := by
  unfold slabE
  gcongr

theorem slabF_mono {l H H' P P' w : ℝ} (hw : 0 < w) (h : H ≤ H') (hP : P ≤ P') : slabF n l H P w ≤ slabF n l H' P' w := by
  unfold slabF
  gcongr

theorem slabError_mono {l H H' P P' w : ℝ} (h0 : 0 ≤ u) (hl : 0 < l) (hH : 0 ≤ H) (hP : 0 ≤ P) (hw : 0 < w) (h : H ≤ H') (hPP : P ≤ P') :
    slabUnit u n l H w * slabL n l H P w ≤ slabUnit u n l H' w * slabL n l H' P' w := by
  have a1 := quadErr_mono_B (n := n) h0 hl h
  have a2 := slabE_mono (n := n) (w := w) hl h
  have a3 := slabF_mono (n := n) (l := l) hw h hPP
  have a4 : 0 ≤ slabF n l H P w := by unfold slabF; positivity
  have a5 : 0 ≤ slabE n l H w := by unfold slabE; positivity
  have a6 : 0 ≤ quadErr u n H l := by
    have h1 := one_le_pow₀ (n := 2 * n + 2) (by linarith : 1 ≤ 1 + u)
    unfold quadErr
    exact mul_nonneg (by linarith) (by positivity)
  have a7 : 0 ≤ quadErr u n H' l + 32 * (u * (n : ℝ) ^ 2) / w ^ 2 := add_nonneg (a6.trans a1) (by positivity)
  unfold slabUnit slabL
  gcongr

namespace ParPlan
variable {p : ParPlan} {D : ℝ} {m : Fin n → ℝ} {i : Nat} {e : Ell (Fl R)}

/-- enlargement after `i` cuts -/
noncomputable def grown (n : Nat) (p : ParPlan) (i : Nat) : ℝ := p.ε * ((3 / p.width n ^ 4 + 1) ^ i - 1)

/-- what the numbers of a run satisfy when the ball is inside the first ellipsoid -/
structure Basics (n : Nat) (p : ParPlan) : Prop where
  dim : 2 ≤ n
  H0 : 0 < p.H
  r0 : 0 < p.r
  P0 : 0 ≤ p.P
  rH : p.r ^ 2 ≤ p.H

theorem Basics.of_ball {M : Matrix (Fin n) (Fin n) ℝ} {κ : ℝ} {c m : Fin n → ℝ} (hn : 2 ≤ n) (hM : M.PosDef) (hκ : 0 < κ)
    (hB : ∀ i j, κ * |M i j| ≤ p.H) (hr : 0 < p.r) (hP : norm2 m ≤ p.P) (hb : ball m p.r ⊆ ellipsoid M κ c) : Basics n p := by
  have i0 : Fin n := ⟨0, by omega⟩
  have h1 := ball_tsq hM hκ.le hr.le hb (Pi.single i0 1)
  have h2 : normSq (Pi.single i0 1 : Fin n → ℝ) = 1 := by simp [normSq]
  have h3 : (Pi.single i0 1 : Fin n → ℝ) ⬝ᵥ (M *ᵥ Pi.single i0 1) = M i0 i0 := by simp
  rw [h2, h3, mul_one] at h1
  have h5 : p.r ^ 2 ≤ p.H := h1.trans ((mul_le_mul_of_nonneg_left (le_abs_self _) hκ.le).trans (hB i0 i0))
  exact ⟨hn, lt_of_lt_of_le (by positivity) h5, hr, (norm2_nonneg m).trans hP, h5⟩

/-- invariant of the loop after `i` cuts -/
structure Inv (n : Nat) (p : ParPlan) (D : ℝ) (m : Fin n → ℝ) (i : Nat) (e : Ell (Fl R)) : Prop where
  shaped : e.Shaped n
  helper : e.helper = EllCalc.new n
  kappa : 0 < e.kappa.val
  pos : (e.mq.flMat n).PosDef
  entries : ∀ j k, e.kappa.val * |e.mq.flMat n j k| ≤ 5 ^ i * p.H
  ball : ball m p.r ⊆ ellipsoid (e.mq.flMat n) ((1 + grown n p i) * e.kappa.val) (e.xc.flVec n)
  vol : (e.kappa.val • e.mq.flMat n).det ≤ (1 + p.ε) ^ i * (Real.exp (-(i / ((n : ℝ) + 1))) * D)

variable (hb : Basics n p)
include hb

theorem Basics.top_pos : 0 < p.top := mul_pos (by positivity) hb.H0

theorem Basics.reach_pos : 0 < p.reach n := by
  have : (0 : ℝ) < n := by exact_mod_cast (by have := hb.dim; omega : 0 < n)
  have := hb.top_pos
  exact Real.sqrt_pos.2 (by positivity)

theorem Basics.reach_sq : p.reach n ^ 2 = n * p.top := by
  have := hb.top_pos
  exact Real.sq_sqrt (by positivity)

theorem Basics.width_pos : 0 < p.width n := by
  have := hb.reach_pos
  have := hb.r0
  unfold ParPlan.width
  positivity

theorem Basics.width_le : p.width n ≤ 1 / 2 := by
  have h1 := hb.reach_pos
  have h2 := hb.reach_sq
  have h3 : (2 : ℝ) ≤ n := by exact_mod_cast hb.dim
  have h4 : p.H ≤ p.top := by
    unfold ParPlan.top
    have : (1 : ℝ) ≤ 5 ^ p.N := one_le_pow₀ (by norm_num)
    nlinarith [hb.H0]
  have h5 : p.r ≤ p.reach n := by
    refine (sq_le_sq₀ hb.r0.le h1.le).1 ?_
    rw [h2]
    have := hb.rH
    nlinarith [hb.top_pos]
  unfold ParPlan.width
  rw [div_le_iff₀ (by positivity)]
  linarith

theorem Basics.amp_ge : 3 ≤ 3 / p.width n ^ 4 := by
  have h1 := hb.width_pos
  have h2 := hb.width_le
  rw [le_div_iff₀ (by positivity)]
  have : p.width n ^ 4 ≤ 1 := pow_le_one₀ h1.le (by linarith)
  linarith

variable (hp : p.EnoughPrecision n u D)
include hp

theorem Basics.grown_bounds (hi : i ≤ p.N) : 0 ≤ grown n p i ∧ grown n p i ≤ p.ε * p.amp n ∧ grown n p i ≤ p.width n := by
  have h1 := hb.amp_ge
  have h2 : (1 : ℝ) ≤ (3 / p.width n ^ 4 + 1) ^ i := one_le_pow₀ (by linarith)
  have h3 : (3 / p.width n ^ 4 + 1) ^ i ≤ p.amp n := pow_le_pow_right₀ (by linarith) hi
  have h4 : grown n p i ≤ p.ε * p.amp n := mul_le_mul_of_nonneg_left (by linarith) hp.nonneg
  exact ⟨mul_nonneg hp.nonneg (by linarith), h4, h4.trans hp.inflated⟩

theorem Basics.grown_succ (i : Nat) : 3 / p.width n ^ 4 * grown n p i + p.ε ≤ grown n p (i + 1) := by
  have h1 := hb.amp_ge
  have h2 : (1 : ℝ) ≤ (3 / p.width n ^ 4 + 1) ^ i := one_le_pow₀ (by linarith)
  unfold grown
  rw [pow_succ _ i]
  set A := 3 / p.width n ^ 4
  set z := (A + 1) ^ i
  have : 0 ≤ p.ε * (z + A - 2) := mul_nonneg hp.nonneg (by linarith)
  linarith

theorem Basics.eps_le : p.ε ≤ 1 := by
  have h1 := hb.amp_ge
  have h2 : (1 : ℝ) ≤ p.amp n := one_le_pow₀ (by linarith)
  have h3 := hp.inflated
  have h4 := hb.width_le
  have := mul_le_mul_of_nonneg_left h2 hp.nonneg
  linarith

/-- what the invariant says about the state -/
theorem Inv.facts (hm : norm2 m ≤ p.P) (h : Inv n p D m i e) (hi : i ≤ p.N) :
    e.Held n (p.r ^ 2 / 2) (5 ^ i * p.H) (p.far n) ∧ ∀ j k, e.kappa.val * |e.mq.flMat n j k| ≤ p.top := by
  obtain ⟨ha0, -, haw⟩ := hb.grown_bounds hp hi
  have hw := hb.width_le
  have hκ := h.kappa
  have htop : 5 ^ i * p.H ≤ p.top := mul_le_mul_of_nonneg_right (pow_le_pow_right₀ (by norm_num) hi) hb.H0.le
  have hent : ∀ j k, e.kappa.val * |e.mq.flMat n j k| ≤ p.top := fun j k => (h.entries j k).trans htop
  have hr := hb.r0
  have ht := hb.top_pos
  refine ⟨⟨h.shaped, hb.dim, h.helper, hκ, ?_, by positivity, fun v => ?_, h.entries, ?_⟩, hent⟩
  · have := h.pos.1
    rwa [IsHermitian, conjTranspose_eq_transpose_of_trivial] at this
  · have h1 := ball_tsq h.pos (mul_nonneg (by linarith) hκ.le) hr.le h.ball v
    have h2 : 0 ≤ e.kappa.val * (v ⬝ᵥ (e.mq.flMat n *ᵥ v)) := mul_nonneg hκ.le (quad_nonneg h.pos v)
    have h4 : normSq v = v ⬝ᵥ v := rfl
    rw [h4] at h1
    nlinarith
  · have hpin : m ∈ Ellalgo.ball m p.r := by
      show normSq (m - m) ≤ p.r ^ 2
      simp only [sub_self, normSq, dotProduct_zero]
      positivity
    have hρ := hb.reach_pos
    have h1 := ellipsoid_far h.pos (by positivity : 0 ≤ p.top / e.kappa.val) (fun j k => by
      rw [le_div_iff₀ hκ, mul_comm]; exact hent j k) (h.ball hpin) (ρ := 2 * p.reach n) (by positivity) (by
      rw [mul_pow, hb.reach_sq]
      have : (1 + grown n p i) * e.kappa.val * (n * (p.top / e.kappa.val)) = (1 + grown n p i) * (n * p.top) := by field_simp
      rw [this]
      exact mul_le_mul_of_nonneg_right (by linarith) (by positivity))
    have h2 : norm2 (e.xc.flVec n) ≤ norm2 m + norm2 (m - e.xc.flVec n) := by
      have := norm2_sub_le (e.xc.flVec n) m
      rw [← norm2_neg (m - _), neg_sub]
      linarith
    unfold ParPlan.far
    linarith

/-- one pass of the loop -/
theorem step (hm : norm2 m ≤ p.P) (h : Inv n p D m i e) (hi : i < p.N) (g : Arr (Fl R)) (hg : g.IsVecShape n) (hne : g.flVec n ≠ 0)
    (kd : UpdateKind) (β0 : Fl R) (β1 : Option (Fl R)) (b0 : ℝ)
    (hkd : kd = .central ∧ b0 = 0 ∨ (kd = .bias ∨ kd = .q) ∧ b0 = β0.val) (hβ : 0 ≤ b0)
    (hcut : Ellalgo.ball m p.r ⊆ slab (g.flVec n) (e.xc.flVec n) b0 (β1.map Fl.val)) :
    ∃ e', Ell.space.update kd e (g, ParallelCut.mk β0 β1) = .ok (.success, e') ∧ Inv n p D m (i + 1) e' ∧
      p.r ^ 2 * normSq (g.flVec n) / 4 ≤ e'.tsq.val := by
  have h0 := R.unit_nonneg
  obtain ⟨hheld, hent⟩ := Inv.facts hb hp hm h hi.le
  obtain ⟨ha0, -, haw⟩ := hb.grown_bounds hp hi.le
  have hw0 := hb.width_pos
  have hw1 := hb.width_le
  have hκ := h.kappa
  have hρ := hb.reach_pos
  have hr := hb.r0
  have htop := hb.top_pos
  have hω := quad_pos h.pos hne
  obtain ⟨τ, hτd⟩ : ∃ τ, τ = √(e.kappa.val * (g.flVec n ⬝ᵥ (e.mq.flMat n *ᵥ g.flVec n))) := ⟨_, rfl⟩
  have hτ0 : 0 ≤ τ := hτd ▸ Real.sqrt_nonneg _
  have hτ : τ ≤ p.reach n * norm2 (g.flVec n) := by
    rw [hτd, Real.sqrt_le_iff]
    refine ⟨mul_nonneg hρ.le (norm2_nonneg _), ?_⟩
    rw [mul_pow, hb.reach_sq, pow_two (norm2 _), norm2_sq]
    have h1 := mul_le_mul_of_nonneg_left (quad_le_entries (by positivity : 0 ≤ p.top / e.kappa.val) (fun j k => by
      rw [le_div_iff₀ hκ, mul_comm]; exact hent j k) (g.flVec n)) hκ.le
    refine h1.trans (le_of_eq ?_)
    field_simp
  have hwτ : 2 * p.width n * τ ≤ p.r * norm2 (g.flVec n) := by
    have h1 := mul_le_mul_of_nonneg_left hτ (by positivity : 0 ≤ 2 * p.width n)
    refine h1.trans (le_of_eq ?_)
    unfold ParPlan.width
    field_simp
  have hdeep : b0 ≤ (1 - p.width n) * τ := by
    have ht1 : √(1 + grown n p i) ≤ 1 + p.width n := by
      rw [Real.sqrt_le_iff]
      constructor
      · linarith
      · nlinarith
    have hd := ball_depth (β := b0) h.pos hr.le hne hκ.le (Real.sqrt_nonneg (1 + grown n p i)) (by
      rw [Real.sq_sqrt (by linarith)]; exact h.ball) (fun x hx => (hcut hx).1)
    rw [← hτd] at hd
    have := mul_le_mul_of_nonneg_right ht1 hτ0
    have h5 : 0 ≤ p.width n * τ := by positivity
    linarith
  have hwide : ∀ b ∈ β1, b0 + 2 * p.width n * τ ≤ b.val := by
    intro b hbm
    have := slab_room (r := p.r) (b := b.val) hne (fun x hx => (hcut hx).1) (fun x hx => (hcut hx).2 b.val (by
      rw [show β1 = some b from hbm]; rfl))
    have h5 : 0 ≤ p.width n * τ := by positivity
    linarith
  rw [hτd] at hdeep hwide
  have hH0 := hb.H0
  have hsm : slabUnit u n (p.r ^ 2 / 2) (5 ^ i * p.H) (p.width n) * slabL n (p.r ^ 2 / 2) (5 ^ i * p.H) (p.far n) (p.width n) ≤
      p.ε / 3 * (p.width n / 2) :=
    (slabError_mono h0 (by positivity) (by positivity) (by have := hb.P0; unfold ParPlan.far; positivity) hw0
      (mul_le_mul_of_nonneg_right (pow_le_pow_right₀ (by norm_num) hi.le) hH0.le) le_rfl).trans hp.error
  obtain ⟨e', h1, h2⟩ := C110_parallel_step hp.unit e hheld g hg hne kd β0 β1 b0 hkd hβ hw0 (by linarith) hdeep hwide hp.nonneg (hb.eps_le hp) hsm
  refine ⟨e', h1, ⟨h2.shaped, h2.helper, h2.kappa, h2.pos, fun j k => ?_, fun x hx => ?_, ?_⟩, ?_⟩
  · refine (h2.entries j k).trans (le_of_eq ?_)
    rw [pow_succ]; ring
  · have a := h2.keep _ ha0 (by linarith) x (hcut hx) (h.ball hx)
    have b := mul_le_mul_of_nonneg_right (hb.grown_succ hp i) h2.kappa.le
    refine le_trans (show (x - _) ⬝ᵥ (_ *ᵥ (x - _)) ≤ _ from a) ?_
    linarith
  · refine h2.vol.trans ?_
    have a := mul_le_mul_of_nonneg_left h.vol (mul_nonneg (by linarith [hp.nonneg] : 0 ≤ 1 + p.ε) (Real.exp_pos (-(1 / ((n : ℝ) + 1)))).le)
    have b : Real.exp (-((i + 1 : ℕ) / ((n : ℝ) + 1))) = Real.exp (-(1 / ((n : ℝ) + 1))) * Real.exp (-(i / ((n : ℝ) + 1))) := by
      rw [← Real.exp_add]
      congr 1
      push_cast
      ring
    rw [b, pow_succ]
    linarith
  · refine le_trans ?_ h2.tsq
    have := ball_tsq h.pos (mul_nonneg (by linarith) hκ.le) hr.le h.ball (g.flVec n)
    have h5 : 0 ≤ e.kappa.val * (g.flVec n ⬝ᵥ (e.mq.flMat n *ᵥ g.flVec n)) := (mul_pos hκ hω).le
    nlinarith

theorem not_last (h : Inv n p D m p.N e) : False := by
  obtain ⟨ha0, haw, -⟩ := hb.grown_bounds hp le_rfl
  have h1 := ball_det h.pos (mul_pos (by linarith) h.kappa) hb.r0.le h.ball
  have hdet0 : 0 < (e.kappa.val • e.mq.flMat n).det := (h.pos.smul h.kappa).det_pos
  rw [mul_smul, det_smul, Fintype.card_fin] at h1
  have h2 := mul_le_mul (pow_le_pow_left₀ (by linarith) (by linarith : 1 + grown n p p.N ≤ 1 + p.ε * p.amp n) n) h.vol hdet0.le
    (pow_nonneg (by linarith) n)
  exact absurd (h1.trans h2) (not_le.2 hp.volume)

variable {Ω : Type}

theorem feas_loop (orc : OracleFeas Ω (Arr (Fl R)) (ParallelCut (Fl R)) (Fl R)) (I : Ω → Prop) (K : Set (Fin n → ℝ)) (G : ℝ)
    (hm : norm2 m ≤ p.P) (hor : FlHonestPar n orc I K G (p.far n)) (hK : Ellalgo.ball m p.r ⊆ K) (tol : Fl R)
    (htol : tol.val ≤ p.r ^ 2 * G ^ 2 / 4) (j : Nat) :
    ∀ (i k : Nat) (w : Ω) (e : Ell (Fl R)), i + j = p.N → j ≤ k → I w → Inv n p D m i e →
      ∃ x l w1 w' e', feasLoop orc Ell.space tol k i w e = .ok ((some x, l), w', e') ∧
        orc.assess w1 x = .ok (none, w') ∧ I w1 ∧ x.IsVecShape n ∧ norm2 (x.flVec n) ≤ p.far n ∧ l < p.N := by
  induction j with
  | zero =>
    intro i k w e hij _ _ h
    obtain rfl : i = p.N := by omega
    exact (not_last hb hp h).elim
  | succ j ih =>
    intro i k w e hij hk hI h
    obtain ⟨k, rfl⟩ : ∃ k', k = k' + 1 := ⟨k - 1, by omega⟩
    have hi : i < p.N := by omega
    have hX := (Inv.facts hb hp hm h hi.le).1.centre
    obtain ⟨ans, w', hq, hI', hcut⟩ := hor w e.xc hI h.shaped.2 hX
    have hq' : orc.assess w (Ell.space (T := ParallelCut (Fl R)).xc e) = .ok (ans, w') := hq
    unfold feasLoop
    rw [hq']
    cases ans with
    | none => exact ⟨e.xc, i, w, w', e, rfl, hq, hI, h.shaped.2, hX, hi⟩
    | some c =>
      obtain ⟨g, ⟨β0, β1⟩⟩ := c
      obtain ⟨hs, hg, hG, hβ, hsat⟩ := hcut g _ rfl
      obtain ⟨e', hu, hv, htsq⟩ := step hb hp hm h hi g hs hg .bias β0 β1 _ (.inr ⟨.inl rfl, rfl⟩) hβ (hK.trans hsat)
      have hu' : Ell.space.updateBias e (g, ParallelCut.mk β0 β1) = .ok (.success, e') := hu
      have hlt : Scalar.lt (Ell.space (T := ParallelCut (Fl R)).tsq e') tol = false := by
        have : tol.val ≤ e'.tsq.val := by
          have := mul_le_mul_of_nonneg_left hG (sq_nonneg p.r)
          refine htol.trans (le_trans ?_ htsq)
          exact div_le_div_of_nonneg_right this (by norm_num)
        exact decide_eq_false (not_lt.2 this)
      obtain ⟨x, l, w1, w2, e2, h1, h2⟩ := ih (i + 1) k w' e' (by omega) (by omega) hI' hv
      refine ⟨x, l, w1, w2, e2, ?_, h2⟩
      simp only [Res.ok_bind, hu', hlt]
      exact h1

omit hb hp in
/-- some precision is enough -/
theorem exists_precision (q : ParPlan) (hn : 2 ≤ n) (hH : 0 < q.H) (hr : 0 < q.r) (hD : 0 < D)
    (hN : ((n : ℝ) + 1) * Real.log (D / (q.r ^ 2) ^ n) < q.N) :
    ∃ ε u0, 0 < u0 ∧ ∀ u, 0 ≤ u → u ≤ u0 → ({ q with ε := ε } : ParPlan).EnoughPrecision n u D := by
  have hn0 : (0 : ℝ) < n := by exact_mod_cast (by omega : 0 < n)
  have ht : 0 < q.top := mul_pos (by positivity) hH
  have hρ : 0 < q.reach n := Real.sqrt_pos.2 (by positivity)
  have hw : 0 < q.width n := by unfold ParPlan.width; positivity
  have hrn : 0 < (q.r ^ 2) ^ n := by positivity
  have hlim : Real.exp (-(q.N / ((n : ℝ) + 1))) * D < (q.r ^ 2) ^ n := by
    have h1 : Real.log (D / (q.r ^ 2) ^ n) < q.N / ((n : ℝ) + 1) := by
      rw [lt_div_iff₀ (by positivity)]; linarith
    have h2 := (Real.log_lt_iff_lt_exp (by positivity)).1 h1
    rw [div_lt_iff₀ hrn] at h2
    rw [Real.exp_neg, inv_mul_lt_iff₀ (Real.exp_pos _)]
    exact h2
  -- the tolerated error
  have hc1 : Continuous fun ε : ℝ => (1 + ε * q.amp n) ^ n * ((1 + ε) ^ q.N * (Real.exp (-(q.N / ((n : ℝ) + 1))) * D)) := by fun_prop
  have hc2 : Continuous fun ε : ℝ => ε * q.amp n := by fun_prop
  have h1 := (hc1.tendsto 0).eventually (gt_mem_nhds (by simpa using hlim))
  have h2 := (hc2.tendsto 0).eventually (gt_mem_nhds (show (0 : ℝ) * q.amp n < q.width n by simpa using hw))
  obtain ⟨δ, hδ, hball⟩ := Metric.eventually_nhds_iff.1 (h1.and h2)
  obtain ⟨h3, h4⟩ := hball (show dist (δ / 2) 0 < δ by rw [Real.dist_eq, sub_zero, abs_of_pos (by linarith)]; linarith)
  -- the unit
  have hc3 : Continuous fun u : ℝ => slabUnit u n (q.r ^ 2 / 2) q.top (q.width n) * slabL n (q.r ^ 2 / 2) q.top (q.far n) (q.width n) := by
    unfold slabUnit quadErr
    fun_prop
  have h5 := (hc3.tendsto 0).eventually (gt_mem_nhds (show slabUnit 0 n (q.r ^ 2 / 2) q.top (q.width n) *
      slabL n (q.r ^ 2 / 2) q.top (q.far n) (q.width n) < δ / 2 / 3 * (q.width n / 2) by
    have : slabUnit 0 n (q.r ^ 2 / 2) q.top (q.width n) = 0 := by simp [slabUnit, quadErr]
    rw [this, zero_mul]
    positivity))
  obtain ⟨η, hη, hball2⟩ := Metric.eventually_nhds_iff.1 h5
  refine ⟨δ / 2, min (η / 2) (1 / 64), lt_min (by linarith) (by norm_num), fun u hu0 hu => ?_⟩
  have hu1 := hu.trans (min_le_left _ _)
  exact ⟨hu.trans (min_le_right _ _), by positivity,
    (hball2 (show dist u 0 < η by rw [Real.dist_eq, sub_zero, abs_of_nonneg hu0]; linarith)).le, h4.le, h3⟩

end ParPlan

/-- **C110**.  The feasibility loop with parallel cuts in rounded arithmetic.  The oracle is honest for a set `K` with a ball of radius `r` inside
the first ellipsoid; its gradients are not too small for the tolerance.  If `N` cuts suffice in exact arithmetic, that is,
`N > (n+1) ln(D / r^(2n))`, then they suffice in rounded arithmetic of high enough precision: there is a bound `u0` on the unit roundoff, which
depends on the dimension, on `N` and on bounds for the radius, the first ellipsoid and the norm of the midpoint of the ball, but neither on the
oracle nor on the run, and below it `cutting_plane_feas` returns a point that the oracle accepted, after fewer than `N` cuts. -/
theorem C110_feas_converges (hn : 2 ≤ n) (N : Nat) {r P H D : ℝ} (hr : 0 < r) (hH : 0 < H) (hD : 0 < D)
    (hN : ((n : ℝ) + 1) * Real.log (D / (r ^ 2) ^ n) < N) :
    ∃ u0, 0 < u0 ∧ ∀ (u : ℝ) (R : Rounding u), u ≤ u0 → ∀ (Ω : Type) (orc : OracleFeas Ω (Arr (Fl R)) (ParallelCut (Fl R)) (Fl R))
      (I : Ω → Prop) (K : Set (Fin n → ℝ)) (G : ℝ) (m : Fin n → ℝ) (w : Ω) (e : Ell (Fl R)) (opts : Options (Fl R)),
      e.Shaped n → e.helper = EllCalc.new n → 0 < e.kappa.val → (e.mq.flMat n).PosDef →
      (∀ i j, e.kappa.val * |e.mq.flMat n i j| ≤ H) → (e.kappa.val • e.mq.flMat n).det ≤ D → norm2 m ≤ P →
      ball m r ⊆ K → ball m r ⊆ ellipsoid (e.mq.flMat n) e.kappa.val (e.xc.flVec n) → I w →
      FlHonestPar n orc I K G (P + 2 * √(n * (5 ^ N * H))) → opts.tolerance.val ≤ r ^ 2 * G ^ 2 / 4 → N ≤ opts.maxIters →
      ∃ x k w1 w' e', cuttingPlaneFeas orc Ell.space w e opts = .ok ((some x, k), w', e') ∧
        orc.assess w1 x = .ok (none, w') ∧ I w1 ∧ x.IsVecShape n ∧ norm2 (x.flVec n) ≤ P + 2 * √(n * (5 ^ N * H)) ∧ k < N := by
  obtain ⟨ε, u0, hu0, hprec⟩ := ParPlan.exists_precision ⟨N, H, r, P, 0⟩ hn hH hr hD hN
  refine ⟨u0, hu0, fun u R hu Ω orc I K G m w e opts he hh hκ hM hB hdet hm hK hE hw hor htol hit => ?_⟩
  exact ParPlan.feas_loop (p := ⟨N, H, r, P, ε⟩) (D := D) (ParPlan.Basics.of_ball hn hM hκ hB hr hm hE) (hprec u R.unit_nonneg hu) orc I K G hm hor hK
    opts.tolerance htol N 0 opts.maxIters w e (by simp) hit hw
    ⟨he, hh, hκ, hM, by simpa using hB, by simpa [ParPlan.grown] using hE, by simpa using hdet⟩

end Ellalgo
