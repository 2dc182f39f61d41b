import Verif.Spec.Rounded
import Verif.Spec.Runs
import Verif.Lib.Rounded
import Verif.Lib.Bin53
import Verif.Lib.EllMath
import Verif.Props.Bsearch
import Verif.Props.EllGeneric

/-! # C71: what survives rounding -/

namespace Ellalgo
open Matrix
variable {u : ℝ} {R : Rounding u} {n : Nat} {Ω : Type}

/-- **C71** (dot product) The computed dot product of two vectors of length `n` differs from the exact one
by at most `((1+u)^(n+1) - 1) Σ |xᵢ||yᵢ|`. -/
theorem C71_dot_error (x y : Arr (Fl R)) (hx : x.IsVecShape n) (hy : y.IsVecShape n) :
    ∃ r, x.dot y = .ok r ∧ |r.val - x.flVec n ⬝ᵥ y.flVec n| ≤
      ((1 + u) ^ (n + 1) - 1) * ∑ i, |x.flVec n i| * |y.flVec n i| := by
  refine ⟨_, dot_spec hx.isVec hy.isVec, ?_⟩
  have h := sumTo_fl_err n x.vec y.vec
  rw [Finset.sum_range, Finset.sum_range] at h
  exact h

theorem om_fl_err (n : Nat) (m : Nat → Nat → Fl R) (g : Nat → Fl R) :
    |(Ell.om n m g).val - ∑ i : Fin n, (g i).val * ∑ j : Fin n, (m i j).val * (g j).val| ≤
      ((1 + u) ^ (2 * n + 2) - 1) * ∑ i : Fin n, ∑ j : Fin n, |(g i).val| * |(m i j).val| * |(g j).val| := by
  have hu := R.unit_nonneg
  set C : ℝ := (1 + u) ^ (n + 1) with hC
  have hC1 : 1 ≤ C := one_le_pow₀ (by linarith)
  have hCC : (1 + u) ^ (2 * n + 2) = C * C := by rw [hC, ← pow_add]; congr 1; ring
  have h1 := sumTo_fl_err n g (Ell.gt n m g)
  rw [Finset.sum_range, Finset.sum_range] at h1
  set a : Fin n → ℝ := fun i => ∑ j : Fin n, |(m i j).val| * |(g j).val| with ha
  set t : Fin n → ℝ := fun i => ∑ j : Fin n, (m i j).val * (g j).val with ht
  have h2 : ∀ i : Fin n, |(Ell.gt n m g i).val - t i| ≤ (C - 1) * a i := by
    intro i
    have := sumTo_fl_err n (m i) g
    rw [Finset.sum_range, Finset.sum_range] at this
    exact this
  have hta : ∀ i, |t i| ≤ a i := by
    intro i
    refine (Finset.abs_sum_le_sum_abs _ _).trans (le_of_eq ?_)
    exact Finset.sum_congr rfl fun j _ => abs_mul _ _
  have h3 : ∀ i : Fin n, |(Ell.gt n m g i).val| ≤ C * a i := by
    intro i
    have h := abs_add_le ((Ell.gt n m g i).val - t i) (t i)
    rw [sub_add_cancel] at h
    have := h2 i; have := hta i
    linarith
  have hA : ∑ i : Fin n, ∑ j : Fin n, |(g i).val| * |(m i j).val| * |(g j).val| =
      ∑ i : Fin n, |(g i).val| * a i := by
    refine Finset.sum_congr rfl fun i _ => ?_
    rw [ha, Finset.mul_sum]
    exact Finset.sum_congr rfl fun j _ => by ring
  rw [hA, hCC]
  set A := ∑ i : Fin n, |(g i).val| * a i with hAd
  have h4 : ∑ i : Fin n, |(g i).val| * |(Ell.gt n m g i).val| ≤ C * A := by
    rw [hAd, Finset.mul_sum]
    refine Finset.sum_le_sum fun i _ => ?_
    have := mul_le_mul_of_nonneg_left (h3 i) (abs_nonneg (g i).val)
    linarith
  have h5 : |∑ i : Fin n, (g i).val * (Ell.gt n m g i).val - ∑ i : Fin n, (g i).val * t i| ≤ (C - 1) * A := by
    rw [← Finset.sum_sub_distrib, hAd, Finset.mul_sum]
    refine (Finset.abs_sum_le_sum_abs _ _).trans (Finset.sum_le_sum fun i _ => ?_)
    rw [← mul_sub, abs_mul]
    have := mul_le_mul_of_nonneg_left (h2 i) (abs_nonneg (g i).val)
    linarith
  have h6 := mul_le_mul_of_nonneg_left h4 (by linarith : (0 : ℝ) ≤ C - 1)
  have h7 := abs_add_le ((Ell.om n m g).val - ∑ i : Fin n, (g i).val * (Ell.gt n m g i).val)
    (∑ i : Fin n, (g i).val * (Ell.gt n m g i).val - ∑ i : Fin n, (g i).val * t i)
  rw [sub_add_sub_cancel] at h7
  have h8 : |(Ell.om n m g).val - ∑ i : Fin n, (g i).val * (Ell.gt n m g i).val| ≤
      (C - 1) * ∑ i : Fin n, |(g i).val| * |(Ell.gt n m g i).val| := h1
  nlinarith

theorem tsq_fl_err {e : Ell (Fl R)} {g : Arr (Fl R)} (hκ : 0 ≤ e.kappa.val) :
    |(e.kappa * Ell.om n e.mq.mat g.vec).val -
        e.kappa.val * (g.flVec n ⬝ᵥ (e.mq.flMat n *ᵥ g.flVec n))| ≤
      ((1 + u) ^ (2 * n + 3) - 1) * (e.kappa.val * absQuad (e.mq.flMat n) (g.flVec n)) := by
  have hu := R.unit_nonneg
  have h1 := om_fl_err n e.mq.mat g.vec
  have hω : g.flVec n ⬝ᵥ (e.mq.flMat n *ᵥ g.flVec n) =
      ∑ i : Fin n, (g.vec i).val * ∑ j : Fin n, (e.mq.mat i j).val * (g.vec j).val := rfl
  have hAq : absQuad (e.mq.flMat n) (g.flVec n) =
      ∑ i : Fin n, ∑ j : Fin n, |(g.vec i).val| * |(e.mq.mat i j).val| * |(g.vec j).val| := rfl
  rw [← hω, ← hAq] at h1
  set ω := g.flVec n ⬝ᵥ (e.mq.flMat n *ᵥ g.flVec n)
  set A := absQuad (e.mq.flMat n) (g.flVec n)
  set W := (Ell.om n e.mq.mat g.vec).val with hW
  set κ := e.kappa.val
  have hωA : |ω| ≤ A := by
    rw [hω, hAq]
    refine (Finset.abs_sum_le_sum_abs _ _).trans (Finset.sum_le_sum fun i _ => ?_)
    rw [Finset.mul_sum]
    refine (Finset.abs_sum_le_sum_abs _ _).trans (le_of_eq ?_)
    exact Finset.sum_congr rfl fun j _ => by rw [abs_mul, abs_mul]; ring
  set C : ℝ := (1 + u) ^ (2 * n + 2) with hC
  have hC1 : 1 ≤ C := one_le_pow₀ (by linarith)
  have hA0 : 0 ≤ A := (abs_nonneg _).trans hωA
  have hCC : (1 + u) ^ (2 * n + 3) = C * (1 + u) := pow_succ _ _
  have e1 := R.err (κ * W)
  have hWb : |W| ≤ C * A := by
    have h := abs_add_le (W - ω) ω
    rw [sub_add_cancel] at h
    linarith
  have e2 : |κ * W| ≤ κ * (C * A) := by
    rw [abs_mul, abs_of_nonneg hκ]; exact mul_le_mul_of_nonneg_left hWb hκ
  have e3 : |κ * W - κ * ω| ≤ κ * ((C - 1) * A) := by
    rw [← mul_sub, abs_mul, abs_of_nonneg hκ]; exact mul_le_mul_of_nonneg_left h1 hκ
  have e4 := mul_le_mul_of_nonneg_left e2 hu
  have h := abs_add_le (R.rnd (κ * W) - κ * W) (κ * W - κ * ω)
  rw [sub_add_sub_cancel] at h
  show |R.rnd (κ * W) - κ * ω| ≤ _
  rw [hCC]
  nlinarith

/-- **C71** (tsq) Whatever the cut and the update method, the `tsq()` an update leaves behind differs from the
exact `κ gᵀMg` of the stored ellipsoid by at most `((1+u)^(2n+3) - 1) κ |g|ᵀ|M||g|`. -/
theorem C71_tsq_error {T : Type} [CutType T (Fl R)] (k : UpdateKind) (e e' : Ell (Fl R)) (he : e.Shaped n)
    (hn : 0 < n) (hκ : 0 ≤ e.kappa.val) (g : Arr (Fl R)) (hg : g.IsVecShape n) (c : T) (st : CutStatus)
    (hrun : Ell.space.update k e (g, c) = .ok (st, e')) :
    |(Ell.space (T := T).tsq e').val - e.kappa.val * (g.flVec n ⬝ᵥ (e.mq.flMat n *ᵥ g.flVec n))| ≤
      ((1 + u) ^ (2 * n + 3) - 1) * (e.kappa.val * absQuad (e.mq.flMat n) (g.flVec n)) := by
  have hupd : Ell.space.update k e (g, c) = e.updateCore g (CutType.call k c e.helper) := by
    cases k <;> rfl
  rw [hupd] at hrun
  have key : e'.tsq = e.kappa * Ell.om n e.mq.mat g.vec := by
    rcases Ell.updateCore_spec he.1.isMat he.2.isVec hg.isVec hn (CutType.call k c e.helper)
      (st := (CutType.call k c e.helper (e.kappa * Ell.om n e.mq.mat g.vec)).1)
      (ρ := (CutType.call k c e.helper (e.kappa * Ell.om n e.mq.mat g.vec)).2.1)
      (σ := (CutType.call k c e.helper (e.kappa * Ell.om n e.mq.mat g.vec)).2.2.1)
      (δ := (CutType.call k c e.helper (e.kappa * Ell.om n e.mq.mat g.vec)).2.2.2) rfl with
      ⟨_, h⟩ | ⟨_, e1, h, _, _, _, _, _, ht⟩
    · rw [h] at hrun
      simp only [Res.ok.injEq, Prod.mk.injEq] at hrun
      rw [← hrun.2]
    · rw [h] at hrun
      simp only [Res.ok.injEq, Prod.mk.injEq] at hrun
      rw [← hrun.2, ht]
  show |e'.tsq.val - _| ≤ _
  rw [key]
  exact tsq_fl_err hκ

/-- **C71** (infeasibility verdict) If a rounded `update_bias_cut` with a single cut `(g, β)` says `NoSoln`, then every
point `x` of the stored ellipsoid violates the cut up to the rounding margin: `(gᵀ(x-c))² < (1+u)β² + E` with
`E` the `tsq` error.  So no point of the ellipsoid satisfies a cut deeper than `β` by that margin. -/
theorem C71_noSoln_margin (e e' : Ell (Fl R)) (he : e.Shaped n) (hn : 0 < n) (hκ : 0 ≤ e.kappa.val)
    (hM : (e.mq.flMat n).PosDef) (g : Arr (Fl R)) (hg : g.IsVecShape n) (β : Fl R)
    (hrun : Ell.space.update .bias e (g, SingleCut.mk β) = .ok (.noSoln, e')) :
    ∀ x ∈ ellipsoid (e.mq.flMat n) e.kappa.val (e.xc.flVec n),
      (g.flVec n ⬝ᵥ (x - e.xc.flVec n)) ^ 2 < (1 + u) * β.val ^ 2 +
        ((1 + u) ^ (2 * n + 3) - 1) * (e.kappa.val * absQuad (e.mq.flMat n) (g.flVec n)) := by
  intro x hx
  have hupd : Ell.space.update .bias e (g, SingleCut.mk β) =
    e.updateCore g (CutType.call .bias (SingleCut.mk β) e.helper) := rfl
  rw [hupd] at hrun
  set S := CutType.call .bias (SingleCut.mk β) e.helper with hS
  have hst : (S (e.kappa * Ell.om n e.mq.mat g.vec)).1 = .noSoln := by
    rcases Ell.updateCore_spec he.1.isMat he.2.isVec hg.isVec hn S
      (st := (S (e.kappa * Ell.om n e.mq.mat g.vec)).1)
      (ρ := (S (e.kappa * Ell.om n e.mq.mat g.vec)).2.1)
      (σ := (S (e.kappa * Ell.om n e.mq.mat g.vec)).2.2.1)
      (δ := (S (e.kappa * Ell.om n e.mq.mat g.vec)).2.2.2) rfl with
      ⟨_, h⟩ | ⟨_, e1, h, _⟩
    · rw [h] at hrun
      simp only [Res.ok.injEq, Prod.mk.injEq] at hrun
      exact hrun.1
    · rw [h] at hrun
      simp at hrun
  have hlt : (e.kappa * Ell.om n e.mq.mat g.vec).val < R.rnd (β.val * β.val) := by
    have : (EllCalc.calcBiasCut e.helper β (e.kappa * Ell.om n e.mq.mat g.vec)).1 = .noSoln := hst
    unfold EllCalc.calcBiasCut at this
    split at this
    · rename_i h
      simpa using h
    · simp at this
  have h1 := (abs_le.1 (tsq_fl_err (n := n) (g := g) hκ)).1
  have h2 := (abs_le.1 (R.abs_le (β.val * β.val))).2
  rw [abs_mul_self] at h2
  have h3 := dot_sq_le hM hx (g.flVec n)
  nlinarith

/-- **C71** (central cuts) In dimension at least two, a central cut with a positive representable `κ` leaves a
`κ'` that is positive, and not smaller than `κ`, in rounded arithmetic too (`no_defer_trick` off). -/
theorem C71_central_kappa (hu : u < 1) (e e' : Ell (Fl R)) (he : e.Shaped n) (hn : 2 ≤ n)
    (hh : e.helper = EllCalc.new n) (hd : e.noDeferTrick = false) (hκ : 0 < e.kappa.val) (hrep : R.Rep e.kappa.val)
    (g : Arr (Fl R)) (hg : g.IsVecShape n) (c : SingleCut (Fl R)) (st : CutStatus)
    (hrun : Ell.space.update .central e (g, c) = .ok (st, e')) :
    st = .success ∧ e.kappa.val ≤ e'.kappa.val ∧ R.Rep e'.kappa.val := by
  have hupd : Ell.space.update .central e (g, c) = e.updateCore g (CutType.call .central c e.helper) := rfl
  rw [hupd] at hrun
  set t := e.kappa * Ell.om n e.mq.mat g.vec
  have hcall : CutType.call .central c e.helper t = (.success, e.helper.helper.calcCentralCut t) := rfl
  rcases Ell.updateCore_spec he.1.isMat he.2.isVec hg.isVec (by omega) (CutType.call .central c e.helper)
    hcall with ⟨h, _⟩ | ⟨_, e1, h, _, _, hk, _⟩
  · exact absurd rfl h
  · rw [h] at hrun
    simp only [Res.ok.injEq, Prod.mk.injEq] at hrun
    obtain ⟨rfl, rfl⟩ := hrun
    refine ⟨rfl, ?_⟩
    rw [hk, hd, hh]
    simp only [EllCalc.new, EllCalcCore.new, Bool.false_eq_true, if_false,
      Fl.mul_val, Fl.div_val, Fl.sub_val, Fl.one_val, Fl.natCast_val]
    have hN : 2 ≤ R.rnd (n : ℝ) := by
      rw [← R.two]; exact R.mono _ _ (by exact_mod_cast hn)
    set N := R.rnd (n : ℝ)
    have hQ : 2 ≤ R.rnd (N * N) := by
      rw [← R.two]; exact R.mono _ _ (by nlinarith)
    set Q := R.rnd (N * N) with hQd
    have hD1 : R.rnd (Q - 1) ≤ Q := by
      have := R.mono (Q - 1) (N * N - 1 + 1 + (Q - N * N)) (by linarith)
      have h2 : N * N - 1 + 1 + (Q - N * N) = Q := by ring
      rw [h2, hQd, R.idem] at this
      exact this
    have hD0 : 0 < R.rnd (Q - 1) := R.pos hu (by linarith)
    have hδ : 1 ≤ R.rnd (Q / R.rnd (Q - 1)) := by
      have := R.mono 1 (Q / R.rnd (Q - 1)) (by rw [le_div_iff₀ hD0]; linarith)
      rwa [R.one] at this
    refine ⟨?_, R.idem _⟩
    have := R.mono e.kappa.val (e.kappa.val * R.rnd (Q / R.rnd (Q - 1))) (by nlinarith)
    rwa [hrep] at this

/-- **C71** (central cuts, any run) Along any sequence of central cuts every update succeeds and `κ` never drops below its
first value, in rounded arithmetic too. -/
theorem C71_central_run (hu : u < 1) (hn : 2 ≤ n) (cuts : List (Arr (Fl R) × SingleCut (Fl R)))
    (hcuts : ∀ c ∈ cuts, c.1.IsVecShape n) (e : Ell (Fl R)) (he : e.Shaped n)
    (hh : e.helper = EllCalc.new n) (hd : e.noDeferTrick = false) (hκ : 0 < e.kappa.val) (hrep : R.Rep e.kappa.val) :
    ∃ tr, Ell.space.run e (cuts.map fun c => (UpdateKind.central, c)) = .ok tr ∧ tr.length = cuts.length ∧
      ∀ p ∈ tr, p.1 = .success ∧ e.kappa.val ≤ p.2.kappa.val := by
  induction cuts generalizing e with
  | nil => exact ⟨[], rfl, rfl, by simp⟩
  | cons c cuts ih =>
    have hg := hcuts c (by simp)
    obtain ⟨st, e', h1, h2, h3, h4, _⟩ := Ell.update_shape (by omega) .central e c he hg
    obtain ⟨rfl, h6, h7⟩ := C71_central_kappa hu e e' he hn hh hd hκ hrep c.1 hg c.2 st h1
    obtain ⟨tr, h8, h9, h10⟩ := ih (fun c hc => hcuts c (by simp [hc])) e' h2 (h3.trans hh) (h4.trans hd)
      (lt_of_lt_of_le hκ h6) h7
    refine ⟨(.success, e') :: tr, ?_, by simp [h9], ?_⟩
    · rw [List.map_cons]
      unfold Space.run
      rw [h1]
      simp only [Res.ok_bind, h8]
    · intro p hp
      rcases List.mem_cons.1 hp with rfl | hp
      · exact ⟨rfl, h6⟩
      · exact ⟨(h10 p hp).1, h6.trans (h10 p hp).2⟩

/-! ### `bsearch` -/

/-- the probes, read as real numbers -/
def realProbes (ps : List (Fl R × Bool)) : List (ℝ × Bool) := ps.map fun p => (p.1.val, p.2)

/-- the probe `bsearch` makes in `[l, u]` -/
noncomputable def flMid (R : Rounding u) (l r : ℝ) : ℝ := R.rnd (l + R.rnd (R.rnd (r - l) / 2))

theorem flMid_mem (hu : u ≤ 1) {l r : ℝ} (hlr : l ≤ r) (hl : R.Rep l) (hr : R.Rep r) :
    l ≤ flMid R l r ∧ flMid R l r ≤ r ∧
      |flMid R l r - (l + r) / 2| ≤ 2 * u * max |l| |r| := by
  have hu0 := R.unit_nonneg
  have hτ : R.rnd (R.rnd (r - l) / 2) = R.rnd (r - l) / 2 := by rw [R.half, R.idem]
  unfold flMid
  rw [hτ]
  have hd := R.err (r - l)
  rw [abs_of_nonneg (sub_nonneg.2 hlr)] at hd
  have h0 : 0 ≤ R.rnd (r - l) := R.nonneg (sub_nonneg.2 hlr)
  obtain ⟨hd1, hd2⟩ := abs_le.1 hd
  have hub : u * (r - l) ≤ r - l := by nlinarith
  have hle : l + R.rnd (r - l) / 2 ≤ r := by linarith
  have hge : l ≤ l + R.rnd (r - l) / 2 := by linarith
  have hB1 := le_max_left |l| |r|
  have hB2 := le_max_right |l| |r|
  set B := max |l| |r|
  have habs : |l + R.rnd (r - l) / 2| ≤ B := by
    rw [abs_le]
    exact ⟨by linarith [neg_abs_le l], by linarith [le_abs_self r]⟩
  refine ⟨?_, ?_, ?_⟩
  · have := R.mono _ _ hge; rwa [hl] at this
  · have := R.mono _ _ hle; rwa [hr] at this
  · have he := R.err (l + R.rnd (r - l) / 2)
    have h1 : |l + R.rnd (r - l) / 2 - (l + r) / 2| ≤ u * B := by
      have : l + R.rnd (r - l) / 2 - (l + r) / 2 = (R.rnd (r - l) - (r - l)) / 2 := by ring
      rw [this, abs_div, abs_two]
      have h2 : r - l ≤ 2 * B := by linarith [le_abs_self r, neg_abs_le l]
      have h3 := mul_le_mul_of_nonneg_left h2 hu0
      linarith
    have h2 := abs_add_le (R.rnd (l + R.rnd (r - l) / 2) - (l + R.rnd (r - l) / 2))
      (l + R.rnd (r - l) / 2 - (l + r) / 2)
    rw [sub_add_sub_cancel] at h2
    have h3 := mul_le_mul_of_nonneg_left habs hu0
    linarith

theorem bsearchLoop_fl (hu : u ≤ 1) (orc : OracleBS Ω (Fl R)) (P : ℝ → Bool → Prop)
    (hP : ∀ w g b w', orc.assess w g = .ok (b, w') → P g.val b) (tol : Fl R) (B : ℝ) (m : Nat) :
    ∀ (n0 : Nat) (w : Ω) (h : List (Fl R × Bool)) (l r l' r' : Fl R) (k : Nat) (w' : Ω) (h' : List (Fl R × Bool)),
    l.val ≤ r.val → R.Rep l.val → R.Rep r.val → |l.val| ≤ B → |r.val| ≤ B →
    bsearchLoop orc.record tol m n0 (w, h) l r = .ok ((l', r'), k, (w', h')) →
    ∃ ps, h' = h ++ ps ∧ k = n0 + ps.length ∧ (l'.val, r'.val) = bracket l.val r.val (realProbes ps) ∧
      ps.length ≤ m ∧ (∀ p ∈ ps, P p.1.val p.2 ∧ l.val ≤ p.1.val ∧ p.1.val ≤ r.val) ∧
      l.val ≤ l'.val ∧ l'.val ≤ r'.val ∧ r'.val ≤ r.val ∧
      r'.val - l'.val ≤ (r.val - l.val) / 2 ^ ps.length + 4 * u * B * (1 - 1 / 2 ^ ps.length) ∧
      (ps.length < m → R.rnd (r'.val - l'.val) / 2 < tol.val) ∧
      (∀ i < ps.length, 2 * tol.val ≤ (1 + u) * ((r.val - l.val) / 2 ^ i + 4 * u * B * (1 - 1 / 2 ^ i))) := by
  have hu0 := R.unit_nonneg
  have step : ∀ w0 w1 : ℝ, w1 ≤ w0 / 2 + 2 * u * B → ∀ j : ℕ,
      w1 / 2 ^ j + 4 * u * B * (1 - 1 / 2 ^ j) ≤ w0 / 2 ^ (j + 1) + 4 * u * B * (1 - 1 / 2 ^ (j + 1)) := by
    intro w0 w1 hw j
    have hp : (0 : ℝ) < 2 ^ j := by positivity
    have h1 := div_le_div_of_nonneg_right hw hp.le
    have h2 : (w0 / 2 + 2 * u * B) / 2 ^ j + 4 * u * B * (1 - 1 / 2 ^ j) =
        w0 / 2 ^ (j + 1) + 4 * u * B * (1 - 1 / 2 ^ (j + 1)) := by
      rw [pow_succ]; field_simp; ring
    linarith
  induction m with
  | zero =>
    intro n0 w h l r l' r' k w' h' hlr hl hr hlB hrB hrun
    simp only [bsearchLoop, Res.ok.injEq, Prod.mk.injEq] at hrun
    obtain ⟨⟨rfl, rfl⟩, rfl, rfl, rfl⟩ := hrun
    have hB : 0 ≤ B := (abs_nonneg _).trans hlB
    refine ⟨[], by simp, by simp, rfl, by simp, by simp, le_rfl, hlr, le_rfl, ?_, by simp, by simp⟩
    simp
  | succ m ih =>
    intro n0 w h l r l' r' k w' h' hlr hl hr hlB hrB hrun
    have hB : 0 ≤ B := (abs_nonneg _).trans hlB
    have huB := mul_nonneg hu0 hB
    unfold bsearchLoop at hrun
    have h2 : R.rnd ((2 : ℕ) : ℝ) = 2 := by exact_mod_cast R.two
    have hτ : ((r - l) / nat 2 : Fl R).val = R.rnd (r.val - l.val) / 2 := by
      simp only [Fl.div_val, Fl.sub_val, nat, Fl.natCast_val, h2]
      rw [R.half, R.idem]
    simp only [Fl.lt_eq, decide_eq_true_eq, hτ] at hrun
    split at hrun
    · rename_i ht
      simp only [Res.ok.injEq, Prod.mk.injEq] at hrun
      obtain ⟨⟨rfl, rfl⟩, rfl, rfl, rfl⟩ := hrun
      refine ⟨[], by simp, by simp, rfl, by simp, by simp, le_rfl, hlr, le_rfl, ?_, fun _ => ht, by simp⟩
      simp
    · rename_i ht
      set γ : Fl R := l + (r - l) / nat 2 with hγ
      have hγv : γ.val = flMid R l.val r.val := by
        rw [hγ, Fl.add_val, hτ]
        unfold flMid
        rw [R.half, R.idem]
      obtain ⟨hm1, hm2, hm3⟩ := flMid_mem hu hlr hl hr
      rw [← hγv] at hm1 hm2 hm3
      have hmB : max |l.val| |r.val| ≤ B := max_le hlB hrB
      have hm4 : |γ.val - (l.val + r.val) / 2| ≤ 2 * u * B :=
        hm3.trans (mul_le_mul_of_nonneg_left hmB (by linarith))
      obtain ⟨hm5, hm6⟩ := abs_le.1 hm4
      have hγrep : R.Rep γ.val := by rw [hγ, Fl.add_val]; exact R.idem _
      have hγB : |γ.val| ≤ B := by
        rw [abs_le] at hlB hrB ⊢
        exact ⟨by linarith [hlB.1], by linarith [hrB.2]⟩
      obtain ⟨⟨b, w1, h1⟩, hq, hrun⟩ := Res.bind_eq_ok.1 hrun
      simp only [OracleBS.record] at hq
      obtain ⟨⟨b0, w0⟩, hq0, hq⟩ := Res.bind_eq_ok.1 hq
      simp only [Res.ok.injEq, Prod.mk.injEq] at hq
      obtain ⟨rfl, rfl, rfl⟩ := hq
      simp only at hrun
      have hPb := hP _ _ _ _ hq0
      have htol : 2 * tol.val ≤ (1 + u) * (r.val - l.val) := by
        have h1 := (abs_le.1 (R.abs_le (r.val - l.val))).2
        rw [abs_of_nonneg (sub_nonneg.2 hlr)] at h1
        linarith [not_lt.1 ht]
      have key : ∀ (l1 r1 : Fl R), (∀ qs, bracket l.val r.val ((γ.val, b0) :: qs) = bracket l1.val r1.val qs) →
          l.val ≤ l1.val → l1.val ≤ r1.val → r1.val ≤ r.val → R.Rep l1.val → R.Rep r1.val →
          |l1.val| ≤ B → |r1.val| ≤ B → r1.val - l1.val ≤ (r.val - l.val) / 2 + 2 * u * B →
          bsearchLoop orc.record tol m (n0 + 1) (w0, h ++ [(γ, b0)]) l1 r1 = .ok ((l', r'), k, (w', h')) →
          ∃ ps, h' = h ++ ps ∧ k = n0 + ps.length ∧ (l'.val, r'.val) = bracket l.val r.val (realProbes ps) ∧
            ps.length ≤ m + 1 ∧ (∀ p ∈ ps, P p.1.val p.2 ∧ l.val ≤ p.1.val ∧ p.1.val ≤ r.val) ∧
            l.val ≤ l'.val ∧ l'.val ≤ r'.val ∧ r'.val ≤ r.val ∧
            r'.val - l'.val ≤ (r.val - l.val) / 2 ^ ps.length + 4 * u * B * (1 - 1 / 2 ^ ps.length) ∧
            (ps.length < m + 1 → R.rnd (r'.val - l'.val) / 2 < tol.val) ∧
            (∀ i < ps.length, 2 * tol.val ≤ (1 + u) * ((r.val - l.val) / 2 ^ i + 4 * u * B * (1 - 1 / 2 ^ i))) := by
        intro l1 r1 hbr hl1 hlr1 hr1 hrl hrr hBl hBr hw hrun
        obtain ⟨ps, hh, hk, hfin, hlen, hall, hA, hB', hC, hW, hend, htl⟩ :=
          ih _ _ _ _ _ _ _ _ _ _ hlr1 hrl hrr hBl hBr hrun
        refine ⟨(γ, b0) :: ps, by simp [hh], by simp only [List.length_cons]; omega, ?_,
          by simp only [List.length_cons]; omega, ?_, by linarith, hB', by linarith, ?_, ?_, ?_⟩
        · rw [hfin]; exact (hbr _).symm
        · intro p hp
          rcases List.mem_cons.1 hp with rfl | hp
          · exact ⟨hPb, hm1, hm2⟩
          · obtain ⟨a1, a2, a3⟩ := hall p hp
            exact ⟨a1, by linarith, by linarith⟩
        · simp only [List.length_cons]
          exact hW.trans (step _ _ hw _)
        · intro hl
          simp only [List.length_cons] at hl
          exact hend (by omega)
        · intro i hi
          cases i with
          | zero => simpa using htol
          | succ i =>
            simp only [List.length_cons] at hi
            exact (htl i (by omega)).trans (mul_le_mul_of_nonneg_left (step _ _ hw _) (by linarith))
      cases b0 with
      | true =>
        rw [if_pos rfl] at hrun
        exact key l γ (fun _ => rfl) le_rfl hm1 hm2 hl hγrep hlB hγB (by linarith) hrun
      | false =>
        rw [if_neg (by simp)] at hrun
        exact key γ r (fun _ => rfl) hm1 hm2 le_rfl hγrep hr hγB hrB (by linarith) hrun

/-- **C71** (bsearch) In rounded arithmetic, for an oracle that answers a predicate `P` which is false at `l` and true at
`r` (both floating-point numbers): every probe lies in `[l, r]`, the bracket the probes leave is a sub-interval of `[l, r]`
whose lower end is rejected and upper end accepted, and after `k` probes it is no wider than `(r-l)/2^k` plus
`4 u max(|l|,|r|)`; when the search stops before `max_iters`, half the bracket is below the tolerance up to `u`. -/
theorem C71_bsearch_rounded (hu : u ≤ 1) (P : ℝ → Prop) (orc : OracleBS Ω (Fl R))
    (hP : ∀ w g b w', orc.assess w g = .ok (b, w') → (b = true ↔ P g.val))
    (w : Ω) (l r : Fl R) (hl : R.Rep l.val) (hr : R.Rep r.val) (hPl : ¬ P l.val) (hPr : P r.val)
    (opts : Options (Fl R)) (flag : Bool) (k : Nat) (w' : Ω) (ps : List (Fl R × Bool)) (I' : Fl R × Fl R)
    (hrun : bsearch orc.record (w, []) (l, r) opts = .ok ((flag, k), (w', ps), I')) :
    ps.length = k ∧ (∀ p ∈ ps, l.val ≤ p.1.val ∧ p.1.val ≤ r.val) ∧
      l.val ≤ (bracket l.val r.val (realProbes ps)).1 ∧
      (bracket l.val r.val (realProbes ps)).1 ≤ (bracket l.val r.val (realProbes ps)).2 ∧
      (bracket l.val r.val (realProbes ps)).2 ≤ r.val ∧
      ¬ P (bracket l.val r.val (realProbes ps)).1 ∧ P (bracket l.val r.val (realProbes ps)).2 ∧
      (bracket l.val r.val (realProbes ps)).2 - (bracket l.val r.val (realProbes ps)).1 ≤
        (r.val - l.val) / 2 ^ k + 4 * u * max |l.val| |r.val| ∧
      (k < opts.maxIters → (1 - u) * ((bracket l.val r.val (realProbes ps)).2 -
        (bracket l.val r.val (realProbes ps)).1) < 2 * opts.tolerance.val) := by
  have hu0 := R.unit_nonneg
  unfold bsearch at hrun
  obtain ⟨_, ha, hrun⟩ := Res.bind_eq_ok.1 hrun
  obtain ⟨⟨⟨l', r'⟩, k', w1, h1⟩, hloop, hrun⟩ := Res.bind_eq_ok.1 hrun
  simp only [Res.ok.injEq, Prod.mk.injEq] at hrun
  obtain ⟨⟨_, rfl⟩, ⟨rfl, hps⟩, _⟩ := hrun
  subst hps
  have hlr : l.val ≤ r.val := by simpa [Res.assert_eq_ok] using ha
  obtain ⟨ps', hp, hk, hfin, hlen, hall, hA, hB, hC, hW, hend, _⟩ :=
    bsearchLoop_fl hu orc (fun g b => b = true ↔ P g) hP _ _ _ _ _ _ _ _ _ _ _ _ _ hlr hl hr (le_max_left _ _) (le_max_right _ _) hloop
  simp only [List.nil_append, Nat.zero_add] at hp hk
  subst hp hk
  set ps := h1
  have hmem := bracket_mem P l.val r.val (realProbes ps) (by
    intro p hp
    obtain ⟨q, hq, rfl⟩ := List.mem_map.1 hp
    exact (hall q hq).1) hPl hPr
  rw [← hfin] at hmem ⊢
  refine ⟨rfl, fun p hp => (hall p hp).2, hA, hB, hC, hmem.1, hmem.2, ?_, ?_⟩
  · have hmx : 0 ≤ max |l.val| |r.val| := (abs_nonneg _).trans (le_max_left _ _)
    have h4 : 0 ≤ 4 * u * max |l.val| |r.val| := by positivity
    have h5 : (0 : ℝ) ≤ 1 / 2 ^ ps.length := by positivity
    have := mul_nonneg h4 h5
    dsimp only
    linarith
  · intro hlt
    have h1 := hend hlt
    have h2 := (abs_le.1 (R.err (r'.val - l'.val))).1
    rw [abs_of_nonneg (sub_nonneg.2 hB)] at h2
    dsimp only
    linarith

/-- **C71** (bsearch stops) The search ends within `m` probes, for any oracle, as soon as the tolerance is at least the
exact half-width `(r-l)/2^(m+1)` plus a rounding allowance: rounding does not keep it running. -/
theorem C71_bsearch_stops (hu : u ≤ 1) (orc : OracleBS Ω (Fl R))
    (w : Ω) (l r : Fl R) (hl : R.Rep l.val) (hr : R.Rep r.val)
    (opts : Options (Fl R)) (flag : Bool) (k m : Nat) (w' : Ω) (I' : Fl R × Fl R)
    (htol : (1 + u) * ((r.val - l.val) / 2 ^ m + 4 * u * max |l.val| |r.val|) < 2 * opts.tolerance.val)
    (hrun : bsearch orc w (l, r) opts = .ok ((flag, k), w', I')) : k ≤ m := by
  have hu0 := R.unit_nonneg
  rw [← C06_bsearch_record_faithful] at hrun
  obtain ⟨⟨⟨flag1, k1⟩, ⟨w1, ps1⟩, I1⟩, hrun1, heq⟩ := Res.bind_eq_ok.1 hrun
  simp only [Res.ok.injEq, Prod.mk.injEq] at heq
  obtain ⟨⟨rfl, rfl⟩, rfl, rfl⟩ := heq
  clear hrun
  rename' hrun1 => hrun
  unfold bsearch at hrun
  obtain ⟨_, ha, hrun⟩ := Res.bind_eq_ok.1 hrun
  obtain ⟨⟨⟨l', r'⟩, k', w2, h1⟩, hloop, hrun⟩ := Res.bind_eq_ok.1 hrun
  simp only [Res.ok.injEq, Prod.mk.injEq] at hrun
  obtain ⟨⟨_, rfl⟩, ⟨rfl, rfl⟩, _⟩ := hrun
  have hlr : l.val ≤ r.val := by simpa [Res.assert_eq_ok] using ha
  by_contra hkm
  obtain ⟨ps, _, hk, _, _, _, _, _, _, _, _, htl⟩ := bsearchLoop_fl hu orc (fun _ _ => True)
    (fun _ _ _ _ _ => trivial) _ _ _ _ _ _ _ _ _ _ _ _ _ hlr hl hr (le_max_left _ _) (le_max_right _ _) hloop
  have h1 := htl m (by omega)
  have hmx : 0 ≤ max |l.val| |r.val| := (abs_nonneg _).trans (le_max_left _ _)
  have h4 : 0 ≤ 4 * u * max |l.val| |r.val| := by positivity
  have h5 : (0 : ℝ) ≤ 1 / 2 ^ m := by positivity
  have h6 := mul_nonneg h4 h5
  have h7 := mul_nonneg (by linarith : 0 ≤ 1 + u) h6
  nlinarith

/-- **C71** (bsearch flag) The flag is true exactly when the final upper end differs from the original one; so a true flag
means that some probe was accepted. -/
theorem C71_bsearch_flag (hu : u ≤ 1) (orc : OracleBS Ω (Fl R))
    (w : Ω) (l r : Fl R) (hl : R.Rep l.val) (hr : R.Rep r.val)
    (opts : Options (Fl R)) (flag : Bool) (k : Nat) (w' : Ω) (ps : List (Fl R × Bool)) (I' : Fl R × Fl R)
    (hrun : bsearch orc.record (w, []) (l, r) opts = .ok ((flag, k), (w', ps), I')) :
    (flag = true ↔ (bracket l.val r.val (realProbes ps)).2 ≠ r.val) ∧
      (flag = true → ∃ p ∈ ps, p.2 = true) := by
  unfold bsearch at hrun
  obtain ⟨_, ha, hrun⟩ := Res.bind_eq_ok.1 hrun
  obtain ⟨⟨⟨l', r'⟩, k', w1, h1⟩, hloop, hrun⟩ := Res.bind_eq_ok.1 hrun
  simp only [Res.ok.injEq, Prod.mk.injEq] at hrun
  obtain ⟨⟨hflag, rfl⟩, ⟨rfl, hps⟩, _⟩ := hrun
  subst hps
  have hlr : l.val ≤ r.val := by simpa [Res.assert_eq_ok] using ha
  obtain ⟨ps', hp, hk, hfin, -⟩ :=
    bsearchLoop_fl hu orc (fun _ _ => True) (fun _ _ _ _ _ => trivial) _ _ _ _ _ _ _ _ _ _ _ _ _ hlr hl hr
      (le_max_left _ _) (le_max_right _ _) hloop
  simp only [List.nil_append] at hp
  subst hp
  have h1f : flag = true ↔ (bracket l.val r.val (realProbes h1)).2 ≠ r.val := by
    rw [← hfin, ← hflag]; simp
  refine ⟨h1f, fun hf => ?_⟩
  by_contra hno
  push Not at hno
  refine h1f.1 hf ?_
  have : ∀ (qs : List (Fl R × Bool)) (a : ℝ), (∀ p ∈ qs, p.2 ≠ true) → (bracket a r.val (realProbes qs)).2 = r.val := by
    intro qs
    induction qs with
    | nil => intros; rfl
    | cons q qs ih =>
      intro a hq
      obtain ⟨g, b⟩ := q
      have hb := hq (g, b) (by simp)
      cases b with
      | true => simp at hb
      | false => exact ih g.val fun p hp => hq p (by simp [hp])
  exact this h1 l.val hno

/-- `1 + 2⁻⁵²`, the first `f64` above `1` -/
noncomputable def fl1 : Fl bin53 := ⟨1 + (2 : ℝ) ^ (-52 : ℤ)⟩
/-- `1 + 2⁻⁵¹`, the second `f64` above `1` -/
noncomputable def fl2 : Fl bin53 := ⟨1 + (2 : ℝ) ^ (-51 : ℤ)⟩

/-- **C71** (bsearch flag, negation) The converse fails in `f64`, although it holds in exact arithmetic (C08): on the interval
between the first two `f64` numbers above `1`, with tolerance `0` and an oracle that accepts everything, the probe
is rounded up to the upper end, is accepted, and the returned flag is `false`. -/
theorem C71_bsearch_flag_converse_fails :
    ∃ (orc : OracleBS Unit (Fl bin53)) (opts : Options (Fl bin53)) (I' : Fl bin53 × Fl bin53),
      bin53.Rep fl1.val ∧ bin53.Rep fl2.val ∧ fl1.val < fl2.val ∧
      bsearch orc.record ((), []) (fl1, fl2) opts = .ok ((false, 1), ((), [(fl2, true)]), I') := by
  have hm : bin53.Rep fl1.val := by
    have := rnd53_rep (2 ^ 52 + 1) (-52) (by norm_num)
    have hv : fl1.val = ((2 ^ 52 + 1 : ℤ) : ℝ) * (2 : ℝ) ^ (-52 : ℤ) := by unfold fl1; norm_num
    unfold Rounding.Rep
    rw [hv]; exact this
  have hm2 : bin53.Rep fl2.val := by
    have := rnd53_rep (2 ^ 52 + 2) (-52) (by norm_num)
    have hv : fl2.val = ((2 ^ 52 + 2 : ℤ) : ℝ) * (2 : ℝ) ^ (-52 : ℤ) := by unfold fl2; norm_num
    unfold Rounding.Rep
    rw [hv]; exact this
  have hd : bin53.rnd (fl2.val - fl1.val) = (2 : ℝ) ^ (-52 : ℤ) := by
    have : fl2.val - fl1.val = (2 : ℝ) ^ (-52 : ℤ) := by unfold fl1 fl2; norm_num
    rw [this]; exact rnd53_pow _
  have hγ : fl1 + (fl2 - fl1) / nat 2 = fl2 := by
    ext
    have h2 : bin53.rnd ((2 : ℕ) : ℝ) = 2 := by exact_mod_cast bin53.two
    rw [Fl.add_val, Fl.div_val, Fl.sub_val, Fl.natCast_val, h2, hd, bin53.half,
      show bin53.rnd ((2 : ℝ) ^ (-52 : ℤ)) = (2 : ℝ) ^ (-52 : ℤ) from rnd53_pow _]
    show rnd53 _ = _
    have hx : fl1.val + (2 : ℝ) ^ (-52 : ℤ) / 2 = 1 + (2 : ℝ) ^ (-52 : ℤ) + (2 : ℝ) ^ (-53 : ℤ) := by
      unfold fl1; norm_num
    rw [hx]
    have hE : expo53 (1 + (2 : ℝ) ^ (-52 : ℤ) + (2 : ℝ) ^ (-53 : ℤ)) = 0 - 52 := by
      apply expo53_eq <;> norm_num [abs_of_pos]
    unfold rnd53
    rw [hE, roundEven_tie (k := 2 ^ 52 + 1) (by norm_num), if_neg (by decide)]
    unfold fl2
    norm_num
  refine ⟨⟨fun w _ => .ok (true, w)⟩, ⟨1, ⟨0⟩⟩, (fl1, fl2), hm, hm2, ?_, ?_⟩
  · unfold fl1 fl2; norm_num
  · have hle : Scalar.le fl1 fl2 = true := by
      simp only [Fl.le_eq, decide_eq_true_eq]; unfold fl1 fl2; norm_num
    have hlt : Scalar.lt ((fl2 - fl1) / nat 2) (⟨0⟩ : Fl bin53) = false := by
      simp only [Fl.lt_eq, decide_eq_false_iff_not, not_lt]
      refine bin53.nonneg (div_nonneg (bin53.nonneg ?_) (bin53.nonneg (by positivity)))
      unfold fl1 fl2; norm_num
    unfold bsearch
    simp only [hle, Res.assert_true, Res.ok_bind, bsearchLoop, hlt, Bool.false_eq_true, if_false, hγ,
      OracleBS.record, if_true, List.nil_append]
    simp

end Ellalgo
