import Verif.Props.StableProps
import Verif.Props.EllGeneric
import Verif.Lib.StepPotential
import Verif.Lib.Pair

/-! C28, whole sequences: `EllStable` and `Ell` agree completely as long as every cut bounds one coordinate. -/

namespace Ellalgo
open Matrix
open scoped ComplexOrder

variable {n : Nat}

/-- a successful single cut with non-negative offset that leaves a positive `kappa` has `0 < σ < 1` -/
theorem single_sigma (hn : 2 ≤ n) {tsq : ℝ} (ht : 0 < tsq) (k : UpdateKind) (β : ℝ) (hlo : 0 ≤ k.lo β)
    {ρ σ δ : ℝ} (h : CutType.call k (⟨β⟩ : SingleCut ℝ) (EllCalc.new n) tsq = (.success, ρ, σ, δ)) (hδ : 0 < δ) :
    0 < σ ∧ σ < 1 := by
  have hn' : (2 : ℝ) ≤ n := by exact_mod_cast hn
  have hnn : 0 < (n : ℝ) * n - 1 := by nlinarith
  have hτ : 0 < √tsq := Real.sqrt_pos.mpr ht
  refine ⟨lt_of_lt_of_le (by positivity) (single_params hn ht k β hlo h).1, ?_⟩
  have key : 0 ≤ β → (EllCalcCore.new (n : ℝ)).calcBiasCutFast β (√tsq) (√tsq + n * β) = (ρ, σ, δ) → σ < 1 := by
    intro h0 h
    rw [calcBiasCutFast_real] at h
    simp only [Prod.mk.injEq] at h
    obtain ⟨-, rfl, rfl⟩ := h
    have h1 : 0 < 1 - β / √tsq * (β / √tsq) := by
      by_contra hc
      have : (n : ℝ) * n / (n * n - 1) * (1 - β / √tsq * (β / √tsq)) ≤ 0 :=
        mul_nonpos_of_nonneg_of_nonpos (by positivity) (not_lt.mp hc)
      linarith
    have h2 : β / √tsq < 1 := by
      by_contra hc
      nlinarith
    have h3 : β < √tsq := by rwa [div_lt_one hτ] at h2
    rw [div_lt_one (by linarith), mul_div_assoc', div_lt_iff₀ (by linarith)]
    nlinarith
  cases k with
  | central =>
    have h : (EllCalc.new n).calcCentralCut tsq = _ := h
    rw [calcCentralS_real, calcCentralCut_real] at h
    simp only [Prod.mk.injEq, true_and] at h
    obtain ⟨-, rfl, -⟩ := h
    rw [mul_one_div, div_lt_one (by linarith)]
    linarith
  | bias =>
    have h : (EllCalc.new n).calcBiasCut β tsq = _ := h
    rw [calcBias_real] at h
    split at h
    · simp at h
    · simp only [Prod.mk.injEq, true_and] at h
      exact key (by simpa using hlo) h
  | q =>
    have h : (EllCalc.new n).calcBiasCutQ β tsq = _ := h
    rw [calcBiasQ_real] at h
    split at h
    · simp at h
    · split at h
      · simp at h
      · simp only [Prod.mk.injEq, true_and] at h
        exact key (by simpa using hlo) h

/-- the same state of an `Ell` (with matrices stored in different arrays) gives the same step -/
theorem Ell.update_congr {T : Type} [CutType T ℝ] (hn : 0 < n) (k : UpdateKind) (e f : Ell ℝ) (cut : Arr ℝ × T)
    (he : e.Shaped n) (hf : f.Shaped n) (hsym : (e.M n).IsSymm) (hg : cut.1.IsVecShape n)
    (hM : e.M n = f.M n) (hc : e.c n = f.c n) (hk : e.kappa = f.kappa) (hh : e.helper = f.helper)
    (he0 : e.noDeferTrick = false) (hf0 : f.noDeferTrick = false)
    {st : CutStatus} {e' : Ell ℝ} (h : Ell.space.update k e cut = .ok (st, e')) :
    ∃ f', Ell.space.update k f cut = .ok (st, f') ∧ e'.M n = f'.M n ∧ e'.c n = f'.c n ∧
      e'.kappa = f'.kappa ∧ e'.tsq = f'.tsq := by
  obtain ⟨st1, ρ, σ, δ, e1, a1, a2, a3, a4, a5⟩ := C12_rank_one_update k e cut hn he hsym hg
  obtain ⟨st2, ρ2, σ2, δ2, f1, b1, b2, b3, b4, b5⟩ := C12_rank_one_update k f cut hn hf (hM ▸ hsym) hg
  rw [h] at a2
  injection a2 with a2
  simp only [Prod.mk.injEq] at a2
  obtain ⟨rfl, rfl⟩ := a2
  rw [← hM, ← hk, ← hh, a1] at b1
  simp only [Prod.mk.injEq] at b1
  obtain ⟨rfl, rfl, rfl, rfl⟩ := b1
  refine ⟨f1, b2, ?_, ?_, ?_, by rw [a3, b3, hM, hk]⟩
  · by_cases hst : st = .success
    · rw [((a5 hst).2.2.1 he0).1, ((b5 hst).2.2.1 hf0).1, hM]
    · rw [(a4 hst).2.1, (b4 hst).2.1, hM]
  · by_cases hst : st = .success
    · rw [(a5 hst).1, (b5 hst).1, hM, hc]
    · rw [(a4 hst).1, (b4 hst).1, hc]
  · by_cases hst : st = .success
    · rw [((a5 hst).2.2.1 he0).2, ((b5 hst).2.2.1 hf0).2, hk]
    · rw [(a4 hst).2.2, (b4 hst).2.2, hk]

/-- one coordinate cut from the same state -/
theorem EllStable.axis_step (hn : 2 ≤ n) (k : UpdateKind) (s : EllStable ℝ) (e : Ell ℝ)
    (cut : Arr ℝ × SingleCut ℝ) (hs : s.Diagonal n) (hpos : ∀ i, 0 < s.M n i i) (hκ : 0 < s.kappa)
    (hh : s.helper = EllCalc.new n) (hsame : s.SameAs n e) (he : e.Shaped n) (hehelp : e.helper = EllCalc.new n)
    (he0 : e.noDeferTrick = false) (hg : cut.1.IsVecShape n)
    (hax : ∃ q, cut.1.toVec n q ≠ 0 ∧ ∀ i, i ≠ q → cut.1.toVec n i = 0) (hlo : 0 ≤ k.lo cut.2.beta)
    {st : CutStatus} {e' : Ell ℝ} (h : Ell.space.update k e cut = .ok (st, e')) (hκ' : 0 < e'.kappa) :
    ∃ s', EllStable.space.update k s cut = .ok (st, s') ∧ s'.Diagonal n ∧ (∀ i, 0 < s'.M n i i) ∧
      s'.helper = EllCalc.new n ∧ s'.SameAs n e' ∧ e'.Shaped n ∧ e'.helper = EllCalc.new n ∧
      e'.noDeferTrick = false := by
  have hn0 : 0 < n := by omega
  obtain ⟨q, hq, hax⟩ := hax
  have hg0 : cut.1.toVec n ≠ 0 := fun h0 => hq (by rw [h0]; rfl)
  have hPD : (s.M n).PosDef := by rw [hs.M_eq]; exact posDef_diagonal_iff.mpr hpos
  have htsq : 0 < s.kappa * (cut.1.toVec n ⬝ᵥ (s.M n *ᵥ cut.1.toVec n)) := mul_pos hκ (quad_pos hPD hg0)
  obtain ⟨hM, hc, hk, -⟩ := hsame
  -- the step of `Ell` from the `EllStable` state
  obtain ⟨f', hf, c1, c2, c3, c4⟩ := Ell.update_congr hn0 k e s.asEll cut he hs.shaped
    (hM ▸ EllStable.asEll_symm hs) hg hM.symm hc.symm hk.symm (hehelp.trans hh.symm) he0 rfl h
  have hcall : ∀ st ρ σ δ, CutType.call k cut.2 s.helper
      (s.kappa * (cut.1.toVec n ⬝ᵥ (s.M n *ᵥ cut.1.toVec n))) = (st, ρ, σ, δ) → st = .success → 0 < σ ∧ σ < 1 := by
    intro st1 ρ σ δ hcl hst
    subst hst
    obtain ⟨st2, ρ2, σ2, δ2, f1, b1, b2, b3, b4, b5⟩ := C12_rank_one_update k s.asEll cut hn0 hs.shaped
      (EllStable.asEll_symm hs) hg
    have h3 := b1.symm.trans hcl
    simp only [Prod.mk.injEq] at h3
    obtain ⟨rfl, rfl, rfl, rfl⟩ := h3
    rw [hf] at b2
    injection b2 with b2
    simp only [Prod.mk.injEq] at b2
    obtain ⟨rfl, rfl⟩ := b2
    have hk2 : f'.kappa = s.kappa * δ2 := ((b5 rfl).2.2.1 rfl).2
    rw [c3, hk2] at hκ'
    rw [hh] at hcl
    exact single_sigma hn htsq k cut.2.beta hlo hcl (pos_of_mul_pos_right hκ' hκ.le)
  obtain ⟨st1, s', f1, d1, d2, d3, d4, d5, d6⟩ := C28_stable_axis_partial hn0 k s cut hs hg q (hpos q).ne' hq hax hcall
  rw [hf] at d2
  injection d2 with d2
  simp only [Prod.mk.injEq] at d2
  obtain ⟨rfl, rfl⟩ := d2
  obtain ⟨st2, s2, f2, g1, -, -, -, -, g2, g3⟩ := C28_stable_step_partial hn0 k s cut hs hg
  rw [d1] at g1
  injection g1 with g1
  simp only [Prod.mk.injEq] at g1
  obtain ⟨rfl, rfl⟩ := g1
  obtain ⟨st3, e3, i1, i2, i3, i4, -⟩ := Ell.update_shape hn0 k e cut he hg
  rw [h] at i1
  injection i1 with i1
  simp only [Prod.mk.injEq] at i1
  obtain ⟨rfl, rfl⟩ := i1
  refine ⟨s', d1, g2, ?_, g3.trans hh, ⟨d3.trans c1.symm, d4.trans c2.symm, d6.trans c3.symm, d5.trans c4.symm⟩, i2,
    i3.trans hehelp, i4.trans he0⟩
  by_cases hst : st = .success
  · subst hst
    rcases hcl : CutType.call k cut.2 s.helper (s.kappa * (cut.1.toVec n ⬝ᵥ (s.M n *ᵥ cut.1.toVec n))) with
      ⟨st4, ρ, σ, δ⟩
    obtain ⟨st5, ρ5, σ5, δ5, s5, j1, j2, -⟩ := EllStable.update_both hn0 k s cut hs hg
    rw [d1] at j2
    injection j2 with j2
    simp only [Prod.mk.injEq] at j2
    obtain ⟨rfl, rfl⟩ := j2
    rw [hcl] at j1
    simp only [Prod.mk.injEq] at j1
    obtain ⟨rfl, rfl, rfl, rfl⟩ := j1
    obtain ⟨h0, h1⟩ := hcall _ _ _ _ hcl rfl
    obtain ⟨s6, e6, k1, -, k2, -⟩ := C28_stable_volume_partial hn0 k s cut hs hpos hg hg0 hcl h0 h1
    rw [d1] at k1
    injection k1 with k1
    simp only [Prod.mk.injEq, true_and] at k1
    subst k1
    exact k2
  · obtain ⟨st5, ρ5, σ5, δ5, s5, j1, j2, -, -, -, j3, -⟩ := EllStable.update_both hn0 k s cut hs hg
    rw [d1] at j2
    injection j2 with j2
    simp only [Prod.mk.injEq] at j2
    obtain ⟨rfl, rfl⟩ := j2
    rw [(j3 hst).1]
    exact hpos

theorem EllStable.axis_run (hn : 2 ≤ n) (cuts : List (UpdateKind × Arr ℝ × SingleCut ℝ)) (s : EllStable ℝ)
    (e : Ell ℝ) (hs : s.Diagonal n) (hpos : ∀ i, 0 < s.M n i i) (hκ : 0 < s.kappa) (hh : s.helper = EllCalc.new n)
    (hsame : s.SameAs n e) (he : e.Shaped n) (hehelp : e.helper = EllCalc.new n) (he0 : e.noDeferTrick = false)
    (hcut : ∀ c ∈ cuts, c.2.1.IsVecShape n ∧ 0 ≤ c.1.lo c.2.2.beta ∧
      ∃ q, c.2.1.toVec n q ≠ 0 ∧ ∀ i, i ≠ q → c.2.1.toVec n i = 0)
    {trE : List (CutStatus × Ell ℝ)} (h : Ell.space.run e cuts = .ok trE) (hnd : ∀ p ∈ trE, 0 < p.2.kappa) :
    ∃ tr, EllStable.space.run s cuts = .ok tr ∧
      List.Forall₂ (fun p q => p.1 = q.1 ∧ p.2.SameAs n q.2) tr trE := by
  induction cuts generalizing s e trE with
  | nil =>
    simp only [Space.run] at h
    injection h with h
    subst h
    exact ⟨[], rfl, .nil⟩
  | cons a rest ih =>
    obtain ⟨k, cut⟩ := a
    obtain ⟨hg, hlo, hax⟩ := hcut (k, cut) (by simp)
    simp only [Space.run] at h
    obtain ⟨⟨st, e'⟩, h1, h⟩ := Res.bind_eq_ok.mp h
    obtain ⟨tr', h2, h⟩ := Res.bind_eq_ok.mp h
    injection h with h
    subst h
    have hk' := hnd (st, e') (by simp)
    obtain ⟨s', a1, a2, a3, a4, a5, a6, a7, a8⟩ :=
      EllStable.axis_step hn k s e cut hs hpos hκ hh hsame he hehelp he0 hg hax hlo h1 hk'
    obtain ⟨tr, b1, b2⟩ := ih s' e' a2 a3 (a5.2.2.1 ▸ hk') a4 a5 a6 a7 a8 (fun c hc => hcut c (by simp [hc])) h2
      (fun p hp => hnd p (by simp [hp]))
    exact ⟨(st, s') :: tr, by simp only [Space.run, a1, Res.ok_bind, b1], .cons ⟨rfl, a5⟩ b2⟩

/-- **C28, partial.**  Every sequence of central and bias cuts (of any kind, with non-negative offset), each
bounding a single coordinate, from a positive diagonal matrix (as `new` and `new_with_scalar` build it): if `Ell`
runs through it without being reduced to a single point (`kappa > 0`), then `EllStable` reports the same status,
centre, matrix, `kappa` and `tsq` after every step.  Missing: gradients that are no multiples of unit vectors, where
it is false. -/
theorem C28_stable_axis_run_partial (hn : 2 ≤ n) (kappa : ℝ) (hκ : 0 < kappa) (mq xc : Arr ℝ)
    (hmq : mq.IsMatShape n n) (hxc : xc.IsVecShape n) (d : Fin n → ℝ) (hd : ∀ i, 0 < d i)
    (hM : mq.toMat n n = diagonal d) (cuts : List (UpdateKind × Arr ℝ × SingleCut ℝ))
    (hcut : ∀ c ∈ cuts, c.2.1.IsVecShape n ∧ 0 ≤ c.1.lo c.2.2.beta ∧
      ∃ q, c.2.1.toVec n q ≠ 0 ∧ ∀ i, i ≠ q → c.2.1.toVec n i = 0)
    {trE : List (CutStatus × Ell ℝ)} (h : Ell.space.run (Ell.newWithMatrix kappa mq xc) cuts = .ok trE)
    (hnd : ∀ p ∈ trE, 0 < p.2.kappa) :
    ∃ tr, EllStable.space.run (EllStable.newWithMatrix kappa mq xc) cuts = .ok tr ∧
      List.Forall₂ (fun p q => p.1 = q.1 ∧ p.2.SameAs n q.2) tr trE := by
  have hl : xc.len = n := hxc.2.2
  have hs : (EllStable.newWithMatrix kappa mq xc).Diagonal n := by
    refine ⟨⟨hmq, hxc⟩, fun i j hij => ?_⟩
    show mq.toMat n n i j = 0
    rw [hM, diagonal_apply_ne _ hij]
  refine EllStable.axis_run hn cuts _ _ hs (fun i => ?_) hκ (by simp [EllStable.newWithMatrix, hl])
    ⟨rfl, rfl, rfl, rfl⟩ ⟨hmq, hxc⟩ (by simp [Ell.newWithMatrix, hl]) rfl hcut h hnd
  show 0 < mq.toMat n n i i
  rw [hM, diagonal_apply_eq]
  exact hd i

/-- **C28** (constructors)  `EllStable::new`, `new_with_scalar` and `new_with_matrix` build the ellipsoid that the constructor
of `Ell` of the same name builds: same matrix, centre, `kappa`, calculator and `tsq`, and a panic on the same arguments. -/
theorem C28_stable_constructors {α : Type} [Scalar α] (val xc mq : Arr α) (k : α) :
    (EllStable.new val xc = .panic ↔ Ell.new val xc = .panic) ∧
    (EllStable.newWithScalar k xc = .panic ↔ Ell.newWithScalar k xc = .panic) ∧
    (∀ s e, (EllStable.new val xc = .ok s ∧ Ell.new val xc = .ok e) ∨
        (EllStable.newWithScalar k xc = .ok s ∧ Ell.newWithScalar k xc = .ok e) ∨
        (s = EllStable.newWithMatrix k mq xc ∧ e = Ell.newWithMatrix k mq xc) →
      s.mq = e.mq ∧ s.xc = e.xc ∧ s.kappa = e.kappa ∧ s.helper = e.helper ∧ s.tsq = e.tsq) := by
  refine ⟨?_, ?_, ?_⟩
  · simp only [EllStable.new, Ell.new]
    cases Arr.fromDiag val <;> simp
  · simp only [EllStable.newWithScalar, Ell.newWithScalar]
    cases (Arr.eye xc.len : Res (Arr α)) <;> simp
  · rintro s e (⟨h1, h2⟩ | ⟨h1, h2⟩ | ⟨rfl, rfl⟩)
    · simp only [EllStable.new, Ell.new] at h1 h2
      cases hd : Arr.fromDiag val with
      | ok d =>
        rw [hd] at h1 h2
        simp only [Res.ok_bind, Res.ok.injEq] at h1 h2
        subst h1 h2
        exact ⟨rfl, rfl, rfl, rfl, rfl⟩
      | panic => rw [hd] at h1; simp at h1
    · simp only [EllStable.newWithScalar, Ell.newWithScalar] at h1 h2
      cases hd : (Arr.eye xc.len : Res (Arr α)) with
      | ok d =>
        rw [hd] at h1 h2
        simp only [Res.ok_bind, Res.ok.injEq] at h1 h2
        subst h1 h2
        exact ⟨rfl, rfl, rfl, rfl, rfl⟩
      | panic => rw [hd] at h1; simp at h1
    · exact ⟨rfl, rfl, rfl, rfl, rfl⟩

/-- a sequence of central cuts never stops an `Ell` and keeps `kappa` positive -/
theorem Ell.central_run (hn : 2 ≤ n) (cuts : List (UpdateKind × Arr ℝ × SingleCut ℝ)) (e : Ell ℝ)
    (he : e.Valid n) (hk : e.noDeferTrick = false)
    (hcut : ∀ c ∈ cuts, c.1 = .central ∧ c.2.1.IsVecShape n ∧ c.2.1.toVec n ≠ 0) :
    ∃ trE, Ell.space.run e cuts = .ok trE ∧ ∀ p ∈ trE, p.1 = .success ∧ 0 < p.2.kappa := by
  induction cuts generalizing e with
  | nil => exact ⟨[], rfl, by simp⟩
  | cons a rest ih =>
    obtain ⟨k, grad, ⟨β⟩⟩ := a
    obtain ⟨hk1, hs, hg⟩ := hcut _ List.mem_cons_self
    simp only at hk1 hs hg
    subst hk1
    obtain ⟨e', h1, -⟩ := C14_central_keeps_half e grad β he hs hg
    have h2 := (Ell.step_good he .central (grad, (⟨β⟩ : SingleCut ℝ)) hs hg
      ((Cut.adm_single n .central β _).mpr trivial) h1).1
    obtain ⟨st, e2, i1, -, -, i4, -⟩ := Ell.update_shape (by omega : 0 < n) .central e (grad, (⟨β⟩ : SingleCut ℝ))
      he.shaped hs
    rw [h1] at i1
    injection i1 with i1
    simp only [Prod.mk.injEq] at i1
    obtain ⟨rfl, rfl⟩ := i1
    obtain ⟨tr, b1, b2⟩ := ih e' h2 (i4.trans hk) fun c hc => hcut c (by simp [hc])
    refine ⟨(.success, e') :: tr, by simp only [Space.run, h1, Res.ok_bind, b1], ?_⟩
    intro p hp
    rcases List.mem_cons.mp hp with rfl | hp
    · exact ⟨rfl, h2.kappa⟩
    · exact b2 p hp

/-- **C28, partial.**  For central cuts on single coordinates the agreement is unconditional: every step of both
succeeds, and centre, matrix, `kappa` and `tsq` agree after each. -/
theorem C28_stable_axis_central_partial (hn : 2 ≤ n) (kappa : ℝ) (hκ : 0 < kappa) (mq xc : Arr ℝ)
    (hmq : mq.IsMatShape n n) (hxc : xc.IsVecShape n) (d : Fin n → ℝ) (hd : ∀ i, 0 < d i)
    (hM : mq.toMat n n = diagonal d) (cuts : List (UpdateKind × Arr ℝ × SingleCut ℝ))
    (hcut : ∀ c ∈ cuts, c.1 = .central ∧ c.2.1.IsVecShape n ∧
      ∃ q, c.2.1.toVec n q ≠ 0 ∧ ∀ i, i ≠ q → c.2.1.toVec n i = 0) :
    ∃ tr trE, EllStable.space.run (EllStable.newWithMatrix kappa mq xc) cuts = .ok tr ∧
      Ell.space.run (Ell.newWithMatrix kappa mq xc) cuts = .ok trE ∧
      List.Forall₂ (fun p q => p.1 = .success ∧ q.1 = .success ∧ p.2.SameAs n q.2) tr trE := by
  have hv : (Ell.newWithMatrix kappa mq xc).Valid n :=
    C13_valid_with_matrix kappa mq xc hn hmq hxc (by rw [hM]; exact PosDef.diagonal hd) hκ
  obtain ⟨trE, h1, h2⟩ := Ell.central_run hn cuts _ hv rfl fun c hc => by
    obtain ⟨a, b, q, hq, -⟩ := hcut c hc
    exact ⟨a, b, fun h0 => hq (by rw [h0]; rfl)⟩
  obtain ⟨tr, h3, h4⟩ := C28_stable_axis_run_partial hn kappa hκ mq xc hmq hxc d hd hM cuts
    (fun c hc => by
      obtain ⟨a, b, q⟩ := hcut c hc
      exact ⟨b, by rw [a]; simp, q⟩) h1 fun p hp => (h2 p hp).2
  refine ⟨tr, trE, h3, h1, ?_⟩
  clear h1 h3
  induction h4 with
  | nil => exact .nil
  | cons a _ ih =>
    refine .cons ⟨?_, (h2 _ List.mem_cons_self).1, a.2⟩ (ih fun p hp => h2 p (List.mem_cons_of_mem _ hp))
    rw [a.1, (h2 _ List.mem_cons_self).1]

/-- non-vacuity: the unit disc, cut through the centre first along one axis and then along the other -/
example : ∃ tr trE, EllStable.space.run (EllStable.newWithMatrix 1 (⟨[1, 0, 0, 1], 2, 2⟩ : Arr ℝ) (Arr.ofList [0, 0]))
      [(.central, Arr.ofList [1, 0], (⟨0⟩ : SingleCut ℝ)), (.central, Arr.ofList [0, 2], ⟨0⟩)] = .ok tr ∧
    Ell.space.run (Ell.newWithMatrix 1 (⟨[1, 0, 0, 1], 2, 2⟩ : Arr ℝ) (Arr.ofList [0, 0]))
      [(.central, Arr.ofList [1, 0], (⟨0⟩ : SingleCut ℝ)), (.central, Arr.ofList [0, 2], ⟨0⟩)] = .ok trE ∧
    List.Forall₂ (fun p q => p.1 = .success ∧ q.1 = .success ∧ p.2.SameAs 2 q.2) tr trE := by
  refine C28_stable_axis_central_partial le_rfl 1 one_pos _ _ ⟨rfl, rfl, rfl⟩ (pair_shape _ _) (fun _ => 1)
    (fun _ => one_pos) ?_ _ ?_
  · ext i j
    fin_cases i <;> fin_cases j <;> simp [Arr.toMat, Arr.mat]
  · intro c hc
    simp only [List.mem_cons, List.not_mem_nil, or_false] at hc
    rcases hc with rfl | rfl
    · refine ⟨rfl, pair_shape _ _, 0, ?_, ?_⟩
      · simp [pair_toVec]
      · intro i hi
        fin_cases i
        · simp at hi
        · simp [pair_toVec]
    · refine ⟨rfl, pair_shape _ _, 1, ?_, ?_⟩
      · simp [pair_toVec]
      · intro i hi
        fin_cases i
        · simp [pair_toVec]
        · simp at hi

end Ellalgo
