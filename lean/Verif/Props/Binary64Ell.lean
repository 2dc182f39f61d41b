import Verif.Lib.Binary64
import Verif.Lib.NanLemmas

/-! C99: `f64` as IEEE-754 binary64, with overflow and underflow: what gradients that are too small or too large do. -/

namespace Ellalgo
open B64

/-- **C99** (NaN)  Binary64 numbers obey the laws of NaN from which C81 is proved. -/
theorem C99_nan_laws : NanLaws (fun a : B64 => a = .nan) := nanLaws

/-- **C99** (not finite)  Binary64 numbers obey the laws of infinities and NaN from which C89 is proved. -/
theorem C99_non_finite_laws : NonFiniteLaws (fun a : B64 => ¬ a.Finite) := nonFiniteLaws

theorem IsVec.forall_mem {α : Type} {a : Arr α} {n : Nat} {v : Nat → α} (h : IsVec a n v) {P : α → Prop} :
    (∀ x ∈ a.data, P x) ↔ ∀ i < n, P (v i) := by
  constructor
  · intro hP i hi
    exact hP _ (List.mem_of_getElem? (h.get i hi))
  · intro hP x hx
    obtain ⟨i, hi, rfl⟩ := List.mem_iff_getElem.1 hx
    have hin : i < n := h.len ▸ hi
    have := h.get i hin
    rw [List.getElem?_eq_getElem hi] at this
    rw [Option.some.inj this]
    exact hP i hin

theorem IsMat.small {a : Arr B64} {r c : Nat} {m : Nat → Nat → B64} (h : IsMat a r c m) {P : B64 → Prop}
    (hP : ∀ x ∈ a.data, P x) : ∀ i < r, ∀ j < c, P (m i j) := by
  intro i hi j hj
  by_contra hc
  obtain ⟨x, hx, hn⟩ := (h.someNan (N := fun v => ¬ P v)).2 ⟨i, hi, j, hj, hc⟩
  exact hn (hP x hx)

/-- `gᵀ mq g` of a gradient that is too small is computed as zero -/
theorem tiny_om {n : Nat} {s t : ℤ} {mq g : Arr B64} {m : Nat → Nat → B64} {v : Nat → B64} (hm : IsMat mq n n m) (hg : IsVec g n v)
    (h : TinyGrad s t mq g) : Ell.om n m v = .zero false := by
  obtain ⟨h1, h2, h3, h4, h5⟩ := h
  have hm' := hm.small h1
  have hg' := hg.forall_mem.1 h2
  refine sum_zero n fun i hi => ?_
  have hT : Small (s + t + 54) (Ell.gt n m v i) :=
    sum_small h4 h5 n fun j hj => Small.mul rfl (by omega) (by omega) (hm' i hi j hj) (hg' j hj)
  exact Small.underflow (by omega) (hg' i hi) hT

/-- **C99** (gradients that are too small)  Take any `Ell` whose scale factor is finite and a gradient `g` that is too small for its
matrix, in any dimension.  Then for every kind of update and every cut, single or parallel, at any offset: the update does not
panic, the size `tsq` it records is a zero, and either it is not reported as `Success` and changes nothing else, or it is
reported as `Success` and no coordinate of the new centre is a finite number. -/
theorem C99_tiny_gradient {T : Type} [CutType T B64] {n : Nat} (hn : 0 < n) (k : UpdateKind) (e : Ell B64) (he : e.Shaped n)
    (hκ : e.kappa.Finite) (g : Arr B64) (hg : g.IsVecShape n) {s t : ℤ} (ht : TinyGrad s t e.mq g) (c : T) :
    ∃ st e' z, Ell.space.update k e (g, c) = .ok (st, e') ∧ e'.Shaped n ∧ e'.tsq = .zero z ∧
      (st ≠ .success → e' = { e with tsq := .zero z }) ∧ (st = .success → ∀ v ∈ e'.xc.data, ¬ v.Finite) := by
  have hom := tiny_om he.1.isMat hg.isVec ht
  have hz : ∃ z, e.kappa * Ell.om n e.mq.mat g.vec = .zero z := by
    rw [hom]
    refine ⟨_, (finite_mul hκ (b := .zero false) trivial).trans (ofReal_zero ?_)⟩
    simp only [val, mul_zero]
    exact rnd64_zero
  obtain ⟨z, hz⟩ := hz
  rcases hc : CutType.call k c e.helper (e.kappa * Ell.om n e.mq.mat g.vec) with ⟨st, ρ, σ, δ⟩
  rw [Ell.update_eq]
  rcases Ell.updateCore_spec he.1.isMat he.2.isVec hg.isVec hn _ hc with ⟨h1, h2⟩ | ⟨h1, e', h2, h3, h4, h5, h6, h7, h8⟩
  · refine ⟨st, _, z, h2, he, hz, fun _ => by rw [hz], fun h => absurd h h1⟩
  · subst h1
    refine ⟨_, e', z, h2, ⟨h3.shape, h4.shape⟩, h8.trans hz, fun h => absurd rfl h, fun _ => ?_⟩
    refine h4.forall_mem.2 fun i hi => ?_
    rw [hom]
    exact nonFiniteLaws.sub_right _ (nonFiniteLaws.mul_left (nonFiniteLaws.div_zero _ (decide_eq_true rfl)) _)

/-- **C99** (false infeasibility)  In particular a bias cut whose squared offset is computed as a positive number is reported as
`NoSoln`: the ellipsoid and the half-space are declared disjoint, wherever the half-space lies. -/
theorem C99_tiny_gradient_nosoln {n : Nat} (hn : 0 < n) (e : Ell B64) (he : e.Shaped n) (hκ : e.kappa.Finite) (g : Arr B64)
    (hg : g.IsVecShape n) {s t : ℤ} (ht : TinyGrad s t e.mq g) (beta : B64) (hb : Scalar.lt 0 (beta * beta) = true) :
    ∃ z, Ell.space.updateBias e (g, (⟨beta⟩ : SingleCut B64)) = .ok (.noSoln, { e with tsq := .zero z }) := by
  have hom := tiny_om he.1.isMat hg.isVec ht
  have hz : ∃ z, e.kappa * Ell.om n e.mq.mat g.vec = .zero z := by
    rw [hom]
    refine ⟨_, (finite_mul hκ (b := .zero false) trivial).trans (ofReal_zero ?_)⟩
    simp only [val, mul_zero]
    exact rnd64_zero
  obtain ⟨z, hz⟩ := hz
  have hlt : Scalar.lt (.zero z) (beta * beta) = true := by
    rw [← hb]
    cases beta * beta <;> rfl
  have hc : CutType.callBias (⟨beta⟩ : SingleCut B64) e.helper (e.kappa * Ell.om n e.mq.mat g.vec) = (.noSoln, 0, 0, 0) := by
    rw [hz]
    show (if Scalar.lt (.zero z) (beta * beta) then _ else _) = _
    rw [hlt]
    rfl
  rcases Ell.updateCore_spec he.1.isMat he.2.isVec hg.isVec hn _ hc with ⟨h1, h2⟩ | ⟨h1, -⟩
  · rw [hz] at h2
    exact ⟨z, h2⟩
  · cases h1

/-- **C99** (the feasibility method gives up)  If the oracle answers the starting centre with a cut whose gradient is too small,
`cutting_plane_feas` with a positive tolerance and at least one iteration returns `(None, 0)`, whatever the feasible set is. -/
theorem C99_feas_gives_up {Ω T : Type} [CutType T B64] {n : Nat} (hn : 0 < n) (orc : OracleFeas Ω (Arr B64) T B64) (w : Ω)
    (e : Ell B64) (he : e.Shaped n) (hκ : e.kappa.Finite) (opts : Options B64) (hm : 0 < opts.maxIters)
    (htol : Scalar.lt 0 opts.tolerance = true) (g : Arr B64) (c : T) (w' : Ω) (ha : orc.assess w e.xc = .ok (some (g, c), w'))
    (hg : g.IsVecShape n) {s t : ℤ} (ht : TinyGrad s t e.mq g) :
    ∃ e', cuttingPlaneFeas orc Ell.space w e opts = .ok ((none, 0), w', e') := by
  obtain ⟨m, hm⟩ : ∃ m, opts.maxIters = m + 1 := ⟨opts.maxIters - 1, by omega⟩
  obtain ⟨st, e', z, h1, -, h2, -⟩ := C99_tiny_gradient hn .bias e he hκ g hg ht c
  have h1 : (Ell.space (T := T)).updateBias e (g, c) = .ok (st, e') := h1
  have ha : orc.assess w ((Ell.space (T := T)).xc e) = .ok (some (g, c), w') := ha
  have hlt : Scalar.lt ((Ell.space (T := T)).tsq e') opts.tolerance = true := by
    show Scalar.lt e'.tsq _ = true
    rw [h2, ← htol]
    cases opts.tolerance <;> rfl
  refine ⟨e', ?_⟩
  unfold cuttingPlaneFeas
  rw [hm, feasLoop]
  simp only [ha, h1, Res.ok_bind, hlt, Bool.or_true, if_true]

/-- **C99** (the optimisation method stops)  If the oracle answers a centre with a cut whose gradient is too small,
`cutting_plane_optim` stops there: starting at such a centre it does one iteration, and returns the centre if the oracle accepted
it, and `None` if not. -/
theorem C99_optim_gives_up {Ω T : Type} [CutType T B64] {n : Nat} (hn : 0 < n) (orc : OracleOptim Ω (Arr B64) T B64) (w : Ω)
    (e : Ell B64) (he : e.Shaped n) (hκ : e.kappa.Finite) (opts : Options B64) (hm : 0 < opts.maxIters)
    (htol : Scalar.lt 0 opts.tolerance = true) (γ γ' : B64) (g : Arr B64) (c : T) (better : Bool) (w' : Ω)
    (ha : orc.assess w e.xc γ = .ok (((g, c), better), γ', w'))
    (hg : g.IsVecShape n) {s t : ℤ} (ht : TinyGrad s t e.mq g) :
    ∃ e', cuttingPlaneOptim orc Ell.space w e γ opts = .ok ((if better then some e.xc else none, 0), γ', w', e') := by
  obtain ⟨m, hm⟩ : ∃ m, opts.maxIters = m + 1 := ⟨opts.maxIters - 1, by omega⟩
  obtain ⟨st, e', z, h1, -, h2, -⟩ := C99_tiny_gradient hn (if better then .central else .bias) e he hκ g hg ht c
  have h1 : (if better then (Ell.space (T := T)).updateCentral e (g, c) else (Ell.space (T := T)).updateBias e (g, c)) =
      .ok (st, e') := by
    rw [← h1]; cases better <;> rfl
  have ha : orc.assess w ((Ell.space (T := T)).xc e) γ = .ok (((g, c), better), γ', w') := ha
  have hlt : Scalar.lt ((Ell.space (T := T)).tsq e') opts.tolerance = true := by
    show Scalar.lt e'.tsq _ = true
    rw [h2, ← htol]
    cases opts.tolerance <;> rfl
  refine ⟨e', ?_⟩
  unfold cuttingPlaneOptim
  rw [hm, optimLoop]
  simp only [ha, h1, Res.ok_bind, hlt, Bool.or_true, if_true]
  rfl

end Ellalgo
