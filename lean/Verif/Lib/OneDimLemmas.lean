import Verif.Spec.OneDim
import Verif.Lib.EllLemmas

/-! In dimension one every successful strategy multiplies the scale factor by a value that is not finite. -/

namespace Ellalgo
variable {α : Type} [Scalar α] {B : α → Prop}

section strategies
variable (hB : NonFiniteLaws B) (c : EllCalc α) (hc : c.helper = EllCalcCore.new (nat 1))
include hB hc

theorem cst1_nonFinite : B c.helper.cst1 := by
  rw [hc]; exact hB.div_zero _ hB.one_sq

omit hc in
theorem biasFast_nonFinite (h1 : B c.helper.cst1) (b tau eta : α) {ρ σ δ : α} (h : c.helper.calcBiasCutFast b tau eta = (ρ, σ, δ)) :
    B δ ∧ (B eta → B ρ) := by
  simp only [EllCalcCore.calcBiasCutFast, Prod.mk.injEq] at h
  obtain ⟨rfl, -, rfl⟩ := h
  exact ⟨hB.mul_left h1 _, fun h => hB.div_left h _⟩

omit hc in
theorem parFast_nonFinite (h1 : B c.helper.cst1) (b0 b1 tsq eta : α) {ρ σ δ : α}
    (h : c.helper.calcParallelBiasCutFast b0 b1 tsq (b0 * b1) eta = (ρ, σ, δ)) : B δ ∧ (B eta → B ρ) := by
  simp only [EllCalcCore.calcParallelBiasCutFast, Prod.mk.injEq] at h
  obtain ⟨rfl, -, rfl⟩ := h
  exact ⟨hB.div_left (hB.mul_left h1 _) _, fun h => hB.div_left (hB.mul_left (hB.div_left (hB.mul_right _ h) _) _) _⟩

/-- single cuts -/
theorem single_nonFinite (k : UpdateKind) (b tsq : α) {ρ σ δ : α}
    (h : CutType.call k (⟨b⟩ : SingleCut α) c tsq = (.success, ρ, σ, δ)) : B δ ∧ (B tsq → B ρ) := by
  have h1 := cst1_nonFinite hB c hc
  cases k with
  | central =>
    simp only [CutType.call, CutType.callCentral, EllCalc.calcCentralCut, EllCalcCore.calcCentralCut, Prod.mk.injEq, true_and] at h
    obtain ⟨rfl, -, rfl⟩ := h
    exact ⟨h1, fun h => hB.div_left (hB.sqrt h) _⟩
  | bias =>
    simp only [CutType.call, CutType.callBias, EllCalc.calcBiasCut] at h
    split at h
    · simp at h
    · simp only [Prod.mk.injEq, true_and] at h
      obtain ⟨h2, h3⟩ := biasFast_nonFinite hB c h1 _ _ _ h
      exact ⟨h2, fun ht => h3 (hB.add_left (hB.sqrt ht) _)⟩
  | q =>
    simp only [CutType.call, CutType.callQ, EllCalc.calcBiasCutQ] at h
    split at h
    · simp at h
    · split at h
      · simp at h
      · simp only [Prod.mk.injEq, true_and] at h
        obtain ⟨h2, h3⟩ := biasFast_nonFinite hB c h1 _ _ _ h
        exact ⟨h2, fun ht => h3 (hB.add_left (hB.sqrt ht) _)⟩

/-- cuts with two planes -/
theorem par_nonFinite (k : UpdateKind) (p : ParallelCut α) (hk : ScaledCut.scaled k p) (tsq : α) {ρ σ δ : α}
    (h : CutType.call k p c tsq = (.success, ρ, σ, δ)) : B δ ∧ (B tsq → B ρ) := by
  have h1 := cst1_nonFinite hB c hc
  obtain ⟨b0, b1⟩ := p
  cases b1 with
  | none =>
    apply single_nonFinite hB c hc k b0 tsq
    cases k <;> exact h
  | some b1 =>
    cases k with
    | central => exact absurd (hk rfl) (by simp)
    | bias =>
      simp only [CutType.call, CutType.callBias, EllCalc.calcSingleOrParallelBiasCut, EllCalc.calcParallelBiasCut] at h
      split at h
      · simp at h
      · split at h
        · exact single_nonFinite hB c hc .bias b0 tsq h
        · simp only [Prod.mk.injEq, true_and, EllCalcCore.calcParallelBiasCut] at h
          obtain ⟨h2, h3⟩ := parFast_nonFinite hB c h1 _ _ _ _ h
          exact ⟨h2, fun ht => h3 (hB.add_left ht _)⟩
    | q =>
      simp only [CutType.call, CutType.callQ, EllCalc.calcSingleOrParallelQ, EllCalc.calcParallelQ] at h
      split at h
      · simp at h
      · split at h
        · exact single_nonFinite hB c hc .q b0 tsq h
        · split at h
          · simp at h
          · simp only [Prod.mk.injEq, true_and] at h
            obtain ⟨h2, h3⟩ := parFast_nonFinite hB c h1 _ _ _ _ h
            exact ⟨h2, fun ht => h3 (hB.add_left ht _)⟩

end strategies

/-- the two cut types of the crate -/
class LawfulScaled (T : Type) [CutType T α] [ScaledCut T] : Prop where
  nonFinite : ∀ {B : α → Prop}, NonFiniteLaws B → ∀ (c : EllCalc α), c.helper = EllCalcCore.new (nat 1) →
    ∀ (k : UpdateKind) (t : T), ScaledCut.scaled k t → ∀ (tsq : α) {ρ σ δ : α},
      CutType.call k t c tsq = (.success, ρ, σ, δ) → B δ ∧ (B tsq → B ρ)

instance : LawfulScaled (α := α) (SingleCut α) where
  nonFinite hB c hc k t _ tsq _ _ _ h := single_nonFinite hB c hc k t.beta tsq h
instance : LawfulScaled (α := α) (ParallelCut α) where
  nonFinite hB c hc k t hk tsq _ _ _ h := par_nonFinite hB c hc k t hk tsq h

omit [Scalar α] in
theorem IsVec.nonFinite {a : Arr α} {v : Nat → α} (h : IsVec a 1 v) (hv : B (v 0)) : a.NonFinite B := by
  intro x hx
  obtain ⟨i, hi, rfl⟩ := List.mem_iff_getElem.1 hx
  have hi0 : i = 0 := by have := h.len; omega
  subst hi0
  have := h.get 0 (by omega)
  rw [List.getElem?_eq_getElem hi] at this
  rw [Option.some.inj this]
  exact hv

/-- the size of the ellipsoid is not finite: its scale factor or its only matrix entry -/
def Ell.Blown (B : α → Prop) (e : Ell α) : Prop := B e.kappa ∨ B (e.mq.mat 0 0)

variable {T : Type} [CutType T α] [ScaledCut T] [LawfulScaled (α := α) T]

/-- one update in dimension one -/
theorem Ell.oneDim_step (hB : NonFiniteLaws B) (k : UpdateKind) (e : Ell α) (he : e.OneDim) (g : Arr α)
    (hg : g.IsVecShape 1) (c : T) (hk : ScaledCut.scaled k c) :
    ∃ st e', (Ell.space (T := T)).update k e (g, c) = .ok (st, e') ∧ e'.OneDim ∧
      (st ≠ .success → e'.xc = e.xc ∧ (e.Blown B → e'.Blown B)) ∧
      (st = .success → e'.Blown B ∧ (e.Blown B → e'.xc.NonFinite B)) := by
  obtain ⟨he, hh⟩ := he
  rcases hs : CutType.call k c e.helper (e.kappa * Ell.om 1 e.mq.mat g.vec) with ⟨st, ρ, σ, δ⟩
  rcases Ell.updateCore_spec he.1.isMat he.2.isVec hg.isVec (by omega) _ hs with ⟨h1, h2⟩ | ⟨h1, e', h2, h3, h4, h5, h6, h7, h8⟩
  · exact ⟨st, { e with tsq := e.kappa * Ell.om 1 e.mq.mat g.vec }, by rw [Ell.update_eq]; exact h2, ⟨he, hh⟩,
      fun _ => ⟨rfl, fun h => h⟩, fun h => absurd h h1⟩
  · subst h1
    refine ⟨_, e', by rw [Ell.update_eq]; exact h2, ⟨⟨h3.shape, h4.shape⟩, by rw [h6]; exact hh⟩, fun h => absurd rfl h, fun _ => ?_⟩
    obtain ⟨hδ, hρ⟩ := LawfulScaled.nonFinite hB e.helper hh k c hk _ hs
    constructor
    · cases hd : e.noDeferTrick
      · left; rw [h5, hd]; simpa using hB.mul_right _ hδ
      · right
        rw [h3.mat (by omega) (by omega)]
        simp only [Ell.deferM, hd, if_true]
        exact hB.mul_right _ (hB.mul_right _ hδ)
    · intro hb
      have ht : B (e.kappa * Ell.om 1 e.mq.mat g.vec) := by
        rcases hb with hb | hb
        · exact hB.mul_left hb _
        · refine hB.mul_right _ ?_
          simp only [Ell.om, Ell.gt, sumTo]
          exact hB.add_right _ (hB.mul_right _ (hB.add_right _ (hB.mul_left hb _)))
      exact h4.nonFinite (hB.sub_right _ (hB.mul_left (hB.div_left (hρ ht) _) _))

/-- one update of `EllStable` in dimension one -/
theorem EllStable.oneDim_step (hB : NonFiniteLaws B) (k : UpdateKind) (e : EllStable α) (he : e.OneDim) (g : Arr α)
    (hg : g.IsVecShape 1) (c : T) (hk : ScaledCut.scaled k c) :
    ∃ st e', (EllStable.space (T := T)).update k e (g, c) = .ok (st, e') ∧ e'.OneDim ∧
      (st ≠ .success → e'.xc = e.xc ∧ (B e.kappa → B e'.kappa)) ∧
      (st = .success → B e'.kappa ∧ (B e.kappa → e'.xc.NonFinite B)) := by
  obtain ⟨⟨hm, hx⟩, hh⟩ := he
  obtain ⟨⟨md, mr, mc⟩, ⟨xd, xr, xc⟩, κ, hp, ts⟩ := e
  obtain ⟨gd, gr, gc⟩ := g
  obtain ⟨rfl, rfl, hm⟩ := hm
  obtain ⟨rfl, rfl, hx⟩ := hx
  obtain ⟨rfl, rfl, hg⟩ := hg
  obtain ⟨m, rfl⟩ := List.length_eq_one_iff.1 hm
  obtain ⟨x, rfl⟩ := List.length_eq_one_iff.1 hx
  obtain ⟨g, rfl⟩ := List.length_eq_one_iff.1 hg
  rcases hs : CutType.call k c hp (κ * (0 + g * m * g)) with ⟨st, ρ, σ, δ⟩
  rw [EllStable.update_eq]
  have key : ∀ strat : α → CutStatus × Triple α, strat (κ * (0 + g * m * g)) = (st, ρ, σ, δ) →
      ∃ mq : Arr α, mq.IsMatShape 1 1 ∧
      (⟨⟨[m], 1, 1⟩, ⟨[x], 1, 0⟩, κ, hp, ts⟩ : EllStable α).updateCore ⟨[g], 1, 0⟩ strat =
        if st != .success then .ok (st, ⟨⟨[m], 1, 1⟩, ⟨[x], 1, 0⟩, κ, hp, κ * (0 + g * m * g)⟩)
        else .ok (st, ⟨mq, ⟨[x - ρ / (0 + g * m * g) * (g * m)], 1, 0⟩, κ * δ, hp, κ * (0 + g * m * g)⟩) := by
    intro strat hst
    refine ⟨⟨[m * ((0 + g * m * g) / (σ / (1 - σ)) / ((0 + g * m * g) / (σ / (1 - σ)) + g * m * g))], 1, 1⟩, ⟨rfl, rfl, rfl⟩, ?_⟩
    have : (⟨⟨[m], 1, 1⟩, ⟨[x], 1, 0⟩, κ, hp, ts⟩ : EllStable α).updateCore ⟨[g], 1, 0⟩ strat = 
        (match strat (κ * (0 + g * m * g)) with
        | (status, (rho, sigma, delta)) =>
          if status != .success then .ok (status, ⟨⟨[m], 1, 1⟩, ⟨[x], 1, 0⟩, κ, hp, κ * (0 + g * m * g)⟩)
          else .ok (status, ⟨⟨[m * ((0 + g * m * g) / (sigma / (1 - sigma)) /
              ((0 + g * m * g) / (sigma / (1 - sigma)) + g * m * g))], 1, 1⟩,
            ⟨[x - rho / (0 + g * m * g) * (g * m)], 1, 0⟩, κ * delta, hp, κ * (0 + g * m * g)⟩)) := rfl
    rw [this, hst]
  obtain ⟨mq, hmq, hk2⟩ := key (CutType.call k c hp) hs
  by_cases hst : st = .success
  · subst hst
    obtain ⟨hδ, hρ⟩ := LawfulScaled.nonFinite hB hp hh k c hk _ hs
    refine ⟨_, _, hk2, ⟨⟨hmq, rfl, rfl, rfl⟩, hh⟩, fun h => absurd rfl h, fun _ => ⟨hB.mul_right _ hδ, fun hb v hv => ?_⟩⟩
    have hv : v = x - ρ / (0 + g * m * g) * (g * m) := by simpa using hv
    rw [hv]
    exact hB.sub_right _ (hB.mul_left (hB.div_left (hρ (hB.mul_left hb _)) _) _)
  · refine ⟨st, _, hk2.trans (if_pos (by simpa using hst)), ⟨⟨⟨rfl, rfl, rfl⟩, rfl, rfl, rfl⟩, hh⟩, fun _ => ⟨rfl, fun h => h⟩,
      fun h => absurd h hst⟩

end Ellalgo
