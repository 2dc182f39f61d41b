import Verif.Props.EllReal2
import Verif.Spec.Affine

/-! The strategies commute with scaling of the cut; arrays of the same shape and content are equal. -/

namespace Ellalgo
open Matrix

variable {n : Nat}

section
variable {s : ℝ} (hs : 0 < s)
include hs

theorem sqrt_sq_mul (t : ℝ) : √(s * s * t) = s * √t := by
  rw [Real.sqrt_mul (by positivity), Real.sqrt_mul_self hs.le]

theorem fast_scale (n τ β η : ℝ) {ρ σ δ : ℝ} (h : (EllCalcCore.new n).calcBiasCutFast β τ η = (ρ, σ, δ)) :
    (EllCalcCore.new n).calcBiasCutFast (s * β) (s * τ) (s * η) = (s * ρ, σ, δ) := by
  rw [calcBiasCutFast_real] at h ⊢
  simp only [Prod.mk.injEq] at h ⊢
  obtain ⟨rfl, rfl, rfl⟩ := h
  refine ⟨by ring, ?_, ?_⟩
  · rw [← mul_add, mul_div_assoc s, mul_left_comm, mul_div_mul_left _ _ hs.ne']
  · rw [mul_div_mul_left _ _ hs.ne']

theorem par_scale (n b0 b1 tsq p η : ℝ) {ρ σ δ : ℝ}
    (h : (EllCalcCore.new n).calcParallelBiasCutFast b0 b1 tsq p η = (ρ, σ, δ)) :
    (EllCalcCore.new n).calcParallelBiasCutFast (s * b0) (s * b1) (s * s * tsq) (s * s * p) (s * s * η) =
      (s * ρ, σ, δ) := by
  rw [calcParallelFast_real] at h ⊢
  dsimp only at h ⊢
  simp only [Prod.mk.injEq] at h ⊢
  obtain ⟨rfl, rfl, rfl⟩ := h
  have hss : s * s ≠ 0 := by positivity
  have e : √((s * s * tsq - s * b0 * (s * b0)) * (s * s * tsq - s * b1 * (s * b1)) +
      n / 2 * (s * b1 * (s * b1) - s * b0 * (s * b0)) * (n / 2 * (s * b1 * (s * b1) - s * b0 * (s * b0)))) =
      s * s * √((tsq - b0 * b0) * (tsq - b1 * b1) +
        (n / 2 * (b1 * b1 - b0 * b0)) * (n / 2 * (b1 * b1 - b0 * b0))) := by
    rw [← sqrt_sq_mul (s := s * s) (by positivity)]
    congr 1; ring
  rw [e]
  set ξ := √((tsq - b0 * b0) * (tsq - b1 * b1) + (n / 2 * (b1 * b1 - b0 * b0)) * (n / 2 * (b1 * b1 - b0 * b0)))
  have e2 : 2 * (s * s * η) / (s * s * tsq + s * s * p + n / 2 * ((s * b0 + s * b1) * (s * b0 + s * b1)) + s * s * ξ) =
      2 * η / (tsq + p + n / 2 * ((b0 + b1) * (b0 + b1)) + ξ) := by
    rw [← mul_div_mul_left (2 * η) _ hss]
    congr 1 <;> ring
  refine ⟨?_, e2, ?_⟩
  · rw [e2]; ring
  · rw [← mul_div_mul_left _ tsq hss]
    congr 1; ring

theorem parCentral_scale (n b1 tsq : ℝ) {ρ σ δ : ℝ}
    (h : (EllCalcCore.new n).calcParallelCentralCut b1 tsq = (ρ, σ, δ)) :
    (EllCalcCore.new n).calcParallelCentralCut (s * b1) (s * s * tsq) = (s * ρ, σ, δ) := by
  rw [calcParallelCentral_real] at h ⊢
  have hss : s * s ≠ 0 := by positivity
  have e : s * b1 * (s * b1) / (s * s * tsq) = b1 * b1 / tsq := by
    rw [← mul_div_mul_left (b1 * b1) tsq hss]; congr 1; ring
  rw [e]
  dsimp only at h ⊢
  simp only [Prod.mk.injEq] at h ⊢
  obtain ⟨rfl, rfl, rfl⟩ := h
  exact ⟨by ring, rfl, rfl⟩

theorem central_scale (n tsq : ℝ) {ρ σ δ : ℝ}
    (h : (EllCalcCore.new n).calcCentralCut tsq = (ρ, σ, δ)) :
    (EllCalcCore.new n).calcCentralCut (s * s * tsq) = (s * ρ, σ, δ) := by
  rw [calcCentralCut_real] at h ⊢
  simp only [Prod.mk.injEq] at h ⊢
  obtain ⟨rfl, rfl, rfl⟩ := h
  exact ⟨by rw [sqrt_sq_mul hs]; ring, rfl, rfl⟩

/-- the strategies commute with scaling -/
theorem call_scale_none (k : UpdateKind) (β tsq : ℝ) {st : CutStatus} {ρ σ δ : ℝ}
    (h : CutType.call k (⟨β, none⟩ : ParallelCut ℝ) (EllCalc.new n) tsq = (st, ρ, σ, δ)) :
    CutType.call k (⟨s * β, none⟩ : ParallelCut ℝ) (EllCalc.new n) (s * s * tsq) = (st, s * ρ, σ, δ) := by
  have hss : 0 < s * s := by positivity
  cases k with
  | central =>
    have h : (EllCalc.new n).calcCentralCut tsq = _ := h
    show (EllCalc.new n).calcCentralCut _ = _
    rw [calcCentralS_real] at h ⊢
    simp only [Prod.mk.injEq] at h
    obtain ⟨rfl, h'⟩ := h
    rw [central_scale hs _ _ h']
  | bias =>
    have h : (EllCalc.new n).calcBiasCut β tsq = _ := h
    show (EllCalc.new n).calcBiasCut _ _ = _
    rw [calcBias_real] at h ⊢
    have e : s * s * tsq < s * β * (s * β) ↔ tsq < β * β := by
      rw [show s * β * (s * β) = s * s * (β * β) by ring, mul_lt_mul_iff_right₀ hss]
    simp only [e]
    split at h
    · rename_i hc
      simp only [Prod.mk.injEq] at h
      obtain ⟨rfl, rfl, rfl, rfl⟩ := h
      rw [if_pos hc, mul_zero]
    · rename_i hc
      simp only [Prod.mk.injEq] at h
      obtain ⟨rfl, h'⟩ := h
      rw [if_neg hc, sqrt_sq_mul hs, show s * √tsq + n * (s * β) = s * (√tsq + n * β) by ring, fast_scale hs _ _ _ _ h']
  | q =>
    have h : (EllCalc.new n).calcBiasCutQ β tsq = _ := h
    show (EllCalc.new n).calcBiasCutQ _ _ = _
    rw [calcBiasQ_real] at h ⊢
    rw [sqrt_sq_mul hs, show s * √tsq + n * (s * β) = s * (√tsq + n * β) by ring]
    have e1 : s * √tsq < s * β ↔ √tsq < β := mul_lt_mul_iff_right₀ hs
    have e2 : s * (√tsq + n * β) < 0 ↔ √tsq + n * β < 0 := by
      constructor
      · intro h'; by_contra hc; exact absurd h' (not_lt.mpr (mul_nonneg hs.le (not_lt.mp hc)))
      · intro h'; exact mul_neg_of_pos_of_neg hs h'
    simp only [e1, e2]
    split at h
    · rename_i hc
      simp only [Prod.mk.injEq] at h
      obtain ⟨rfl, rfl, rfl, rfl⟩ := h
      rw [if_pos hc, mul_zero]
    · rename_i hc
      split at h
      · rename_i hd
        simp only [Prod.mk.injEq] at h
        obtain ⟨rfl, rfl, rfl, rfl⟩ := h
        rw [if_neg hc, if_pos hd, mul_zero]
      · rename_i hd
        simp only [Prod.mk.injEq] at h
        obtain ⟨rfl, h'⟩ := h
        rw [if_neg hc, if_neg hd, fast_scale hs _ _ _ _ h']

theorem call_scale (k : UpdateKind) (c : ParallelCut ℝ) (tsq : ℝ) {st : CutStatus} {ρ σ δ : ℝ}
    (h : CutType.call k c (EllCalc.new n) tsq = (st, ρ, σ, δ)) :
    CutType.call k (c.scale s) (EllCalc.new n) (s * s * tsq) = (st, s * ρ, σ, δ) := by
  have hss : 0 < s * s := by positivity
  obtain ⟨β, b1⟩ := c
  cases b1 with
  | none => exact call_scale_none hs k β tsq h
  | some b1 =>
    have sq : ∀ x : ℝ, s * s * tsq ≤ s * x * (s * x) ↔ tsq ≤ x * x := fun x => by
      rw [show s * x * (s * x) = s * s * (x * x) by ring, mul_le_mul_iff_right₀ hss]
    have lt01 : ∀ x y : ℝ, s * x < s * y ↔ x < y := fun x y => mul_lt_mul_iff_right₀ hs
    have ltz : ∀ x : ℝ, s * x < 0 ↔ x < 0 := fun x => by have := lt01 x 0; rwa [mul_zero] at this
    have zlt : ∀ x : ℝ, 0 < s * x ↔ 0 < x := fun x => by have := lt01 0 x; rwa [mul_zero] at this
    have eη : s * s * tsq + n * (s * β * (s * b1)) = s * s * (tsq + n * (β * b1)) := by ring
    have ep : s * β * (s * b1) = s * s * (β * b1) := by ring
    cases k with
    | central =>
      have h : (EllCalc.new n).calcParallelCentralCut b1 tsq = _ := h
      show (EllCalc.new n).calcParallelCentralCut (s * b1) _ = _
      rw [calcParallelCentralS_real] at h ⊢
      simp only [sq, ltz]
      split at h
      · rename_i hc
        simp only [Prod.mk.injEq] at h
        obtain ⟨rfl, rfl, rfl, rfl⟩ := h
        rw [if_pos hc, mul_zero]
      · rename_i hc
        rw [if_neg hc]
        split at h
        · rename_i hd
          rw [if_pos hd]
          exact call_scale_none hs .central 0 tsq h
        · rename_i hd
          rw [if_neg hd]
          simp only [Prod.mk.injEq] at h
          obtain ⟨rfl, h'⟩ := h
          rw [parCentral_scale hs _ _ _ h']
    | bias =>
      have h : (EllCalc.new n).calcParallelBiasCut β b1 tsq = _ := h
      show (EllCalc.new n).calcParallelBiasCut (s * β) (s * b1) _ = _
      rw [calcParallelBias_real] at h ⊢
      simp only [sq, lt01, zlt]
      split at h
      · rename_i hc
        simp only [Prod.mk.injEq] at h
        obtain ⟨rfl, rfl, rfl, rfl⟩ := h
        rw [if_pos hc, mul_zero]
      · rename_i hc
        rw [if_neg hc]
        split at h
        · rename_i hd
          rw [if_pos hd]
          exact call_scale_none hs .bias β tsq h
        · rename_i hd
          rw [if_neg hd, eη, ep]
          simp only [Prod.mk.injEq] at h
          obtain ⟨rfl, h'⟩ := h
          rw [par_scale hs _ _ _ _ _ _ h']
    | q =>
      have h : (EllCalc.new n).calcParallelQ β b1 tsq = _ := h
      show (EllCalc.new n).calcParallelQ (s * β) (s * b1) _ = _
      rw [calcParallelQ_real] at h ⊢
      have lez : s * s * (tsq + n * (β * b1)) ≤ 0 ↔ tsq + n * (β * b1) ≤ 0 := by
        have := mul_le_mul_iff_right₀ (b := tsq + n * (β * b1)) (c := 0) hss
        rwa [mul_zero] at this
      simp only [sq, lt01, zlt, eη, lez]
      split at h
      · rename_i hc
        simp only [Prod.mk.injEq] at h
        obtain ⟨rfl, rfl, rfl, rfl⟩ := h
        rw [if_pos hc, mul_zero]
      · rename_i hc
        rw [if_neg hc]
        split at h
        · rename_i hd
          rw [if_pos hd]
          exact call_scale_none hs .q β tsq h
        · rename_i hd
          rw [if_neg hd]
          split at h
          · rename_i he
            simp only [Prod.mk.injEq] at h
            obtain ⟨rfl, rfl, rfl, rfl⟩ := h
            rw [if_pos he, mul_zero]
          · rename_i he
            rw [if_neg he, ep]
            simp only [Prod.mk.injEq] at h
            obtain ⟨rfl, h'⟩ := h
            rw [par_scale hs _ _ _ _ _ _ h']

end

theorem call_scale_single {s : ℝ} (hs : 0 < s) (k : UpdateKind) (c : SingleCut ℝ) (tsq : ℝ) {st : CutStatus} {ρ σ δ : ℝ}
    (h : CutType.call k c (EllCalc.new n) tsq = (st, ρ, σ, δ)) :
    CutType.call k (c.scale s) (EllCalc.new n) (s * s * tsq) = (st, s * ρ, σ, δ) := by
  have := call_scale_none hs k c.beta tsq (st := st) (ρ := ρ) (σ := σ) (δ := δ) (by rw [← h]; cases k <;> rfl)
  rw [← this]; cases k <;> rfl

theorem arr_ext_vec {a b : Arr ℝ} (ha : a.IsVecShape n) (hb : b.IsVecShape n) (h : a.toVec n = b.toVec n) : a = b := by
  obtain ⟨da, ra, ca⟩ := a
  obtain ⟨db, rb, cb⟩ := b
  obtain ⟨h1, h2, h3⟩ := ha
  obtain ⟨h1', h2', h3'⟩ := hb
  simp only at h1 h2 h3 h1' h2' h3'
  subst h1 h2 h1' h2'
  congr 1
  apply List.ext_getElem (h3.trans h3'.symm)
  intro i hi hi'
  have := congrFun h ⟨i, h3 ▸ hi⟩
  simpa [Arr.toVec, Arr.vec, List.getElem?_eq_getElem hi, List.getElem?_eq_getElem hi'] using this

theorem arr_ext_mat {r c : Nat} {a b : Arr ℝ} (ha : a.IsMatShape r c) (hb : b.IsMatShape r c)
    (h : a.toMat r c = b.toMat r c) : a = b := by
  obtain ⟨da, ra, ca⟩ := a
  obtain ⟨db, rb, cb⟩ := b
  obtain ⟨h1, h2, h3⟩ := ha
  obtain ⟨h1', h2', h3'⟩ := hb
  simp only at h1 h2 h3 h1' h2' h3'
  subst h1 h2 h1' h2'
  congr 1
  apply List.ext_getElem (h3.trans h3'.symm)
  intro i hi hi'
  have hc : 0 < cb := by
    rcases Nat.eq_zero_or_pos cb with h0 | h0
    · rw [h3, h0, Nat.mul_zero] at hi; omega
    · exact h0
  have hr : i / cb < rb := by rw [Nat.div_lt_iff_lt_mul hc]; rw [h3] at hi; exact hi
  have := congrFun (congrFun h ⟨i / cb, hr⟩) ⟨i % cb, Nat.mod_lt _ hc⟩
  simp only [Arr.toMat, of_apply, Arr.mat] at this
  rw [Nat.div_add_mod'] at this
  simpa [List.getElem?_eq_getElem hi, List.getElem?_eq_getElem hi'] using this

end Ellalgo
