import Verif.Lib.Near
import Verif.Lib.StableFl
import Verif.Props.StableProps

/-! Error bounds for a step of a diagonal `EllStable` in rounded arithmetic. -/

namespace Ellalgo
open Matrix
open scoped ComplexOrder
variable {u : ℝ} {R : Rounding u} {n : Nat}

theorem Near.bernoulli (h0 : 0 ≤ u) (hu : u < 1) (m : ℕ) : (1 - u) ^ m * (1 + m * u) ≤ 1 := by
  have h1 : 1 + (m : ℝ) * u ≤ (1 + u) ^ m := one_add_mul_le_pow (by linarith) m
  calc (1 - u) ^ m * (1 + m * u) ≤ (1 - u) ^ m * (1 + u) ^ m :=
        mul_le_mul_of_nonneg_left h1 (pow_sub_nonneg hu m).le
    _ = (1 - u ^ 2) ^ m := by rw [← mul_pow]; ring
    _ ≤ 1 := pow_le_one₀ (by nlinarith) (by nlinarith)

theorem Near.of_abs (h0 : 0 ≤ u) (hu : u < 1) {m : ℕ} {ε x y : ℝ} (hy : 0 ≤ y) (h : |x - y| ≤ ε * y)
    (hε : ε * (1 + m * u) ≤ m * u) : Near u m x y := by
  have hb := Near.bernoulli h0 hu m
  have hp := (pow_sub_nonneg hu m).le
  set p := (1 - u) ^ m
  have hm : 0 ≤ (m : ℝ) * u := by positivity
  obtain ⟨h1, h2⟩ := _root_.abs_le.1 h
  rcases hy.eq_or_lt with rfl | hy'
  · have : x = 0 := by simpa using h
    subst this
    simp [Near]
  have hε0 : 0 ≤ ε := by
    have := (abs_nonneg (x - y)).trans h
    nlinarith
  constructor
  · have : p ≤ 1 - ε := by nlinarith
    nlinarith
  · have : p * (1 + ε) ≤ 1 := by nlinarith
    nlinarith

theorem Near.abs_le' (h0 : 0 ≤ u) (hu : u < 1) {k : ℕ} {x y : ℝ} (hy : 0 ≤ y) (h : Near u k x y) (hk : k * u < 1) :
    |x - y| ≤ k * u / (1 - k * u) * y := by
  refine (h.abs_le h0 hu hy).trans (mul_le_mul_of_nonneg_right ?_ hy)
  have hb : 1 - (k : ℝ) * u ≤ (1 - u) ^ k := by
    have := one_add_mul_le_pow (show (-2 : ℝ) ≤ -u by linarith) k
    linarith [show 1 + (-u) = 1 - u by ring, this, show (1 + -u) ^ k = (1 - u) ^ k by ring]
  have h1 : ((1 - u) ^ k)⁻¹ ≤ (1 - k * u)⁻¹ := inv_anti₀ (by linarith) hb
  have h2 : (1 - k * u)⁻¹ - 1 = k * u / (1 - k * u) := by
    have : (1 - k * u : ℝ) ≠ 0 := by linarith
    field_simp; ring
  linarith

namespace EllStable

/-- one term of `omega` -/
theorem term_near (hu : u < 1) {v d : Fl R} (hd : 0 < d.val) : Near u 2 (v * d * v).val (v.val * d.val * v.val) := by
  have h : 0 ≤ v.val * d.val * v.val := by nlinarith [mul_self_nonneg v.val]
  exact (Near.rnd_mul hu h).round hu h

theorem sum_near (hu : u < 1) {p : Nat → Fl R} {q : Nat → ℝ} (k : ℕ) (hq : ∀ i < k, 0 ≤ q i) (h : ∀ i < k, Near u 2 (p i).val (q i)) :
    Near u (k + 2) (sumTo k p).val (sumTo k q) ∧ 0 ≤ sumTo k q := by
  have h0 := R.unit_nonneg
  induction k with
  | zero => simp [sumTo, Near]
  | succ k ih =>
    obtain ⟨h1, h2⟩ := ih (fun i hi => hq i (by omega)) (fun i hi => h i (by omega))
    have hk := hq k (by omega)
    have := (h k (by omega)).mono h0 hu (show 2 ≤ k + 2 by omega) ((h k (by omega)).nonneg hu hk) hk
    exact ⟨(h1.add this).round hu (add_nonneg h2 hk), add_nonneg h2 hk⟩

theorem tt_near (hu : u < 1) {p : Nat → Fl R} {q : Nat → ℝ} {t0 : Fl R} {T0 : ℝ} {m : ℕ} (hm : 2 ≤ m) (hT : 0 ≤ T0)
    (ht : Near u m t0.val T0) (k : ℕ) (hq : ∀ i < k, 0 ≤ q i) (h : ∀ i < k, Near u 2 (p i).val (q i)) :
    Near u (m + k) (ttF t0 p k).val (tt T0 q k) ∧ T0 ≤ tt T0 q k := by
  have h0 := R.unit_nonneg
  induction k with
  | zero => simpa [ttF, tt, sumTo] using ht
  | succ k ih =>
    obtain ⟨h1, h2⟩ := ih (fun i hi => hq i (by omega)) (fun i hi => h i (by omega))
    have hk := hq k (by omega)
    have := (h k (by omega)).mono h0 hu (show 2 ≤ m + k by omega) ((h k (by omega)).nonneg hu hk) hk
    have e : tt T0 q (k + 1) = tt T0 q k + q k := by simp only [tt, sumTo]; ring
    rw [e]
    exact ⟨(h1.add this).round hu (by linarith), by linarith⟩

theorem FlDiagonal.isMat {s : EllStable (Fl R)} (h : s.FlDiagonal n) : IsMat s.mq n n (dgF fun i => s.mq.mat i i) := by
  refine h.shaped.1.isMat.congr fun i j hi hj => ?_
  unfold dgF
  split
  · rename_i hij; rw [hij]
  · rename_i hij
    exact Fl.ext (h.off ⟨i, hi⟩ ⟨j, hj⟩ (by simpa using hij))

theorem flDiagonal_of {s : EllStable (Fl R)} {d c : Nat → Fl R} (hm : IsMat s.mq n n (dgF d)) (hx : IsVec s.xc n c) :
    s.FlDiagonal n :=
  ⟨⟨hm.shape, hx.shape⟩, fun i j hij => by
    show (s.mq.mat i j).val = 0
    rw [hm.mat i.2 j.2, dgF_off (by simpa [Fin.ext_iff] using hij)]
    rfl⟩

theorem FlPos.posDef {s : EllStable (Fl R)} (h : s.FlPos n) : (s.mq.flMat n).PosDef := by
  have : s.mq.flMat n = diagonal fun i => s.mq.flMat n i i := by
    ext i j
    by_cases hij : i = j
    · subst hij; simp
    · rw [h.off i j hij, diagonal_apply_ne _ hij]
  rw [this]
  exact PosDef.diagonal h.diag

/-- one update of a diagonal `EllStable` of floating-point numbers -/
theorem update_diagF {T : Type} [CutType T (Fl R)] (hn : 0 < n) (k : UpdateKind) (s : EllStable (Fl R)) (cut : Arr (Fl R) × T)
    (hs : s.FlDiagonal n) (hg : cut.1.IsVecShape n) (hrep : ∀ i, R.Rep (cut.1.flVec n i)) :
    ∃ st ρ σ δ s',
      CutType.call k cut.2 s.helper (s.kappa * sumTo n fun i => cut.1.vec i * s.mq.mat i i * cut.1.vec i) = (st, ρ, σ, δ) ∧
      EllStable.space.update k s cut = .ok (st, s') ∧ s'.helper = s.helper ∧
      s'.tsq = s.kappa * (sumTo n fun i => cut.1.vec i * s.mq.mat i i * cut.1.vec i) ∧ s'.FlDiagonal n ∧
      (st ≠ .success → s'.mq.flMat n = s.mq.flMat n ∧ s'.xc.flVec n = s.xc.flVec n ∧ s'.kappa = s.kappa) ∧
      (st = .success →
        (∀ i : Fin n, s'.mq.mat i i = s.mq.mat i i *
          (ttF ((sumTo n fun i => cut.1.vec i * s.mq.mat i i * cut.1.vec i) / (σ / (1 - σ)))
              (fun i => cut.1.vec i * s.mq.mat i i * cut.1.vec i) i /
           ttF ((sumTo n fun i => cut.1.vec i * s.mq.mat i i * cut.1.vec i) / (σ / (1 - σ)))
              (fun i => cut.1.vec i * s.mq.mat i i * cut.1.vec i) (i + 1))) ∧
        (∀ i : Fin n, s'.xc.vec i = s.xc.vec i - ρ / (sumTo n fun i => cut.1.vec i * s.mq.mat i i * cut.1.vec i) *
          (cut.1.vec i * s.mq.mat i i)) ∧
        s'.kappa = s.kappa * δ) := by
  rcases hc : CutType.call k cut.2 s.helper (s.kappa * sumTo n fun i => cut.1.vec i * s.mq.mat i i * cut.1.vec i) with
    ⟨st, ρ, σ, δ⟩
  obtain ⟨s', h1, h2, h3, h4, h5⟩ := updateCore_diagF hn hs.isMat hs.shaped.2.isVec hg.isVec
    (fun i hi => hrep ⟨i, hi⟩) (CutType.call k cut.2 s.helper) hc
  refine ⟨st, ρ, σ, δ, s', rfl, by rw [EllStable.update_eq]; exact h1, h2, h3, ?_, ?_, ?_⟩
  · by_cases hst : st = .success
    · obtain ⟨a, b, -⟩ := h5 hst
      exact flDiagonal_of a b
    · obtain ⟨a, b, -⟩ := h4 hst
      exact flDiagonal_of a b
  · intro hst
    obtain ⟨a, b, c⟩ := h4 hst
    refine ⟨?_, ?_, c⟩
    · ext i j
      show (s'.mq.mat i j).val = (s.mq.mat i j).val
      rw [a.mat i.2 j.2, ← hs.isMat.mat i.2 j.2]
    · funext i
      exact congrArg Fl.val (b.vec i.2)
  · intro hst
    obtain ⟨a, b, c⟩ := h5 hst
    refine ⟨fun i => ?_, fun i => b.vec i.2, c⟩
    rw [a.mat i.2 i.2, dgF_diag]

/-- positivity is kept when `0 < σ < 1` and `δ > 0` -/
theorem update_posF (hu : u < 1) {s s' : EllStable (Fl R)} (hs : s.FlPos n) {v : Nat → Fl R} (hv : ∃ i < n, (v i).val ≠ 0)
    (hdia : s'.FlDiagonal n) (hh : s'.helper = s.helper) {σ δ : Fl R} (hσ : 0 < σ.val) (hσ1 : σ.val < 1) (hδ : 0 < δ.val)
    (hm : ∀ i : Fin n, s'.mq.mat i i = s.mq.mat i i *
          (ttF ((sumTo n fun i => v i * s.mq.mat i i * v i) / (σ / (1 - σ))) (fun i => v i * s.mq.mat i i * v i) i /
           ttF ((sumTo n fun i => v i * s.mq.mat i i * v i) / (σ / (1 - σ))) (fun i => v i * s.mq.mat i i * v i) (i + 1)))
    (hκ : s'.kappa = s.kappa * δ) :
    s'.FlPos n ∧ ∀ i : Fin n, s'.mq.flMat n i i ≤ s.mq.flMat n i i := by
  have h0 := R.unit_nonneg
  set p : Nat → Fl R := fun i => v i * s.mq.mat i i * v i with hp
  have hd : ∀ i < n, 0 < (s.mq.mat i i).val := fun i hi => hs.diag ⟨i, hi⟩
  have hpn : ∀ i < n, 0 ≤ (p i).val := fun i hi =>
    (term_near hu (hd i hi)).nonneg hu (by nlinarith [mul_self_nonneg (v i).val, hd i hi])
  have hω : 0 < (sumTo n p).val := by
    obtain ⟨h1, h2⟩ := sum_near (R := R) hu (p := p) (q := fun i => (v i).val * (s.mq.mat i i).val * (v i).val) n
      (fun i hi => by nlinarith [mul_self_nonneg (v i).val, hd i hi]) (fun i hi => term_near hu (hd i hi))
    refine h1.pos hu ?_
    rw [sumTo_real]
    obtain ⟨i, hi, hne⟩ := hv
    refine Finset.sum_pos' (fun j hj => ?_) ⟨i, Finset.mem_range.2 hi, ?_⟩
    · have := hd j (Finset.mem_range.1 hj)
      nlinarith [mul_self_nonneg (v j).val]
    · have := hd i hi
      have : 0 < (v i).val * (v i).val := mul_self_pos.2 hne
      nlinarith
  have ht0 : 0 < (sumTo n p / (σ / (1 - σ))).val :=
    R.pos hu (div_pos hω (R.pos hu (div_pos hσ (R.pos hu (by simpa using hσ1)))))
  set t := ttF (sumTo n p / (σ / (1 - σ))) p with ht
  have htp : ∀ k, k ≤ n → 0 < (t k).val ∧ R.Rep (t k).val := by
    intro k
    induction k with
    | zero => exact fun _ => ⟨ht0, R.idem _⟩
    | succ k ih =>
      intro hk
      have := (ih (by omega)).1
      have := hpn k (by omega)
      exact ⟨R.pos hu (by simpa using by linarith), R.idem _⟩
  have hstep : ∀ i : Fin n, 0 < (t i / t (i + 1)).val ∧ (t i / t (i + 1)).val ≤ 1 := by
    intro i
    obtain ⟨a, ar⟩ := htp i i.2.le
    obtain ⟨b, -⟩ := htp (i + 1) i.2
    have hle : (t i).val ≤ (t (i + 1)).val := by
      have h1 := R.mono (t i).val ((t i).val + (p i).val) (by linarith [hpn i i.2])
      rw [ar] at h1
      exact h1
    refine ⟨R.pos hu (div_pos a b), ?_⟩
    have := R.mono ((t i).val / (t (i + 1)).val) 1 ((div_le_one b).2 hle)
    rwa [R.one] at this
  have e : ∀ i : Fin n, s'.mq.flMat n i i = R.rnd (s.mq.flMat n i i * (t i / t (i + 1)).val) := by
    intro i
    show (s'.mq.mat i i).val = _
    rw [hm i]
    rfl
  refine ⟨⟨hdia, ?_, ?_, ?_, hh.trans hs.helper⟩, ?_⟩
  · intro i
    rw [e]
    exact R.pos hu (mul_pos (hs.diag i) (hstep i).1)
  · intro i
    rw [e]
    exact R.idem _
  · rw [hκ]
    exact R.pos hu (mul_pos hs.kappa hδ)
  · intro i
    rw [e]
    have h1 : s.mq.flMat n i i * (t i / t (i + 1)).val ≤ s.mq.flMat n i i := by
      have := hs.diag i
      nlinarith [(hstep i).2]
    have := R.mono _ _ h1
    rwa [show R.rnd (s.mq.flMat n i i) = s.mq.flMat n i i from hs.rep i] at this

end EllStable
end Ellalgo
