import Verif.Lib.CgMath
import Verif.Spec.Krylov

/-! The conjugate gradient iterates minimise the energy over the Krylov spaces. -/

namespace Ellalgo
open Matrix

variable {n : Nat} {A : Matrix (Fin n) (Fin n) ℝ}

/-- the Krylov space as a submodule -/
def krySub (A : Matrix (Fin n) (Fin n) ℝ) (r : Fin n → ℝ) (k : Nat) : Submodule ℝ (Fin n → ℝ) :=
  Submodule.span ℝ (Set.range fun i : Fin k => (A ^ (i : Nat)) *ᵥ r)

theorem inKrylov_iff {r d : Fin n → ℝ} {k : Nat} : InKrylov A r k d ↔ d ∈ krySub A r k := by
  rw [krySub, Submodule.mem_span_range_iff_exists_fun, InKrylov]
  exact exists_congr fun c => eq_comm

theorem krySub_mono {r : Fin n → ℝ} {k m : Nat} (h : k ≤ m) : krySub A r k ≤ krySub A r m := by
  refine Submodule.span_mono ?_
  rintro _ ⟨i, rfl⟩
  exact ⟨⟨i, by omega⟩, rfl⟩

theorem pow_mem_krySub {r : Fin n → ℝ} {k i : Nat} (h : i < k) : (A ^ i) *ᵥ r ∈ krySub A r k :=
  Submodule.subset_span ⟨⟨i, h⟩, rfl⟩

theorem krySub_mulVec {r v : Fin n → ℝ} {k : Nat} (h : v ∈ krySub A r k) : A *ᵥ v ∈ krySub A r (k + 1) := by
  induction h using Submodule.span_induction with
  | mem v hv =>
    obtain ⟨i, rfl⟩ := hv
    simp only
    rw [mulVec_mulVec, ← pow_succ']
    exact pow_mem_krySub (by omega)
  | zero => rw [mulVec_zero]; exact Submodule.zero_mem _
  | add u v _ _ hu hv => rw [mulVec_add]; exact Submodule.add_mem _ hu hv
  | smul c v _ hv => rw [mulVec_smul]; exact Submodule.smul_mem _ _ hv

/-- iterates, residuals and directions stay in the Krylov spaces -/
theorem cg_mem (s : CgSt n) (hs : s.p = s.r) (k : Nat) :
    (cgIter A s k).r ∈ krySub A s.r (k + 1) ∧ (cgIter A s k).p ∈ krySub A s.r (k + 1) ∧
    (cgIter A s k).x - s.x ∈ krySub A s.r k := by
  induction k with
  | zero =>
    have h0 : s.r ∈ krySub A s.r 1 := by
      have := pow_mem_krySub (A := A) (r := s.r) (k := 1) (i := 0) (by omega)
      simpa using this
    refine ⟨h0, ?_, ?_⟩
    · show s.p ∈ _
      rw [hs]; exact h0
    · show s.x - s.x ∈ _
      rw [sub_self]; exact Submodule.zero_mem _
  | succ k ih =>
    obtain ⟨h1, h2, h3⟩ := ih
    have hr : (cgIter A s (k + 1)).r ∈ krySub A s.r (k + 1 + 1) :=
      Submodule.sub_mem _ (krySub_mono (by omega) h1) (Submodule.smul_mem _ _ (krySub_mulVec h2))
    refine ⟨hr, Submodule.add_mem _ hr (Submodule.smul_mem _ _ (krySub_mono (by omega) h2)), ?_⟩
    have e : (cgIter A s (k + 1)).x - s.x = ((cgIter A s k).x - s.x) +
        (((cgIter A s k).r ⬝ᵥ (cgIter A s k).r) / ((cgIter A s k).p ⬝ᵥ (A *ᵥ (cgIter A s k).p))) • (cgIter A s k).p := by
      show (cgStep A (cgIter A s k)).x - s.x = _
      simp only [cgStep]
      abel
    rw [e]
    exact Submodule.add_mem _ (krySub_mono (by omega) h3) (Submodule.smul_mem _ _ h2)

/-- the span of the first `k` residuals -/
def resSub (A : Matrix (Fin n) (Fin n) ℝ) (s : CgSt n) (k : Nat) : Submodule ℝ (Fin n → ℝ) :=
  Submodule.span ℝ (Set.range fun i : Fin k => (cgIter A s i).r)

theorem resSub_mono {s : CgSt n} {k m : Nat} (h : k ≤ m) : resSub A s k ≤ resSub A s m := by
  refine Submodule.span_mono ?_
  rintro _ ⟨i, rfl⟩
  exact ⟨⟨i, by omega⟩, rfl⟩

theorem res_mem {s : CgSt n} {k i : Nat} (h : i < k) : (cgIter A s i).r ∈ resSub A s k :=
  Submodule.subset_span ⟨⟨i, h⟩, rfl⟩

section
variable (hA : A.IsSymm) (hpos : ∀ v : Fin n → ℝ, v ≠ 0 → 0 < v ⬝ᵥ (A *ᵥ v)) {s : CgSt n} (hs : s.p = s.r)
include hA hpos hs

theorem dir_pos {k : Nat} (hne : ∀ i ≤ k, (cgIter A s i).r ≠ 0) :
    0 < (cgIter A s k).p ⬝ᵥ (A *ᵥ (cgIter A s k).p) := by
  have h1 := (cg_orth hA hpos hs k hne).1 k le_rfl
  apply hpos
  intro h0
  rw [h0, dotProduct_zero] at h1
  exact (dot_self_pos (hne k le_rfl)).ne h1

theorem mulVec_dir_mem {k : Nat} (hne : ∀ i ≤ k, (cgIter A s i).r ≠ 0) :
    A *ᵥ (cgIter A s k).p ∈ resSub A s (k + 2) := by
  set al := ((cgIter A s k).r ⬝ᵥ (cgIter A s k).r) / ((cgIter A s k).p ⬝ᵥ (A *ᵥ (cgIter A s k).p)) with hal
  have hal0 : al ≠ 0 := (div_pos (dot_self_pos (hne k le_rfl)) (dir_pos hA hpos hs hne)).ne'
  have e : A *ᵥ (cgIter A s k).p = al⁻¹ • ((cgIter A s k).r - (cgIter A s (k + 1)).r) := by
    have : (cgIter A s (k + 1)).r = (cgIter A s k).r - al • (A *ᵥ (cgIter A s k).p) := rfl
    rw [this, sub_sub_cancel, smul_smul, inv_mul_cancel₀ hal0, one_smul]
  rw [e]
  exact Submodule.smul_mem _ _ (Submodule.sub_mem _ (res_mem (by omega)) (res_mem (by omega)))

theorem mulVec_res_mem {k : Nat} (hne : ∀ i ≤ k, (cgIter A s i).r ≠ 0) :
    A *ᵥ (cgIter A s k).r ∈ resSub A s (k + 2) := by
  cases k with
  | zero =>
    have : (cgIter A s 0).r = (cgIter A s 0).p := hs.symm
    rw [this]
    exact mulVec_dir_mem hA hpos hs hne
  | succ k =>
    set be := ((cgIter A s (k + 1)).r ⬝ᵥ (cgIter A s (k + 1)).r) / ((cgIter A s k).r ⬝ᵥ (cgIter A s k).r) with hbe
    have e : (cgIter A s (k + 1)).r = (cgIter A s (k + 1)).p - be • (cgIter A s k).p := by
      have : (cgIter A s (k + 1)).p = (cgIter A s (k + 1)).r + be • (cgIter A s k).p := rfl
      rw [this, add_sub_cancel_right]
    rw [e, mulVec_sub, mulVec_smul]
    exact Submodule.sub_mem _ (mulVec_dir_mem hA hpos hs hne) (Submodule.smul_mem _ _
      (resSub_mono (by omega) (mulVec_dir_mem hA hpos hs fun i hi => hne i (by omega))))

theorem pow_mem_res (k : Nat) (hne : ∀ i < k, (cgIter A s i).r ≠ 0) :
    (A ^ k) *ᵥ s.r ∈ resSub A s (k + 1) := by
  induction k with
  | zero =>
    have := res_mem (A := A) (s := s) (k := 1) (i := 0) (by omega)
    simpa [cgIter] using this
  | succ k ih =>
    have h := ih fun i hi => hne i (by omega)
    rw [pow_succ', ← mulVec_mulVec]
    generalize (A ^ k) *ᵥ s.r = v at h
    induction h using Submodule.span_induction with
    | mem v hv =>
      obtain ⟨i, rfl⟩ := hv
      exact resSub_mono (by omega) (mulVec_res_mem hA hpos hs (k := i) fun j hj => hne j (by omega))
    | zero => rw [mulVec_zero]; exact Submodule.zero_mem _
    | add u v _ _ hu hv => rw [mulVec_add]; exact Submodule.add_mem _ hu hv
    | smul c v _ hv => rw [mulVec_smul]; exact Submodule.smul_mem _ _ hv

/-- the residual after `k` steps is orthogonal to the Krylov space -/
theorem res_orth (k : Nat) (hne : ∀ i < k, (cgIter A s i).r ≠ 0) {d : Fin n → ℝ} (hd : d ∈ krySub A s.r k) :
    d ⬝ᵥ (cgIter A s k).r = 0 := by
  by_cases h0 : (cgIter A s k).r = 0
  · rw [h0, dotProduct_zero]
  have hne' : ∀ i ≤ k, (cgIter A s i).r ≠ 0 := by
    intro i hi
    rcases Nat.lt_or_ge i k with h | h
    · exact hne i h
    · obtain rfl : i = k := by omega
      exact h0
  have h2 := (cg_orth hA hpos hs k hne').2.1
  have key : ∀ v ∈ resSub A s k, v ⬝ᵥ (cgIter A s k).r = 0 := by
    intro v hv
    induction hv using Submodule.span_induction with
    | mem v hv =>
      obtain ⟨i, rfl⟩ := hv
      exact h2 i k i.2 le_rfl
    | zero => rw [zero_dotProduct]
    | add u v _ _ hu hv => rw [add_dotProduct, hu, hv, add_zero]
    | smul c v _ hv => rw [smul_dotProduct, hv, smul_zero]
  refine key d ?_
  have hle : krySub A s.r k ≤ resSub A s k := by
    refine Submodule.span_le.mpr ?_
    rintro _ ⟨i, rfl⟩
    exact resSub_mono (by omega) (pow_mem_res hA hpos hs i fun j hj => hne j (by omega))
  exact hle hd
end

/-! ### minimisers of the energy over a subspace -/

section
variable (hA : A.IsSymm) {b : Fin n → ℝ}
include hA

theorem energy_add (x d : Fin n → ℝ) : energy A b (x + d) =
    energy A b x - 2 * (d ⬝ᵥ (b - A *ᵥ x)) + d ⬝ᵥ (A *ᵥ d) := by
  simp only [energy, mulVec_add, add_dotProduct, dotProduct_add, dotProduct_sub]
  rw [sym_dot hA x d, dotProduct_comm d b]
  ring

theorem best_orth {x0 x : Fin n → ℝ} {k : Nat} (hx : KrylovBest A b x0 k x) {d : Fin n → ℝ}
    (hd : d ∈ krySub A (b - A *ᵥ x0) k) : d ⬝ᵥ (b - A *ᵥ x) = 0 := by
  have h : ∀ t : ℝ, 0 ≤ t ^ 2 * (d ⬝ᵥ (A *ᵥ d)) - 2 * t * (d ⬝ᵥ (b - A *ᵥ x)) := by
    intro t
    have := hx.2 (x + t • d) (inKrylov_iff.mpr (by
      rw [show x + t • d - x0 = (x - x0) + t • d by abel]
      exact Submodule.add_mem _ (inKrylov_iff.mp hx.1) (Submodule.smul_mem _ _ hd)))
    rw [energy_add hA, smul_dotProduct, mulVec_smul, smul_dotProduct, dotProduct_smul] at this
    simp only [smul_eq_mul] at this
    nlinarith
  by_contra hc
  set e := d ⬝ᵥ (b - A *ᵥ x) with he
  set q := d ⬝ᵥ (A *ᵥ d) with hq
  have h1 := h (e / (|q| + 1))
  have hq1 : 0 < |q| + 1 := by positivity
  have h2 : (e / (|q| + 1)) ^ 2 * q ≤ e ^ 2 / (|q| + 1) := by
    rw [div_pow, div_mul_eq_mul_div, div_le_div_iff₀ (by positivity) hq1]
    have : q ≤ |q| := le_abs_self q
    have h4 : 0 ≤ e ^ 2 * (|q| + 1) := by positivity
    nlinarith
  have h3 : 2 * (e / (|q| + 1)) * e = 2 * (e ^ 2 / (|q| + 1)) := by ring
  have h4 : 0 < e ^ 2 / (|q| + 1) := by positivity
  linarith

theorem best_of_orth (hpos : ∀ v : Fin n → ℝ, v ≠ 0 → 0 < v ⬝ᵥ (A *ᵥ v)) {x0 x : Fin n → ℝ} {k : Nat}
    (hx : x - x0 ∈ krySub A (b - A *ᵥ x0) k)
    (ho : ∀ d ∈ krySub A (b - A *ᵥ x0) k, d ⬝ᵥ (b - A *ᵥ x) = 0) : KrylovBest A b x0 k x := by
  refine ⟨inKrylov_iff.mpr hx, fun y hy => ?_⟩
  have hd : y - x ∈ krySub A (b - A *ᵥ x0) k := by
    rw [show y - x = (y - x0) - (x - x0) by abel]
    exact Submodule.sub_mem _ (inKrylov_iff.mp hy) hx
  have h := energy_add hA (b := b) x (y - x)
  rw [add_sub_cancel, ho _ hd] at h
  rw [h]
  by_cases h0 : y - x = 0
  · rw [h0]; simp
  · linarith [hpos _ h0]

theorem best_unique (hpos : ∀ v : Fin n → ℝ, v ≠ 0 → 0 < v ⬝ᵥ (A *ᵥ v)) {x0 x y : Fin n → ℝ} {k : Nat}
    (hx : KrylovBest A b x0 k x) (hy : KrylovBest A b x0 k y) : x = y := by
  have hd : x - y ∈ krySub A (b - A *ᵥ x0) k := by
    rw [show x - y = (x - x0) - (y - x0) by abel]
    exact Submodule.sub_mem _ (inKrylov_iff.mp hx.1) (inKrylov_iff.mp hy.1)
  have h1 := best_orth hA hx hd
  have h2 := best_orth hA hy hd
  have h3 : (x - y) ⬝ᵥ (A *ᵥ (x - y)) = 0 := by
    rw [mulVec_sub, dotProduct_sub]
    rw [dotProduct_sub] at h1 h2
    linarith
  by_contra hne
  exact (hpos _ (sub_ne_zero.mpr hne)).ne' h3
end

/-- start of the method -/
def cgStart (A : Matrix (Fin n) (Fin n) ℝ) (b x0 : Fin n → ℝ) : CgSt n := ⟨x0, b - A *ᵥ x0, b - A *ᵥ x0⟩

theorem cgIter_res (b x0 : Fin n → ℝ) (k : Nat) :
    (cgIter A (cgStart A b x0) k).r = b - A *ᵥ (cgIter A (cgStart A b x0) k).x := by
  induction k with
  | zero => rfl
  | succ k ih =>
    show (cgStep A (cgIter A (cgStart A b x0) k)).r = b - A *ᵥ (cgStep A (cgIter A (cgStart A b x0) k)).x
    simp only [cgStep]
    rw [mulVec_add, mulVec_smul, ih]
    abel

/-- the iterate after `k` steps is the best point of the Krylov space, if no earlier residual vanished -/
theorem cg_best (hA : A.IsSymm) (hpos : ∀ v : Fin n → ℝ, v ≠ 0 → 0 < v ⬝ᵥ (A *ᵥ v)) (b x0 : Fin n → ℝ) (k : Nat)
    (hne : ∀ i < k, (cgIter A (cgStart A b x0) i).r ≠ 0) :
    KrylovBest A b x0 k (cgIter A (cgStart A b x0) k).x := by
  refine best_of_orth hA hpos (cg_mem (cgStart A b x0) rfl k).2.2 fun d hd => ?_
  have := res_orth hA hpos (s := cgStart A b x0) rfl k hne hd
  rw [cgIter_res] at this
  exact this

end Ellalgo
