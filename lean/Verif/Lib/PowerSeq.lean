import Verif.Spec.PowerSeq
import Verif.Props.PowerConverge

/-! # The power iterations compute the sequence `A^k x` and stop at the first index at which it has settled -/

namespace Ellalgo
open Matrix

variable {n : Nat} {A : Matrix (Fin n) (Fin n) ℝ} {x0 : Fin n → ℝ}

/-- `v` scaled to Euclidean norm one -/
noncomputable def unit2 (v : Fin n → ℝ) : Fin n → ℝ := (Real.sqrt (v ⬝ᵥ v))⁻¹ • v
/-- `v` scaled to 1-norm one -/
noncomputable def unit1 (v : Fin n → ℝ) : Fin n → ℝ := (norm1 v)⁻¹ • v

theorem unit2_smul {c : ℝ} (hc : 0 < c) (v : Fin n → ℝ) : unit2 (c • v) = unit2 v := by
  have h : Real.sqrt ((c • v) ⬝ᵥ (c • v)) = c * Real.sqrt (v ⬝ᵥ v) := by
    rw [smul_dotProduct, dotProduct_smul, smul_eq_mul, smul_eq_mul, ← mul_assoc, Real.sqrt_mul (by positivity),
      Real.sqrt_mul_self hc.le]
  unfold unit2
  rw [h, smul_smul, mul_inv, mul_assoc, mul_comm _ c, ← mul_assoc, inv_mul_cancel₀ hc.ne', one_mul]

theorem unit1_smul {c : ℝ} (hc : 0 < c) (v : Fin n → ℝ) : unit1 (c • v) = unit1 v := by
  unfold unit1
  rw [norm1_smul, abs_of_pos hc, smul_smul, mul_inv, mul_assoc, mul_comm _ c, ← mul_assoc, inv_mul_cancel₀ hc.ne',
    one_mul]

/-- the Rayleigh quotient of `v` -/
noncomputable def rq (A : Matrix (Fin n) (Fin n) ℝ) (v : Fin n → ℝ) : ℝ := v ⬝ᵥ (A *ᵥ v) / (v ⬝ᵥ v)

theorem rq_smul {c : ℝ} (hc : 0 < c) (v : Fin n → ℝ) : rq A (c • v) = rq A v := by
  unfold rq
  rw [mulVec_smul, smul_dotProduct, dotProduct_smul, smul_dotProduct, dotProduct_smul]
  simp only [smul_eq_mul]
  rw [← mul_assoc, ← mul_assoc, mul_div_mul_left _ _ (mul_pos hc hc).ne']

theorem rq_unit {v : Fin n → ℝ} (h : v ⬝ᵥ v = 1) : rq A v = v ⬝ᵥ (A *ᵥ v) := by rw [rq, h, div_one]

theorem unit2_eq {k : Nat} {v : Fin n → ℝ} (h : Dir A x0 k v) : unit2 v = dirAt A x0 k := by
  obtain ⟨c, hc, rfl⟩ := h
  rw [unit2_smul hc]; rfl

theorem unit1_eq {k : Nat} {v : Fin n → ℝ} (h : Dir A x0 k v) : unit1 v = dir1At A x0 k := by
  obtain ⟨c, hc, rfl⟩ := h
  rw [unit1_smul hc]; rfl

theorem rq_eq {k : Nat} {v : Fin n → ℝ} (h : Dir A x0 k v) : rq A v = rayAt A x0 k := by
  obtain ⟨c, hc, rfl⟩ := h
  rw [rq_smul hc]; rfl

theorem dirAt_dir {k : Nat} (h : (A ^ k) *ᵥ x0 ≠ 0) : Dir A x0 k (dirAt A x0 k) := ⟨_, (unit_normalize h).1, rfl⟩
theorem dirAt_unit {k : Nat} (h : (A ^ k) *ᵥ x0 ≠ 0) : dirAt A x0 k ⬝ᵥ dirAt A x0 k = 1 := (unit_normalize h).2
theorem dir1At_dir {k : Nat} (h : (A ^ k) *ᵥ x0 ≠ 0) : Dir A x0 k (dir1At A x0 k) := ⟨_, (norm1_normalize h).1, rfl⟩

theorem normalize2_unit2 {x : Arr ℝ} {v : Fin n → ℝ} (hx : RV x v) : ∃ z, normalize2 x = .ok z ∧ RV z (unit2 v) :=
  normalize2_spec hx

theorem ray_dirAt {a x : Arr ℝ} (hn : 0 < n) (ha : RM a A) {k : Nat} (h : (A ^ k) *ᵥ x0 ≠ 0)
    (hx : RV x (dirAt A x0 k)) : rayleigh a x = .ok (rayAt A x0 k) := by
  rw [rayleigh_spec hn ha hx, ← rq_unit (dirAt_unit h), rq_eq (dirAt_dir h)]

/-- what a run of the loops gives, for the stop test `P` -/
def SeqRun (A : Matrix (Fin n) (Fin n) ℝ) (x0 : Fin n → ℝ) (P : Nat → Prop) (m j : Nat) (r : Res ((ℝ × Nat) × Arr ℝ)) :
    Prop :=
  ∃ niter xf, r = .ok ((rayAt A x0 (min (niter + 1) m), niter), xf) ∧ RV xf (dirAt A x0 (min (niter + 1) m)) ∧
    j ≤ niter ∧ ((niter < m ∧ P niter ∧ ∀ i, j ≤ i → i < niter → ¬ P i) ∨ (niter = m ∧ ∀ i, j ≤ i → i < m → ¬ P i))

theorem SeqRun.step {P : Nat → Prop} {m j : Nat} {r : Res ((ℝ × Nat) × Arr ℝ)} (hP : ¬ P j)
    (h : SeqRun A x0 P m (j + 1) r) : SeqRun A x0 P m j r := by
  obtain ⟨niter, xf, h1, h2, h3, h4⟩ := h
  have key : ∀ b, (∀ i, j + 1 ≤ i → i < b → ¬ P i) → ∀ i, j ≤ i → i < b → ¬ P i := by
    intro b hb i hi hib
    rcases Nat.lt_or_ge j i with h | h
    · exact hb i h hib
    · rw [show i = j by omega]; exact hP
  exact ⟨niter, xf, h1, h2, by omega, h4.imp (fun h => ⟨h.1, h.2.1, key _ h.2.2⟩) (fun h => ⟨h.1, key _ h.2⟩)⟩

theorem SeqRun.hit {P : Nat → Prop} {m j : Nat} {xf : Arr ℝ} (hj : j < m) (hP : P j)
    (hxf : RV xf (dirAt A x0 (j + 1))) : SeqRun A x0 P m j (.ok ((rayAt A x0 (j + 1), j), xf)) := by
  refine ⟨j, xf, ?_, ?_, le_rfl, Or.inl ⟨hj, hP, fun i h1 h2 => by omega⟩⟩
  · rw [min_eq_left (by omega)]
  · rw [min_eq_left (by omega)]; exact hxf

theorem SeqRun.last {P : Nat → Prop} {m : Nat} {xf : Arr ℝ}
    (hxf : RV xf (dirAt A x0 m)) : SeqRun A x0 P m m (.ok ((rayAt A x0 m, m), xf)) := by
  refine ⟨m, xf, ?_, ?_, le_rfl, Or.inr ⟨rfl, fun i h1 h2 => by omega⟩⟩
  · rw [min_eq_right (by omega)]
  · rw [min_eq_right (by omega)]; exact hxf

theorem powerLoop_seq {a : Arr ℝ} {opts : Options ℝ} (hn : 0 < n)
    (ha : RM a A) (hne : ∀ k ≤ opts.maxIters, (A ^ k) *ᵥ x0 ≠ 0) (k j : Nat) (hkj : j + k = opts.maxIters)
    {x : Arr ℝ} (hx : RV x (dirAt A x0 j)) :
    SeqRun A x0 (fun j => CloseUpToSign opts.tolerance (dirAt A x0 (j + 1)) (dirAt A x0 j)) opts.maxIters j
      (powerLoop a opts k j x) := by
  induction k generalizing j x with
  | zero =>
    obtain rfl : j = opts.maxIters := by omega
    simp only [powerLoop, ray_dirAt hn ha (hne _ le_rfl) hx, Res.ok_bind]
    exact SeqRun.last hx
  | succ k ih =>
    obtain ⟨y, h1, hy⟩ := ha.dotMv hx hn
    obtain ⟨z, h2, hz⟩ := normalize2_unit2 hy
    rw [unit2_eq (dirAt_dir (hne j (by omega))).mulVec] at hz
    obtain ⟨b, h3, hb⟩ := closeUpToSign_spec opts.tolerance hz hx
    simp only [powerLoop, h1, h2, h3, Res.ok_bind]
    cases b with
    | true =>
      simp only [if_true, ray_dirAt hn ha (hne (j + 1) (by omega)) hz, Res.ok_bind]
      exact SeqRun.hit (by omega) (hb.1 rfl) hz
    | false =>
      refine SeqRun.step (fun h => ?_) (ih (j + 1) (by omega) hz)
      simpa using hb.2 h

theorem power4Loop_seq {a : Arr ℝ} {opts : Options ℝ} (hn : 0 < n)
    (ha : RM a A) (hne : ∀ k ≤ opts.maxIters, (A ^ k) *ᵥ x0 ≠ 0) (k j : Nat) (hkj : j + k = opts.maxIters)
    {x : Arr ℝ} (hx : RV x (dir1At A x0 j)) :
    SeqRun A x0 (fun j => CloseUpToSign opts.tolerance (dir1At A x0 (j + 1)) (dir1At A x0 j)) opts.maxIters j
      (power4Loop a opts k j x) := by
  have hfin : ∀ (i : Nat) (x : Arr ℝ), i ≤ opts.maxIters → RV x (dir1At A x0 i) →
      ∃ z, normalize2 x = .ok z ∧ RV z (dirAt A x0 i) := by
    intro i x hi hx
    obtain ⟨z, h1, hz⟩ := normalize2_unit2 hx
    rw [unit2_eq (dir1At_dir (hne i hi))] at hz
    exact ⟨z, h1, hz⟩
  induction k generalizing j x with
  | zero =>
    obtain rfl : j = opts.maxIters := by omega
    obtain ⟨z, h1, hz⟩ := hfin _ x le_rfl hx
    simp only [power4Loop, h1, ray_dirAt hn ha (hne _ le_rfl) hz, Res.ok_bind]
    exact SeqRun.last hz
  | succ k ih =>
    obtain ⟨y, h1, hy⟩ := ha.dotMv hx hn
    have hz : RV (y.divScalar (norm1 (A *ᵥ dir1At A x0 j))) (unit1 (A *ᵥ dir1At A x0 j)) := hy.divScalar _
    rw [unit1_eq (dir1At_dir (hne j (by omega))).mulVec] at hz
    have hn1 : normL1 y = norm1 (A *ᵥ dir1At A x0 j) := hy.normL1
    obtain ⟨b, h3, hb⟩ := closeUpToSign_spec opts.tolerance hz hx
    simp only [power4Loop, h1, hn1, h3, Res.ok_bind]
    cases b with
    | true =>
      obtain ⟨z, h4, hz'⟩ := hfin (j + 1) _ (by omega) hz
      simp only [if_true, h4, ray_dirAt hn ha (hne (j + 1) (by omega)) hz', Res.ok_bind]
      exact SeqRun.hit (by omega) (hb.1 rfl) hz'
    | false =>
      refine SeqRun.step (fun h => ?_) (ih (j + 1) (by omega) hz)
      simpa using hb.2 h

theorem power2Loop_seq {a : Arr ℝ} {opts : Options ℝ} (hn : 0 < n)
    (ha : RM a A) (hne : ∀ k ≤ opts.maxIters, (A ^ k) *ᵥ x0 ≠ 0) (k j : Nat) (hkj : j + k = opts.maxIters)
    {x y : Arr ℝ} (hx : RV x (dirAt A x0 j)) (hy : RV y (A *ᵥ dirAt A x0 j)) :
    SeqRun A x0 (fun j => |rayAt A x0 j - rayAt A x0 (j + 1)| ≤ opts.tolerance) opts.maxIters j
      (power2Loop a opts k j x y (rayAt A x0 j)) := by
  induction k generalizing j x y with
  | zero =>
    obtain rfl : j = opts.maxIters := by omega
    exact SeqRun.last hx
  | succ k ih =>
    obtain ⟨z, h2, hz⟩ := normalize2_unit2 hy
    rw [unit2_eq (dirAt_dir (hne j (by omega))).mulVec] at hz
    obtain ⟨y', h3, hy'⟩ := ha.dotMv hz hn
    have hj1 := hne (j + 1) (by omega)
    have hr : dirAt A x0 (j + 1) ⬝ᵥ (A *ᵥ dirAt A x0 (j + 1)) = rayAt A x0 (j + 1) := by
      rw [← rq_unit (dirAt_unit hj1), rq_eq (dirAt_dir hj1)]
    simp only [power2Loop, h2, h3, hz.dot hy', hr, Res.ok_bind, Scalar.real_le, Scalar.real_abs]
    by_cases hs : |rayAt A x0 j - rayAt A x0 (j + 1)| ≤ opts.tolerance
    · rw [if_pos (by simpa using hs)]
      exact SeqRun.hit (by omega) hs hz
    · rw [if_neg (by simpa using hs)]
      exact SeqRun.step hs (ih (j + 1) (by omega) hz hy')

/-- `power_iteration3` does not normalise when the iterations run out -/
def SeqRun3 (A : Matrix (Fin n) (Fin n) ℝ) (x0 : Fin n → ℝ) (P : Nat → Prop) (m j : Nat) (r : Res ((ℝ × Nat) × Arr ℝ)) :
    Prop :=
  ∃ niter xf w, r = .ok ((rayAt A x0 (min (niter + 1) m), niter), xf) ∧ RV xf w ∧ Dir A x0 (min (niter + 1) m) w ∧
    (niter < m → w = dirAt A x0 (min (niter + 1) m)) ∧
    j ≤ niter ∧ ((niter < m ∧ P niter ∧ ∀ i, j ≤ i → i < niter → ¬ P i) ∨ (niter = m ∧ ∀ i, j ≤ i → i < m → ¬ P i))

theorem SeqRun3.step {P : Nat → Prop} {m j : Nat} {r : Res ((ℝ × Nat) × Arr ℝ)} (hP : ¬ P j)
    (h : SeqRun3 A x0 P m (j + 1) r) : SeqRun3 A x0 P m j r := by
  obtain ⟨niter, xf, w, h1, h2, hd, hw, h3, h4⟩ := h
  have key : ∀ b, (∀ i, j + 1 ≤ i → i < b → ¬ P i) → ∀ i, j ≤ i → i < b → ¬ P i := by
    intro b hb i hi hib
    rcases Nat.lt_or_ge j i with h | h
    · exact hb i h hib
    · rw [show i = j by omega]; exact hP
  exact ⟨niter, xf, w, h1, h2, hd, hw, by omega,
    h4.imp (fun h => ⟨h.1, h.2.1, key _ h.2.2⟩) (fun h => ⟨h.1, key _ h.2⟩)⟩

theorem SeqRun3.hit {P : Nat → Prop} {m j : Nat} {xf : Arr ℝ} (hj : j < m) (hP : P j) (h0 : (A ^ (j + 1)) *ᵥ x0 ≠ 0)
    (hxf : RV xf (dirAt A x0 (j + 1))) : SeqRun3 A x0 P m j (.ok ((rayAt A x0 (j + 1), j), xf)) := by
  have e : min (j + 1) m = j + 1 := min_eq_left (by omega)
  exact ⟨j, xf, _, by rw [e], hxf, by rw [e]; exact dirAt_dir h0, fun _ => by rw [e], le_rfl,
    Or.inl ⟨hj, hP, fun i h1 h2 => by omega⟩⟩

theorem power3Loop_seq {a : Arr ℝ} {opts : Options ℝ} (hn : 0 < n)
    (ha : RM a A) (hne : ∀ k ≤ opts.maxIters, (A ^ k) *ᵥ x0 ≠ 0) (k j : Nat) (hkj : j + k = opts.maxIters)
    {x y : Arr ℝ} {v : Fin n → ℝ} (hx : RV x v) (hy : RV y (A *ᵥ v)) (hd : Dir A x0 j v) :
    SeqRun3 A x0 (fun j => |rayAt A x0 j - rayAt A x0 (j + 1)| ≤ opts.tolerance) opts.maxIters j
      (power3Loop a opts k j x y (rayAt A x0 j)) := by
  induction k generalizing j x y v with
  | zero =>
    obtain rfl : j = opts.maxIters := by omega
    refine ⟨opts.maxIters, x, v, ?_, hx, ?_, fun h => absurd h (lt_irrefl _), le_rfl,
      Or.inr ⟨rfl, fun i h1 h2 => by omega⟩⟩
    · rw [min_eq_right (by omega)]; rfl
    · rw [min_eq_right (by omega)]; exact hd
  | succ k ih =>
    have h0 := hne (j + 1) (by omega)
    obtain ⟨z, h2, hz⟩ := normalize2_unit2 hy
    rw [unit2_eq hd.mulVec] at hz
    simp only [power3Loop, hy.dot hy, Res.ok_bind]
    by_cases hbig : ((10 ^ 150 : Nat) : ℝ) ≤ (A *ᵥ v) ⬝ᵥ (A *ᵥ v)
    · rw [Scalar.real_ge, if_pos (by simpa using hbig), h2, Res.ok_bind]
      obtain ⟨y', h3, hy'⟩ := ha.dotMv hz hn
      have hr : dirAt A x0 (j + 1) ⬝ᵥ (A *ᵥ dirAt A x0 (j + 1)) = rayAt A x0 (j + 1) := by
        rw [← rq_unit (dirAt_unit h0), rq_eq (dirAt_dir h0)]
      simp only [h3, hz.dot hy', hr, Res.ok_bind, Scalar.real_le, Scalar.real_abs]
      by_cases hs : |rayAt A x0 j - rayAt A x0 (j + 1)| ≤ opts.tolerance
      · rw [if_pos (by simpa using hs)]
        exact SeqRun3.hit (by omega) hs h0 hz
      · rw [if_neg (by simpa using hs)]
        exact SeqRun3.step hs (ih (j + 1) (by omega) hz hy' (dirAt_dir h0))
    · rw [Scalar.real_ge, if_neg (by simpa using hbig)]
      obtain ⟨y', h3, hy'⟩ := ha.dotMv hy hn
      have hr : (A *ᵥ v) ⬝ᵥ (A *ᵥ (A *ᵥ v)) / ((A *ᵥ v) ⬝ᵥ (A *ᵥ v)) = rayAt A x0 (j + 1) := rq_eq hd.mulVec
      simp only [h3, hy.dot hy', hr, Res.ok_bind, Scalar.real_le, Scalar.real_abs]
      by_cases hs : |rayAt A x0 j - rayAt A x0 (j + 1)| ≤ opts.tolerance
      · rw [if_pos (by simpa using hs), h2, Res.ok_bind]
        exact SeqRun3.hit (by omega) hs h0 hz
      · rw [if_neg (by simpa using hs)]
        exact SeqRun3.step hs (ih (j + 1) (by omega) hy hy' hd.mulVec)

end Ellalgo
