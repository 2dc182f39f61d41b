import Verif.Lib.PowerSettle

/-! # Property C79: the power iterations find the dominant eigenvalue -/

namespace Ellalgo
open Matrix

variable {n : Nat}

theorem FirstBelow.of_seq {P : Nat → Prop} {m niter : Nat}
    (h : (niter < m ∧ P niter ∧ ∀ i, 0 ≤ i → i < niter → ¬ P i) ∨ (niter = m ∧ ∀ i, 0 ≤ i → i < m → ¬ P i)) :
    FirstBelow P m niter :=
  h.imp (fun h => ⟨h.1, h.2.1, fun j hj => h.2.2 j (Nat.zero_le _) hj⟩)
    (fun h => ⟨h.1, fun j hj => h.2 j (Nat.zero_le _) hj⟩)

/-- **C79** `power_iteration`: the count is the first step after which the normalised `A^k x` changes (up to sign) by at
most the tolerance, or `max_iters`; the vector left in `x` is the normalised `A^k x` for the last `k` reached and the
value is its Rayleigh quotient. -/
theorem C79_power_iteration {a x : Arr ℝ} {m : Nat} {tol : ℝ} (ha : a.IsMatShape n n) (hx : x.IsVecShape n)
    (hne : ∀ k ≤ m, (a.toMat n n ^ k) *ᵥ x.toVec n ≠ 0) :
    ∃ niter xf, powerIteration a x ⟨m, tol⟩
        = .ok ((rayAt (a.toMat n n) (x.toVec n) (min (niter + 1) m), niter), xf) ∧
      xf.IsVecShape n ∧ xf.toVec n = dirAt (a.toMat n n) (x.toVec n) (min (niter + 1) m) ∧
      FirstBelow (fun j => CloseUpToSign tol (dirAt (a.toMat n n) (x.toVec n) (j + 1))
        (dirAt (a.toMat n n) (x.toVec n) j)) m niter := by
  have hn := pos_of_ne (hne 0 (Nat.zero_le _))
  obtain ⟨z, h1, hz⟩ := normalize2_unit2 (⟨hx, rfl⟩ : RV x (x.toVec n))
  rw [unit2_eq (A := a.toMat n n) (x0 := x.toVec n) (k := 0) ⟨1, one_pos, by simp⟩] at hz
  obtain ⟨niter, xf, h2, h3, -, h4⟩ := powerLoop_seq (opts := ⟨m, tol⟩) hn ⟨ha, rfl⟩ hne m 0 (by simp) hz
  refine ⟨niter, xf, ?_, h3.1, h3.2, FirstBelow.of_seq h4⟩
  simp only [powerIteration, h1, Res.ok_bind]
  exact h2

/-- **C79** `power_iteration4`: the same with the stop test on the vectors scaled to 1-norm one. -/
theorem C79_power_iteration4 {a x : Arr ℝ} {m : Nat} {tol : ℝ} (ha : a.IsMatShape n n) (hx : x.IsVecShape n)
    (hne : ∀ k ≤ m, (a.toMat n n ^ k) *ᵥ x.toVec n ≠ 0) :
    ∃ niter xf, powerIteration4 a x ⟨m, tol⟩
        = .ok ((rayAt (a.toMat n n) (x.toVec n) (min (niter + 1) m), niter), xf) ∧
      xf.IsVecShape n ∧ xf.toVec n = dirAt (a.toMat n n) (x.toVec n) (min (niter + 1) m) ∧
      FirstBelow (fun j => CloseUpToSign tol (dir1At (a.toMat n n) (x.toVec n) (j + 1))
        (dir1At (a.toMat n n) (x.toVec n) j)) m niter := by
  have hn := pos_of_ne (hne 0 (Nat.zero_le _))
  have hxr : RV x (x.toVec n) := ⟨hx, rfl⟩
  have hz : RV (x.divScalar (norm1 (x.toVec n))) (unit1 (x.toVec n)) := hxr.divScalar _
  rw [unit1_eq (A := a.toMat n n) (x0 := x.toVec n) (k := 0) ⟨1, one_pos, by simp⟩] at hz
  obtain ⟨niter, xf, h2, h3, -, h4⟩ := power4Loop_seq (opts := ⟨m, tol⟩) hn ⟨ha, rfl⟩ hne m 0 (by simp) hz
  refine ⟨niter, xf, ?_, h3.1, h3.2, FirstBelow.of_seq h4⟩
  unfold powerIteration4
  rw [hxr.normL1]; exact h2

/-- **C79** `power_iteration2`: the count is the first step in which the Rayleigh quotient changes by at most the
tolerance, or `max_iters`. -/
theorem C79_power_iteration2 {a x : Arr ℝ} {m : Nat} {tol : ℝ} (ha : a.IsMatShape n n) (hx : x.IsVecShape n)
    (hne : ∀ k ≤ m, (a.toMat n n ^ k) *ᵥ x.toVec n ≠ 0) :
    ∃ niter xf, powerIteration2 a x ⟨m, tol⟩
        = .ok ((rayAt (a.toMat n n) (x.toVec n) (min (niter + 1) m), niter), xf) ∧
      xf.IsVecShape n ∧ xf.toVec n = dirAt (a.toMat n n) (x.toVec n) (min (niter + 1) m) ∧
      FirstBelow (fun j => |rayAt (a.toMat n n) (x.toVec n) j - rayAt (a.toMat n n) (x.toVec n) (j + 1)| ≤ tol)
        m niter := by
  have hn := pos_of_ne (hne 0 (Nat.zero_le _))
  have ha' : RM a (a.toMat n n) := ⟨ha, rfl⟩
  obtain ⟨z, h1, hz⟩ := normalize2_unit2 (⟨hx, rfl⟩ : RV x (x.toVec n))
  rw [unit2_eq (A := a.toMat n n) (x0 := x.toVec n) (k := 0) ⟨1, one_pos, by simp⟩] at hz
  obtain ⟨y, h2, hy⟩ := ha'.dotMv hz hn
  obtain ⟨niter, xf, h3, h4, -, h5⟩ := power2Loop_seq (opts := ⟨m, tol⟩) hn ha' hne m 0 (by simp) hz hy
  refine ⟨niter, xf, ?_, h4.1, h4.2, FirstBelow.of_seq h5⟩
  have h0 := hne 0 (Nat.zero_le _)
  have hr : dirAt (a.toMat n n) (x.toVec n) 0 ⬝ᵥ (a.toMat n n *ᵥ dirAt (a.toMat n n) (x.toVec n) 0)
      = rayAt (a.toMat n n) (x.toVec n) 0 := by
    rw [← rq_unit (dirAt_unit h0), rq_eq (dirAt_dir h0)]
  simp only [powerIteration2, h1, h2, hz.dot hy, hr, Res.ok_bind]
  exact h3

/-- **C79** `power_iteration3`: the count and the value are those of `power_iteration2`; the vector left in `x` is
normalised only when the call stops before `max_iters`. -/
theorem C79_power_iteration3 {a x : Arr ℝ} {m : Nat} {tol : ℝ} (ha : a.IsMatShape n n) (hx : x.IsVecShape n)
    (hne : ∀ k ≤ m, (a.toMat n n ^ k) *ᵥ x.toVec n ≠ 0) :
    ∃ niter xf, powerIteration3 a x ⟨m, tol⟩
        = .ok ((rayAt (a.toMat n n) (x.toVec n) (min (niter + 1) m), niter), xf) ∧
      xf.IsVecShape n ∧
      (∃ c : ℝ, 0 < c ∧ xf.toVec n = c • ((a.toMat n n ^ min (niter + 1) m) *ᵥ x.toVec n)) ∧
      (niter < m → xf.toVec n = dirAt (a.toMat n n) (x.toVec n) (min (niter + 1) m)) ∧
      FirstBelow (fun j => |rayAt (a.toMat n n) (x.toVec n) j - rayAt (a.toMat n n) (x.toVec n) (j + 1)| ≤ tol)
        m niter := by
  have hn := pos_of_ne (hne 0 (Nat.zero_le _))
  have ha' : RM a (a.toMat n n) := ⟨ha, rfl⟩
  have hx' : RV x (x.toVec n) := ⟨hx, rfl⟩
  obtain ⟨y, h2, hy⟩ := ha'.dotMv hx' hn
  have hd0 : Dir (a.toMat n n) (x.toVec n) 0 (x.toVec n) := ⟨1, one_pos, by simp⟩
  obtain ⟨niter, xf, w, h3, h4, hd, hw, -, h5⟩ :=
    power3Loop_seq (opts := ⟨m, tol⟩) hn ha' hne m 0 (by simp) hx' hy hd0
  refine ⟨niter, xf, ?_, h4.1, ?_, ?_, FirstBelow.of_seq h5⟩
  · have hr : x.toVec n ⬝ᵥ (a.toMat n n *ᵥ x.toVec n) / (x.toVec n ⬝ᵥ x.toVec n) = rayAt (a.toMat n n) (x.toVec n) 0 :=
      rq_eq hd0
    simp only [powerIteration3, h2, hx'.dot hx', hx'.dot hy, hr, Res.ok_bind]
    exact h3
  · rw [h4.2]; exact hd
  · intro h; rw [h4.2]; exact hw h

section
variable {a x : Arr ℝ} {m : Nat} {tol : ℝ}

/-- **C79** Error after any run.  Let `A` be symmetric with eigenvalue `λ ≠ 0` (number `i`) such that all others are at
most `rho |λ|` in absolute value, `0 ≤ rho ≤ 1`, and let the start `x` not be orthogonal to its eigenvector `u`.  Then
each variant returns, and if it reports `niter` iterations the returned value misses `λ` by at most
`2 |λ| rho^(2k) tan²(u, x)`, where `k = min (niter + 1) max_iters` is the number of multiplications by `A`. -/
theorem C79_error (ha : a.IsMatShape n n) (hx : x.IsVecShape n)
    (hA : (a.toMat n n).IsHermitian) (i : Fin n) {rho : ℝ} (hr0 : 0 ≤ rho) (hr1 : rho ≤ 1) (hi0 : hA.eigenvalues i ≠ 0)
    (hdom : ∀ j, j ≠ i → |hA.eigenvalues j| ≤ rho * |hA.eigenvalues i|)
    (hstart : (hA.eigenvectorBasis i).ofLp ⬝ᵥ x.toVec n ≠ 0) :
    ∀ run ∈ [powerIteration (α := ℝ), powerIteration2, powerIteration3, powerIteration4],
      ∃ l niter xf, run a x ⟨m, tol⟩ = .ok ((l, niter), xf) ∧ niter ≤ m ∧
        |l - hA.eigenvalues i| ≤ 2 * |hA.eigenvalues i| *
          (rho ^ (2 * min (niter + 1) m) * tanSq (hA.eigenvectorBasis i).ofLp (x.toVec n)) := by
  have D := Dominant.of_eigenvalues hA i hi0 hr0 hr1 hdom
  have hst : eigVec hA i ⬝ᵥ x.toVec n ≠ 0 := hstart
  have hne : ∀ k ≤ m, (a.toMat n n ^ k) *ᵥ x.toVec n ≠ 0 := fun k _ => D.pow_ne hst k
  have key : ∀ k, |rayAt (a.toMat n n) (x.toVec n) k - hA.eigenvalues i| ≤ 2 * |hA.eigenvalues i| *
      (rho ^ (2 * k) * tanSq (hA.eigenvectorBasis i).ofLp (x.toVec n)) := by
    intro k
    have := D.ray_err hst k
    rw [pow_mul]; exact this
  have hle : ∀ {P : Nat → Prop} {niter : Nat}, FirstBelow P m niter → niter ≤ m := by
    rintro P niter (h | h)
    · exact h.1.le
    · exact h.1.le
  intro run hrun
  simp only [List.mem_cons, List.not_mem_nil, or_false] at hrun
  rcases hrun with rfl | rfl | rfl | rfl
  · obtain ⟨niter, xf, h1, -, -, h2⟩ := C79_power_iteration (tol := tol) ha hx hne
    exact ⟨_, niter, xf, h1, hle h2, key _⟩
  · obtain ⟨niter, xf, h1, -, -, h2⟩ := C79_power_iteration2 (tol := tol) ha hx hne
    exact ⟨_, niter, xf, h1, hle h2, key _⟩
  · obtain ⟨niter, xf, h1, -, -, -, h2⟩ := C79_power_iteration3 (tol := tol) ha hx hne
    exact ⟨_, niter, xf, h1, hle h2, key _⟩
  · obtain ⟨niter, xf, h1, -, -, h2⟩ := C79_power_iteration4 (tol := tol) ha hx hne
    exact ⟨_, niter, xf, h1, hle h2, key _⟩

/-- **C79** Error of the vector: for the three variants that leave a unit vector `v` in `x`, the squared cosine of its
angle with the dominant eigenvector is at least `1 - rho^(2k) tan²(u, x)`. -/
theorem C79_vector_error (ha : a.IsMatShape n n) (hx : x.IsVecShape n)
    (hA : (a.toMat n n).IsHermitian) (i : Fin n) {rho : ℝ} (hr0 : 0 ≤ rho) (hr1 : rho ≤ 1) (hi0 : hA.eigenvalues i ≠ 0)
    (hdom : ∀ j, j ≠ i → |hA.eigenvalues j| ≤ rho * |hA.eigenvalues i|)
    (hstart : (hA.eigenvectorBasis i).ofLp ⬝ᵥ x.toVec n ≠ 0) :
    ∀ run ∈ [powerIteration (α := ℝ), powerIteration2, powerIteration4],
      ∃ l niter xf, run a x ⟨m, tol⟩ = .ok ((l, niter), xf) ∧ xf.toVec n ⬝ᵥ xf.toVec n = 1 ∧
        1 - rho ^ (2 * min (niter + 1) m) * tanSq (hA.eigenvectorBasis i).ofLp (x.toVec n)
          ≤ ((hA.eigenvectorBasis i).ofLp ⬝ᵥ xf.toVec n) ^ 2 := by
  have D := Dominant.of_eigenvalues hA i hi0 hr0 hr1 hdom
  have hst : eigVec hA i ⬝ᵥ x.toVec n ≠ 0 := hstart
  have hne : ∀ k ≤ m, (a.toMat n n ^ k) *ᵥ x.toVec n ≠ 0 := fun k _ => D.pow_ne hst k
  have key : ∀ (k : Nat) (xf : Arr ℝ), xf.toVec n = dirAt (a.toMat n n) (x.toVec n) k →
      xf.toVec n ⬝ᵥ xf.toVec n = 1 ∧
        1 - rho ^ (2 * k) * tanSq (hA.eigenvectorBasis i).ofLp (x.toVec n)
          ≤ ((hA.eigenvectorBasis i).ofLp ⬝ᵥ xf.toVec n) ^ 2 := by
    intro k xf h
    have := D.dir_err hst k
    rw [h, pow_mul]
    exact ⟨dirAt_unit (D.pow_ne hst k), this⟩
  intro run hrun
  simp only [List.mem_cons, List.not_mem_nil, or_false] at hrun
  rcases hrun with rfl | rfl | rfl
  · obtain ⟨niter, xf, h1, -, h2, -⟩ := C79_power_iteration (tol := tol) ha hx hne
    exact ⟨_, niter, xf, h1, key _ xf h2⟩
  · obtain ⟨niter, xf, h1, -, h2, -⟩ := C79_power_iteration2 (tol := tol) ha hx hne
    exact ⟨_, niter, xf, h1, key _ xf h2⟩
  · obtain ⟨niter, xf, h1, -, h2, -⟩ := C79_power_iteration4 (tol := tol) ha hx hne
    exact ⟨_, niter, xf, h1, key _ xf h2⟩

theorem FirstBelow.le {P : Nat → Prop} {m niter K : Nat} (h : FirstBelow P m niter) (hK : P K) (hm : K < m) :
    niter ≤ K := by
  rcases h with ⟨-, -, h⟩ | ⟨-, h⟩
  · by_contra hc
    exact h K (by omega) hK
  · exact absurd hK (h K hm)

/-- **C79** Number of iterations: `power_iteration2` and `power_iteration3` stop within `K` iterations once
`4 |λ| rho^(2K) tan²(u, x) ≤ tol`. -/
theorem C79_stop_bound_value (ha : a.IsMatShape n n) (hx : x.IsVecShape n)
    (hA : (a.toMat n n).IsHermitian) (i : Fin n) {rho : ℝ} (hr0 : 0 ≤ rho) (hr1 : rho ≤ 1) (hi0 : hA.eigenvalues i ≠ 0)
    (hdom : ∀ j, j ≠ i → |hA.eigenvalues j| ≤ rho * |hA.eigenvalues i|)
    (hstart : (hA.eigenvectorBasis i).ofLp ⬝ᵥ x.toVec n ≠ 0) {K : Nat} (hKm : K < m)
    (hK : 4 * |hA.eigenvalues i| * (rho ^ (2 * K) * tanSq (hA.eigenvectorBasis i).ofLp (x.toVec n)) ≤ tol) :
    ∀ run ∈ [powerIteration2 (α := ℝ), powerIteration3],
      ∃ l niter xf, run a x ⟨m, tol⟩ = .ok ((l, niter), xf) ∧ niter ≤ K := by
  have D := Dominant.of_eigenvalues hA i hi0 hr0 hr1 hdom
  have hst : eigVec hA i ⬝ᵥ x.toVec n ≠ 0 := hstart
  have hne : ∀ k ≤ m, (a.toMat n n ^ k) *ᵥ x.toVec n ≠ 0 := fun k _ => D.pow_ne hst k
  rw [pow_mul] at hK
  have hP := D.settle_ray hst hK
  intro run hrun
  simp only [List.mem_cons, List.not_mem_nil, or_false] at hrun
  rcases hrun with rfl | rfl
  · obtain ⟨niter, xf, h1, -, -, h2⟩ := C79_power_iteration2 (tol := tol) ha hx hne
    exact ⟨_, niter, xf, h1, h2.le hP hKm⟩
  · obtain ⟨niter, xf, h1, -, -, -, h2⟩ := C79_power_iteration3 (tol := tol) ha hx hne
    exact ⟨_, niter, xf, h1, h2.le hP hKm⟩

/-- **C79** Number of iterations: `power_iteration` and `power_iteration4` stop within `K` iterations once
`4 n (t² + 4 t) ≤ tol²` for `t = rho^(2K) tan²(u, x)`. -/
theorem C79_stop_bound_vector (ha : a.IsMatShape n n) (hx : x.IsVecShape n)
    (hA : (a.toMat n n).IsHermitian) (i : Fin n) {rho : ℝ} (hr0 : 0 ≤ rho) (hr1 : rho ≤ 1) (hi0 : hA.eigenvalues i ≠ 0)
    (hdom : ∀ j, j ≠ i → |hA.eigenvalues j| ≤ rho * |hA.eigenvalues i|)
    (hstart : (hA.eigenvectorBasis i).ofLp ⬝ᵥ x.toVec n ≠ 0) {K : Nat} (hKm : K < m) (htol : 0 ≤ tol)
    (hK : 4 * (n : ℝ) * ((rho ^ (2 * K) * tanSq (hA.eigenvectorBasis i).ofLp (x.toVec n)) ^ 2
      + 4 * (rho ^ (2 * K) * tanSq (hA.eigenvectorBasis i).ofLp (x.toVec n))) ≤ tol ^ 2) :
    ∀ run ∈ [powerIteration (α := ℝ), powerIteration4],
      ∃ l niter xf, run a x ⟨m, tol⟩ = .ok ((l, niter), xf) ∧ niter ≤ K := by
  have D := Dominant.of_eigenvalues hA i hi0 hr0 hr1 hdom
  have hst : eigVec hA i ⬝ᵥ x.toVec n ≠ 0 := hstart
  have hne : ∀ k ≤ m, (a.toMat n n ^ k) *ᵥ x.toVec n ≠ 0 := fun k _ => D.pow_ne hst k
  rw [pow_mul] at hK
  have hP1 := D.settle1 hst htol hK
  have hP2 : CloseUpToSign tol (dirAt (a.toMat n n) (x.toVec n) (K + 1)) (dirAt (a.toMat n n) (x.toVec n) K) := by
    refine D.settle2 hst htol (le_trans ?_ hK)
    have h0 : 0 ≤ (rho ^ 2) ^ K * tanSq (eigVec hA i) (x.toVec n) :=
      mul_nonneg (by positivity) (tanSq_nonneg D _)
    have h1 : 0 ≤ (n : ℝ) * (((rho ^ 2) ^ K * tanSq (eigVec hA i) (x.toVec n)) ^ 2
        + 4 * ((rho ^ 2) ^ K * tanSq (eigVec hA i) (x.toVec n))) := by positivity
    have h2 : 4 * (n : ℝ) * (((rho ^ 2) ^ K * tanSq (eigVec hA i) (x.toVec n)) ^ 2
        + 4 * ((rho ^ 2) ^ K * tanSq (eigVec hA i) (x.toVec n)))
        = 4 * ((n : ℝ) * (((rho ^ 2) ^ K * tanSq (eigVec hA i) (x.toVec n)) ^ 2
        + 4 * ((rho ^ 2) ^ K * tanSq (eigVec hA i) (x.toVec n)))) := by ring
    change _ ≤ 4 * (n : ℝ) * (((rho ^ 2) ^ K * tanSq (eigVec hA i) (x.toVec n)) ^ 2
        + 4 * ((rho ^ 2) ^ K * tanSq (eigVec hA i) (x.toVec n)))
    linarith
  intro run hrun
  simp only [List.mem_cons, List.not_mem_nil, or_false] at hrun
  rcases hrun with rfl | rfl
  · obtain ⟨niter, xf, h1, -, -, h2⟩ := C79_power_iteration (tol := tol) ha hx hne
    exact ⟨_, niter, xf, h1, h2.le hP2 hKm⟩
  · obtain ⟨niter, xf, h1, -, -, h2⟩ := C79_power_iteration4 (tol := tol) ha hx hne
    exact ⟨_, niter, xf, h1, h2.le hP1 hKm⟩

end

/-- from a strict dominance a ratio below one -/
theorem exists_ratio {A : Matrix (Fin n) (Fin n) ℝ} (hA : A.IsHermitian) (i : Fin n) (hi0 : hA.eigenvalues i ≠ 0)
    (hdom : ∀ j, j ≠ i → |hA.eigenvalues j| < |hA.eigenvalues i|) :
    ∃ rho : ℝ, 0 ≤ rho ∧ rho < 1 ∧ ∀ j, j ≠ i → |hA.eigenvalues j| ≤ rho * |hA.eigenvalues i| := by
  have hmu : 0 < |hA.eigenvalues i| := abs_pos.2 hi0
  by_cases hne : (Finset.univ.erase i : Finset (Fin n)).Nonempty
  · obtain ⟨j0, hj0, hmax⟩ := Finset.exists_max_image (Finset.univ.erase i) (fun j => |hA.eigenvalues j|) hne
    refine ⟨|hA.eigenvalues j0| / |hA.eigenvalues i|, by positivity, ?_, ?_⟩
    · rw [div_lt_one hmu]
      exact hdom j0 (Finset.ne_of_mem_erase hj0)
    · intro j hj
      rw [div_mul_cancel₀ _ hmu.ne']
      exact hmax j (Finset.mem_erase.2 ⟨hj, Finset.mem_univ _⟩)
  · exact ⟨0, le_rfl, one_pos, fun j hj => absurd ⟨j, Finset.mem_erase.2 ⟨hj, Finset.mem_univ _⟩⟩ hne⟩

/-- **C79** If `λ` strictly dominates, all four variants stop for every positive tolerance: one bound `N` on the count
holds whatever larger number of iterations is allowed. -/
theorem C79_all_terminate {a x : Arr ℝ} {tol : ℝ} (ha : a.IsMatShape n n) (hx : x.IsVecShape n)
    (hA : (a.toMat n n).IsHermitian) (i : Fin n) (hi0 : hA.eigenvalues i ≠ 0)
    (hdom : ∀ j, j ≠ i → |hA.eigenvalues j| < |hA.eigenvalues i|)
    (hstart : (hA.eigenvectorBasis i).ofLp ⬝ᵥ x.toVec n ≠ 0) (htol : 0 < tol) :
    ∃ N, ∀ m, N < m → ∀ run ∈ [powerIteration (α := ℝ), powerIteration2, powerIteration3, powerIteration4],
      ∃ l niter xf, run a x ⟨m, tol⟩ = .ok ((l, niter), xf) ∧ niter ≤ N := by
  obtain ⟨rho, hr0, hr1, hr⟩ := exists_ratio hA i hi0 hdom
  set T := tanSq (hA.eigenvectorBasis i).ofLp (x.toVec n) with hT
  have D := Dominant.of_eigenvalues hA i hi0 hr0 hr1.le hr
  have hT0 : 0 ≤ T := tanSq_nonneg D _
  obtain ⟨K1, hK1⟩ := exists_pow_small (rho := rho) (b := T)
    (c := tol / (4 * |hA.eigenvalues i|)) hr0 hr1 (div_pos htol (by have := abs_pos.2 hi0; positivity))
  obtain ⟨K2, hK2⟩ := exists_pow_small (rho := rho) (b := T)
    (c := min 1 (tol ^ 2 / (20 * (n : ℝ)))) hr0 hr1
    (lt_min one_pos (div_pos (by positivity) (by have : 0 < n := i.pos; positivity)))
  refine ⟨max K1 K2, fun m hm run hrun => ?_⟩
  have h1 := hK1 (max K1 K2) (le_max_left _ _)
  have h2 := hK2 (max K1 K2) (le_max_right _ _)
  rw [← pow_mul] at h1 h2
  have hmu := abs_pos.2 hi0
  have hv : 4 * |hA.eigenvalues i| * (rho ^ (2 * max K1 K2) * T) ≤ tol := by
    rw [le_div_iff₀ (by positivity)] at h1; linarith
  have hn : (0 : ℝ) < n := by exact_mod_cast i.pos
  have ht0 : 0 ≤ rho ^ (2 * max K1 K2) * T := by positivity
  have hw : 4 * (n : ℝ) * ((rho ^ (2 * max K1 K2) * T) ^ 2 + 4 * (rho ^ (2 * max K1 K2) * T)) ≤ tol ^ 2 := by
    have h3 := h2.trans (min_le_left _ _)
    have h4 := h2.trans (min_le_right _ _)
    rw [le_div_iff₀ (by positivity)] at h4
    generalize rho ^ (2 * max K1 K2) * T = t at *
    have : t ^ 2 ≤ t := by nlinarith
    nlinarith
  simp only [List.mem_cons, List.not_mem_nil, or_false] at hrun
  rcases hrun with rfl | rfl | rfl | rfl
  · exact C79_stop_bound_vector ha hx hA i hr0 hr1.le hi0 hr hstart hm htol.le hw _ (by simp)
  · exact C79_stop_bound_value ha hx hA i hr0 hr1.le hi0 hr hstart hm hv _ (by simp)
  · exact C79_stop_bound_value ha hx hA i hr0 hr1.le hi0 hr hstart hm hv _ (by simp)
  · exact C79_stop_bound_vector ha hx hA i hr0 hr1.le hi0 hr hstart hm htol.le hw _ (by simp)

/-- the accuracy argument common to the variants: `d` measures the change tested by the stop criterion -/
theorem accuracy_core {A : Matrix (Fin n) (Fin n) ℝ} {x u : Fin n → ℝ} {mu rho : ℝ} (D : Dominant A u mu rho)
    (hr1 : rho < 1) (hst : u ⬝ᵥ x ≠ 0) {d : Nat → ℝ} (hd : ∀ k, d k ≤ 0 → rayAt A x (k + 1) = mu) {eps : ℝ}
    (heps : 0 < eps) :
    ∃ t : ℝ, 0 < t ∧ ∀ tol, tol ≤ t → ∀ m niter, FirstBelow (fun j => d j ≤ tol) m niter → niter < m →
      |rayAt A x (min (niter + 1) m) - mu| ≤ eps := by
  have hmu := abs_pos.2 D.mu_ne
  obtain ⟨J, hJ⟩ := exists_pow_small (rho := rho) (b := tanSq u x) (c := eps / (2 * |mu|)) D.rho_nonneg hr1
    (div_pos heps (by positivity))
  obtain ⟨t, ht, h⟩ := exists_tol d J
  refine ⟨t, ht, fun tol htol m niter hfirst hm => ?_⟩
  rw [min_eq_left (by omega)]
  rcases hfirst with ⟨-, h1, -⟩ | ⟨h1, -⟩
  · rcases Nat.lt_or_ge niter J with hlt | hge
    · rw [hd niter (h niter hlt (le_trans h1 htol)), sub_self, abs_zero]
      exact heps.le
    · have h2 := hJ (niter + 1) (by omega)
      rw [le_div_iff₀ (by positivity)] at h2
      exact (D.ray_err hst (niter + 1)).trans (by linarith)
  · omega

theorem closeUpToSign_iff {tol : ℝ} {v w : Fin n → ℝ} :
    CloseUpToSign tol v w ↔ min (norm1 (v - w)) (norm1 (v + w)) ≤ tol := by
  rw [min_le_iff]; rfl

/-- **C79** Any accuracy can be reached: for strictly dominant `λ` and every `eps > 0` there is a tolerance such that
`power_iteration` and `power_iteration4`, called with that or any smaller positive tolerance and enough allowed
iterations, stop by themselves and return a value within `eps` of `λ`. -/
theorem C79_accuracy {a x : Arr ℝ} (ha : a.IsMatShape n n) (hx : x.IsVecShape n)
    (hA : (a.toMat n n).IsHermitian) (i : Fin n) (hi0 : hA.eigenvalues i ≠ 0)
    (hdom : ∀ j, j ≠ i → |hA.eigenvalues j| < |hA.eigenvalues i|)
    (hstart : (hA.eigenvectorBasis i).ofLp ⬝ᵥ x.toVec n ≠ 0) {eps : ℝ} (heps : 0 < eps) :
    ∃ tol0 > 0, ∀ tol, 0 < tol → tol ≤ tol0 → ∃ N, ∀ m, N < m →
      ∀ run ∈ [powerIteration (α := ℝ), powerIteration4],
        ∃ l niter xf, run a x ⟨m, tol⟩ = .ok ((l, niter), xf) ∧ niter ≤ N ∧ |l - hA.eigenvalues i| ≤ eps := by
  obtain ⟨rho, hr0, hr1, hr⟩ := exists_ratio hA i hi0 hdom
  have D := Dominant.of_eigenvalues hA i hi0 hr0 hr1.le hr
  have hst : eigVec hA i ⬝ᵥ x.toVec n ≠ 0 := hstart
  obtain ⟨t1, ht1, h1⟩ := accuracy_core D hr1 hst
    (d := fun k => min (norm1 (dirAt (a.toMat n n) (x.toVec n) (k + 1) - dirAt (a.toMat n n) (x.toVec n) k))
      (norm1 (dirAt (a.toMat n n) (x.toVec n) (k + 1) + dirAt (a.toMat n n) (x.toVec n) k)))
    (fun k hk => D.exact_of_dir hst (dirAt_dir (D.pow_ne hst k)) (dirAt_dir (D.pow_ne hst (k + 1)))
      (closeUpToSign_iff.2 hk)) heps
  obtain ⟨t2, ht2, h2⟩ := accuracy_core D hr1 hst
    (d := fun k => min (norm1 (dir1At (a.toMat n n) (x.toVec n) (k + 1) - dir1At (a.toMat n n) (x.toVec n) k))
      (norm1 (dir1At (a.toMat n n) (x.toVec n) (k + 1) + dir1At (a.toMat n n) (x.toVec n) k)))
    (fun k hk => D.exact_of_dir hst (dir1At_dir (D.pow_ne hst k)) (dir1At_dir (D.pow_ne hst (k + 1)))
      (closeUpToSign_iff.2 hk)) heps
  refine ⟨min t1 t2, lt_min ht1 ht2, fun tol htol hle => ?_⟩
  obtain ⟨N, hN⟩ := C79_all_terminate ha hx hA i hi0 hdom hstart htol
  refine ⟨N, fun m hm run hrun => ?_⟩
  have hne : ∀ k ≤ m, (a.toMat n n ^ k) *ᵥ x.toVec n ≠ 0 := fun k _ => D.pow_ne hst k
  obtain ⟨l', niter', xf', hrun', hN'⟩ := hN m hm run (by
    simp only [List.mem_cons, List.not_mem_nil, or_false] at hrun ⊢
    rcases hrun with rfl | rfl <;> simp)
  simp only [List.mem_cons, List.not_mem_nil, or_false] at hrun
  rcases hrun with rfl | rfl
  · obtain ⟨niter, xf, h3, -, -, h4⟩ := C79_power_iteration (tol := tol) ha hx hne
    rw [hrun'] at h3
    injection h3 with h3
    simp only [Prod.mk.injEq] at h3
    obtain ⟨⟨rfl, rfl⟩, rfl⟩ := h3
    simp only [closeUpToSign_iff] at h4
    exact ⟨_, niter', xf', hrun', hN', h1 tol (hle.trans (min_le_left _ _)) m niter' h4 (by omega)⟩
  · obtain ⟨niter, xf, h3, -, -, h4⟩ := C79_power_iteration4 (tol := tol) ha hx hne
    rw [hrun'] at h3
    injection h3 with h3
    simp only [Prod.mk.injEq] at h3
    obtain ⟨⟨rfl, rfl⟩, rfl⟩ := h3
    simp only [closeUpToSign_iff] at h4
    exact ⟨_, niter', xf', hrun', hN', h2 tol (hle.trans (min_le_right _ _)) m niter' h4 (by omega)⟩

/-- **C79** For a positive semidefinite matrix the same holds of `power_iteration2` and `power_iteration3`. -/
theorem C79_accuracy_psd {a x : Arr ℝ} (ha : a.IsMatShape n n) (hx : x.IsVecShape n)
    (hA : (a.toMat n n).IsHermitian) (hpsd : ∀ w : Fin n → ℝ, 0 ≤ w ⬝ᵥ (a.toMat n n *ᵥ w))
    (i : Fin n) (hi0 : hA.eigenvalues i ≠ 0)
    (hdom : ∀ j, j ≠ i → |hA.eigenvalues j| < |hA.eigenvalues i|)
    (hstart : (hA.eigenvectorBasis i).ofLp ⬝ᵥ x.toVec n ≠ 0) {eps : ℝ} (heps : 0 < eps) :
    ∃ tol0 > 0, ∀ tol, 0 < tol → tol ≤ tol0 → ∃ N, ∀ m, N < m →
      ∀ run ∈ [powerIteration2 (α := ℝ), powerIteration3],
        ∃ l niter xf, run a x ⟨m, tol⟩ = .ok ((l, niter), xf) ∧ niter ≤ N ∧ |l - hA.eigenvalues i| ≤ eps := by
  obtain ⟨rho, hr0, hr1, hr⟩ := exists_ratio hA i hi0 hdom
  have D := Dominant.of_eigenvalues hA i hi0 hr0 hr1.le hr
  have hst : eigVec hA i ⬝ᵥ x.toVec n ≠ 0 := hstart
  obtain ⟨t1, ht1, h1⟩ := accuracy_core D hr1 hst
    (d := fun k => |rayAt (a.toMat n n) (x.toVec n) k - rayAt (a.toMat n n) (x.toVec n) (k + 1)|)
    (fun k hk => D.exact_of_ray hst hpsd (sub_eq_zero.1 (abs_nonpos_iff.1 hk))) heps
  refine ⟨t1, ht1, fun tol htol hle => ?_⟩
  obtain ⟨N, hN⟩ := C79_all_terminate ha hx hA i hi0 hdom hstart htol
  refine ⟨N, fun m hm run hrun => ?_⟩
  have hne : ∀ k ≤ m, (a.toMat n n ^ k) *ᵥ x.toVec n ≠ 0 := fun k _ => D.pow_ne hst k
  obtain ⟨l', niter', xf', hrun', hN'⟩ := hN m hm run (by
    simp only [List.mem_cons, List.not_mem_nil, or_false] at hrun ⊢
    rcases hrun with rfl | rfl <;> simp)
  simp only [List.mem_cons, List.not_mem_nil, or_false] at hrun
  rcases hrun with rfl | rfl
  · obtain ⟨niter, xf, h3, -, -, h4⟩ := C79_power_iteration2 (tol := tol) ha hx hne
    rw [hrun'] at h3
    injection h3 with h3
    simp only [Prod.mk.injEq] at h3
    obtain ⟨⟨rfl, rfl⟩, rfl⟩ := h3
    exact ⟨_, niter', xf', hrun', hN', h1 tol hle m niter' h4 (by omega)⟩
  · obtain ⟨niter, xf, h3, -, -, -, h4⟩ := C79_power_iteration3 (tol := tol) ha hx hne
    rw [hrun'] at h3
    injection h3 with h3
    simp only [Prod.mk.injEq] at h3
    obtain ⟨⟨rfl, rfl⟩, rfl⟩ := h3
    exact ⟨_, niter', xf', hrun', hN', h1 tol hle m niter' h4 (by omega)⟩

end Ellalgo
