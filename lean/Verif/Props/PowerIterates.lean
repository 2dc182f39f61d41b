import Verif.Spec.PowerIter
import Verif.Props.NanNum

/-! C117: in any arithmetic the power iterations produce the textbook sequences and stop at the first index that passes the test. -/

namespace Ellalgo
variable {α : Type} [Scalar α] {n : Nat}

theorem normL1_sumTo {x : Arr α} {v : Nat → α} (hx : IsVec x n v) : normL1 x = norm1V n v := by
  have e : x.data.map Scalar.abs = (List.range n).map fun i => Scalar.abs (v i) := by
    apply List.ext_getElem?
    intro i
    by_cases hi : i < n
    · simp [hx.get i hi, hi]
    · have a1 : x.data[i]? = none := by simp [hx.len]; omega
      simp [a1]; omega
  unfold normL1 norm1V
  rw [e]
  clear e hx
  induction n with
  | zero => rfl
  | succ n ih => rw [List.range_succ, List.map_append, List.foldl_append, ih]; rfl

theorem normalize2_gen {x : Arr α} {v : Nat → α} (hx : IsVec x n v) : ∃ z, normalize2 x = .ok z ∧ IsVec z n (unitV n v) :=
  ⟨x.divScalar (Scalar.sqrt (dotV n v v)), by rw [normalize2, dot_spec hx hx]; rfl, hx.map _⟩

theorem rayleigh_gen {a x : Arr α} {A : Nat → Nat → α} {v : Nat → α} (hn : 0 < n) (ha : IsMat a n n A) (hx : IsVec x n v) :
    rayleigh a x = .ok (rayV n A v) := by
  obtain ⟨w, h1, hw⟩ := dotMv_spec ha hx hn
  rw [rayleigh, h1, Res.ok_bind, dot_spec hx hw]; rfl

theorem close_gen (tol : α) {x y : Arr α} {v w : Nat → α} (hx : IsVec x n v) (hy : IsVec y n w) :
    closeUpToSign tol x y = .ok (closeV n tol v w) := by
  obtain ⟨d, h1, h2⟩ := hx.zipWith hy (· - ·)
  obtain ⟨s, h3, h4⟩ := hx.zipWith hy (· + ·)
  have e1 := normL1_sumTo h2
  have e2 := normL1_sumTo h4
  simp only [closeUpToSign, Arr.sub, Arr.add, h1, h3, Res.ok_bind, e1, e2, closeV]
  cases Scalar.le (norm1V n fun i => v i - w i) tol <;> rfl

/-- what a run from iteration `j` gives: it stops at the first index from `j` on where `P` holds -/
def GenRun (P : Nat → Bool) (m j : Nat) (out : Bool → Nat → Nat → α) (val : Nat → α) (n : Nat) (r : Res ((α × Nat) × Arr α)) : Prop :=
  ∃ niter xf, r = .ok ((val (min (niter + 1) m), niter), xf) ∧ IsVec xf n (out (decide (niter < m)) (min (niter + 1) m)) ∧ j ≤ niter ∧
    ((niter < m ∧ P niter = true ∧ ∀ i, j ≤ i → i < niter → P i = false) ∨ (niter = m ∧ ∀ i, j ≤ i → i < m → P i = false))

section
variable {P : Nat → Bool} {m j : Nat} {out : Bool → Nat → Nat → α} {val : Nat → α} {r : Res ((α × Nat) × Arr α)}

theorem GenRun.step (hP : P j = false) (h : GenRun P m (j + 1) out val n r) : GenRun P m j out val n r := by
  obtain ⟨niter, xf, h1, h2, h3, h4⟩ := h
  have key : ∀ b, (∀ i, j + 1 ≤ i → i < b → P i = false) → ∀ i, j ≤ i → i < b → P i = false := by
    intro b hb i hi hib
    rcases Nat.lt_or_ge j i with h | h
    · exact hb i h hib
    · rw [show i = j by omega]; exact hP
  exact ⟨niter, xf, h1, h2, by omega, h4.imp (fun h => ⟨h.1, h.2.1, key _ h.2.2⟩) (fun h => ⟨h.1, key _ h.2⟩)⟩

theorem GenRun.hit {xf : Arr α} (hj : j < m) (hP : P j = true) (hxf : IsVec xf n (out true (j + 1))) :
    GenRun P m j out val n (.ok ((val (j + 1), j), xf)) := by
  refine ⟨j, xf, ?_, ?_, le_rfl, Or.inl ⟨hj, hP, fun i h1 h2 => by omega⟩⟩
  · rw [min_eq_left (by omega)]
  · rw [min_eq_left (by omega), decide_eq_true hj]; exact hxf

theorem GenRun.last {xf : Arr α} (hxf : IsVec xf n (out false m)) : GenRun P m m out val n (.ok ((val m, m), xf)) := by
  refine ⟨m, xf, ?_, ?_, le_rfl, Or.inr ⟨rfl, fun i h1 h2 => by omega⟩⟩
  · rw [min_eq_right (by omega)]
  · rw [min_eq_right (by omega), decide_eq_false (by omega)]; exact hxf

theorem GenRun.start (h : GenRun P m 0 out val n r) : ∃ niter xf, r = .ok ((val (min (niter + 1) m), niter), xf) ∧ xf.IsVecShape n ∧
    (∀ i < n, xf.vec i = out (decide (niter < m)) (min (niter + 1) m) i) ∧ FirstBelow (fun j => P j = true) m niter := by
  obtain ⟨niter, xf, h1, h2, -, h4⟩ := h
  refine ⟨niter, xf, h1, h2.shape, fun i hi => h2.vec hi, h4.imp (fun h => ⟨h.1, h.2.1, fun i hi => ?_⟩) fun h => ⟨h.1, fun i hi => ?_⟩⟩
  · exact Bool.eq_false_iff.1 (h.2.2 i (Nat.zero_le _) hi)
  · exact Bool.eq_false_iff.1 (h.2 i (Nat.zero_le _) hi)
end

variable {a : Arr α} {A : Nat → Nat → α} (x0 : Nat → α)

theorem powerLoop_gen {opts : Options α} (hn : 0 < n) (ha : IsMat a n n A) (k j : Nat) (hkj : j + k = opts.maxIters)
    {x : Arr α} (hx : IsVec x n (powSeq n A x0 j)) :
    GenRun (fun j => closeV n opts.tolerance (powSeq n A x0 (j + 1)) (powSeq n A x0 j)) opts.maxIters j
      (fun _ k => powSeq n A x0 k) (fun k => rayV n A (powSeq n A x0 k)) n (powerLoop a opts k j x) := by
  induction k generalizing j x with
  | zero =>
    obtain rfl : j = opts.maxIters := by omega
    simp only [powerLoop, rayleigh_gen hn ha hx, Res.ok_bind]
    exact GenRun.last hx
  | succ k ih =>
    obtain ⟨y, h1, hy⟩ := dotMv_spec ha hx hn
    obtain ⟨z, h2, hz⟩ := normalize2_gen hy
    have hz' : IsVec z n (powSeq n A x0 (j + 1)) := hz
    simp only [powerLoop, h1, h2, close_gen opts.tolerance hz' hx, Res.ok_bind]
    cases hb : closeV n opts.tolerance (powSeq n A x0 (j + 1)) (powSeq n A x0 j) with
    | true =>
      simp only [if_true, rayleigh_gen hn ha hz', Res.ok_bind]
      exact GenRun.hit (val := fun k => rayV n A (powSeq n A x0 k)) (by omega) hb hz'
    | false => exact GenRun.step hb (ih (j + 1) (by omega) hz')

theorem power4Loop_gen {opts : Options α} (hn : 0 < n) (ha : IsMat a n n A) (k j : Nat) (hkj : j + k = opts.maxIters)
    {x : Arr α} (hx : IsVec x n (pow1Seq n A x0 j)) :
    GenRun (fun j => closeV n opts.tolerance (pow1Seq n A x0 (j + 1)) (pow1Seq n A x0 j)) opts.maxIters j
      (fun _ k => unitV n (pow1Seq n A x0 k)) (fun k => rayV n A (unitV n (pow1Seq n A x0 k))) n (power4Loop a opts k j x) := by
  induction k generalizing j x with
  | zero =>
    obtain rfl : j = opts.maxIters := by omega
    obtain ⟨z, h2, hz⟩ := normalize2_gen hx
    simp only [power4Loop, h2, rayleigh_gen hn ha hz, Res.ok_bind]
    exact GenRun.last (out := fun _ k => unitV n (pow1Seq n A x0 k)) (val := fun k => rayV n A (unitV n (pow1Seq n A x0 k))) hz
  | succ k ih =>
    obtain ⟨y, h1, hy⟩ := dotMv_spec ha hx hn
    have hz' : IsVec (y.divScalar (normL1 y)) n (pow1Seq n A x0 (j + 1)) := by
      rw [normL1_sumTo hy]; exact hy.map _
    simp only [power4Loop, h1, close_gen opts.tolerance hz' hx, Res.ok_bind]
    cases hb : closeV n opts.tolerance (pow1Seq n A x0 (j + 1)) (pow1Seq n A x0 j) with
    | true =>
      obtain ⟨z, h2, hz⟩ := normalize2_gen hz'
      simp only [if_true, h2, rayleigh_gen hn ha hz, Res.ok_bind]
      exact GenRun.hit (out := fun _ k => unitV n (pow1Seq n A x0 k)) (val := fun k => rayV n A (unitV n (pow1Seq n A x0 k)))
        (by omega) hb hz
    | false => exact GenRun.step hb (ih (j + 1) (by omega) hz')

theorem power2Loop_gen {opts : Options α} (hn : 0 < n) (ha : IsMat a n n A) (k j : Nat) (hkj : j + k = opts.maxIters)
    {x y : Arr α} (hx : IsVec x n (powSeq n A x0 j)) (hy : IsVec y n (mulV n A (powSeq n A x0 j))) :
    GenRun (fun j => Scalar.le (Scalar.abs (rayV n A (powSeq n A x0 j) - rayV n A (powSeq n A x0 (j + 1)))) opts.tolerance)
      opts.maxIters j (fun _ k => powSeq n A x0 k) (fun k => rayV n A (powSeq n A x0 k)) n
      (power2Loop a opts k j x y (rayV n A (powSeq n A x0 j))) := by
  induction k generalizing j x y with
  | zero =>
    obtain rfl : j = opts.maxIters := by omega
    exact GenRun.last hx
  | succ k ih =>
    obtain ⟨z, h2, hz⟩ := normalize2_gen hy
    have hz' : IsVec z n (powSeq n A x0 (j + 1)) := hz
    obtain ⟨w, h1, hw⟩ := dotMv_spec ha hz' hn
    have h3 : z.dot w = .ok (rayV n A (powSeq n A x0 (j + 1))) := dot_spec hz' hw
    simp only [power2Loop, h1, h2, h3, Res.ok_bind]
    cases hb : Scalar.le (Scalar.abs (rayV n A (powSeq n A x0 j) - rayV n A (powSeq n A x0 (j + 1)))) opts.tolerance with
    | true =>
      simp only [if_true]
      exact GenRun.hit (val := fun k => rayV n A (powSeq n A x0 k)) (by omega) hb hz'
    | false => exact GenRun.step hb (ih (j + 1) (by omega) hz' hw)

theorem power3Loop_gen {opts : Options α} (hn : 0 < n) (ha : IsMat a n n A) (k j : Nat) (hkj : j + k = opts.maxIters)
    {x y : Arr α} (hx : IsVec x n (pow3Seq n A x0 j)) (hy : IsVec y n (mulV n A (pow3Seq n A x0 j))) :
    GenRun (fun j => Scalar.le (Scalar.abs (pow3Val n A x0 j - pow3Val n A x0 (j + 1))) opts.tolerance)
      opts.maxIters j (pow3Out n A x0) (pow3Val n A x0) n (power3Loop a opts k j x y (pow3Val n A x0 j)) := by
  induction k generalizing j x y with
  | zero =>
    obtain rfl : j = opts.maxIters := by omega
    refine GenRun.last (hx.congr fun i _ => ?_)
    cases hk : opts.maxIters <;> simp [pow3Out]
  | succ k ih =>
    have h0 : y.dot y = .ok (dotV n (mulV n A (pow3Seq n A x0 j)) (mulV n A (pow3Seq n A x0 j))) := dot_spec hy hy
    cases hbig : bigV n (mulV n A (pow3Seq n A x0 j)) with
    | true =>
      have hbig' : Scalar.ge (dotV n (mulV n A (pow3Seq n A x0 j)) (mulV n A (pow3Seq n A x0 j))) (nat (10 ^ 150)) = true := hbig
      have e : pow3Seq n A x0 (j + 1) = unitV n (mulV n A (pow3Seq n A x0 j)) := by rw [pow3Seq, hbig]; rfl
      obtain ⟨z, h2, hz⟩ := normalize2_gen hy
      rw [← e] at hz
      obtain ⟨w, h1, hw⟩ := dotMv_spec ha hz hn
      have ev : pow3Val n A x0 (j + 1) = rayV n A (pow3Seq n A x0 (j + 1)) := by rw [pow3Val, hbig]; rfl
      have h3 : z.dot w = .ok (pow3Val n A x0 (j + 1)) := by rw [ev]; exact dot_spec hz hw
      simp only [power3Loop, h0, hbig', if_true, h1, h2, h3, Res.ok_bind]
      cases hb : Scalar.le (Scalar.abs (pow3Val n A x0 j - pow3Val n A x0 (j + 1))) opts.tolerance with
      | true =>
        simp only [if_true]
        refine GenRun.hit (by omega) hb (hz.congr fun i _ => ?_)
        simp [pow3Out, hbig]
      | false => exact GenRun.step hb (ih (j + 1) (by omega) hz hw)
    | false =>
      have hbig' : Scalar.ge (dotV n (mulV n A (pow3Seq n A x0 j)) (mulV n A (pow3Seq n A x0 j))) (nat (10 ^ 150)) = false := hbig
      have e : pow3Seq n A x0 (j + 1) = mulV n A (pow3Seq n A x0 j) := by rw [pow3Seq, hbig]; rfl
      rw [← e] at hy h0 hbig'
      obtain ⟨w, h1, hw⟩ := dotMv_spec ha hy hn
      have ev : pow3Val n A x0 (j + 1) = rayV n A (pow3Seq n A x0 (j + 1)) / dotV n (pow3Seq n A x0 (j + 1)) (pow3Seq n A x0 (j + 1)) := by
        rw [pow3Val, hbig]; rfl
      have h3 : y.dot w = .ok (rayV n A (pow3Seq n A x0 (j + 1))) := dot_spec hy hw
      simp only [power3Loop, h0, hbig', Bool.false_eq_true, if_false, h1, h3, Res.ok_bind]
      rw [← ev]
      cases hb : Scalar.le (Scalar.abs (pow3Val n A x0 j - pow3Val n A x0 (j + 1))) opts.tolerance with
      | true =>
        obtain ⟨z, h2, hz⟩ := normalize2_gen hy
        simp only [if_true, h2, Res.ok_bind]
        refine GenRun.hit (by omega) hb (hz.congr fun i _ => ?_)
        simp [pow3Out, hbig]
      | false => exact GenRun.step hb (ih (j + 1) (by omega) hy hw)

section
variable {x : Arr α} (hn : 0 < n) (ha : a.IsMatShape n n) (hx : x.IsVecShape n) (m : Nat) (tol : α)
include hn ha hx

/-- **C117** In any arithmetic, exact or rounded, `power_iteration` does not panic; it returns the first index at which two consecutive
members of the sequence agree up to sign (the limit if there is none), leaves the member after that index and returns its `xᵀ A x`. -/
theorem C117_power_iteration : ∃ niter xf,
    powerIteration a x ⟨m, tol⟩ = .ok ((rayV n a.mat (powSeq n a.mat x.vec (min (niter + 1) m)), niter), xf) ∧ xf.IsVecShape n ∧
    (∀ i < n, xf.vec i = powSeq n a.mat x.vec (min (niter + 1) m) i) ∧
    FirstBelow (fun j => closeV n tol (powSeq n a.mat x.vec (j + 1)) (powSeq n a.mat x.vec j) = true) m niter := by
  obtain ⟨z, h1, hz⟩ := normalize2_gen hx.isVec
  have h := powerLoop_gen (opts := ⟨m, tol⟩) x.vec hn ha.isMat m 0 (Nat.zero_add m) hz
  have e : powerIteration a x ⟨m, tol⟩ = powerLoop a ⟨m, tol⟩ m 0 z := by simp only [powerIteration, h1, Res.ok_bind]
  rw [e]
  exact h.start

/-- **C117** The same of `power_iteration4`, which scales by the 1-norm and in the end by the Euclidean norm. -/
theorem C117_power_iteration4 : ∃ niter xf,
    powerIteration4 a x ⟨m, tol⟩ = .ok ((rayV n a.mat (unitV n (pow1Seq n a.mat x.vec (min (niter + 1) m))), niter), xf) ∧
    xf.IsVecShape n ∧ (∀ i < n, xf.vec i = unitV n (pow1Seq n a.mat x.vec (min (niter + 1) m)) i) ∧
    FirstBelow (fun j => closeV n tol (pow1Seq n a.mat x.vec (j + 1)) (pow1Seq n a.mat x.vec j) = true) m niter := by
  have hz : IsVec (x.divScalar (normL1 x)) n (pow1Seq n a.mat x.vec 0) := by
    rw [normL1_sumTo hx.isVec]; exact hx.isVec.map _
  exact (power4Loop_gen (opts := ⟨m, tol⟩) x.vec hn ha.isMat m 0 (Nat.zero_add m) hz).start

/-- **C117** `power_iteration2` compares consecutive values instead of vectors. -/
theorem C117_power_iteration2 : ∃ niter xf,
    powerIteration2 a x ⟨m, tol⟩ = .ok ((rayV n a.mat (powSeq n a.mat x.vec (min (niter + 1) m)), niter), xf) ∧ xf.IsVecShape n ∧
    (∀ i < n, xf.vec i = powSeq n a.mat x.vec (min (niter + 1) m) i) ∧
    FirstBelow (fun j => Scalar.le (Scalar.abs (rayV n a.mat (powSeq n a.mat x.vec j) - rayV n a.mat (powSeq n a.mat x.vec (j + 1))))
      tol = true) m niter := by
  obtain ⟨z, h1, hz⟩ := normalize2_gen hx.isVec
  have hz' : IsVec z n (powSeq n a.mat x.vec 0) := hz
  obtain ⟨w, h2, hw⟩ := dotMv_spec ha.isMat hz' hn
  have h3 : z.dot w = .ok (rayV n a.mat (powSeq n a.mat x.vec 0)) := dot_spec hz' hw
  have h := power2Loop_gen (opts := ⟨m, tol⟩) x.vec hn ha.isMat m 0 (Nat.zero_add m) hz' hw
  have e : powerIteration2 a x ⟨m, tol⟩ = power2Loop a ⟨m, tol⟩ m 0 z w (rayV n a.mat (powSeq n a.mat x.vec 0)) := by
    simp only [powerIteration2, h1, h2, h3, Res.ok_bind]
  rw [e]
  exact h.start

/-- **C117** `power_iteration3` does so too, but scales only vectors whose squared norm has reached `10^150` and the one it stops at. -/
theorem C117_power_iteration3 : ∃ niter xf,
    powerIteration3 a x ⟨m, tol⟩ = .ok ((pow3Val n a.mat x.vec (min (niter + 1) m), niter), xf) ∧ xf.IsVecShape n ∧
    (∀ i < n, xf.vec i = pow3Out n a.mat x.vec (decide (niter < m)) (min (niter + 1) m) i) ∧
    FirstBelow (fun j => Scalar.le (Scalar.abs (pow3Val n a.mat x.vec j - pow3Val n a.mat x.vec (j + 1))) tol = true) m niter := by
  have hz' : IsVec x n (pow3Seq n a.mat x.vec 0) := hx.isVec
  obtain ⟨w, h2, hw⟩ := dotMv_spec ha.isMat hz' hn
  have h3 : x.dot w = .ok (rayV n a.mat x.vec) := dot_spec hz' hw
  have h4 : x.dot x = .ok (dotV n x.vec x.vec) := dot_spec hz' hz'
  have h := power3Loop_gen (opts := ⟨m, tol⟩) x.vec hn ha.isMat m 0 (Nat.zero_add m) hz' hw
  have e : powerIteration3 a x ⟨m, tol⟩ = power3Loop a ⟨m, tol⟩ m 0 x w (pow3Val n a.mat x.vec 0) := by
    simp only [powerIteration3, h2, h3, h4, Res.ok_bind, pow3Val]
  rw [e]
  exact h.start

end

/-- C117: the hypotheses are met by a 2 by 2 matrix in every rounded arithmetic, and the count obeys the limit -/
example {u : ℝ} (R : Rounding u) : ∃ l niter xf, powerIteration (⟨[⟨2⟩, ⟨1⟩, ⟨1⟩, ⟨2⟩], 2, 2⟩ : Arr (Fl R)) ⟨[⟨1⟩, ⟨0⟩], 2, 0⟩ ⟨5, ⟨0⟩⟩ =
    .ok ((l, niter), xf) ∧ niter ≤ 5 := by
  obtain ⟨niter, xf, h1, -, -, h4⟩ := C117_power_iteration (n := 2) (a := (⟨[⟨2⟩, ⟨1⟩, ⟨1⟩, ⟨2⟩], 2, 2⟩ : Arr (Fl R)))
    (x := ⟨[⟨1⟩, ⟨0⟩], 2, 0⟩) (by norm_num) ⟨rfl, rfl, rfl⟩ ⟨rfl, rfl, rfl⟩ 5 ⟨0⟩
  refine ⟨_, niter, xf, h1, ?_⟩
  rcases h4 with ⟨h, -⟩ | ⟨h, -⟩ <;> omega

/-- C117: and in exact arithmetic a start at an eigenvector is recognised at once -/
example : ∃ l xf, powerIteration (⟨[2], 1, 1⟩ : Arr ℝ) ⟨[1], 1, 0⟩ ⟨5, 0⟩ = .ok ((l, 0), xf) := by
  obtain ⟨niter, xf, h1, -, -, h4⟩ := C117_power_iteration (n := 1) (a := (⟨[2], 1, 1⟩ : Arr ℝ)) (x := ⟨[1], 1, 0⟩)
    one_pos ⟨rfl, rfl, rfl⟩ ⟨rfl, rfl, rfl⟩ 5 0
  have e : closeV 1 (0 : ℝ) (powSeq 1 (Arr.mat ⟨[2], 1, 1⟩) (Arr.vec ⟨[1], 1, 0⟩) 1)
      (powSeq 1 (Arr.mat ⟨[2], 1, 1⟩) (Arr.vec ⟨[1], 1, 0⟩) 0) = true := by
    have h0 : powSeq 1 (Arr.mat ⟨[(2 : ℝ)], 1, 1⟩) (Arr.vec ⟨[1], 1, 0⟩) 0 0 = 1 := by
      show (1 : ℝ) * (1 / Real.sqrt (0 + 1 * 1)) = 1
      norm_num
    have h1 : powSeq 1 (Arr.mat ⟨[(2 : ℝ)], 1, 1⟩) (Arr.vec ⟨[1], 1, 0⟩) 1 0 = 1 := by
      have : mulV 1 (Arr.mat ⟨[(2 : ℝ)], 1, 1⟩) (powSeq 1 (Arr.mat ⟨[(2 : ℝ)], 1, 1⟩) (Arr.vec ⟨[1], 1, 0⟩) 0) 0 = 2 := by
        show (0 : ℝ) + 2 * powSeq 1 (Arr.mat ⟨[(2 : ℝ)], 1, 1⟩) (Arr.vec ⟨[1], 1, 0⟩) 0 0 = 2
        rw [h0]; norm_num
      simp only [powSeq, unitV, overV, dotV, sumTo] at this ⊢
      rw [this]
      show (2 : ℝ) * (1 / Real.sqrt (0 + 2 * 2)) = 1
      rw [zero_add, Real.sqrt_mul_self (by norm_num)]; norm_num
    have h2 : norm1V 1 (fun i => powSeq 1 (Arr.mat ⟨[(2 : ℝ)], 1, 1⟩) (Arr.vec ⟨[1], 1, 0⟩) 1 i -
        powSeq 1 (Arr.mat ⟨[(2 : ℝ)], 1, 1⟩) (Arr.vec ⟨[1], 1, 0⟩) 0 i) = 0 := by
      show (0 : ℝ) + |powSeq 1 (Arr.mat ⟨[(2 : ℝ)], 1, 1⟩) (Arr.vec ⟨[1], 1, 0⟩) 1 0 -
        powSeq 1 (Arr.mat ⟨[(2 : ℝ)], 1, 1⟩) (Arr.vec ⟨[1], 1, 0⟩) 0 0| = 0
      rw [h0, h1]; norm_num
    rw [closeV, h2]
    simp [Scalar.le]
  rcases h4 with ⟨h, h5, h6⟩ | ⟨h, h5⟩
  · rcases Nat.eq_zero_or_pos niter with rfl | hp
    · exact ⟨_, xf, h1⟩
    · exact absurd e (h6 0 hp)
  · exact absurd e (h5 0 (by norm_num))

end Ellalgo
