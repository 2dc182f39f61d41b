import Verif.Props.Binary64Huge
import Verif.Props.NanNum

/-! C100: overflow and underflow in the power iterations and the binary search, in IEEE-754 binary64. -/

namespace Ellalgo
open B64

namespace B64

/-- a sum with a term that is not finite is not finite -/
theorem sum_nonFinite {f : Nat → B64} (n : Nat) {j : Nat} (hj : j < n) (h : ¬ (f j).Finite) : ¬ (sumTo n f).Finite := by
  induction n with
  | zero => omega
  | succ n ih =>
    rw [sumTo]
    by_cases hjn : j = n
    · rw [← hjn]; exact nonFiniteLaws.add_right _ h
    · exact nonFiniteLaws.add_left (ih (by omega)) _

theorem finite_zero_mul {a : B64} (ha : a.Finite) {b : B64} (hb : ∃ s, b = zero s) : ∃ s, a * b = zero s := by
  obtain ⟨s, rfl⟩ := hb
  refine ⟨_, (finite_mul ha (b := zero s) trivial).trans (ofReal_zero ?_)⟩
  simp only [val, mul_zero]
  exact rnd64_zero

end B64

section
variable {n : Nat} {a : Arr B64} {m : Nat → Nat → B64}

/-- `x / √(x·x)` when `x·x` is computed as zero: no entry is finite -/
theorem normalize2_underflow {x : Arr B64} {v : Nat → B64} (hx : IsVec x n v) (h : ∀ i < n, Small (-538) (v i)) :
    ∃ z w, normalize2 x = .ok z ∧ IsVec z n w ∧ ∀ i < n, ¬ (w i).Finite := by
  have hd : x.dot x = .ok (zero false) := by
    rw [dot_spec hx hx]
    rw [sum_zero n fun i hi => Small.underflow (by norm_num) (h i hi) (h i hi)]
  refine ⟨x.divScalar (Scalar.sqrt (zero false)), _, by rw [normalize2, hd]; rfl, hx.map _, fun i hi => ?_⟩
  exact nonFiniteLaws.mul_right _ (nonFiniteLaws.div_zero _ (decide_eq_true rfl))

theorem normalize2_nonFinite {x : Arr B64} {v : Nat → B64} (hx : IsVec x n v) (h : ∀ i < n, ¬ (v i).Finite) :
    ∃ z w, normalize2 x = .ok z ∧ IsVec z n w ∧ ∀ i < n, ¬ (w i).Finite :=
  ⟨_, _, by rw [normalize2, dot_spec hx hx]; rfl, hx.map _, fun i hi => nonFiniteLaws.mul_left (h i hi) _⟩

theorem dotMv_nonFinite (hn : 0 < n) (ha : IsMat a n n m) {x : Arr B64} {v : Nat → B64} (hx : IsVec x n v)
    (h : ∀ i < n, ¬ (v i).Finite) : ∃ y w, a.dotMv x = .ok y ∧ IsVec y n w ∧ ∀ i < n, ¬ (w i).Finite := by
  obtain ⟨y, h1, h2⟩ := dotMv_spec ha hx hn
  exact ⟨y, _, h1, h2, fun i hi => sum_nonFinite n hn (nonFiniteLaws.mul_right _ (h 0 hn))⟩

theorem rayleigh_nonFinite (hn : 0 < n) (ha : IsMat a n n m) {x : Arr B64} {v : Nat → B64} (hx : IsVec x n v)
    (h : ∀ i < n, ¬ (v i).Finite) : ∃ l, rayleigh a x = .ok l ∧ ¬ l.Finite := by
  obtain ⟨y, w, h1, h2, h3⟩ := dotMv_nonFinite hn ha hx h
  refine ⟨_, by rw [rayleigh, h1, Res.ok_bind, dot_spec hx h2], sum_nonFinite n hn (nonFiniteLaws.mul_left (h 0 hn) _)⟩

theorem close_ok {tol : B64} {x y : Arr B64} {v w : Nat → B64} (hx : IsVec x n v) (hy : IsVec y n w) :
    ∃ b, closeUpToSign tol x y = .ok b := by
  obtain ⟨d, h1, -⟩ := hx.zipWith hy (· - ·)
  obtain ⟨s, h3, -⟩ := hx.zipWith hy (· + ·)
  simp only [closeUpToSign, Arr.sub, Arr.add, h1, h3, Res.ok_bind]
  split
  · exact ⟨_, rfl⟩
  · exact ⟨_, rfl⟩

theorem powerLoop_nonFinite (hn : 0 < n) (ha : IsMat a n n m) (opts : Options B64) (k : Nat) :
    ∀ (i : Nat) (x : Arr B64) (v : Nat → B64), IsVec x n v → (∀ i < n, ¬ (v i).Finite) →
    ∃ l j x' w, powerLoop a opts k i x = .ok ((l, j), x') ∧ ¬ l.Finite ∧ IsVec x' n w ∧ ∀ i < n, ¬ (w i).Finite := by
  induction k with
  | zero =>
    intro i x v hx h
    obtain ⟨l, h1, h2⟩ := rayleigh_nonFinite hn ha hx h
    exact ⟨l, opts.maxIters, x, v, by simp only [powerLoop, h1, Res.ok_bind], h2, hx, h⟩
  | succ k ih =>
    intro i x v hx h
    obtain ⟨y, w, h1, h2, h3⟩ := dotMv_nonFinite hn ha hx h
    obtain ⟨z, w', h4, h5, h6⟩ := normalize2_nonFinite h2 h3
    obtain ⟨b, h7⟩ := close_ok (tol := opts.tolerance) h5 hx
    cases b
    · obtain ⟨l, j, x', w2, h8, h9, h10⟩ := ih (i + 1) z w' h5 h6
      exact ⟨l, j, x', w2, by simp only [powerLoop, h1, h4, h7, Res.ok_bind, Bool.false_eq_true, if_false, h8], h9, h10⟩
    · obtain ⟨l, h8, h9⟩ := rayleigh_nonFinite hn ha h5 h6
      exact ⟨l, i, z, w', by simp only [powerLoop, h1, h4, h7, Res.ok_bind, if_true, h8], h9, h5, h6⟩

theorem power2Loop_nonFinite (hn : 0 < n) (ha : IsMat a n n m) (opts : Options B64) (k : Nat) :
    ∀ (i : Nat) (x y : Arr B64) (v w : Nat → B64) (e : B64), IsVec x n v → (∀ i < n, ¬ (v i).Finite) → IsVec y n w →
    (∀ i < n, ¬ (w i).Finite) → ¬ e.Finite →
    ∃ l j x' w', power2Loop a opts k i x y e = .ok ((l, j), x') ∧ ¬ l.Finite ∧ IsVec x' n w' ∧ ∀ i < n, ¬ (w' i).Finite := by
  induction k with
  | zero =>
    intro i x y v w e hx hv hy hw he
    exact ⟨e, _, x, v, rfl, he, hx, hv⟩
  | succ k ih =>
    intro i x y v w e hx hv hy hw he
    obtain ⟨z, u, h1, h2, h3⟩ := normalize2_nonFinite hy hw
    obtain ⟨y', w', h4, h5, h6⟩ := dotMv_nonFinite hn ha h2 h3
    have h7 := dot_spec h2 h5
    have h8 : ¬ (sumTo n fun i => u i * w' i).Finite := sum_nonFinite n hn (nonFiniteLaws.mul_left (h3 0 hn) _)
    simp only [power2Loop, h1, h4, h7, Res.ok_bind]
    split
    · exact ⟨_, i, z, u, rfl, h8, h2, h3⟩
    · exact ih (i + 1) z y' u w' _ h2 h3 h5 h6 h8

/-- **C100** (small starting vectors)  If every entry of the starting vector is at most `2⁻⁵³⁸` in absolute value, however the vector
points, `power_iteration` and `power_iteration2` return an eigenvalue and a vector none of which is a finite number, for every
matrix and all options: the squares underflow, and the vector is divided by zero. -/
theorem C100_power_tiny_start (hn : 0 < n) (ha : a.IsMatShape n n) (x : Arr B64) (hx : x.IsVecShape n)
    (h : ∀ v ∈ x.data, v.Small (-538)) (opts : Options B64) :
    ∀ f ∈ [powerIteration, powerIteration2], ∃ l j x', f a x opts = .ok ((l, j), x') ∧ ¬ l.Finite ∧ x'.IsVecShape n ∧
      ∀ v ∈ x'.data, ¬ v.Finite := by
  obtain ⟨z, w, h1, h2, h3⟩ := normalize2_underflow hx.isVec (hx.isVec.forall_mem.1 h)
  intro f hf
  simp only [List.mem_cons, List.not_mem_nil, or_false] at hf
  rcases hf with rfl | rfl
  · obtain ⟨l, j, x', w', h4, h5, h6, h7⟩ := powerLoop_nonFinite hn ha.isMat opts opts.maxIters 0 z w h2 h3
    exact ⟨l, j, x', by simp only [powerIteration, h1, Res.ok_bind, h4], h5, h6.shape, h6.forall_mem.2 h7⟩
  · obtain ⟨y, u, h4, h5, h6⟩ := dotMv_nonFinite hn ha.isMat h2 h3
    have h7 := dot_spec h2 h5
    have h8 : ¬ (sumTo n fun i => w i * u i).Finite := sum_nonFinite n hn (nonFiniteLaws.mul_left (h3 0 hn) _)
    obtain ⟨l, j, x', w', h9, h10, h11, h12⟩ := power2Loop_nonFinite hn ha.isMat opts opts.maxIters 0 z y w u _ h2 h3 h5 h6 h8
    exact ⟨l, j, x', by simp only [powerIteration2, h1, h4, h7, Res.ok_bind, h9], h10, h11.shape, h11.forall_mem.2 h12⟩

/-- `x / √(x·x)` when `x·x` overflows: zeros -/
theorem normalize2_overflow {x : Arr B64} {v : Nat → B64} (hx : IsVec x n v) (hf : ∀ i < n, (v i).Finite)
    (hb : ∃ i < n, (2 : ℝ) ^ (512 : ℤ) ≤ |(v i).val|) :
    ∃ z w, normalize2 x = .ok z ∧ IsVec z n w ∧ ∀ i < n, ∃ s, w i = zero s := by
  obtain ⟨j, hj, hb⟩ := hb
  have hd : x.dot x = .ok (inf false) := by
    rw [dot_spec hx hx]
    have hup : ∀ i < n, Up (v i * v i) := by
      intro i hi
      rw [finite_mul (hf i hi) (hf i hi)]; exact up_ofReal (mul_self_nonneg _)
    have hov : v j * v j = inf false := by
      rw [finite_mul (hf j hj) (hf j hj)]
      refine overflow ?_
      rw [← abs_mul_abs_self, show (1024 : ℤ) = 512 + 512 by norm_num, zpow_add₀ (by norm_num)]
      exact mul_le_mul hb hb (by positivity) (abs_nonneg _)
    rw [sum_inf n hup hj hov]
  refine ⟨x.divScalar (Scalar.sqrt (inf false)), _, by rw [normalize2, hd]; rfl, hx.map _, fun i hi => ?_⟩
  refine finite_zero_mul (hf i hi) ⟨false, ?_⟩
  show (1 : B64) / inf false = _
  rw [one_eq]
  show zero (decide _ ^^ false) = _
  rw [decide_eq_false (not_lt.2 zero_le_one)]
  rfl

/-- zeros divided by their norm: NaN -/
theorem normalize2_zeros {x : Arr B64} {v : Nat → B64} (hx : IsVec x n v) (h : ∀ i < n, ∃ s, v i = zero s) :
    ∃ z w, normalize2 x = .ok z ∧ IsVec z n w ∧ ∀ i < n, w i = nan := by
  have hd : x.dot x = .ok (zero false) := by
    rw [dot_spec hx hx]
    rw [sum_zero n fun i hi => finite_zero_mul (by obtain ⟨s, e⟩ := h i hi; rw [e]; trivial) (h i hi)]
  refine ⟨x.divScalar (Scalar.sqrt (zero false)), _, by rw [normalize2, hd]; rfl, hx.map _, fun i hi => ?_⟩
  have e : (1 : B64) / Scalar.sqrt (zero false) = inf (sgn 1 ^^ false) := by rw [one_eq]; rfl
  obtain ⟨s, hs⟩ := h i hi
  simp only [hs, e]
  rfl

theorem dotMv_zeros (hn : 0 < n) (ha : IsMat a n n m) (hm : ∀ i < n, ∀ j < n, (m i j).Finite) {x : Arr B64} {v : Nat → B64}
    (hx : IsVec x n v) (h : ∀ i < n, ∃ s, v i = zero s) :
    ∃ y w, a.dotMv x = .ok y ∧ IsVec y n w ∧ ∀ i < n, ∃ s, w i = zero s := by
  obtain ⟨y, h1, h2⟩ := dotMv_spec ha hx hn
  exact ⟨y, _, h1, h2, fun i hi => ⟨false, sum_zero n fun j hj => finite_zero_mul (hm i hi j hj) (h j hj)⟩⟩

theorem dot_zeros {x y : Arr B64} {v w : Nat → B64} (hx : IsVec x n v) (h : ∀ i < n, ∃ s, v i = zero s) (hy : IsVec y n w)
    (hw : ∀ i < n, ∃ s, w i = zero s) : x.dot y = .ok (zero false) := by
  rw [dot_spec hx hy]
  rw [sum_zero n fun i hi => finite_zero_mul (by obtain ⟨s, e⟩ := h i hi; rw [e]; trivial) (hw i hi)]

/-- **C100** (large matrices)  If the product of the matrix and the normalised starting vector is finite with an entry of at least `2^512`,
then `power_iteration` and `power_iteration2`, with at least one iteration allowed, return a zero or a NaN as the dominant
eigenvalue, for all finite matrices: the norm overflows, and the vector is divided by infinity. -/
theorem C100_power_huge (hn : 0 < n) (ha : a.IsMatShape n n) (hfin : ∀ v ∈ a.data, v.Finite) (x x1 y : Arr B64)
    (hx : x.IsVecShape n) (h1 : normalize2 x = .ok x1) (h2 : a.dotMv x1 = .ok y) (hy : ∀ v ∈ y.data, v.Finite)
    (hbig : ∃ v ∈ y.data, (2 : ℝ) ^ (512 : ℤ) ≤ |v.val|) (opts : Options B64) (hm : 0 < opts.maxIters) :
    ∀ f ∈ [powerIteration, powerIteration2], ∃ l j x', f a x opts = .ok ((l, j), x') ∧ (l = .zero false ∨ l = .nan) := by
  have hmf := ha.isMat.small hfin
  obtain ⟨k, hk⟩ : ∃ k, opts.maxIters = k + 1 := ⟨opts.maxIters - 1, by omega⟩
  have hx1 : ∃ v1, IsVec x1 n v1 := by
    rw [normalize2, dot_spec hx.isVec hx.isVec] at h1
    simp only [Res.ok_bind, Res.ok.injEq] at h1
    subst h1
    exact ⟨_, hx.isVec.map _⟩
  obtain ⟨v1, hx1⟩ := hx1
  have hyv : IsVec y n (fun i => sumTo n fun j => a.mat i j * v1 j) := by
    obtain ⟨y', e1, e2⟩ := dotMv_spec ha.isMat hx1 hn
    rw [h2] at e1
    cases e1
    exact e2
  have hy' := hyv.forall_mem.1 hy
  have hb' : ∃ i < n, (2 : ℝ) ^ (512 : ℤ) ≤ |(sumTo n fun j => a.mat i j * v1 j).val| := by
    by_contra hc
    push Not at hc
    obtain ⟨v, hv1, hv2⟩ := hbig
    exact absurd hv2 (not_le.2 ((hyv.forall_mem (P := fun v => |v.val| < (2 : ℝ) ^ (512 : ℤ))).2 hc v hv1))
  obtain ⟨z, w, n1, n2, n3⟩ := normalize2_overflow hyv hy' hb'
  obtain ⟨y2, w2, m1, m2, m3⟩ := dotMv_zeros hn ha.isMat hmf n2 n3
  have hray : rayleigh a z = .ok (zero false) := by
    rw [rayleigh, m1, Res.ok_bind]
    exact dot_zeros n2 n3 m2 m3
  obtain ⟨z2, w3, p1, p2, p3⟩ := normalize2_zeros m2 m3
  intro f hf
  simp only [List.mem_cons, List.not_mem_nil, or_false] at hf
  rcases hf with rfl | rfl
  · obtain ⟨b, hb⟩ := close_ok (tol := opts.tolerance) n2 hx1
    simp only [powerIteration, h1, Res.ok_bind, hk, powerLoop, h2, n1, hb]
    cases b
    · simp only [Bool.false_eq_true, if_false]
      cases k with
      | zero => exact ⟨_, opts.maxIters, z, by simp only [powerLoop, hray, Res.ok_bind], Or.inl rfl⟩
      | succ k =>
        have hc := close_nan nanLaws opts.tolerance p2 n2 ⟨0, hn, p3 0 hn⟩
        obtain ⟨l, x', e1, e2⟩ := powerLoop_nan nanLaws ha.isMat opts k (0 + 1 + 1) z2 w3 p2 (Or.inr ⟨0, hn, p3 0 hn⟩)
        exact ⟨l, opts.maxIters, x', by simp only [powerLoop, m1, p1, hc, Res.ok_bind, Bool.false_eq_true, if_false, e1], Or.inr e2⟩
    · simp only [if_true, hray, Res.ok_bind]
      exact ⟨_, 0, z, rfl, Or.inl rfl⟩
  · have hd := dot_zeros n2 n3 m2 m3
    simp only [powerIteration2, h1, Res.ok_bind, hk, h2, dot_spec hx1 hyv, power2Loop, n1, m1, hd]
    split
    · exact ⟨_, 0, z, rfl, Or.inl rfl⟩
    · cases k with
      | zero => exact ⟨_, opts.maxIters, z, rfl, Or.inl rfl⟩
      | succ k =>
        obtain ⟨y3, w4, q1, q2, q3⟩ := dotMv_nan nanLaws ha.isMat p2 (Or.inr ⟨0, hn, p3 0 hn⟩)
        obtain ⟨d, r1, r2⟩ := dot_nan nanLaws p2 q2 (Or.inl ⟨0, hn, p3 0 hn⟩)
        have hle : Scalar.le (Scalar.abs (zero false - d)) opts.tolerance = false :=
          nanLaws.le_left (nanLaws.abs (nanLaws.sub_right _ r2)) _
        obtain ⟨l, x', e1, e2⟩ := power2Loop_nan nanLaws ha.isMat opts k (0 + 1 + 1) z2 y3 w4 d q2 q3 r2
        exact ⟨l, opts.maxIters, x', by simp only [power2Loop, p1, q1, r1, Res.ok_bind, hle, Bool.false_eq_true, if_false, e1], Or.inr e2⟩

end

/-- **C100** (long intervals)  If `upper - lower` overflows, `bsearch` probes `+∞` only.  When the oracle rejects `+∞`, it returns `(false, 1)` after
that probe. When it accepts `+∞` every time it is asked, it returns `(true, max_iters)`. -/
theorem C100_bsearch_overflow {Ω : Type} (orc : OracleBS Ω B64) (w : Ω) (lower upper : B64) (hl : lower.Finite) (hu : upper.Finite)
    (hle : Scalar.le lower upper = true) (hov : upper - lower = .inf false) (opts : Options B64) (hm : 0 < opts.maxIters)
    (htol : opts.tolerance.Finite) :
    (∀ w', orc.assess w (.inf false) = .ok (false, w') → 2 ≤ opts.maxIters →
      bsearch orc w (lower, upper) opts = .ok ((false, 1), w', (lower, upper))) ∧
    ((∀ w, orc.assess w (.inf false) = .ok (true, w)) →
      bsearch orc w (lower, upper) opts = .ok ((true, opts.maxIters), w, (lower, upper))) := by
  have h2 : (nat 2 : B64).Finite ∧ (nat 2 : B64).val = 2 := by
    have e : rnd64 ((2 : ℕ) : ℝ) = 2 := by
      have := rnd64_pow (k := 1) (by norm_num)
      simpa using this
    have := ofReal_val (s := false) (x := ((2 : ℕ) : ℝ)) (by
      rw [e, abs_of_pos (by norm_num)]
      exact lt_of_le_of_lt (by norm_num : (2 : ℝ) ≤ (2 : ℝ) ^ (1 : ℤ)) (zpow_lt_zpow_right₀ (by norm_num) (by norm_num)))
    rw [e] at this
    exact this
  have hhalf : ∀ s, (inf s : B64) / nat 2 = inf s := by
    intro s
    obtain ⟨h1, h3⟩ := h2
    cases h : (nat 2 : B64) with
    | nan => rw [h] at h1; exact h1.elim
    | inf t => rw [h] at h1; exact h1.elim
    | zero t => rw [h] at h3; simp [val] at h3
    | num b =>
      rw [h] at h3
      have h3 : b.x = 2 := h3
      show inf (s ^^ decide (b.x < 0)) = _
      rw [decide_eq_false (by rw [h3]; norm_num)]
      simp
  have hlt : Scalar.lt (.inf false) opts.tolerance = false := by
    cases h : opts.tolerance <;> rw [h] at htol <;> first | exact htol.elim | rfl
  have hlt' : Scalar.lt (.inf true) opts.tolerance = true := by
    cases h : opts.tolerance <;> rw [h] at htol <;> first | exact htol.elim | rfl
  have hadd : lower + .inf false = .inf false := by
    cases lower <;> first | exact hl.elim | rfl
  have hsub : ∀ b : B64, b.Finite → (B64.inf false) - b = .inf false := by
    intro b hb
    cases b <;> first | exact hb.elim | rfl
  have hsub' : upper - .inf false = .inf true := by
    cases upper <;> first | exact hu.elim | rfl
  obtain ⟨k, hk⟩ : ∃ k, opts.maxIters = k + 1 := ⟨opts.maxIters - 1, by omega⟩
  have hbeq : Scalar.beq (.inf false) upper = false := by
    cases upper <;> first | exact hu.elim | rfl
  have hbeq' : Scalar.beq upper upper = true := by
    cases upper with
    | nan => exact hu.elim
    | inf s => exact hu.elim
    | zero s => exact decide_eq_true rfl
    | num a => exact decide_eq_true rfl
  constructor
  · intro w' ha hk2
    obtain ⟨k', hk'⟩ : ∃ k', k = k' + 1 := ⟨k - 1, by omega⟩
    subst hk'
    simp only [bsearch, hle, Res.assert_true, Res.ok_bind, hk, bsearchLoop, hov, hhalf, hlt, hadd, ha, Bool.false_eq_true, if_false,
      hsub', hlt', if_true, hbeq']
    rfl
  · intro ha
    have key : ∀ (j i : Nat), bsearchLoop orc opts.tolerance j i w lower (.inf false) = .ok ((lower, .inf false), i + j, w) := by
      intro j
      induction j with
      | zero => intro i; rfl
      | succ j ih =>
        intro i
        simp only [bsearchLoop, hsub lower hl, hhalf, hlt, hadd, ha, Res.ok_bind, Bool.false_eq_true, if_false, if_true, ih (i + 1)]
        congr 3
        omega
    simp only [bsearch, hle, Res.assert_true, Res.ok_bind, hk, bsearchLoop, hov, hhalf, hlt, hadd, ha, Bool.false_eq_true, if_false,
      if_true, key, hbeq]
    congr 3
    · omega

end Ellalgo
