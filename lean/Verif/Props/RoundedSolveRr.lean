import Verif.Props.RoundedOptimF64

/-! C105: the round-robin examples `example1_rr` and `example4` in rounded arithmetic, from start to end. -/

namespace Ellalgo
open Matrix
open scoped ComplexOrder
variable {u : ℝ} {R : Rounding u}

theorem ex1rr_gradients : GradientsAtLeast 2 (ex1rrOracle (α := Fl R)) (fun idx => -1 ≤ idx ∧ idx < 3) 1 := by
  have m1 : (-1 : Fl R).val = -1 := rfl
  rintro idx x γ g cut sh γ' idx2 ⟨h1, h2⟩ hx h
  obtain ⟨hx0, hx1⟩ := fl_idx_pair hx
  obtain ⟨a, ha⟩ : ∃ a : Fl R, a = ⟨x.flVec 2 0⟩ := ⟨_, rfl⟩
  obtain ⟨b, hb⟩ : ∃ b : Fl R, b = ⟨x.flVec 2 1⟩ := ⟨_, rfl⟩
  rw [← ha] at hx0
  rw [← hb] at hx1
  obtain ⟨r, idx', hr, hi1, hi2, hn, hs⟩ := fl_cutIf_loop (m := 3) (by norm_num) (body := ex1rrBody a b (a + b) γ)
    (fun i => if i = 0 then a + b - nat 3 else if i = 1 then -a + b + 1 else γ - (a + b))
    (fun i => if i = 0 then [1, 1] else if i = 1 then [-1, 1] else [-1, -1])
    (by
      intro i hi1 hi2
      obtain rfl | rfl | rfl : i = 0 ∨ i = 1 ∨ i = 2 := by omega
      all_goals simp [ex1rrBody])
    h1 h2
  have hr' : rrLoop 0 3 (ex1rrBody a b (a + b) γ) 3 idx () = .ok (r, idx', ()) := hr
  simp only [ex1rrOracle, ex1rrAssess, hx0, hx1, Res.ok_bind, hr'] at h
  cases r with
  | none =>
    simp only [Res.ok.injEq, Prod.mk.injEq] at h
    obtain ⟨⟨⟨rfl, -⟩, -⟩, -⟩ := h
    apply fl_pair_normSq
    simp [m1]
  | some c =>
    simp only [Res.ok.injEq, Prod.mk.injEq] at h
    obtain ⟨⟨rfl, -⟩, -⟩ := h
    obtain ⟨-, hc⟩ := hs _ rfl
    obtain rfl | rfl | rfl : idx' = 0 ∨ idx' = 1 ∨ idx' = 2 := by omega
    all_goals
      simp only [Prod.mk.injEq] at hc
      obtain ⟨rfl, -⟩ := hc
      apply fl_pair_normSq
      simp [m1]

/-- **C105** (`example1_rr`).  Maximise `x + y` subject to `x + y ≤ 3` and `x - y ≥ 1` from `Ell::new_with_scalar(10, (0, 0))`, the
constraints being examined in turn from any position.  For every `ε` there are a unit roundoff `u0` and a number `N` such that in every
arithmetic with at most this unit and every starting value `γ`, a run with `max_iters ≥ N` and tolerance at most `ε²/512` does not panic
and returns a value of at least `3 - ε`.  If it started below that, it returns a point that satisfies the constraints and has this value,
both up to `8 u (1 + |x| + |y|)`. -/
theorem C105_example1_rr (ε : ℝ) (hε : 0 < ε) (hε1 : ε ≤ 1) : ∃ u0 > 0, ∃ N : Nat, ∀ u ≤ u0, ∀ (R : Rounding u) (e : Ell (Fl R))
    (idx : Int) (γ : Fl R) (opts : Options (Fl R)), R.Rep 3 → Ell.newWithScalar ⟨10⟩ (Arr.ofList [0, 0]) = .ok e → -1 ≤ idx → idx < 3 →
    N ≤ opts.maxIters → opts.tolerance.val ≤ ε ^ 2 / 512 →
    ∃ xb k γ' w' e', cuttingPlaneOptim ex1rrOracle Ell.space idx e γ opts = .ok ((xb, k), γ', w', e') ∧ 3 - ε ≤ γ'.val ∧
      (γ.val < 3 - ε → xb ≠ none) ∧
      ∀ x, xb = some x → x.IsVecShape 2 ∧ x.flVec 2 ∈ ex1With (-err2 u (x.flVec 2)) ∧
        |γ'.val - (x.flVec 2 0 + x.flVec 2 1)| ≤ err2 u (x.flVec 2) := by
  obtain ⟨m, hm⟩ : ∃ m : Fin 2 → ℝ, m = ![9 / 4 - ε / 4, 3 / 4 - ε / 4] := ⟨_, rfl⟩
  have hm0 : m 0 = 9 / 4 - ε / 4 := by rw [hm]; rfl
  have hm1 : m 1 = 3 / 4 - ε / 4 := by rw [hm]; rfl
  obtain ⟨N, hN⟩ := exists_nat_gt (2 * (((2 : ℕ) : ℝ) + 1) * Real.log (4 ^ 2 * ((10 : ℝ) • (1 : Matrix (Fin 2) (Fin 2) ℝ)).det /
    ((ε / 8) ^ 2) ^ 2))
  obtain ⟨X, hX⟩ : ∃ X, X = norm2 m + 2 * √(2 ^ N * 10 * ((2 : ℕ) * (2 * 1))) := ⟨_, rfl⟩
  have hX0 : 0 ≤ X := by
    have := norm2_nonneg m
    rw [hX]
    positivity
  obtain ⟨u0, h0, h⟩ := C105_reaches_level 2 N 1 10 (ε / 8) (norm2 m) le_rfl one_pos (by norm_num) (by positivity)
  refine ⟨min u0 (min (ε / 64) (ε / (64 * (1 + 2 * X)))), lt_min h0 (lt_min (by positivity) (by positivity)), N,
    fun u hu R e idx γ opts h3 he i1 i2 hit htol => ?_⟩
  have hu1 := hu.trans (min_le_left _ _)
  have hu2 := (hu.trans (min_le_right _ _)).trans (min_le_left _ _)
  have hu3 := (hu.trans (min_le_right _ _)).trans (min_le_right _ _)
  have hu0 := R.unit_nonneg
  obtain ⟨e', h1, h2, h4, -, h6, h7, h8⟩ := disc_new_fl (R := R) ⟨10⟩
  rw [he] at h1
  obtain rfl : e = e' := by simpa using h1
  have hball : ∀ y ∈ ball m (ε / 8), |y 0 - (9 / 4 - ε / 4)| ≤ ε / 8 ∧ |y 1 - (3 / 4 - ε / 4)| ≤ ε / 8 := by
    intro y hy
    have a := ball_coord (by positivity) hy 0
    have b := ball_coord (by positivity) hy 1
    rw [hm0] at a
    rw [hm1] at b
    exact ⟨a, b⟩
  obtain ⟨xb, k, γ', w', e1, a1, a2, a3, a4⟩ := h u hu1 R Int ex1rrOracle (fun idx => -1 ≤ idx ∧ idx < 3) ex1With (fun z => z 0 + z 1)
    (err2 u) 1 (ε / 8)
    (3 - 3 * ε / 4) m idx e γ opts h2 h4 (by rw [h6]) (by rw [h7]; exact PosDef.one) (by
      rw [h7]
      intro i j
      fin_cases i <;> fin_cases j <;> simp) le_rfl (by
      intro y hy
      obtain ⟨a, b⟩ := hball y hy
      rw [abs_le] at a b
      refine disc_ellipsoid h7 h8 ?_
      have c0 : y 0 ≤ 19 / 8 := by linarith
      have c1 : 0 ≤ y 0 := by linarith
      have d0 : y 1 ≤ 7 / 8 := by linarith
      have d1 : 0 ≤ y 1 := by linarith
      nlinarith) ⟨i1, i2⟩ (C86_example1_rr (by linarith) h3) ex1With_antitone ex1rr_gradients (by
      intro x hx
      rw [← hX] at hx
      have b0 := (norm2_coord x 0).trans hx
      have b1 := (norm2_coord x 1).trans hx
      rw [le_div_iff₀ (by positivity)] at hu3
      unfold err2
      nlinarith) (by
      intro y hy
      obtain ⟨a, b⟩ := hball y hy
      rw [abs_le] at a b
      exact ⟨⟨by linarith, by linarith⟩, by linarith⟩) (htol.trans (le_of_eq (by ring))) (by rw [h7]; exact hN) hit
  have hlev := level_three hu0 hu2 hε hε1 a2
  refine ⟨xb, k, γ', w', e1, a1, hlev, fun hlt hnone => ?_, a4⟩
  rw [a3 hnone] at hlev
  linarith

theorem ex4With_antitone : Antitone ex4With := by
  rintro a b hab z ⟨h1, h2, h3⟩
  exact ⟨by linarith, by linarith, by linarith⟩

theorem fl_pair_normSq' (a b : Fl R) (ha : 1 ≤ a.val ^ 2 + b.val ^ 2) : (1 : ℝ) ^ 2 ≤ normSq ((Arr.ofList [a, b]).flVec 2) := by
  rw [normSq, dotProduct, Fin.sum_univ_two]
  have h0 : (Arr.ofList [a, b] : Arr (Fl R)).flVec 2 0 = a.val := rfl
  have h1 : (Arr.ofList [a, b] : Arr (Fl R)).flVec 2 1 = b.val := rfl
  rw [h0, h1]
  nlinarith

theorem ex4_gradients (h3 : R.Rep 3) : GradientsAtLeast 2 (ex4Oracle (α := Fl R)) (fun idx => -1 ≤ idx ∧ idx < 4) 1 := by
  have m1 : (-1 : Fl R).val = -1 := rfl
  have m3 : (nat 3 : Fl R).val = 3 := h3
  have m4 : (3 : Fl R).val = 3 := h3
  rintro idx x γ g cut sh γ' idx2 ⟨h1, h2⟩ hx h
  obtain ⟨hx0, hx1⟩ := fl_idx_pair hx
  obtain ⟨a, ha⟩ : ∃ a : Fl R, a = ⟨x.flVec 2 0⟩ := ⟨_, rfl⟩
  obtain ⟨b, hb⟩ : ∃ b : Fl R, b = ⟨x.flVec 2 1⟩ := ⟨_, rfl⟩
  rw [← ha] at hx0
  rw [← hb] at hx1
  obtain ⟨r, idx', hr, hi1, hi2, hn, hs⟩ := fl_cutIf_loop (m := 4) (by norm_num) (body := ex4Body a b (nat 2 * a - nat 3 * b) γ)
    (fun i => if i = 0 then -a - 1 else if i = 1 then -b - nat 2 else if i = 2 then a + b - 1 else γ - (nat 2 * a - nat 3 * b))
    (fun i => if i = 0 then [-1, 0] else if i = 1 then [0, -1] else if i = 2 then [1, 1] else [-(nat 2), nat 3])
    (by
      intro i hi1 hi2
      obtain rfl | rfl | rfl | rfl : i = 0 ∨ i = 1 ∨ i = 2 ∨ i = 3 := by omega
      all_goals simp [ex4Body])
    h1 h2
  have hr' : rrLoop 0 4 (ex4Body a b (nat 2 * a - nat 3 * b) γ) 4 idx () = .ok (r, idx', ()) := hr
  have hlast : (1 : ℝ) ^ 2 ≤ normSq ((Arr.ofList [-(nat 2), nat 3] : Arr (Fl R)).flVec 2) := by
    apply fl_pair_normSq'
    rw [m3]
    nlinarith [sq_nonneg (-(nat 2) : Fl R).val]
  simp only [ex4Oracle, ex4Assess, hx0, hx1, Res.ok_bind, hr'] at h
  cases r with
  | none =>
    simp only [Res.ok.injEq, Prod.mk.injEq] at h
    obtain ⟨⟨⟨rfl, -⟩, -⟩, -⟩ := h
    exact hlast
  | some c =>
    simp only [Res.ok.injEq, Prod.mk.injEq] at h
    obtain ⟨⟨rfl, -⟩, -⟩ := h
    obtain ⟨-, hc⟩ := hs _ rfl
    obtain rfl | rfl | rfl | rfl : idx' = 0 ∨ idx' = 1 ∨ idx' = 2 ∨ idx' = 3 := by omega
    all_goals
      simp only [Prod.mk.injEq] at hc
      obtain ⟨rfl, -⟩ := hc
    · apply fl_pair_normSq'; simp [m1]
    · apply fl_pair_normSq'; simp [m1]
    · apply fl_pair_normSq'; simp
    · exact hlast

/-- a level between `0` and `12` is reached up to `ε` if the clearly better points are used up -/
theorem level_twelve {ε γ' L : ℝ} (h0 : 0 ≤ u) (hu : u ≤ ε / 128) (hε : 0 < ε) (hε1 : ε ≤ 1) (hL0 : 0 ≤ L) (hL : L ≤ 12)
    (h : L - 41 * ε / 64 ≤ γ' + (ε / 64 + 2 * u * |γ'|)) : L - ε ≤ γ' := by
  by_contra hlt
  rw [not_le] at hlt
  rcases le_total 0 γ' with hp | hn
  · rw [abs_of_nonneg hp] at h
    nlinarith
  · rw [abs_of_nonpos hn] at h
    have h1 : u * -γ' ≤ 1 / 128 * -γ' := mul_le_mul_of_nonneg_right (by linarith) (by linarith)
    linarith

/-- the points near a feasible point moved towards the origin are feasible with a margin, and almost as good -/
theorem ex4_near {x y ε s : ℝ} {z : Fin 2 → ℝ} (hε : 0 < ε) (hε1 : ε ≤ 1) (hs : s = 1 - 3 * (ε / 64)) (hx : -1 ≤ x) (hy : -2 ≤ y)
    (hxy : x + y ≤ 1) (h0 : |z 0 - s * x| ≤ ε / 64) (h1 : |z 1 - s * y| ≤ ε / 64) :
    z ∈ ex4With (ε / 64) ∧ 2 * x - 3 * y - 41 * ε / 64 ≤ 2 * z 0 - 3 * z 1 := by
  rw [abs_le] at h0 h1
  have s0 : 0 ≤ s := by linarith
  have c1 : s * -1 ≤ s * x := mul_le_mul_of_nonneg_left hx s0
  have c2 : s * -2 ≤ s * y := mul_le_mul_of_nonneg_left hy s0
  have c3 : s * (x + y) ≤ s * 1 := mul_le_mul_of_nonneg_left hxy s0
  have c4 : (1 - s) * (2 * x - 3 * y) ≤ (1 - s) * 12 := mul_le_mul_of_nonneg_left (by linarith) (by linarith)
  refine ⟨⟨by linarith, by linarith, by linarith⟩, by linarith⟩

/-- **C105** (`example4`).  Maximise `2x - 3y` subject to `x ≥ -1`, `y ≥ -2` and `x + y ≤ 1` from a disc of radius `√v ≥ 1` around the
origin, as in `Ell::new_with_scalar(v, (0, 0))`, the constraints being examined in turn from any position.  For every `ε` there are a unit
roundoff `u0` and a number `N` such that in every arithmetic with at most this unit and every starting value `γ`, a run with
`max_iters ≥ N` and tolerance at most `ε²/32768` does not panic and returns a value that no feasible point of the disc beats by more than
`ε`.  Unless the starting value was as good as that, it returns a point that satisfies the constraints and has this value, both up to
`16 u (1 + |x| + |y|)`. -/
theorem C105_example4 (v ε : ℝ) (hv : 1 ≤ v) (hε : 0 < ε) (hε1 : ε ≤ 1) : ∃ u0 > 0, ∃ N : Nat, ∀ u ≤ u0, ∀ (R : Rounding u) (e : Ell (Fl R))
    (idx : Int) (γ : Fl R) (opts : Options (Fl R)), R.Rep 3 → Ell.newWithScalar ⟨v⟩ (Arr.ofList [0, 0]) = .ok e → -1 ≤ idx → idx < 4 →
    N ≤ opts.maxIters → opts.tolerance.val ≤ ε ^ 2 / 32768 →
    ∃ xb k γ' w' e', cuttingPlaneOptim ex4Oracle Ell.space idx e γ opts = .ok ((xb, k), γ', w', e') ∧
      (∀ x y : ℝ, -1 ≤ x → -2 ≤ y → x + y ≤ 1 → x ^ 2 + y ^ 2 ≤ v → 2 * x - 3 * y - ε ≤ γ'.val) ∧
      (xb = none → γ' = γ) ∧
      ∀ x, xb = some x → x.IsVecShape 2 ∧ x.flVec 2 ∈ ex4With (-(2 * err2 u (x.flVec 2))) ∧
        |γ'.val - (2 * x.flVec 2 0 - 3 * x.flVec 2 1)| ≤ 2 * err2 u (x.flVec 2) := by
  obtain ⟨N, hN⟩ := exists_nat_gt (2 * (((2 : ℕ) : ℝ) + 1) * Real.log (4 ^ 2 * (v • (1 : Matrix (Fin 2) (Fin 2) ℝ)).det /
    ((ε / 64) ^ 2) ^ 2))
  obtain ⟨X, hX⟩ : ∃ X, X = √v + 2 * √(2 ^ N * v * ((2 : ℕ) * (2 * 1))) := ⟨_, rfl⟩
  have hX0 : 0 ≤ X := by
    rw [hX]
    positivity
  have hs1 : 1 ≤ √v := Real.one_le_sqrt.2 hv
  have hsv : √v * √v = v := Real.mul_self_sqrt (by linarith)
  obtain ⟨u0, h0, h⟩ := C105_reaches_level 2 N 1 v (ε / 64) (√v) le_rfl one_pos (by linarith) (by positivity)
  refine ⟨min u0 (min (ε / 128) (ε / (1024 * (1 + 2 * X)))), lt_min h0 (lt_min (by positivity) (by positivity)), N,
    fun u hu R e idx γ opts h3 he i1 i2 hit htol => ?_⟩
  have hu1 := hu.trans (min_le_left _ _)
  have hu2 := (hu.trans (min_le_right _ _)).trans (min_le_left _ _)
  have hu3 := (hu.trans (min_le_right _ _)).trans (min_le_right _ _)
  have hu0 := R.unit_nonneg
  obtain ⟨e', h1, h2, h4, -, h6, h7, h8⟩ := disc_new_fl (R := R) ⟨v⟩
  rw [he] at h1
  obtain rfl : e = e' := by simpa using h1
  have key : ∀ x y : ℝ, -1 ≤ x → -2 ≤ y → x + y ≤ 1 → x ^ 2 + y ^ 2 ≤ v → 0 ≤ 2 * x - 3 * y →
      ∃ xb k γ' w' e', cuttingPlaneOptim ex4Oracle Ell.space idx e γ opts = .ok ((xb, k), γ', w', e') ∧
        2 * x - 3 * y - ε ≤ γ'.val ∧ (xb = none → γ' = γ) ∧
        ∀ x, xb = some x → x.IsVecShape 2 ∧ x.flVec 2 ∈ ex4With (-(2 * err2 u (x.flVec 2))) ∧
          |γ'.val - (2 * x.flVec 2 0 - 3 * x.flVec 2 1)| ≤ 2 * err2 u (x.flVec 2) := by
    intro x y hx hy hxy hd hL
    obtain ⟨s, hs⟩ : ∃ s : ℝ, s = 1 - 3 * (ε / 64) := ⟨_, rfl⟩
    have s0 : 0 ≤ s := by linarith
    have s1 : s ≤ 1 := by linarith
    obtain ⟨m, hm⟩ : ∃ m : Fin 2 → ℝ, m = ![s * x, s * y] := ⟨_, rfl⟩
    have hm0 : m 0 = s * x := by rw [hm]; rfl
    have hm1 : m 1 = s * y := by rw [hm]; rfl
    have hmn : norm2 m ≤ s * √v := by
      refine abs_le_of_sq_le_sq' ?_ (by positivity) |>.2
      have : norm2 m ^ 2 = m 0 * m 0 + m 1 * m 1 := by
        rw [pow_two, norm2_sq, dotProduct, Fin.sum_univ_two]
      rw [this, hm0, hm1]
      nlinarith [mul_nonneg s0 s0]
    have hball : ∀ z ∈ ball m (ε / 64), |z 0 - s * x| ≤ ε / 64 ∧ |z 1 - s * y| ≤ ε / 64 := by
      intro z hz
      have a := ball_coord (by positivity) hz 0
      have b := ball_coord (by positivity) hz 1
      rw [hm0] at a
      rw [hm1] at b
      exact ⟨a, b⟩
    obtain ⟨xb, k, γ', w', e1, a1, a2, a3, a4⟩ := h u hu1 R Int ex4Oracle (fun idx => -1 ≤ idx ∧ idx < 4) ex4With
      (fun z => 2 * z 0 - 3 * z 1) (fun x => 2 * err2 u x) 1 (ε / 64) (2 * x - 3 * y - 41 * ε / 64) m idx e γ opts h2 h4 (by rw [h6])
      (by rw [h7]; exact PosDef.one) (by
        rw [h7]
        intro i j
        fin_cases i <;> fin_cases j <;> simp) (hmn.trans (by nlinarith)) (by
        intro z hz
        refine disc_ellipsoid h7 h8 ?_
        have hz' : norm2 (z - m) ≤ ε / 64 := by
          refine abs_le_of_sq_le_sq' ?_ (by positivity) |>.2
          have : normSq (z - m) ≤ (ε / 64) ^ 2 := hz
          rw [pow_two, norm2_sq]
          exact this
        have hz2 : norm2 z ≤ √v := by
          have := norm2_add (z - m) m
          rw [sub_add_cancel] at this
          nlinarith
        have : norm2 z * norm2 z = z 0 * z 0 + z 1 * z 1 := by
          rw [norm2_sq, dotProduct, Fin.sum_univ_two]
        nlinarith [norm2_nonneg z]) ⟨i1, i2⟩ (C86_example4 (by linarith) h3) ex4With_antitone (ex4_gradients h3) (by
        intro x hx
        rw [← hX] at hx
        have b0 := (norm2_coord x 0).trans hx
        have b1 := (norm2_coord x 1).trans hx
        rw [le_div_iff₀ (by positivity)] at hu3
        unfold err2
        nlinarith) (by
        intro z hz
        exact ex4_near hε hε1 hs hx hy hxy (hball z hz).1 (hball z hz).2) (htol.trans (le_of_eq (by ring))) (by rw [h7]; exact hN) hit
    exact ⟨xb, k, γ', w', e1, a1, level_twelve hu0 hu2 hε hε1 hL (by linarith) a2, a3, a4⟩
  obtain ⟨xb, k, γ', w', e1, a1, a2, a3, a4⟩ := key 0 0 (by norm_num) (by norm_num) (by norm_num) (by linarith) (by norm_num)
  refine ⟨xb, k, γ', w', e1, a1, fun x y hx hy hxy hd => ?_, a3, a4⟩
  rcases lt_or_ge (2 * x - 3 * y) 0 with hL | hL
  · linarith
  obtain ⟨xb2, k2, γ2, w2, e2, b1, b2, -⟩ := key x y hx hy hxy hd hL
  rw [a1] at b1
  simp only [Res.ok.injEq, Prod.mk.injEq] at b1
  obtain ⟨-, rfl, -⟩ := b1
  exact b2

/-- C105: `example1_rr` reaches `2.9` in some arithmetic, from a start below any feasible value -/
example : ∃ (u : ℝ) (R : Rounding u) (N : Nat) (e : Ell (Fl R)) (x : Arr (Fl R)) (k : Nat) (γ' : Fl R) (w' : Int) (e' : Ell (Fl R)),
    cuttingPlaneOptim ex1rrOracle Ell.space (-1) e ⟨-1000⟩ ⟨N, ⟨1 / 10 ^ 10⟩⟩ = .ok ((some x, k), γ', w', e') ∧ 29 / 10 ≤ γ'.val := by
  obtain ⟨u0, h0, N, h⟩ := C105_example1_rr (1 / 10) (by norm_num) (by norm_num)
  obtain ⟨u, hu, R, h3⟩ := ExOptim.fine u0 h0
  obtain ⟨e, he, -⟩ := disc_new_fl (R := R) ⟨10⟩
  obtain ⟨xb, k, γ', w', e', a1, a2, a3, -⟩ := h u hu R e (-1) ⟨-1000⟩ ⟨N, ⟨1 / 10 ^ 10⟩⟩ h3 he (by norm_num) (by norm_num) le_rfl
    (by norm_num)
  cases xb with
  | none => exact absurd rfl (a3 (by norm_num))
  | some x => exact ⟨u, R, N, e, x, k, γ', w', e', a1, by linarith⟩

/-- C105: `example4` from the disc of radius `√10`, as in its test, reaches `10.7` in some arithmetic: the point `(2.4, -2)` of the disc has
value `10.8` -/
example : ∃ (u : ℝ) (R : Rounding u) (N : Nat) (e : Ell (Fl R)) (x : Arr (Fl R)) (k : Nat) (γ' : Fl R) (w' : Int) (e' : Ell (Fl R)),
    cuttingPlaneOptim ex4Oracle Ell.space (-1) e ⟨-1000⟩ ⟨N, ⟨1 / 10 ^ 10⟩⟩ = .ok ((some x, k), γ', w', e') ∧ 107 / 10 ≤ γ'.val := by
  obtain ⟨u0, h0, N, h⟩ := C105_example4 10 (1 / 10) (by norm_num) (by norm_num) (by norm_num)
  obtain ⟨u, hu, R, h3⟩ := ExOptim.fine u0 h0
  obtain ⟨e, he, -⟩ := disc_new_fl (R := R) ⟨10⟩
  obtain ⟨xb, k, γ', w', e', a1, a2, a3, -⟩ := h u hu R e (-1) ⟨-1000⟩ ⟨N, ⟨1 / 10 ^ 10⟩⟩ h3 he (by norm_num) (by norm_num) le_rfl
    (by norm_num)
  have h1 := a2 (12 / 5) (-2) (by norm_num) (by norm_num) (by norm_num) (by norm_num)
  cases xb with
  | none =>
    rw [a3 rfl] at h1
    norm_num at h1
  | some x => exact ⟨u, R, N, e, x, k, γ', w', e', a1, by linarith⟩

end Ellalgo
