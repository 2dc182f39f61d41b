import Verif.Props.RoundedOptim

/-! C105: the examples of the repository in rounded arithmetic, from start to end. -/

namespace Ellalgo
open Matrix
open scoped ComplexOrder
variable {u : ℝ} {R : Rounding u}

theorem norm2_coord {n : Nat} (x : Fin n → ℝ) (i : Fin n) : |x i| ≤ norm2 x := by
  have h : x i ^ 2 ≤ norm2 x * norm2 x := by
    rw [norm2_sq, dotProduct, pow_two]
    exact Finset.single_le_sum (f := fun i => x i * x i) (fun j _ => mul_self_nonneg (x j)) (Finset.mem_univ i)
  exact abs_le_of_sq_le_sq (by rw [pow_two (norm2 x)]; exact h) (norm2_nonneg x)

theorem ball_coord {n : Nat} {m y : Fin n → ℝ} {r : ℝ} (hr : 0 ≤ r) (hy : y ∈ ball m r) (i : Fin n) : |y i - m i| ≤ r := by
  have h : normSq (y - m) ≤ r ^ 2 := hy
  refine abs_le_of_sq_le_sq (le_trans ?_ h) hr
  rw [normSq, dotProduct, pow_two]
  exact Finset.single_le_sum (f := fun i => (y - m) i * (y - m) i) (fun j _ => mul_self_nonneg _) (Finset.mem_univ i)

theorem ex1With_antitone : Antitone ex1With := by
  rintro a b hab z ⟨h1, h2⟩
  exact ⟨by linarith, by linarith⟩

theorem fl_pair_normSq (a b : Fl R) (ha : a.val ^ 2 = 1) : (1 : ℝ) ^ 2 ≤ normSq ((Arr.ofList [a, b]).flVec 2) := by
  rw [normSq, dotProduct, Fin.sum_univ_two]
  have h0 : (Arr.ofList [a, b] : Arr (Fl R)).flVec 2 0 = a.val := rfl
  have h1 : (Arr.ofList [a, b] : Arr (Fl R)).flVec 2 1 = b.val := rfl
  rw [h0, h1]
  nlinarith [mul_self_nonneg b.val]

theorem ex1_gradients : GradientsAtLeast 2 (ex1Oracle (α := Fl R)) (fun _ => True) 1 := by
  have m1 : (-1 : Fl R).val = -1 := rfl
  intro w x γ g cut sh γ' w' _ _ h
  simp only [ex1Oracle, ex1Assess] at h
  rw [Res.bind_eq_ok] at h
  obtain ⟨a, -, h⟩ := h
  rw [Res.bind_eq_ok] at h
  obtain ⟨b, -, h⟩ := h
  split_ifs at h <;> simp only [Res.ok.injEq, Prod.mk.injEq] at h <;> obtain ⟨⟨⟨rfl, -⟩, -⟩, -⟩ := h <;> apply fl_pair_normSq
  all_goals simp [m1]

/-- the disc of radius `√v` around the origin -/
theorem disc_new_fl (v : Fl R) : ∃ e, Ell.newWithScalar v (Arr.ofList [0, 0]) = .ok e ∧ e.Shaped 2 ∧ e.helper = EllCalc.new 2 ∧
    e.noDeferTrick = false ∧ e.kappa = v ∧ e.mq.flMat 2 = 1 ∧ e.xc.flVec 2 = 0 := by
  refine ⟨_, rfl, ⟨⟨rfl, rfl, rfl⟩, ⟨rfl, rfl, rfl⟩⟩, rfl, rfl, rfl, ?_, ?_⟩
  · ext i j
    fin_cases i <;> fin_cases j <;> rfl
  · ext i
    fin_cases i <;> rfl

theorem disc_ellipsoid {M : Matrix (Fin 2) (Fin 2) ℝ} {c : Fin 2 → ℝ} (hM : M = 1) (hc : c = 0) {κ : ℝ} {y : Fin 2 → ℝ}
    (hy : y 0 ^ 2 + y 1 ^ 2 ≤ κ) : y ∈ ellipsoid M κ c := by
  show (y - c) ⬝ᵥ (M⁻¹ *ᵥ (y - c)) ≤ κ
  rw [hM, hc, sub_zero, inv_one, one_mulVec, dotProduct, Fin.sum_univ_two]
  linarith

/-- the value `3` is reached up to `ε` if the clearly better points are used up -/
theorem level_three {ε γ' : ℝ} (h0 : 0 ≤ u) (hu : u ≤ ε / 64) (hε : 0 < ε) (hε1 : ε ≤ 1)
    (h : 3 - 3 * ε / 4 ≤ γ' + (ε / 8 + 2 * u * |γ'|)) : 3 - ε ≤ γ' := by
  by_contra hlt
  rw [not_le] at hlt
  rcases le_total 0 γ' with hp | hn
  · rw [abs_of_nonneg hp] at h
    nlinarith
  · rw [abs_of_nonpos hn] at h
    nlinarith

/-- **C105** (`example1`, the run of `test_feasible`).  Maximise `x + y` subject to `x + y ≤ 3` and `x - y ≥ 1` from
`Ell::new_with_scalar(10, (0, 0))`.  For every `ε` there are a unit roundoff `u0` and a number `N` such that in every arithmetic with at
most this unit and every starting value `γ`, a run with `max_iters ≥ N` and tolerance at most `ε²/512` does not panic and returns a value
of at least `3 - ε`.  If it started below that, it returns a point that satisfies the constraints and has this value, both up to
`8 u (1 + |x| + |y|)`. -/
theorem C105_example1 (ε : ℝ) (hε : 0 < ε) (hε1 : ε ≤ 1) : ∃ u0 > 0, ∃ N : Nat, ∀ u ≤ u0, ∀ (R : Rounding u) (e : Ell (Fl R)) (γ : Fl R)
    (opts : Options (Fl R)), R.Rep 3 → Ell.newWithScalar ⟨10⟩ (Arr.ofList [0, 0]) = .ok e → N ≤ opts.maxIters →
    opts.tolerance.val ≤ ε ^ 2 / 512 →
    ∃ xb k γ' e', cuttingPlaneOptim ex1Oracle Ell.space () e γ opts = .ok ((xb, k), γ', (), e') ∧ 3 - ε ≤ γ'.val ∧
      (γ.val < 3 - ε → xb ≠ none) ∧
      ∀ x, xb = some x → x.IsVecShape 2 ∧ x.flVec 2 ∈ ex1With (-err2 u (x.flVec 2)) ∧
        |γ'.val - (x.flVec 2 0 + x.flVec 2 1)| ≤ err2 u (x.flVec 2) := by
  obtain ⟨m, hm⟩ : ∃ m : Fin 2 → ℝ, m = ![9 / 4 - ε / 4, 3 / 4 - ε / 4] := ⟨_, rfl⟩
  have hm0 : m 0 = 9 / 4 - ε / 4 := by rw [hm]; rfl
  have hm1 : m 1 = 3 / 4 - ε / 4 := by rw [hm]; rfl
  obtain ⟨N, hN⟩ := exists_nat_gt (2 * (((2 : ℕ) : ℝ) + 1) * Real.log (4 ^ 2 * ((10 : ℝ) • (1 : Matrix (Fin 2) (Fin 2) ℝ)).det /
    ((ε / 8) ^ 2) ^ 2))
  obtain ⟨X, hX⟩ : ∃ X, X = norm2 m + 2 * √(2 ^ N * 10 * ((2 : ℕ) * (2 * 1))) := ⟨_, rfl⟩
  have hX0 : 0 ≤ X := by
    have := norm2_nonneg m
    rw [hX]
    positivity
  obtain ⟨u0, h0, h⟩ := C105_reaches_level 2 N 1 10 (ε / 8) (norm2 m) le_rfl one_pos (by norm_num) (by positivity)
  refine ⟨min u0 (min (ε / 64) (ε / (64 * (1 + 2 * X)))), lt_min h0 (lt_min (by positivity) (by positivity)), N,
    fun u hu R e γ opts h3 he hit htol => ?_⟩
  have hu1 := hu.trans (min_le_left _ _)
  have hu2 := (hu.trans (min_le_right _ _)).trans (min_le_left _ _)
  have hu3 := (hu.trans (min_le_right _ _)).trans (min_le_right _ _)
  have hu0 := R.unit_nonneg
  obtain ⟨e', h1, h2, h4, -, h6, h7, h8⟩ := disc_new_fl (R := R) ⟨10⟩
  rw [he] at h1
  obtain rfl : e = e' := by simpa using h1
  have hball : ∀ y ∈ ball m (ε / 8), |y 0 - (9 / 4 - ε / 4)| ≤ ε / 8 ∧ |y 1 - (3 / 4 - ε / 4)| ≤ ε / 8 := by
    intro y hy
    have a := ball_coord (by positivity) hy 0
    have b := ball_coord (by positivity) hy 1
    rw [hm0] at a
    rw [hm1] at b
    exact ⟨a, b⟩
  obtain ⟨xb, k, γ', w', e1, a1, a2, a3, a4⟩ := h u hu1 R Unit ex1Oracle (fun _ => True) ex1With (fun z => z 0 + z 1) (err2 u) 1 (ε / 8)
    (3 - 3 * ε / 4) m () e γ opts h2 h4 (by rw [h6]) (by rw [h7]; exact PosDef.one) (by
      rw [h7]
      intro i j
      fin_cases i <;> fin_cases j <;> simp) le_rfl (by
      intro y hy
      obtain ⟨a, b⟩ := hball y hy
      rw [abs_le] at a b
      refine disc_ellipsoid h7 h8 ?_
      have c0 : y 0 ≤ 19 / 8 := by linarith
      have c1 : 0 ≤ y 0 := by linarith
      have d0 : y 1 ≤ 7 / 8 := by linarith
      have d1 : 0 ≤ y 1 := by linarith
      nlinarith) trivial (C86_example1 (by linarith) h3) ex1With_antitone ex1_gradients (by
      intro x hx
      rw [← hX] at hx
      have b0 := (norm2_coord x 0).trans hx
      have b1 := (norm2_coord x 1).trans hx
      rw [le_div_iff₀ (by positivity)] at hu3
      unfold err2
      nlinarith) (by
      intro y hy
      obtain ⟨a, b⟩ := hball y hy
      rw [abs_le] at a b
      exact ⟨⟨by linarith, by linarith⟩, by linarith⟩) (htol.trans (le_of_eq (by ring))) (by rw [h7]; exact hN) hit
  have hlev := level_three hu0 hu2 hε hε1 a2
  refine ⟨xb, k, γ', e1, a1, hlev, fun hlt hnone => ?_, a4⟩
  rw [a3 hnone] at hlev
  linarith

theorem ex2_gradients : CutGradientsAtLeast 2 (ex2Oracle (α := Fl R)) (fun idx => -1 ≤ idx ∧ idx < 2) 1 := by
  have m1 : (-1 : Fl R).val = -1 := rfl
  rintro idx x g cut idx2 ⟨h1, h2⟩ hx h
  obtain ⟨hx0, hx1⟩ := fl_idx_pair hx
  obtain ⟨a, ha⟩ : ∃ a : Fl R, a = ⟨x.flVec 2 0⟩ := ⟨_, rfl⟩
  obtain ⟨b, hb⟩ : ∃ b : Fl R, b = ⟨x.flVec 2 1⟩ := ⟨_, rfl⟩
  rw [← ha] at hx0
  rw [← hb] at hx1
  obtain ⟨r, idx', hr, hi1, hi2, hn, hs⟩ := fl_cutIf_loop (m := 2) (by norm_num) (body := ex2Body a b)
    (fun i => if i = 0 then a + b - nat 3 else -a + b + 1) (fun i => if i = 0 then [1, 1] else [-1, 1])
    (by
      intro i hi1 hi2
      obtain rfl | rfl : i = 0 ∨ i = 1 := by omega
      all_goals simp [ex2Body])
    h1 h2
  have hr' : rrLoop 0 2 (ex2Body a b) 2 idx () = .ok (r, idx', ()) := hr
  simp only [ex2Oracle, ex2Assess, hx0, hx1, Res.ok_bind, hr', Res.ok.injEq, Prod.mk.injEq] at h
  obtain ⟨rfl, -⟩ := h
  obtain ⟨-, hc⟩ := hs _ rfl
  obtain rfl | rfl : idx' = 0 ∨ idx' = 1 := by omega
  all_goals
    simp only [Prod.mk.injEq] at hc
    obtain ⟨rfl, -⟩ := hc
    apply fl_pair_normSq
    simp [m1]

/-- **C105** (`MyOracle2` of the example2 test).  Find a point with `x + y ≤ 3` and `x - y ≥ 1` from a disc of radius `√v ≥ 4` around
the origin.  There are a unit roundoff `u0` and a number `N` such that in every arithmetic with at most this unit, from every position
of the round robin, a run with `max_iters ≥ N` and tolerance at most `1/128` returns, within `N` cuts, a point that satisfies the
constraints up to `8 u (1 + |x| + |y|)`. -/
theorem C105_example2 (v : ℝ) (hv : 16 ≤ v) : ∃ u0 > 0, ∃ N : Nat, ∀ u ≤ u0, ∀ (R : Rounding u) (e : Ell (Fl R)) (idx : Int)
    (opts : Options (Fl R)), R.Rep 3 → Ell.newWithScalar ⟨v⟩ (Arr.ofList [0, 0]) = .ok e → -1 ≤ idx → idx < 2 → N ≤ opts.maxIters →
    opts.tolerance.val ≤ 1 / 128 →
    ∃ x k w' e', cuttingPlaneFeas ex2Oracle Ell.space idx e opts = .ok ((some x, k), w', e') ∧ k < N ∧ x.IsVecShape 2 ∧
      x.flVec 2 ∈ ex1With (-err2 u (x.flVec 2)) := by
  obtain ⟨m, hm⟩ : ∃ m : Fin 2 → ℝ, m = ![3 / 2, -1 / 2] := ⟨_, rfl⟩
  have hm0 : m 0 = 3 / 2 := by rw [hm]; rfl
  have hm1 : m 1 = -1 / 2 := by rw [hm]; rfl
  obtain ⟨N, hN⟩ := exists_nat_gt (2 * (((2 : ℕ) : ℝ) + 1) * Real.log (4 ^ 2 * (v • (1 : Matrix (Fin 2) (Fin 2) ℝ)).det /
    ((1 / 4) ^ 2) ^ 2))
  obtain ⟨X, hX⟩ : ∃ X, X = norm2 m + 2 * √(2 ^ N * v * ((2 : ℕ) * (2 * 1))) := ⟨_, rfl⟩
  have hX0 : 0 ≤ X := by
    have := norm2_nonneg m
    rw [hX]
    positivity
  obtain ⟨u0, h0, h⟩ := C105_finds_point 2 N 1 v (1 / 4) (norm2 m) le_rfl one_pos (by linarith) (by positivity)
  refine ⟨min u0 (min (1 / 8) (1 / (64 * (1 + 2 * X)))), lt_min h0 (lt_min (by positivity) (by positivity)), N,
    fun u hu R e idx opts h3 he hi1 hi2 hit htol => ?_⟩
  have hu1 := hu.trans (min_le_left _ _)
  have hu2 := (hu.trans (min_le_right _ _)).trans (min_le_left _ _)
  have hu3 := (hu.trans (min_le_right _ _)).trans (min_le_right _ _)
  have hu0 := R.unit_nonneg
  obtain ⟨e', h1, h2, h4, -, h6, h7, h8⟩ := disc_new_fl (R := R) ⟨v⟩
  rw [he] at h1
  obtain rfl : e = e' := by simpa using h1
  have hball : ∀ y ∈ ball m (1 / 4), |y 0 - 3 / 2| ≤ 1 / 4 ∧ |y 1 - -1 / 2| ≤ 1 / 4 := by
    intro y hy
    have a := ball_coord (by positivity) hy 0
    have b := ball_coord (by positivity) hy 1
    rw [hm0] at a
    rw [hm1] at b
    exact ⟨a, b⟩
  exact h u hu1 R Int ex2Oracle (fun idx => -1 ≤ idx ∧ idx < 2) ex1With (err2 u) 1 (1 / 8) m idx e opts h2 h4 (by rw [h6])
    (by rw [h7]; exact PosDef.one) (by
      rw [h7]
      intro i j
      fin_cases i <;> fin_cases j <;> simp) le_rfl (by
      intro y hy
      obtain ⟨a, b⟩ := hball y hy
      rw [abs_le] at a b
      refine disc_ellipsoid h7 h8 ?_
      nlinarith) ⟨hi1, hi2⟩ (C86_example2 hu2 h3) ex1With_antitone ex2_gradients (by
      intro x hx
      rw [← hX] at hx
      have b0 := (norm2_coord x 0).trans hx
      have b1 := (norm2_coord x 1).trans hx
      rw [le_div_iff₀ (by positivity)] at hu3
      unfold err2
      nlinarith) (by
      intro y hy
      obtain ⟨a, b⟩ := hball y hy
      rw [abs_le] at a b
      exact ⟨by linarith, by linarith⟩) (htol.trans (le_of_eq (by norm_num))) (by rw [h7]; exact hN) hit

end Ellalgo
