import Verif.Props.RoundedBsearch
import Verif.Props.RoundedSolve
import Verif.Lib.BinP

/-! C107: example 3 of the repository in rounded arithmetic, from start to end. -/

namespace Ellalgo
open Matrix
open scoped ComplexOrder
variable {u : ℝ} {R : Rounding u}

theorem fl_pair_normSq' (a b : Fl R) (h : 1 ≤ a.val ^ 2 + b.val ^ 2) : (1 : ℝ) ^ 2 ≤ normSq ((Arr.ofList [a, b]).flVec 2) := by
  rw [normSq, dotProduct, Fin.sum_univ_two]
  have h0 : (Arr.ofList [a, b] : Arr (Fl R)).flVec 2 0 = a.val := rfl
  have h1 : (Arr.ofList [a, b] : Arr (Fl R)).flVec 2 1 = b.val := rfl
  rw [h0, h1]
  linarith

theorem ex3_gradients (t : Fl R) :
    CutGradientsAtLeast 2 (Ex3.oracle (α := Fl R)) (fun o => -1 ≤ o.idx ∧ o.idx < 4 ∧ o.target = t) 1 := by
  have m1 : (-1 : Fl R).val = -1 := rfl
  rintro o x g cut o2 ⟨h1, h2, h3⟩ hx h
  obtain ⟨hx0, hx1⟩ := fl_idx_pair hx
  obtain ⟨a, ha⟩ : ∃ a : Fl R, a = ⟨x.flVec 2 0⟩ := ⟨_, rfl⟩
  obtain ⟨b, hb⟩ : ∃ b : Fl R, b = ⟨x.flVec 2 1⟩ := ⟨_, rfl⟩
  rw [← ha] at hx0
  rw [← hb] at hx1
  obtain ⟨r, idx', hr, hi1, hi2, hn, hs⟩ := fl_cutIf_loop (m := 4) (by norm_num) (body := ex3Body a b o.target)
    (fun i => if i = 0 then -a - 1 else if i = 1 then -b - nat 2 else if i = 2 then a + b - 1
      else nat 2 * a - nat 3 * b - o.target)
    (fun i => if i = 0 then [-1, 0] else if i = 1 then [0, -1] else if i = 2 then [1, 1] else [nat 2, -(nat 3)])
    (by
      intro i hi1 hi2
      obtain rfl | rfl | rfl | rfl : i = 0 ∨ i = 1 ∨ i = 2 ∨ i = 3 := by omega
      all_goals simp [ex3Body])
    h1 h2
  have hr' : rrLoop 0 4 (ex3Body a b o.target) 4 o.idx () = .ok (r, idx', ()) := hr
  simp only [Ex3.oracle, Ex3.assess, hx0, hx1, Res.ok_bind, hr', Res.ok.injEq, Prod.mk.injEq] at h
  obtain ⟨rfl, -⟩ := h
  obtain ⟨-, hc⟩ := hs _ rfl
  have m2 : (nat 2 : Fl R).val = 2 := R.two
  obtain rfl | rfl | rfl | rfl : idx' = 0 ∨ idx' = 1 ∨ idx' = 2 ∨ idx' = 3 := by omega
  · simp only [Prod.mk.injEq] at hc
    obtain ⟨rfl, -⟩ := hc
    exact fl_pair_normSq' (-1) 0 (by rw [m1]; simp)
  · simp only [Prod.mk.injEq] at hc
    obtain ⟨rfl, -⟩ := hc
    exact fl_pair_normSq' 0 (-1) (by rw [m1]; simp)
  · simp only [Prod.mk.injEq] at hc
    obtain ⟨rfl, -⟩ := hc
    exact fl_pair_normSq' 1 1 (by simp)
  · simp only [Prod.mk.injEq] at hc
    obtain ⟨rfl, -⟩ := hc
    exact fl_pair_normSq' (nat 2) (-(nat 3)) (by rw [m2]; nlinarith [sq_nonneg (-(nat 3 : Fl R)).val])

theorem ex3_levels (hu : u ≤ 1 / 8) (h3 : R.Rep 3) : FlLevels (R := R) 2 Ex3.oracle (fun o t => -1 ≤ o.idx ∧ o.idx < 4 ∧ o.target = t)
    ex3With (fun t x => 2 * err2 u x + u * |t|) 1 where
  update := by
    rintro w s t ⟨h1, h2, -⟩
    exact ⟨_, rfl, h1, h2, rfl⟩
  answers t := C86_example3 hu h3 t
  gradients := ex3_gradients
  margins t a b hab := by
    rintro z ⟨⟨h1, h2, h3⟩, h4⟩
    exact ⟨⟨by linarith, by linarith, by linarith⟩, by linarith⟩

/-- where a point that the oracle of example 3 accepts can lie -/
theorem ex3_box {t : ℝ} {c : Fin 2 → ℝ} (h0 : 0 ≤ u) (hu : u ≤ 1 / 1000) (ht : |t| ≤ 100)
    (hc : c ∈ ex3With t (-(2 * err2 u c + u * |t|))) :
    2 * err2 u c + u * |t| ≤ 212 * u ∧ |c 0| ≤ 7 / 2 ∧ |c 1| ≤ 5 / 2 := by
  obtain ⟨⟨h1, h2, h3⟩, -⟩ := hc
  obtain ⟨d, hd⟩ : ∃ d, d = 2 * err2 u c + u * |t| := ⟨_, rfl⟩
  rw [← hd] at h1 h2 h3 ⊢
  have hut : u * |t| ≤ u * 100 := mul_le_mul_of_nonneg_left ht h0
  have hd0 : 0 ≤ d := by rw [hd, err2]; positivity
  have hs : |c 0| + |c 1| ≤ 5 + 4 * d := by
    rcases abs_cases (c 0) with ⟨a, _⟩ | ⟨a, _⟩ <;> rcases abs_cases (c 1) with ⟨b, _⟩ | ⟨b, _⟩ <;> rw [a, b] <;> linarith
  have hE : d ≤ u * (116 + 16 * (|c 0| + |c 1|)) := by
    rw [hd, err2]; nlinarith
  have hd1 : d ≤ 1 / 4 := by nlinarith
  have hs' : |c 0| + |c 1| ≤ 6 := by linarith
  refine ⟨by nlinarith, ?_, ?_⟩
  · rw [abs_le]; constructor <;> linarith
  · rw [abs_le]; constructor <;> linarith

/-- **C107** (`example3`, the run of its test).  Minimise `2x - 3y` subject to `x ≥ -1`, `y ≥ -2`, `x + y ≤ 1` by bisection of
`[-100, 100]` from `Ell::new_with_scalar(100, (0, 0))`; the minimum is `-8`.  For every `ε` there are a unit roundoff and numbers of
iterations such that in every arithmetic with at most this unit, from every position of the round robin, `bsearch` returns `true` and
leaves the adaptor with a centre that satisfies the constraints up to `ε` and has a value of at most `-8 + ε`. -/
theorem C107_example3 (ε : ℝ) (hε : 0 < ε) (hε1 : ε ≤ 1) : ∃ u0 > 0, ∃ N N' : Nat, ∀ u ≤ u0, ∀ (R : Rounding u) (e : Ell (Fl R))
    (o : Ex3 (Fl R)) (inner outer : Options (Fl R)), R.Rep 3 → R.Rep 100 → R.Rep (-100) →
    Ell.newWithScalar ⟨100⟩ (Arr.ofList [0, 0]) = .ok e → -1 ≤ o.idx → o.idx < 4 → N ≤ inner.maxIters →
    inner.tolerance.val ≤ ε ^ 2 / 20000 → N' ≤ outer.maxIters → outer.tolerance.val ≤ ε / 12 →
    ∃ k a', bsearch (BSearchAdaptor.oracle Ex3.oracle Ell.space) ⟨o, e, inner⟩ (⟨-100⟩, ⟨100⟩) outer =
        .ok ((true, k), a', (⟨-100⟩, ⟨100⟩)) ∧ k ≤ outer.maxIters ∧
      a'.space.xc.flVec 2 ∈ ex4With (-ε) ∧ 2 * a'.space.xc.flVec 2 0 - 3 * a'.space.xc.flVec 2 1 ≤ -8 + ε := by
  obtain ⟨η, hη⟩ : ∃ η, η = ε / 50 := ⟨_, rfl⟩
  have hη0 : 0 < η := by rw [hη]; positivity
  obtain ⟨m, hm⟩ : ∃ m : Fin 2 → ℝ, m = ![-1 + 2 * η, 2 - 5 * η] := ⟨_, rfl⟩
  have hm0 : m 0 = -1 + 2 * η := by rw [hm]; rfl
  have hm1 : m 1 = 2 - 5 * η := by rw [hm]; rfl
  obtain ⟨N, hN⟩ := exists_nat_gt (2 * (((2 : ℕ) : ℝ) + 1) * Real.log (4 ^ 2 * ((100 : ℝ) • (1 : Matrix (Fin 2) (Fin 2) ℝ)).det /
    (η ^ 2) ^ 2))
  obtain ⟨N', hN'⟩ := exists_pow_lt_of_lt_one (show 0 < ε / 8 / 200 by positivity) (show (9 / 16 : ℝ) < 1 by norm_num)
  obtain ⟨X, hX⟩ : ∃ X, X = norm2 m + 2 * √(2 ^ N * 100 * ((2 : ℕ) * (2 * 1))) := ⟨_, rfl⟩
  have hX0 : 0 ≤ X := by
    have := norm2_nonneg m
    rw [hX]
    positivity
  obtain ⟨u0, h0, h⟩ := C107_bisection 2 N 1 100 η (norm2 m) le_rfl one_pos (by norm_num) hη0
  refine ⟨min u0 (min (ε / 2000) (η / (116 + 32 * X))), lt_min h0 (lt_min (by positivity) (by positivity)), N, N',
    fun u hu R e o inner outer h3 h100 hm100 he hi1 hi2 hit htol hit' htol' => ?_⟩
  have hu1 := hu.trans (min_le_left _ _)
  have hu2 := (hu.trans (min_le_right _ _)).trans (min_le_left _ _)
  have hu3 := (hu.trans (min_le_right _ _)).trans (min_le_right _ _)
  have hun := R.unit_nonneg
  have hu4 : u ≤ 1 / 1000 := by linarith
  obtain ⟨e', h1, h2, h4, -, h6, h7, h8⟩ := disc_new_fl (R := R) ⟨100⟩
  rw [he] at h1
  obtain rfl : e = e' := by simpa using h1
  have hball : ∀ y ∈ ball m η, |y 0 - (-1 + 2 * η)| ≤ η ∧ |y 1 - (2 - 5 * η)| ≤ η := by
    intro y hy
    have a := ball_coord hη0.le hy 0
    have b := ball_coord hη0.le hy 1
    rw [hm0] at a
    rw [hm1] at b
    exact ⟨a, b⟩
  have habs : ∀ t : ℝ, -100 ≤ t → t ≤ 100 → |t| ≤ 100 := fun t a b => abs_le.2 ⟨a, b⟩
  obtain ⟨flag, k, a', D, a1, hD, a2, a3, a4⟩ := h u hu1 R (Ex3 (Fl R)) Ex3.oracle (fun o t => -1 ≤ o.idx ∧ o.idx < 4 ∧ o.target = t)
    ex3With (fun t x => 2 * err2 u x + u * |t|) 1 η (-8 + ε / 2) m o o.target e inner outer ⟨-100⟩ ⟨100⟩ h2 h4 (by rw [h6])
    (by rw [h7]; exact PosDef.one) (by
      rw [h7]
      intro i j
      fin_cases i <;> fin_cases j <;> simp) le_rfl ⟨hi1, hi2, rfl⟩ (ex3_levels (by linarith) h3)
    hm100 h100 (by norm_num) (by linarith)
    (by
      intro c hc y hy
      have hcb : |c 0| ≤ 7 / 2 ∧ |c 1| ≤ 5 / 2 := by
        rcases hc with rfl | ⟨t, b1, b2, hc⟩
        · rw [h8]; norm_num
        · exact (ex3_box hun hu4 (habs t b1 b2) hc).2
      obtain ⟨a, b⟩ := hball y hy
      rw [abs_le] at a b
      obtain ⟨c0, c1⟩ := hcb
      rw [abs_le] at c0 c1
      show (y - c) ⬝ᵥ ((e.mq.flMat 2)⁻¹ *ᵥ (y - c)) ≤ 100
      rw [h7, inv_one, one_mulVec, dotProduct, Fin.sum_univ_two]
      simp only [Pi.sub_apply]
      have f1 : (y 0 - c 0) * (y 0 - c 0) ≤ 25 := by nlinarith
      have f2 : (y 1 - c 1) * (y 1 - c 1) ≤ 25 := by nlinarith
      linarith)
    (by
      intro t b1 b2 x hx
      rw [← hX] at hx
      have c0 := (norm2_coord x 0).trans hx
      have c1 := (norm2_coord x 1).trans hx
      rw [le_div_iff₀ (by positivity)] at hu3
      have := mul_le_mul_of_nonneg_left (habs t b1 b2) hun
      unfold err2
      nlinarith)
    (by
      intro t b1 b2 y hy
      obtain ⟨a, b⟩ := hball y hy
      rw [abs_le] at a b
      exact ⟨⟨by linarith, by linarith, by linarith⟩, by linarith⟩)
    (htol.trans (le_of_eq (by rw [hη]; ring))) (by rw [h7]; exact hN) hit
  have hDε : D ≤ ε / 4 := by
    rw [hD]
    refine max_le (by linarith) ?_
    have p1 : (9 / 16 : ℝ) ^ outer.maxIters ≤ (9 / 16) ^ N' := pow_le_pow_of_le_one (by norm_num) (by norm_num) hit'
    have p2 : max |(-100 : ℝ)| |(100 : ℝ)| = 100 := by norm_num
    simp only [p2]
    linarith
  cases flag with
  | false =>
    have := a4 rfl
    simp only [] at this
    linarith
  | true =>
    obtain ⟨t, b1, b2, b3, b4⟩ := a3 rfl
    have hb := (ex3_box hun hu4 (habs t b1 b2.le) b4).1
    obtain ⟨⟨d1, d2, d3⟩, d4⟩ := b4
    refine ⟨k, a', a1, a2, ⟨by linarith, by linarith, by linarith⟩, by linarith⟩

/-- arithmetics in which the integers up to 128 are numbers exist, whatever the bound on the unit -/
theorem fine_int (u0 : ℝ) (h : 0 < u0) : ∃ u, u ≤ u0 ∧ ∃ R : Rounding u, ∀ m : ℤ, |m| ≤ 128 → R.Rep m := by
  obtain ⟨q, hq⟩ := exists_pow_lt_of_lt_one h (by norm_num : (1 / 2 : ℝ) < 1)
  refine ⟨_, ?_, binP (q + 6), fun m hm => ?_⟩
  · rw [_root_.zpow_neg, zpow_q, pow_succ, pow_add, ← one_div]
    rw [_root_.one_div_pow] at hq
    refine le_trans ?_ hq.le
    exact one_div_le_one_div_of_le (by positivity) (by linarith [show (0 : ℝ) < 2 ^ q by positivity])
  · have := rndP_rep (q := q + 6) m 0 (hm.trans (by
      rw [pow_succ, pow_add]
      have : (1 : ℤ) ≤ 2 ^ q := one_le_pow₀ (by norm_num)
      linarith))
    rw [zpow_zero, mul_one] at this
    exact this

/-- C107: example 3 reaches `-7.9` in some arithmetic -/
example : ∃ (u : ℝ) (R : Rounding u) (N N' : Nat) (e : Ell (Fl R)) (k : Nat) (a' : BSearchAdaptor (Ex3 (Fl R)) (Ell (Fl R)) (Fl R)),
    bsearch (BSearchAdaptor.oracle Ex3.oracle Ell.space) ⟨Ex3.default, e, ⟨N, ⟨1 / 10 ^ 20⟩⟩⟩ (⟨-100⟩, ⟨100⟩) ⟨N', ⟨1 / 10 ^ 20⟩⟩ =
      .ok ((true, k), a', (⟨-100⟩, ⟨100⟩)) ∧ 2 * a'.space.xc.flVec 2 0 - 3 * a'.space.xc.flVec 2 1 ≤ -79 / 10 := by
  obtain ⟨u0, h0, N, N', h⟩ := C107_example3 (1 / 10) (by norm_num) (by norm_num)
  obtain ⟨u, hu, R, hR⟩ := fine_int u0 h0
  obtain ⟨e, he, -⟩ := disc_new_fl (R := R) ⟨100⟩
  have r1 := hR 3 (by norm_num)
  have r2 := hR 100 (by norm_num)
  have r3 := hR (-100) (by norm_num)
  push_cast at r1 r2 r3
  obtain ⟨k, a', a1, -, -, a2⟩ := h u hu R e Ex3.default ⟨N, ⟨1 / 10 ^ 20⟩⟩ ⟨N', ⟨1 / 10 ^ 20⟩⟩ r1 r2 r3 he (by simp [Ex3.default])
    (by simp [Ex3.default]) le_rfl (by norm_num) le_rfl (by norm_num)
  exact ⟨u, R, N, N', e, k, a', a1, by linarith⟩

end Ellalgo
