import Verif.Lib.SlabFl
import Verif.Props.EllReal2

/-! The parameters of a central parallel cut, as computed in rounded arithmetic. -/

namespace Ellalgo
variable {u : ℝ} {R : Rounding u} {n : Nat}

theorem Near.of_seven {v x y : ℝ} (hv0 : 0 ≤ v) (hv : v ≤ 1 / 100) (hy : 0 ≤ y) (h : |x - y| ≤ 7 * v * y) : Near v 8 x y := by
  obtain ⟨h1, h2⟩ := _root_.abs_le.1 h
  have hp : (1 - v) ^ 8 ≤ 1 - 7 * v := by
    have e : (1 - v) ^ 4 ≤ 1 - 37 / 10 * v := by
      have a : (1 - v) ^ 2 ≤ 1 - 19 / 10 * v := by nlinarith
      have b : 0 ≤ (1 - v) ^ 2 := sq_nonneg _
      calc (1 - v) ^ 4 = (1 - v) ^ 2 * (1 - v) ^ 2 := by ring
        _ ≤ (1 - 19 / 10 * v) * (1 - 19 / 10 * v) := mul_le_mul a a b (by linarith)
        _ ≤ _ := by nlinarith
    have b : 0 ≤ (1 - v) ^ 4 := by positivity
    calc (1 - v) ^ 8 = (1 - v) ^ 4 * (1 - v) ^ 4 := by ring
      _ ≤ (1 - 37 / 10 * v) * (1 - 37 / 10 * v) := mul_le_mul e e b (by linarith)
      _ ≤ _ := by nlinarith
  have hp0 : 0 ≤ (1 - v) ^ 8 := by positivity
  have hvy : 0 ≤ v * y := mul_nonneg hv0 hy
  refine ⟨(mul_le_mul_of_nonneg_right hp hy).trans (by linarith), ?_⟩
  have a : (1 - v) ^ 8 * x ≤ (1 - v) ^ 8 * ((1 + 7 * v) * y) := mul_le_mul_of_nonneg_left (by linarith) hp0
  have b : (1 - v) ^ 8 * ((1 + 7 * v) * y) ≤ (1 - 7 * v) * ((1 + 7 * v) * y) :=
    mul_le_mul_of_nonneg_right hp (mul_nonneg (by linarith) hy)
  have c : 0 ≤ v * (v * y) := mul_nonneg hv0 hvy
  linarith

/-- the root in the parameters of a central parallel cut; `a` stands for `β1²/τ²` -/
noncomputable def centralRoot (N a : ℝ) : ℝ := N / 2 * a + √(1 - a + N / 2 * a * (N / 2 * a))

/-- exact facts about the root -/
theorem centralRoot_facts {N a w : ℝ} (hN : 2 ≤ N) (hw : 0 < w) (hwa : w ^ 2 ≤ a) (ha : a ≤ 1) :
    3 / 4 * w ^ 2 ≤ 1 - a + N / 2 * a * (N / 2 * a) ∧ 1 - a + N / 2 * a * (N / 2 * a) ≤ N ^ 2 / 2 ∧ 1 ≤ centralRoot N a := by
  have hw2 : 0 < w ^ 2 := by positivity
  have ha0 : 0 < a := by linarith
  have h1 : a ≤ N / 2 * a := by nlinarith
  have h2 : a * a ≤ N / 2 * a * (N / 2 * a) := mul_le_mul h1 h1 ha0.le (by linarith)
  have h3 : N / 2 * a ≤ N / 2 := by nlinarith
  have h4 : N / 2 * a * (N / 2 * a) ≤ N / 2 * (N / 2) := mul_le_mul h3 h3 (by linarith) (by linarith)
  refine ⟨?_, by nlinarith, ?_⟩
  · nlinarith [sq_nonneg (a - 1 / 2)]
  · unfold centralRoot
    by_cases h : 1 ≤ N / 2 * a
    · have := Real.sqrt_nonneg (1 - a + N / 2 * a * (N / 2 * a))
      linarith
    · have : 1 - N / 2 * a ≤ √(1 - a + N / 2 * a * (N / 2 * a)) := by
        refine Real.le_sqrt_of_sq_le ?_
        nlinarith
      linarith

/-- the central parameters are those of the slab from the centre on -/
theorem central_exact {T b : ℝ} (hn : 2 ≤ n) (hT : 0 < T) (hb : 0 < b) (hlt : b * b < T) :
    slabRho n T 0 b = b / (centralRoot n (b * b / T) + 1) ∧ slabSigma n T 0 b = 2 / (centralRoot n (b * b / T) + 1) ∧
    slabDelta n T 0 b = centralRoot n (b * b / T) / (centralRoot n (b * b / T) - 1 / n) := by
  have hn2 : (2 : ℝ) ≤ n := by exact_mod_cast hn
  have h := C27_parallel_central_eq (β1 := b) (n : ℝ) (by linarith) hT hb hlt
  have e0 : (EllCalcCore.new (n : ℝ)).calcParallelBiasCut 0 b T =
      (EllCalcCore.new (n : ℝ)).calcParallelBiasCutFast 0 b T (0 * b) (T + n * (0 * b)) := by
    simp [EllCalcCore.calcParallelBiasCut, EllCalcCore.new]
  rw [e0, calcParallelFast_real, calcParallelCentral_real] at h
  simp only [Prod.mk.injEq] at h
  exact ⟨h.1.symm, h.2.1.symm, h.2.2.symm⟩

theorem central_root_near (hu : u ≤ 1 / 64) {N a w v A h : ℝ} (hN : 2 ≤ N) (hw0 : 0 < w) (hw1 : w ≤ 1) (hwa : w ^ 2 ≤ a) (ha : a ≤ 1)
    (hA : Near u 3 A a) (hh : Near u 6 h (N / 2 * a)) (hv : v = 32 * (u * N ^ 2) / w ^ 2) (hv1 : v ≤ 1 / 100) :
    Near v 2 (R.rnd (h + R.rnd √(R.rnd (R.rnd (1 - A) + R.rnd (h * h))))) (centralRoot N a) ∧ 128 * u ≤ v := by
  have h0 := R.unit_nonneg
  have hu1 : u < 1 := by linarith
  obtain ⟨f1, f2, f3⟩ := centralRoot_facts hN hw0 hwa ha
  have hw2 : 0 < w ^ 2 := by positivity
  have ha0 : 0 < a := by linarith
  have hN2 : 4 ≤ N ^ 2 := by nlinarith
  have hv0 : 0 ≤ v := by rw [hv]; positivity
  have hF : u * N ^ 2 = v / 32 * w ^ 2 := by rw [hv]; field_simp
  have huN : u * 4 ≤ u * N ^ 2 := mul_le_mul_of_nonneg_left hN2 h0
  have hvw : v * w ^ 2 ≤ v := mul_le_of_le_one_right hv0 (pow_le_one₀ hw0.le hw1)
  have huv : 128 * u ≤ v := by linarith
  refine ⟨?_, huv⟩
  have hh0 : 0 ≤ N / 2 * a := by positivity
  have e1 := hA.abs_lin h0 (by push_cast; linarith) hu1 ha0.le
  push_cast at e1
  have e1' : |(1 - A) - (1 - a)| ≤ 4 * u := by
    rw [show (1 - A) - (1 - a) = -(A - a) by ring, abs_neg]
    refine e1.trans ?_
    nlinarith
  have e2 := rnd_off (R := R) e1' (K := 1) (by rw [abs_of_nonneg (by linarith)]; linarith)
  have e3 : Near u 13 (R.rnd (h * h)) (N / 2 * a * (N / 2 * a)) := (hh.mul hu1 hh0 hh0 hh).round hu1 (mul_nonneg hh0 hh0)
  have e4 := e3.abs_lin h0 (by push_cast; linarith) hu1 (mul_nonneg hh0 hh0)
  push_cast at e4
  have h3 : N / 2 * a ≤ N / 2 := by nlinarith
  have h4 : N / 2 * a * (N / 2 * a) ≤ N ^ 2 / 4 := by
    have := mul_le_mul h3 h3 hh0 (by linarith)
    linarith [this]
  have e5 : |R.rnd (h * h) - N / 2 * a * (N / 2 * a)| ≤ 13 / 3 * (u * N ^ 2) := by
    refine e4.trans ?_
    have := mul_le_mul_of_nonneg_left h4 h0
    linarith
  obtain ⟨Q, hQ⟩ : ∃ Q, Q = 1 - a + N / 2 * a * (N / 2 * a) := ⟨_, rfl⟩
  have hroot : centralRoot N a = N / 2 * a + √Q := by rw [hQ]; rfl
  rw [← hQ] at f1 f2
  have hQ0 : 0 < Q := lt_of_lt_of_le (by positivity) f1
  have huu : u * (4 * u) ≤ u / 16 := by nlinarith
  have e6 : |R.rnd (1 - A) + R.rnd (h * h) - Q| ≤ 6 * (u * N ^ 2) := by
    rw [hQ, add_sub_add_comm]
    refine (abs_add_le _ _).trans ?_
    linarith
  have e7 := rnd_off (R := R) e6 (K := N ^ 2 / 2) (by rw [abs_of_pos hQ0]; exact f2)
  have e8 : |R.rnd (R.rnd (1 - A) + R.rnd (h * h)) - Q| ≤ 3 / 10 * v * Q := by
    refine e7.trans ?_
    have a1 : u * (6 * (u * N ^ 2)) ≤ 6 / 64 * (u * N ^ 2) := by
      have : 0 ≤ u * N ^ 2 := by positivity
      nlinarith
    have a2 : 3 / 10 * v * (3 / 4 * w ^ 2) ≤ 3 / 10 * v * Q := mul_le_mul_of_nonneg_left f1 (by positivity)
    have : 0 ≤ v * w ^ 2 := by positivity
    linarith
  have hQh : 0 < R.rnd (R.rnd (1 - A) + R.rnd (h * h)) := by
    have := (abs_le.1 e8).1
    have : 3 / 10 * v * Q ≤ 1 / 2 * Q := mul_le_mul_of_nonneg_right (by linarith) hQ0.le
    linarith
  have e9 := sqrt_rel_err hQ0 hQh e8
  have hs0 := Real.sqrt_nonneg Q
  have x1 : Near v 1 (R.rnd √(R.rnd (R.rnd (1 - A) + R.rnd (h * h)))) √Q := by
    refine Near.of_rel hs0 ((rnd_off (R := R) e9 (K := √Q) (le_of_eq (abs_of_nonneg hs0))).trans ?_) (by linarith)
    have : u * (√Q + 3 / 10 * v * √Q) ≤ v / 128 * (2 * √Q) := by
      refine mul_le_mul (by linarith) ?_ (by positivity) (by positivity)
      have : v * √Q ≤ 1 * √Q := mul_le_mul_of_nonneg_right (by linarith) hs0
      linarith
    have : 0 ≤ v * √Q := by positivity
    linarith
  have x2 : Near v 1 h (N / 2 * a) := by
    refine Near.of_rel hh0 ?_ (by linarith)
    have := hh.abs_lin h0 (by push_cast; linarith) hu1 hh0
    push_cast at this
    refine this.trans (mul_le_mul_of_nonneg_right (by linarith) hh0)
  rw [hroot]
  exact (x2.add x1).round_in (by linarith) (by linarith) (by linarith)

/-- the parameters of a central parallel cut, as computed; `T` is a little above the computed `τ²` -/
theorem slabCentral_params (hu : u ≤ 1 / 64) (hn : 2 ≤ n) {T w v : ℝ} {Th β1 : Fl R} (hT : 0 < T) (hTh : Th.val = (1 - u) * T)
    (hw0 : 0 < w) (hw1 : w ≤ 1) (hb : w * √T ≤ β1.val) (hb1 : β1.val * β1.val < T)
    (hv : v = 32 * (u * (n : ℝ) ^ 2) / w ^ 2) (hv1 : v ≤ 1 / 100) :
    ∃ ρ σ δ : Fl R, (EllCalcCore.new (Nat.cast n : Fl R)).calcParallelCentralCut β1 Th = (ρ, σ, δ) ∧
      Near v 17 ρ.val (slabRho n T 0 β1.val) ∧ Near v 14 σ.val (slabSigma n T 0 β1.val) ∧
      Near v 17 δ.val (slabDelta n T 0 β1.val) := by
  have h0 := R.unit_nonneg
  have hu1 : u < 1 := by linarith
  have hn2 : (2 : ℝ) ≤ n := by exact_mod_cast hn
  have hs := Real.sqrt_pos.2 hT
  have hwT : 0 < w * √T := by positivity
  obtain ⟨b, hbd⟩ : ∃ b, b = β1.val := ⟨_, rfl⟩
  rw [← hbd] at hb hb1 ⊢
  have hb0 : 0 < b := by linarith
  obtain ⟨g1, g2, g3⟩ := central_exact hn hT hb0 hb1
  obtain ⟨a, had⟩ : ∃ a, a = b * b / T := ⟨_, rfl⟩
  rw [← had] at g1 g2 g3
  have hwa : w ^ 2 ≤ a := by
    rw [had, le_div_iff₀ hT]
    have := mul_le_mul hb hb hwT.le hb0.le
    have e : w * √T * (w * √T) = w ^ 2 * T := by
      rw [show w * √T * (w * √T) = w ^ 2 * (√T * √T) by ring, Real.mul_self_sqrt hT.le]
    linarith
  have ha1 : a ≤ 1 := by rw [had, div_le_one hT]; exact hb1.le
  have ha0 : 0 < a := by rw [had]; positivity
  have hTn : Near u 1 Th.val T := by
    rw [Near, pow_one, hTh]
    refine ⟨le_rfl, ?_⟩
    have : (1 - u) * (1 - u) ≤ 1 := by nlinarith
    nlinarith
  have hbb : Near u 1 (β1 * β1).val (b * b) := by rw [hbd]; exact Near.rnd (R := R) hu1 (mul_self_nonneg _)
  have hA : Near u 3 (β1 * β1 / Th).val a := by
    rw [had]; exact (hbb.div hu1 (by positivity) hT hTn).round hu1 (by positivity)
  have hhalf : Near u 2 (EllCalcCore.new (Nat.cast n : Fl R)).halfN.val ((n : ℝ) / 2) :=
    ((nF_near R hu hn).div hu1 (by positivity) (by norm_num) (two_near R)).round hu1 (by positivity)
  have hh : Near u 6 ((EllCalcCore.new (Nat.cast n : Fl R)).halfN * (β1 * β1 / Th)).val (n / 2 * a) :=
    (hhalf.mul hu1 (by positivity) ha0.le hA).round hu1 (by positivity)
  obtain ⟨hr, huv⟩ := central_root_near (R := R) hu hn2 hw0 hw1 hwa ha1 hA hh hv hv1
  obtain ⟨-, -, hr1⟩ := centralRoot_facts hn2 hw0 hwa ha1
  have hv0 : 0 ≤ v := by linarith
  have hvlt : v < 1 := by linarith
  have huv' : u ≤ v := by linarith
  obtain ⟨r, hrd⟩ : ∃ r, r = centralRoot n a := ⟨_, rfl⟩
  rw [← hrd] at hr hr1 g1 g2 g3
  obtain ⟨root, hroot⟩ : ∃ root : Fl R, root = (EllCalcCore.new (Nat.cast n : Fl R)).halfN * (β1 * β1 / Th) +
    Scalar.sqrt (1 - β1 * β1 / Th + (EllCalcCore.new (Nat.cast n : Fl R)).halfN * (β1 * β1 / Th) *
      ((EllCalcCore.new (Nat.cast n : Fl R)).halfN * (β1 * β1 / Th))) := ⟨_, rfl⟩
  have hone : (1 : Fl R).val = 1 := rfl
  have hr' : Near v 2 root.val r := by rw [hroot]; exact hr
  have hp : Near v 3 (root + 1).val (r + 1) := by
    have : Near v 2 (1 : Fl R).val 1 := by
      rw [hone]
      exact (Near.refl (u := v) 1).mono hv0 hvlt (by norm_num) (by norm_num) (by norm_num)
    exact (hr'.add this).round_in hvlt huv' (by linarith)
  have hinv : Near u 2 (EllCalcCore.new (Nat.cast n : Fl R)).invN.val (1 / (n : ℝ)) :=
    ((Near.refl (u := u) 1).div hu1 (by norm_num) (by positivity) (nF_near R hu hn)).round hu1 (by positivity)
  have hin : (1 : ℝ) / n ≤ 1 / 2 := one_div_le_one_div_of_le (by norm_num) hn2
  have hin0 : (0 : ℝ) < 1 / n := by positivity
  have hq : Near v 8 (root - (EllCalcCore.new (Nat.cast n : Fl R)).invN).val (r - 1 / n) := by
    have a1 := hr'.abs_lin hv0 (by push_cast; linarith) hvlt (by linarith)
    have a2 := hinv.abs_lin h0 (by push_cast; linarith) hu1 hin0.le
    push_cast at a1 a2
    have a3 : |root.val - (EllCalcCore.new (Nat.cast n : Fl R)).invN.val - (r - 1 / n)| ≤ 3 * v * r := by
      rw [sub_sub_sub_comm]
      refine (abs_sub _ _).trans ?_
      have b1 : u * (1 / (n : ℝ)) ≤ v / 128 * r := mul_le_mul (by linarith) (by linarith) hin0.le (by linarith)
      have b2 : 0 ≤ v * r := mul_nonneg hv0 (by linarith)
      linarith
    have hd0 : 0 < r - 1 / n := by linarith
    have a4 : 3 * v * r ≤ 6 * v * (r - 1 / n) := by
      have : 0 ≤ v * (r - 2 * (1 / n)) := mul_nonneg hv0 (by linarith)
      linarith
    refine Near.of_seven hv0 hv1 hd0.le ?_
    refine (rnd_off (R := R) (a3.trans a4) (K := r - 1 / n) (le_of_eq (abs_of_pos hd0))).trans ?_
    have b3 : u * (r - 1 / n + 6 * v * (r - 1 / n)) ≤ v / 128 * (2 * (r - 1 / n)) := by
      refine mul_le_mul (by linarith) ?_ (by positivity) (by linarith)
      have : v * (r - 1 / n) ≤ 1 / 100 * (r - 1 / n) := mul_le_mul_of_nonneg_right hv1 hd0.le
      linarith
    have : 0 ≤ v * (r - 1 / n) := by positivity
    linarith
  have hd0 : 0 < r - 1 / n := by linarith
  have wk : ∀ {j k : ℕ} {x y : ℝ}, j ≤ k → 0 ≤ y → Near v j x y → Near v k x y := fun hjk hy h => h.mono hv0 hvlt hjk (h.nonneg hvlt hy) hy
  refine ⟨β1 / (root + 1), nat 2 / (root + 1), root / (root - (EllCalcCore.new (Nat.cast n : Fl R)).invN), by rw [hroot]; rfl, ?_, ?_, ?_⟩
  · rw [g1]
    have := ((Near.of_eq (u := v) hbd.symm).div hvlt hb0.le (by linarith : 0 < r + 1) hp).round_in (R := R) hvlt huv' (by positivity)
    exact wk (by norm_num) (by positivity) this
  · rw [g2]
    have := ((two_near R).div hvlt (by norm_num) (by linarith : 0 < r + 1) hp).round_in (R := R) hvlt huv' (by positivity)
    exact wk (by norm_num) (by positivity) this
  · rw [g3]
    have := (hr'.div hvlt (by linarith) hd0 hq).round_in (R := R) hvlt huv' (by positivity)
    exact wk (by norm_num) (by positivity) this

end Ellalgo
