import Verif.Lib.Bsearch64

/-! # C122: `bsearch` in IEEE-754 `f64` -/

namespace Ellalgo
open B64
variable {Ω : Type}

/-- the probes as real numbers -/
noncomputable def probeVals (ps : List (B64 × Bool)) : List (ℝ × Bool) := ps.map fun p => (p.1.val, p.2)

/-- the rounding of one bisection step within `[-B, B]` -/
noncomputable def midErr (B : ℝ) : ℝ := (2 : ℝ) ^ (-53 : ℤ) * B + (2 : ℝ) ^ (-1075 : ℤ)

theorem bsearchLoop64 (orc : OracleBS Ω B64) {l u : ℝ} (hov : |rnd64 (u - l)| < (2 : ℝ) ^ (1024 : ℤ)) (B : ℝ) (hl : |l| ≤ B) (hu : |u| ≤ B)
    (hq : ∀ w g, g.Finite → l ≤ g.val → g.val ≤ u → orc.assess w g ≠ .panic) (tol : B64) (m : Nat) :
    ∀ (k0 : Nat) (w : Ω) (h : List (B64 × Bool)) (L U : B64), L.Finite → U.Finite → l ≤ L.val → L.val ≤ U.val → U.val ≤ u →
    ∃ L' U' ps w', bsearchLoop orc.record tol m k0 (w, h) L U = .ok ((L', U'), k0 + ps.length, (w', h ++ ps)) ∧ U'.Finite ∧
      (L'.val, U'.val) = bracket L.val U.val (probeVals ps) ∧
      (∀ p ∈ ps, p.1.Finite ∧ L.val ≤ p.1.val ∧ p.1.val ≤ U.val ∧ ∃ w1 w2, orc.assess w1 p.1 = .ok (p.2, w2)) ∧ L'.val ≤ U'.val ∧
      ps.length ≤ m ∧
      U'.val - L'.val - 16 / 7 * midErr B ≤ (9 / 16) ^ ps.length * (U.val - L.val - 16 / 7 * midErr B) ∧
      (ps.length < m → tol.Finite → U'.val - L'.val ≤ 4 * tol.val) := by
  induction m with
  | zero =>
    intro k0 w h L U hL hU h1 h2 h3
    exact ⟨L, U, [], w, by simp [bsearchLoop], hU, rfl, by simp, h2, le_rfl, by simp, by simp⟩
  | succ m ih =>
    intro k0 w h L U hL hU h1 h2 h3
    have hB : 0 ≤ B := (abs_nonneg _).trans hl
    have hme : 0 ≤ midErr B := add_nonneg (mul_nonneg (by positivity) hB) (by positivity)
    have hLB : |L.val| ≤ B := by
      rw [abs_le] at *
      constructor <;> linarith [hl.1, hu.2]
    have hUB : |U.val| ≤ B := by
      rw [abs_le] at *
      constructor <;> linarith [hl.1, hu.2]
    have hsub : (U - L).Finite ∧ (U - L).val = rnd64 (U.val - L.val) := by
      refine finite_sub_val hU hL ?_
      have m1 := rnd64_mono (by linarith : 0 ≤ U.val - L.val)
      have m2 := rnd64_mono (by linarith : U.val - L.val ≤ u - l)
      rw [rnd64_zero] at m1
      rw [abs_of_nonneg m1]
      exact m2.trans_lt ((le_abs_self _).trans_lt hov)
    obtain ⟨t1, t2⟩ := finite_half hsub.1
    rw [hsub.2] at t2
    obtain ⟨d0, d1, d2⟩ := half_diff (B64.rep_val hL) (B64.rep_val hU) h2
    obtain ⟨g1, g2, g3⟩ := mid64 (B64.rep_val hL) (B64.rep_val hU) h2 hLB hUB
    have hadd : (L + (U - L) / nat 2).Finite ∧ (L + (U - L) / nat 2).val = rnd64 (L.val + rnd64 (rnd64 (U.val - L.val) / 2)) := by
      have := finite_add_val hL t1
      rw [t2] at this
      refine this ?_
      refine lt_of_le_of_lt ?_ (max_lt (finite_bound hL) (finite_bound hU))
      exact abs_le_max_abs_abs g1 g2
    rw [← hadd.2] at g1 g2 g3
    obtain ⟨γ, hγ⟩ : ∃ γ, γ = L + (U - L) / nat 2 := ⟨_, rfl⟩
    rw [← hγ] at g1 g2 g3 hadd
    unfold bsearchLoop
    simp only [← hγ]
    have hg4 : |γ.val - (L.val + U.val) / 2| ≤ 1 / 16 * (U.val - L.val) + midErr B := by
      have hb := mul_le_mul_of_nonneg_right two53.2 (by linarith : (0 : ℝ) ≤ (U.val - L.val) / 2)
      unfold midErr
      generalize (2 : ℝ) ^ (-53 : ℤ) = v at *
      generalize (2 : ℝ) ^ (-1075 : ℤ) = η at *
      linarith
    rw [abs_le] at hg4
    split
    · rename_i hlt
      refine ⟨L, U, [], w, by simp, hU, rfl, by simp, h2, by simp, by simp, fun _ ht => ?_⟩
      rw [finite_lt t1 ht, t2] at hlt
      have htp : (2 : ℝ) ^ (-1074 : ℤ) ≤ tol.val := by
        obtain ⟨k, hk⟩ := rnd64_grid tol.val
        rw [B64.rep_val ht] at hk
        have hp : (0 : ℝ) < (2 : ℝ) ^ (-1074 : ℤ) := by positivity
        have : 0 < tol.val := d0.trans_lt hlt
        rw [hk] at this ⊢
        have hk0 : (0 : ℝ) < k := pos_of_mul_pos_left this hp.le
        have hk1 : (1 : ℝ) ≤ k := by
          have : 0 < k := by exact_mod_cast hk0
          exact_mod_cast this
        nlinarith
      rw [two1075] at htp
      have hb := mul_le_mul_of_nonneg_right two53.2 (by linarith : (0 : ℝ) ≤ (U.val - L.val) / 2)
      rw [abs_le] at d2
      generalize (2 : ℝ) ^ (-53 : ℤ) = v at *
      generalize (2 : ℝ) ^ (-1075 : ℤ) = η at *
      linarith [d2.1]
    · simp only [OracleBS.record]
      cases hask : orc.assess w γ with
      | panic => exact absurd hask (hq w γ hadd.1 (h1.trans g1) (g2.trans h3))
      | ok r =>
        obtain ⟨b, w1⟩ := r
        have next : ∀ (L1 U1 : B64), L1.Finite → U1.Finite → l ≤ L1.val → L1.val ≤ U1.val → U1.val ≤ u → L.val ≤ L1.val →
            U1.val ≤ U.val → (L1.val, U1.val) = bracket L.val U.val [(γ.val, b)] → U1.val - L1.val ≤ 9 / 16 * (U.val - L.val) + midErr B →
            ∃ L' U' ps w', bsearchLoop orc.record tol m (k0 + 1) (w1, h ++ [(γ, b)]) L1 U1 =
                .ok ((L', U'), k0 + ps.length, (w', h ++ ps)) ∧ U'.Finite ∧
              (L'.val, U'.val) = bracket L.val U.val (probeVals ps) ∧
              (∀ p ∈ ps, p.1.Finite ∧ L.val ≤ p.1.val ∧ p.1.val ≤ U.val ∧ ∃ w1 w2, orc.assess w1 p.1 = .ok (p.2, w2)) ∧
              L'.val ≤ U'.val ∧ ps.length ≤ m + 1 ∧
              U'.val - L'.val - 16 / 7 * midErr B ≤ (9 / 16) ^ ps.length * (U.val - L.val - 16 / 7 * midErr B) ∧
              (ps.length < m + 1 → tol.Finite → U'.val - L'.val ≤ 4 * tol.val) := by
          intro L1 U1 f1 f2 q1 q2 q3 q4 q5 q6 q7
          obtain ⟨L', U', ps, w', c1, c2, c3, c4, c5, c6, c7, c8⟩ := ih (k0 + 1) w1 (h ++ [(γ, b)]) L1 U1 f1 f2 q1 q2 q3
          refine ⟨L', U', (γ, b) :: ps, w', ?_, c2, ?_, ?_, c5, by simpa using c6, c7.trans ?_, fun hlt => c8 (by simpa using hlt)⟩
          · rw [c1]
            simp only [List.length_cons, List.append_assoc, List.singleton_append]
            congr 3
            omega
          · rw [c3, show probeVals ((γ, b) :: ps) = [(γ.val, b)] ++ probeVals ps from rfl, bracket_append, ← q6]
          · intro p hp
            rcases List.mem_cons.1 hp with rfl | hp
            · exact ⟨hadd.1, g1, g2, w, w1, hask⟩
            · obtain ⟨a1, a2, a3, a4⟩ := c4 p hp
              exact ⟨a1, q4.trans a2, a3.trans q5, a4⟩
          · rw [List.length_cons, pow_succ, mul_assoc]
            exact mul_le_mul_of_nonneg_left (by linarith) (by positivity)
        simp only [Res.ok_bind]
        cases b with
        | true => exact next L γ hL hadd.1 h1 g1 (g2.trans h3) le_rfl g2 rfl (by linarith [hg4.2])
        | false => exact next γ U hadd.1 hU (h1.trans g1) g2 h3 g1 le_rfl rfl (by linarith [hg4.1])

/-- **C122**.  `bsearch` in `f64` on finite ends `l ≤ u` whose difference does not overflow, with an oracle that does not panic between
them.  It does not panic, and every probe is a finite number between `l` and `u`.  With `B` the larger of `|l|` and `|u|`: after `k` probes
the bracket that the answers leave has width at most `(9/16)^k (u - l) + (16/7) (2⁻⁵³ B + 2⁻¹⁰⁷⁵)`; if the search stopped before
`max_iters` and the tolerance is finite, its width is at most `4 tol`.  The flag says whether the upper end of the bracket has moved. -/
theorem C122_bsearch (orc : OracleBS Ω B64) (w : Ω) (l u : B64) (hl : l.Finite) (hu : u.Finite) (hlu : l.val ≤ u.val)
    (hov : (u - l).Finite) (hq : ∀ w g, g.Finite → l.val ≤ g.val → g.val ≤ u.val → orc.assess w g ≠ .panic) (opts : Options B64) :
    ∃ flag k w' ps, bsearch orc.record (w, []) (l, u) opts = .ok ((flag, k), (w', ps), (l, u)) ∧ ps.length = k ∧ k ≤ opts.maxIters ∧
      (∀ p ∈ ps, p.1.Finite ∧ l.val ≤ p.1.val ∧ p.1.val ≤ u.val ∧ ∃ w1 w2, orc.assess w1 p.1 = .ok (p.2, w2)) ∧
      (bracket l.val u.val (probeVals ps)).1 ≤ (bracket l.val u.val (probeVals ps)).2 ∧
      (bracket l.val u.val (probeVals ps)).2 - (bracket l.val u.val (probeVals ps)).1 ≤
        (9 / 16) ^ k * (u.val - l.val) + 16 / 7 * ((2 : ℝ) ^ (-53 : ℤ) * max |l.val| |u.val| + (2 : ℝ) ^ (-1075 : ℤ)) ∧
      (k < opts.maxIters → opts.tolerance.Finite →
        (bracket l.val u.val (probeVals ps)).2 - (bracket l.val u.val (probeVals ps)).1 ≤ 4 * opts.tolerance.val) ∧
      (flag = true ↔ (bracket l.val u.val (probeVals ps)).2 ≠ u.val) := by
  have hov' : |rnd64 (u.val - l.val)| < (2 : ℝ) ^ (1024 : ℤ) := by
    have e : u - l = ofReal (u.sgn && (B64.neg l).sgn) (u.val + (B64.neg l).val) :=
      finite_add (b := B64.neg l) hu (by cases l <;> first | exact hl.elim | trivial)
    have en : (B64.neg l).val = -l.val := by
      cases l with
      | nan => exact hl.elim
      | inf s => exact hl.elim
      | zero s => exact neg_zero.symm
      | num a => rfl
    rw [en, ← sub_eq_add_neg] at e
    rcases ofReal_cases (u.sgn && (B64.neg l).sgn) (u.val - l.val) with ⟨h1, -⟩ | ⟨-, h1, -⟩ | ⟨-, h1⟩
    · rw [h1, abs_zero]; positivity
    · exact h1
    · rw [e, h1] at hov; exact hov.elim
  obtain ⟨L', U', ps, w', c1, c2, c3, c4, c5, c6, c7, c8⟩ := bsearchLoop64 orc hov' (max |l.val| |u.val|) (le_max_left _ _) (le_max_right _ _) hq
    opts.tolerance opts.maxIters 0 w [] l u hl hu le_rfl hlu le_rfl
  refine ⟨!Scalar.beq U' u, ps.length, w', ps, ?_, rfl, c6, c4, ?_⟩
  · unfold bsearch
    simp only [(finite_le hl hu).2 hlu, Res.assert_true, Res.ok_bind, c1, List.nil_append, Nat.zero_add]
  rw [← c3]
  refine ⟨c5, ?_, c8, ?_⟩
  · have hme : 0 ≤ midErr (max |l.val| |u.val|) :=
      add_nonneg (mul_nonneg (by positivity) ((abs_nonneg _).trans (le_max_left _ _))) (by positivity)
    have hp : (0 : ℝ) ≤ (9 / 16) ^ ps.length * (16 / 7 * midErr (max |l.val| |u.val|)) := by positivity
    have e : 16 / 7 * ((2 : ℝ) ^ (-53 : ℤ) * max |l.val| |u.val| + (2 : ℝ) ^ (-1075 : ℤ)) = 16 / 7 * midErr (max |l.val| |u.val|) := rfl
    rw [e]
    rw [mul_sub] at c7
    generalize midErr (max |l.val| |u.val|) = E at *
    linarith
  · rw [Bool.not_eq_true', ← Bool.not_eq_true, finite_beq c2 hu]

/-- **C122** (thresholds)  If the oracle accepts exactly the numbers from `θ` on, `l < θ ≤ u`, then `bsearch` in `f64` ends with
rejected or untouched lower end below `θ` and accepted or untouched upper end from `θ` on, at most the stated width apart: it locates `θ`
to within `(9/16)^k (u - l) + (16/7) (2⁻⁵³ max(|l|, |u|) + 2⁻¹⁰⁷⁵)`. -/
theorem C122_threshold (orc : OracleBS Ω B64) (w : Ω) (l u : B64) (hl : l.Finite) (hu : u.Finite)
    (hov : (u - l).Finite) (θ : ℝ) (h1 : l.val < θ) (h2 : θ ≤ u.val)
    (hq : ∀ w g, g.Finite → ∃ w', orc.assess w g = .ok (decide (θ ≤ g.val), w')) (opts : Options B64) :
    ∃ flag k w' ps, bsearch orc.record (w, []) (l, u) opts = .ok ((flag, k), (w', ps), (l, u)) ∧ k ≤ opts.maxIters ∧
      (bracket l.val u.val (probeVals ps)).1 < θ ∧ θ ≤ (bracket l.val u.val (probeVals ps)).2 ∧
      (bracket l.val u.val (probeVals ps)).2 - θ ≤
        (9 / 16) ^ k * (u.val - l.val) + 16 / 7 * ((2 : ℝ) ^ (-53 : ℤ) * max |l.val| |u.val| + (2 : ℝ) ^ (-1075 : ℤ)) ∧
      (k < opts.maxIters → opts.tolerance.Finite → (bracket l.val u.val (probeVals ps)).2 - θ ≤ 4 * opts.tolerance.val) ∧
      (flag = false → (bracket l.val u.val (probeVals ps)).2 = u.val) := by
  obtain ⟨flag, k, w', ps, c1, c2, c3, c4, c5, c6, c7, c8⟩ := C122_bsearch orc w l u hl hu (h1.le.trans h2) hov (fun w g hg _ _ h => by
    obtain ⟨w', e⟩ := hq w g hg
    rw [e] at h
    cases h) opts
  have hb := bracket_mem (fun x => θ ≤ x) l.val u.val (probeVals ps) (by
    intro p hp
    obtain ⟨q, hq1, rfl⟩ := List.mem_map.1 hp
    obtain ⟨a1, -, -, w1, w2, a2⟩ := c4 q hq1
    obtain ⟨w3, a3⟩ := hq w1 q.1 a1
    rw [a3] at a2
    injection a2 with a2
    injection a2 with a2 _
    rw [← a2]
    exact decide_eq_true_iff) (not_le.2 h1) h2
  have hb1 := not_le.1 hb.1
  refine ⟨flag, k, w', ps, c1, c3, hb1, hb.2, ?_, fun h h' => ?_, fun h => ?_⟩
  · exact le_trans (by linarith) c6
  · exact le_trans (by linarith) (c7 h h')
  · by_contra hne
    rw [c8.2 hne] at h
    cases h

/-- **C122** (bad ends)  `bsearch` in `f64` panics when an end of the interval is a NaN, or the lower end is above the upper. -/
theorem C122_panics (orc : OracleBS Ω B64) (w : Ω) (l u : B64) (opts : Options B64)
    (h : l = nan ∨ u = nan ∨ Scalar.lt u l = true) : bsearch orc w (l, u) opts = .panic := by
  have e : Scalar.le l u = false := by
    rcases h with rfl | rfl | h
    · rfl
    · cases l <;> rfl
    · by_cases hf : l.Finite ∧ u.Finite
      · rw [finite_lt hf.2 hf.1] at h
        rw [← Bool.not_eq_true, finite_le hf.1 hf.2]
        exact not_le.2 h
      · cases l with
        | nan => rfl
        | inf s =>
          cases u with
          | nan => cases h
          | inf t => cases s <;> cases t <;> first | rfl | cases h
          | zero t => cases s <;> first | rfl | cases h
          | num b => cases s <;> first | rfl | cases h
        | zero s =>
          cases u with
          | nan => cases h
          | inf t => cases t <;> first | rfl | cases h
          | zero t => exact absurd ⟨trivial, trivial⟩ hf
          | num b => exact absurd ⟨trivial, trivial⟩ hf
        | num a =>
          cases u with
          | nan => cases h
          | inf t => cases t <;> first | rfl | cases h
          | zero t => exact absurd ⟨trivial, trivial⟩ hf
          | num b => exact absurd ⟨trivial, trivial⟩ hf
  unfold bsearch
  simp only [e]
  rfl

/-- accepts the numbers from `θ` on -/
noncomputable def exThreshold (θ : ℝ) : OracleBS Unit B64 := ⟨fun w g => .ok (decide (θ ≤ g.val), w)⟩

theorem one64 : (1 : B64).Finite ∧ (1 : B64).val = 1 := by
  rw [one_eq]
  exact ⟨trivial, rfl⟩

theorem one_sub_zero64 : ((1 : B64) - 0).Finite := by
  refine (finite_sub_val one64.1 (b := 0) trivial ?_).1
  rw [one64.2, show (0 : B64).val = 0 from rfl, sub_zero, rnd64_one]
  exact one_lt_max

/-- C122: bisecting `[0, 1]` in `f64` for the threshold `1/3` locates it within 100 steps -/
example : ∃ flag k w' ps, bsearch (exThreshold (1 / 3)).record ((), []) (0, 1) ⟨100, 0⟩ = .ok ((flag, k), (w', ps), (0, 1)) ∧ k ≤ 100 ∧
    (bracket 0 1 (probeVals ps)).1 < 1 / 3 ∧ 1 / 3 ≤ (bracket 0 1 (probeVals ps)).2 ∧
    (bracket 0 1 (probeVals ps)).2 - 1 / 3 ≤ (9 / 16) ^ k + 16 / 7 * ((2 : ℝ) ^ (-53 : ℤ) + (2 : ℝ) ^ (-1075 : ℤ)) := by
  obtain ⟨flag, k, w', ps, c1, c2, c3, c4, c5, -, -⟩ := C122_threshold (exThreshold (1 / 3)) () 0 1 trivial one64.1 one_sub_zero64 (1 / 3)
    (by show (0 : ℝ) < _; norm_num) (by rw [one64.2]; norm_num) (fun w g _ => ⟨w, rfl⟩) ⟨100, 0⟩
  rw [one64.2, show (0 : B64).val = 0 from rfl] at c3 c4 c5
  refine ⟨flag, k, w', ps, c1, c2, c3, c4, c5.trans_eq ?_⟩
  rw [abs_zero, abs_one, max_eq_right zero_le_one, sub_zero, mul_one, mul_one]

/-- C122: the same run, its probes and its flag -/
example : ∃ flag k w' ps, bsearch (exThreshold (1 / 3)).record ((), []) (0, 1) ⟨100, 0⟩ = .ok ((flag, k), (w', ps), (0, 1)) ∧
    ps.length = k ∧ (∀ p ∈ ps, p.1.Finite ∧ 0 ≤ p.1.val ∧ p.1.val ≤ 1) := by
  obtain ⟨flag, k, w', ps, c1, c2, -, c4, -⟩ := C122_bsearch (exThreshold (1 / 3)) () 0 1 trivial one64.1 (by rw [one64.2]; exact zero_le_one)
    one_sub_zero64 (fun w g _ _ _ h => by cases h) ⟨100, 0⟩
  refine ⟨flag, k, w', ps, c1, c2, fun p hp => ?_⟩
  obtain ⟨a1, a2, a3, -⟩ := c4 p hp
  rw [one64.2] at a3
  exact ⟨a1, a2, a3⟩

/-- C122: reversed ends -/
example : bsearch (exThreshold 0) () (1, 0) ⟨5, 0⟩ = .panic :=
  C122_panics _ _ _ _ _ (.inr (.inr ((finite_lt (a := 0) (b := 1) trivial one64.1).2 (by rw [one64.2]; exact zero_lt_one))))

end Ellalgo
