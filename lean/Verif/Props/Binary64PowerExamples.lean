import Verif.Props.Binary64Power
import Verif.Props.Binary64CgExamples

/-! C123: the power iterations for the matrix `(3)` in IEEE-754 `f64`, started from `(1)`; `3 · (1/3)` rounds to one. -/

namespace Ellalgo.ExPow64
open Ellalgo Matrix Ellalgo.ExCgFl Ellalgo.ExCg64

noncomputable def nine : Fl bin53 := ⟨9⟩
noncomputable def n27 : Fl bin53 := ⟨27⟩

theorem rint (k : ℤ) (hk : |k| ≤ 2 ^ 53) : rnd53 k = k := by
  have := rnd53_rep k 0 hk
  simpa using this
theorem r9 : rnd53 9 = 9 := by exact_mod_cast rint 9 (by norm_num)
theorem r27 : rnd53 27 = 27 := by exact_mod_cast rint 27 (by norm_num)

theorem m33 : three * three = nine := Fl.ext (by show rnd53 (3 * 3) = 9; norm_num [r9])
theorem m39 : three * nine = n27 := Fl.ext (by show rnd53 (3 * 9) = 27; norm_num [r27])
theorem a09 : 0 + nine = nine := Fl.ext (by show rnd53 (0 + 9) = 9; rw [zero_add, r9])
theorem a027 : 0 + n27 = n27 := Fl.ext (by show rnd53 (0 + 27) = 27; rw [zero_add, r27])
theorem q9 : Scalar.sqrt nine = three := Fl.ext (by
  show rnd53 (Real.sqrt 9) = 3
  rw [show (9 : ℝ) = 3 * 3 by norm_num, Real.sqrt_mul_self (by norm_num)]; exact r3)
theorem q1 : Scalar.sqrt (1 : Fl bin53) = 1 := Fl.ext (by show rnd53 (Real.sqrt 1) = 1; rw [Real.sqrt_one]; exact r1)
theorem d11 : (1 : Fl bin53) / 1 = 1 := Fl.ext (by show rnd53 (1 / 1) = 1; rw [div_one]; exact r1)
theorem d31 : three / 1 = three := Fl.ext (by show rnd53 (3 / 1) = 3; rw [div_one]; exact r3)
theorem d279 : n27 / nine = three := Fl.ext (by show rnd53 (27 / 9) = 3; rw [show (27 / 9 : ℝ) = 3 by norm_num]; exact r3)
theorem m3t : three * third = 1 := Fl.ext (by show rnd53 (3 * third.val) = 1; rw [mul_comm]; exact rone)
theorem s33 : three - three = 0 := Fl.ext (by show rnd53 (3 - 3) = 0; rw [sub_self, rnd53_zero])
theorem abs0 : Scalar.abs (0 : Fl bin53) = 0 := Fl.ext (by show |(0 : ℝ)| = 0; exact abs_zero)
theorem abs1 : Scalar.abs (1 : Fl bin53) = 1 := Fl.ext (by show |(1 : ℝ)| = 1; exact abs_one)
theorem abs3 : Scalar.abs three = three := Fl.ext (by show |(3 : ℝ)| = 3; norm_num)

theorem e0 : (0 : Fl bin53).val = 0 := rfl
theorem e1 : (1 : Fl bin53).val = 1 := rfl
theorem e3 : three.val = 3 := rfl
theorem e9 : nine.val = 9 := rfl
theorem e27 : n27.val = 27 := rfl

section
variable {v w : Nat → Fl bin53} {p q r : Fl bin53}

theorem mulOk (h : 1 / 4 ≤ |p.val * q.val|) (h1 : |p.val * q.val| ≤ 32) : MulOk p q := ⟨under (.inr h), over h1⟩

theorem dotSafe (hv : v 0 = p) (hw : w 0 = q) (h : 1 / 4 ≤ |p.val * q.val|) (h1 : |p.val * q.val| ≤ 32) (e : p * q = r) (h2 : |r.val| ≤ 32) :
    DotSafe 1 v w := by
  refine ⟨fun i hi => ?_, fun k hk => ?_⟩
  · obtain rfl : i = 0 := by omega
    rw [hv, hw]
    exact mulOk h h1
  · obtain rfl : k = 0 := by omega
    show NoOver ((0 : ℝ) + (v 0 * w 0).val)
    rw [hv, hw, e, zero_add]
    exact over h2

theorem mul_at (hv : v 0 = p) (e : three * p = q) (e' : 0 + q = q) : mulV 1 a.mat v 0 = q := by
  show 0 + three * v 0 = q
  rw [hv, e, e']

theorem dot_at (hv : v 0 = p) (hw : w 0 = q) (e : p * q = r) (e' : 0 + r = r) : dotV 1 v w = r := by
  show 0 + v 0 * w 0 = r
  rw [hv, hw, e, e']

theorem norm_at (hv : v 0 = p) (e : Scalar.abs p = q) (e' : 0 + q = q) : norm1V 1 v = q := by
  show 0 + Scalar.abs (v 0) = q
  rw [hv, e, e']

theorem sumSafe (hv : v 0 = p) (h : |p.val| ≤ 32) : SumOk 1 fun i => Scalar.abs (v i) := by
  intro k hk
  obtain rfl : k = 0 := by omega
  show NoOver ((0 : ℝ) + |(v 0).val|)
  rw [hv, zero_add]
  exact over (by rw [abs_abs]; exact h)

theorem overSafe_one (hv : v 0 = 1) : OverSafe 1 v 1 := by
  refine ⟨⟨by rw [e1]; norm_num, under (.inr (by rw [e1]; norm_num)), over (by rw [e1]; norm_num)⟩, fun i hi => ?_⟩
  obtain rfl : i = 0 := by omega
  rw [hv, d11]
  exact mulOk (by rw [e1]; norm_num) (by rw [e1]; norm_num)

theorem overSafe_three (hv : v 0 = three) : OverSafe 1 v three := by
  have l := third_lo
  have h := third_hi
  refine ⟨⟨by rw [e3]; norm_num, under (.inr (by rw [e1, e3]; norm_num)), over (by rw [e1, e3]; norm_num)⟩, fun i hi => ?_⟩
  obtain rfl : i = 0 := by omega
  rw [hv, d13]
  exact mulOk (by rw [e3, abs_of_nonneg (by linarith)]; linarith) (by rw [e3, abs_of_nonneg (by linarith)]; linarith)

theorem over_one (hv : v 0 = 1) : overV v 1 0 = 1 := by show v 0 * (1 / 1) = 1; rw [hv, d11, m11]
theorem over_three (hv : v 0 = three) : overV v three 0 = 1 := by show v 0 * (1 / three) = 1; rw [hv, d13, m3t]

theorem unit_one (hv : v 0 = 1) : unitV 1 v 0 = 1 := by
  unfold unitV
  rw [dot_at hv hv m11 a01, q1]
  exact over_one hv
theorem unit_three (hv : v 0 = three) : unitV 1 v 0 = 1 := by
  unfold unitV
  rw [dot_at hv hv m33 a09, q9]
  exact over_three hv
theorem unit1_one (hv : v 0 = 1) : unit1V 1 v 0 = 1 := by
  unfold unit1V
  rw [norm_at hv abs1 a01]
  exact over_one hv
theorem unit1_three (hv : v 0 = three) : unit1V 1 v 0 = 1 := by
  unfold unit1V
  rw [norm_at hv abs3 a03]
  exact over_three hv

theorem dotSafe_one (hv : v 0 = 1) (hw : w 0 = 1) : DotSafe 1 v w :=
  dotSafe hv hw (by rw [e1]; norm_num) (by rw [e1]; norm_num) m11 (by rw [e1]; norm_num)
theorem dotSafe_three (hv : v 0 = three) (hw : w 0 = three) : DotSafe 1 v w :=
  dotSafe hv hw (by rw [e3]; norm_num) (by rw [e3]; norm_num) m33 (by rw [e9]; norm_num)

theorem unitSafe_one (hv : v 0 = 1) : UnitSafe 1 v := by
  refine ⟨dotSafe_one hv hv, ?_⟩
  rw [dot_at hv hv m11 a01, q1]
  exact overSafe_one hv
theorem unitSafe_three (hv : v 0 = three) : UnitSafe 1 v := by
  refine ⟨dotSafe_three hv hv, ?_⟩
  rw [dot_at hv hv m33 a09, q9]
  exact overSafe_three hv
theorem unit1Safe_one (hv : v 0 = 1) : Unit1Safe 1 v := by
  refine ⟨sumSafe hv (by rw [e1]; norm_num), ?_⟩
  rw [norm_at hv abs1 a01]
  exact overSafe_one hv
theorem unit1Safe_three (hv : v 0 = three) : Unit1Safe 1 v := by
  refine ⟨sumSafe hv (by rw [e3]; norm_num), ?_⟩
  rw [norm_at hv abs3 a03]
  exact overSafe_three hv

theorem mulSafe_one (hv : v 0 = 1) : MulVSafe 1 a.mat v := by
  intro i hi
  obtain rfl : i = 0 := by omega
  exact dotSafe mat0 hv (by rw [e1, e3]; norm_num) (by rw [e1, e3]; norm_num) m31 (by rw [e3]; norm_num)
theorem mulSafe_three (hv : v 0 = three) : MulVSafe 1 a.mat v := by
  intro i hi
  obtain rfl : i = 0 := by omega
  exact dotSafe mat0 hv (by rw [e3]; norm_num) (by rw [e3]; norm_num) m33 (by rw [e9]; norm_num)

theorem mul_one' (hv : v 0 = 1) : mulV 1 a.mat v 0 = three := mul_at hv m31 a03
theorem mul_three (hv : v 0 = three) : mulV 1 a.mat v 0 = nine := mul_at hv m33 a09

theorem raySafe_one (hv : v 0 = 1) : RaySafe 1 a.mat v :=
  ⟨mulSafe_one hv, dotSafe hv (mul_one' hv) (by rw [e1, e3]; norm_num) (by rw [e1, e3]; norm_num) m13 (by rw [e3]; norm_num)⟩
theorem raySafe_three (hv : v 0 = three) : RaySafe 1 a.mat v :=
  ⟨mulSafe_three hv, dotSafe hv (mul_three hv) (by rw [e9, e3]; norm_num) (by rw [e9, e3]; norm_num) m39 (by rw [e27]; norm_num)⟩
theorem ray_one (hv : v 0 = 1) : rayV 1 a.mat v = three := dot_at hv (mul_one' hv) m13 a03
theorem ray_three (hv : v 0 = three) : rayV 1 a.mat v = n27 := dot_at hv (mul_three hv) m39 a027

variable {tol : Fl bin53} (ht : 0 ≤ tol.val)
include ht

theorem close_one (hv : v 0 = 1) (hw : w 0 = 1) : closeV 1 tol v w = true := by
  unfold closeV
  have : (norm1V 1 fun i => v i - w i) = 0 := norm_at (p := 0) (by rw [hv, hw, s11]) abs0 a00
  rw [this]
  have h2 : Scalar.le (0 : Fl bin53) tol = true := decide_eq_true ht
  rw [h2, Bool.true_or]

theorem closeSafe_one (hv : v 0 = 1) (hw : w 0 = 1) : CloseSafe 1 tol v w := by
  refine ⟨fun i hi => ?_, sumSafe (p := 0) (v := fun i => v i - w i) (by rw [hv, hw, s11]) (by rw [e0]; norm_num), fun h => ?_⟩
  · obtain rfl : i = 0 := by omega
    rw [hv, hw]
    exact over (by rw [e1]; norm_num)
  · have : (norm1V 1 fun i => v i - w i) = 0 := norm_at (p := 0) (by rw [hv, hw, s11]) abs0 a00
    rw [this] at h
    have h2 : Scalar.le (0 : Fl bin53) tol = true := decide_eq_true ht
    rw [h2] at h
    cases h

end

theorem seq0 : powSeq 1 a.mat b.vec 0 0 = 1 := unit_one vec0
theorem seq1 : powSeq 1 a.mat b.vec 1 0 = 1 := unit_three (mul_one' seq0)
theorem one0 : pow1Seq 1 a.mat b.vec 0 0 = 1 := unit1_one vec0
theorem one1 : pow1Seq 1 a.mat b.vec 1 0 = 1 := unit1_three (mul_one' one0)

theorem first_zero {t : Nat → Bool} {m k : Nat} (h0 : t 0 = true) (h : FirstBelow (fun j => t j = true) m k) : min (k + 1) m ≤ 1 := by
  rcases h with ⟨_, -, h2⟩ | ⟨rfl, h2⟩
  · rcases Nat.eq_zero_or_pos k with h | h
    · omega
    · exact (h2 0 h h0).elim
  · rcases Nat.eq_zero_or_pos k with h | h
    · omega
    · exact (h2 0 h h0).elim

section
variable {tol : Fl bin53} (ht : 0 ≤ tol.val) (m : Nat)
include ht

theorem powSafe : PowSafe 1 a.mat tol b.vec m := by
  refine ⟨unitSafe_one vec0, fun j _ hf => ?_, fun k hk => ?_⟩
  · rcases Nat.eq_zero_or_pos j with rfl | hj
    · exact ⟨mulSafe_one seq0, unitSafe_three (mul_one' seq0), closeSafe_one ht seq1 seq0⟩
    · have := hf 0 hj
      rw [close_one ht seq1 seq0] at this
      cases this
  · have := first_zero (t := fun j => closeV 1 tol (powSeq 1 a.mat b.vec (j + 1)) (powSeq 1 a.mat b.vec j)) (close_one ht seq1 seq0) hk
    rcases Nat.le_one_iff_eq_zero_or_eq_one.1 this with e | e
    · rw [e]; exact raySafe_one seq0
    · rw [e]; exact raySafe_one seq1

theorem pow4Safe : Pow4Safe 1 a.mat tol b.vec m := by
  refine ⟨unit1Safe_one vec0, fun j _ hf => ?_, fun k hk => ?_⟩
  · rcases Nat.eq_zero_or_pos j with rfl | hj
    · exact ⟨mulSafe_one one0, unit1Safe_three (mul_one' one0), closeSafe_one ht one1 one0⟩
    · have := hf 0 hj
      rw [close_one ht one1 one0] at this
      cases this
  · have := first_zero (t := fun j => closeV 1 tol (pow1Seq 1 a.mat b.vec (j + 1)) (pow1Seq 1 a.mat b.vec j)) (close_one ht one1 one0) hk
    rcases Nat.le_one_iff_eq_zero_or_eq_one.1 this with e | e
    · rw [e]; exact ⟨unitSafe_one one0, raySafe_one (unit_one one0)⟩
    · rw [e]; exact ⟨unitSafe_one one1, raySafe_one (unit_one one1)⟩

theorem test_three {val : Nat → Fl bin53} (h0 : val 0 = three) (h1 : val 1 = three) : valTest tol val 0 = true := by
  unfold valTest
  rw [h0, h1, s33, abs0]
  exact decide_eq_true ht

theorem pow2Safe : Pow2Safe 1 a.mat tol b.vec m := by
  refine ⟨unitSafe_one vec0, raySafe_one seq0, fun j _ hf => ?_⟩
  rcases Nat.eq_zero_or_pos j with rfl | hj
  · refine ⟨unitSafe_three (mul_one' seq0), raySafe_one seq1, ?_⟩
    rw [ray_one seq0, ray_one seq1]
    exact over (by rw [e3]; norm_num)
  · have := hf 0 hj
    rw [test_three ht (ray_one seq0) (ray_one seq1)] at this
    cases this

omit ht in
theorem not_big : bigV 1 (mulV 1 a.mat b.vec) = false := by
  unfold bigV
  rw [dot_at (mul_one' vec0) (mul_one' vec0) m33 a09]
  refine decide_eq_false ?_
  show ¬ rnd53 ((10 ^ 150 : Nat) : ℝ) ≤ 9
  rw [not_le, Nat.cast_pow]
  have h1 : (2 : ℝ) ^ (4 : ℤ) ≤ ((10 : Nat) : ℝ) ^ 150 := by
    have : ((10 : Nat) : ℝ) ^ 2 ≤ ((10 : Nat) : ℝ) ^ 150 := pow_le_pow_right₀ (by norm_num) (by norm_num)
    refine le_trans ?_ this
    norm_num
  have h2 := rnd53_mono _ _ h1
  rw [rnd53_pow] at h2
  refine lt_of_lt_of_le ?_ h2
  norm_num

omit ht in
theorem val0 : pow3Val 1 a.mat b.vec 0 = three := by
  show rayV 1 a.mat b.vec / dotV 1 b.vec b.vec = three
  rw [ray_one vec0, dot_at vec0 vec0 m11 a01, d31]
omit ht in
theorem three1 : pow3Seq 1 a.mat b.vec 1 = mulV 1 a.mat b.vec := by
  show (if bigV 1 (mulV 1 a.mat b.vec) then unitV 1 (mulV 1 a.mat b.vec) else mulV 1 a.mat b.vec) = _
  rw [not_big, if_neg Bool.false_ne_true]
omit ht in
theorem val1 : pow3Val 1 a.mat b.vec 1 = three := by
  show (if bigV 1 (mulV 1 a.mat b.vec) then rayV 1 a.mat (pow3Seq 1 a.mat b.vec 1) else rayV 1 a.mat (pow3Seq 1 a.mat b.vec 1) /
    dotV 1 (pow3Seq 1 a.mat b.vec 1) (pow3Seq 1 a.mat b.vec 1)) = three
  rw [not_big, if_neg Bool.false_ne_true, three1, ray_three (mul_one' vec0), dot_at (mul_one' vec0) (mul_one' vec0) m33 a09, d279]

theorem pow3Safe : Pow3Safe 1 a.mat tol b.vec m := by
  refine ⟨raySafe_one vec0, dotSafe_one vec0 vec0, ?_, fun j _ hf => ?_⟩
  · rw [ray_one vec0, dot_at vec0 vec0 m11 a01]
    exact ⟨by rw [e1]; norm_num, under (.inr (by rw [e1, e3]; norm_num)), over (by rw [e1, e3]; norm_num)⟩
  · rcases Nat.eq_zero_or_pos j with rfl | hj
    · have h3 := mul_one' vec0
      refine ⟨dotSafe_three h3 h3, fun _ => unitSafe_three h3, ?_, fun _ => ?_, ?_, fun _ _ => ?_⟩
      · rw [three1]; exact raySafe_three h3
      · rw [three1, ray_three h3, dot_at h3 h3 m33 a09]
        exact ⟨by rw [e9]; norm_num, under (.inr (by rw [e9, e27]; norm_num)), over (by rw [e9, e27]; norm_num)⟩
      · rw [val0, val1]
        exact over (by rw [e3]; norm_num)
      · rw [three1]; exact unitSafe_three h3
    · have := hf 0 hj
      rw [test_three ht val0 val1] at this
      cases this

end

/-- C123: the four power iterations for the matrix `(3)`, started from `(1)`, with any finite tolerance from zero on and any limit -/
example (tol : B64) (ht : tol.Finite) (h0 : 0 ≤ tol.val) (m : Nat) :
    Res.Rel SamePower (powerIteration a64 b64 ⟨m, tol⟩) (powerIteration a b ⟨m, ⟨tol.val⟩⟩) ∧
    Res.Rel SamePower (powerIteration2 a64 b64 ⟨m, tol⟩) (powerIteration2 a b ⟨m, ⟨tol.val⟩⟩) ∧
    Res.Rel SamePower (powerIteration3 a64 b64 ⟨m, tol⟩) (powerIteration3 a b ⟨m, ⟨tol.val⟩⟩) ∧
    Res.Rel SamePower (powerIteration4 a64 b64 ⟨m, tol⟩) (powerIteration4 a b ⟨m, ⟨tol.val⟩⟩) :=
  ⟨C123_power_iteration Nat.one_pos shape_a shape_b same_a same_b ⟨ht, rfl⟩ (powSafe h0 m),
    C123_power_iteration2 Nat.one_pos shape_a shape_b same_a same_b ⟨ht, rfl⟩ (pow2Safe h0 m),
    C123_power_iteration3 Nat.one_pos shape_a shape_b same_a same_b ⟨ht, rfl⟩ (pow3Safe h0 m),
    C123_power_iteration4 Nat.one_pos shape_a shape_b same_a same_b ⟨ht, rfl⟩ (pow4Safe h0 m)⟩

/-- C123: `power_iteration` in `f64` stops at once, so the value it returns is near an eigenvalue -/
example (m : Nat) : ∃ (l : B64) (xf : Arr B64), powerIteration a64 b64 ⟨m + 1, 1⟩ = .ok ((l, 0), xf) ∧
    ∃ (hsym : (a64.mat64 1).IsHermitian) (i : Fin 1), |hsym.eigenvalues i - l.val| ≤
      3 * ((1 + 3 * (((1 : Nat) + 5) * (2 : ℝ) ^ (-53 : ℤ))) * (1 : B64).val + 7 * (((1 : Nat) + 5) * (2 : ℝ) ^ (-53 : ℤ))) := by
  obtain ⟨k, xf, h1, -, -, h4⟩ := C117_power_iteration (m := m + 1) (tol := (1 : B64)) Nat.one_pos (same_a.matShape shape_a) (same_b.vecShape shape_b)
  obtain ⟨k', xf', h1', -, -, h4'⟩ := C117_power_iteration (m := m + 1) (tol := (1 : Fl bin53)) Nat.one_pos shape_a shape_b
  have hr := C123_power_iteration (m := m + 1) Nat.one_pos shape_a shape_b same_a same_b Same.one (powSafe zero_le_one (m + 1))
  rw [h1, h1'] at hr
  have hk : k = k' := hr.2.1
  have h5 := first_zero (t := fun j => closeV 1 (1 : Fl bin53) (powSeq 1 a.mat b.vec (j + 1)) (powSeq 1 a.mat b.vec j))
    (close_one zero_le_one seq1 seq0) h4'
  obtain ⟨h6, -⟩ := firstBelow_before (t := fun j => closeV 1 (1 : Fl bin53) (powSeq 1 a.mat b.vec (j + 1)) (powSeq 1 a.mat b.vec j)) h4'
  have hk0 : k = 0 := by
    rcases h4' with ⟨h7, -, -⟩ | ⟨h7, h8⟩
    · omega
    · exact (h8 0 (Nat.succ_pos m) (close_one zero_le_one seq1 seq0)).elim
  rw [hk0] at h1
  have hsym : (a64.mat64 1).IsHermitian := by
    ext i j
    fin_cases i
    fin_cases j
    rfl
  refine ⟨_, xf, h1, hsym, ?_⟩
  exact (C123_eigenvalue_near Nat.one_pos small shape_a shape_b same_a same_b Same.one (powSafe zero_le_one (m + 1)) hsym h1
    (Nat.succ_pos m) (by norm_num) (by
      have e : a64.mat64 1 = a.flMat 1 := by
        ext i j
        exact (same_a.mat shape_a i j i.2 j.2).2
      rw [e]
      exact hop)).2

end Ellalgo.ExPow64
