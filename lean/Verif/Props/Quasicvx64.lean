import Verif.Spec.Quasicvx64
import Verif.Props.QcvxProps
import Verif.Props.Profit64

/-! # C132: the quasiconvex example in any arithmetic and in IEEE `f64` -/

namespace Ellalgo
open Matrix

/-- **C132** (one answer, any arithmetic)  Whatever the arithmetic, NaN and infinities included, the oracle of the quasiconvex example never panics;
it reports an improvement exactly if neither test fails, and the new value is then that of the point; otherwise `γ` is unchanged and the cut is that
of a failed test, with the computed violation, which is positive, as its offset. -/
theorem C132_quasicvx_query {α : Type} [Scalar α] (o : QcvxOracle) (ho : o.Reach) {x : Arr α} (hx : x.IsVecShape 2) (γ : α) :
    ∃ g b s γ' o', QcvxOracle.oracle.assess o x γ = .ok (((Arr.ofList g, ⟨b⟩), s), γ', o') ∧ o'.Reach ∧ (Arr.ofList g).IsVecShape 2 ∧
      (s = true ↔ QcvxKept x ∧ QcvxReached x γ) ∧ (s = true → γ' = qcvxValue x ∧ b = 0 ∧ g = [-1, x.vec 0]) ∧
      (s = false → γ' = γ ∧ Scalar.gt b 0 = true ∧
        (b = x.vec 0 * x.vec 0 - x.vec 1 ∧ g = [nat 2 * x.vec 0, -1] ∨
          b = -x.vec 0 + γ * Scalar.exp (x.vec 1) ∧ g = [-1, γ * Scalar.exp (x.vec 1)])) := by
  obtain ⟨hi1, hi2⟩ := ho
  have h0 : x.idx 0 = .ok (x.vec 0) := hx.isVec.idx (by norm_num)
  have h1 : x.idx 1 = .ok (x.vec 1) := hx.isVec.idx (by norm_num)
  obtain ⟨f0, e0⟩ : ∃ f, f = x.vec 0 * x.vec 0 - x.vec 1 := ⟨_, rfl⟩
  obtain ⟨f1, e1⟩ : ∃ f, f = -x.vec 0 + γ * Scalar.exp (x.vec 1) := ⟨_, rfl⟩
  obtain ⟨r, idx', hr, hin, -, hnone, hsome⟩ := rrLoop_test (lo := 0) (hi := 2) (body := qcvxBody (x.vec 0) (x.vec 1) γ) (idx := o.idx)
    (t := fun i => if i = 0 then (if Scalar.gt f0 0 then some (Arr.ofList [nat 2 * x.vec 0, -1], (⟨f0⟩ : SingleCut α)) else none)
      else (if Scalar.gt f1 0 then some (Arr.ofList [-1, γ * Scalar.exp (x.vec 1)], ⟨f1⟩) else none))
    (by omega) (fun _ => hi2) (by
      intro i hi1 hi2
      obtain rfl | rfl : i = 0 ∨ i = 1 := by omega
      · simp only [qcvxBody, if_true, ← e0]
        split <;> rfl
      · simp only [qcvxBody, one_ne_zero, if_false, if_true, ← e1]
        split <;> rfl)
  have hreach : QcvxOracle.Reach ⟨idx'⟩ := by
    have := hin (by norm_num)
    exact ⟨by show (-1 : ℤ) ≤ idx'; omega, this.2⟩
  have hr' : rrLoop 0 2 (qcvxBody (x.vec 0) (x.vec 1) γ) 2 o.idx () = .ok (r, idx', ()) := hr
  have hk : QcvxKept x ↔ Scalar.gt f0 0 = false := by rw [e0]; rfl
  have hq : QcvxReached x γ ↔ Scalar.gt f1 0 = false := by rw [e1]; rfl
  cases r with
  | none =>
    have g0 := hnone rfl 0 (by norm_num) (by norm_num)
    have g1 := hnone rfl 1 (by norm_num) (by norm_num)
    refine ⟨[-1, x.vec 0], 0, true, qcvxValue x, ⟨idx'⟩, ?_, hreach, ⟨rfl, rfl, rfl⟩, ⟨fun _ => ⟨?_, ?_⟩, fun _ => rfl⟩, fun _ => ⟨rfl, rfl, rfl⟩, by simp⟩
    · simp only [QcvxOracle.oracle, QcvxOracle.assess, h0, h1, Res.ok_bind, hr']
      rfl
    · rw [hk]
      by_contra hc
      rw [Bool.not_eq_false] at hc
      simp [hc] at g0
    · rw [hq]
      by_contra hc
      rw [Bool.not_eq_false] at hc
      simp [hc] at g1
  | some c =>
    obtain ⟨i1, i2, ht⟩ := hsome c rfl
    obtain rfl | rfl : idx' = 0 ∨ idx' = 1 := by omega
    · rcases Bool.eq_false_or_eq_true (Scalar.gt f0 0) with hc | hc
      · simp only [if_true, hc, Option.some.injEq] at ht
        subst ht
        refine ⟨_, f0, false, γ, ⟨0⟩, ?_, hreach, ?_, ⟨by simp, fun h => ?_⟩, by simp, fun _ => ⟨rfl, hc, .inl ⟨e0, rfl⟩⟩⟩
        · simp only [QcvxOracle.oracle, QcvxOracle.assess, h0, h1, Res.ok_bind, hr']
        · exact ⟨rfl, rfl, rfl⟩
        · rw [hk.1 h.1] at hc; cases hc
      · simp [hc] at ht
    · rcases Bool.eq_false_or_eq_true (Scalar.gt f1 0) with hc | hc
      · simp only [one_ne_zero, if_false, hc, if_true, Option.some.injEq] at ht
        subst ht
        refine ⟨_, f1, false, γ, ⟨1⟩, ?_, hreach, ?_, ⟨by simp, fun h => ?_⟩, by simp, fun _ => ⟨rfl, hc, .inr ⟨e1, rfl⟩⟩⟩
        · simp only [QcvxOracle.oracle, QcvxOracle.assess, h0, h1, Res.ok_bind, hr']
        · exact ⟨rfl, rfl, rfl⟩
        · rw [hq.1 h.2] at hc; cases hc
      · simp [hc] at ht

theorem B64.neg_twice (a : B64) : a = -(-a) := by
  cases a with
  | nan => rfl
  | inf s => cases s <;> rfl
  | zero s => cases s <;> rfl
  | num c =>
    obtain ⟨y, h1, h2, h3⟩ := c
    show B64.num _ = B64.num _
    congr 1
    simp only [neg_neg]

theorem Half64.bound {t : ℝ} (h : Half64 t) : |t| ≤ (2 : ℝ) ^ (500 : ℤ) := by
  rcases h with rfl | h
  · rw [abs_zero]; positivity
  · exact h.2

/-- the exponential of an ordinary number -/
theorem B64.exp_mid {b : B64} (hb : b.Finite) (h : |b.val| ≤ 256) : (Scalar.exp b).Finite ∧ (Scalar.exp b).val = rnd53 (Real.exp b.val) ∧
    (2 : ℝ) ^ (-512 : ℤ) ≤ (Scalar.exp b).val ∧ (Scalar.exp b).val ≤ (2 : ℝ) ^ (512 : ℤ) := by
  have s : Same b ⟨b.val⟩ := ⟨hb, rfl⟩
  have e := s.exp h
  have hv : (Scalar.exp b).val = rnd53 (Real.exp b.val) := e.2
  obtain ⟨l1, l2⟩ := abs_le.1 h
  have e1 := rnd53_mono _ _ (pow_le_exp l1)
  have e2 := rnd53_mono _ _ (exp_le_pow l2)
  rw [rnd53_pow] at e1 e2
  exact ⟨e.1, hv, by rw [hv]; exact e1, by rw [hv]; exact e2⟩

theorem qcvx_value_same {x : Arr B64} (hf : x.AllFinite) (ht : QcvxTame (x.vec64 2)) :
    (qcvxValue x).Finite ∧ (qcvxValue x).val = rnd53 (x.vec64 2 0 / rnd53 (Real.exp (x.vec64 2 1))) := by
  obtain ⟨q1, q2, q3, q4⟩ := B64.exp_mid (allFinite_vec hf 1) ht.log
  have hpos : 0 < (Scalar.exp (x.vec 1)).val := lt_of_lt_of_le (by positivity) q3
  have := (C99_normal_range (x.vec 0) (Scalar.exp (x.vec 1)) (allFinite_vec hf 0) q1).2.2.2.1 hpos.ne' (by
    rcases ht.root with h | ⟨h, -⟩
    · exact .inl h
    · right
      rw [abs_div, abs_of_pos hpos, le_div_iff₀ hpos]
      refine le_trans ?_ h
      refine (mul_le_mul_of_nonneg_left q4 (by positivity)).trans ?_
      rw [← zpow_add₀ (by norm_num)]
      exact zpow_le_zpow_right₀ (by norm_num) (by norm_num)) (noOver_pow (b := 1012) (by
    rw [abs_div, abs_of_pos hpos, div_le_iff₀ hpos]
    refine ht.root.bound.trans (le_trans ?_ (mul_le_mul_of_nonneg_left q3 (by positivity)))
    rw [← zpow_add₀ (by norm_num)]
    exact zpow_le_zpow_right₀ (by norm_num) (by norm_num)) (by norm_num))
  rw [q2] at this
  exact this

/-- **C132** (what an accepted point means)  If a point of finite numbers of ordinary size passes the computed constraint test, it satisfies the
constraint `a² ≤ b` up to a relative error of `2⁻⁵³` in `a²`; the computed value is finite and is `a / exp b` up to a relative error of `3 · 2⁻⁵³`. -/
theorem C132_quasicvx_values {x : Arr B64} (hf : x.AllFinite) (ht : QcvxTame (x.vec64 2)) :
    (QcvxKept x → (1 - (2 : ℝ) ^ (-53 : ℤ)) * x.vec64 2 0 ^ 2 ≤ x.vec64 2 1) ∧ (qcvxValue x).Finite ∧
      |(qcvxValue x).val - x.vec64 2 0 / Real.exp (x.vec64 2 1)| ≤ 3 * (2 : ℝ) ^ (-53 : ℤ) * (|x.vec64 2 0| / Real.exp (x.vec64 2 1)) := by
  have hu : (2 : ℝ) ^ (-53 : ℤ) ≤ 1 / 8 := by norm_num
  have hu0 : (0 : ℝ) < (2 : ℝ) ^ (-53 : ℤ) := by positivity
  refine ⟨fun hk => ?_, (qcvx_value_same hf ht).1, ?_⟩
  · have hm := (C99_normal_range (x.vec 0) (x.vec 0) (allFinite_vec hf 0) (allFinite_vec hf 0)).2.2.1 (by
      rcases ht.root with h | ⟨h, -⟩
      · left
        have h : (x.vec 0).val = 0 := h
        rw [h, mul_zero]
      · right
        rw [abs_mul]
        refine le_trans ?_ (mul_le_mul h h (by positivity) (abs_nonneg _))
        rw [← zpow_add₀ (by norm_num)]
        exact zpow_le_zpow_right₀ (by norm_num) (by norm_num)) (noOver_pow (b := 1000) (by
      rw [abs_mul]
      refine (mul_le_mul ht.root.bound ht.root.bound (abs_nonneg _) (by positivity)).trans (le_of_eq ?_)
      rw [← zpow_add₀ (by norm_num)]; norm_num) (by norm_num))
    have h1 := gt_sub_false hm.1 (allFinite_vec hf 1) hk
    rw [hm.2] at h1
    have h2 := rnd53_err ((x.vec 0).val * (x.vec 0).val)
    rw [abs_of_nonneg (mul_self_nonneg (x.vec 0).val)] at h2
    have h3 := (abs_le.1 h2).1
    show (1 - (2 : ℝ) ^ (-53 : ℤ)) * (x.vec 0).val ^ 2 ≤ (x.vec 1).val
    generalize (2 : ℝ) ^ (-53 : ℤ) = u at *
    nlinarith
  · rw [(qcvx_value_same hf ht).2]
    obtain ⟨a, ha⟩ : ∃ a, a = x.vec64 2 0 := ⟨_, rfl⟩
    obtain ⟨E, hE⟩ : ∃ E, E = Real.exp (x.vec64 2 1) := ⟨_, rfl⟩
    have hE0 : 0 < E := by rw [hE]; exact Real.exp_pos _
    rw [← ha, ← hE]
    have h1 := rnd53_err E
    rw [abs_of_pos hE0] at h1
    obtain ⟨F, hF⟩ : ∃ F, F = rnd53 E := ⟨_, rfl⟩
    rw [← hF] at h1 ⊢
    have h2 := rnd53_err (a / F)
    generalize rnd53 (a / F) = v at *
    have h1 : |F - E| ≤ (2 : ℝ) ^ (-53 : ℤ) * E := h1
    have h2 : |v - a / F| ≤ (2 : ℝ) ^ (-53 : ℤ) * |a / F| := h2
    generalize (2 : ℝ) ^ (-53 : ℤ) = u at *
    have hF0 : 7 / 8 * E ≤ F := by
      have := (abs_le.1 h1).1
      nlinarith
    have hFp : 0 < F := by linarith
    have h3 : |a / F - a / E| ≤ 8 / 7 * u * (|a| / E) := by
      have e : a / F - a / E = a / E * ((E - F) / F) := by field_simp
      rw [e, abs_mul, abs_div, abs_div, abs_of_pos hE0, abs_of_pos hFp, abs_sub_comm]
      have : |F - E| / F ≤ 8 / 7 * u := by
        rw [div_le_iff₀ hFp]
        nlinarith
      have := mul_le_mul_of_nonneg_left this (div_nonneg (abs_nonneg a) hE0.le)
      linarith
    have h4 : |a / F| ≤ 8 / 7 * (|a| / E) := by
      rw [abs_div, abs_of_pos hFp, div_le_iff₀ hFp]
      have e : 8 / 7 * (|a| / E) * F = |a| * (8 / 7 * F / E) := by ring
      rw [e]
      refine le_mul_of_one_le_right (abs_nonneg a) ?_
      rw [le_div_iff₀ hE0]
      linarith
    have h5 := abs_add_le (v - a / F) (a / F - a / E)
    rw [sub_add_sub_cancel] at h5
    have h6 := mul_le_mul_of_nonneg_left h4 hu0.le
    have h7 : 0 ≤ u * (|a| / E) := by positivity
    linarith

/-- **C132** (improvement)  If moreover the point passes the test against a finite value `γ ≥ 0` of ordinary size, its first coordinate is not
negative and its computed value is at least `(1 - 2⁻⁵³)² γ`: an improvement is not worse than what it replaces, but for rounding. -/
theorem C132_quasicvx_better {x : Arr B64} (hf : x.AllFinite) (ht : QcvxTame (x.vec64 2)) {γ : B64} (hγ : γ.Finite) (h0 : 0 ≤ γ.val)
    (hg : Half64 γ.val) (hr : QcvxReached x γ) :
    0 ≤ x.vec64 2 0 ∧ (1 - (2 : ℝ) ^ (-53 : ℤ)) ^ 2 * γ.val ≤ (qcvxValue x).val := by
  obtain ⟨q1, q2, q3, q4⟩ := B64.exp_mid (allFinite_vec hf 1) ht.log
  have hpos : 0 < (Scalar.exp (x.vec 1)).val := lt_of_lt_of_le (by positivity) q3
  have hm := (C99_normal_range γ (Scalar.exp (x.vec 1)) hγ q1).2.2.1 (by
    rcases hg with h | ⟨h, -⟩
    · left; rw [h, zero_mul]
    · right
      rw [abs_mul, abs_of_pos hpos]
      refine le_trans ?_ (mul_le_mul h q3 (by positivity) (abs_nonneg _))
      rw [← zpow_add₀ (by norm_num)]
      exact zpow_le_zpow_right₀ (by norm_num) (by norm_num)) (noOver_pow (b := 1012) (by
    rw [abs_mul, abs_of_pos hpos]
    refine (mul_le_mul hg.bound q4 hpos.le (by positivity)).trans (le_of_eq ?_)
    rw [← zpow_add₀ (by norm_num)]; norm_num) (by norm_num))
  have h1 : rnd53 (γ.val * (Scalar.exp (x.vec 1)).val) ≤ (x.vec 0).val := by
    have hn := B64.neg_val (allFinite_vec hf 0)
    have hn2 := B64.neg_val hm.1
    have e : γ * Scalar.exp (x.vec 1) = -(-(γ * Scalar.exp (x.vec 1))) := B64.neg_twice _
    have hr' : Scalar.gt (-x.vec 0 - -(γ * Scalar.exp (x.vec 1))) 0 = false := by
      have hr : Scalar.gt (-x.vec 0 + γ * Scalar.exp (x.vec 1)) 0 = false := hr
      rw [e] at hr
      exact hr
    have := gt_sub_false hn.1 hn2.1 hr'
    rw [hn.2, hn2.2, hm.2] at this
    linarith
  obtain ⟨-, hv⟩ := qcvx_value_same hf ht
  have q2' : rnd53 (Real.exp (x.vec64 2 1)) = (Scalar.exp (x.vec 1)).val := q2.symm
  rw [hv, q2']
  generalize (Scalar.exp (x.vec 1)).val = F at *
  obtain ⟨a, ha⟩ : ∃ a, a = (x.vec 0).val := ⟨_, rfl⟩
  have ha' : x.vec64 2 0 = a := ha.symm
  rw [ha']
  rw [← ha] at h1
  have hp : 0 ≤ γ.val * F := mul_nonneg h0 hpos.le
  have h2 := rnd53_err (γ.val * F)
  rw [abs_of_nonneg hp] at h2
  have h2 := (abs_le.1 h2).1
  have ha0 : 0 ≤ a := (show 0 ≤ rnd53 (γ.val * F) from bin53.nonneg hp).trans h1
  have h3 := rnd53_err (a / F)
  rw [abs_of_nonneg (div_nonneg ha0 hpos.le)] at h3
  have h3 := (abs_le.1 h3).1
  have hu : (2 : ℝ) ^ (-53 : ℤ) ≤ 1 / 8 := by norm_num
  refine ⟨ha0, ?_⟩
  have h4 : (1 - (2 : ℝ) ^ (-53 : ℤ)) * γ.val ≤ a / F := by
    rw [le_div_iff₀ hpos]
    generalize (2 : ℝ) ^ (-53 : ℤ) = u at *
    nlinarith
  generalize (2 : ℝ) ^ (-53 : ℤ) = u at *
  have h5 := mul_le_mul_of_nonneg_left h4 (by linarith : (0 : ℝ) ≤ 1 - u)
  nlinarith

/-- **C132** (runs)  `cutting_plane_optim` with this oracle in IEEE-754 `f64`, over any search space that keeps its dimension, whatever overflows,
underflows or turns into a NaN in it on the way: the run ends without a panic; without a point `γ` is unchanged.  A returned point fails no computed
constraint test and its computed value is the final `γ'`.  If it is of finite numbers and of ordinary size, it satisfies `a² ≤ b` and has the value
`a / exp b = γ'` up to the stated rounding errors. -/
theorem C132_quasicvx_run {S : Type} {sp : Space S (Arr B64) (SingleCut B64) B64} {Q : S → Prop} (hsp : sp.Steady 2 Q)
    (o : QcvxOracle) (ho : o.Reach) {s : S} (hs : Q s) (γ : B64) (opts : Options B64) :
    ∃ r k γ' o' s', cuttingPlaneOptim QcvxOracle.oracle sp o s γ opts = .ok ((r, k), γ', o', s') ∧ (r = none → γ' = γ) ∧
      ∀ x, r = some x → x.IsVecShape 2 ∧ QcvxKept x ∧ γ' = qcvxValue x ∧
        (x.AllFinite → QcvxTame (x.vec64 2) → (1 - (2 : ℝ) ^ (-53 : ℤ)) * x.vec64 2 0 ^ 2 ≤ x.vec64 2 1 ∧ γ'.Finite ∧
          |γ'.val - x.vec64 2 0 / Real.exp (x.vec64 2 1)| ≤ 3 * (2 : ℝ) ^ (-53 : ℤ) * (|x.vec64 2 0| / Real.exp (x.vec64 2 1))) := by
  obtain ⟨r, k, γ', w', s', h1, h2, h3, h4⟩ := optim_accepted hsp (I := fun (w : QcvxOracle) _ => w.Reach)
    (orc := QcvxOracle.oracle) (w := o) (s := s) (g := γ) (by
      intro w x g hw hx
      obtain ⟨gr, b, s, γ', o', q1, q2, q3, -, -, q4⟩ := C132_quasicvx_query w hw hx g
      exact ⟨_, _, _, _, q1, q2, fun h => (q4 h).1, q3⟩) opts ho hs
  refine ⟨r, k, γ', w', s', h1, h3, ?_⟩
  intro x hx
  obtain ⟨hxs, w1, g1, c, w2, hw1, hq⟩ := h4 x hx
  obtain ⟨gr, b, s, γ2, o', q1, -, -, q3, q4, -⟩ := C132_quasicvx_query w1 hw1 hxs g1
  rw [q1] at hq
  simp only [Res.ok.injEq, Prod.mk.injEq] at hq
  obtain ⟨⟨-, rfl⟩, rfl, -⟩ := hq
  have hk := (q3.1 rfl).1
  refine ⟨hxs, hk, (q4 rfl).1, fun hf ht => ?_⟩
  obtain ⟨v1, v2, v3⟩ := C132_quasicvx_values hf ht
  rw [(q4 rfl).1]
  exact ⟨v1 hk, v2, v3⟩

end Ellalgo
