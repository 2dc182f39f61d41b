import Verif.Props.Quasicvx64
import Verif.Props.Portfolio64Examples

/-! Cases that meet the hypotheses of C132. -/

namespace Ellalgo.ExQuasicvx64
open Ellalgo Matrix ExLowpass64

/-- the point `a = 1`, `b = 1` -/
noncomputable def pt : Arr B64 := ⟨[1, 1], 2, 0⟩

theorem pt_fin : pt.AllFinite := by
  intro y hy
  simp only [pt, List.mem_cons, List.mem_nil_iff, or_false, or_self] at hy
  rw [hy]; exact one_is.1

theorem pt_val (i : Fin 2) : pt.vec64 2 i = 1 := by
  fin_cases i
  · exact one_is.2
  · exact one_is.2

theorem half_one : Half64 1 := .inr ⟨by rw [abs_one]; exact zpow_le_one_of_nonpos₀ (by norm_num) (by norm_num),
  by rw [abs_one]; exact one_le_zpow₀ (by norm_num) (by norm_num)⟩

theorem pt_tame : QcvxTame (pt.vec64 2) := ⟨by rw [pt_val]; exact half_one, by rw [pt_val, abs_one]; norm_num⟩

theorem pt_kept : QcvxKept pt := by
  have h := (C99_normal_range 1 1 one_is.1 one_is.1).2.2.1 (.inr (by
    rw [one_is.2, one_mul, abs_one]; exact zpow_le_one_of_nonpos₀ (by norm_num) (by norm_num))) (noOver_pow (b := 0) (by
    rw [one_is.2, one_mul, abs_one, zpow_zero]) (by norm_num))
  refine B64.sub_of_le h.1 one_is.1 ?_
  show ((1 : B64) * 1).val ≤ (1 : B64).val
  rw [h.2, one_is.2, one_mul, show rnd53 1 = 1 from bin53.one]

/-- C132: its computed value is `1 / e` up to rounding -/
example : (qcvxValue pt).Finite ∧ |(qcvxValue pt).val - 1 / Real.exp 1| ≤ 3 * (2 : ℝ) ^ (-53 : ℤ) * (1 / Real.exp 1) := by
  obtain ⟨h0, h1, h2⟩ := C132_quasicvx_values pt_fin pt_tame
  have := h0 pt_kept
  rw [pt_val, pt_val, abs_one] at h2
  exact ⟨h1, h2⟩

/-- C132: it passes the test against the value 0, and is not worse -/
example : 0 ≤ (qcvxValue pt).val := by
  have hm := (C99_normal_range 0 (Scalar.exp (1 : B64)) Same.zero.1 (B64.exp_mid one_is.1 (by rw [one_is.2, abs_one]; norm_num)).1).2.2.1 (.inl (by
    rw [show (0 : B64).val = 0 from rfl, zero_mul])) (by
    rw [show (0 : B64).val = 0 from rfl, zero_mul, rnd53_zero, abs_zero]; positivity)
  rw [show (0 : B64).val = 0 from rfl, zero_mul, rnd53_zero] at hm
  have hr : QcvxReached pt 0 := by
    have hn := B64.neg_val one_is.1
    have hn2 := B64.neg_val hm.1
    have : Scalar.gt (-(1 : B64) - -(0 * Scalar.exp (1 : B64))) 0 = false := B64.sub_of_le hn.1 hn2.1 (by
      rw [hn.2, hn2.2, hm.2, one_is.2]; norm_num)
    show Scalar.gt (-(1 : B64) + 0 * Scalar.exp (1 : B64)) 0 = false
    rw [B64.neg_twice (0 * Scalar.exp (1 : B64))]
    exact this
  have := (C132_quasicvx_better pt_fin pt_tame (γ := 0) Same.zero.1 le_rfl (.inl rfl) hr).2
  rwa [show (0 : B64).val = 0 from rfl, mul_zero] at this

/-- C132: a query at a point with an infinity and a NaN -/
example (γ : B64) : ∃ c s γ' o', QcvxOracle.oracle.assess QcvxOracle.default ⟨[.inf false, .nan], 2, 0⟩ γ = .ok ((c, s), γ', o') ∧
    (s = true ↔ QcvxKept (⟨[.inf false, .nan], 2, 0⟩ : Arr B64) ∧ QcvxReached ⟨[.inf false, .nan], 2, 0⟩ γ) := by
  obtain ⟨g, b, s, γ', o', h1, -, -, h2, -⟩ := C132_quasicvx_query _ qcvx_default_reach (x := ⟨[.inf false, .nan], 2, 0⟩) ⟨rfl, rfl, rfl⟩ γ
  exact ⟨_, _, _, _, h1, h2⟩

/-- C132: runs from any ellipsoid of dimension 2, of both kinds -/
example (e : Ell B64) (he : e.Shaped 2) (γ : B64) (opts : Options B64) :
    ∃ r k γ' o' s', cuttingPlaneOptim QcvxOracle.oracle Ell.space QcvxOracle.default e γ opts = .ok ((r, k), γ', o', s') ∧
      ∀ x, r = some x → QcvxKept x ∧ γ' = qcvxValue x := by
  obtain ⟨r, k, γ', o', s', h1, -, h2⟩ := C132_quasicvx_run (C86_ell_steady (by norm_num)).1 _ qcvx_default_reach he γ opts
  exact ⟨r, k, γ', o', s', h1, fun x hx => ⟨(h2 x hx).2.1, (h2 x hx).2.2.1⟩⟩
example (e : EllStable B64) (he : e.Shaped 2) (γ : B64) (opts : Options B64) :
    ∃ r k γ' o' s', cuttingPlaneOptim QcvxOracle.oracle EllStable.space QcvxOracle.default e γ opts = .ok ((r, k), γ', o', s') ∧
      ∀ x, r = some x → QcvxKept x ∧ γ' = qcvxValue x := by
  obtain ⟨r, k, γ', o', s', h1, -, h2⟩ := C132_quasicvx_run (C86_ell_steady (by norm_num)).2 _ qcvx_default_reach he γ opts
  exact ⟨r, k, γ', o', s', h1, fun x hx => ⟨(h2 x hx).2.1, (h2 x hx).2.2.1⟩⟩

end Ellalgo.ExQuasicvx64
