import Verif.Props.Portfolio64Runs
import Verif.Props.Lowpass64Examples

/-! Cases that meet the hypotheses of C131. -/

namespace Ellalgo.ExPortfolio64
open Ellalgo Matrix ExOr64 ExLowpass64

/-- two assets with returns 1 and 2, the identity as risk matrix, risk limit 1 and budget 2 -/
noncomputable def pf : Portfolio B64 := ⟨⟨[1, nat 2], 2, 0⟩, ⟨[1, 0, 0, 1], 2, 2⟩, 1, nat 2⟩

theorem pf_fin : pf.Finite64 2 where
  sized := ⟨⟨rfl, rfl, rfl⟩, ⟨rfl, rfl, rfl⟩⟩
  returns := by
    intro y hy
    simp only [pf, List.mem_cons, List.mem_nil_iff, or_false] at hy
    rcases hy with rfl | rfl
    · exact one_is.1
    · exact two_is.1
  risk := by
    intro y hy
    simp only [pf, List.mem_cons, List.mem_nil_iff, or_false] at hy
    rcases hy with rfl | rfl | rfl | rfl
    · exact one_is.1
    · exact Same.zero.1
    · exact Same.zero.1
    · exact one_is.1
  budget := two_is.1
  maxRisk := one_is.1

theorem ret_val : pf.expectedReturns.vec64 2 = ![1, 2] := by
  funext i
  fin_cases i
  · exact one_is.2
  · exact two_is.2

theorem risk_val : pf.riskMatrix.mat64 2 = !![1, 0; 0, 1] := by
  ext i j
  fin_cases i <;> fin_cases j
  · exact one_is.2
  · rfl
  · rfl
  · exact one_is.2

theorem mid_zero : Mid64 0 := .inl rfl
theorem mid_one : Mid64 1 := .inr ⟨by rw [abs_one]; exact zpow_le_one_of_nonpos₀ (by norm_num) (by norm_num),
  by rw [abs_one]; exact one_le_zpow₀ (by norm_num) (by norm_num)⟩

/-- all in the first asset: the portfolio `(1, 0)` -/
theorem all_tame : PortfolioTame (pf.expectedReturns.vec64 2) (pf.riskMatrix.mat64 2) (flt.vec64 2) := by
  rw [ret_val, risk_val, flt_val]
  have h1 : (1 : ℝ) ≤ (2 : ℝ) ^ (900 : ℤ) := one_le_zpow₀ (by norm_num) (by norm_num)
  refine ⟨?_, ?_, ?_, ?_⟩
  · intro i
    fin_cases i
    · show |(1 : ℝ)| ≤ _; rw [abs_one]; exact h1
    · show |(0 : ℝ)| ≤ _; rw [abs_zero]; exact zero_le_one.trans h1
  · intro i
    fin_cases i
    · show Mid64 (1 * 1); rw [one_mul]; exact mid_one
    · show Mid64 (2 * 0); rw [mul_zero]; exact mid_zero
  · intro i j
    fin_cases i <;> fin_cases j
    · show Mid64 (1 * 1); rw [one_mul]; exact mid_one
    · show Mid64 (1 * 0); rw [mul_zero]; exact mid_zero
    · show Mid64 (0 * 0); rw [mul_zero]; exact mid_zero
    · show Mid64 (0 * 1); rw [zero_mul]; exact mid_zero
  · intro i j
    fin_cases i <;> fin_cases j
    · show Mid64 (1 * 1 * 1); rw [one_mul, one_mul]; exact mid_one
    · show Mid64 (1 * 0 * 0); rw [mul_zero]; exact mid_zero
    · show Mid64 (0 * 0 * 1); rw [mul_zero, zero_mul]; exact mid_zero
    · show Mid64 (0 * 1 * 0); rw [mul_zero]; exact mid_zero

theorem all_keeps : pf.Keeps 2 flt := by
  obtain ⟨s1, s2, -⟩ := portfolio_same pf_fin flt_fin all_tame
  have f0 : ∀ j : Nat, flt.toFl.vec j = ⟨(flt.vec j).val⟩ := fun j => Arr.toFl_vec _
  have fm : ∀ i j : Nat, pf.toFl.riskMatrix.mat i j = ⟨(pf.riskMatrix.mat i j).val⟩ := fun i j => Arr.toFl_mat _ _
  have x0 : flt.toFl.vec 0 = 1 := (f0 0).trans (Fl.ext one_is.2)
  have x1 : flt.toFl.vec 1 = 0 := (f0 1).trans rfl
  have m0 : pf.toFl.riskMatrix.mat 0 0 = 1 := (fm 0 0).trans (Fl.ext one_is.2)
  have a1 : ∀ a : Fl bin53, a * 0 = 0 := fun a => Fl.ext (by show bin53.rnd (a.val * 0) = 0; rw [mul_zero, bin53.zero])
  have a2 : ∀ a : Fl bin53, 0 * a = 0 := fun a => Fl.ext (by show bin53.rnd (0 * a.val) = 0; rw [zero_mul, bin53.zero])
  have a3 : (1 : Fl bin53) * 1 = 1 := Fl.ext (by show bin53.rnd (1 * 1) = 1; rw [one_mul, bin53.one])
  have a4 : (0 : Fl bin53) + 1 = 1 := Fl.ext (by show bin53.rnd (0 + 1) = 1; rw [zero_add, bin53.one])
  have a5 : (1 : Fl bin53) + 0 = 1 := Fl.ext (by show bin53.rnd (1 + 0) = 1; rw [add_zero, bin53.one])
  refine ⟨B64.sub_of_le s1.1 two_is.1 ?_, B64.sub_of_le s2.1 one_is.1 ?_⟩
  · rw [s1.2, show pf.budget.val = 2 from two_is.2]
    show ((0 : Fl bin53) + flt.toFl.vec 0 + flt.toFl.vec 1).val ≤ 2
    rw [x0, x1, a4, a5]
    show (1 : ℝ) ≤ 2
    norm_num
  · rw [s2.2, show pf.maxRisk.val = 1 from one_is.2]
    show ((0 : Fl bin53) + flt.toFl.vec 0 * pf.toFl.riskMatrix.mat 0 0 * flt.toFl.vec 0 + flt.toFl.vec 0 * pf.toFl.riskMatrix.mat 0 1 * flt.toFl.vec 1 +
      flt.toFl.vec 1 * pf.toFl.riskMatrix.mat 1 0 * flt.toFl.vec 0 + flt.toFl.vec 1 * pf.toFl.riskMatrix.mat 1 1 * flt.toFl.vec 1).val ≤ 1
    rw [x0, x1, m0, a1, a1, a2, a2, a3, a3, a4, a5, a5, a5]
    exact le_refl (1 : ℝ)

/-- C131: the computed return of `(1, 0)` is close to 1 -/
example : (pf.returnOf 2 flt).Finite ∧ |(pf.returnOf 2 flt).val - ![1, 2] ⬝ᵥ ![1, 0]| ≤
    ((1 + (2 : ℝ) ^ (-53 : ℤ)) ^ 3 - 1) * ∑ i, |(![1, 2] : Fin 2 → ℝ) i| * |(![1, 0] : Fin 2 → ℝ) i| := by
  obtain ⟨h1, -, -, h2⟩ := C131_portfolio_values pf_fin ⟨rfl, rfl, rfl⟩ flt_fin all_tame all_keeps
  rw [ret_val, flt_val] at h2
  exact ⟨h1, h2⟩

/-- C131: a query at a point with an infinity and a NaN -/
example (γ : B64) : ∃ c s γ', Portfolio.assess pf ⟨[.inf false, .nan], 2, 0⟩ γ = .ok ((c, s), γ', pf) ∧
    (s = true ↔ pf.Keeps 2 ⟨[.inf false, .nan], 2, 0⟩ ∧ Scalar.lt (-pf.returnOf 2 ⟨[.inf false, .nan], 2, 0⟩) γ = true) := by
  obtain ⟨g, b, s, γ', h1, -, h2, -⟩ := C131_portfolio_query pf_fin.sized (x := ⟨[.inf false, .nan], 2, 0⟩) ⟨rfl, rfl, rfl⟩ γ
  exact ⟨_, _, _, h1, h2⟩

/-- C131: runs from any ellipsoid of dimension 2, of both kinds -/
example (e : Ell B64) (he : e.Shaped 2) (γ : B64) (opts : Options B64) :
    ∃ r k γ' s', cuttingPlaneOptim Portfolio.oracle Ell.space pf e γ opts = .ok ((r, k), γ', pf, s') ∧
      ∀ x, r = some x → pf.Keeps 2 x ∧ γ' = -pf.returnOf 2 x := by
  obtain ⟨r, k, γ', s', h1, -, h2⟩ := C131_portfolio_run (C86_ell_steady (by norm_num)).1 pf_fin.sized he γ opts
  exact ⟨r, k, γ', s', h1, fun x hx => ⟨(h2 x hx).2.1, (h2 x hx).2.2.1⟩⟩
example (e : EllStable B64) (he : e.Shaped 2) (γ : B64) (opts : Options B64) :
    ∃ r k γ' s', cuttingPlaneOptim Portfolio.oracle EllStable.space pf e γ opts = .ok ((r, k), γ', pf, s') ∧
      ∀ x, r = some x → pf.Keeps 2 x ∧ γ' = -pf.returnOf 2 x := by
  obtain ⟨r, k, γ', s', h1, -, h2⟩ := C131_portfolio_run (C86_ell_steady (by norm_num)).2 pf_fin.sized he γ opts
  exact ⟨r, k, γ', s', h1, fun x hx => ⟨(h2 x hx).2.1, (h2 x hx).2.2.1⟩⟩

end Ellalgo.ExPortfolio64
