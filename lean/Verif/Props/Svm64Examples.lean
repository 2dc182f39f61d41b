import Verif.Props.Svm64

/-! Cases that meet the hypotheses of C129. -/

namespace Ellalgo.ExSvm64
open Ellalgo Matrix

/-- the samples `1` and `-1` with labels `1` and `-1` -/
noncomputable def orc : SvmOracle B64 := SvmOracle.new ⟨[1, -1], 2, 1⟩ [1, -1]

theorem one_val : (1 : B64).Finite ∧ (1 : B64).val = 1 := ⟨Same.one.1, Same.one.2⟩
theorem neg_val : (-1 : B64).Finite ∧ (-1 : B64).val = -1 := by
  have := B64.neg_val one_val.1
  rwa [one_val.2] at this

theorem orc_for : orc.For64 2 1 ![1, -1] where
  pos := one_pos
  data := ⟨rfl, rfl, rfl⟩
  finite := by
    intro y hy
    simp only [orc, SvmOracle.new, List.mem_cons, List.mem_nil_iff, or_false] at hy
    rcases hy with rfl | rfl
    · exact one_val.1
    · exact neg_val.1
  labels := by simp [orc, SvmOracle.new]
  i32 := by intro i; fin_cases i <;> simp
  nfeat := rfl

theorem orc_data : orc.data.rect64 2 1 = !![1; -1] := by
  ext i j
  fin_cases j
  fin_cases i
  · exact one_val.2
  · exact neg_val.2

/-- the classifier `w = 1, b = 0` -/
noncomputable def cls : Arr B64 := ⟨[1, 0], 2, 0⟩

theorem cls_fin : cls.AllFinite := by
  intro y hy
  simp only [cls, List.mem_cons, List.mem_nil_iff, or_false] at hy
  rcases hy with rfl | rfl
  · exact one_val.1
  · exact Same.zero.1

theorem cls_val : cls.vec64 2 = ![1, 0] := by
  funext i
  fin_cases i
  · exact one_val.2
  · rfl

theorem cls_tame : SvmTameAt (orc.data.rect64 2 1) (cls.vec64 2) := by
  rw [orc_data, cls_val]
  have h1 : (1 : ℝ) ≤ (2 : ℝ) ^ (900 : ℤ) := one_le_zpow₀ (by norm_num) (by norm_num)
  have h2 : (2 : ℝ) ^ (-1022 : ℤ) ≤ 1 := zpow_le_one_of_nonpos₀ (by norm_num) (by norm_num)
  refine ⟨fun i j => ?_, fun i j => ?_, ?_⟩
  · fin_cases j
    right
    fin_cases i
    · show _ ≤ |(1 : ℝ) * 1|
      rw [mul_one, abs_one]; exact h2
    · show _ ≤ |(-1 : ℝ) * 1|
      rw [mul_one, abs_neg, abs_one]; exact h2
  · fin_cases j
    fin_cases i
    · show |(1 : ℝ) * 1| ≤ _
      rw [mul_one, abs_one]; exact h1
    · show |(-1 : ℝ) * 1| ≤ _
      rw [mul_one, abs_neg, abs_one]; exact h1
  · show |(0 : ℝ)| ≤ _
    rw [abs_zero]; exact zero_le_one.trans h1

/-- C129: the margin of the second sample, which is 1 -/
example : (orc.marginOf 1 cls 1).Finite ∧
    |(orc.marginOf 1 cls 1).val - 1| ≤ svmErr ((2 : ℝ) ^ (-53 : ℤ)) !![1; -1] ![1, -1] ![1, 0] 1 := by
  have := C129_svm_margin orc_for cls_fin cls_tame 1
  rw [orc_data, cls_val] at this
  have e : svmMargin (!![1; -1] : Matrix (Fin 2) (Fin 1) ℝ) ![1, -1] ![1, 0] 1 = 1 := by simp [svmMargin]
  rw [e] at this
  exact this

/-- C129: a query at a classifier with an infinite weight and a NaN bias -/
example : ∃ g beta γ', SvmOracle.oracle.assess orc ⟨[.inf false, .nan], 2, 0⟩ 0 = .ok (((g, ⟨beta⟩), true), γ', orc) ∧
    orc.Verdict 2 1 ⟨[.inf false, .nan], 2, 0⟩ γ' := by
  obtain ⟨g, b, γ', h1, -, h2, -⟩ := C129_svm_query (m := 2) (n := 1) orc orc_for.shaped ⟨[.inf false, .nan], 2, 0⟩ ⟨rfl, rfl, rfl⟩ 0
  exact ⟨g, b, γ', h1, h2⟩

/-- C129: runs from any ellipsoid of dimension 2, of both kinds -/
example (e : Ell B64) (he : e.Shaped 2) (γ : B64) (opts : Options B64) :
    ∃ r k γ' s', cuttingPlaneOptim SvmOracle.oracle Ell.space orc e γ opts = .ok ((r, k), γ', orc, s') ∧
      ∀ x, r = some x → orc.Verdict 2 1 x γ' := by
  obtain ⟨r, k, γ', s', h1, -, h2⟩ := C129_svm_run (m := 2) (n := 1) (C86_ell_steady (by norm_num)).1 orc orc_for he γ opts
  exact ⟨r, k, γ', s', h1, fun x hx => (h2 x hx).2.1⟩
example (e : EllStable B64) (he : e.Shaped 2) (γ : B64) (opts : Options B64) :
    ∃ r k γ' s', cuttingPlaneOptim SvmOracle.oracle EllStable.space orc e γ opts = .ok ((r, k), γ', orc, s') ∧
      ∀ x, r = some x → orc.Verdict 2 1 x γ' := by
  obtain ⟨r, k, γ', s', h1, -, h2⟩ := C129_svm_run (m := 2) (n := 1) (C86_ell_steady (by norm_num)).2 orc orc_for he γ opts
  exact ⟨r, k, γ', s', h1, fun x hx => (h2 x hx).2.1⟩

end Ellalgo.ExSvm64
