import Verif.Props.RoundedSvm
import Verif.Props.RoundedPlaneExamples

/-! Property C93: the hypotheses are met in `f64`, and without the error term the claim is false. -/

namespace Ellalgo
open Matrix

/-- one sample `x = 1` with label `+1` -/
noncomputable def oneSample : SvmOracle (Fl bin53) := SvmOracle.new ⟨[⟨1⟩], 1, 1⟩ [1]

theorem oneSample_for : oneSample.FlFor 1 1 (fun _ => 1) :=
  ⟨one_pos, ⟨rfl, rfl, rfl⟩, rfl, rfl, fun _ => by
    show bin53.rnd ((1 : ℤ) : ℝ) = ((1 : ℤ) : ℝ)
    rw [Int.cast_one, bin53.one]⟩

theorem rnd_below_one : bin53.rnd (1 + -(2 : ℝ) ^ (-60 : ℤ)) = 1 := by
  have h := rnd53_eq (x := 1 + -(2 : ℝ) ^ (-60 : ℤ)) (-1) (2 ^ 53) (by norm_num [abs_of_pos]) (by norm_num [abs_of_pos])
    (by norm_num [abs_lt])
  show rnd53 _ = _
  rw [h]; norm_num

/-- **C93** (why an error term)  In `f64` the oracle answers "stop" at the classifier `w = 1`, `b = -2⁻⁶⁰`, whose margin on the
only sample is `1 - 2⁻⁶⁰ < 1`. -/
theorem C93_exact_margin_fails : ∃ (x : Arr (Fl bin53)) (c : Arr (Fl bin53) × SingleCut (Fl bin53)), x.IsVecShape 2 ∧
    (∀ i, bin53.Rep (x.flVec 2 i)) ∧ SvmOracle.oracle.assess oneSample x 5 = .ok ((c, true), 0, oneSample) ∧
    svmMargin (oneSample.data.flRect 1 1) (fun _ => 1) (x.flVec 2) 0 < 1 := by
  refine ⟨⟨[⟨1⟩, ⟨-(2 : ℝ) ^ (-60 : ℤ)⟩], 2, 0⟩, (Arr.new 2, ⟨0⟩), ⟨rfl, rfl, rfl⟩, ?_, ?_, ?_⟩
  · intro i
    fin_cases i
    · exact bin53.one
    · exact Loss.r_int (-1) (-60) _ (by norm_num [Arr.flVec, Arr.vec]) (by norm_num)
  · have a0 : ((0 : Fl bin53) + (⟨1⟩ : Fl bin53) * ⟨1⟩) = ⟨1⟩ := Fl.ext (by
      show bin53.rnd (0 + bin53.rnd (1 * 1)) = 1
      rw [mul_one, bin53.one, zero_add, bin53.one])
    have a1 : ((⟨1⟩ : Fl bin53) + ⟨-(2 : ℝ) ^ (-60 : ℤ)⟩) = ⟨1⟩ := Fl.ext rnd_below_one
    have a2 : (Scalar.ofInt 1 : Fl bin53) * ⟨1⟩ = ⟨1⟩ := Fl.ext (by
      show bin53.rnd (bin53.rnd ((1 : ℤ) : ℝ) * 1) = 1
      rw [Int.cast_one, bin53.one, mul_one, bin53.one])
    have hs : oneSample.search ⟨[⟨1⟩], 1, 0⟩ ⟨-(2 : ℝ) ^ (-60 : ℤ)⟩ = .ok (some ⟨1⟩, 0) := by
      have h1 : oneSample.data.row 0 = .ok ⟨[⟨1⟩], 1, 0⟩ := rfl
      have h2 : (⟨[⟨1⟩], 1, 0⟩ : Arr (Fl bin53)).dot ⟨[⟨1⟩], 1, 0⟩ = .ok ⟨1⟩ := by
        have : (⟨[⟨1⟩], 1, 0⟩ : Arr (Fl bin53)).dot ⟨[⟨1⟩], 1, 0⟩ = .ok (0 + (⟨1⟩ : Fl bin53) * ⟨1⟩) := rfl
        rw [this, a0]
      have h3 : oneSample.labels[0]? = some 1 := rfl
      have h4 : oneSample.data.rows = 1 := rfl
      rw [SvmOracle.search, h4]
      simp only [forRange, forN, Nat.sub_zero, h1, h2, h3, a1, a2, Res.ofOption, Res.ok_bind]
      rfl
    have hn : oneSample.nfeat = 1 := rfl
    have hm : (List.range 1).mapM (fun i => (⟨[⟨1⟩, ⟨-(2 : ℝ) ^ (-60 : ℤ)⟩], 2, 0⟩ : Arr (Fl bin53)).idx i) = .ok [⟨1⟩] := rfl
    have hb : (⟨[⟨1⟩, ⟨-(2 : ℝ) ^ (-60 : ℤ)⟩], 2, 0⟩ : Arr (Fl bin53)).idx 1 = .ok ⟨-(2 : ℝ) ^ (-60 : ℤ)⟩ := rfl
    have hge : Scalar.ge (⟨1⟩ : Fl bin53) 1 = true := decide_eq_true le_rfl
    simp only [SvmOracle.oracle, SvmOracle.assess, hn, hm, hb, hs, Res.ok_bind, hge, if_true]
  · simp [svmMargin, Arr.flRect, Arr.flVec, Arr.vec, Arr.mat, oneSample, SvmOracle.new]

/-- every run in `f64` from the disc of radius `√10` around `(3, 2⁻⁶⁰)`, with any options -/
example (opts : Options (Fl bin53)) : ∃ r k γ' s',
    cuttingPlaneOptim SvmOracle.oracle Ell.space oneSample flDisc 0 opts = .ok ((r, k), γ', oneSample, s') ∧
      ∀ x, r = some x → (γ'.val = 0 ∧ ∀ i, 1 - svmErr (2 ^ (-53 : ℤ)) (oneSample.data.flRect 1 1) (fun _ => 1) (x.flVec 2) i ≤
        svmMargin (oneSample.data.flRect 1 1) (fun _ => 1) (x.flVec 2) i) ∨ γ'.val < 1 := by
  obtain ⟨r, k, γ', s', h1, -, h2⟩ := C93_svm_run (C86_ell_steady (by norm_num)).1 oneSample oneSample_for (s := flDisc)
    ⟨⟨rfl, rfl, rfl⟩, rfl, rfl, rfl⟩ 0 opts
  exact ⟨r, k, γ', s', h1, fun x hx => (h2 x hx).2.imp id And.left⟩

end Ellalgo
