import Verif.Props.RoundedPlane
import Verif.Props.RoundedLoss
import Verif.Props.ExampleProps

/-! Property C86: the hypotheses are met in `f64`, the margin at zero is the problem as written, and without a margin the claim
is false. -/

namespace Ellalgo
open Matrix

theorem u53_small : (2 : ℝ) ^ (-53 : ℤ) ≤ 1 / 8 := by norm_num

/-- with margin zero the families are the problems of C58 and of the example2 test -/
example : ex1With 0 = ex1F ∧ ex4With 0 = ex4F ∧ ∀ t, ex3With t 0 = ex3K t := by
  refine ⟨?_, ?_, fun t => ?_⟩
  · ext z
    simp only [ex1With, ex1F, Set.mem_setOf_eq]
    constructor <;> rintro ⟨h1, h2⟩ <;> constructor <;> linarith
  · ext z; simp [ex4With, ex4F]
  · ext z; simp [ex3With, ex3K, ex4With, ex4F]

example : FlMaximizes (R := bin53) 2 ex1Oracle (fun _ => True) ex1With (fun z => z 0 + z 1) (err2 (2 ^ (-53 : ℤ))) :=
  C86_example1 u53_small Loss.r3
example : FlMaximizes (R := bin53) 2 ex4Oracle (fun idx => -1 ≤ idx ∧ idx < 4) ex4With (fun z => 2 * z 0 - 3 * z 1)
    (fun x => 2 * err2 (2 ^ (-53 : ℤ)) x) :=
  C86_example4 u53_small Loss.r3

/-- `f64` value of `x + y` for `(3, 2⁻⁶⁰)`: the small part is lost -/
theorem rnd_three_tiny : bin53.rnd (3 + (2 : ℝ) ^ (-60 : ℤ)) = 3 := by
  have h := rnd53_eq (x := 3 + (2 : ℝ) ^ (-60 : ℤ)) 1 (3 * 2 ^ 51) (by norm_num [abs_of_pos]) (by norm_num [abs_of_pos])
    (by norm_num [abs_lt])
  show rnd53 _ = _
  rw [h]; norm_num

/-- **C86** (why a margin)  In `f64`, `example1::MyOracle` accepts the point `(3, 2⁻⁶⁰)` as an improvement over `0`, with value
`3`, although `x + y ≤ 3` is false there: exact feasibility of accepted points does not hold. -/
theorem C86_exact_feasibility_fails :
    ∃ (x : Arr (Fl bin53)) (c : Arr (Fl bin53) × SingleCut (Fl bin53)), x.IsVecShape 2 ∧
      (∀ i, bin53.Rep (x.flVec 2 i)) ∧ ex1Oracle.assess () x 0 = .ok ((c, true), ⟨3⟩, ()) ∧ x.flVec 2 ∉ ex1With 0 := by
  refine ⟨⟨[⟨3⟩, ⟨(2 : ℝ) ^ (-60 : ℤ)⟩], 2, 0⟩, (Arr.ofList [-1, -1], ⟨0⟩), ⟨rfl, rfl, rfl⟩, ?_, ?_, ?_⟩
  · intro i
    fin_cases i
    · exact Loss.r3
    · exact Loss.r_int 1 (-60) _ (by norm_num [Arr.flVec, Arr.vec]) (by norm_num)
  · have a1 : ((⟨3⟩ : Fl bin53) + ⟨(2 : ℝ) ^ (-60 : ℤ)⟩) = ⟨3⟩ := Fl.ext rnd_three_tiny
    have a2 : ((⟨3⟩ : Fl bin53) - nat 3) = 0 := Fl.ext (by
      show bin53.rnd (3 - bin53.rnd 3) = 0
      rw [Loss.r3, sub_self, bin53.zero])
    have a3 : (-(⟨3⟩ : Fl bin53) + ⟨(2 : ℝ) ^ (-60 : ℤ)⟩ + 1).val ≤ 0 := by
      show bin53.rnd (bin53.rnd (-3 + (2 : ℝ) ^ (-60 : ℤ)) + 1) ≤ 0
      have h1 : bin53.rnd (-3 + (2 : ℝ) ^ (-60 : ℤ)) ≤ -1 := by
        rw [← Loss.rm1]; exact bin53.mono _ _ (by norm_num)
      rw [← bin53.zero]; exact bin53.mono _ _ (by linarith)
    have a4 : ((0 : Fl bin53) - ⟨3⟩).val ≤ 0 := by
      have := bin53.mono (0 - 3) 0 (by norm_num)
      rwa [bin53.zero] at this
    simp only [ex1Oracle, ex1Assess, Arr.idx, List.getElem?_cons_zero, List.getElem?_cons_succ, Res.ofOption_some, Res.ok_bind,
      a1, a2, Scalar.gt, Fl.lt_eq, Fl.zero_val, lt_self_iff_false, decide_false, Bool.false_eq_true, if_false,
      not_lt.2 a3, not_lt.2 a4]
  · rintro ⟨h, -⟩
    have : (3 : ℝ) + (2 : ℝ) ^ (-60 : ℤ) + 0 ≤ 3 := h
    norm_num at this

/-- a disc of radius `√10` around the point `(3, 2⁻⁶⁰)` in `f64` -/
noncomputable def flDisc : Ell (Fl bin53) :=
  ⟨false, ⟨[⟨1⟩, ⟨0⟩, ⟨0⟩, ⟨1⟩], 2, 2⟩, ⟨[⟨3⟩, ⟨(2 : ℝ) ^ (-60 : ℤ)⟩], 2, 0⟩, ⟨10⟩, EllCalc.new 2, 0⟩

/-- every run of example1 from there, in `f64`, with any options, ends with a point satisfying the constraints up to
`8 · 2⁻⁵³ (1 + |x| + |y|)` or with none -/
example (opts : Options (Fl bin53)) : ∃ r k γ' w' s',
    cuttingPlaneOptim ex1Oracle Ell.space () flDisc 0 opts = .ok ((r, k), γ', w', s') ∧ 0 ≤ γ'.val ∧ (r = none → γ' = 0) ∧
      ∀ x, r = some x → x.IsVecShape 2 ∧ x.flVec 2 ∈ ex1With (-err2 ((2 : ℝ) ^ (-53 : ℤ)) (x.flVec 2)) ∧
        |γ'.val - (x.flVec 2 0 + x.flVec 2 1)| ≤ err2 ((2 : ℝ) ^ (-53 : ℤ)) (x.flVec 2) :=
  C86_optim_run (C86_ell_steady (by norm_num)).1 (C86_example1 u53_small Loss.r3) 0 opts trivial
    ⟨⟨rfl, rfl, rfl⟩, rfl, rfl, rfl⟩

/-- and the target problem of example3, with target `-1000` -/
example (opts : Options (Fl bin53)) : ∃ r k w' s',
    cuttingPlaneFeas Ex3.oracle Ell.space (⟨-1, ⟨-1000⟩⟩ : Ex3 (Fl bin53)) flDisc opts = .ok ((r, k), w', s') ∧
      ∀ x, r = some x → x.IsVecShape 2 ∧ x.flVec 2 ∈ ex3With (-1000)
        (-(2 * err2 (2 ^ (-53 : ℤ)) (x.flVec 2) + 2 ^ (-53 : ℤ) * |(-1000 : ℝ)|)) :=
  C86_feas_run (C86_ell_steady (by norm_num)).1 (C86_example3 u53_small Loss.r3 ⟨-1000⟩) opts ⟨le_rfl, by norm_num, rfl⟩
    ⟨⟨rfl, rfl, rfl⟩, rfl, rfl, rfl⟩

end Ellalgo
