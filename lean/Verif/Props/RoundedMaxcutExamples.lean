import Verif.Props.RoundedMaxcut
import Verif.Props.RoundedPlaneExamples

/-! Property C94: the hypotheses are met in `f64`, and without the error term the claim is false. -/

namespace Ellalgo
open Matrix

/-- three vertices, edges `{0,1}` of weight `a` and `{0,2}` of weight `b` -/
noncomputable def twoEdges (a b : ℝ) : MaxcutOracle (Fl bin53) :=
  ⟨⟨[⟨0⟩, ⟨a⟩, ⟨b⟩, ⟨a⟩, ⟨0⟩, ⟨0⟩, ⟨b⟩, ⟨0⟩, ⟨0⟩], 3, 3⟩, 3⟩

theorem twoEdges_for (a b : ℝ) : (twoEdges a b).FlFor 3 := ⟨⟨rfl, rfl, rfl⟩, rfl⟩

theorem twoEdges_new (a b : ℝ) : MaxcutOracle.new (twoEdges a b).weights = .ok (twoEdges a b) := rfl

theorem twoEdges_mat (a b : ℝ) : (twoEdges a b).weights.flRect 3 3 = !![0, a, b; a, 0, 0; b, 0, 0] := by
  ext i j
  fin_cases i <;> fin_cases j <;> rfl

theorem rnd_above_one : bin53.rnd (1 + (2 : ℝ) ^ (-60 : ℤ)) = 1 := by
  have h := rnd53_eq (x := 1 + (2 : ℝ) ^ (-60 : ℤ)) 0 (2 ^ 52) (by norm_num [abs_of_pos]) (by norm_num [abs_of_pos])
    (by norm_num [abs_lt])
  show rnd53 _ = _
  rw [h]; norm_num

/-- **C94** (why an error term)  In `f64` the oracle reports weight 1 for the cut separating vertex 0, whose true weight is
`1 + 2⁻⁶⁰`. -/
theorem C94_exact_weight_fails : ∃ (x : Arr (Fl bin53)) (c : Arr (Fl bin53) × SingleCut (Fl bin53)), x.IsVecShape 3 ∧
    (∀ i, bin53.Rep (x.flVec 3 i)) ∧ (∀ i j, bin53.Rep ((twoEdges 1 (2 ^ (-60 : ℤ))).weights.flRect 3 3 i j)) ∧
    MaxcutOracle.oracle.assess (twoEdges 1 (2 ^ (-60 : ℤ))) x 0 = .ok ((c, true), 1, twoEdges 1 (2 ^ (-60 : ℤ))) ∧
    1 < cutWeight ((twoEdges 1 (2 ^ (-60 : ℤ))).weights.flRect 3 3) (x.flVec 3) := by
  classical
  set o := twoEdges 1 (2 ^ (-60 : ℤ)) with ho
  set x : Arr (Fl bin53) := ⟨[⟨1⟩, ⟨-1⟩, ⟨-1⟩], 3, 0⟩ with hxd
  have hx : x.IsVecShape 3 := ⟨rfl, rfl, rfl⟩
  have hvec : x.flVec 3 = ![1, -1, -1] := by funext i; fin_cases i <;> rfl
  have hW := twoEdges_mat 1 (2 ^ (-60 : ℤ))
  have hcut : cutWeight (o.weights.flRect 3 3) (x.flVec 3) = 1 + 2 ^ (-60 : ℤ) := by
    rw [ho, hW, hvec]
    simp [cutWeight, onLeft, Fin.sum_univ_three]
  have hs : maxcutSigns x = x := by
    have h1 : Scalar.ge (⟨1⟩ : Fl bin53) 0 = true := decide_eq_true (by show (0 : ℝ) ≤ 1; norm_num)
    have h2 : Scalar.ge (⟨-1⟩ : Fl bin53) 0 = false := decide_eq_false (by show ¬(0 : ℝ) ≤ -1; norm_num)
    have h3 : (-1 : Fl bin53) = ⟨-1⟩ := rfl
    simp only [hxd, maxcutSigns, Arr.map, List.map_cons, List.map_nil, h1, h2, if_true, Bool.false_eq_true, if_false, h3]
    rfl
  have b1 : Scalar.beq (⟨1⟩ : Fl bin53) ⟨-1⟩ = false := decide_eq_false (by norm_num)
  have b2 : Scalar.beq (⟨-1⟩ : Fl bin53) ⟨-1⟩ = true := decide_eq_true rfl
  have a1 : (0 : Fl bin53) + ⟨1⟩ = ⟨1⟩ := Fl.ext (by show bin53.rnd (0 + 1) = 1; rw [zero_add, bin53.one])
  have a2 : (⟨1⟩ : Fl bin53) + ⟨2 ^ (-60 : ℤ)⟩ = ⟨1⟩ := Fl.ext rnd_above_one
  have x0 : x.idx 0 = .ok ⟨1⟩ := rfl
  have x1 : x.idx 1 = .ok ⟨-1⟩ := rfl
  have x2 : x.idx 2 = .ok ⟨-1⟩ := rfl
  have w1 : o.weights.idx (0 * o.weights.cols + 1) = .ok ⟨1⟩ := rfl
  have w2 : o.weights.idx (0 * o.weights.cols + 2) = .ok ⟨2 ^ (-60 : ℤ)⟩ := rfl
  have hn : o.n = 3 := rfl
  have hv : o.cutValue x = .ok ⟨1⟩ := by
    rw [MaxcutOracle.cutValue, hn]
    simp only [forRange, forN, Nat.sub_zero, Nat.reduceAdd, Nat.reduceSub, x0, x1, x2, w1, w2, Res.ok_bind, b1, b2, a1, a2,
      Bool.not_false, Bool.not_true, if_true, if_false, Bool.false_eq_true]
  obtain ⟨g, hg, -⟩ : ∃ g, o.grad x = .ok g ∧ g.IsVecShape 3 := maxcut_grad_fl (twoEdges_for 1 (2 ^ (-60 : ℤ))) hx
  have hgt : Scalar.gt (⟨1⟩ : Fl bin53) 0 = true := decide_eq_true (by show (0 : ℝ) < 1; norm_num)
  refine ⟨x, (g.neg, ⟨-⟨1⟩⟩), hx, ?_, ?_, ?_, ?_⟩
  · rw [hvec]
    intro i
    fin_cases i
    · exact bin53.one
    · exact Loss.rm1
    · exact Loss.rm1
  · have r0 : bin53.Rep 0 := Loss.r_int 0 0 _ (by norm_num) (by norm_num)
    have r2 : bin53.Rep (2 ^ (-60 : ℤ)) := Loss.r_int 1 (-60) _ (by norm_num) (by norm_num)
    rw [hW]
    intro i j
    fin_cases i <;> fin_cases j <;> first | exact r0 | exact bin53.one | exact r2
  · simp only [MaxcutOracle.oracle, MaxcutOracle.assess, hs, hv, hg, Res.ok_bind, hgt, if_true]
    rfl
  · rw [hcut]
    norm_num

/-- every run in `f64` over any ellipsoid of dimension three, on a graph with integer weights `|a|, |b| ≤ 2⁴⁰`: the reported
weight is exactly that of the returned cut -/
example (a b : ℤ) (ha : |a| ≤ 2 ^ 40) (hb : |b| ≤ 2 ^ 40) (e : Ell (Fl bin53)) (he : e.Shaped 3) (opts : Options (Fl bin53)) :
    ∃ r k γ' s', cuttingPlaneOptim MaxcutOracle.oracle Ell.space (twoEdges a b) e 0 opts = .ok ((r, k), γ', twoEdges a b, s') ∧
      ∀ x, r = some x → 0 < γ'.val ∧ γ'.val = cutWeight !![0, (a : ℝ), b; (a : ℝ), 0, 0; (b : ℝ), 0, 0] (x.flVec 3) := by
  obtain ⟨r, k, γ', s', h1, -, -, h2⟩ := C94_maxcut_run (C86_ell_steady (by norm_num)).1 (twoEdges a b) (twoEdges_for a b) he 0 opts
  refine ⟨r, k, γ', s', h1, fun x hx => ?_⟩
  obtain ⟨-, h3, -, h4⟩ := h2 x hx
  rw [← twoEdges_mat]
  have ha' : |(a : ℝ)| ≤ 2 ^ 40 := by exact_mod_cast ha
  have hb' : |(b : ℝ)| ≤ 2 ^ 40 := by exact_mod_cast hb
  refine ⟨h3, h4 (2 ^ 40) ?_ ?_⟩
  · rw [twoEdges_mat]
    intro i j
    fin_cases i <;> fin_cases j <;>
      first
      | exact ⟨a, rfl, ha'⟩
      | exact ⟨b, rfl, hb'⟩
      | exact ⟨0, by simp, by simp⟩
  · intro k hk
    have hk' : |k| ≤ 9 * 2 ^ 40 := by
      have : |(k : ℝ)| ≤ 9 * 2 ^ 40 := by norm_num at hk ⊢; exact hk
      exact_mod_cast this
    exact Loss.r_int k 0 _ (by simp) (hk'.trans (by norm_num))

end Ellalgo
