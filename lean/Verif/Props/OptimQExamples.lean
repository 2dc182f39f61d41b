import Verif.Props.OptimQ
import Verif.Props.ConvergeExamples
import Mathlib.Algebra.Order.Round

/-! Non-vacuity of C70: maximise `x₀` over the integer points of the disc. -/

namespace Ellalgo.ExR
open Matrix Ellalgo

open Classical in
/-- maximise `x₀` over the points with integer coordinates; the query point is rounded; the offset may be negative -/
noncomputable def maxXI : OracleOptimQ Unit (Arr ℝ) (SingleCut ℝ) ℝ where
  assess _ x γ _ :=
    let v : ℝ := round (x.toVec 2 0)
    let xq : Arr ℝ := ⟨[v, (round (x.toVec 2 1) : ℤ)], 2, 0⟩
    if γ < v then .ok (((gm, ⟨v + 1 - x.toVec 2 0⟩), true, xq, true), v, ())
    else .ok (((gm, ⟨γ - x.toVec 2 0⟩), false, xq, true), γ, ())

/-- integer points better than `γ` -/
def intBetter (γ : ℝ) : Set (Fin 2 → ℝ) := {y | (∃ a b : ℤ, y = ![(a : ℝ), (b : ℝ)]) ∧ γ < y 0}

theorem maxXI_honest : HonestOptimQ 2 maxXI (fun _ _ => True) intBetter := by
  intro w x γ r _ _
  have hx : ∀ γ' : ℝ, (round (x.toVec 2 0) : ℝ) ≤ γ' → x.toVec 2 ∉ intBetter γ' := by
    rintro γ' h ⟨⟨a, b, hab⟩, h2⟩
    rw [hab] at h h2
    simp only [cons_val_zero, round_intCast] at h h2
    linarith
  by_cases h : γ < (round (x.toVec 2 0) : ℝ)
  · refine ⟨gm, ⟨(round (x.toVec 2 0) : ℝ) + 1 - x.toVec 2 0⟩, true, _, true, (round (x.toVec 2 0) : ℝ), (),
      by simp only [maxXI, h, if_true]; rfl, trivial, fun y hy => ⟨hy.1, h.trans hy.2⟩, hx _ le_rfl, gm_shape, gm_ne, by simp, ?_⟩
    rintro y ⟨⟨a, b, rfl⟩, hy⟩
    simp only [cons_val_zero] at hy
    have hy : (round (x.toVec 2 0) : ℝ) + 1 ≤ a := by exact_mod_cast (by exact_mod_cast hy : round (x.toVec 2 0) < a)
    refine ⟨?_, by intro b hb; cases hb⟩
    simp only [gm_dot, Cut.lo_single, UpdateKind.lo_q, Pi.sub_apply, cons_val_zero]
    linarith
  · refine ⟨gm, ⟨γ - x.toVec 2 0⟩, false, _, true, γ, (),
      by simp only [maxXI, h, if_false]; rfl, trivial, le_rfl, hx _ (not_lt.mp h), gm_shape, gm_ne, by simp, ?_⟩
    rintro y ⟨-, hy⟩
    refine ⟨?_, by intro b hb; cases hb⟩
    simp only [gm_dot, Cut.lo_single, UpdateKind.lo_q, Pi.sub_apply]
    linarith

/-- C70: all hypotheses hold for the disc, any limit -/
example (m : Nat) : ∃ xb k γ' w' e', cuttingPlaneOptimQ maxXI Ell.space () disc (-7) ⟨m, 0⟩ = .ok ((xb, k), γ', w', e') ∧
    (k < m → intBetter γ' ∩ disc.region 2 = ∅) := by
  obtain ⟨xb, k, γ', w', e', h, -⟩ := C70_optimQ_better_points_kept maxXI _ _ () disc (-7) ⟨m, 0⟩ maxXI_honest trivial
    disc_valid
  refine ⟨xb, k, γ', w', e', h, fun hk => ?_⟩
  rcases C70_optimQ_early_stop maxXI _ _ () disc (-7) ⟨m, 0⟩ maxXI_honest trivial disc_valid le_rfl xb k γ' w' e' h hk with
    h1 | ⟨w0, x, γ0, r0, g, c, sh, xq, -, -, h1⟩
  · exact h1
  · simp only [maxXI] at h1
    split at h1 <;> simp at h1

end Ellalgo.ExR
