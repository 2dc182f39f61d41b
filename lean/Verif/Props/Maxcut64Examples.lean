import Verif.Props.Maxcut64

/-! Cases that meet the hypotheses of C127. -/

namespace Ellalgo.ExMax64
open Ellalgo Matrix

/-- a triangle with edges of weight 1 -/
noncomputable def tri : MaxcutOracle B64 := ⟨⟨[0, 1, 1, 1, 0, 1, 1, 1, 0], 3, 3⟩, 3⟩

theorem one_val : (1 : B64).Finite ∧ (1 : B64).val = 1 := ⟨Same.one.1, Same.one.2⟩

theorem one_small : (1 : B64).Small 968 := ⟨one_val.1, by
  rw [one_val.2, abs_one]
  exact one_le_zpow₀ (by norm_num) (by norm_num)⟩

theorem tri_for : tri.For64 3 := ⟨⟨rfl, rfl, rfl⟩, rfl, by
  intro a ha
  simp only [tri, List.mem_cons, List.mem_nil_iff, or_false] at ha
  rcases ha with rfl | rfl | rfl | rfl | rfl | rfl | rfl | rfl | rfl <;>
    first | exact B64.Small.zero_small _ | exact one_small⟩

theorem tri_mat : tri.weights.rect64 3 3 = !![0, 1, 1; 1, 0, 1; 1, 1, 0] := by
  ext i j
  fin_cases i <;> fin_cases j <;> first | exact one_val.2 | rfl

theorem tri_int : IntWeights (tri.weights.rect64 3 3) 1 := by
  refine ⟨fun i j => ?_, by norm_num⟩
  rw [tri_mat]
  fin_cases i <;> fin_cases j <;> first | (refine ⟨0, ?_, by simp⟩; simp; done) | (refine ⟨1, ?_, by simp⟩; simp; done)

/-- a vector with a NaN: vertex 1 is alone on its side -/
noncomputable def xnan : Arr B64 := ⟨[1, .nan, 0], 3, 0⟩

theorem xnan_side : xnan.side64 3 = ![1, -1, 1] := by
  have h1 : Scalar.ge (1 : B64) 0 = true := by
    rw [Same.one.ge Same.zero]
    exact decide_eq_true (by show (0 : ℝ) ≤ 1; norm_num)
  have h0 : Scalar.ge (0 : B64) 0 = true := by
    rw [Same.zero.ge Same.zero]
    exact decide_eq_true (le_refl (0 : ℝ))
  funext i
  fin_cases i
  · exact if_pos h1
  · exact if_neg Bool.false_ne_true
  · exact if_pos h0

/-- C127: the cut chosen by a vector with a NaN has weight exactly 2, and from `-∞` this is an improvement -/
example : ∃ (g : Arr B64) (beta : B64) (shrunk : Bool) (γ' v : B64), MaxcutOracle.oracle.assess tri xnan (.inf true) = .ok (((g, ⟨beta⟩), shrunk), γ', tri) ∧ v.val = 2 ∧
    shrunk = Scalar.gt v (.inf true) ∧ (g.vec 1).val = -4 := by
  obtain ⟨g, beta, sh, γ', v, h1, -, -, h2, -, -, -, -, h3⟩ := C127_maxcut_query (n := 3) tri tri_for xnan ⟨rfl, rfl, rfl⟩ (.inf true)
  obtain ⟨a1, a2⟩ := h3 1 tri_int
  rw [tri_mat, xnan_side] at a1 a2
  refine ⟨g, beta, sh, γ', v, h1, ?_, h2, ?_⟩
  · rw [a1]
    simp [cutWeight, onLeft, Fin.sum_univ_three]
    norm_num
  · rw [show (g.vec 1).val = (g.vec ((1 : Fin 3) : Nat)).val from rfl, a2]
    simp [crossingAt, onLeft, Fin.sum_univ_three]
    norm_num

/-- C127: runs from any ellipsoid of dimension 3 and any starting value -/
example (e : Ell B64) (he : e.Shaped 3) (γ : B64) (opts : Options B64) :
    ∃ r k γ' s', cuttingPlaneOptim MaxcutOracle.oracle Ell.space tri e γ opts = .ok ((r, k), γ', tri, s') ∧
      ∀ x, r = some x → γ'.val = cutWeight !![0, 1, 1; 1, 0, 1; 1, 1, 0] (x.side64 3) := by
  obtain ⟨r, k, γ', s', h1, -, h2⟩ := C127_maxcut_run (C86_ell_steady (by norm_num)).1 tri tri_for he γ opts
  refine ⟨r, k, γ', s', h1, fun x hx => ?_⟩
  obtain ⟨-, -, -, -, h3⟩ := h2 x hx
  have := h3 1 tri_int
  rwa [tri_mat] at this

end Ellalgo.ExMax64
