import Verif.Props.StableRounded
import Verif.Lib.Bin53

/-! Cases that meet the hypotheses of C96, in `f64` rounding (`bin53`). -/

namespace Ellalgo.ExStableFl
open Ellalgo Matrix

/-- the unit disc in `f64` -/
noncomputable def disc : EllStable (Fl bin53) :=
  { mq := ⟨[1, 0, 0, 1], 2, 2⟩, xc := ⟨[0, 0], 2, 0⟩, kappa := 1, helper := EllCalc.new 2, tsq := 0 }
/-- gradient `(1, -1)` -/
noncomputable def g : Arr (Fl bin53) := ⟨[⟨1⟩, ⟨-1⟩], 2, 0⟩

theorem u_le : (2 : ℝ) ^ (-53 : ℤ) ≤ 1 / 64 := by norm_num

theorem g_shape : g.IsVecShape 2 := ⟨rfl, rfl, rfl⟩
theorem g_rep : ∀ i, bin53.Rep (g.flVec 2 i) := by
  intro i
  fin_cases i
  · exact bin53.one
  · have := rnd53_rep (-1) 0 (by norm_num)
    show rnd53 (-1) = -1
    simpa using this
theorem g_ne : g.flVec 2 ≠ 0 := fun h => one_ne_zero (α := ℝ) (congrFun h 0)

/-- C96: the unit disc stands for an ellipsoid -/
theorem disc_pos : disc.FlPos 2 := by
  refine ⟨⟨⟨⟨rfl, rfl, rfl⟩, ⟨rfl, rfl, rfl⟩⟩, fun i j hij => ?_⟩, fun i => ?_, fun i => ?_, one_pos, rfl⟩
  · fin_cases i <;> fin_cases j <;> first | rfl | exact absurd rfl hij
  · fin_cases i <;> exact one_pos
  · fin_cases i <;> exact bin53.one

/-- C96 (central step): all hypotheses are met by the unit disc and the gradient `(1, -1)` -/
example : ∃ (r : EllStable ℝ) (gr : Arr ℝ), disc.Reads 2 r ∧ gr.IsVecShape 2 ∧ gr.toVec 2 = g.flVec 2 := by
  obtain ⟨r, hr⟩ := disc_pos.reads
  obtain ⟨gr, h1, h2⟩ := Arr.flVec_real g_shape
  exact ⟨r, gr, hr, h1, h2⟩

/-- C96 (central run): a thousand central cuts in `f64` leave a positive definite matrix -/
example : ∃ tr, EllStable.space.run disc ((List.replicate 1000 (g, (⟨0⟩ : SingleCut (Fl bin53)))).map fun c => (UpdateKind.central, c)) =
    .ok tr ∧ tr.length = 1000 ∧ ∀ p ∈ tr, p.1 = .success ∧ (p.2.mq.flMat 2).PosDef := by
  obtain ⟨tr, h1, h2, h3⟩ := C96_central_run u_le le_rfl (List.replicate 1000 (g, (⟨0⟩ : SingleCut (Fl bin53))))
    (fun c hc => by rw [List.eq_of_mem_replicate hc]; exact ⟨g_shape, g_rep, g_ne⟩) disc disc_pos
  exact ⟨tr, h1, by rw [h2, List.length_replicate], fun p hp => ⟨(h3 p hp).1, (h3 p hp).2.2.1⟩⟩

theorem disc_quad : disc.kappa.val * (g.flVec 2 ⬝ᵥ (disc.mq.flMat 2 *ᵥ g.flVec 2)) = 2 := by
  have h1 : disc.mq.flMat 2 = 1 := by
    ext i j
    fin_cases i <;> fin_cases j <;> rfl
  have h2 : g.flVec 2 0 = 1 := rfl
  have h3 : g.flVec 2 1 = -1 := rfl
  have h4 : disc.kappa.val = 1 := rfl
  rw [h1, one_mulVec, h4]
  simp [dotProduct, Fin.sum_univ_two, h2, h3]
  norm_num

/-- C96 (deep cut): the cut with `β = 1/2` meets the hypotheses and succeeds -/
example (k : UpdateKind) (hk : k = .bias ∨ k = .q) :
    ∃ s', EllStable.space.update k disc (g, SingleCut.mk (⟨1 / 2⟩ : Fl bin53)) = .ok (.success, s') ∧ s'.FlPos 2 := by
  obtain ⟨st, s', h1, -⟩ := C96_stays_diagonal (n := 2) (by norm_num) k disc (g, SingleCut.mk (⟨1 / 2⟩ : Fl bin53)) disc_pos.toFlDiagonal
    g_shape g_rep
  have ht := (C96_tsq_accurate (n := 2) (by norm_num) (by norm_num) k disc (g, SingleCut.mk (⟨1 / 2⟩ : Fl bin53)) disc_pos g_shape g_rep h1).1
  rw [show (g, SingleCut.mk (⟨1 / 2⟩ : Fl bin53)).1 = g from rfl, disc_quad] at ht
  have h2 : 1 ≤ √s'.tsq.val := by
    rw [Real.one_le_sqrt]
    refine le_trans ?_ ht
    norm_num
  obtain ⟨rfl, h3, -⟩ := C96_deep_cut u_le le_rfl k hk disc disc_pos g g_shape g_rep g_ne ⟨1 / 2⟩ (by norm_num) h1 (by
    show (1 / 2 : ℝ) < _
    refine lt_of_lt_of_le ?_ (mul_le_mul_of_nonneg_left h2 (by norm_num))
    norm_num)
  exact ⟨s', h1, h3⟩

/-- C96 (constructors) -/
example : ∃ s, EllStable.newWithScalar (1 : Fl bin53) ⟨[0, 0], 2, 0⟩ = .ok s ∧ s.FlPos 2 :=
  (C96_new (n := 2) ⟨[1, 1], 2, 0⟩ ⟨[0, 0], 2, 0⟩ ⟨rfl, rfl, rfl⟩ ⟨rfl, rfl, rfl⟩ (fun i => by fin_cases i <;> exact one_pos)
    (fun i => by fin_cases i <;> exact bin53.one) 1 one_pos).2

end Ellalgo.ExStableFl
