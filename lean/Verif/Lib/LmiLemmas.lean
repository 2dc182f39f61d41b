import Verif.Spec.Lmi
import Verif.Props.LdltProps

/-! The LMI oracles over ℝ. -/

namespace Ellalgo
open Finset Matrix

theorem nthMat_spec {d n : Nat} {fs : List (Arr ℝ)} (h : SymMats d n fs) {k : Nat} (hk : k < d) :
    nthMat fs k = .ok (fs.getD k (Arr.new 0)) ∧ (fs.getD k (Arr.new 0)).IsMatShape n n ∧
      ((fs.getD k (Arr.new 0)).toMat n n).IsSymm := by
  have hk' : k < fs.length := by rw [h.1]; exact hk
  have hg : fs.getD k (Arr.new 0) = fs[k] := by simp [List.getD, hk']
  rw [hg]
  refine ⟨by simp [nthMat, hk', Res.ofOption], h.2 _ (List.getElem_mem hk')⟩

theorem linMat_apply {d n : Nat} (fs : List (Arr ℝ)) (x : Fin d → ℝ) (i j : Fin n) :
    linMat n fs x i j = ∑ k : Fin d, (fs.getD k (Arr.new 0)).mat i j * x k := by
  simp only [linMat, Matrix.sum_apply, Matrix.smul_apply, matAt, Arr.toMat, Matrix.of_apply, smul_eq_mul]
  exact sum_congr rfl fun k _ => mul_comm _ _

theorem linMat_isSymm {d n : Nat} {fs : List (Arr ℝ)} (h : SymMats d n fs) (x : Fin d → ℝ) :
    (linMat n fs x).IsSymm := by
  ext i j
  rw [Matrix.transpose_apply, linMat_apply, linMat_apply]
  apply sum_congr rfl
  intro k _
  have := (nthMat_spec h k.2).2.2
  have e := congrFun (congrFun this i) j
  change Arr.mat _ j i = Arr.mat _ i j at e
  rw [e]

theorem lmiMat_isSymm {d n : Nat} {fs : List (Arr ℝ)} {b : Arr ℝ} (h : SymMats d n fs)
    (hb : (b.toMat n n).IsSymm) (x : Fin d → ℝ) : (lmiMat n fs b x).IsSymm :=
  hb.sub (linMat_isSymm h x)

/-- subtracting one term after the other -/
theorem forRange_subIco {hi : Nat} {f : Nat → ℝ → Res ℝ} {t : Nat → ℝ} (c : ℝ)
    (h : ∀ i acc, i < hi → f i acc = .ok (acc - t i)) :
    forRange 0 hi c f = .ok (c - ∑ k : Fin hi, t k) := by
  have := forRange_sumIco (Nat.zero_le hi) c (f := f) (t := fun i => - t i)
    (fun i acc _ h2 => by rw [h i acc h2, sub_eq_add_neg])
  rw [this, sum_neg_distrib, ← Finset.range_eq_Ico, Finset.sum_range, sub_eq_add_neg]

theorem LMIOracle.elem_spec {d n : Nat} {fs : List (Arr ℝ)} {b : Arr ℝ} {o : LMIOracle ℝ} {x : Arr ℝ}
    (h : SymMats d n fs) (hb : b.IsMatShape n n) (ho : o.For n fs b) (hx : x.IsVecShape d)
    (i j : Fin n) : o.elem x i j = .ok (lmiMat n fs b (x.toVec d) i j) := by
  unfold LMIOracle.elem
  rw [ho.2.1, hb.isMat.getij i.2 j.2]
  simp only [Res.ok_bind]
  rw [show x.len = d from hx.isVec.len', ho.1]
  rw [forRange_subIco (t := fun k => (fs.getD k (Arr.new 0)).mat i j * x.vec k)]
  · simp only [lmiMat, Matrix.sub_apply, linMat_apply]
    rfl
  · intro k acc hk
    obtain ⟨h1, h2, _⟩ := nthMat_spec h hk
    rw [h1]
    simp only [Res.ok_bind]
    rw [h2.isMat.getij i.2 j.2, hx.isVec.idx hk]
    rfl

theorem LMI0Oracle.elem_spec {d n : Nat} {fs : List (Arr ℝ)} {o : LMI0Oracle ℝ} {x : Arr ℝ}
    (h : SymMats d n fs) (ho : o.For n fs) (hx : x.IsVecShape d)
    (i j : Fin n) : o.elem x i j = .ok (linMat n fs (x.toVec d) i j) := by
  unfold LMI0Oracle.elem
  rw [show x.len = d from hx.isVec.len', ho.1]
  rw [forRange_sumIco (Nat.zero_le d) (t := fun k => (fs.getD k (Arr.new 0)).mat i j * x.vec k)]
  · rw [linMat_apply, zero_add, ← Finset.range_eq_Ico, Finset.sum_range]
    rfl
  · intro k acc _ hk
    obtain ⟨h1, h2, _⟩ := nthMat_spec h hk
    rw [h1]
    simp only [Res.ok_bind]
    rw [h2.isMat.getij i.2 j.2, hx.isVec.idx hk]
    rfl

/-- the gradient loop; `post` is applied to every quadratic form (identity or negation) -/
theorem grad_loop {d : Nat} {q : Nat → ℝ} {f : Nat → Arr ℝ → Res (Arr ℝ)}
    (hf : ∀ k g, k < d → f k g = g.setIdx k (q k)) :
    ∃ g, forRange 0 d (Arr.new d) f = .ok g ∧ g.IsVecShape d ∧ ∀ k : Fin d, g.toVec d k = q k := by
  apply forRange_post (fun k (g : Arr ℝ) => IsVec g d (fun i => if i < k then q i else 0)) (Nat.zero_le d)
  · simpa using isVec_new d
  · intro k g _ hk hg
    obtain ⟨g', h1, h2⟩ := hg.setIdx hk (q k)
    refine ⟨g', by rw [hf k g hk, h1], h2.congr ?_⟩
    intro i hi
    simp only [upd1]
    by_cases hik : i = k
    · subst hik; simp
    · simp [hik, show i < k + 1 ↔ i < k by omega]
  · intro g hg
    refine ⟨hg.shape, fun k => ?_⟩
    rw [hg.toVec]
    simp

theorem lmiGrad_spec {d n : Nat} {fs : List (Arr ℝ)} {m : LDLTMgr ℝ} {v : Fin n → ℝ} (h : SymMats d n fs)
    (hq : ∀ F : Arr ℝ, F.IsMatShape n n → m.symQuad F = .ok (v ⬝ᵥ (F.toMat n n *ᵥ v))) :
    ∃ g, lmiGrad m fs d = .ok g ∧ g.IsVecShape d ∧
      ∀ k : Fin d, g.toVec d k = v ⬝ᵥ (matAt n fs k *ᵥ v) := by
  unfold lmiGrad
  apply grad_loop (q := fun k => v ⬝ᵥ ((fs.getD k (Arr.new 0)).toMat n n *ᵥ v))
  intro k g hk
  obtain ⟨h1, h2, _⟩ := nthMat_spec h hk
  rw [h1]
  simp only [Res.ok_bind]
  rw [hq _ h2]
  rfl

theorem lmi0Grad_spec {d n : Nat} {fs : List (Arr ℝ)} {m : LDLTMgr ℝ} {v : Fin n → ℝ} (h : SymMats d n fs)
    (hq : ∀ F : Arr ℝ, F.IsMatShape n n → m.symQuad F = .ok (v ⬝ᵥ (F.toMat n n *ᵥ v))) :
    ∃ g, lmi0Grad m fs d = .ok g ∧ g.IsVecShape d ∧
      ∀ k : Fin d, g.toVec d k = - (v ⬝ᵥ (matAt n fs k *ᵥ v)) := by
  unfold lmi0Grad
  apply grad_loop (q := fun k => - (v ⬝ᵥ ((fs.getD k (Arr.new 0)).toMat n n *ᵥ v)))
  intro k g hk
  obtain ⟨h1, h2, _⟩ := nthMat_spec h hk
  rw [h1]
  simp only [Res.ok_bind]
  rw [hq _ h2]
  rfl

/-- `vᵀ F(x) v = Σ x_k vᵀ F_k v` -/
theorem quad_linMat {d n : Nat} (fs : List (Arr ℝ)) (x : Fin d → ℝ) (v : Fin n → ℝ) :
    v ⬝ᵥ (linMat n fs x *ᵥ v) = ∑ k, x k * (v ⬝ᵥ (matAt n fs k *ᵥ v)) := by
  rw [linMat, Matrix.sum_mulVec, dotProduct_sum]
  apply sum_congr rfl
  intro k _
  rw [Matrix.smul_mulVec, dotProduct_smul, smul_eq_mul]

theorem grad_dot {d n : Nat} {fs : List (Arr ℝ)} {g x y : Fin d → ℝ} {v : Fin n → ℝ}
    (hg : ∀ k, g k = v ⬝ᵥ (matAt n fs k *ᵥ v)) :
    g ⬝ᵥ (y - x) = v ⬝ᵥ (linMat n fs y *ᵥ v) - v ⬝ᵥ (linMat n fs x *ᵥ v) := by
  rw [quad_linMat, quad_linMat, ← sum_sub_distrib]
  simp only [dotProduct, Pi.sub_apply]
  apply sum_congr rfl
  intro k _
  rw [hg k]; simp only [dotProduct]; ring

end Ellalgo
