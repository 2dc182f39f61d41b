import Verif.Lib.ArrLemmas
import Verif.Spec.Mat
import Verif.Lib.Toy

/-! C42, C43, C44: the array layer. -/

namespace Ellalgo
open Matrix

/-! ### C42 -/

/-- **C42**.  `dot_mv` is the matrix-vector product, for every shape. -/
theorem C42_dot_mv (r c : Nat) (hc : 0 < c) (a x : Arr ℝ) (ha : a.IsMatShape r c) (hx : x.IsVecShape c) :
    ∃ y, a.dotMv x = .ok y ∧ y.IsVecShape r ∧ y.toVec r = a.toMat r c *ᵥ x.toVec c := by
  obtain ⟨y, h1, h2⟩ := dotMv_spec ha.isMat hx.isVec hc
  refine ⟨y, h1, h2.shape, ?_⟩
  rw [h2.toVec]
  funext i
  simp only [sumTo_fin, mulVec, dotProduct, Arr.toMat, Arr.toVec, of_apply]

/-- **C42**.  `dot` is the inner product. -/
theorem C42_dot (n : Nat) (x y : Arr ℝ) (hx : x.IsVecShape n) (hy : y.IsVecShape n) :
    x.dot y = .ok (x.toVec n ⬝ᵥ y.toVec n) := by
  rw [dot_spec hx.isVec hy.isVec, sumTo_fin]
  rfl

/-- **C42**.  `outer` is `x yᵀ`. -/
theorem C42_outer (m n : Nat) (x y : Arr ℝ) (hx : x.IsVecShape m) (hy : y.IsVecShape n) :
    ∃ a, x.outer y = .ok a ∧ a.IsMatShape m n ∧ a.toMat m n = vecMulVec (x.toVec m) (y.toVec n) := by
  obtain ⟨a, h1, h2⟩ := outer_spec hx.isVec hy.isVec
  refine ⟨a, h1, h2.shape, ?_⟩
  rw [h2.toMat]
  ext i j
  simp [vecMulVec, Arr.toVec]

/-- **C42**.  `rank_one_update` adds `α u uᵀ` to a symmetric matrix. -/
theorem C42_rank_one_update (n : Nat) (hn : 0 < n) (a u : Arr ℝ) (t : ℝ) (ha : a.IsMatShape n n)
    (hs : (a.toMat n n).IsSymm) (hu : u.IsVecShape n) :
    ∃ b, a.rankOneUpdate t u = .ok b ∧ b.IsMatShape n n ∧
      b.toMat n n = a.toMat n n + t • vecMulVec (u.toVec n) (u.toVec n) := by
  obtain ⟨b, h1, h2⟩ := rankOneUpdate_spec ha.isMat hu.isVec t hn
  refine ⟨b, h1, h2.shape, ?_⟩
  rw [h2.toMat]
  ext i j
  have hsij : a.mat i j = a.mat j i := by
    have := congrFun (congrFun hs i) j
    simpa [Arr.toMat, transpose_apply] using this.symm
  simp only [rankOneEntry, of_apply, Matrix.add_apply, Matrix.smul_apply, vecMulVec_apply, Arr.toMat, Arr.toVec, smul_eq_mul]
  split_ifs
  · ring
  · rw [hsij]; ring

/-- **C42**.  `eye`, `from_diag`, `full`, `zeros`: the stated entries. -/
theorem C42_constructors (n : Nat) :
    (∃ a, Arr.eye n = .ok a ∧ a.IsMatShape n n ∧ a.toMat n n = 1) ∧
    (∀ v : Arr ℝ, v.IsVecShape n → ∃ a, Arr.fromDiag v = .ok a ∧ a.IsMatShape n n ∧
      a.toMat n n = diagonal (v.toVec n)) ∧
    (∀ (r c : Nat) (x : ℝ), (Arr.full r c x).IsMatShape r c ∧ (Arr.full r c x).toMat r c = of fun _ _ => x) ∧
    (∀ f : Nat → ℝ, (Arr.fromFn n f).IsVecShape n ∧ (Arr.fromFn n f).toVec n = fun i : Fin n => f i) ∧
    ((Arr.new n : Arr ℝ).IsVecShape n ∧ (Arr.new n : Arr ℝ).toVec n = 0) ∧
    ((Arr.ones n : Arr ℝ).IsVecShape n ∧ (Arr.ones n : Arr ℝ).toVec n = 1) ∧
    (∀ r c : Nat, (Arr.zeros r c : Arr ℝ).IsMatShape r c ∧ (Arr.zeros r c : Arr ℝ).toMat r c = 0) := by
  refine ⟨?_, ?_, ?_, ?_, ?_, ?_, ?_⟩
  · obtain ⟨a, h1, h2⟩ := eye_spec (α := ℝ) n
    refine ⟨a, h1, h2.shape, ?_⟩
    rw [h2.toMat]
    ext i j
    simp [one_apply, Fin.ext_iff]
  · intro v hv
    obtain ⟨a, h1, h2⟩ := fromDiag_spec hv.isVec
    refine ⟨a, h1, h2.shape, ?_⟩
    rw [h2.toMat]
    ext i j
    simp [diagonal_apply, Fin.ext_iff, Arr.toVec]
  · intro r c x
    exact ⟨(isMat_full r c x).shape, (isMat_full r c x).toMat⟩
  · intro f
    exact ⟨(isVec_fromFn n f).shape, (isVec_fromFn n f).toVec⟩
  · exact ⟨(isVec_new n).shape, (isVec_new n).toVec⟩
  · have : IsVec (Arr.ones n : Arr ℝ) n (fun _ => 1) :=
      ⟨rfl, rfl, by simp [Arr.ones], fun i hi => by simp [Arr.ones, hi]⟩
    exact ⟨this.shape, this.toVec⟩
  · intro r c
    exact ⟨(isMat_zeros r c).shape, (isMat_zeros r c).toMat⟩

/-- **C42**.  Element-wise and scalar operations on matrices. -/
theorem C42_elementwise_mat (r c : Nat) (a b : Arr ℝ) (s : ℝ) (ha : a.IsMatShape r c) (hb : b.IsMatShape r c) :
    (∃ d, a.add b = .ok d ∧ d.IsMatShape r c ∧ d.toMat r c = a.toMat r c + b.toMat r c) ∧
    (∃ d, a.sub b = .ok d ∧ d.IsMatShape r c ∧ d.toMat r c = a.toMat r c - b.toMat r c) ∧
    (∃ d, a.mul b = .ok d ∧ d.IsMatShape r c ∧ d.toMat r c = a.toMat r c ⊙ b.toMat r c) ∧
    ((a.smul s).IsMatShape r c ∧ (a.smul s).toMat r c = s • a.toMat r c) ∧
    ((a.divScalar s).IsMatShape r c ∧ (a.divScalar s).toMat r c = s⁻¹ • a.toMat r c) ∧
    (a.neg.IsMatShape r c ∧ a.neg.toMat r c = -a.toMat r c) ∧
    ((a.addScalar s).IsMatShape r c ∧ (a.addScalar s).toMat r c = a.toMat r c + of fun _ _ => s) ∧
    ((a.subScalar s).IsMatShape r c ∧ (a.subScalar s).toMat r c = a.toMat r c - of fun _ _ => s) := by
  refine ⟨?_, ?_, ?_, ?_, ?_, ?_, ?_, ?_⟩
  · obtain ⟨d, h1, h2⟩ := ha.isMat.zipWith hb.isMat (· + ·)
    exact ⟨d, h1, h2.shape, by rw [h2.toMat]; rfl⟩
  · obtain ⟨d, h1, h2⟩ := ha.isMat.zipWith hb.isMat (· - ·)
    exact ⟨d, h1, h2.shape, by rw [h2.toMat]; rfl⟩
  · obtain ⟨d, h1, h2⟩ := ha.isMat.zipWith hb.isMat (· * ·)
    exact ⟨d, h1, h2.shape, by rw [h2.toMat]; rfl⟩
  · have := ha.isMat.map (· * s)
    exact ⟨this.shape, by rw [Arr.smul, this.toMat]; ext i j; simp [Arr.toMat, mul_comm]⟩
  · have := ha.isMat.map (· * (1 / s))
    exact ⟨this.shape, by rw [Arr.divScalar, this.toMat]; ext i j; simp [Arr.toMat, mul_comm]⟩
  · have := ha.isMat.map (- ·)
    exact ⟨this.shape, by rw [Arr.neg, this.toMat]; rfl⟩
  · have := ha.isMat.map (· + s)
    exact ⟨this.shape, by rw [Arr.addScalar, this.toMat]; rfl⟩
  · have := ha.isMat.map (· - s)
    exact ⟨this.shape, by rw [Arr.subScalar, this.toMat]; rfl⟩

/-- **C42**.  Element-wise and scalar operations on vectors, and `sum`. -/
theorem C42_elementwise_vec (n : Nat) (a b : Arr ℝ) (s : ℝ) (ha : a.IsVecShape n) (hb : b.IsVecShape n) :
    (∃ d, a.add b = .ok d ∧ d.IsVecShape n ∧ d.toVec n = a.toVec n + b.toVec n) ∧
    (∃ d, a.sub b = .ok d ∧ d.IsVecShape n ∧ d.toVec n = a.toVec n - b.toVec n) ∧
    (∃ d, a.mul b = .ok d ∧ d.IsVecShape n ∧ d.toVec n = a.toVec n * b.toVec n) ∧
    ((a.smul s).IsVecShape n ∧ (a.smul s).toVec n = s • a.toVec n) ∧
    ((a.divScalar s).IsVecShape n ∧ (a.divScalar s).toVec n = s⁻¹ • a.toVec n) ∧
    (a.neg.IsVecShape n ∧ a.neg.toVec n = -a.toVec n) ∧
    a.sum = ∑ i, a.toVec n i := by
  refine ⟨?_, ?_, ?_, ?_, ?_, ?_, ?_⟩
  · obtain ⟨d, h1, h2⟩ := ha.isVec.zipWith hb.isVec (· + ·)
    exact ⟨d, h1, h2.shape, by rw [h2.toVec]; rfl⟩
  · obtain ⟨d, h1, h2⟩ := ha.isVec.zipWith hb.isVec (· - ·)
    exact ⟨d, h1, h2.shape, by rw [h2.toVec]; rfl⟩
  · obtain ⟨d, h1, h2⟩ := ha.isVec.zipWith hb.isVec (· * ·)
    exact ⟨d, h1, h2.shape, by rw [h2.toVec]; rfl⟩
  · have := ha.isVec.map (· * s)
    exact ⟨this.shape, by rw [Arr.smul, this.toVec]; ext i; simp [Arr.toVec, mul_comm]⟩
  · have := ha.isVec.map (· * (1 / s))
    exact ⟨this.shape, by rw [Arr.divScalar, this.toVec]; ext i; simp [Arr.toVec, mul_comm]⟩
  · have := ha.isVec.map (- ·)
    exact ⟨this.shape, by rw [Arr.neg, this.toVec]; rfl⟩
  · unfold Arr.sum
    have : a.data = (List.range n).map a.vec := by
      apply List.ext_getElem?
      intro i
      by_cases hi : i < n
      · rw [ha.isVec.get i hi]; simp [hi]
      · have h1 : a.data[i]? = none := by simp [ha.2.2]; omega
        rw [h1]; simp; omega
    rw [this]
    simp only [Arr.toVec]
    rw [← sumTo_fin]
    clear this
    have : ∀ k, (List.map a.vec (List.range k)).foldl (· + ·) 0 = sumTo k a.vec := by
      intro k
      induction k with
      | zero => rfl
      | succ k ih => rw [List.range_succ, List.map_append, List.foldl_append, ih]; rfl
    exact this n

/-- **C42**.  `arr::cos/ln/abs/exp/sqrt` apply the function to every entry and keep the shape. -/
theorem C42_pointwise_functions (f : ℝ → ℝ) :
    (∀ (n : Nat) (a : Arr ℝ), a.IsVecShape n → ∃ y, a.mapFn f = .ok y ∧ y.IsVecShape n ∧
      y.toVec n = fun i => f (a.toVec n i)) ∧
    (∀ (r c : Nat) (a : Arr ℝ), 0 < c → a.IsMatShape r c → ∃ y, a.mapFn f = .ok y ∧ y.IsMatShape r c ∧
      y.toMat r c = (a.toMat r c).map f) := by
  constructor
  · intro n a ha
    obtain ⟨y, h1, h2⟩ := mapFn_vec_spec ha.isVec f
    exact ⟨y, h1, h2.shape, by rw [h2.toVec]; rfl⟩
  · intro r c a hc ha
    obtain ⟨y, h1, h2⟩ := mapFn_mat_spec ha.isMat hc f
    exact ⟨y, h1, h2.shape, by rw [h2.toMat]; rfl⟩

/-- **C42**.  Which function each of `arr::cos`, `ln`, `abs`, `exp`, `sqrt` applies. -/
theorem C42_named_functions {n : Nat} (a : Arr ℝ) (ha : a.IsVecShape n) :
    (∃ y, a.cos = .ok y ∧ y.IsVecShape n ∧ ∀ i, y.toVec n i = Real.cos (a.toVec n i)) ∧
    (∃ y, a.ln = .ok y ∧ y.IsVecShape n ∧ ∀ i, y.toVec n i = Real.log (a.toVec n i)) ∧
    (∃ y, a.abs = .ok y ∧ y.IsVecShape n ∧ ∀ i, y.toVec n i = |a.toVec n i|) ∧
    (∃ y, a.exp = .ok y ∧ y.IsVecShape n ∧ ∀ i, y.toVec n i = Real.exp (a.toVec n i)) ∧
    (∃ y, a.sqrt = .ok y ∧ y.IsVecShape n ∧ ∀ i, y.toVec n i = Real.sqrt (a.toVec n i)) := by
  have h : ∀ f : ℝ → ℝ, ∃ y, a.mapFn f = .ok y ∧ y.IsVecShape n ∧ ∀ i, y.toVec n i = f (a.toVec n i) := fun f => by
    obtain ⟨y, h1, h2, h3⟩ := (C42_pointwise_functions f).1 n a ha
    exact ⟨y, h1, h2, fun i => congrFun h3 i⟩
  exact ⟨h _, h _, h _, h _, h _⟩

/-- **C42**.  `from_shape_vec` accepts exactly the data of the right length, and stores it row by row. -/
theorem C42_from_shape_vec (r c : Nat) (data : List ℝ) :
    (data.length ≠ r * c → Arr.fromShapeVec r c data = .panic) ∧
    (data.length = r * c → ∃ a, Arr.fromShapeVec r c data = .ok a ∧ a.IsMatShape r c ∧
      ∀ (i : Fin r) (j : Fin c), data[i.1 * c + j.1]? = some (a.toMat r c i j)) := by
  refine ⟨fun h => ?_, fun h => ?_⟩
  · have hz : (data.length == r * c) = false := by simpa using h
    unfold Arr.fromShapeVec
    rw [hz]; rfl
  · refine ⟨⟨data, r, c⟩, ?_, ⟨rfl, rfl, h⟩, fun i j => ?_⟩
    · have hz : (data.length == r * c) = true := by simpa using h
      unfold Arr.fromShapeVec
      rw [hz]; rfl
    · have hlt : i.1 * c + j.1 < data.length := by rw [h]; exact rm_lt i.2 j.2
      simp [Arr.toMat, Arr.mat, List.getElem?_eq_getElem hlt]

/-- six numbers make a 2 by 3 matrix; five do not -/
example : (∃ a : Arr ℝ, Arr.fromShapeVec 2 3 [1, 2, 3, 4, 5, 6] = .ok a) ∧
    (Arr.fromShapeVec 2 3 [1, 2, 3, 4, 5] : Res (Arr ℝ)) = .panic :=
  ⟨by obtain ⟨a, h, -⟩ := (C42_from_shape_vec 2 3 [1, 2, 3, 4, 5, 6]).2 rfl; exact ⟨a, h⟩,
    (C42_from_shape_vec 2 3 [1, 2, 3, 4, 5]).1 (by decide)⟩

/-- **C42**.  Operands of different sizes are refused: the element-wise operators, `copy_from`, `dot`,
`dot_mv` and `rank_one_update` panic instead of computing on a common prefix; so do `dot`, `outer` and
`dot_mv` on arguments of the wrong rank. -/
theorem C42_mismatch_panics {α : Type} [Scalar α] (a b : Arr α) (t : α) :
    (a.data.length ≠ b.data.length →
      a.add b = .panic ∧ a.sub b = .panic ∧ a.mul b = .panic ∧ a.copyFrom b = .panic ∧ a.dot b = .panic) ∧
    (a.cols ≠ b.data.length → a.dotMv b = .panic) ∧
    (a.rows ≠ b.data.length → a.rankOneUpdate t b = .panic) ∧
    (0 < a.cols ∨ 0 < b.cols → a.dot b = .panic ∧ a.outer b = .panic) ∧
    (a.cols = 0 ∨ 0 < b.cols → a.dotMv b = .panic ∧ a.rankOneUpdate t b = .panic) := by
  have hA : ∀ {β : Type} (c : Bool) (f : Unit → Res β), (c = true → f () = .panic) →
      (Res.assert c >>= f) = .panic := by
    intro β c f h
    cases c
    · rfl
    · exact h rfl
  refine ⟨fun h => ?_, fun h => ?_, fun h => ?_, fun h => ?_, fun h => ?_⟩
  · have hz : (a.len == b.len) = false := by simpa [Arr.len] using h
    refine ⟨?_, ?_, ?_, ?_, ?_⟩
    · simp only [Arr.add, Arr.zipWith, hz]; rfl
    · simp only [Arr.sub, Arr.zipWith, hz]; rfl
    · simp only [Arr.mul, Arr.zipWith, hz]; rfl
    · simp only [Arr.copyFrom, hz]; rfl
    · exact hA _ _ fun _ => by rw [hz]; rfl
  · have hz : (a.cols == b.len) = false := by simpa [Arr.len] using h
    exact hA _ _ fun _ => hA _ _ fun _ => by rw [hz]; rfl
  · have hz : (a.rows == b.len) = false := by simpa [Arr.len] using h
    exact hA _ _ fun _ => hA _ _ fun _ => by simp only [hz]; rfl
  · have hz : (!a.is2d && !b.is2d) = false := by
      rcases h with h | h <;> simp [Arr.is2d, h]
    constructor
    · unfold Arr.dot; rw [hz]; rfl
    · unfold Arr.outer; rw [hz]; rfl
  · have hz : a.is2d = true → (!b.is2d) = false := by
      rcases h with h | h <;> simp [Arr.is2d, h]
    constructor
    · exact hA _ _ fun h1 => by rw [hz h1]; rfl
    · exact hA _ _ fun h1 => by rw [hz h1]; rfl

open Toy in
/-- The premises occur: a 2-vector and a 3-vector, and a 2×2 matrix. -/
example : (Arr.ofList [1, 2] : Arr Int).data.length ≠ (Arr.ofList [1, 2, 3] : Arr Int).data.length ∧
    0 < (Arr.zeros 2 2 : Arr Int).cols ∧ (Arr.zeros 2 2 : Arr Int).rows ≠ (Arr.ofList [1, 2, 3] : Arr Int).data.length := by
  decide

/-! ### C43 -/
section Generic
variable {α : Type} [Scalar α]

/-- **C43**.  `set(i,j,v)` in range succeeds, and a later in-range `get(i',j')` returns `v` exactly at
`(i,j)` and the old value elsewhere. -/
theorem C43_get_after_set (r c : Nat) (a : Arr α) (ha : a.IsMatShape r c) (i j : Nat) (hi : i < r)
    (hj : j < c) (v : α) :
    ∃ b, a.set i j v = .ok b ∧ b.IsMatShape r c ∧
      ∀ i' j', i' < r → j' < c →
        b.get i' j' = if i' = i ∧ j' = j then .ok v else a.get i' j' := by
  obtain ⟨b, h1, h2⟩ := ha.isMat.set hi hj v
  refine ⟨b, h1, h2.shape, ?_⟩
  intro i' j' hi' hj'
  rw [h2.getij hi' hj', ha.isMat.getij hi' hj', upd2]
  split_ifs <;> rfl

/-- **C43**.  Same for vectors with `a[i] = v`, and flat indices out of range panic. -/
theorem C43_vector_access (n : Nat) (a : Arr α) (ha : a.IsVecShape n) (i : Nat) (v : α) :
    (i < n → ∃ b, a.setIdx i v = .ok b ∧ b.IsVecShape n ∧
      ∀ i' < n, b.idx i' = if i' = i then .ok v else a.idx i') ∧
    (n ≤ i → a.setIdx i v = .panic ∧ a.idx i = .panic) := by
  constructor
  · intro hi
    obtain ⟨b, h1, h2⟩ := ha.isVec.setIdx hi v
    refine ⟨b, h1, h2.shape, ?_⟩
    intro i' hi'
    rw [h2.idx hi', ha.isVec.idx hi', upd1]
    split_ifs <;> rfl
  · intro hi
    constructor
    · simp [Arr.setIdx, ha.2.2, hi]
    · have : a.data[i]? = none := by simp [ha.2.2, hi]
      simp [Arr.idx, this]

omit [Scalar α] in
/-- **C43**.  Matrix accesses whose flat index is out of range panic. -/
theorem C43_out_of_range_panics (r c : Nat) (a : Arr α) (ha : a.IsMatShape r c) (i j : Nat) (v : α)
    (h : r ≤ i) : a.get i j = .panic ∧ a.set i j v = .panic ∧ a.row i = .panic := by
  have hge : r * c ≤ i * c + j := le_trans (Nat.mul_le_mul_right c h) (Nat.le_add_right _ _)
  have h0 : a.data[i * c + j]? = none := by simp [ha.2.2, hge]
  have hlt : ¬ i * c + j < r * c := by omega
  refine ⟨?_, ?_, ?_⟩
  · unfold Arr.get
    cases a.is2d <;> simp [Arr.idx, ha.2.1, h0]
  · unfold Arr.set
    cases a.is2d <;> simp [Arr.setIdx, ha.2.1, ha.2.2, hlt]
  · unfold Arr.row
    have : ¬ i < a.rows := by rw [ha.1]; omega
    cases a.is2d <;> simp [this]

omit [Scalar α] in
/-- **C43**.  Two-index access and `row` on a vector panic, for every index, also in range. -/
theorem C43_vector_two_index_panics (n : Nat) (a : Arr α) (ha : a.IsVecShape n) (i j : Nat) (v : α) :
    a.get i j = .panic ∧ a.set i j v = .panic ∧ a.row i = .panic := by
  have h : a.is2d = false := by simp [Arr.is2d, ha.2.1]
  simp [Arr.get, Arr.set, Arr.row, h]

omit [Scalar α] in
/-- **C43**.  On a matrix the tuple index `a[(i, j)]` and `at_mut` do the same as `get` and `set`. -/
theorem C43_tuple_index (r c : Nat) (hc : 0 < c) (a : Arr α) (ha : a.IsMatShape r c) (i j : Nat) (v : α) :
    a.idx2 i j = a.get i j ∧ a.setIdx2 i j v = a.set i j v := by
  have h : a.is2d = true := by simp [Arr.is2d, ha.2.1, hc]
  simp [Arr.get, Arr.set, Arr.idx2, Arr.setIdx2, h]

omit [Scalar α] in
/-- **C43** (limit).  The tuple index does not check that the array is a matrix: on a vector the first
index is ignored, so `a[(i, j)]` is `a[j]` whatever `i` is. -/
theorem C43_tuple_index_on_vector (n : Nat) (a : Arr α) (ha : a.IsVecShape n) (i j : Nat) (v : α) :
    a.idx2 i j = a.idx j ∧ a.setIdx2 i j v = a.setIdx j v := by
  simp [Arr.idx2, Arr.setIdx2, ha.2.1]

omit [Scalar α] in
/-- **C43** (limit).  A column index that is too large is not noticed: it reads and writes the cells of
the following rows. -/
theorem C43_column_overflow_aliases (r c : Nat) (a : Arr α) (ha : a.IsMatShape r c) (i j : Nat) (v : α) :
    a.get i (c + j) = a.get (i + 1) j ∧ a.set i (c + j) v = a.set (i + 1) j v := by
  have h : i * c + (c + j) = (i + 1) * c + j := by ring
  simp only [Arr.get, Arr.set, ha.2.1, h, and_self]

/-- **C43**.  `row(i)` is the `i`-th row. -/
theorem C43_row (r c : Nat) (hc : 0 < c) (a : Arr α) (ha : a.IsMatShape r c) (i : Nat) (hi : i < r) :
    ∃ y, a.row i = .ok y ∧ y.IsVecShape c ∧ ∀ j < c, y.idx j = a.get i j := by
  obtain ⟨y, h1, h2⟩ := row_spec ha.isMat hc hi
  exact ⟨y, h1, h2.shape, fun j hj => by rw [h2.idx hj, ha.isMat.getij hi hj]⟩

end Generic

/-! ### C44 -/

/-- **C44**.  `linspace(a,b,n)`: length `n`; for `n ≥ 2` the points are `a + i (b-a)/(n-1)`, so the first is
`a`, the last is `b` and the spacing is constant; for `n = 1` it is `[a]`. -/
theorem C44_linspace (a b : ℝ) (n : Nat) :
    ∃ y, Arr.linspace a b n = .ok y ∧ y.IsVecShape n ∧
      (1 ≤ n → y.vec 0 = a) ∧
      (2 ≤ n → y.vec (n - 1) = b ∧ ∀ i, i + 1 < n → y.vec (i + 1) - y.vec i = (b - a) / ((n : ℝ) - 1)) := by
  unfold Arr.linspace
  by_cases h0 : n = 0
  · subst h0
    exact ⟨Arr.new 0, rfl, (isVec_new 0).shape, by omega, by omega⟩
  by_cases h1 : n = 1
  · subst h1
    obtain ⟨y, e1, e2⟩ := (isVec_new (α := ℝ) 1).setIdx (i := 0) (by omega) a
    refine ⟨y, ?_, e2.shape, ?_, by omega⟩
    · simpa using e1
    · intro _; rw [e2.vec (by omega)]; rfl
  have hn : 2 ≤ n := by omega
  have hb0 : (n == 0) = false := by simpa using h0
  have hb1 : (n == 1) = false := by simpa using h1
  simp only [hb0, hb1, Bool.false_eq_true, if_false]
  obtain ⟨y, e1, e2⟩ := fillVec_spec (n := n) (fun i => a + (b - a) / nat (n - 1) * nat i)
    (body := fun i (s : Arr ℝ) => s.setIdx i (a + (b - a) / nat (n - 1) * nat i)) (fun _ _ _ _ => rfl)
  have hc : ((n - 1 : ℕ) : ℝ) = (n : ℝ) - 1 := by
    rw [Nat.cast_sub (by omega)]; simp
  have hne : (n : ℝ) - 1 ≠ 0 := by
    have : (2 : ℝ) ≤ n := by exact_mod_cast hn
    linarith
  refine ⟨y, e1, e2.shape, ?_, ?_⟩
  · intro _; rw [e2.vec (by omega)]; simp
  · intro _
    constructor
    · rw [e2.vec (by omega)]
      simp only [hc]
      field_simp
      ring
    · intro i hi
      rw [e2.vec hi, e2.vec (by omega)]
      simp only [hc]
      push_cast
      ring

/-- **C44**.  `arange(a,b)`: `⌊b-a⌋` points `a, a+1, …` (none if `b ≤ a`), each at most `b - 1`, hence
all `< b`. -/
theorem C44_arange (a b : ℝ) :
    ∃ y n, Arr.arange a b = .ok y ∧ y.IsVecShape n ∧ (n : ℤ) = max 0 ⌊b - a⌋ ∧
      ∀ i < n, y.vec i = a + i ∧ y.vec i ≤ b - 1 := by
  unfold Arr.arange
  by_cases h : a < b
  · have hg : Scalar.gt b a = true := by simpa using h
    have hfl : (0 : ℤ) ≤ ⌊b - a⌋ := Int.floor_nonneg.mpr (by linarith)
    simp only [hg, if_true]
    have hU : (Scalar.toUsize (b - a) : ℕ) = ⌊b - a⌋.toNat := rfl
    rw [hU]
    obtain ⟨y, e1, e2⟩ := fillVec_spec (n := ⌊b - a⌋.toNat) (fun i => a + nat i)
      (body := fun i (s : Arr ℝ) => s.setIdx i (a + nat i)) (fun _ _ _ _ => rfl)
    refine ⟨y, _, e1, e2.shape, by omega, ?_⟩
    intro i hi
    rw [e2.vec hi]
    refine ⟨rfl, ?_⟩
    have h1 : ((i : ℤ) + 1) ≤ ⌊b - a⌋ := by omega
    have h2 : (((i : ℤ) + 1 : ℤ) : ℝ) ≤ b - a := Int.le_floor.mp h1
    push_cast at h2
    linarith
  · have hg : Scalar.gt b a = false := by simpa using h
    have hfl : ⌊b - a⌋ ≤ (0 : ℤ) := by
      have : ⌊b - a⌋ ≤ ⌊(0 : ℝ)⌋ := Int.floor_le_floor (by linarith)
      simpa using this
    simp only [hg, Bool.false_eq_true, if_false]
    exact ⟨_, 0, forRange_self 0 _ _, (isVec_new 0).shape, by simp [hfl], by omega⟩

/-! ### Concrete instances -/

/-- a 2×3 matrix and a vector meeting the hypotheses of `C42_dot_mv` -/
example : (⟨[1, 2, 3, 4, 5, 6], 2, 3⟩ : Arr ℝ).IsMatShape 2 3 ∧ (⟨[1, 0, -1], 3, 0⟩ : Arr ℝ).IsVecShape 3 :=
  ⟨⟨rfl, rfl, rfl⟩, ⟨rfl, rfl, rfl⟩⟩
/-- a symmetric non-diagonal matrix meeting the hypotheses of `C42_rank_one_update` -/
example : ((⟨[1, 2, 2, 5], 2, 2⟩ : Arr ℝ).toMat 2 2).IsSymm := by
  ext i j
  fin_cases i <;> fin_cases j <;> rfl
section
open Toy
example : (⟨[1, 2, 3, 4, 5, 6], 2, 3⟩ : Arr Rat).dotMv ⟨[1, 0, -1], 3, 0⟩ |>.bind (fun y => .ok y.data)
    |> (· = .ok [-2, -2]) := by decide +kernel
example : (Arr.linspace (1 : Rat) 2 5 |>.bind (fun y => .ok y.data)) = .ok [1, 5/4, 3/2, 7/4, 2] := by
  decide +kernel
example : (Arr.arange (1 : Rat) (9/2) |>.bind (fun y => .ok y.data)) = .ok [1, 2, 3] := by decide +kernel
end

end Ellalgo
