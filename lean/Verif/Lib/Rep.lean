import Verif.Model.Arr
import Verif.Lib.Loop
import Mathlib.Tactic.Ring
import Mathlib.Tactic.Linarith

/-! Representation of vectors and matrices by flat row-major lists. -/

namespace Ellalgo
variable {α : Type}

/-- `a` is a vector of length `n` with entries `v i`. -/
structure IsVec (a : Arr α) (n : Nat) (v : Nat → α) : Prop where
  rows : a.rows = n
  cols : a.cols = 0
  len : a.data.length = n
  get : ∀ i, i < n → a.data[i]? = some (v i)

/-- `a` is an `r × c` matrix with entries `m i j`. -/
structure IsMat (a : Arr α) (r c : Nat) (m : Nat → Nat → α) : Prop where
  rows : a.rows = r
  cols : a.cols = c
  len : a.data.length = r * c
  get : ∀ i j, i < r → j < c → a.data[i * c + j]? = some (m i j)

/-- entry `i` of a vector (0 outside) -/
def Arr.vec [Zero α] (a : Arr α) (i : Nat) : α := a.data.getD i 0
/-- entry `(i,j)` of a matrix (0 outside the stored data) -/
def Arr.mat [Zero α] (a : Arr α) (i j : Nat) : α := a.data.getD (i * a.cols + j) 0

/-- shape predicate of a vector -/
def Arr.IsVecShape (a : Arr α) (n : Nat) : Prop := a.rows = n ∧ a.cols = 0 ∧ a.data.length = n
/-- shape predicate of a matrix -/
def Arr.IsMatShape (a : Arr α) (r c : Nat) : Prop := a.rows = r ∧ a.cols = c ∧ a.data.length = r * c

theorem rm_lt {r c i j : Nat} (hi : i < r) (hj : j < c) : i * c + j < r * c := by
  calc i * c + j < i * c + c := by omega
    _ = (i + 1) * c := by ring
    _ ≤ r * c := Nat.mul_le_mul_right _ hi

theorem rm_inj {c i j i' j' : Nat} (hj : j < c) (hj' : j' < c) (h : i * c + j = i' * c + j') :
    i = i' ∧ j = j' := by
  have h1 : i = i' := by
    have e1 : (i * c + j) / c = i := by
      rw [Nat.add_comm, Nat.add_mul_div_right _ _ (by omega), Nat.div_eq_of_lt hj, Nat.zero_add]
    have e2 : (i' * c + j') / c = i' := by
      rw [Nat.add_comm, Nat.add_mul_div_right _ _ (by omega), Nat.div_eq_of_lt hj', Nat.zero_add]
    rw [← e1, h, e2]
  subst h1
  exact ⟨rfl, by omega⟩

/-- pointwise update of a function of two indices -/
def upd2 (m : Nat → Nat → α) (i j : Nat) (x : α) : Nat → Nat → α :=
  fun a b => if a = i ∧ b = j then x else m a b

/-- pointwise update of a function of one index -/
def upd1 (v : Nat → α) (i : Nat) (x : α) : Nat → α := fun a => if a = i then x else v a

theorem IsVec.congr {a : Arr α} {n : Nat} {v w : Nat → α} (h : IsVec a n v) (hw : ∀ i < n, v i = w i) :
    IsVec a n w :=
  ⟨h.rows, h.cols, h.len, fun i hi => by rw [h.get i hi, hw i hi]⟩

theorem IsMat.congr {a : Arr α} {r c : Nat} {m m' : Nat → Nat → α} (h : IsMat a r c m)
    (hw : ∀ i j, i < r → j < c → m i j = m' i j) : IsMat a r c m' :=
  ⟨h.rows, h.cols, h.len, fun i j hi hj => by rw [h.get i j hi hj, hw i j hi hj]⟩

theorem IsVec.vec [Zero α] {a : Arr α} {n : Nat} {v : Nat → α} (h : IsVec a n v) {i : Nat} (hi : i < n) :
    a.vec i = v i := by
  simp [Arr.vec, h.get i hi]

theorem IsMat.mat [Zero α] {a : Arr α} {r c : Nat} {m : Nat → Nat → α} (h : IsMat a r c m) {i j : Nat}
    (hi : i < r) (hj : j < c) : a.mat i j = m i j := by
  simp [Arr.mat, h.cols, h.get i j hi hj]

theorem Arr.IsVecShape.isVec [Zero α] {a : Arr α} {n : Nat} (h : a.IsVecShape n) : IsVec a n a.vec :=
  ⟨h.1, h.2.1, h.2.2, fun i hi => by
    have : i < a.data.length := by rw [h.2.2]; exact hi
    simp [Arr.vec, this]⟩

theorem Arr.IsMatShape.isMat [Zero α] {a : Arr α} {r c : Nat} (h : a.IsMatShape r c) :
    IsMat a r c a.mat :=
  ⟨h.1, h.2.1, h.2.2, fun i j hi hj => by
    have : i * c + j < a.data.length := by rw [h.2.2]; exact rm_lt hi hj
    simp [Arr.mat, h.2.1, this]⟩

theorem IsVec.shape {a : Arr α} {n : Nat} {v : Nat → α} (h : IsVec a n v) : a.IsVecShape n :=
  ⟨h.rows, h.cols, h.len⟩
theorem IsMat.shape {a : Arr α} {r c : Nat} {m : Nat → Nat → α} (h : IsMat a r c m) : a.IsMatShape r c :=
  ⟨h.rows, h.cols, h.len⟩

theorem IsVec.is2d {a : Arr α} {n : Nat} {v : Nat → α} (h : IsVec a n v) : a.is2d = false := by
  simp [Arr.is2d, h.cols]
theorem IsMat.is2d {a : Arr α} {r c : Nat} {m : Nat → Nat → α} (h : IsMat a r c m) (hc : 0 < c) :
    a.is2d = true := by
  simp [Arr.is2d, h.cols, hc]

theorem IsVec.len' {a : Arr α} {n : Nat} {v : Nat → α} (h : IsVec a n v) : a.len = n := h.len

theorem IsVec.idx {a : Arr α} {n : Nat} {v : Nat → α} (h : IsVec a n v) {i : Nat} (hi : i < n) :
    a.idx i = .ok (v i) := by
  simp [Arr.idx, h.get i hi]

theorem IsMat.idx {a : Arr α} {r c : Nat} {m : Nat → Nat → α} (h : IsMat a r c m) {i j : Nat}
    (hi : i < r) (hj : j < c) : a.idx (i * c + j) = .ok (m i j) := by
  simp [Arr.idx, h.get i j hi hj]

theorem IsMat.getij {a : Arr α} {r c : Nat} {m : Nat → Nat → α} (h : IsMat a r c m) {i j : Nat}
    (hi : i < r) (hj : j < c) : a.get i j = .ok (m i j) := by
  simp only [Arr.get, h.is2d (by omega), Res.assert_true, Res.ok_bind, h.cols]
  exact h.idx hi hj

theorem IsVec.setIdx {a : Arr α} {n : Nat} {v : Nat → α} (h : IsVec a n v) {i : Nat} (hi : i < n) (x : α) :
    ∃ a', a.setIdx i x = .ok a' ∧ IsVec a' n (upd1 v i x) := by
  refine ⟨{ a with data := a.data.set i x }, ?_, h.rows, h.cols, by simp [h.len], ?_⟩
  · simp [Arr.setIdx, h.len, hi]
  · intro k hk
    simp only [List.getElem?_set, upd1]
    by_cases hik : i = k
    · subst hik; simp [h.len, hi]
    · simp [hik, Ne.symm hik, h.get k hk]

theorem IsMat.setIdx {a : Arr α} {r c : Nat} {m : Nat → Nat → α} (h : IsMat a r c m) {i j : Nat}
    (hi : i < r) (hj : j < c) (x : α) :
    ∃ a', a.setIdx (i * c + j) x = .ok a' ∧ IsMat a' r c (upd2 m i j x) := by
  have hlt := rm_lt hi hj
  refine ⟨{ a with data := a.data.set (i * c + j) x }, ?_, h.rows, h.cols, by simp [h.len], ?_⟩
  · simp [Arr.setIdx, h.len, hlt]
  · intro k l hk hl
    simp only [List.getElem?_set, upd2]
    by_cases hik : i * c + j = k * c + l
    · obtain ⟨rfl, rfl⟩ := rm_inj hj hl hik
      simp [h.len, hlt]
    · have : ¬ (k = i ∧ l = j) := by rintro ⟨rfl, rfl⟩; exact hik rfl
      simp [hik, this, h.get k l hk hl]

theorem IsMat.set {a : Arr α} {r c : Nat} {m : Nat → Nat → α} (h : IsMat a r c m) {i j : Nat}
    (hi : i < r) (hj : j < c) (x : α) :
    ∃ a', a.set i j x = .ok a' ∧ IsMat a' r c (upd2 m i j x) := by
  simp only [Arr.set, h.is2d (by omega), Res.assert_true, Res.ok_bind, h.cols]
  exact h.setIdx hi hj x

theorem IsVec.map {a : Arr α} {n : Nat} {v : Nat → α} (h : IsVec a n v) (f : α → α) :
    IsVec (a.map f) n (fun i => f (v i)) :=
  ⟨h.rows, h.cols, by simp [Arr.map, h.len], fun i hi => by simp [Arr.map, h.get i hi]⟩

theorem IsMat.map {a : Arr α} {r c : Nat} {m : Nat → Nat → α} (h : IsMat a r c m) (f : α → α) :
    IsMat (a.map f) r c (fun i j => f (m i j)) :=
  ⟨h.rows, h.cols, by simp [Arr.map, h.len], fun i j hi hj => by simp [Arr.map, h.get i j hi hj]⟩

theorem IsVec.zipWith {a b : Arr α} {n : Nat} {v w : Nat → α} (ha : IsVec a n v) (hb : IsVec b n w)
    (f : α → α → α) : ∃ c, Arr.zipWith f a b = .ok c ∧ IsVec c n (fun i => f (v i) (w i)) := by
  refine ⟨{ a with data := List.zipWith f a.data b.data }, ?_, ha.rows, ha.cols, ?_, ?_⟩
  · simp [Arr.zipWith, Arr.len, ha.len, hb.len]
  · simp [ha.len, hb.len]
  · intro i hi
    simp [List.getElem?_zipWith, ha.get i hi, hb.get i hi]

theorem IsMat.zipWith {a b : Arr α} {r c : Nat} {m m' : Nat → Nat → α} (ha : IsMat a r c m)
    (hb : IsMat b r c m') (f : α → α → α) :
    ∃ d, Arr.zipWith f a b = .ok d ∧ IsMat d r c (fun i j => f (m i j) (m' i j)) := by
  refine ⟨{ a with data := List.zipWith f a.data b.data }, ?_, ha.rows, ha.cols, ?_, ?_⟩
  · simp [Arr.zipWith, Arr.len, ha.len, hb.len]
  · simp [ha.len, hb.len]
  · intro i j hi hj
    simp [List.getElem?_zipWith, ha.get i j hi hj, hb.get i j hi hj]

section Scalar
variable [Scalar α]

theorem isVec_new (n : Nat) : IsVec (Arr.new n : Arr α) n (fun _ => 0) :=
  ⟨rfl, rfl, by simp [Arr.new], fun i hi => by simp [Arr.new, hi]⟩

theorem isMat_zeros (r c : Nat) : IsMat (Arr.zeros r c : Arr α) r c (fun _ _ => 0) :=
  ⟨rfl, rfl, by simp [Arr.zeros], fun i j hi hj => by simp [Arr.zeros, rm_lt hi hj]⟩

omit [Scalar α] in
theorem isMat_full (r c : Nat) (x : α) : IsMat (Arr.full r c x) r c (fun _ _ => x) :=
  ⟨rfl, rfl, by simp [Arr.full], fun i j hi hj => by simp [Arr.full, rm_lt hi hj]⟩

omit [Scalar α] in
theorem isVec_fromFn (n : Nat) (f : Nat → α) : IsVec (Arr.fromFn n f) n f :=
  ⟨rfl, rfl, by simp [Arr.fromFn], fun i hi => by simp [Arr.fromFn, hi]⟩

theorem dotMv_spec {a x : Arr α} {r c : Nat} {m : Nat → Nat → α} {v : Nat → α}
    (ha : IsMat a r c m) (hx : IsVec x c v) (hc : 0 < c) :
    ∃ y, a.dotMv x = .ok y ∧ IsVec y r (fun i => sumTo c fun j => m i j * v j) := by
  have hrow : ∀ i < r, (forRange 0 a.cols (0 : α) fun j acc => do
      let mm ← a.idx (i * a.cols + j)
      let xj ← x.idx j
      .ok (acc + mm * xj)) = .ok (sumTo c fun j => m i j * v j) := by
    intro i hi
    rw [ha.cols]
    apply forRange_sum
    intro j acc hj
    rw [ha.idx hi hj, hx.idx hj]
    rfl
  refine ⟨⟨(List.range r).map fun i => sumTo c fun j => m i j * v j, r, 0⟩, ?_, rfl, rfl, by simp, ?_⟩
  · unfold Arr.dotMv
    simp only [ha.is2d hc, hx.is2d, Res.assert_true, Res.ok_bind, Bool.not_false, ha.cols, hx.len',
      beq_self_eq_true, ha.rows]
    rw [mapM_range_ok r (v := fun i => sumTo c fun j => m i j * v j)]
    · rfl
    · intro i hi
      have := hrow i hi
      rw [ha.cols] at this
      exact this
  · intro i hi
    simp [hi]

theorem foldl_zipWith_sumTo {l1 l2 : List α} {n : Nat} {v w : Nat → α} (h1 : l1.length = n)
    (h2 : l2.length = n) (hv : ∀ i < n, l1[i]? = some (v i)) (hw : ∀ i < n, l2[i]? = some (w i)) :
    (List.zipWith (· * ·) l1 l2).foldl (· + ·) 0 = sumTo n fun i => v i * w i := by
  have e : List.zipWith (· * ·) l1 l2 = (List.range n).map (fun i => v i * w i) := by
    apply List.ext_getElem?
    intro i
    by_cases hi : i < n
    · simp [List.getElem?_zipWith, hv i hi, hw i hi, hi]
    · have a1 : l1[i]? = none := by simp; omega
      simp [List.getElem?_zipWith, a1]; omega
  rw [e]
  clear e h1 h2 hv hw
  induction n with
  | zero => rfl
  | succ n ih => rw [List.range_succ, List.map_append, List.foldl_append, ih]; rfl

theorem dot_spec {a b : Arr α} {n : Nat} {v w : Nat → α} (ha : IsVec a n v) (hb : IsVec b n w) :
    a.dot b = .ok (sumTo n fun i => v i * w i) := by
  unfold Arr.dot
  simp only [ha.is2d, hb.is2d, Bool.not_false, Bool.and_self, Res.assert_true, Res.ok_bind, ha.len', hb.len',
    beq_self_eq_true]
  rw [foldl_zipWith_sumTo ha.len hb.len ha.get hb.get]

end Scalar
end Ellalgo
