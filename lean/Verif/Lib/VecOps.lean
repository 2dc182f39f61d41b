import Verif.Spec.Mat
import Verif.Model.ConjGrad
import Verif.Model.PowerIter

/-! Array operations on well-shaped real arrays, in terms of Mathlib vectors and matrices. -/

namespace Ellalgo
open Matrix

/-- `a` is a vector array holding `v` -/
def RV {n : Nat} (a : Arr ℝ) (v : Fin n → ℝ) : Prop := a.IsVecShape n ∧ a.toVec n = v
/-- `a` is a matrix array holding `A` -/
def RM {r c : Nat} (a : Arr ℝ) (A : Matrix (Fin r) (Fin c) ℝ) : Prop := a.IsMatShape r c ∧ a.toMat r c = A

/-- extension of a finite vector by zero -/
def ext0 {n : Nat} (v : Fin n → ℝ) (i : Nat) : ℝ := if h : i < n then v ⟨i, h⟩ else 0
/-- extension of a finite matrix by zero -/
def ext00 {r c : Nat} (A : Matrix (Fin r) (Fin c) ℝ) (i j : Nat) : ℝ :=
  if h : i < r ∧ j < c then A ⟨i, h.1⟩ ⟨j, h.2⟩ else 0

variable {n r c : Nat} {a b x y : Arr ℝ} {v w : Fin n → ℝ} {A : Matrix (Fin r) (Fin c) ℝ}

@[simp] theorem ext0_fin (v : Fin n → ℝ) (i : Fin n) : ext0 v i = v i := by simp [ext0]
@[simp] theorem ext00_fin (A : Matrix (Fin r) (Fin c) ℝ) (i : Fin r) (j : Fin c) : ext00 A i j = A i j := by
  simp [ext00]

theorem RV.isVec (h : RV a v) : IsVec a n (ext0 v) := by
  refine h.1.isVec.congr fun i hi => ?_
  have := congrFun h.2 ⟨i, hi⟩
  simpa [Arr.toVec, ext0, hi] using this

theorem RV.of_isVec {f : Nat → ℝ} (h : IsVec a n f) (hf : ∀ i : Fin n, f i = v i) : RV a v :=
  ⟨h.shape, by rw [h.toVec]; funext i; exact hf i⟩

theorem RM.isMat {A : Matrix (Fin r) (Fin c) ℝ} (h : RM a A) : IsMat a r c (ext00 A) := by
  refine h.1.isMat.congr fun i j hi hj => ?_
  have := congrFun (congrFun h.2 ⟨i, hi⟩) ⟨j, hj⟩
  simpa [Arr.toMat, ext00, hi, hj] using this

theorem RM.of_isMat {f : Nat → Nat → ℝ} (h : IsMat a r c f) (hf : ∀ (i : Fin r) (j : Fin c), f i j = A i j) :
    RM a A :=
  ⟨h.shape, by rw [h.toMat]; ext i j; exact hf i j⟩

theorem RV.len (h : RV a v) : a.len = n := h.1.2.2

theorem rv_new : RV (Arr.new n : Arr ℝ) (0 : Fin n → ℝ) := RV.of_isVec (isVec_new n) fun _ => rfl

/-- two arrays holding the same vector are equal -/
theorem RV.unique (h : RV a v) (h' : RV b v) : a = b := by
  obtain ⟨⟨h1, h2, h3⟩, h4⟩ := h
  obtain ⟨⟨h1', h2', h3'⟩, h4'⟩ := h'
  cases a; cases b
  simp only at *
  subst h2 h2' h1 h1'
  congr 1
  apply List.ext_getElem (by omega)
  intro i hi hi'
  have := congrFun (h4.trans h4'.symm) ⟨i, by omega⟩
  simpa [Arr.toVec, Arr.vec, hi, hi'] using this

theorem RM.dotMv {v : Fin c → ℝ} (hA : RM a A) (hx : RV x v) (hc : 0 < c) :
    ∃ y, a.dotMv x = .ok y ∧ RV y (A *ᵥ v) := by
  obtain ⟨y, h1, h2⟩ := dotMv_spec hA.isMat hx.isVec hc
  refine ⟨y, h1, RV.of_isVec h2 fun i => ?_⟩
  rw [sumTo_fin]
  simp [Matrix.mulVec, dotProduct]

theorem RV.dot (hx : RV x v) (hy : RV y w) : x.dot y = .ok (v ⬝ᵥ w) := by
  rw [dot_spec hx.isVec hy.isVec, sumTo_fin]
  simp [dotProduct]

theorem RV.sub (hx : RV x v) (hy : RV y w) : ∃ z, x.sub y = .ok z ∧ RV z (v - w) := by
  obtain ⟨z, h1, h2⟩ := hx.isVec.zipWith hy.isVec (· - ·)
  exact ⟨z, h1, RV.of_isVec h2 fun i => by simp⟩

theorem RV.add (hx : RV x v) (hy : RV y w) : ∃ z, x.add y = .ok z ∧ RV z (v + w) := by
  obtain ⟨z, h1, h2⟩ := hx.isVec.zipWith hy.isVec (· + ·)
  exact ⟨z, h1, RV.of_isVec h2 fun i => by simp⟩

theorem RV.smul (hx : RV x v) (s : ℝ) : RV (x.smul s) (s • v) :=
  RV.of_isVec (hx.isVec.map _) fun i => by simp [mul_comm]

theorem RV.divScalar (hx : RV x v) (s : ℝ) : RV (x.divScalar s) (s⁻¹ • v) :=
  RV.of_isVec (hx.isVec.map _) fun i => by simp [mul_comm]

/-- a loop rewriting entry `i` from its old value -/
theorem loop_entry {f : Fin n → ℝ → ℝ} {body : Nat → Arr ℝ → Res (Arr ℝ)} (hy : RV y v)
    (hb : ∀ (i : Fin n) (z : Arr ℝ) (u : Fin n → ℝ), RV z u → body i z = z.setIdx i (f i (u i))) :
    ∃ z, forRange 0 n y body = .ok z ∧ RV z (fun i => f i (v i)) := by
  obtain ⟨z, h1, h2⟩ := forRange_spec (σ := Arr ℝ)
    (fun i z => RV z (fun k : Fin n => if (k : Nat) < i then f k (v k) else v k)) (f := body) (s := y)
    (Nat.zero_le n) (by refine ⟨hy.1, ?_⟩; rw [hy.2]; funext k; simp)
    (by
      intro i z _ hi hz
      rw [hb ⟨i, hi⟩ z _ hz]
      obtain ⟨z', h1, h2⟩ := hz.isVec.setIdx hi (f ⟨i, hi⟩ (if i < i then f ⟨i, hi⟩ (v ⟨i, hi⟩) else v ⟨i, hi⟩))
      refine ⟨z', h1, RV.of_isVec h2 fun k => ?_⟩
      simp only [upd1, ext0_fin, lt_irrefl, if_false]
      by_cases hk : (k : Nat) = i
      · have : k = ⟨i, hi⟩ := Fin.ext hk
        subst this
        simp
      · rw [if_neg hk]
        by_cases hk2 : (k : Nat) < i
        · rw [if_pos hk2, if_pos (by omega)]
        · rw [if_neg hk2, if_neg (by omega)])
  exact ⟨z, h1, h2.1, by rw [h2.2]; funext k; simp⟩

theorem RV.idx (hx : RV x v) (i : Fin n) : x.idx i = .ok (v i) := by
  rw [hx.isVec.idx i.2, ext0_fin]

theorem cgAxpy_spec {d : Arr ℝ} (s : ℝ) (hd : RV d w) (hy : RV y v) :
    ∃ z, cgAxpy n s d y = .ok z ∧ RV z (v + s • w) := by
  obtain ⟨z, h1, h2⟩ := loop_entry (f := fun i t => t + s * w i) hy
    (body := fun i y => do
      let yi ← y.idx i
      let di ← d.idx i
      y.setIdx i (yi + s * di))
    (by intro i z u hz; rw [hz.idx, hd.idx]; rfl)
  exact ⟨z, h1, h2⟩

theorem cgAxmy_spec {d : Arr ℝ} (s : ℝ) (hd : RV d w) (hy : RV y v) :
    ∃ z, cgAxmy n s d y = .ok z ∧ RV z (v - s • w) := by
  obtain ⟨z, h1, h2⟩ := loop_entry (f := fun i t => t - s * w i) hy
    (body := fun i y => do
      let yi ← y.idx i
      let di ← d.idx i
      y.setIdx i (yi - s * di))
    (by intro i z u hz; rw [hz.idx, hd.idx]; rfl)
  exact ⟨z, h1, h2⟩

theorem cgXpay_spec {d : Arr ℝ} (s : ℝ) (hd : RV d w) (hy : RV y v) :
    ∃ z, cgXpay n s d y = .ok z ∧ RV z (w + s • v) := by
  obtain ⟨z, h1, h2⟩ := loop_entry (f := fun i t => w i + s * t) hy
    (body := fun i y => do
      let yi ← d.idx i
      let di ← y.idx i
      y.setIdx i (yi + s * di))
    (by intro i z u hz; rw [hz.idx, hd.idx]; rfl)
  exact ⟨z, h1, h2⟩

theorem foldl_abs_sumTo {l : List ℝ} {n : Nat} {f : Nat → ℝ} (h1 : l.length = n)
    (hf : ∀ i, i < n → l[i]? = some (f i)) :
    (l.map (fun t => |t|)).foldl (· + ·) 0 = ∑ i : Fin n, |f i| := by
  have : l = (List.range n).map f := by
    apply List.ext_getElem (by simp [h1])
    intro i hi hi'
    have := hf i (by omega)
    rw [List.getElem?_eq_getElem hi] at this
    simpa using this
  subst this
  rw [← sumTo_fin n fun i => |f i|]
  clear h1 hf
  induction n with
  | zero => rfl
  | succ n ih => rw [List.range_succ, List.map_append, List.map_append, List.foldl_append, ih]; rfl

theorem RV.normL1 (hx : RV x v) : normL1 x = ∑ i, |v i| := by
  have := foldl_abs_sumTo hx.isVec.len hx.isVec.get
  simp only [ext0_fin] at this
  exact this

end Ellalgo
