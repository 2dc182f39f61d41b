import Verif.Spec.RoundedPower
import Verif.Lib.StableNear
import Verif.Model.PowerIter
import Verif.Props.RoundedProps

/-! The pieces of the power iterations in rounded arithmetic. -/

namespace Ellalgo
open Matrix
variable {u : ℝ} {R : Rounding u} {n : Nat}

/-- an array that holds the real vector `v` -/
def RVF (R : Rounding u) (a : Arr (Fl R)) (v : Fin n → ℝ) : Prop := a.IsVecShape n ∧ a.flVec n = v

theorem IsVec.rvf {a : Arr (Fl R)} {f : Nat → Fl R} (h : IsVec a n f) : RVF R a fun i : Fin n => (f i).val :=
  ⟨h.shape, by ext i; show (a.vec i).val = _; rw [h.vec i.2]⟩

theorem RVF.val {a : Arr (Fl R)} {v : Fin n → ℝ} (h : RVF R a v) (i : Fin n) : (a.vec i).val = v i := congrFun h.2 i

theorem dotMvF (hn : 0 < n) {a x : Arr (Fl R)} {v : Fin n → ℝ} (ha : a.IsMatShape n n) (hx : RVF R x v) :
    ∃ y w, a.dotMv x = .ok y ∧ RVF R y w ∧
      ∀ i : Fin n, |w i - (a.flMat n *ᵥ v) i| ≤ ((1 + u) ^ (n + 1) - 1) * (absMat (a.flMat n) *ᵥ fun j => |v j|) i := by
  obtain ⟨y, h1, h2⟩ := dotMv_spec ha.isMat hx.1.isVec hn
  refine ⟨y, _, h1, h2.rvf, fun i => ?_⟩
  have := sumTo_fl_err n (a.mat i) x.vec
  rw [Finset.sum_range, Finset.sum_range] at this
  simp only [hx.val] at this
  exact this

theorem dotF {x y : Arr (Fl R)} {v w : Fin n → ℝ} (hx : RVF R x v) (hy : RVF R y w) :
    ∃ r, x.dot y = .ok r ∧ |r.val - v ⬝ᵥ w| ≤ ((1 + u) ^ (n + 1) - 1) * ∑ i, |v i| * |w i| := by
  obtain ⟨r, h1, h2⟩ := C71_dot_error x y hx.1 hy.1
  rw [hx.2, hy.2] at h2
  exact ⟨r, h1, h2⟩

/-- a sum of squares is computed to full relative accuracy -/
theorem sqsumF (hu : u < 1) {x : Arr (Fl R)} {v : Fin n → ℝ} (hx : RVF R x v) :
    ∃ r, x.dot x = .ok r ∧ Near u (n + 2) r.val (v ⬝ᵥ v) := by
  have h0 := R.unit_nonneg
  refine ⟨_, dot_spec hx.1.isVec hx.1.isVec, ?_⟩
  obtain ⟨h1, h2⟩ := EllStable.sum_near (R := R) hu (p := fun i => x.vec i * x.vec i)
    (q := fun i => (x.vec i).val * (x.vec i).val) n (fun i _ => mul_self_nonneg _) (fun i _ =>
      (Near.rnd (R := R) hu (mul_self_nonneg _)).mono h0 hu (by norm_num) (R.nonneg (mul_self_nonneg _)) (mul_self_nonneg _))
  rw [sumTo_real, Finset.sum_range] at h1
  simp only [hx.val] at h1
  exact h1

theorem dot_self_nonneg' (v : Fin n → ℝ) : 0 ≤ v ⬝ᵥ v := Finset.sum_nonneg fun i _ => mul_self_nonneg _

/-- scaling by a rounded positive number -/
theorem divScalarF {x : Arr (Fl R)} {v : Fin n → ℝ} (hx : RVF R x v) (s : Fl R) :
    RVF R (x.divScalar s) fun i => R.rnd (v i * (1 / s : Fl R).val) := by
  have := (hx.1.isVec.map (· * (1 / s))).rvf
  simp only [Fl.mul_val, hx.val] at this
  exact this

theorem normalize2F (hu : u < 1) {x : Arr (Fl R)} {v : Fin n → ℝ} (hx : RVF R x v) :
    ∃ z w, normalize2 x = .ok z ∧ RVF R z w ∧ (v = 0 → w = 0) ∧
      (v ≠ 0 → Near u (2 * n + 10) (w ⬝ᵥ w) 1 ∧ ∃ c, 0 < c ∧ ∀ i, |w i - c * v i| ≤ u * |c * v i|) := by
  have h0 := R.unit_nonneg
  obtain ⟨r, h1, h2⟩ := sqsumF hu hx
  refine ⟨_, _, by simp only [normalize2, h1, Res.ok_bind]; rfl, divScalarF hx _, ?_, fun hv => ?_⟩
  · rintro rfl
    ext i
    simp [R.zero]
  · have hpos : 0 < v ⬝ᵥ v :=
      lt_of_le_of_ne (dot_self_nonneg' v) (Ne.symm fun h => hv (dotProduct_self_eq_zero.1 h))
    have hs : 0 < √(v ⬝ᵥ v) := Real.sqrt_pos.2 hpos
    have h3 : Near u (n + 2 + 1) (Scalar.sqrt r).val (√(v ⬝ᵥ v)) := (h2.sqrt h0 hu).round hu hs.le
    have h4 : Near u (0 + (n + 2 + 1) + 1) (1 / Scalar.sqrt r : Fl R).val (1 / √(v ⬝ᵥ v)) :=
      ((Near.of_eq rfl).div hu zero_le_one hs h3).round hu (by positivity)
    set c := (1 / Scalar.sqrt r : Fl R).val with hc
    have hc0 : 0 < c := h4.pos hu (by positivity)
    refine ⟨?_, c, hc0, fun i => ?_⟩
    · have hterm : ∀ i, Near u 2 (R.rnd (v i * c) * R.rnd (v i * c)) ((v i * c) * (v i * c)) := by
        intro i
        obtain ⟨sg, hsg, hsg1⟩ : ∃ sg : ℝ, 0 ≤ v i * c * sg ∧ sg * sg = 1 := by
          rcases le_total 0 (v i * c) with h | h
          · exact ⟨1, by simpa using h, by norm_num⟩
          · exact ⟨-1, by simpa using h, by norm_num⟩
        have hz := Near.rnd_mul (R := R) hu hsg
        have := hz.mul hu hsg hsg hz
        rw [show R.rnd (v i * c) * sg * (R.rnd (v i * c) * sg) = R.rnd (v i * c) * R.rnd (v i * c) * (sg * sg) by ring,
          show v i * c * sg * (v i * c * sg) = (v i * c) * (v i * c) * (sg * sg) by ring, hsg1, mul_one, mul_one] at this
        exact this
      have hsum : Near u 2 (∑ i, R.rnd (v i * c) * R.rnd (v i * c)) (∑ i, (v i * c) * (v i * c)) := by
        constructor
        · rw [Finset.mul_sum]; exact Finset.sum_le_sum fun i _ => (hterm i).1
        · rw [Finset.mul_sum]; exact Finset.sum_le_sum fun i _ => (hterm i).2
      have e1 : ∑ i, (v i * c) * (v i * c) = (v ⬝ᵥ v) * (c * c) := by
        simp only [dotProduct, Finset.sum_mul]
        exact Finset.sum_congr rfl fun i _ => by ring
      rw [e1] at hsum
      have h5 := h4.mul hu (by positivity) (by positivity) h4
      have h6 := (Near.of_eq (rfl : v ⬝ᵥ v = v ⬝ᵥ v)).mul hu hpos.le (by positivity) h5
      have e2 : v ⬝ᵥ v * (1 / √(v ⬝ᵥ v) * (1 / √(v ⬝ᵥ v))) = 1 := by
        rw [div_mul_div_comm, one_mul, Real.mul_self_sqrt hpos.le, mul_one_div, div_self hpos.ne']
      rw [e2] at h6
      have := hsum.trans hu h6
      rw [show 2 + (0 + (0 + (n + 2 + 1) + 1 + (0 + (n + 2 + 1) + 1))) = 2 * n + 10 by ring] at this
      exact this
    · have := R.err (v i * c)
      rwa [mul_comm (v i) c] at this ⊢

theorem rayleighF (hn : 0 < n) {a x : Arr (Fl R)} {v : Fin n → ℝ} (ha : a.IsMatShape n n) (hx : RVF R x v) :
    ∃ l, rayleigh a x = .ok l ∧ |l.val - v ⬝ᵥ (a.flMat n *ᵥ v)| ≤ ((1 + u) ^ (2 * n + 2) - 1) * absQuad (a.flMat n) v := by
  obtain ⟨y, h1, h2⟩ := dotMv_spec ha.isMat hx.1.isVec hn
  refine ⟨_, by simp only [rayleigh, h1, Res.ok_bind]; exact dot_spec hx.1.isVec h2, ?_⟩
  have := om_fl_err n a.mat x.vec
  simp only [hx.val] at this
  exact this

theorem foldl_sumTo {α : Type} [Scalar α] {l : List α} {n : Nat} {f : Nat → α} (h1 : l.length = n)
    (hf : ∀ i, i < n → l[i]? = some (f i)) (g : α → α) : (l.map g).foldl (· + ·) 0 = sumTo n fun i => g (f i) := by
  have : l = (List.range n).map f := by
    apply List.ext_getElem (by simp [h1])
    intro i hi hi'
    have := hf i (by omega)
    rw [List.getElem?_eq_getElem hi] at this
    simpa using this
  subst this
  clear h1 hf
  induction n with
  | zero => rfl
  | succ k ih => simp only [List.range_succ, List.map_append, List.foldl_append, ih]; rfl

/-- the 1-norm is computed to full relative accuracy -/
theorem normL1F (hu : u < 1) {x : Arr (Fl R)} {v : Fin n → ℝ} (hx : RVF R x v) : Near u (n + 2) (normL1 x).val (norm1 v) := by
  have h0 := R.unit_nonneg
  have e : normL1 x = sumTo n fun i => Scalar.abs (x.vec i) := foldl_sumTo hx.1.isVec.len hx.1.isVec.get _
  obtain ⟨h1, h2⟩ := EllStable.sum_near (R := R) hu (p := fun i => Scalar.abs (x.vec i))
    (q := fun i => |(x.vec i).val|) n (fun i _ => abs_nonneg _) (fun i _ =>
      (Near.of_eq rfl).mono h0 hu (Nat.zero_le 2) (abs_nonneg _) (abs_nonneg _))
  rw [e]
  rw [sumTo_real, Finset.sum_range] at h1
  simp only [hx.val] at h1
  exact h1

theorem norm1_nonneg (v : Fin n → ℝ) : 0 ≤ norm1 v := Finset.sum_nonneg fun _ _ => abs_nonneg _

theorem norm1_rnd (hu : u < 1) (v : Fin n → ℝ) : Near u 1 (norm1 fun i => R.rnd (v i)) (norm1 v) := by
  have hterm : ∀ i, Near u 1 |R.rnd (v i)| |v i| := by
    intro i
    have := R.err (v i)
    have h1 := abs_sub_abs_le_abs_sub (R.rnd (v i)) (v i)
    have h2 := abs_sub_abs_le_abs_sub (v i) (R.rnd (v i))
    rw [abs_sub_comm] at h2
    have h0 := R.unit_nonneg
    have := abs_nonneg (v i)
    constructor
    · rw [pow_one]; linarith
    · rw [pow_one]; nlinarith
  unfold norm1
  constructor
  · rw [Finset.mul_sum]; exact Finset.sum_le_sum fun i _ => (hterm i).1
  · rw [Finset.mul_sum]; exact Finset.sum_le_sum fun i _ => (hterm i).2

/-- what it means that the stop test succeeded -/
theorem closeF (hu : u < 1) (tol : Fl R) {x y : Arr (Fl R)} {v w : Fin n → ℝ} (hx : RVF R x v) (hy : RVF R y w) :
    ∃ b, closeUpToSign tol x y = .ok b ∧
      (b = true → (1 - u) ^ (n + 3) * norm1 (v - w) ≤ tol.val ∨ (1 - u) ^ (n + 3) * norm1 (v + w) ≤ tol.val) := by
  obtain ⟨d, h1, hd⟩ := hx.1.isVec.zipWith hy.1.isVec (· - ·)
  obtain ⟨s, h2, hs⟩ := hx.1.isVec.zipWith hy.1.isVec (· + ·)
  have hd' := hd.rvf
  have hs' := hs.rvf
  simp only [Fl.sub_val, Fl.add_val, hx.val, hy.val] at hd' hs'
  have nd := (normL1F hu hd').trans hu (norm1_rnd (R := R) hu (v - w))
  have ns := (normL1F hu hs').trans hu (norm1_rnd (R := R) hu (v + w))
  unfold closeUpToSign
  rw [show x.sub y = .ok d from h1, show x.add y = .ok s from h2]
  simp only [Res.ok_bind]
  split
  · rename_i h
    refine ⟨true, rfl, fun _ => Or.inl (nd.1.trans ?_)⟩
    simpa using h
  · refine ⟨_, rfl, fun h => Or.inr (ns.1.trans ?_)⟩
    simpa using h

/-- `A 0` is computed exactly -/
theorem mul_zeroF {a : Arr (Fl R)} {w : Fin n → ℝ}
    (h : ∀ i : Fin n, |w i - (a.flMat n *ᵥ (0 : Fin n → ℝ)) i| ≤
      ((1 + u) ^ (n + 1) - 1) * (absMat (a.flMat n) *ᵥ fun j => |(0 : Fin n → ℝ) j|) i) : w = 0 := by
  ext i
  have := h i
  have e : (fun j : Fin n => |(0 : Fin n → ℝ) j|) = 0 := by ext j; simp
  rw [e, mulVec_zero, mulVec_zero] at this
  simpa using this

end Ellalgo
