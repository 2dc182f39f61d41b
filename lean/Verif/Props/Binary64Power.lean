import Verif.Lib.Iter64
import Verif.Props.PowerIterates
import Verif.Props.RoundedPower

/-! C123: the power iterations in IEEE-754 `f64` are those rounded to 53 bits, within range. -/

namespace Ellalgo
variable {n : Nat} {A : Nat → Nat → B64} {A' : Nat → Nat → Fl bin53} {x : Nat → B64} {x' : Nat → Fl bin53} {tol : B64} {tol' : Fl bin53} {m : Nat}

section
variable (hA : SameM n A A') (hx : SameV n x x') (ht : Same tol tol')
include hA hx

theorem same_powSeq (h0 : UnitSafe n x') (k : Nat)
    (h : ∀ j < k, MulVSafe n A' (powSeq n A' x' j) ∧ UnitSafe n (mulV n A' (powSeq n A' x' j))) :
    SameV n (powSeq n A x k) (powSeq n A' x' k) := by
  induction k with
  | zero => exact hx.unit h0
  | succ k ih =>
    obtain ⟨h1, h2⟩ := h k (by omega)
    exact (hA.mul (ih fun j hj => h j (by omega)) h1).unit h2

theorem same_pow1Seq (h0 : Unit1Safe n x') (k : Nat)
    (h : ∀ j < k, MulVSafe n A' (pow1Seq n A' x' j) ∧ Unit1Safe n (mulV n A' (pow1Seq n A' x' j))) :
    SameV n (pow1Seq n A x k) (pow1Seq n A' x' k) := by
  induction k with
  | zero => exact hx.unit1 h0
  | succ k ih =>
    obtain ⟨h1, h2⟩ := h k (by omega)
    exact (hA.mul (ih fun j hj => h j (by omega)) h1).unit1 h2

theorem same_pow3Seq (k : Nat) (h : ∀ j < k, MulVSafe n A' (pow3Seq n A' x' j) ∧
      DotSafe n (mulV n A' (pow3Seq n A' x' j)) (mulV n A' (pow3Seq n A' x' j)) ∧
      (bigV n (mulV n A' (pow3Seq n A' x' j)) = true → UnitSafe n (mulV n A' (pow3Seq n A' x' j)))) :
    SameV n (pow3Seq n A x k) (pow3Seq n A' x' k) := by
  induction k with
  | zero => exact hx
  | succ k ih =>
    obtain ⟨h1, h2, h3⟩ := h k (by omega)
    have hm := hA.mul (ih fun j hj => h j (by omega)) h1
    have hb := hm.big h2
    cases e : bigV n (mulV n A' (pow3Seq n A' x' k))
    · simp only [pow3Seq, hb, e, Bool.false_eq_true, if_false]
      exact hm
    · simp only [pow3Seq, hb, e, if_true]
      exact hm.unit (h3 e)

end

section
variable {a y : Arr B64} {a' y' : Arr (Fl bin53)} (hn : 0 < n) (ha' : a'.IsMatShape n n) (hy' : y'.IsVecShape n) (ha : a.Same a')
  (hy : y.Same y') (ht : Same tol tol')
include hn ha' hy' ha hy ht

/-- **C123** (`power_iteration`)  Take a square matrix and a vector in IEEE-754 `f64` and the same numbers in arithmetic rounded to 53 bits.
If what the method computes in the latter stays in range (`PowSafe`), then in `f64` it returns the same value, iteration count and vector. -/
theorem C123_power_iteration (ok : PowSafe n a'.mat tol' y'.vec m) :
    Res.Rel SamePower (powerIteration a y ⟨m, tol⟩) (powerIteration a' y' ⟨m, tol'⟩) := by
  have hA : SameM n a.mat a'.mat := fun i hi j hj => ha.mat ha' i j hi hj
  have hx : SameV n y.vec y'.vec := fun i hi => hy.vec hy' i hi
  obtain ⟨o1, o2, o3⟩ := ok
  obtain ⟨k, xf, h1, h2, h3, h4⟩ := C117_power_iteration (m := m) (tol := tol) hn (ha.matShape ha') (hy.vecShape hy')
  obtain ⟨k', xf', h1', h2', h3', h4'⟩ := C117_power_iteration (m := m) (tol := tol') hn ha' hy'
  have seq : ∀ j ≤ m, (∀ i, i + 1 < j → closeV n tol' (powSeq n a'.mat y'.vec (i + 1)) (powSeq n a'.mat y'.vec i) = false) →
      SameV n (powSeq n a.mat y.vec j) (powSeq n a'.mat y'.vec j) := fun j hj hf =>
    same_powSeq hA hx o1 j fun i hi => by
      obtain ⟨p1, p2, -⟩ := o2 i (by omega) fun l hl => hf l (by omega)
      exact ⟨p1, p2⟩
  have key := firstBelow_same (fun j hj hf => (seq (j + 1) hj fun i hi => hf i (by omega)).close
    (seq j hj.le fun i hi => hf i (by omega)) ht (o2 j hj hf).2.2) h4 h4'
  subst key
  obtain ⟨q1, q2⟩ := firstBelow_before h4'
  have hs := seq (min (k + 1) m) (by omega) fun i hi => q2 i (by omega)
  rw [h1, h1']
  refine ⟨hs.ray hA (o3 k h4'), rfl, IsVec.same h2.isVec h2'.isVec fun i hi => ?_⟩
  rw [h3 i hi, h3' i hi]
  exact hs i hi

/-- **C123** (`power_iteration4`)  The same with scaling by the 1-norm. -/
theorem C123_power_iteration4 (ok : Pow4Safe n a'.mat tol' y'.vec m) :
    Res.Rel SamePower (powerIteration4 a y ⟨m, tol⟩) (powerIteration4 a' y' ⟨m, tol'⟩) := by
  have hA : SameM n a.mat a'.mat := fun i hi j hj => ha.mat ha' i j hi hj
  have hx : SameV n y.vec y'.vec := fun i hi => hy.vec hy' i hi
  obtain ⟨o1, o2, o3⟩ := ok
  obtain ⟨k, xf, h1, h2, h3, h4⟩ := C117_power_iteration4 (m := m) (tol := tol) hn (ha.matShape ha') (hy.vecShape hy')
  obtain ⟨k', xf', h1', h2', h3', h4'⟩ := C117_power_iteration4 (m := m) (tol := tol') hn ha' hy'
  have seq : ∀ j ≤ m, (∀ i, i + 1 < j → closeV n tol' (pow1Seq n a'.mat y'.vec (i + 1)) (pow1Seq n a'.mat y'.vec i) = false) →
      SameV n (pow1Seq n a.mat y.vec j) (pow1Seq n a'.mat y'.vec j) := fun j hj hf =>
    same_pow1Seq hA hx o1 j fun i hi => by
      obtain ⟨p1, p2, -⟩ := o2 i (by omega) fun l hl => hf l (by omega)
      exact ⟨p1, p2⟩
  have key := firstBelow_same (fun j hj hf => (seq (j + 1) hj fun i hi => hf i (by omega)).close
    (seq j hj.le fun i hi => hf i (by omega)) ht (o2 j hj hf).2.2) h4 h4'
  subst key
  obtain ⟨q1, q2⟩ := firstBelow_before h4'
  have hs := seq (min (k + 1) m) (by omega) fun i hi => q2 i (by omega)
  obtain ⟨p1, p2⟩ := o3 k h4'
  have hu := hs.unit p1
  rw [h1, h1']
  refine ⟨hu.ray hA p2, rfl, IsVec.same h2.isVec h2'.isVec fun i hi => ?_⟩
  rw [h3 i hi, h3' i hi]
  exact hu i hi

/-- **C123** (`power_iteration2`)  The same with consecutive values compared. -/
theorem C123_power_iteration2 (ok : Pow2Safe n a'.mat tol' y'.vec m) :
    Res.Rel SamePower (powerIteration2 a y ⟨m, tol⟩) (powerIteration2 a' y' ⟨m, tol'⟩) := by
  have hA : SameM n a.mat a'.mat := fun i hi j hj => ha.mat ha' i j hi hj
  have hx : SameV n y.vec y'.vec := fun i hi => hy.vec hy' i hi
  obtain ⟨o1, o2, o3⟩ := ok
  obtain ⟨k, xf, h1, h2, h3, h4⟩ := C117_power_iteration2 (m := m) (tol := tol) hn (ha.matShape ha') (hy.vecShape hy')
  obtain ⟨k', xf', h1', h2', h3', h4'⟩ := C117_power_iteration2 (m := m) (tol := tol') hn ha' hy'
  have ray : ∀ j ≤ m, (∀ i, i + 1 < j → valTest tol' (fun k => rayV n a'.mat (powSeq n a'.mat y'.vec k)) i = false) →
      RaySafe n a'.mat (powSeq n a'.mat y'.vec j) := by
    intro j hj hf
    cases j with
    | zero => exact o2
    | succ j => exact (o3 j (by omega) fun i hi => hf i (by omega)).2.1
  have seq : ∀ j ≤ m, (∀ i, i + 1 < j → valTest tol' (fun k => rayV n a'.mat (powSeq n a'.mat y'.vec k)) i = false) →
      SameV n (powSeq n a.mat y.vec j) (powSeq n a'.mat y'.vec j) := fun j hj hf =>
    same_powSeq hA hx o1 j fun i hi => ⟨(ray i (by omega) fun l hl => hf l (by omega)).1,
      (o3 i (by omega) fun l hl => hf l (by omega)).1⟩
  have val : ∀ j ≤ m, (∀ i, i + 1 < j → valTest tol' (fun k => rayV n a'.mat (powSeq n a'.mat y'.vec k)) i = false) →
      Same (rayV n a.mat (powSeq n a.mat y.vec j)) (rayV n a'.mat (powSeq n a'.mat y'.vec j)) :=
    fun j hj hf => (seq j hj hf).ray hA (ray j hj hf)
  have key := firstBelow_same (t' := valTest tol' fun k => rayV n a'.mat (powSeq n a'.mat y'.vec k)) (fun j hj hf =>
    (((val j hj.le fun i hi => hf i (by omega)).sub (val (j + 1) hj fun i hi => hf i (by omega)) (o3 j hj hf).2.2).abs).le ht) h4 h4'
  subst key
  obtain ⟨q1, q2⟩ := firstBelow_before (t := valTest tol' fun k => rayV n a'.mat (powSeq n a'.mat y'.vec k)) h4'
  have hs := seq (min (k + 1) m) (by omega) fun i hi => q2 i (by omega)
  rw [h1, h1']
  refine ⟨val _ (by omega) fun i hi => q2 i (by omega), rfl, IsVec.same h2.isVec h2'.isVec fun i hi => ?_⟩
  rw [h3 i hi, h3' i hi]
  exact hs i hi

/-- **C123** (`power_iteration3`)  The same with scaling of big vectors only. -/
theorem C123_power_iteration3 (ok : Pow3Safe n a'.mat tol' y'.vec m) :
    Res.Rel SamePower (powerIteration3 a y ⟨m, tol⟩) (powerIteration3 a' y' ⟨m, tol'⟩) := by
  have hA : SameM n a.mat a'.mat := fun i hi j hj => ha.mat ha' i j hi hj
  have hx : SameV n y.vec y'.vec := fun i hi => hy.vec hy' i hi
  obtain ⟨o1, o2, o2', o3⟩ := ok
  obtain ⟨k, xf, h1, h2, h3, h4⟩ := C117_power_iteration3 (m := m) (tol := tol) hn (ha.matShape ha') (hy.vecShape hy')
  obtain ⟨k', xf', h1', h2', h3', h4'⟩ := C117_power_iteration3 (m := m) (tol := tol') hn ha' hy'
  obtain ⟨F, hF⟩ : ∃ F : Nat → Prop, ∀ j, F j ↔ ∀ i, i + 1 < j → valTest tol' (pow3Val n a'.mat y'.vec) i = false := ⟨_, fun _ => Iff.rfl⟩
  have ray : ∀ j ≤ m, F j → RaySafe n a'.mat (pow3Seq n a'.mat y'.vec j) := by
    intro j hj hf
    cases j with
    | zero => exact o1
    | succ j => exact (o3 j (by omega) fun i hi => (hF _).1 hf i (by omega)).2.2.1
  have down : ∀ j i, i ≤ j → F j → F i := fun j i h hf => (hF i).2 fun l hl => (hF j).1 hf l (by omega)
  have seq : ∀ j ≤ m, F j → SameV n (pow3Seq n a.mat y.vec j) (pow3Seq n a'.mat y'.vec j) := fun j hj hf =>
    same_pow3Seq hA hx j fun i hi => by
      obtain ⟨p1, p2, -⟩ := o3 i (by omega) fun l hl => (hF j).1 hf l (by omega)
      exact ⟨(ray i (by omega) (down j i hi.le hf)).1, p1, p2⟩
  have big : ∀ j < m, F (j + 1) → bigV n (mulV n a.mat (pow3Seq n a.mat y.vec j)) = bigV n (mulV n a'.mat (pow3Seq n a'.mat y'.vec j)) := by
    intro j hj hf
    have hfj := down (j + 1) j (by omega) hf
    exact (hA.mul (seq j hj.le hfj) (ray j hj.le hfj).1).big (o3 j hj fun i hi => (hF _).1 hf i (by omega)).1
  have dots : ∀ j < m, F (j + 1) → bigV n (mulV n a'.mat (pow3Seq n a'.mat y'.vec j)) = false →
      DotSafe n (pow3Seq n a'.mat y'.vec (j + 1)) (pow3Seq n a'.mat y'.vec (j + 1)) := by
    intro j hj hf hb
    have := (o3 j hj fun i hi => (hF _).1 hf i (by omega)).1
    simp only [pow3Seq, hb, Bool.false_eq_true, if_false]
    exact this
  have val : ∀ j ≤ m, F j → Same (pow3Val n a.mat y.vec j) (pow3Val n a'.mat y'.vec j) := by
    intro j hj hf
    cases j with
    | zero => exact (hx.ray hA o1).div (hx.dot hx o2) o2'
    | succ j =>
      have hr := (seq (j + 1) hj hf).ray hA (ray (j + 1) hj hf)
      have hb := big j (by omega) hf
      cases e : bigV n (mulV n a'.mat (pow3Seq n a'.mat y'.vec j))
      · rw [e] at hb
        have hd := (seq (j + 1) hj hf).dot (seq (j + 1) hj hf) (dots j (by omega) hf e)
        have := hr.div hd ((o3 j (by omega) fun i hi => (hF _).1 hf i (by omega)).2.2.2.1 e)
        unfold pow3Val
        dsimp only
        rw [hb, e, if_neg Bool.false_ne_true, if_neg Bool.false_ne_true]
        exact this
      · rw [e] at hb
        unfold pow3Val
        dsimp only
        rw [hb, e, if_pos rfl, if_pos rfl]
        exact hr
  have key := firstBelow_same (t' := valTest tol' (pow3Val n a'.mat y'.vec)) (fun j hj hf =>
    (((val j hj.le ((hF _).2 fun i hi => hf i (by omega))).sub (val (j + 1) hj ((hF _).2 fun i hi => hf i (by omega)))
      (o3 j hj hf).2.2.2.2.1).abs).le ht) h4 h4'
  subst key
  obtain ⟨q1, q2⟩ := firstBelow_before (t := valTest tol' (pow3Val n a'.mat y'.vec)) h4'
  have hf : F (min (k + 1) m) := (hF _).2 fun i hi => q2 i (by omega)
  rw [h1, h1']
  refine ⟨val _ (by omega) hf, rfl, IsVec.same h2.isVec h2'.isVec fun i hi => ?_⟩
  rw [h3 i hi, h3' i hi]
  have hs := seq _ (by omega) hf
  cases e : min (k + 1) m with
  | zero => rw [e] at hs; exact hs i hi
  | succ j =>
    rw [e] at hs hf
    have hb := big j (by omega) hf
    unfold pow3Out
    simp only
    rw [hb]
    cases hstop : decide (k < m)
    · rw [Bool.false_and, if_neg Bool.false_ne_true, if_neg Bool.false_ne_true]
      exact hs i hi
    · have hk := of_decide_eq_true hstop
      obtain rfl : j = k := by omega
      have hpass : valTest tol' (pow3Val n a'.mat y'.vec) j = true := by
        rcases h4' with ⟨-, p, -⟩ | ⟨p, -⟩
        · exact p
        · omega
      cases e2 : bigV n (mulV n a'.mat (pow3Seq n a'.mat y'.vec j))
      · have := hs.unit ((o3 j hk q2).2.2.2.2.2 hpass e2) i hi
        simpa using this
      · simpa using hs i hi

end

theorem bin53_ne {z : ℝ} (h : rnd53 z = 0) : z = 0 := by
  have h1 := bin53.err z
  have h2 : bin53.rnd z = 0 := h
  rw [h2, zero_sub, abs_neg] at h1
  clear h2
  by_contra hz
  have h3 : 0 < |z| := abs_pos.2 hz
  have h4 : (2 : ℝ) ^ (-53 : ℤ) < 1 := zpow_lt_one_of_neg₀ (by norm_num) (by norm_num)
  generalize (2 : ℝ) ^ (-53 : ℤ) = v at *
  nlinarith

/-- a vector scaled within range is not zero -/
theorem unit_ne {v : Nat → Fl bin53} (ok : UnitSafe n v) : ∃ i < n, (unitV n v i).val ≠ 0 := by
  by_contra hc
  push Not at hc
  obtain ⟨s, hs⟩ : ∃ s, s = Scalar.sqrt (dotV n v v) := ⟨_, rfl⟩
  have h1 : s.val ≠ 0 := by rw [hs]; exact ok.2.1.1
  have h2 : ∀ i < n, (v i).val = 0 := by
    intro i hi
    have h3 : rnd53 ((v i).val * rnd53 (1 / s.val)) = 0 := by rw [hs]; exact hc i hi
    refine (mul_eq_zero.1 (bin53_ne h3)).resolve_right fun h => ?_
    exact one_div_ne_zero h1 (bin53_ne h)
  have h4 : ∀ k ≤ n, (dotV k v v).val = 0 := by
    intro k
    induction k with
    | zero => intro _; rfl
    | succ k ih =>
      intro hk
      show rnd53 ((dotV k v v).val + rnd53 ((v k).val * (v k).val)) = 0
      rw [ih (by omega), h2 k (by omega), mul_zero, rnd53_zero, add_zero, rnd53_zero]
  apply h1
  rw [hs]
  show rnd53 (Real.sqrt (dotV n v v).val) = 0
  rw [h4 n le_rfl, Real.sqrt_zero, rnd53_zero]

open Matrix in
/-- **C123** (a true eigenvalue)  If `power_iteration` in `f64` on a symmetric matrix reports fewer than `max_iters` iterations, and what it
computes stays in range, then a true eigenvalue of the matrix lies within `L` times the tolerance plus `7 L (n + 5) 2⁻⁵³` (up to a relative
error of a few `n 2⁻⁵³`) of the value returned, where `L` bounds the operator norm of `|A|`. -/
theorem C123_eigenvalue_near {a y xf : Arr B64} {a' y' : Arr (Fl bin53)} {l : B64} {niter : Nat} {L : ℝ} (hn : 0 < n)
    (hs : (n + 5) * (2 : ℝ) ^ (-53 : ℤ) ≤ 1 / 16) (ha' : a'.IsMatShape n n) (hy' : y'.IsVecShape n) (ha : a.Same a') (hy : y.Same y')
    (ht : Same tol tol') (ok : PowSafe n a'.mat tol' y'.vec m)
    (hsym : (a.mat64 n).IsHermitian)
    (hrun : powerIteration a y ⟨m, tol⟩ = .ok ((l, niter), xf)) (hstop : niter < m) (hL : 0 ≤ L)
    (hop : ∀ w : Fin n → ℝ, norm2 (absMat (a.mat64 n) *ᵥ w) ≤ L * norm2 w) :
    l.Finite ∧ ∃ i, |hsym.eigenvalues i - l.val| ≤
      L * ((1 + 3 * ((n + 5) * (2 : ℝ) ^ (-53 : ℤ))) * tol.val + 7 * ((n + 5) * (2 : ℝ) ^ (-53 : ℤ))) := by
  have h := C123_power_iteration hn ha' hy' ha hy ht ok
  rw [hrun] at h
  have eA : a.mat64 n = a'.flMat n := by
    ext i j
    exact (ha.mat ha' i j i.2 j.2).2
  obtain ⟨k, xf', h1, h2, h3, h4⟩ := C117_power_iteration (m := m) (tol := tol') hn ha' hy'
  rw [h1] at h
  obtain ⟨r1, r2, r3⟩ := h
  simp only at r1 r2 r3
  subst r2
  have hne : xf'.flVec n ≠ 0 := by
    obtain ⟨-, q2⟩ := firstBelow_before h4
    have hm : min (niter + 1) m = niter + 1 := by omega
    obtain ⟨i, hi, hv⟩ := unit_ne (ok.2.1 niter hstop q2).2.1
    intro h0
    apply hv
    have := congrFun h0 ⟨i, hi⟩
    have e := h3 i hi
    rw [hm] at e
    have e' : (xf'.vec i).val = 0 := this
    rw [e] at e'
    exact e'
  refine ⟨r1.1, ?_⟩
  have hsym' : (a'.flMat n).IsHermitian := by rw [← eA]; exact hsym
  obtain ⟨i, hi⟩ := C97_eigenvalue_near (opts := ⟨m, tol'⟩) hn hs ha' hsym' hy' h1 hstop hne hL (by rw [← eA]; exact hop)
  have he : hsym.eigenvalues i = hsym'.eigenvalues i := by congr
  refine ⟨i, ?_⟩
  rw [he, r1.2, ht.2]
  exact hi

end Ellalgo
