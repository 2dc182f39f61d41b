import Verif.Lib.Iter64
import Verif.Props.CgIterates
import Verif.Props.CgRounded

/-! C123: `conjugate_gradient` in IEEE-754 `f64` is `conjugate_gradient` rounded to 53 bits, within range. -/

namespace Ellalgo
variable {n : Nat} {A : Nat → Nat → B64} {A' : Nat → Nat → Fl bin53} {b x : Nat → B64} {b' x' : Nat → Fl bin53} {tol : B64} {tol' : Fl bin53}

/-- same point, residual and square -/
def SameIt (n : Nat) (s : CgIt B64) (s' : CgIt (Fl bin53)) : Prop := SameV n s.x s'.x ∧ SameV n s.r s'.r ∧ Same s.rr s'.rr

theorem SameIt.done {s : CgIt B64} {s' : CgIt (Fl bin53)} (h : SameIt n s s') (ht : Same tol tol') (hr : SqrtOk s'.rr) :
    s.done tol = s'.done tol' := (h.2.2.sqrt hr).lt ht

section
variable (hA : SameM n A A') (ht : Same tol tol') {s : CgIt B64} {s' : CgIt (Fl bin53)} (h : SameIt n s s') (hp : SameV n s.p s'.p)
  (ok : s'.NextSafe n A' tol')
include hA h hp ok

theorem same_curv : Same (s.curv n A) (s'.curv n A') := hp.dot (hA.mul hp ok.1) ok.2.1

theorem same_stuck : s.stuck n A = s'.stuck n A' := (same_curv hA h hp ok).beq Same.zero

theorem same_cgNext (hs : s'.stuck n A' = false) : SameIt n (cgNext n A s) (cgNext n A' s') ∧
    ((cgNext n A' s').done tol' = false → SameV n (cgNext n A s).p (cgNext n A' s').p) := by
  obtain ⟨k3, k4, k5, k6, k7⟩ := ok.2.2 hs
  have hst := h.2.2.div (same_curv hA h hp ok) k3
  have hx : SameV n (cgNext n A s).x (cgNext n A' s').x := SameV.axpy hst h.1 hp k4
  have hr : SameV n (cgNext n A s).r (cgNext n A' s').r := SameV.axmy hst h.2.1 (hA.mul hp ok.1) k5
  have hrr : Same (cgNext n A s).rr (cgNext n A' s').rr := hr.dot hr k6
  refine ⟨⟨hx, hr, hrr⟩, fun hd => ?_⟩
  obtain ⟨k8, k9⟩ := k7 hd
  exact SameV.axpy (hrr.div h.2.2 k8) hr hp k9

end

theorem sqrtOk_cgAt (k : Nat) : SqrtOk (cgAt n A' b' x' k).rr := by
  cases k with
  | zero => exact sqrtOk_dotV n _
  | succ k => exact sqrtOk_dotV n _

section
variable (hA : SameM n A A') (hb : SameV n b b') (hx : SameV n x x') (ht : Same tol tol') {m : Nat} (ok : CgSafe n A' tol' b' x' m)
include hA hb hx ok

theorem same_cgAt (j : Nat) (hj : j ≤ m) (hl : CgLive n A' tol' (cgAt n A' b' x') j) :
    SameIt n (cgAt n A b x j) (cgAt n A' b' x' j) ∧ SameV n (cgAt n A b x j).p (cgAt n A' b' x' j).p := by
  induction j with
  | zero =>
    have hr : SameV n (cgFirst n A b x).r (cgFirst n A' b' x').r := fun i hi =>
      (hb i hi).sub (hA.mul hx ok.1.1 i hi) (ok.1.2.1 i hi)
    exact ⟨⟨hx, hr, hr.dot hr ok.1.2.2⟩, hr⟩
  | succ j ih =>
    have hl' : CgLive n A' tol' (cgAt n A' b' x') j := ⟨fun i h1 h2 => hl.1 i h1 (by omega), fun i hi => hl.2 i (by omega)⟩
    obtain ⟨h1, h2⟩ := ih (by omega) hl'
    obtain ⟨h3, h4⟩ := same_cgNext hA h1 h2 (ok.2 j (by omega) hl') (hl.2 j (by omega))
    exact ⟨h3, h4 (hl.1 (j + 1) (by omega) le_rfl)⟩

theorem same_cgAt_stuck (j : Nat) (hj : j < m) (hl : CgLive n A' tol' (cgAt n A' b' x') j) :
    (cgAt n A b x j).stuck n A = (cgAt n A' b' x' j).stuck n A' := by
  obtain ⟨h1, h2⟩ := same_cgAt hA hb hx ok j hj.le hl
  exact same_stuck hA h1 h2 (ok.2 j hj hl)

theorem same_cgAt_next (j : Nat) (hj : j < m) (hl : CgLive n A' tol' (cgAt n A' b' x') j) (hs : (cgAt n A' b' x' j).stuck n A' = false) :
    SameIt n (cgAt n A b x (j + 1)) (cgAt n A' b' x' (j + 1)) := by
  obtain ⟨h1, h2⟩ := same_cgAt hA hb hx ok j hj.le hl
  exact (same_cgNext hA h1 h2 (ok.2 j hj hl) hs).1

include ht in
theorem same_cgEnds {o' : Except CgErr (Nat → Fl bin53)} (h : CgEnds n A' tol' (cgAt n A' b' x') m o') :
    ∃ o, CgEnds n A tol (cgAt n A b x) m o ∧
      match o, o' with
      | .ok v, .ok v' => SameV n v v'
      | .error e, .error e' => e = e'
      | _, _ => False := by
  have key : ∀ j, CgLive n A' tol' (cgAt n A' b' x') j → j ≤ m →
      (∀ i, 1 ≤ i → i ≤ j → (cgAt n A b x i).done tol = false) ∧ ∀ i < j, (cgAt n A b x i).stuck n A = false := by
    intro j hl hj
    refine ⟨fun i h1 h2 => ?_, fun i hi => ?_⟩
    · have hl' : CgLive n A' tol' (cgAt n A' b' x') i := ⟨fun l h3 h4 => hl.1 l h3 (by omega), fun l h3 => hl.2 l (by omega)⟩
      rw [(same_cgAt hA hb hx ok i (by omega) hl').1.done ht (sqrtOk_cgAt i)]
      exact hl.1 i h1 h2
    · have hl' : CgLive n A' tol' (cgAt n A' b' x') i := ⟨fun l h3 h4 => hl.1 l h3 (by omega), fun l h3 => hl.2 l (by omega)⟩
      rw [same_cgAt_stuck hA hb hx ok i (by omega) hl']
      exact hl.2 i hi
  cases h with
  | done k h1 h2 h3 h4 h5 =>
    obtain ⟨j, rfl⟩ : ∃ j, k = j + 1 := ⟨k - 1, by omega⟩
    have hl : CgLive n A' tol' (cgAt n A' b' x') j := ⟨fun i a1 a2 => h4 i a1 (by omega), fun i a1 => h5 i (by omega)⟩
    have hn := same_cgAt_next hA hb hx ok j (by omega) hl (h5 j (by omega))
    obtain ⟨k1, k2⟩ := key j hl (by omega)
    refine ⟨_, .done (j + 1) h1 h2 ?_ (fun i a1 a2 => k1 i a1 (by omega)) ?_, hn.1⟩
    · rw [hn.done ht (sqrtOk_cgAt (j + 1))]; exact h3
    · intro i hi
      rcases Nat.lt_succ_iff_lt_or_eq.1 hi with a | rfl
      · exact k2 i a
      · rw [same_cgAt_stuck hA hb hx ok i (by omega) hl]; exact h5 i hi
  | stuck k h2 h3 h4 h5 =>
    have hl : CgLive n A' tol' (cgAt n A' b' x') k := ⟨h4, h5⟩
    obtain ⟨k1, k2⟩ := key k hl h2.le
    refine ⟨.error .breakdown, .stuck k h2 ?_ k1 k2, rfl⟩
    rw [same_cgAt_stuck hA hb hx ok k h2 hl]; exact h3
  | out h4 h5 =>
    obtain ⟨k1, k2⟩ := key m ⟨h4, h5⟩ le_rfl
    exact ⟨.error .maxIters, .out k1 k2, rfl⟩

end

/-- **C123** (`conjugate_gradient`)  Take a square system in IEEE-754 `f64` and the same numbers in arithmetic rounded to 53 bits.  If
what the method computes in the latter stays in range (`CgSafe`), then in `f64` it returns the same error, or number for number the same
solution. -/
theorem C123_cg {a b : Arr B64} {a' b' : Arr (Fl bin53)} {x0 : Option (Arr B64)} {x0' : Option (Arr (Fl bin53))} {tol : B64}
    {tol' : Fl bin53} {m : Nat} (hn : 0 < n) (ha' : a'.IsMatShape n n) (hb' : b'.IsVecShape n) (hx' : ∀ x, x0' = some x → x.IsVecShape n)
    (ha : a.Same a') (hb : b.Same b') (hx : OptRel Arr.Same x0 x0') (ht : Same tol tol')
    (ok : CgSafe n a'.mat tol' b'.vec (x0'.elim (fun _ => 0) Arr.vec) m) :
    Res.Rel SameCg (conjugateGradient a b x0 tol m) (conjugateGradient a' b' x0' tol' m) := by
  have hx0 : ∀ x, x0 = some x → x.IsVecShape n := by
    rintro x rfl
    cases x0' with
    | none => exact hx.elim
    | some y => exact Arr.Same.vecShape hx (hx' y rfl)
  have hv : SameV n (x0.elim (fun _ => 0) Arr.vec) (x0'.elim (fun _ => 0) Arr.vec) := by
    intro i hi
    cases x0 with
    | none =>
      cases x0' with
      | none => exact Same.zero
      | some y => exact hx.elim
    | some z =>
      cases x0' with
      | none => exact hx.elim
      | some y => exact Arr.Same.vec hx (hx' y rfl) i hi
  have hA : SameM n a.mat a'.mat := fun i hi j hj => ha.mat ha' i j hi hj
  have hB : SameV n b.vec b'.vec := fun i hi => hb.vec hb' i hi
  have h := C98_iterates hn (ha.matShape ha') (hb.vecShape hb') hx0 tol m
  rcases C98_iterates hn ha' hb' hx' tol' m with ⟨e', h1', h2'⟩ | ⟨y', v', h1', h2', h3', h4'⟩
  · obtain ⟨o, k1, k2⟩ := same_cgEnds hA hB hv ht ok h2'
    rcases h with ⟨e, h1, h2⟩ | ⟨y, v, h1, h2, h3, h4⟩
    · have := C98_one_end h2 k1
      subst this
      rw [h1, h1']
      exact k2
    · have := C98_one_end h4 k1
      subst this
      exact k2.elim
  · obtain ⟨o, k1, k2⟩ := same_cgEnds hA hB hv ht ok h4'
    rcases h with ⟨e, h1, h2⟩ | ⟨y, v, h1, h2, h3, h4⟩
    · have := C98_one_end h2 k1
      subst this
      exact k2.elim
    · have := C98_one_end h4 k1
      subst this
      rw [h1, h1']
      refine IsVec.same h2.isVec h2'.isVec fun i hi => ?_
      rw [h3 i hi, h3' i hi]
      exact k2 i hi

section
open Matrix

/-- **C123** (the true residual)  If moreover the run in `f64` returns `Ok(x)`, then `x` is one of the iterates `k ≤ max_iters`, and for
every bound `X` on their norms and `L` on the operator norm of `|A|` the true residual `‖b - A x‖` is at most `tol` up to a relative
error of a few `n 2⁻⁵³`, plus `4 (k + 1) (n + 5) 2⁻⁵³ (L X + ‖b‖)`. -/
theorem C123_true_residual {a b x : Arr B64} {a' b' : Arr (Fl bin53)} {x0 : Option (Arr B64)} {x0' : Option (Arr (Fl bin53))} {tol : B64}
    {tol' : Fl bin53} {m : Nat} {L : ℝ} (hn : 0 < n) (hs : (n + 5) * (2 : ℝ) ^ (-53 : ℤ) ≤ 1 / 16) (ha' : a'.IsMatShape n n)
    (hb' : b'.IsVecShape n) (hx' : ∀ x, x0' = some x → x.IsVecShape n)
    (ha : a.Same a') (hb : b.Same b') (hx : OptRel Arr.Same x0 x0') (ht : Same tol tol')
    (ok : CgSafe n a'.mat tol' b'.vec (x0'.elim (fun _ => 0) Arr.vec) m) (hL : 0 ≤ L)
    (hop : ∀ w : Fin n → ℝ, norm2 (absMat (a.mat64 n) *ᵥ w) ≤ L * norm2 w)
    (hrun : conjugateGradient a b x0 tol m = .ok (.ok x)) :
    (∀ i < n, (x.vec i).Finite) ∧ ∃ k, 1 ≤ k ∧ k ≤ m ∧
      (∀ i < n, (x.vec i).val = ((cgAt n a'.mat b'.vec (x0'.elim (fun _ => 0) Arr.vec) k).x i).val) ∧
      ∀ X : ℝ, (∀ j ≤ k, norm2 (realVec n (cgAt n a'.mat b'.vec (x0'.elim (fun _ => 0) Arr.vec) j).x) ≤ X) →
        (k + 1) * (2 : ℝ) ^ (-53 : ℤ) ≤ 1 / 8 →
      norm2 (b.vec64 n - a.mat64 n *ᵥ x.vec64 n) ≤
        (1 + 3 * ((n + 5) * (2 : ℝ) ^ (-53 : ℤ))) * tol.val +
          4 * (k + 1) * ((n + 5) * (2 : ℝ) ^ (-53 : ℤ)) * (L * X + norm2 (b.vec64 n)) := by
  have h := C123_cg hn ha' hb' hx' ha hb hx ht ok
  rw [hrun] at h
  have eA : a.mat64 n = a'.flMat n := by
    ext i j
    exact (ha.mat ha' i j i.2 j.2).2
  have eb : b.vec64 n = b'.flVec n := by
    ext i
    exact (hb.vec hb' i i.2).2
  cases hr : conjugateGradient a' b' x0' tol' m with
  | panic => rw [hr] at h; exact h.elim
  | ok r =>
    rw [hr] at h
    cases r with
    | error e => exact h.elim
    | ok y =>
      have hy : x.Same y := h
      obtain ⟨k, h1, h2, h3, h4⟩ := C98_true_residual hn hs ha' hb' hx' hL (by rw [← eA]; exact hop) hr
      have hys : y.IsVecShape n := by
        rcases C98_iterates hn ha' hb' hx' tol' m with ⟨e, h5, -⟩ | ⟨y', v, h5, h6, -⟩
        · rw [hr] at h5; cases h5
        · rw [hr] at h5; cases h5; exact h6
      have ey : x.vec64 n = y.flVec n := by
        ext i
        exact (hy.vec hys i i.2).2
      refine ⟨fun i hi => (hy.vec hys i hi).1, k, h1, h2, fun i hi => ?_, ?_⟩
      · have := congrFun h3 ⟨i, hi⟩
        rw [← ey] at this
        exact this
      · rw [eA, eb, ey, ht.2]
        exact h4

end

end Ellalgo
