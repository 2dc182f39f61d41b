import Verif.Spec.CgIter
import Verif.Props.NanNum

/-! C98: `conjugate_gradient` returns the first textbook iterate that passes the test, in any arithmetic. -/

namespace Ellalgo
variable {α : Type} [Scalar α] {n : Nat}

theorem cgLoop_iter {a : Arr α} {A : Nat → Nat → α} (ha : IsMat a n n A) (hn : 0 < n) (tol : α) {it : Nat → CgIt α}
    (hit : ∀ k, it (k + 1) = cgNext n A (it k)) (k j : Nat) {x r p : Arr α} (hx : IsVec x n (it j).x) (hr : IsVec r n (it j).r)
    (hp : IsVec p n (it j).p) (h4 : ∀ i, 1 ≤ i → i ≤ j → (it i).done tol = false) (h5 : ∀ i < j, (it i).stuck n A = false) :
    (∃ e, cgLoop a n tol k x r p (it j).rr = .ok (.error e) ∧ CgEnds n A tol it (j + k) (.error e)) ∨
    ∃ xf i, cgLoop a n tol k x r p (it j).rr = .ok (.ok xf) ∧ IsVec xf n (it i).x ∧ CgEnds n A tol it (j + k) (.ok (it i).x) := by
  induction k generalizing j x r p with
  | zero => exact Or.inl ⟨_, rfl, .out h4 h5⟩
  | succ k ih =>
    obtain ⟨w, h1, hw⟩ := dotMv_spec ha hp hn
    have h2 := dot_spec hp hw
    by_cases hs : (it j).stuck n A = true
    · refine Or.inl ⟨.breakdown, ?_, .stuck j (by omega) hs h4 h5⟩
      have hs' : Scalar.beq (sumTo n fun i => (it j).p i * sumTo n fun l => A i l * (it j).p l) 0 = true := hs
      simp only [cgLoop, h1, h2, Res.ok_bind, hs', if_true]
    · have hs := Bool.eq_false_iff.2 hs
      have hs' : Scalar.beq (sumTo n fun i => (it j).p i * sumTo n fun l => A i l * (it j).p l) 0 = false := hs
      obtain ⟨x', h3, hx'⟩ := cgAxpy_gen hp hx ((it j).rr / (it j).curv n A)
      obtain ⟨r', h6, hr'⟩ := cgAxmy_gen hw hr ((it j).rr / (it j).curv n A)
      have hx2 : IsVec x' n (it (j + 1)).x := by rw [hit]; exact hx'
      have hr2 : IsVec r' n (it (j + 1)).r := by rw [hit]; exact hr'
      have h7 : r'.dot r' = .ok (it (j + 1)).rr := by rw [dot_spec hr2 hr2, hit]; rfl
      have h3' : cgAxpy n ((it j).rr / sumTo n fun i => (it j).p i * sumTo n fun l => A i l * (it j).p l) p x = .ok x' := h3
      have h6' : cgAxmy n ((it j).rr / sumTo n fun i => (it j).p i * sumTo n fun l => A i l * (it j).p l) w r = .ok r' := h6
      have h5' : ∀ i < j + 1, (it i).stuck n A = false := by
        intro i hi
        rcases Nat.lt_succ_iff_lt_or_eq.1 hi with h | rfl
        · exact h5 i h
        · exact hs
      by_cases hd : (it (j + 1)).done tol = true
      · have hd' : Scalar.lt (Scalar.sqrt (it (j + 1)).rr) tol = true := hd
        refine Or.inr ⟨x', j + 1, ?_, hx2, .done (j + 1) (by omega) (by omega) hd (fun i h1 h2 => h4 i h1 (by omega)) h5'⟩
        simp only [cgLoop, h1, h2, Res.ok_bind, hs', Bool.false_eq_true, if_false, h3', h6', h7, hd', if_true]
      · have hd := Bool.eq_false_iff.2 hd
        have hd' : Scalar.lt (Scalar.sqrt (it (j + 1)).rr) tol = false := hd
        obtain ⟨p', h8, hp'⟩ := cgXpay_gen hr2 hp ((it (j + 1)).rr / (it j).rr)
        have hp2 : IsVec p' n (it (j + 1)).p := by
          refine hp'.congr fun i _ => ?_
          rw [hit]; rfl
        have h4' : ∀ i, 1 ≤ i → i ≤ j + 1 → (it i).done tol = false := by
          intro i hi hi'
          rcases Nat.le_succ_iff.1 hi' with h | rfl
          · exact h4 i hi h
          · exact hd
        have e : cgLoop a n tol (k + 1) x r p (it j).rr = cgLoop a n tol k x' r' p' (it (j + 1)).rr := by
          simp only [cgLoop, h1, h2, Res.ok_bind, hs', Bool.false_eq_true, if_false, h3', h6', h7, hd', h8]
        rw [e, show j + (k + 1) = j + 1 + k by omega]
        exact ih (j + 1) hx2 hr2 hp2 h4' h5'

/-- **C98** In any arithmetic, exact or rounded, `conjugate_gradient` on a square matrix and vectors of matching length does not
panic; it produces the textbook iterates in that arithmetic and ends as `CgEnds` says: `Ok` with the first iterate whose carried
residual is below the tolerance, the first error when an iterate before it has `pᵀ A p = 0`, the second error otherwise. -/
theorem C98_iterates {a b : Arr α} {x0 : Option (Arr α)} (hn : 0 < n) (ha : a.IsMatShape n n) (hb : b.IsVecShape n)
    (hx0 : ∀ x, x0 = some x → x.IsVecShape n) (tol : α) (maxIter : Nat) :
    (∃ e, conjugateGradient a b x0 tol maxIter = .ok (.error e) ∧
      CgEnds n a.mat tol (cgAt n a.mat b.vec (x0.elim (fun _ => 0) Arr.vec)) maxIter (.error e)) ∨
    ∃ (x : Arr α) (v : Nat → α), conjugateGradient a b x0 tol maxIter = .ok (.ok x) ∧ x.IsVecShape n ∧ (∀ i < n, x.vec i = v i) ∧
      CgEnds n a.mat tol (cgAt n a.mat b.vec (x0.elim (fun _ => 0) Arr.vec)) maxIter (.ok v) := by
  have hx : IsVec (x0.getD (Arr.new n)) n (x0.elim (fun _ => 0) Arr.vec) := by
    cases x0 with
    | none => exact isVec_new n
    | some x => exact (hx0 x rfl).isVec
  obtain ⟨ax, h1, hax⟩ := dotMv_spec ha.isMat hx hn
  obtain ⟨r, h2, hr⟩ := hb.isVec.zipWith hax (· - ·)
  have hr' : IsVec r n (cgAt n a.mat b.vec (x0.elim (fun _ => 0) Arr.vec) 0).r := hr
  have h3 : r.dot r = .ok (cgAt n a.mat b.vec (x0.elim (fun _ => 0) Arr.vec) 0).rr := dot_spec hr' hr'
  have e : conjugateGradient a b x0 tol maxIter = cgLoop a n tol maxIter (x0.getD (Arr.new n)) r r
      (cgAt n a.mat b.vec (x0.elim (fun _ => 0) Arr.vec) 0).rr := by
    have h2' : b.sub ax = .ok r := h2
    simp only [conjugateGradient, hb.isVec.len', h1, h2', h3, Res.ok_bind]
  rw [e]
  rcases cgLoop_iter ha.isMat hn tol (it := cgAt n a.mat b.vec (x0.elim (fun _ => 0) Arr.vec)) (fun _ => rfl) maxIter 0 hx hr'
    hr' (fun i h1 h2 => absurd h1 (by omega)) (fun i h => absurd h (by omega)) with ⟨e, h4, h5⟩ | ⟨xf, i, h4, h5, h6⟩
  · rw [Nat.zero_add] at h5
    exact Or.inl ⟨e, h4, h5⟩
  · rw [Nat.zero_add] at h6
    exact Or.inr ⟨xf, _, h4, h5.shape, fun j hj => h5.vec hj, h6⟩

/-- **C98** `CgEnds` leaves no choice: there is one way to end. -/
theorem C98_one_end {A : Nat → Nat → α} {tol : α} {it : Nat → CgIt α} {m : Nat} {o o' : Except CgErr (Nat → α)}
    (h : CgEnds n A tol it m o) (h' : CgEnds n A tol it m o') : o = o' := by
  have key : ∀ {b : Bool}, b = true → b = false → False := by intro b h h'; rw [h] at h'; cases h'
  cases h with
  | done k a1 a2 a3 a4 a5 =>
    cases h' with
    | done l b1 b2 b3 b4 b5 =>
      rcases Nat.lt_trichotomy k l with hlt | rfl | hlt
      · exact (key a3 (b4 k a1 hlt)).elim
      · rfl
      · exact (key b3 (a4 l b1 hlt)).elim
    | stuck l b2 b3 b4 b5 =>
      rcases Nat.lt_or_ge l k with hlt | hge
      · exact (key b3 (a5 l hlt)).elim
      · exact (key a3 (b4 k a1 hge)).elim
    | out b4 b5 => exact (key a3 (b4 k a1 a2)).elim
  | stuck k a2 a3 a4 a5 =>
    cases h' with
    | done l b1 b2 b3 b4 b5 =>
      rcases Nat.lt_or_ge k l with hlt | hge
      · exact (key a3 (b5 k hlt)).elim
      · exact (key b3 (a4 l b1 hge)).elim
    | stuck l b2 b3 b4 b5 => rfl
    | out b4 b5 => exact (key a3 (b5 k a2)).elim
  | out a4 a5 =>
    cases h' with
    | done l b1 b2 b3 b4 b5 => exact (key b3 (a4 l b1 b2)).elim
    | stuck l b2 b3 b4 b5 => exact (key b3 (a5 l b2)).elim
    | out b4 b5 => rfl

end Ellalgo
