import Verif.Lib.CgFl
import Verif.Props.CgIterates
import Verif.Props.RoundedPower

/-! C98: what `Ok(x)` from `conjugate_gradient` says about the true residual in rounded arithmetic. -/

namespace Ellalgo
open Matrix
variable {u : ℝ} {R : Rounding u} {n : Nat}

theorem gap_consts (h0 : 0 ≤ u) (hn : 0 < n) (hs : (n + 5) * u ≤ 1 / 16) :
    u ≤ 1 / 96 ∧ 6 * u ≤ (n + 5) * u ∧ 0 ≤ u / (1 - u) ∧ u / (1 - u) ≤ 96 / 95 * u ∧ 1 / (1 - u) ≤ 96 / 95 ∧
      (1 + u) ^ (n + 2) - 1 ≤ 16 / 15 * ((n + 5) * u) ∧ (1 + u) ^ (n + 1) - 1 ≤ 16 / 15 * ((n + 5) * u) := by
  have hn1 : (1 : ℝ) ≤ n := by exact_mod_cast hn
  have h6 : 6 * u ≤ (n + 5) * u := mul_le_mul_of_nonneg_right (by linarith) h0
  have hu : u ≤ 1 / 96 := by linarith
  have h1 : 1 / (1 - u) ≤ 96 / 95 := by rw [div_le_div_iff₀ (by linarith) (by norm_num)]; linarith
  obtain ⟨c1, -, -, -⟩ := powerConsts (n := n) h0 rfl hs
  refine ⟨hu, h6, div_nonneg h0 (by linarith), ?_, h1, c1, ?_⟩
  · rw [div_eq_mul_one_div, mul_comm]
    exact mul_le_mul_of_nonneg_right h1 h0
  · have : (1 + u) ^ (n + 1) ≤ (1 + u) ^ (n + 2) := pow_le_pow_right₀ (by linarith) (by omega)
    linarith

theorem gap_le (h0 : 0 ≤ u) (hn : 0 < n) (hs : (n + 5) * u ≤ 1 / 16) {L X B : ℝ} (hL : 0 ≤ L) (hX0 : 0 ≤ X) (hB : 0 ≤ B) :
    u / (1 - u) * (B + L * X) + L * (((1 + u) ^ (n + 2) - 1 + u) * ((2 + u / (1 - u)) * X / (1 - u)) + u / (1 - u) * X) ≤
      3 * ((n + 5) * u) * (L * X + B) := by
  obtain ⟨c1, c2, c3, c4, c5, c6, -⟩ := gap_consts h0 hn hs
  set h := (n + 5) * u with hh
  have hh0 : 0 ≤ h := by linarith
  have hg : 0 ≤ (1 + u) ^ (n + 2) - 1 := by
    have : (1 : ℝ) ≤ (1 + u) ^ (n + 2) := one_le_pow₀ (by linarith)
    linarith
  set γ := (1 + u) ^ (n + 2) - 1
  set u' := u / (1 - u)
  have hP : (2 + u') * X / (1 - u) ≤ 204 / 100 * X := by
    rw [mul_div_assoc, div_eq_mul_one_div X, ← mul_assoc, mul_right_comm]
    refine mul_le_mul_of_nonneg_right ?_ hX0
    have : (2 + u') * (1 / (1 - u)) ≤ (2 + 1 / 95) * (96 / 95) :=
      mul_le_mul (by linarith) c5 (by apply one_div_nonneg.2; linarith) (by norm_num)
    refine this.trans (by norm_num)
  have hP0 : 0 ≤ (2 + u') * X / (1 - u) := div_nonneg (mul_nonneg (by linarith) hX0) (by linarith)
  have h1 : (γ + u) * ((2 + u') * X / (1 - u)) ≤ (16 / 15 * h + 1 / 6 * h) * (204 / 100 * X) :=
    mul_le_mul (by linarith) hP hP0 (by positivity)
  have h2 : u' * X ≤ (96 / 95 / 6) * h * X := mul_le_mul_of_nonneg_right (by linarith) hX0
  have h3 : u' * (B + L * X) ≤ (96 / 95 / 6) * h * (B + L * X) :=
    mul_le_mul_of_nonneg_right (by linarith) (by positivity)
  have h4 := mul_le_mul_of_nonneg_left (add_le_add h1 h2) hL
  have e1 : L * ((16 / 15 * h + 1 / 6 * h) * (204 / 100 * X) + (96 / 95 / 6) * h * X) =
      ((16 / 15 + 1 / 6) * (204 / 100) + 96 / 95 / 6) * (h * (L * X)) := by ring
  have e2 : (96 / 95 / 6) * h * (B + L * X) = (96 / 95 / 6) * (h * B) + (96 / 95 / 6) * (h * (L * X)) := by ring
  have hhLX : 0 ≤ h * (L * X) := by positivity
  have hhB : 0 ≤ h * B := by positivity
  have e3 : 3 * h * (L * X + B) = 3 * (h * (L * X)) + 3 * (h * B) := by ring
  rw [e3]
  rw [e1] at h4
  rw [e2] at h3
  linarith

theorem carried_le {A : Nat → Nat → Fl R} {b : Nat → Fl R} {L X : ℝ} (hL : 0 ≤ L)
    (hop : ∀ w : Fin n → ℝ, norm2 (absMat (realMat n A) *ᵥ w) ≤ L * norm2 w) (s : CgIt (Fl R)) (hX : norm2 (realVec n s.x) ≤ X) :
    norm2 (realVec n s.r) ≤ norm2 (realVec n b) + L * X + norm2 (gapV n A b s) := by
  have e : realVec n s.r = realVec n b + (-(realMat n A *ᵥ realVec n s.x) + -(gapV n A b s)) := by
    unfold gapV; abel
  rw [e]
  refine (norm2_add _ _).trans ?_
  have h1 := norm2_add (-(realMat n A *ᵥ realVec n s.x)) (-(gapV n A b s))
  rw [norm2_neg, norm2_neg] at h1
  have h2 := (mulVec_bound hop (realVec n s.x)).trans (mul_le_mul_of_nonneg_left hX hL)
  linarith

/-- **C98** (drift)  In rounded arithmetic the residual the method carries along differs from the true residual `b - A x` of the
`k`-th iterate by at most `4 (k+1) (n+5) u (L X + ‖b‖)`, when `X` bounds the iterates so far and `L` the norm of `|A|`. -/
theorem C98_residual_drift (hn : 0 < n) (hs : (n + 5) * u ≤ 1 / 16) {A : Nat → Nat → Fl R} {b x : Nat → Fl R} {L X : ℝ} {k : Nat}
    (hk : (k + 1) * u ≤ 1 / 8) (hL : 0 ≤ L) (hop : ∀ w : Fin n → ℝ, norm2 (absMat (realMat n A) *ᵥ w) ≤ L * norm2 w)
    (hX : ∀ j ≤ k, norm2 (realVec n (cgAt n A b x j).x) ≤ X) :
    norm2 (realVec n b - realMat n A *ᵥ realVec n (cgAt n A b x k).x - realVec n (cgAt n A b x k).r) ≤
      4 * (k + 1) * ((n + 5) * u) * (L * X + norm2 (realVec n b)) := by
  have h0 := R.unit_nonneg
  obtain ⟨c1, c2, c3, c4, c5, c6, c7⟩ := gap_consts h0 hn hs
  have hX0 : 0 ≤ X := (norm2_nonneg _).trans (hX 0 (Nat.zero_le _))
  have hb0 := norm2_nonneg (realVec n b)
  have hu1 : u < 1 := by linarith
  set u' := u / (1 - u) with hu'
  set E := 3 * ((n + 5) * u) * (L * X + norm2 (realVec n b)) with hE
  have hE0 : 0 ≤ E := by positivity
  have hu'1 : u' ≤ 1 / 95 := by linarith
  have key : ∀ j ≤ k, (1 - u') ^ (j + 1) * norm2 (gapV n A b (cgAt n A b x j)) ≤ (j + 1) * E := by
    intro j
    induction j with
    | zero =>
      intro _
      have h1 := gap_first hu1 hop hL b x (hX 0 (Nat.zero_le _))
      have h2 := carried_le (b := b) hL hop (cgFirst n A b x) (hX 0 (Nat.zero_le _))
      have h3 := mul_le_mul_of_nonneg_left h2 c3
      have h4 := gap_le h0 hn hs hL hX0 hb0
      have h5 : ((1 + u) ^ (n + 1) - 1) * (L * X) ≤ L * (((1 + u) ^ (n + 2) - 1 + u) * ((2 + u') * X / (1 - u)) + u' * X) := by
        have hg : (1 + u) ^ (n + 1) - 1 ≤ (1 + u) ^ (n + 2) - 1 + u := by
          have : (1 + u) ^ (n + 1) ≤ (1 + u) ^ (n + 2) := pow_le_pow_right₀ (by linarith) (by omega)
          linarith
        have hg0 : 0 ≤ (1 + u) ^ (n + 1) - 1 := by
          have : (1 : ℝ) ≤ (1 + u) ^ (n + 1) := one_le_pow₀ (by linarith)
          linarith
        have hP : X ≤ (2 + u') * X / (1 - u) := by
          rw [le_div_iff₀ (by linarith)]
          nlinarith [mul_nonneg c3 hX0, mul_nonneg h0 hX0]
        have := mul_le_mul_of_nonneg_left (mul_le_mul hg hP hX0 (by linarith)) hL
        have h6 : 0 ≤ L * (u' * X) := by positivity
        calc ((1 + u) ^ (n + 1) - 1) * (L * X) = L * (((1 + u) ^ (n + 1) - 1) * X) := by ring
          _ ≤ _ := by linarith
      show (1 - u') ^ (0 + 1) * norm2 (gapV n A b (cgFirst n A b x)) ≤ _
      simp only [zero_add, pow_one, Nat.cast_zero, one_mul]
      have e : (1 - u') * norm2 (gapV n A b (cgFirst n A b x)) =
        norm2 (gapV n A b (cgFirst n A b x)) - u' * norm2 (gapV n A b (cgFirst n A b x)) := by ring
      rw [e]
      linarith
    | succ j ih =>
      intro hj
      have ih := ih (by omega)
      set s := cgAt n A b x j with hs'
      have h1 := gap_step hu1 hL hop b s (hX j (by omega)) (hX (j + 1) hj)
      have h2 := carried_le (b := b) hL hop (cgNext n A s) (hX (j + 1) hj)
      have h3 := mul_le_mul_of_nonneg_left h2 c3
      have h4 := gap_le h0 hn hs hL hX0 hb0
      have h5 := norm2_sub_le (gapV n A b (cgNext n A s)) (gapV n A b s)
      have h6 : (1 - u') * norm2 (gapV n A b (cgNext n A s)) ≤ norm2 (gapV n A b s) + E := by
        have e : (1 - u') * norm2 (gapV n A b (cgNext n A s)) =
          norm2 (gapV n A b (cgNext n A s)) - u' * norm2 (gapV n A b (cgNext n A s)) := by ring
        rw [e]
        linarith
      have hp0 : 0 ≤ (1 - u') ^ (j + 1) := pow_nonneg (by linarith) _
      have hp1 : (1 - u') ^ (j + 1) ≤ 1 := pow_le_one₀ (by linarith) (by linarith)
      show (1 - u') ^ (j + 1 + 1) * norm2 (gapV n A b (cgNext n A s)) ≤ _
      calc (1 - u') ^ (j + 1 + 1) * norm2 (gapV n A b (cgNext n A s))
          = (1 - u') ^ (j + 1) * ((1 - u') * norm2 (gapV n A b (cgNext n A s))) := by rw [pow_succ, mul_assoc]
        _ ≤ (1 - u') ^ (j + 1) * (norm2 (gapV n A b s) + E) := mul_le_mul_of_nonneg_left h6 hp0
        _ ≤ (j + 1) * E + 1 * E := by
            rw [mul_add]
            exact add_le_add ih (mul_le_mul_of_nonneg_right hp1 hE0)
        _ = _ := by push_cast; ring
  have hkey := key k le_rfl
  have hpow : 3 / 4 ≤ (1 - u') ^ (k + 1) := by
    have h1 := one_add_mul_le_pow (a := -u') (by linarith) (k + 1)
    have h2 : ((k + 1 : ℕ) : ℝ) * u' ≤ 96 / 95 * (1 / 8) := by
      push_cast
      have := mul_le_mul_of_nonneg_left c4 (by positivity : (0 : ℝ) ≤ k + 1)
      linarith
    have e : (1 + -u') = 1 - u' := by ring
    rw [e] at h1
    linarith
  have hg0 := norm2_nonneg (gapV n A b (cgAt n A b x k))
  show norm2 (gapV n A b (cgAt n A b x k)) ≤ _
  have := mul_le_mul_of_nonneg_right hpow hg0
  have e : 4 * (k + 1) * ((n + 5) * u) * (L * X + norm2 (realVec n b)) = 4 / 3 * ((k + 1) * E) := by rw [hE]; ring
  rw [e]
  linarith

theorem done_small (hn : 0 < n) (hs : (n + 5) * u ≤ 1 / 16) {tol : Fl R} {r : Nat → Fl R}
    (h : (Scalar.sqrt (dotV n r r)).val < tol.val) : norm2 (realVec n r) ≤ (1 + 3 * ((n + 5) * u)) * tol.val := by
  have h0 := R.unit_nonneg
  obtain ⟨c1, c2, -, -, -, -, -⟩ := gap_consts h0 hn hs
  have hu1 : u < 1 := by linarith
  obtain ⟨h1, -⟩ := EllStable.sum_near (R := R) hu1 (p := fun i => r i * r i)
    (q := fun i => (r i).val * (r i).val) n (fun i _ => mul_self_nonneg _) (fun i _ =>
      (Near.rnd (R := R) hu1 (mul_self_nonneg _)).mono h0 hu1 (by norm_num) (R.nonneg (mul_self_nonneg _)) (mul_self_nonneg _))
  rw [sumTo_real, Finset.sum_range] at h1
  have h2 : Near u (n + 2) (dotV n r r).val (realVec n r ⬝ᵥ realVec n r) := h1
  have h3 : Near u (n + 2 + 1) (Scalar.sqrt (dotV n r r)).val (norm2 (realVec n r)) :=
    (h2.sqrt h0 hu1).round hu1 (Real.sqrt_nonneg _)
  obtain ⟨-, -, -, h4⟩ := powerConsts (n := n) h0 rfl hs
  have hN := norm2_nonneg (realVec n r)
  have h5 : (1 - (n + 5) * u) * norm2 (realVec n r) ≤ tol.val :=
    (mul_le_mul_of_nonneg_right h4 hN).trans (h3.1.trans h.le)
  set h' := ((n : ℝ) + 5) * u
  have hh0 : 0 ≤ h' := by linarith
  have h6 : 1 ≤ (1 + 3 * h') * (1 - h') := by nlinarith
  calc norm2 (realVec n r) = 1 * norm2 (realVec n r) := (one_mul _).symm
    _ ≤ (1 + 3 * h') * (1 - h') * norm2 (realVec n r) := mul_le_mul_of_nonneg_right h6 hN
    _ = (1 + 3 * h') * ((1 - h') * norm2 (realVec n r)) := by ring
    _ ≤ _ := mul_le_mul_of_nonneg_left h5 (by linarith)

/-- **C98** (true residual)  If `conjugate_gradient` returns `Ok(x)` in rounded arithmetic, then `x` is the iterate of some number
`k` between `1` and `max_iter`, and its true residual is below the tolerance up to a relative `3 (n+5) u` and an absolute
`4 (k+1) (n+5) u (L X + ‖b‖)`, where `X` is any bound on the iterates made and `L` any bound on the norm of `|A|`. -/
theorem C98_true_residual (hn : 0 < n) (hs : (n + 5) * u ≤ 1 / 16) {a b x : Arr (Fl R)} {x0 : Option (Arr (Fl R))} {L : ℝ}
    {tol : Fl R} {maxIter : Nat} (ha : a.IsMatShape n n) (hb : b.IsVecShape n) (hx0 : ∀ x, x0 = some x → x.IsVecShape n)
    (hL : 0 ≤ L) (hop : ∀ w : Fin n → ℝ, norm2 (absMat (a.flMat n) *ᵥ w) ≤ L * norm2 w)
    (hrun : conjugateGradient a b x0 tol maxIter = .ok (.ok x)) :
    ∃ k, 1 ≤ k ∧ k ≤ maxIter ∧ x.flVec n = realVec n (cgAt n a.mat b.vec (x0.elim (fun _ => 0) Arr.vec) k).x ∧
      ∀ X : ℝ, (∀ j ≤ k, norm2 (realVec n (cgAt n a.mat b.vec (x0.elim (fun _ => 0) Arr.vec) j).x) ≤ X) → (k + 1) * u ≤ 1 / 8 →
      norm2 (b.flVec n - a.flMat n *ᵥ x.flVec n) ≤
        (1 + 3 * ((n + 5) * u)) * tol.val + 4 * (k + 1) * ((n + 5) * u) * (L * X + norm2 (b.flVec n)) := by
  have h0 := R.unit_nonneg
  rcases C98_iterates hn ha hb hx0 tol maxIter with ⟨e, h1, -⟩ | ⟨x', v, h1, h2, h3, h4⟩
  · rw [hrun] at h1
    simp at h1
  · rw [hrun] at h1
    simp only [Res.ok.injEq, Except.ok.injEq] at h1
    subst h1
    set it := cgAt n a.mat b.vec (x0.elim (fun _ => 0) Arr.vec) with hit
    cases h4 with
    | done k k1 k2 k3 k4 k5 =>
      have hx : x.flVec n = realVec n (it k).x := by
        ext i
        show (x.vec i).val = ((it k).x i).val
        rw [h3 i i.2]
      refine ⟨k, k1, k2, hx, fun X hX hk => ?_⟩
      have hd := C98_residual_drift hn hs hk hL hop (b := b.vec) (x := x0.elim (fun _ => 0) Arr.vec) (X := X) hX
      rw [← hit, ← hx] at hd
      obtain ⟨l, rfl⟩ : ∃ l, k = l + 1 := ⟨k - 1, by omega⟩
      have hlt : (Scalar.sqrt (dotV n (it (l + 1)).r (it (l + 1)).r)).val < tol.val := of_decide_eq_true k3
      have hr := done_small hn hs hlt
      have h5 := norm2_sub_le (b.flVec n - a.flMat n *ᵥ x.flVec n) (realVec n (it (l + 1)).r)
      have h6 : norm2 (b.flVec n - a.flMat n *ᵥ x.flVec n - realVec n (it (l + 1)).r) ≤ _ := hd
      exact (h5.trans (add_le_add h6 hr)).trans (le_of_eq (add_comm _ _))

end Ellalgo
