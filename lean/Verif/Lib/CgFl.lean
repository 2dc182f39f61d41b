import Verif.Spec.CgIter
import Verif.Lib.PowerFlMath
import Verif.Lib.LdltFl

/-! The conjugate gradient recurrence in rounded arithmetic: how far the carried residual drifts from the true one. -/

namespace Ellalgo
open Matrix
variable {u : ℝ} {R : Rounding u} {n : Nat}

theorem norm2_sub_le (v w : Fin n → ℝ) : norm2 v ≤ norm2 (v - w) + norm2 w := by
  have := norm2_add (v - w) w
  rwa [sub_add_cancel] at this

theorem norm2_neg (v : Fin n → ℝ) : norm2 (-v) = norm2 v := by
  have := norm2_smul (-1) v
  simpa using this

/-- a rounded product of a matrix and a vector -/
theorem mulV_err (A : Nat → Nat → Fl R) (v : Nat → Fl R) (i : Fin n) :
    |(mulV n A v i).val - (realMat n A *ᵥ realVec n v) i| ≤
      ((1 + u) ^ (n + 1) - 1) * (absMat (realMat n A) *ᵥ fun j => |realVec n v j|) i := by
  have := sumTo_fl_err n (A i) v
  rw [Finset.sum_range, Finset.sum_range] at this
  exact this

/-- one entry of the step `x' = x + s p` -/
theorem step_x (hu : u < 1) {x p s : ℝ} :
    |s * p| ≤ ((1 + u / (1 - u)) * |R.rnd (x + R.rnd (s * p))| + |x|) / (1 - u) ∧
    |R.rnd (x + R.rnd (s * p)) - x - s * p| ≤ u / (1 - u) * |R.rnd (x + R.rnd (s * p))| + u * |s * p| := by
  have h1 := R.err (s * p)
  have h2 := Rounding.err_rev (R := R) hu (x + R.rnd (s * p))
  set q := R.rnd (s * p)
  set x' := R.rnd (x + q)
  have h3 : |q| ≤ |x'| + |x| + |x' - (x + q)| := by
    have : q = x' - x - (x' - (x + q)) := by ring
    calc |q| = |x' - x - (x' - (x + q))| := by rw [← this]
      _ ≤ |x' - x| + |x' - (x + q)| := abs_sub _ _
      _ ≤ _ := by linarith [abs_sub x' x]
  have h4 : |s * p| ≤ |q| + u * |s * p| := by
    have := abs_sub_le (s * p) q 0
    rw [sub_zero, sub_zero, abs_sub_comm] at this
    linarith
  constructor
  · rw [le_div_iff₀ (by linarith)]
    linarith
  · have : x' - x - s * p = (x' - (x + q)) + (q - s * p) := by ring
    rw [this]
    exact (abs_add_le _ _).trans (add_le_add h2 h1)

/-- one entry of the step `r' = r - s w` -/
theorem step_r (hu : u < 1) {r w s : ℝ} :
    |r - R.rnd (r - R.rnd (s * w)) - s * w| ≤ u / (1 - u) * |R.rnd (r - R.rnd (s * w))| + u * |s * w| := by
  have h1 := R.err (s * w)
  have h2 := Rounding.err_rev (R := R) hu (r - R.rnd (s * w))
  set t := R.rnd (s * w)
  set r' := R.rnd (r - t)
  have : r - r' - s * w = -(r' - (r - t)) + (t - s * w) := by ring
  rw [this]
  refine (abs_add_le _ _).trans ?_
  rw [abs_neg]
  exact add_le_add h2 h1

/-- the true residual less the carried one -/
noncomputable def gapV (n : Nat) (A : Nat → Nat → Fl R) (b : Nat → Fl R) (s : CgIt (Fl R)) : Fin n → ℝ :=
  realVec n b - realMat n A *ᵥ realVec n s.x - realVec n s.r

/-- how much one step adds to the gap -/
theorem gap_step (hu : u < 1) {L X : ℝ} {A : Nat → Nat → Fl R} (hL : 0 ≤ L)
    (hop : ∀ w : Fin n → ℝ, norm2 (absMat (realMat n A) *ᵥ w) ≤ L * norm2 w) (b : Nat → Fl R) (s : CgIt (Fl R))
    (hX : norm2 (realVec n s.x) ≤ X) (hX' : norm2 (realVec n (cgNext n A s).x) ≤ X) :
    norm2 (gapV n A b (cgNext n A s) - gapV n A b s) ≤ u / (1 - u) * norm2 (realVec n (cgNext n A s).r) +
      L * (((1 + u) ^ (n + 2) - 1 + u) * ((2 + u / (1 - u)) * X / (1 - u)) + u / (1 - u) * X) := by
  have h0 := R.unit_nonneg
  set σ := (s.rr / s.curv n A).val with hσ
  set Am := realMat n A with hAm
  set x := realVec n s.x with hx
  set r := realVec n s.r with hr
  set p := realVec n s.p with hp
  set x' := realVec n (cgNext n A s).x with hx'
  set r' := realVec n (cgNext n A s).r with hr'
  set w : Fin n → ℝ := fun i => (mulV n A s.p i).val with hw
  have ex : ∀ i, x' i = R.rnd (x i + R.rnd (σ * p i)) := fun i => rfl
  have er : ∀ i, r' i = R.rnd (r i - R.rnd (σ * w i)) := fun i => rfl
  set u' := u / (1 - u) with hu'
  have hu'0 : 0 ≤ u' := div_nonneg h0 (by linarith)
  set c : Fin n → ℝ := fun i => |σ * p i| with hc
  set γ := (1 + u) ^ (n + 1) - 1 with hγ
  have hγ0 : 0 ≤ γ := by
    have : (1 : ℝ) ≤ (1 + u) ^ (n + 1) := one_le_pow₀ (by linarith)
    linarith
  -- entries
  have hwe : ∀ i, |w i - (Am *ᵥ p) i| ≤ γ * (absMat Am *ᵥ fun j => |p j|) i := fun i => mulV_err A s.p i
  have hcA : ∀ i, (absMat Am *ᵥ c) i = |σ| * (absMat Am *ᵥ fun j => |p j|) i := by
    intro i
    simp only [mulVec, dotProduct, Finset.mul_sum, hc, abs_mul]
    exact Finset.sum_congr rfl fun j _ => by ring
  have hAp : ∀ i, |σ * (Am *ᵥ p) i| ≤ (absMat Am *ᵥ c) i := by
    intro i
    rw [hcA, abs_mul]
    refine mul_le_mul_of_nonneg_left ?_ (abs_nonneg _)
    simp only [mulVec, dotProduct]
    refine (Finset.abs_sum_le_sum_abs _ _).trans (le_of_eq (Finset.sum_congr rfl fun j _ => ?_))
    rw [abs_mul]; rfl
  have hse : ∀ i, |σ * w i - σ * (Am *ᵥ p) i| ≤ γ * (absMat Am *ᵥ c) i := by
    intro i
    rw [← mul_sub, abs_mul, hcA]
    have := mul_le_mul_of_nonneg_left (hwe i) (abs_nonneg σ)
    linarith
  have hsw : ∀ i, |σ * w i| ≤ (1 + γ) * (absMat Am *ᵥ c) i := by
    intro i
    have := abs_add_le (σ * w i - σ * (Am *ᵥ p) i) (σ * (Am *ᵥ p) i)
    rw [sub_add_cancel] at this
    linarith [hse i, hAp i]
  set e4 : Fin n → ℝ := x' - x - σ • p with he4
  have he4b : ∀ i, |e4 i| ≤ u' * |x' i| + u * c i := by
    intro i
    have := (step_x (R := R) hu (x := x i) (p := p i) (s := σ)).2
    rw [← ex] at this
    exact this
  have hcb : ∀ i, |c i| ≤ (1 / (1 - u)) * ((1 + u') * |x' i| + |x i|) := by
    intro i
    have := (step_x (R := R) hu (x := x i) (p := p i) (s := σ)).1
    rw [← ex] at this
    rw [hc]
    simp only [abs_abs]
    rw [one_div, inv_mul_eq_div]
    exact this
  have hX0 : 0 ≤ X := (norm2_nonneg _).trans hX
  have hcn : norm2 c ≤ (2 + u') * X / (1 - u) := by
    refine (norm2_mono (w := (1 / (1 - u)) • ((1 + u') • (fun i => |x' i|) + fun i => |x i|)) (fun i => hcb i)).trans ?_
    rw [norm2_smul, abs_of_pos (by apply one_div_pos.2; linarith)]
    have h1 := norm2_add ((1 + u') • (fun i => |x' i|)) (fun i => |x i|)
    rw [norm2_smul, abs_of_pos (by linarith), norm2_abs, norm2_abs] at h1
    have h2 : norm2 ((1 + u') • (fun i => |x' i|) + fun i => |x i|) ≤ (2 + u') * X := by
      have := mul_le_mul_of_nonneg_left hX' (by linarith : (0 : ℝ) ≤ 1 + u')
      linarith
    rw [one_div, inv_mul_eq_div]
    gcongr
  have he4n : norm2 e4 ≤ u' * X + u * norm2 c := by
    refine (norm2_mono (w := u' • (fun i => |x' i|) + u • c) (fun i => he4b i)).trans ?_
    refine (norm2_add _ _).trans ?_
    rw [norm2_smul, norm2_smul, norm2_abs, abs_of_nonneg hu'0, abs_of_nonneg h0]
    have := mul_le_mul_of_nonneg_left hX' hu'0
    linarith
  -- the gap
  have hD : gapV n A b (cgNext n A s) - gapV n A b s = (r - r' - σ • (Am *ᵥ p)) - Am *ᵥ e4 := by
    have e1 : gapV n A b (cgNext n A s) = realVec n b - Am *ᵥ x' - r' := rfl
    have e2 : gapV n A b s = realVec n b - Am *ᵥ x - r := rfl
    rw [e1, e2, he4, mulVec_sub, mulVec_sub, mulVec_smul]
    abel
  have hfirst : ∀ i, |(r - r' - σ • (Am *ᵥ p)) i| ≤ u' * |r' i| + ((1 + u) ^ (n + 2) - 1) * (absMat Am *ᵥ c) i := by
    intro i
    have h1 := step_r (R := R) hu (r := r i) (w := w i) (s := σ)
    rw [← er] at h1
    have h2 := abs_add_le (r i - r' i - σ * w i) (σ * w i - σ * (Am *ᵥ p) i)
    rw [show r i - r' i - σ * w i + (σ * w i - σ * (Am *ᵥ p) i) = (r - r' - σ • (Am *ᵥ p)) i by
      simp only [Pi.sub_apply, Pi.smul_apply, smul_eq_mul]; ring] at h2
    have h3 := mul_le_mul_of_nonneg_left (hsw i) h0
    have h4 : ((1 + u) ^ (n + 2) - 1) * (absMat Am *ᵥ c) i =
        u * ((1 + γ) * (absMat Am *ᵥ c) i) + γ * (absMat Am *ᵥ c) i := by rw [hγ]; ring
    rw [h4]
    linarith [hse i]
  have hfn : norm2 (r - r' - σ • (Am *ᵥ p)) ≤ u' * norm2 r' + ((1 + u) ^ (n + 2) - 1) * (L * norm2 c) := by
    refine (norm2_mono (w := u' • (fun i => |r' i|) + ((1 + u) ^ (n + 2) - 1) • (absMat Am *ᵥ c)) (fun i => hfirst i)).trans ?_
    refine (norm2_add _ _).trans ?_
    have hg : 0 ≤ (1 + u) ^ (n + 2) - 1 := by
      have : (1 : ℝ) ≤ (1 + u) ^ (n + 2) := one_le_pow₀ (by linarith)
      linarith
    rw [norm2_smul, norm2_smul, norm2_abs, abs_of_nonneg hu'0, abs_of_nonneg hg]
    have := mul_le_mul_of_nonneg_left (hop c) hg
    linarith
  have hA4 := (mulVec_bound hop e4).trans (mul_le_mul_of_nonneg_left he4n hL)
  rw [hD, sub_eq_add_neg]
  refine (norm2_add _ _).trans ?_
  rw [norm2_neg]
  have hg : 0 ≤ (1 + u) ^ (n + 2) - 1 + u := by
    have : (1 : ℝ) ≤ (1 + u) ^ (n + 2) := one_le_pow₀ (by linarith)
    linarith
  have h5 := mul_le_mul_of_nonneg_left (mul_le_mul_of_nonneg_left hcn hg) hL
  have e : L * (((1 + u) ^ (n + 2) - 1 + u) * ((2 + u') * X / (1 - u)) + u' * X) =
      L * (((1 + u) ^ (n + 2) - 1 + u) * ((2 + u') * X / (1 - u))) + L * (u' * X) := by ring
  have e' : L * (((1 + u) ^ (n + 2) - 1 + u) * norm2 c) =
      ((1 + u) ^ (n + 2) - 1) * (L * norm2 c) + L * (u * norm2 c) := by ring
  rw [e]
  rw [e'] at h5
  have e'' : L * (u' * X + u * norm2 c) = L * (u' * X) + L * (u * norm2 c) := by ring
  rw [e''] at hA4
  linarith

/-- the gap at the start -/
theorem gap_first (hu : u < 1) {L X : ℝ} {A : Nat → Nat → Fl R}
    (hop : ∀ w : Fin n → ℝ, norm2 (absMat (realMat n A) *ᵥ w) ≤ L * norm2 w) (hL : 0 ≤ L) (b x : Nat → Fl R)
    (hX : norm2 (realVec n x) ≤ X) :
    norm2 (gapV n A b (cgFirst n A b x)) ≤ u / (1 - u) * norm2 (realVec n (cgFirst n A b x).r) +
      ((1 + u) ^ (n + 1) - 1) * (L * X) := by
  have h0 := R.unit_nonneg
  have hγ0 : 0 ≤ (1 + u) ^ (n + 1) - 1 := by
    have : (1 : ℝ) ≤ (1 + u) ^ (n + 1) := one_le_pow₀ (by linarith)
    linarith
  have hu'0 : 0 ≤ u / (1 - u) := div_nonneg h0 (by linarith)
  have hent : ∀ i, |gapV n A b (cgFirst n A b x) i| ≤ ((u / (1 - u)) • (fun i => |realVec n (cgFirst n A b x).r i|) +
      ((1 + u) ^ (n + 1) - 1) • (absMat (realMat n A) *ᵥ fun j => |realVec n x j|)) i := by
    intro i
    have h1 := mulV_err A x i
    have h2 := Rounding.err_rev (R := R) hu ((b i).val - (mulV n A x i).val)
    have e : gapV n A b (cgFirst n A b x) i = -(R.rnd ((b i).val - (mulV n A x i).val) - ((b i).val - (mulV n A x i).val)) +
        ((mulV n A x i).val - (realMat n A *ᵥ realVec n x) i) := by
      show (b i).val - (realMat n A *ᵥ realVec n x) i - R.rnd ((b i).val - (mulV n A x i).val) = _
      ring
    rw [e]
    refine (abs_add_le _ _).trans ?_
    rw [abs_neg]
    exact add_le_add h2 h1
  refine (norm2_mono hent).trans ((norm2_add _ _).trans ?_)
  rw [norm2_smul, norm2_smul, norm2_abs, abs_of_nonneg hu'0, abs_of_nonneg hγ0]
  have := mul_le_mul_of_nonneg_left ((absMat_bound hop (realVec n x)).trans (mul_le_mul_of_nonneg_left hX hL)) hγ0
  linarith

end Ellalgo
