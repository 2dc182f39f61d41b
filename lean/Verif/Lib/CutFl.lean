import Verif.Lib.Inflate
import Verif.Lib.Rounded
import Verif.Spec.RoundedCut
import Verif.Props.RoundedProps

/-! Forward error of one ellipsoid update in rounded arithmetic. -/

namespace Ellalgo
open Matrix
open scoped ComplexOrder
variable {u : ℝ} {R : Rounding u} {n : Nat}

/-- one entry of the new centre -/
theorem xc_entry {c a W y k S p ph ζ : ℝ} (hW : 0 < W) (hk : 0 ≤ k) (hS : 0 ≤ S) (hy0 : 0 ≤ y) (hy : y ≤ k)
    (ha : |a * W - y| ≤ ζ * k) (hp : |p| ≤ S) (hph : |ph - p| ≤ 2 * ζ * S) (hζ : ζ ≤ 1 / 8) (hu : 12 * u ≤ ζ) :
    |R.rnd (c - R.rnd (a * (W * ph))) - (c - y * p)| ≤ u * |c| + 4 * ζ * (k * S) := by
  have h0 := R.unit_nonneg
  have hζ0 : 0 ≤ ζ := by linarith
  have hkS : 0 ≤ k * S := mul_nonneg hk hS
  set z := a * (W * ph) with hz
  have hph' : |ph| ≤ (1 + 2 * ζ) * S := by
    have := abs_add_le (ph - p) p
    rw [sub_add_cancel] at this
    linarith
  have e1 : |z - y * p| ≤ 13 / 4 * ζ * (k * S) := by
    have e : z - y * p = (a * W - y) * ph + y * (ph - p) := by rw [hz]; ring
    rw [e]
    refine (abs_add_le _ _).trans ?_
    rw [abs_mul, abs_mul, abs_of_nonneg hy0]
    have t1 : |a * W - y| * |ph| ≤ ζ * k * ((1 + 2 * ζ) * S) := mul_le_mul ha hph' (abs_nonneg _) (by positivity)
    have t2 : y * |ph - p| ≤ k * (2 * ζ * S) := mul_le_mul hy hph (abs_nonneg _) hk
    have t3 : ζ * k * ((1 + 2 * ζ) * S) ≤ 5 / 4 * ζ * (k * S) := by
      have : ζ * (1 + 2 * ζ) ≤ 5 / 4 * ζ := by nlinarith
      calc _ = ζ * (1 + 2 * ζ) * (k * S) := by ring
        _ ≤ _ := mul_le_mul_of_nonneg_right this hkS
    linarith
  have e2 : |y * p| ≤ k * S := by
    rw [abs_mul, abs_of_nonneg hy0]
    exact mul_le_mul hy hp (abs_nonneg _) hk
  have e3 : |z| ≤ 3 / 2 * (k * S) := by
    have := abs_add_le (z - y * p) (y * p)
    rw [sub_add_cancel] at this
    nlinarith
  have e4 := R.err z
  have e5 := R.abs_le z
  have e6 := R.err (c - R.rnd z)
  have hu1 : u ≤ 1 / 64 := by linarith
  have e7 : |R.rnd z| ≤ 2 * (k * S) := by nlinarith
  have e8 : |c - R.rnd z| ≤ |c| + 2 * (k * S) := (abs_sub _ _).trans (by linarith)
  have e9 : |R.rnd (c - R.rnd z) - (c - y * p)| ≤ |R.rnd (c - R.rnd z) - (c - R.rnd z)| + |R.rnd z - z| + |z - y * p| := by
    have t1 := abs_sub (R.rnd (c - R.rnd z) - (c - R.rnd z)) ((R.rnd z - z) + (z - y * p))
    have t2 := abs_add_le (R.rnd z - z) (z - y * p)
    have t3 : R.rnd (c - R.rnd z) - (c - y * p) =
      R.rnd (c - R.rnd z) - (c - R.rnd z) - ((R.rnd z - z) + (z - y * p)) := by ring
    rw [t3]
    linarith
  have e10 := mul_le_mul_of_nonneg_left e8 h0
  have e11 := mul_le_mul_of_nonneg_left e3 h0
  have e12 := mul_le_mul_of_nonneg_right hu hkS
  nlinarith

/-- one entry of the new matrix -/
theorem mq_entry {m b W s S p p' ph ph' ζ : ℝ} (hW : 0 < W) (hS : 0 ≤ S) (hs0 : 0 ≤ s) (hs : s ≤ 1)
    (hb : |b * W ^ 2 - s| ≤ ζ) (hp : |p| ≤ S) (hph : |ph - p| ≤ 2 * ζ * S) (hp' : |p'| ≤ S) (hph' : |ph' - p'| ≤ 2 * ζ * S)
    (hm : |m| ≤ S ^ 2) (hζ : ζ ≤ 1 / 8) (hu : 12 * u ≤ ζ) :
    |R.rnd (m - R.rnd (R.rnd (b * (W * ph)) * (W * ph'))) - (m - s * (p * p'))| ≤ 8 * ζ * S ^ 2 := by
  have h0 := R.unit_nonneg
  have hζ0 : 0 ≤ ζ := by linarith
  have hB : 0 ≤ S ^ 2 := by positivity
  have hu1 : u ≤ 1 / 64 := by linarith
  have a1 : |ph| ≤ 5 / 4 * S := by
    have := abs_add_le (ph - p) p
    rw [sub_add_cancel] at this
    nlinarith
  have a2 : |ph'| ≤ 5 / 4 * S := by
    have := abs_add_le (ph' - p') p'
    rw [sub_add_cancel] at this
    nlinarith
  set z := b * W ^ 2 * (ph * ph') with hz
  have e1 : |z - s * (p * p')| ≤ 25 / 4 * ζ * S ^ 2 := by
    have e : z - s * (p * p') = (b * W ^ 2 - s) * (ph * ph') + s * ((ph - p) * ph' + p * (ph' - p')) := by rw [hz]; ring
    rw [e]
    have t1 : |(b * W ^ 2 - s) * (ph * ph')| ≤ ζ * (5 / 4 * S * (5 / 4 * S)) := by
      rw [abs_mul, abs_mul]
      exact mul_le_mul hb (mul_le_mul a1 a2 (abs_nonneg _) (by positivity)) (by positivity) hζ0
    have t2 : |(ph - p) * ph' + p * (ph' - p')| ≤ 2 * ζ * S * (5 / 4 * S) + S * (2 * ζ * S) := by
      refine (abs_add_le _ _).trans ?_
      rw [abs_mul, abs_mul]
      exact add_le_add (mul_le_mul hph a2 (abs_nonneg _) (by positivity)) (mul_le_mul hp hph' (abs_nonneg _) hS)
    have t3 : |s * ((ph - p) * ph' + p * (ph' - p'))| ≤ 2 * ζ * S * (5 / 4 * S) + S * (2 * ζ * S) := by
      rw [abs_mul, abs_of_nonneg hs0]
      refine (mul_le_mul hs t2 (abs_nonneg _) zero_le_one).trans (by rw [one_mul])
    refine (abs_add_le _ _).trans ((add_le_add t1 t3).trans ?_)
    have : 0 ≤ ζ * S ^ 2 := by positivity
    nlinarith
  have e2 : |s * (p * p')| ≤ S ^ 2 := by
    rw [abs_mul, abs_mul, abs_of_nonneg hs0, pow_two]
    calc s * (|p| * |p'|) ≤ 1 * (S * S) :=
          mul_le_mul hs (mul_le_mul hp hp' (abs_nonneg _) hS) (by positivity) zero_le_one
      _ = S * S := one_mul _
  have e3 : |z| ≤ 2 * S ^ 2 := by
    have := abs_add_le (z - s * (p * p')) (s * (p * p'))
    rw [sub_add_cancel] at this
    nlinarith
  set y := R.rnd (b * (W * ph)) * (W * ph') with hy
  have e4 : |y - z| ≤ u * |z| := by
    have e : y - z = (R.rnd (b * (W * ph)) - b * (W * ph)) * (W * ph') := by rw [hy, hz]; ring
    have e' : |z| = |b * (W * ph)| * |W * ph'| := by rw [← abs_mul, hz]; congr 1; ring
    rw [e, e', abs_mul]
    exact (mul_le_mul_of_nonneg_right (R.err _) (abs_nonneg _)).trans (le_of_eq (mul_assoc _ _ _))
  have e5 : |y| ≤ 9 / 4 * S ^ 2 := by
    have := abs_add_le (y - z) z
    rw [sub_add_cancel] at this
    nlinarith
  have e6 := R.err y
  have e7 : |R.rnd y| ≤ 5 / 2 * S ^ 2 := by
    have := R.abs_le y
    nlinarith
  have e8 := R.err (m - R.rnd y)
  have e9 : |m - R.rnd y| ≤ 7 / 2 * S ^ 2 := (abs_sub _ _).trans (by linarith)
  have e10 : |R.rnd (m - R.rnd y) - (m - s * (p * p'))| ≤
      |R.rnd (m - R.rnd y) - (m - R.rnd y)| + |R.rnd y - y| + |y - z| + |z - s * (p * p')| := by
    have t1 := abs_sub (R.rnd (m - R.rnd y) - (m - R.rnd y)) (((R.rnd y - y) + (y - z)) + (z - s * (p * p')))
    have t2 := abs_add_le ((R.rnd y - y) + (y - z)) (z - s * (p * p'))
    have t3 := abs_add_le (R.rnd y - y) (y - z)
    have t4 : R.rnd (m - R.rnd y) - (m - s * (p * p')) =
      R.rnd (m - R.rnd y) - (m - R.rnd y) - (((R.rnd y - y) + (y - z)) + (z - s * (p * p'))) := by ring
    rw [t4]
    linarith
  have e11 := mul_le_mul_of_nonneg_left e9 h0
  have e12 := mul_le_mul_of_nonneg_left e5 h0
  have e13 := mul_le_mul_of_nonneg_left e3 h0
  have e14 := mul_le_mul_of_nonneg_right hu hB
  nlinarith

section Direction
variable {M : Matrix (Fin n) (Fin n) ℝ} {B lam : ℝ}

theorem lam_le_entry (hlam : ∀ v : Fin n → ℝ, lam * (v ⬝ᵥ v) ≤ v ⬝ᵥ (M *ᵥ v)) (hB : ∀ i j, |M i j| ≤ B) (i : Fin n) : lam ≤ B := by
  have h := hlam (Pi.single i 1)
  simp at h
  exact h.trans ((le_abs_self _).trans (hB i i))

theorem posDef_of_lower (hs : M.IsSymm) (hl : 0 < lam) (hlam : ∀ v : Fin n → ℝ, lam * (v ⬝ᵥ v) ≤ v ⬝ᵥ (M *ᵥ v)) : M.PosDef := by
  rw [posDef_iff_real]
  refine ⟨hs, fun x hx => lt_of_lt_of_le (mul_pos hl ?_) (hlam x)⟩
  exact lt_of_le_of_ne (dot_self_nonneg' x) (fun h => hx (dotProduct_self_eq_zero.1 h.symm))

theorem quadErr_ge (hu : 0 ≤ u) (hn : 2 ≤ n) (hl : 0 < lam) (hB : lam ≤ B) : 12 * u ≤ quadErr u n B lam := by
  have h1 : (1 : ℝ) ≤ B / lam := (one_le_div hl).2 hB
  have hn2 : (2 : ℝ) ≤ n := by exact_mod_cast hn
  have h2 : (2 : ℝ) ≤ n * (B / lam) := by nlinarith
  have h3 : 6 * u ≤ (1 + u) ^ (2 * n + 2) - 1 := by
    have := one_add_mul_le_pow (show (-2 : ℝ) ≤ u by linarith) (2 * n + 2)
    push_cast at this
    nlinarith
  unfold quadErr
  calc 12 * u = 6 * u * 2 := by ring
    _ ≤ _ := mul_le_mul h3 h2 (by norm_num) (by linarith)

/-- the error in `gᵀMg` -/
theorem om_rel_err (m : Nat → Nat → Fl R) (g : Nat → Fl R) (hm : ∀ i j : Fin n, (m i j).val = M i j)
    (hl : 0 < lam) (hlam : ∀ v : Fin n → ℝ, lam * (v ⬝ᵥ v) ≤ v ⬝ᵥ (M *ᵥ v)) (hB : ∀ i j, |M i j| ≤ B) (hB0 : 0 ≤ B) :
    |(Ell.om n m g).val - (fun i : Fin n => (g i).val) ⬝ᵥ (M *ᵥ fun i : Fin n => (g i).val)| ≤
      quadErr u n B lam * ((fun i : Fin n => (g i).val) ⬝ᵥ (M *ᵥ fun i : Fin n => (g i).val)) := by
  have h0 := R.unit_nonneg
  set G : Fin n → ℝ := fun i => (g i).val with hG
  have h1 := om_fl_err n m g
  have e1 : (∑ i : Fin n, (g i).val * ∑ j : Fin n, (m i j).val * (g j).val) = G ⬝ᵥ (M *ᵥ G) := by
    simp only [dotProduct, mulVec, hm, hG]
  rw [e1] at h1
  refine h1.trans ?_
  have h2 : (∑ i : Fin n, ∑ j : Fin n, |(g i).val| * |(m i j).val| * |(g j).val|) ≤ B * (∑ i, |G i|) ^ 2 := by
    rw [pow_two, Finset.sum_mul_sum, Finset.mul_sum]
    refine Finset.sum_le_sum fun i _ => ?_
    rw [Finset.mul_sum]
    refine Finset.sum_le_sum fun j _ => ?_
    have := mul_le_mul_of_nonneg_right (mul_le_mul_of_nonneg_left (hB i j) (abs_nonneg (G i))) (abs_nonneg (G j))
    rw [hm]
    calc _ ≤ |G i| * B * |G j| := this
      _ = _ := by ring
  have h3 := mul_le_mul_of_nonneg_left (sum_abs_sq_le G) hB0
  have h4 : (n : ℝ) * (G ⬝ᵥ G) * B ≤ n * (B / lam) * (G ⬝ᵥ (M *ᵥ G)) := by
    have : (G ⬝ᵥ G) ≤ (G ⬝ᵥ (M *ᵥ G)) / lam := by
      rw [le_div_iff₀ hl]; linarith [hlam G]
    calc (n : ℝ) * (G ⬝ᵥ G) * B = n * B * (G ⬝ᵥ G) := by ring
      _ ≤ n * B * ((G ⬝ᵥ (M *ᵥ G)) / lam) := mul_le_mul_of_nonneg_left this (by positivity)
      _ = _ := by ring
  have hp : 0 ≤ (1 + u) ^ (2 * n + 2) - 1 := by
    have : (1 : ℝ) ≤ (1 + u) ^ (2 * n + 2) := one_le_pow₀ (by linarith)
    linarith
  unfold quadErr
  rw [mul_assoc]
  exact mul_le_mul_of_nonneg_left (by linarith) hp

/-- square roots of nearby numbers -/
theorem sqrt_rel_err {a b θ : ℝ} (ha : 0 < a) (hb : 0 < b) (h : |b - a| ≤ θ * a) : |√b - √a| ≤ θ * √a := by
  have hW0 : 0 < √a := Real.sqrt_pos.2 ha
  have hWh0 : 0 < √b := Real.sqrt_pos.2 hb
  have hWW : √a * √a = a := Real.mul_self_sqrt ha.le
  have hWhWh : √b * √b = b := Real.mul_self_sqrt hb.le
  have e : |√b - √a| * (√b + √a) = |b - a| := by
    rw [← abs_of_pos (by linarith : 0 < √b + √a), ← abs_mul]
    congr 1
    rw [show (√b - √a) * (√b + √a) = √b * √b - √a * √a by ring, hWW, hWhWh]
  have h1 : |√b - √a| * √a ≤ θ * √a * √a := by
    have : |√b - √a| * √a ≤ |√b - √a| * (√b + √a) := mul_le_mul_of_nonneg_left (by linarith) (abs_nonneg _)
    rw [e] at this
    calc _ ≤ _ := this
      _ ≤ θ * a := h
      _ = θ * √a * √a := by rw [mul_assoc, hWW]
  exact le_of_mul_le_mul_right h1 hW0

/-- the error in `M g` -/
theorem gt_rel_err (m : Nat → Nat → Fl R) (g : Nat → Fl R) (hm : ∀ i j : Fin n, (m i j).val = M i j) (hn : 2 ≤ n)
    (hl : 0 < lam) (hlam : ∀ v : Fin n → ℝ, lam * (v ⬝ᵥ v) ≤ v ⬝ᵥ (M *ᵥ v)) (hB : ∀ i j, |M i j| ≤ B)
    {G : Fin n → ℝ} (hGd : G = fun i : Fin n => (g i).val) (i : Fin n) :
    |(Ell.gt n m g i).val - (M *ᵥ G) i| ≤ quadErr u n B lam / 2 * √(B * (G ⬝ᵥ (M *ᵥ G))) := by
  have h0 := R.unit_nonneg
  have hlB : lam ≤ B := lam_le_entry hlam hB ⟨0, by omega⟩
  have hB0 : 0 < B := by linarith
  set θ := quadErr u n B lam with hθd
  have hθ0 : 0 ≤ θ := by have := quadErr_ge h0 hn hl hlB; linarith
  have hω : 0 ≤ G ⬝ᵥ (M *ᵥ G) := (mul_nonneg hl.le (dot_self_nonneg' G)).trans (hlam G)
  set C1 : ℝ := (1 + u) ^ (n + 1) - 1 with hC1
  have hC10 : 0 ≤ C1 := by
    have : (1 : ℝ) ≤ (1 + u) ^ (n + 1) := one_le_pow₀ (by linarith)
    linarith
  have h1 := sumTo_fl_err n (m i) g
  rw [Finset.sum_range, Finset.sum_range] at h1
  have e1 : (∑ j : Fin n, (m i j).val * (g j).val) = (M *ᵥ G) i := by
    simp only [dotProduct, mulVec, hm, hGd]
  rw [e1] at h1
  have h2 : (∑ j : Fin n, |(m i j).val| * |(g j).val|) ≤ B * ∑ j, |G j| := by
    rw [Finset.mul_sum]
    refine Finset.sum_le_sum fun j _ => ?_
    rw [hm, hGd]
    exact mul_le_mul_of_nonneg_right (hB i j) (abs_nonneg _)
  have h3 : |(Ell.gt n m g i).val - (M *ᵥ G) i| ≤ C1 * (B * ∑ j, |G j|) :=
    h1.trans (mul_le_mul_of_nonneg_left h2 hC10)
  refine h3.trans ?_
  have h4 := sum_abs_sq_le G
  set ω := G ⬝ᵥ (M *ᵥ G)
  have h5 : (∑ j, |G j|) ^ 2 ≤ n * (ω / lam) := by
    refine h4.trans (mul_le_mul_of_nonneg_left ?_ (by positivity))
    rw [le_div_iff₀ hl]; linarith [hlam G]
  set K : ℝ := n * (B / lam) with hK
  have hK1 : 1 ≤ K := by
    have h1 : (1 : ℝ) ≤ B / lam := (one_le_div hl).2 hlB
    have hn2 : (2 : ℝ) ≤ n := by exact_mod_cast hn
    rw [hK]; nlinarith
  have hθ2 : 2 * C1 * K ≤ θ := by
    have : 2 * C1 ≤ (1 + u) ^ (2 * n + 2) - 1 := by
      have e : (1 + u) ^ (2 * n + 2) = (C1 + 1) ^ 2 := by rw [hC1, sub_add_cancel, ← pow_mul]; congr 1; ring
      rw [e]; nlinarith
    rw [hθd, quadErr]
    exact mul_le_mul_of_nonneg_right this (by linarith)
  apply (abs_le_of_sq_le_sq' _ (by positivity)).2
  calc (C1 * (B * ∑ j, |G j|)) ^ 2 = C1 ^ 2 * B ^ 2 * (∑ j, |G j|) ^ 2 := by ring
    _ ≤ C1 ^ 2 * B ^ 2 * (n * (ω / lam)) := mul_le_mul_of_nonneg_left h5 (by positivity)
    _ = C1 ^ 2 * K * (B * ω) := by rw [hK]; ring
    _ ≤ C1 ^ 2 * K ^ 2 * (B * ω) := by
        refine mul_le_mul_of_nonneg_right (mul_le_mul_of_nonneg_left ?_ (by positivity)) (by positivity)
        nlinarith
    _ = (C1 * K) ^ 2 * (B * ω) := by ring
    _ ≤ (θ / 2) ^ 2 * (B * ω) := by
        refine mul_le_mul_of_nonneg_right (pow_le_pow_left₀ (by positivity) (by linarith) 2) (by positivity)
    _ = (θ / 2 * √(B * ω)) ^ 2 := by rw [mul_pow, Real.sq_sqrt (by positivity)]

/-- quotients of nearby numbers -/
theorem quot_err {gh gi Wh W S θ : ℝ} (hW0 : 0 < W) (hWh0 : 0 < Wh) (hS : 0 ≤ S) (hθ0 : 0 ≤ θ) (hθ : θ ≤ 1 / 8)
    (hWd : |Wh - W| ≤ θ * W) (hgt : |gh - gi| ≤ θ / 2 * (S * W)) (hgi : |gi| ≤ S * W) :
    |gh / Wh - gi / W| ≤ 2 * θ * S := by
  have e : gh / Wh - gi / W = ((gh - gi) * W - gi * (Wh - W)) / (Wh * W) := by
    field_simp
    ring
  have hlow : 7 / 8 * W ≤ Wh := by
    have := (abs_le.1 hWd).1
    nlinarith
  rw [e, abs_div, abs_of_pos (mul_pos hWh0 hW0), div_le_iff₀ (mul_pos hWh0 hW0)]
  have t1 : |(gh - gi) * W| ≤ θ / 2 * (S * W) * W := by
    rw [abs_mul, abs_of_pos hW0]
    exact mul_le_mul_of_nonneg_right hgt hW0.le
  have t2 : |gi * (Wh - W)| ≤ S * W * (θ * W) := by
    rw [abs_mul]
    exact mul_le_mul hgi hWd (abs_nonneg _) (by positivity)
  have t3 := abs_sub ((gh - gi) * W) (gi * (Wh - W))
  have t4 : θ * S * W * (7 / 8 * W) ≤ θ * S * W * Wh := mul_le_mul_of_nonneg_left hlow (by positivity)
  have t5 : 0 ≤ θ * S * W * W := by positivity
  nlinarith

/-- the direction `M g / √(gᵀMg)` as computed -/
theorem dir_err (m : Nat → Nat → Fl R) (g : Nat → Fl R) (hm : ∀ i j : Fin n, (m i j).val = M i j) (hn : 2 ≤ n)
    (hs : M.IsSymm) (hl : 0 < lam) (hlam : ∀ v : Fin n → ℝ, lam * (v ⬝ᵥ v) ≤ v ⬝ᵥ (M *ᵥ v)) (hB : ∀ i j, |M i j| ≤ B)
    (hθ : quadErr u n B lam ≤ 1 / 8) {G : Fin n → ℝ} (hGd : G = fun i : Fin n => (g i).val) (hG : G ≠ 0) :
    0 < (Ell.om n m g).val ∧ |√(Ell.om n m g).val - √(G ⬝ᵥ (M *ᵥ G))| ≤ quadErr u n B lam * √(G ⬝ᵥ (M *ᵥ G)) ∧
      ∀ i : Fin n, |(M *ᵥ G) i / √(G ⬝ᵥ (M *ᵥ G))| ≤ √B ∧
      |(Ell.gt n m g i).val / √(Ell.om n m g).val - (M *ᵥ G) i / √(G ⬝ᵥ (M *ᵥ G))| ≤ 2 * quadErr u n B lam * √B := by
  have h0 := R.unit_nonneg
  have hM := posDef_of_lower hs hl hlam
  have hω := quad_pos hM hG
  have hlB : lam ≤ B := lam_le_entry hlam hB ⟨0, by omega⟩
  have hB0 : 0 < B := by linarith
  have herr := om_rel_err m g hm hl hlam hB hB0.le
  rw [← hGd] at herr
  have hθ0 : 0 ≤ quadErr u n B lam := by have := quadErr_ge h0 hn hl hlB; linarith
  have hωh0 : 0 < (Ell.om n m g).val := by
    have := (abs_le.1 herr).1
    nlinarith
  have hWd := sqrt_rel_err hω hωh0 herr
  have hW0 : 0 < √(G ⬝ᵥ (M *ᵥ G)) := Real.sqrt_pos.2 hω
  refine ⟨hωh0, hWd, fun i => ?_⟩
  have hgi : |(M *ᵥ G) i| ≤ √B * √(G ⬝ᵥ (M *ᵥ G)) := by
    apply abs_le_of_sq_le_sq _ (by positivity)
    have h1 := dir_sq_le hM (g := G) i
    have h2 : M i i ≤ B := (le_abs_self _).trans (hB i i)
    rw [mul_pow, Real.sq_sqrt hB0.le, Real.sq_sqrt hω.le]
    exact h1.trans ((mul_le_mul_of_nonneg_left h2 hω.le).trans (le_of_eq (mul_comm _ _)))
  refine ⟨?_, ?_⟩
  · rw [abs_div, abs_of_pos hW0, div_le_iff₀ hW0]
    exact hgi
  · have hgt := gt_rel_err m g hm hn hl hlam hB hGd i
    rw [Real.sqrt_mul hB0.le] at hgt
    exact quot_err hW0 (Real.sqrt_pos.2 hωh0) (Real.sqrt_nonneg _) hθ0 hθ hWd hgt hgi

end Direction
end Ellalgo
