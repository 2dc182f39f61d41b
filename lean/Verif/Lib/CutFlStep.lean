import Verif.Lib.CutFl

/-! One ellipsoid update in rounded arithmetic, for any strategy whose answer is close to a good cut. -/

namespace Ellalgo
open Matrix
open scoped ComplexOrder
variable {u : ℝ} {R : Rounding u} {n : Nat}

/-- scaling a rounded quotient back -/
theorem rnd_div_back {x W : ℝ} (hW : 0 < W) (y : ℝ) (ε K : ℝ) (h : |x / W - y| ≤ ε) (hy : |y| ≤ K) :
    |R.rnd (x / W ^ 2) * W - y| ≤ ε + u * (K + ε) := by
  have h0 := R.unit_nonneg
  have e := R.err (x / W ^ 2)
  have e1 : x / W ^ 2 * W = x / W := by field_simp
  have h1 : |R.rnd (x / W ^ 2) * W - x / W| ≤ u * |x / W| := by
    rw [← e1, ← sub_mul, abs_mul, abs_mul, ← mul_assoc]
    exact mul_le_mul_of_nonneg_right e (abs_nonneg _)
  have h2 : |x / W| ≤ K + ε := by
    have := abs_add_le (x / W - y) y
    rw [sub_add_cancel] at this
    linarith
  have h3 := abs_add_le (R.rnd (x / W ^ 2) * W - x / W) (x / W - y)
  rw [sub_add_sub_cancel] at h3
  have := mul_le_mul_of_nonneg_left h2 h0
  linarith

/-- the Euclidean size of a vector with bounded entries -/
theorem dot_self_entries {v c : Fin n → ℝ} {u E : ℝ} (hu : 0 ≤ u) (hE : 0 ≤ E) (h : ∀ i, |v i| ≤ u * |c i| + E) :
    v ⬝ᵥ v ≤ (u * norm2 c + √n * E) ^ 2 := by
  have h1 : norm2 v ≤ norm2 (u • (fun i => |c i|) + fun _ => E) := norm2_mono (fun i => by simpa using h i)
  have h2 := norm2_add (u • (fun i => |c i|)) (fun _ : Fin n => E)
  rw [norm2_smul, abs_of_nonneg hu, norm2_abs] at h2
  have h3 : norm2 (fun _ : Fin n => E) = √n * E := by
    unfold norm2
    simp only [dotProduct, Finset.sum_const, Finset.card_univ, Fintype.card_fin, nsmul_eq_mul]
    rw [Real.sqrt_mul (by positivity), Real.sqrt_mul_self hE]
  rw [h3] at h2
  rw [← norm2_sq, ← pow_two]
  exact pow_le_pow_left₀ (norm2_nonneg v) (h1.trans h2) 2

/-- one update in rounded arithmetic, for any strategy whose answer `ρ`, `σ` is close to `r`, `s` -/
theorem Ell.rounded_update {e : Ell (Fl R)} {grad : Arr (Fl R)} (he : e.Shaped n) (hn : 2 ≤ n) (hd : e.noDeferTrick = false)
    (hsym : (e.mq.flMat n).IsSymm) {B lam : ℝ} (hl : 0 < lam)
    (hlam : ∀ v : Fin n → ℝ, lam * (v ⬝ᵥ v) ≤ v ⬝ᵥ (e.mq.flMat n *ᵥ v)) (hB : ∀ i j, |e.mq.flMat n i j| ≤ B)
    (hg : grad.IsVecShape n) (hG : grad.flVec n ≠ 0) (strategy : Fl R → CutStatus × Triple (Fl R)) {ρ σ δ : Fl R}
    (hstr : strategy (e.kappa * Ell.om n e.mq.mat grad.vec) = (.success, ρ, σ, δ)) {ω k r s ζ₁ ζ η D : ℝ}
    (hω : ω = grad.flVec n ⬝ᵥ (e.mq.flMat n *ᵥ grad.flVec n)) (hk0 : 0 < k)
    (hsig0 : 0 ≤ s) (hsig1 : s < 1) (hr0 : 0 ≤ r) (hrW : r / √ω ≤ k)
    (hρ : |ρ.val / √(Ell.om n e.mq.mat grad.vec).val - r / √ω| ≤ ζ₁ * k) (hσ : |σ.val - s| ≤ ζ₁)
    (hζ₁ : ζ₁ ≤ 1) (hζζ : ζ₁ + 2 * u ≤ ζ) (hθ : quadErr u n B lam ≤ ζ) (hζ : ζ ≤ 1 / 8) (hη0 : 0 ≤ η) (hη1 : η < 1)
    (hη : 8 * ζ * B * n ≤ η * ((1 - s) * lam)) (hD0 : 0 ≤ D)
    (hD : (u * norm2 (e.xc.flVec n) + √n * (4 * ζ * (k * √B))) ^ 2 ≤ D ^ 2 * ((1 - s) * lam)) :
    ∃ e', e.updateCore grad strategy = .ok (.success, e') ∧ e'.Shaped n ∧ e'.helper = e.helper ∧ e'.noDeferTrick = false ∧
      e'.kappa = e.kappa * δ ∧ (e'.mq.flMat n).IsSymm ∧
      (∀ v : Fin n → ℝ, (1 - η) * (1 - s) * lam * (v ⬝ᵥ v) ≤ v ⬝ᵥ (e'.mq.flMat n *ᵥ v)) ∧
      (∀ i j, |e'.mq.flMat n i j| ≤ (1 + 8 * ζ) * B) ∧
      (e'.mq.flMat n).det ≤ (1 + η) ^ n * ((1 - s) * (e.mq.flMat n).det) ∧ e'.tsq = e.kappa * Ell.om n e.mq.mat grad.vec ∧
      ∀ X, ∀ x ∈ ellipsoid (cutM (e.mq.flMat n) (grad.flVec n) s) X
          (e.xc.flVec n - (r / ω) • (e.mq.flMat n *ᵥ grad.flVec n)),
        x ∈ ellipsoid (e'.mq.flMat n) ((√X + D) ^ 2 / (1 - η)) (e'.xc.flVec n) := by
  have h0 := R.unit_nonneg
  have hM := posDef_of_lower hsym hl hlam
  have hω0 : 0 < ω := hω ▸ quad_pos hM hG
  have hlB : lam ≤ B := lam_le_entry hlam hB ⟨0, by omega⟩
  have hB0 : 0 < B := by linarith
  obtain ⟨hωh0, -, hdir⟩ := dir_err (R := R) e.mq.mat grad.vec (M := e.mq.flMat n) (fun _ _ => rfl) hn hsym hl hlam hB
    (hθ.trans hζ) (G := grad.flVec n) rfl hG
  rw [← hω] at hdir
  have h12 := quadErr_ge h0 hn hl hlB
  rcases Ell.updateCore_spec he.1.isMat he.2.isVec hg.isVec (by omega) strategy hstr with
    ⟨h, _⟩ | ⟨_, e', h, hm', hx', hk', hh', hd', hts'⟩
  · exact absurd rfl h
  rw [hd] at hm' hk' hd'
  set M := e.mq.flMat n with hMd
  set G := grad.flVec n with hGd
  set ωh := (Ell.om n e.mq.mat grad.vec).val with hωh
  set Wh := √ωh with hWh
  have hWh0 : 0 < Wh := Real.sqrt_pos.2 hωh0
  have hWh2 : Wh ^ 2 = ωh := Real.sq_sqrt hωh0.le
  set W := √ω with hW
  have hW0 : 0 < W := Real.sqrt_pos.2 hω0
  have hW2 : W * W = ω := Real.mul_self_sqrt hω0.le
  have hS0 := Real.sqrt_nonneg B
  have hS2 : √B ^ 2 = B := Real.sq_sqrt hB0.le
  have hrW0 : 0 ≤ r / W := div_nonneg hr0 hW0.le
  have hζ₁0 : 0 ≤ ζ₁ := (abs_nonneg _).trans hσ
  have hζ0 : 0 ≤ ζ := by linarith
  have hph : ∀ i : Fin n, |(Ell.gt n e.mq.mat grad.vec i).val / Wh - (M *ᵥ G) i / W| ≤ 2 * ζ * √B := fun i =>
    (hdir i).2.trans (mul_le_mul_of_nonneg_right (by linarith) hS0)
  -- the two factors
  have ha : |R.rnd (ρ.val / ωh) * Wh - r / W| ≤ ζ * k := by
    have := rnd_div_back (R := R) (x := ρ.val) hWh0 (r / W) (ζ₁ * k) k hρ (by rw [abs_of_nonneg hrW0]; exact hrW)
    rw [hWh2] at this
    refine this.trans ?_
    have t1 : ζ₁ * k ≤ 1 * k := mul_le_mul_of_nonneg_right hζ₁ hk0.le
    have t2 : u * (k + ζ₁ * k) ≤ u * (2 * k) := mul_le_mul_of_nonneg_left (by linarith) h0
    have t3 := mul_le_mul_of_nonneg_right hζζ hk0.le
    linarith
  have hb : |R.rnd (σ.val / ωh) * Wh ^ 2 - s| ≤ ζ := by
    rw [hWh2]
    have e1 := R.err (σ.val / ωh)
    have h1 : |R.rnd (σ.val / ωh) * ωh - σ.val| ≤ u * |σ.val| := by
      have e2 : σ.val = σ.val / ωh * ωh := by field_simp
      conv_lhs => rw [e2]
      conv_rhs => rw [e2]
      rw [show σ.val / ωh * ωh / ωh = σ.val / ωh by field_simp, ← sub_mul, abs_mul, abs_mul, ← mul_assoc]
      exact mul_le_mul_of_nonneg_right e1 (abs_nonneg _)
    have h2 : |σ.val| ≤ 2 := by
      have := abs_add_le (σ.val - s) s
      rw [sub_add_cancel, abs_of_nonneg hsig0] at this
      linarith
    have h3 := abs_add_le (R.rnd (σ.val / ωh) * ωh - σ.val) (σ.val - s)
    rw [sub_add_sub_cancel] at h3
    have := mul_le_mul_of_nonneg_left h2 h0
    linarith
  -- entries of the result
  have hgtW : ∀ i : Fin n, (Ell.gt n e.mq.mat grad.vec i).val = Wh * ((Ell.gt n e.mq.mat grad.vec i).val / Wh) := fun i => by
    field_simp
  have hc : ∀ i : Fin n, |e'.xc.flVec n i - (e.xc.flVec n - (r / ω) • (M *ᵥ G)) i| ≤
      u * |e.xc.flVec n i| + 4 * ζ * (k * √B) := by
    intro i
    have e1 : e'.xc.flVec n i =
        R.rnd ((e.xc.vec i).val - R.rnd (R.rnd (ρ.val / ωh) * (Ell.gt n e.mq.mat grad.vec i).val)) := by
      show (e'.xc.vec i).val = _
      rw [hx'.vec i.2]
      rfl
    have e2 : (e.xc.flVec n - (r / ω) • (M *ᵥ G)) i = (e.xc.vec i).val - r / W * ((M *ᵥ G) i / W) := by
      show (e.xc.vec i).val - r / ω * (M *ᵥ G) i = _
      rw [← hW2]
      field_simp
    rw [e1, e2, hgtW i]
    exact xc_entry hWh0 hk0.le hS0 hrW0 hrW ha (hdir i).1 (hph i) hζ (h12.trans hθ)
  have hmat : ∀ i j : Fin n, |e'.mq.flMat n i j - cutM M G s i j| ≤ 8 * ζ * B := by
    have key : ∀ i j : Fin n, |R.rnd (M i j - R.rnd (R.rnd (R.rnd (σ.val / ωh) * (Ell.gt n e.mq.mat grad.vec i).val) *
        (Ell.gt n e.mq.mat grad.vec j).val)) - cutM M G s i j| ≤ 8 * ζ * B := by
      intro i j
      have e2 : cutM M G s i j = M i j - s * ((M *ᵥ G) i / W * ((M *ᵥ G) j / W)) := by
        rw [cutM, ← hω]
        simp only [Matrix.sub_apply, Matrix.smul_apply, vecMulVec_apply, smul_eq_mul]
        rw [← hW2]
        field_simp
      have := mq_entry (R := R) (m := M i j) hWh0 hS0 hsig0 hsig1.le hb (hdir i).1 (hph i) (hdir j).1 (hph j)
        (by rw [hS2]; exact hB i j) hζ (h12.trans hθ)
      rw [← hgtW, ← hgtW, hS2] at this
      rw [e2]
      exact this
    intro i j
    have e1 : e'.mq.flMat n i j = (newMq e.mq.mat (Ell.gt n e.mq.mat grad.vec) (σ / Ell.om n e.mq.mat grad.vec) i j).val := by
      show (e'.mq.mat i j).val = _
      rw [hm'.mat i.2 j.2]
      rfl
    rw [e1]
    unfold newMq
    split_ifs with hij
    · exact key i j
    · have hcs : cutM M G s i j = cutM M G s j i := (cutM_symm hsym G s).apply j i
      rw [hcs]
      exact key j i
  -- the new matrix
  have hsym' : (e'.mq.flMat n).IsSymm := by
    ext i j
    show (e'.mq.mat j i).val = (e'.mq.mat i j).val
    rw [hm'.mat j.2 i.2, hm'.mat i.2 j.2]
    exact congrArg Fl.val (newMq_symm _ _ _ _ _)
  have hcutPos := cutM_posDef hM hG hsig1
  have hs1 : 0 < 1 - s := by linarith
  have hcut : ∀ v : Fin n → ℝ, (1 - s) * lam * (v ⬝ᵥ v) ≤ v ⬝ᵥ (cutM M G s *ᵥ v) := fun v => by
    have t1 := cutM_lower hM hG hsig0 v
    have t2 := mul_le_mul_of_nonneg_left (hlam v) hs1.le
    linarith
  have hpert : ∀ v : Fin n → ℝ, (1 - η) * (v ⬝ᵥ (cutM M G s *ᵥ v)) ≤ v ⬝ᵥ (e'.mq.flMat n *ᵥ v) :=
    perturb_quad hcut (by positivity) hη0 hmat hη
  have hlow : ∀ v : Fin n → ℝ, (1 - η) * (1 - s) * lam * (v ⬝ᵥ v) ≤ v ⬝ᵥ (e'.mq.flMat n *ᵥ v) := fun v => by
    have := mul_le_mul_of_nonneg_left (hcut v) (by linarith : 0 ≤ 1 - η)
    have := hpert v
    linarith
  have hpos' := posDef_of_lower hsym' (by have : 0 < 1 - η := by linarith
                                          positivity) hlow
  refine ⟨e', h, ⟨hm'.shape, hx'.shape⟩, hh', hd', by simpa using hk', hsym', hlow, fun i j => ?_, ?_, hts', ?_⟩
  · have t1 := cutM_entry hM hG hsig0 hsig1 hB0.le hB i j
    have t2 := abs_add_le (e'.mq.flMat n i j - cutM M G s i j) (cutM M G s i j)
    rw [sub_add_cancel] at t2
    linarith [hmat i j]
  · rw [← cutM_det hM s hG]
    exact det_perturb hcutPos hpos' (perturb_quad_upper hcut (by positivity) hmat hη hη0)
  intro X x hex
  refine ellipsoid_perturb hcutPos hpos' (by linarith) hD0 hpert ?_ hex
  refine (inv_quad_le hcutPos (mul_pos hs1 hl) hcut _).trans ?_
  rw [div_le_iff₀ (mul_pos hs1 hl)]
  refine le_trans (dot_self_entries h0 (by positivity) (c := e.xc.flVec n) (E := 4 * ζ * (k * √B)) fun i => ?_) hD
  have := hc i
  rw [abs_sub_comm] at this
  exact this

theorem Ell.rounded_cut {e : Ell (Fl R)} {grad : Arr (Fl R)} (he : e.Shaped n) (hn : 2 ≤ n) (hd : e.noDeferTrick = false)
    (hκ : 0 < e.kappa.val) (hsym : (e.mq.flMat n).IsSymm) {B lam : ℝ} (hl : 0 < lam)
    (hlam : ∀ v : Fin n → ℝ, lam * (v ⬝ᵥ v) ≤ v ⬝ᵥ (e.mq.flMat n *ᵥ v)) (hB : ∀ i j, |e.mq.flMat n i j| ≤ B)
    (hg : grad.IsVecShape n) (hG : grad.flVec n ≠ 0) (strategy : Fl R → CutStatus × Triple (Fl R)) {ρ σ δ : Fl R}
    (hstr : strategy (e.kappa * Ell.om n e.mq.mat grad.vec) = (.success, ρ, σ, δ)) {ω τ β r s d ζ₁ ζ η D : ℝ}
    (hω : ω = grad.flVec n ⬝ᵥ (e.mq.flMat n *ᵥ grad.flVec n)) (hτ : τ = √(e.kappa.val * ω))
    (hgood : GoodCut (e.kappa.val * ω) β τ r s d) (hβ : 0 ≤ β) (hr0 : 0 ≤ r) (hrτ : r ≤ τ)
    (hρ : |ρ.val / √(Ell.om n e.mq.mat grad.vec).val - r / √ω| ≤ ζ₁ * √e.kappa.val) (hσ : |σ.val - s| ≤ ζ₁)
    (hζ₁ : ζ₁ ≤ 1) (hζζ : ζ₁ + 2 * u ≤ ζ) (hθ : quadErr u n B lam ≤ ζ) (hζ : ζ ≤ 1 / 8) (hη0 : 0 ≤ η) (hη1 : η < 1)
    (hη : 8 * ζ * B * n ≤ η * ((1 - s) * lam)) (hD0 : 0 ≤ D)
    (hD : (u * norm2 (e.xc.flVec n) + √n * (4 * ζ * (√e.kappa.val * √B))) ^ 2 ≤ D ^ 2 * ((1 - s) * lam)) :
    ∃ e', e.updateCore grad strategy = .ok (.success, e') ∧ e'.Shaped n ∧ e'.helper = e.helper ∧ e'.noDeferTrick = false ∧
      e'.kappa = e.kappa * δ ∧ (e'.mq.flMat n).IsSymm ∧
      (∀ v : Fin n → ℝ, (1 - η) * (1 - s) * lam * (v ⬝ᵥ v) ≤ v ⬝ᵥ (e'.mq.flMat n *ᵥ v)) ∧
      (∀ i j, |e'.mq.flMat n i j| ≤ (1 + 8 * ζ) * B) ∧
      (e'.mq.flMat n).det ≤ (1 + η) ^ n * ((1 - s) * (e.mq.flMat n).det) ∧ e'.tsq = e.kappa * Ell.om n e.mq.mat grad.vec ∧
      ∀ t, 1 ≤ t → ∀ x ∈ ellipsoid (e.mq.flMat n) (t ^ 2 * e.kappa.val) (e.xc.flVec n),
        grad.flVec n ⬝ᵥ (x - e.xc.flVec n) + β ≤ 0 →
        x ∈ ellipsoid (e'.mq.flMat n)
          ((√(e.kappa.val * (t ^ 2 - 1 + d + s / (1 - s) * (t * (t - 1)))) + D) ^ 2 / (1 - η)) (e'.xc.flVec n) := by
  have hM := posDef_of_lower hsym hl hlam
  have hω0 : 0 < ω := hω ▸ quad_pos hM hG
  have hk0 : 0 < √e.kappa.val := Real.sqrt_pos.2 hκ
  have hrW : r / √ω ≤ √e.kappa.val := by
    rw [div_le_iff₀ (Real.sqrt_pos.2 hω0), ← Real.sqrt_mul hκ.le, ← hτ]; exact hrτ
  obtain ⟨e', h1, h2, h3, h4, h5, h6, h7, h8, h9, h10, h11⟩ := Ell.rounded_update he hn hd hsym hl hlam hB hg hG strategy hstr hω hk0
    hgood.sig0 hgood.sig1 hr0 hrW hρ hσ hζ₁ hζζ hθ hζ hη0 hη1 hη hD0 hD
  refine ⟨e', h1, h2, h3, h4, h5, h6, h7, h8, h9, h10, fun t ht x hx hcutx => h11 _ x ?_⟩
  have hex := inflate_exact hM hG hκ.le (hω ▸ hgood) (hτ ▸ Real.sqrt_nonneg _)
    (by rw [hτ, ← hω]; exact Real.mul_self_sqrt (by positivity)) hβ ht hx hcutx
  rw [← hω] at hex
  exact hex

end Ellalgo
