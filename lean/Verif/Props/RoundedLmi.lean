import Verif.Spec.RoundedLmi
import Verif.Lib.LmiOld
import Verif.Props.RoundedLdlt
import Verif.Props.Loops
import Verif.Props.NanLmi

/-! # C82, continued: the LMI oracles in rounded arithmetic -/

namespace Ellalgo
open Matrix Finset
variable {u : ℝ} {R : Rounding u} {d n : Nat}

/-- running error bound for `c - Σ xᵢ yᵢ` -/
theorem subTo_fl_err (n : Nat) (c : Fl R) (x y : Nat → Fl R) :
    |(subTo c (fun i => x i * y i) n).val - (c.val - ∑ i ∈ range n, (x i).val * (y i).val)| ≤
      ((1 + u) ^ (n + 1) - 1) * (|c.val| + ∑ i ∈ range n, |(y i).val| * |(x i).val|) := by
  have hu := R.unit_nonneg
  induction n with
  | zero => simp only [subTo, range_zero, sum_empty, sub_zero, sub_self, abs_zero, zero_add, pow_one, add_zero]
            have := abs_nonneg c.val
            nlinarith
  | succ k ih =>
    simp only [subTo, Fl.sub_val, Fl.mul_val, sum_range_succ]
    set S := (subTo c (fun i => x i * y i) k).val with hS
    set s := ∑ i ∈ range k, (x i).val * (y i).val
    set A := ∑ i ∈ range k, |(y i).val| * |(x i).val|
    set p := (x k).val * (y k).val
    have hp : |(y k).val| * |(x k).val| = |p| := by rw [mul_comm]; exact (abs_mul _ _).symm
    rw [hp]
    have hsA : |s| ≤ A := by
      refine (abs_sum_le_sum_abs _ _).trans (le_of_eq ?_)
      exact sum_congr rfl fun i _ => by rw [abs_mul, mul_comm]
    have e1 := R.err (S - R.rnd p)
    have e2 := R.err p
    have e3 := R.abs_le p
    have hcs : |c.val - s| ≤ |c.val| + A := (abs_sub _ _).trans (by linarith)
    have hSb : |S| ≤ (1 + u) ^ (k + 1) * (|c.val| + A) := by
      have : |S| ≤ |S - (c.val - s)| + |c.val - s| := by
        have := abs_add_le (S - (c.val - s)) (c.val - s)
        simpa using this
      linarith
    have hsum : |S - R.rnd p| ≤ (1 + u) ^ (k + 1) * (|c.val| + A) + (1 + u) * |p| :=
      (abs_sub _ _).trans (add_le_add hSb e3)
    have htri : |R.rnd (S - R.rnd p) - (c.val - (s + p))| ≤
        |R.rnd (S - R.rnd p) - (S - R.rnd p)| + |S - (c.val - s)| + |R.rnd p - p| := by
      have h1 := abs_sub (R.rnd (S - R.rnd p) - (S - R.rnd p) + (S - (c.val - s))) (R.rnd p - p)
      have h2 := abs_add_le (R.rnd (S - R.rnd p) - (S - R.rnd p)) (S - (c.val - s))
      have h3 : R.rnd (S - R.rnd p) - (S - R.rnd p) + (S - (c.val - s)) - (R.rnd p - p) =
        R.rnd (S - R.rnd p) - (c.val - (s + p)) := by ring
      rw [h3] at h1
      linarith
    have hum := mul_le_mul_of_nonneg_left hsum hu
    have hpow : (1 + u) ^ 2 ≤ (1 + u) ^ (k + 2) := pow_le_pow_right₀ (by linarith) (by omega)
    have hpp := mul_le_mul_of_nonneg_right hpow (abs_nonneg p)
    have hexp : (1 + u) ^ (k + 1 + 1) = (1 + u) ^ (k + 1) * (1 + u) := pow_succ _ _
    have hexp2 : (1 + u) ^ (k + 2) = (1 + u) ^ (k + 1) * (1 + u) := pow_succ _ _
    rw [hexp]
    rw [hexp2] at hpp
    nlinarith

/-- a small symmetric-shaped perturbation changes the quadratic form by at most `n` times its largest entry -/
theorem quad_perturb {M H : Matrix (Fin n) (Fin n) ℝ} {h : ℝ} (hH : ∀ i j, |M i j - H i j| ≤ h) (x : Fin n → ℝ) :
    |x ⬝ᵥ (M *ᵥ x) - x ⬝ᵥ (H *ᵥ x)| ≤ n * h * (x ⬝ᵥ x) := by
  rw [← dotProduct_sub, ← sub_mulVec]
  have e : x ⬝ᵥ ((M - H) *ᵥ x) = ∑ i, ∑ j, x i * ((M - H) i j * x j) := by
    simp only [dotProduct, mulVec, mul_sum]
  rw [e]
  have h1 : |∑ i, ∑ j, x i * ((M - H) i j * x j)| ≤ ∑ i, ∑ j, |x i| * (h * |x j|) := by
    refine (abs_sum_le_sum_abs _ _).trans (sum_le_sum fun i _ => ?_)
    refine (abs_sum_le_sum_abs _ _).trans (sum_le_sum fun j _ => ?_)
    rw [abs_mul, abs_mul]
    exact mul_le_mul_of_nonneg_left (mul_le_mul_of_nonneg_right (hH i j) (abs_nonneg _)) (abs_nonneg _)
  refine h1.trans ?_
  have e2 : ∑ i, ∑ j, |x i| * (h * |x j|) = h * (∑ i, |x i|) ^ 2 := by
    rw [sq, sum_mul_sum, mul_sum]
    apply sum_congr rfl; intro i _
    rw [mul_sum]
    apply sum_congr rfl; intro j _; ring
  rw [e2]
  have h2 : (∑ i, |x i|) ^ 2 ≤ n * (x ⬝ᵥ x) := by
    have := sq_sum_le_card_mul_sum_sq (s := (univ : Finset (Fin n))) (f := fun i => |x i|)
    simp only [card_univ, Fintype.card_fin, sq_abs] at this
    rw [dotProduct]
    simpa only [sq] using this
  rcases Nat.eq_zero_or_pos n with rfl | hn
  · simp [dotProduct]
  have hh : 0 ≤ h := (abs_nonneg _).trans (hH ⟨0, hn⟩ ⟨0, hn⟩)
  calc h * (∑ i, |x i|) ^ 2 ≤ h * (n * (x ⬝ᵥ x)) := mul_le_mul_of_nonneg_left h2 hh
    _ = _ := by ring

/-- factorisation of a matrix that is itself computed with error at most `γ s` per entry -/
theorem factor_of_approx {m : LDLTMgr (Fl R)} {getElem : Nat → Nat → Res (Fl R)} {A : Nat → Nat → Fl R}
    {M : Matrix (Fin n) (Fin n) ℝ} {s g t : ℝ} (hM : M.IsSymm)
    (hn : m.ndim = n) (hS : m.storage.IsMatShape n n) (hA : ∀ i j, j ≤ i → i < n → getElem i j = .ok (A i j))
    (hs : 0 ≤ s) (hg : 0 ≤ g) (hg1 : 15 * g ≤ 1) (ht : n * u ≤ t) (ht1 : 16 * t ≤ 1)
    (herr : ∀ i j : Fin n, |(A i j).val - M i j| ≤ g * s) (hsz : ∀ i : Fin n, |M i i| ≤ s) :
    ∃ b m', m.factor getElem = .ok (b, m') ∧
      (b = true → (M + (n * s * (16 / 5 * t + g)) • (1 : Matrix (Fin n) (Fin n) ℝ)).PosDef) ∧
      ((∃ lam, n * s * (32 / 5 * t + g) < lam ∧
        (M - lam • (1 : Matrix (Fin n) (Fin n) ℝ)).PosSemidef) → b = true) := by
  have hu0 := R.unit_nonneg
  have hnu : 16 * (n * u) ≤ 1 := by linarith
  have hnu0 : 0 ≤ n * u := by positivity
  have hn0 : (0 : ℝ) ≤ n := Nat.cast_nonneg n
  set L := lowerSym n (fun i j => (A i j).val) with hL
  have hLM : ∀ i j, |L i j - M i j| ≤ g * s := by
    intro i j
    simp only [hL, lowerSym, Matrix.of_apply]
    split
    · exact herr i j
    · rw [← hM.apply i j]; exact herr j i
  have htr : L.trace ≤ n * ((1 + g) * s) := by
    rw [Matrix.trace]
    have : ∀ i ∈ (univ : Finset (Fin n)), L.diag i ≤ (1 + g) * s := by
      intro i _
      have h1 := (abs_le.1 (hLM i i)).2
      have h2 := (abs_le.1 (hsz i)).2
      simp only [Matrix.diag]
      linarith
    have := sum_le_card_nsmul univ _ _ this
    simp only [card_univ, Fintype.card_fin, nsmul_eq_mul] at this
    exact this
  have hq : ∀ x : Fin n → ℝ, |x ⬝ᵥ (L *ᵥ x) - x ⬝ᵥ (M *ᵥ x)| ≤ n * (g * s) * (x ⬝ᵥ x) := quad_perturb hLM
  have hxx : ∀ x : Fin n → ℝ, 0 ≤ x ⬝ᵥ x := fun x => by
    rw [dotProduct]; exact sum_nonneg fun i _ => mul_self_nonneg _
  have hns : 0 ≤ n * s := by positivity
  have hb1 : n * ((1 + g) * s) ≤ 16 / 15 * (n * s) := by nlinarith
  have ht0 : 0 ≤ t := hnu0.trans ht
  have hb2 : n * u * (n * ((1 + g) * s)) ≤ t * (16 / 15 * (n * s)) :=
    mul_le_mul ht hb1 (by positivity) ht0
  obtain ⟨b, m', h1, h2⟩ := C82_factor_margin hn hS hA hnu
  refine ⟨b, m', h1, ?_, ?_⟩
  · intro hb
    subst hb
    have hp := C82_factor_accepts hn hS hA hnu h1
    rw [posDef_iff_real] at hp ⊢
    refine ⟨hM.add (isSymm_one.smul _), fun x hx => ?_⟩
    have h3 := hp.2 x hx
    rw [quad_shift] at h3 ⊢
    have h4 := (abs_le.1 (hq x)).2
    have h5 : 3 * (n * u) * L.trace ≤ n * s * (16 / 5 * t) := by
      have := mul_le_mul_of_nonneg_left htr (by linarith : 0 ≤ 3 * (n * u))
      nlinarith
    have h6 := mul_le_mul_of_nonneg_right h5 (hxx x)
    nlinarith
  · rintro ⟨lam, hl, hpsd⟩
    apply h2
    refine ⟨lam - n * (g * s), ?_, ?_, ?_⟩
    · have : 0 ≤ n * s * (32 / 5 * t) := by positivity
      nlinarith
    · have := mul_le_mul_of_nonneg_left htr (by linarith : 0 ≤ 6 * (n * u))
      nlinarith
    · refine PosSemidef.of_dotProduct_mulVec_nonneg ?_ fun x => ?_
      · rw [IsHermitian, conjTranspose_eq_transpose_of_trivial]
        exact (lowerSym_isSymm n _).sub (isSymm_one.smul _)
      · have h3 := hpsd.dotProduct_mulVec_nonneg x
        simp only [star_trivial] at h3 ⊢
        rw [sub_eq_add_neg, ← neg_smul, quad_shift] at h3 ⊢
        have h4 := (abs_le.1 (hq x)).1
        linarith

theorem flLinMat_symm {fs : List (Arr (Fl R))} {x : Fin d → ℝ} (hF : FlSymMats d n fs) : (flLinMat n fs x).IsSymm := by
  unfold flLinMat
  rw [IsSymm, transpose_sum]
  apply sum_congr rfl
  intro k _
  rw [transpose_smul]
  congr 1
  unfold flMatAt
  have hk : (k : Nat) < fs.length := by rw [hF.1]; exact k.2
  rw [show fs.getD k (Arr.new 0) = fs[k] by simp [List.getD, hk]]
  exact (hF.2 _ (List.getElem_mem hk)).2

theorem flLmiMat_symm {fs : List (Arr (Fl R))} {b : Arr (Fl R)} {x : Fin d → ℝ} (hF : FlSymMats d n fs)
    (hbs : (b.flMat n).IsSymm) : (flLmiMat n fs b x).IsSymm := hbs.sub (flLinMat_symm hF)

theorem flMatAt_eq {fs : List (Arr (Fl R))} {k : Nat} (hk : k < fs.length) (i j : Fin n) :
    flMatAt n fs k i j = (fEntry fs k i j).val := by
  unfold flMatAt
  rw [show fs.getD k (Arr.new 0) = fs[k] by simp [List.getD, hk], fEntry_eq hk]
  rfl

theorem gamma_le {k : Nat} (hu : 16 * ((k + 1 : Nat) * u) ≤ 1) (hu0 : 0 ≤ u) :
    (1 + u) ^ (k + 1) - 1 ≤ 16 / 15 * ((k + 1 : Nat) * u) := by
  have hk : 0 ≤ ((k + 1 : Nat) : ℝ) * u := by positivity
  refine (pow_one_add_le hu0 (by linarith)).trans ?_
  rw [div_le_iff₀ (by linarith)]
  nlinarith

/-- the matrix the oracle factors, as computed, and how far it is from the exact one -/
theorem lmi_entries_fl {fs : List (Arr (Fl R))} {b x : Arr (Fl R)} {o : LMIOracle (Fl R)} (hF : FlSymMats d n fs)
    (hb : b.IsMatShape n n) (hoF : o.matF = fs) (hoB : o.matB = b)
    (hx : x.IsVecShape d) (hn : 0 < n) (hu : 16 * ((n + d + 1) * u) ≤ 1) {s : ℝ}
    (hs : ∀ i j, |b.flMat n i j| + flLinSize n fs (x.flVec d) i j ≤ s) :
    ∃ (A : Nat → Nat → Fl R) (g : ℝ), (∀ i j, j ≤ i → i < n → o.elem x i j = .ok (A i j)) ∧ 0 ≤ s ∧
      g = 16 / 15 * ((d + 1) * u) ∧ 0 ≤ g ∧ 15 * g ≤ 1 ∧
      (∀ i j : Fin n, |(A i j).val - flLmiMat n fs b (x.flVec d) i j| ≤ g * s) ∧
      (∀ i : Fin n, |flLmiMat n fs b (x.flVec d) i i| ≤ s) := by
  have hu0 := R.unit_nonneg
  have hxl : x.len = d := hx.isVec.len'
  have hlen : x.len ≤ o.matF.length := by rw [hxl, hoF, hF.1]
  set A : Nat → Nat → Fl R := fun i j => subTo (o.matB.mat i j) (fun k => fEntry o.matF k i j * x.vec k) x.len with hAdef
  have hA : ∀ i j, j ≤ i → i < n → o.elem x i j = .ok (A i j) := fun i j hj hi =>
    LMIOracle.elem_generic (n := n) (by rw [hoF]; exact fun f hf => (hF.2 f hf).1) (by rw [hoB]; exact hb) hlen hi (by omega)
  have hn0 : (0 : ℝ) ≤ n := Nat.cast_nonneg n
  have hd0 : (0 : ℝ) ≤ d := Nat.cast_nonneg d
  set g := 16 / 15 * ((d + 1 : Nat) * u) with hg
  have hgc : g = 16 / 15 * ((d + 1) * u) := by rw [hg]; push_cast; ring
  have hnu : 0 ≤ n * u := by positivity
  have hdu : 0 ≤ (d + 1) * u := by positivity
  have hg0 : 0 ≤ g := by rw [hgc]; positivity
  have hg1 : 15 * g ≤ 1 := by rw [hgc]; nlinarith
  have hterm : ∀ i j : Fin n, |b.flMat n i j| + ∑ k ∈ range d, |(x.vec k).val| * |(fEntry fs k i j).val| ≤ s := by
    intro i j
    refine le_trans (le_of_eq ?_) (hs i j)
    congr 1
    rw [Finset.sum_range, flLinSize]
    apply sum_congr rfl
    intro k _
    rw [flMatAt_eq (by rw [hF.1]; exact k.2)]
    rfl
  have hval : ∀ i j : Fin n, flLmiMat n fs b (x.flVec d) i j =
      (b.mat i j).val - ∑ k ∈ range d, (fEntry fs k i j).val * (x.vec k).val := by
    intro i j
    simp only [flLmiMat, Matrix.sub_apply, flLinMat, Matrix.sum_apply, Matrix.smul_apply, smul_eq_mul]
    rw [Finset.sum_range]
    congr 1
    apply sum_congr rfl
    intro k _
    rw [flMatAt_eq (by rw [hF.1]; exact k.2), mul_comm]
    rfl
  refine ⟨A, g, hA, le_trans (by positivity) (hterm ⟨0, hn⟩ ⟨0, hn⟩), hgc, hg0, hg1, ?_, ?_⟩
  · intro i j
    rw [hval, hAdef]
    simp only [hoF, hoB, hxl]
    refine (subTo_fl_err d _ _ _).trans ?_
    have h1 : (1 + u) ^ (d + 1) - 1 ≤ g := gamma_le (by push_cast; nlinarith) hu0
    exact mul_le_mul h1 (hterm i j) (by positivity) hg0
  · intro i
    rw [hval]
    refine (abs_sub _ _).trans (le_trans ?_ (hterm i i))
    refine add_le_add (le_refl _) ((abs_sum_le_sum_abs _ _).trans (le_of_eq ?_))
    exact sum_congr rfl fun k _ => by rw [abs_mul, mul_comm]

/-- **C82** (LMI oracle) In rounded arithmetic, with `16 (n + d + 1) u ≤ 1` and `s` a bound for the sizes
`|B_ij| + Σ_k |x_k (F_k)_ij|`: `assess_feas` never panics before a cut; if it reports the point as feasible then
`B - Σ x_k F_k` is positive definite after adding `4 n (n + d + 1) u s` to its diagonal; and it does report so if the matrix
stays positive semidefinite after subtracting more than `8 n (n + d + 1) u s`. -/
theorem C82_lmi_rounded {fs : List (Arr (Fl R))} {b x : Arr (Fl R)} {o : LMIOracle (Fl R)} (hF : FlSymMats d n fs)
    (hb : b.IsMatShape n n) (hbs : (b.flMat n).IsSymm) (hoF : o.matF = fs) (hoB : o.matB = b) (hm : o.mgr.ndim = n ∧ o.mgr.storage.IsMatShape n n)
    (hx : x.IsVecShape d) (hu : 16 * ((n + d + 1 : Nat) * u) ≤ 1) {s : ℝ}
    (hs : ∀ i j, |b.flMat n i j| + flLinSize n fs (x.flVec d) i j ≤ s) :
    (∀ o', o.assess x = .ok (none, o') →
      (flLmiMat n fs b (x.flVec d) + (4 * n * (n + d + 1 : Nat) * u * s) • (1 : Matrix (Fin n) (Fin n) ℝ)).PosDef) ∧
    ((∃ lam, 8 * n * (n + d + 1 : Nat) * u * s < lam ∧
        (flLmiMat n fs b (x.flVec d) - lam • (1 : Matrix (Fin n) (Fin n) ℝ)).PosSemidef) → ∃ o', o.assess x = .ok (none, o')) := by
  have hu0 := R.unit_nonneg
  have hcast : ((n + d + 1 : Nat) : ℝ) = n + d + 1 := by push_cast; ring
  have hn0 : (0 : ℝ) ≤ n := Nat.cast_nonneg n
  have hd0 : (0 : ℝ) ≤ d := Nat.cast_nonneg d
  rw [hcast] at hu ⊢
  have hnu : 0 ≤ n * u := by positivity
  have hdu : 0 ≤ (d + 1) * u := by positivity
  rcases Nat.eq_zero_or_pos n with hnz | hn
  · -- empty matrices
    subst hnz
    refine ⟨fun o' _ => ?_, fun _ => ?_⟩
    · rw [posDef_iff_real]
      exact ⟨by ext i; exact i.elim0, fun y hy => absurd (Subsingleton.elim _ _) hy⟩
    · unfold LMIOracle.assess LDLTMgr.factor
      rw [hm.1]
      exact ⟨_, rfl⟩
  obtain ⟨A, g, hA, hs0, hgc, hg0, hg1, herr, hsz⟩ := lmi_entries_fl hF hb hoF hoB hx hn hu hs
  obtain ⟨bb, m', h1, h2, h3⟩ := factor_of_approx (t := n * u) (flLmiMat_symm hF hbs) hm.1 hm.2 hA hs0 hg0 hg1 (le_refl _)
    (by nlinarith) herr hsz
  have c1 : n * s * (16 / 5 * (n * u) + g) ≤ 4 * n * (n + d + 1) * u * s := by
    have : 16 / 5 * (n * u) + g ≤ 4 * (n + d + 1) * u := by rw [hgc]; nlinarith
    calc n * s * (16 / 5 * (n * u) + g) ≤ n * s * (4 * (n + d + 1) * u) := mul_le_mul_of_nonneg_left this (by positivity)
      _ = _ := by ring
  have c2 : n * s * (32 / 5 * (n * u) + g) ≤ 8 * n * (n + d + 1) * u * s := by
    have : 32 / 5 * (n * u) + g ≤ 8 * (n + d + 1) * u := by rw [hgc]; nlinarith
    calc n * s * (32 / 5 * (n * u) + g) ≤ n * s * (8 * (n + d + 1) * u) := mul_le_mul_of_nonneg_left this (by positivity)
      _ = _ := by ring
  have hrun : ∀ r o', o.assess x = .ok (r, o') → (r = none ↔ bb = true) := by
    intro r o' h
    unfold LMIOracle.assess at h
    rw [h1] at h
    simp only [Res.ok_bind] at h
    cases bb with
    | true =>
      simp only [if_true, Res.ok.injEq, Prod.mk.injEq] at h
      simp [← h.1]
    | false =>
      simp only [Bool.false_eq_true, if_false, Res.bind_eq_ok] at h
      obtain ⟨_, _, _, _, h⟩ := h
      simp only [Res.ok.injEq, Prod.mk.injEq] at h
      simp [← h.1]
  refine ⟨fun o' h => ?_, fun ⟨lam, hl, hpsd⟩ => ?_⟩
  · have hb1 := h2 ((hrun _ _ h).1 rfl)
    rw [posDef_iff_real] at hb1 ⊢
    refine ⟨(flLmiMat_symm hF hbs).add (isSymm_one.smul _), fun y hy => ?_⟩
    have h4 := hb1.2 y hy
    rw [quad_shift] at h4 ⊢
    have hyy : 0 ≤ y ⬝ᵥ y := by rw [dotProduct]; exact sum_nonneg fun i _ => mul_self_nonneg _
    have := mul_le_mul_of_nonneg_right c1 hyy
    linarith
  · have hb1 := h3 ⟨lam, lt_of_le_of_lt c2 hl, hpsd⟩
    subst hb1
    unfold LMIOracle.assess
    rw [h1]
    exact ⟨_, rfl⟩

end Ellalgo
