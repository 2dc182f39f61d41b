import Verif.Lib.PowerHigh
import Verif.Props.PowerIterates
import Verif.Props.PowerDominant

/-! C118: the power iterations find a dominant eigenvalue in floating point of high enough precision. -/

namespace Ellalgo
open Matrix
variable {n : Nat} {lo M s rho : ℝ}

/-- the computed sequences of length up to `N + 1` are within `ε` of the exact ones in all that matters -/
structure PowGood (n N : Nat) (ε : ℝ) {u : ℝ} (R : Rounding u) (k : PowData) (m0 m : PMode) (σ : List PMode) : Prop where
  ray : |(rayV n (fun i j => (⟨k.A i j⟩ : Fl R)) (k.fl n R m0 σ)).val - rayV n k.A (k.exact n m0 σ)| ≤ ε
  quot : |(rayV n (fun i j => (⟨k.A i j⟩ : Fl R)) (k.fl n R m0 σ) / dotV n (k.fl n R m0 σ) (k.fl n R m0 σ)).val -
    rayV n k.A (k.exact n m0 σ) / dotV n (k.exact n m0 σ) (k.exact n m0 σ)| ≤ ε
  ray' : |(rayV n (fun i j => (⟨k.A i j⟩ : Fl R)) (unitV n (k.fl n R m0 σ))).val - rayV n k.A (unitV n (k.exact n m0 σ))| ≤ ε
  cos : |(k.comp n fun i => (k.fl n R m0 σ i).val) ^ 2 - k.comp n (k.exact n m0 σ) ^ 2| ≤ ε
  cos' : |(k.comp n fun i => (unitV n (k.fl n R m0 σ) i).val) ^ 2 - k.comp n (unitV n (k.exact n m0 σ)) ^ 2| ≤ ε
  diff : |(norm1V n fun i => k.fl n R m0 (m :: σ) i - k.fl n R m0 σ i).val -
    norm1V n fun i => k.exact n m0 (m :: σ) i - k.exact n m0 σ i| ≤ ε
  sum : |(norm1V n fun i => k.fl n R m0 (m :: σ) i + k.fl n R m0 σ i).val -
    norm1V n fun i => k.exact n m0 (m :: σ) i + k.exact n m0 σ i| ≤ ε

theorem pow_units (hlo : 0 < lo) (hs : 0 < s) (N : Nat) {ε : ℝ} (hε : 0 < ε) : ∃ u0 > 0, ∀ u ≤ u0, ∀ (R : Rounding u),
    ∀ k ∈ powClass n lo M s rho u, ∀ m0 m σ, σ.length ≤ N + 1 → PowGood n N ε R k m0 m σ := by
  have hfin : (Set.univ ×ˢ Set.univ ×ˢ {σ : List PMode | σ.length ≤ N + 1} : Set (PMode × PMode × List PMode)).Finite :=
    Set.finite_univ.prod (Set.finite_univ.prod (List.finite_length_le PMode (N + 1)))
  obtain ⟨u0, p0, h⟩ := small_units_finite hfin (P := fun j u => ∀ R : Rounding u, ∀ k ∈ powClass n lo M s rho u,
    PowGood n N ε R k j.1 j.2.1 j.2.2) (by
      rintro ⟨m0, m, σ⟩ -
      have c := path_close (n := n) (M := M) (rho := rho) hlo hs m0 σ
      have c' := path_close (n := n) (M := M) (rho := rho) hlo hs m0 (m :: σ)
      obtain ⟨u1, p1, h1⟩ := c.ray.close ε hε
      obtain ⟨u2, p2, h2⟩ := c.quot.close ε hε
      obtain ⟨u3, p3, h3⟩ := c.unitV.ray.close ε hε
      obtain ⟨u4, p4, h4⟩ := c.cosSq.close ε hε
      obtain ⟨u5, p5, h5⟩ := c.unitV.cosSq.close ε hε
      obtain ⟨u6, p6, h6⟩ := (c'.diff1 c).close ε hε
      obtain ⟨u7, p7, h7⟩ := (c'.sum1 c).close ε hε
      refine ⟨min u1 (min u2 (min u3 (min u4 (min u5 (min u6 u7))))),
        lt_min p1 (lt_min p2 (lt_min p3 (lt_min p4 (lt_min p5 (lt_min p6 p7))))), fun u hu R k hk => ?_⟩
      simp only [le_min_iff] at hu
      obtain ⟨a1, a2, a3, a4, a5, a6, a7⟩ := hu
      exact ⟨h1 u a1 R k hk, h2 u a2 R k hk, h3 u a3 R k hk, h4 u a4 R k hk, h5 u a5 R k hk, h6 u a6 R k hk, h7 u a7 R k hk⟩)
  exact ⟨u0, p0, fun u hu R k hk m0 m σ hσ => h u hu (m0, m, σ) ⟨trivial, trivial, hσ⟩ R k hk⟩

theorem comp_congr (k : PowData) {v w : Nat → ℝ} (h : ∀ i < n, v i = w i) : k.comp n v = k.comp n w := by
  have : finV n v = finV n w := funext fun i => h i i.2
  rw [PowData.comp, this, PowData.comp]

theorem class_ne (hs : 0 < s) {u : ℝ} {k : PowData} (hk : k ∈ powClass n lo M s rho u) : finV n k.u ⬝ᵥ finV n k.x ≠ 0 := by
  intro h0
  have := hk.2.2.2.2
  rw [PowData.comp, h0, abs_zero] at this
  linarith

theorem class_mu {u : ℝ} {k : PowData} (hk : k ∈ powClass n lo M s rho u) : |k.mu| ≤ n * n * M := by
  have D := hk.2.2.1
  have e : k.mu = finV n k.u ⬝ᵥ (k.mat n *ᵥ finV n k.u) := by rw [D.eig, dotProduct_smul, D.unit, smul_eq_mul, mul_one]
  rw [e, dotProduct]
  refine (Finset.abs_sum_le_sum_abs _ _).trans ?_
  have h1 : ∀ i : Fin n, |(k.mat n *ᵥ finV n k.u) i| ≤ n * M := by
    intro i
    rw [mulVec, dotProduct]
    refine (Finset.abs_sum_le_sum_abs _ _).trans ?_
    have h2 : ∀ j ∈ Finset.univ, |k.mat n i j * finV n k.u j| ≤ M := by
      intro j _
      rw [abs_mul]
      have h3 : |k.mat n i j| ≤ M := hk.1 i i.2 j j.2
      have h4 := mul_le_mul h3 (unit_coord hk j) (abs_nonneg _) ((abs_nonneg _).trans h3)
      linarith
    have := Finset.sum_le_card_nsmul _ _ _ h2
    simpa using this
  have h5 : ∀ i ∈ Finset.univ, |finV n k.u i * (k.mat n *ᵥ finV n k.u) i| ≤ n * M := by
    intro i _
    rw [abs_mul]
    have h4 := mul_le_mul (unit_coord hk i) (h1 i) (abs_nonneg _) zero_le_one
    linarith
  have := Finset.sum_le_card_nsmul _ _ _ h5
  simpa [mul_assoc] using this

theorem class_tan (hs : 0 < s) {u : ℝ} {k : PowData} (hk : k ∈ powClass n lo M s rho u) :
    tanSq (finV n k.u) (finV n k.x) ≤ n * M ^ 2 / s ^ 2 := by
  have h1 : finV n k.x ⬝ᵥ finV n k.x ≤ n * M ^ 2 := by
    have h2 : ∀ i ∈ Finset.univ, finV n k.x i * finV n k.x i ≤ M ^ 2 := by
      intro i _
      have h3 : |finV n k.x i| ≤ M := hk.2.1 i i.2
      rw [← abs_mul_abs_self, pow_two]
      exact mul_le_mul h3 h3 (abs_nonneg _) ((abs_nonneg _).trans h3)
    have := Finset.sum_le_card_nsmul _ _ _ h2
    simpa [dotProduct] using this
  have h4 : s ^ 2 ≤ (finV n k.u ⬝ᵥ finV n k.x) ^ 2 := by
    rw [← sq_abs (finV n k.u ⬝ᵥ finV n k.x)]
    exact pow_le_pow_left₀ hs.le hk.2.2.2.2 2
  rw [tanSq]
  exact div_le_div₀ (by positivity) (by linarith [sq_nonneg (finV n k.u ⬝ᵥ finV n k.x)]) (by positivity) h4

/-- the exact sequences scaled in one way throughout -/
theorem exact_two (hs : 0 < s) {u : ℝ} {k : PowData} (hk : k ∈ powClass n lo M s rho u) (j : Nat) :
    finV n (k.exact n .two (List.replicate j .two)) = dirAt (k.mat n) (finV n k.x) j := by
  cases j with
  | zero =>
    show finV n (unitV n k.x) = _
    rw [finV_unit2]
    exact unit2_eq ⟨1, one_pos, by simp⟩
  | succ j =>
    show finV n (unitV n (mulV n k.A (k.exact n .two (List.replicate j .two)))) = _
    rw [finV_unit2, finV_mulV]
    have := (path_dir hs hk .two (List.replicate j .two)).mulVec
    rw [List.length_replicate] at this
    exact unit2_eq this

theorem exact_one (hs : 0 < s) {u : ℝ} {k : PowData} (hk : k ∈ powClass n lo M s rho u) (j : Nat) :
    finV n (k.exact n .one (List.replicate j .one)) = dir1At (k.mat n) (finV n k.x) j := by
  cases j with
  | zero =>
    show finV n (unit1V n k.x) = _
    rw [finV_unit1]
    exact unit1_eq ⟨1, one_pos, by simp⟩
  | succ j =>
    show finV n (unit1V n (mulV n k.A (k.exact n .one (List.replicate j .one)))) = _
    rw [finV_unit1, finV_mulV]
    have := (path_dir hs hk .one (List.replicate j .one)).mulVec
    rw [List.length_replicate] at this
    exact unit1_eq this

/-- a path that ends with a scaling -/
theorem exact_head (hs : 0 < s) {u : ℝ} {k : PowData} (hk : k ∈ powClass n lo M s rho u) (m0 : PMode) (τ : List PMode) :
    finV n (k.exact n m0 (.two :: τ)) = dirAt (k.mat n) (finV n k.x) (τ.length + 1) := by
  show finV n (unitV n (mulV n k.A (k.exact n m0 τ))) = _
  rw [finV_unit2, finV_mulV]
  exact unit2_eq (path_dir hs hk m0 τ).mulVec

section
variable {N : Nat} {ε tol0 u : ℝ} {R : Rounding u} {k : PowData}

/-- what the exact sequence has reached after `N` steps -/
structure Settled (n N : Nat) (k : PowData) (t : ℝ) : Prop where
  two : CloseUpToSign t (dirAt (k.mat n) (finV n k.x) (N + 1)) (dirAt (k.mat n) (finV n k.x) N)
  one : CloseUpToSign t (dir1At (k.mat n) (finV n k.x) (N + 1)) (dir1At (k.mat n) (finV n k.x) N)
  ray : |rayAt (k.mat n) (finV n k.x) N - rayAt (k.mat n) (finV n k.x) (N + 1)| ≤ t

theorem settled_exists (hlo : 0 < lo) (hs : 0 < s) (hM : 0 ≤ M) (hn : 0 < n) (hr0 : 0 ≤ rho) (hr1 : rho < 1) {t : ℝ} (ht : 0 < t) :
    ∃ N, ∀ u, ∀ k ∈ powClass n lo M s rho u, Settled n N k t := by
  have hn0 : (0 : ℝ) < n := by exact_mod_cast hn
  obtain ⟨N, hN⟩ := exists_pow_small (rho := rho) (b := n * M ^ 2 / s ^ 2)
    (c := min (min 1 (t ^ 2 / (20 * n))) (t / (4 * (n * n * M + 1)))) hr0 hr1 (by positivity)
  refine ⟨N, fun u k hk => ?_⟩
  have D := hk.2.2.1
  have hx := class_ne hs hk
  have h1 : (rho ^ 2) ^ N * tanSq (finV n k.u) (finV n k.x) ≤ min (min 1 (t ^ 2 / (20 * n))) (t / (4 * (n * n * M + 1))) :=
    (mul_le_mul_of_nonneg_left (class_tan hs hk) (by positivity)).trans (hN N le_rfl)
  have h0 : 0 ≤ (rho ^ 2) ^ N * tanSq (finV n k.u) (finV n k.x) := mul_nonneg (by positivity) (tanSq_nonneg D _)
  have a1 := h1.trans ((min_le_left _ _).trans (min_le_left _ _))
  have a2 := h1.trans ((min_le_left _ _).trans (min_le_right _ _))
  have a3 := h1.trans (min_le_right _ _)
  rw [le_div_iff₀ (by positivity)] at a2 a3
  have hmu := class_mu hk
  have b1 : 4 * (n : ℝ) * (((rho ^ 2) ^ N * tanSq (finV n k.u) (finV n k.x)) ^ 2 + 4 * ((rho ^ 2) ^ N * tanSq (finV n k.u) (finV n k.x)))
      ≤ t ^ 2 := by
    generalize (rho ^ 2) ^ N * tanSq (finV n k.u) (finV n k.x) = y at *
    have : y ^ 2 ≤ y := by nlinarith
    nlinarith
  have b2 : (n : ℝ) * (((rho ^ 2) ^ N * tanSq (finV n k.u) (finV n k.x)) ^ 2 + 4 * ((rho ^ 2) ^ N * tanSq (finV n k.u) (finV n k.x)))
      ≤ t ^ 2 := by
    generalize (rho ^ 2) ^ N * tanSq (finV n k.u) (finV n k.x) = y at *
    have : 0 ≤ (n : ℝ) * (y ^ 2 + 4 * y) := by positivity
    nlinarith
  refine ⟨D.settle2 hx ht.le b2, D.settle1 hx ht.le b1, D.settle_ray hx ?_⟩
  generalize (rho ^ 2) ^ N * tanSq (finV n k.u) (finV n k.x) = y at *
  have h2 := mul_le_mul_of_nonneg_right hmu h0
  nlinarith

/-- the computed test of the first and fourth variants passes when the exact vectors are close -/
theorem close_of {v w : Nat → Fl R} {v' w' : Nat → ℝ} {tol : Fl R} {t : ℝ} (h : CloseUpToSign t (finV n v') (finV n w'))
    (h1 : |(norm1V n fun i => v i - w i).val - norm1V n fun i => v' i - w' i| ≤ ε)
    (h2 : |(norm1V n fun i => v i + w i).val - norm1V n fun i => v' i + w' i| ≤ ε) (ht : t + ε ≤ tol.val) :
    closeV n tol v w = true := by
  rw [norm1V_real] at h1 h2
  unfold closeV
  rw [Bool.or_eq_true]
  refine h.imp (fun h => ?_) fun h => ?_
  · have h3 : norm1 (finV n fun i => v' i - w' i) ≤ t := h
    have := (_root_.abs_le.1 h1).2
    exact decide_eq_true (show (norm1V n fun i => v i - w i).val ≤ tol.val by linarith)
  · have h3 : norm1 (finV n fun i => v' i + w' i) ≤ t := h
    have := (_root_.abs_le.1 h2).2
    exact decide_eq_true (show (norm1V n fun i => v i + w i).val ≤ tol.val by linarith)

/-- the computed test of the other two passes when the exact values are close -/
theorem value_close_of {a b : Fl R} {a' b' t : ℝ} {tol : Fl R} (hu : u ≤ 1 / 4) (h : |a' - b'| ≤ t) (h1 : |a.val - a'| ≤ ε)
    (h2 : |b.val - b'| ≤ ε) (ht : 5 / 4 * (t + 2 * ε) ≤ tol.val) : Scalar.le (Scalar.abs (a - b)) tol = true := by
  have h3 : |a.val - b.val| ≤ t + 2 * ε := by
    rw [_root_.abs_le] at *
    constructor <;> linarith
  have h4 := R.err (a.val - b.val)
  have h5 : |R.rnd (a.val - b.val)| ≤ 5 / 4 * (t + 2 * ε) := by
    have h6 : |R.rnd (a.val - b.val)| ≤ |a.val - b.val| + u * |a.val - b.val| := by
      have := abs_sub_abs_le_abs_sub (R.rnd (a.val - b.val)) (a.val - b.val)
      linarith
    have h7 := mul_le_mul_of_nonneg_right hu (abs_nonneg (a.val - b.val))
    linarith
  exact decide_eq_true (show |R.rnd (a.val - b.val)| ≤ tol.val by linarith)

/-- the claim about one call -/
def PowSolved (n N : Nat) (eps rho : ℝ) (A : Matrix (Fin n) (Fin n) ℝ) (x v : Fin n → ℝ) (mu : ℝ) (m : Nat)
    (r : Res ((Fl R × Nat) × Arr (Fl R))) : Prop :=
  ∃ l niter xf, r = .ok ((l, niter), xf) ∧ xf.IsVecShape n ∧ niter ≤ N ∧ niter ≤ m ∧
    |l.val - mu| ≤ 2 * |mu| * (rho ^ (2 * min (niter + 1) m) * tanSq v x) + eps ∧
    (niter < m → 1 - rho ^ (2 * (niter + 1)) * tanSq v x - eps ≤ (v ⬝ᵥ xf.flVec n) ^ 2)

/-- from closeness to the exact sequence to the claim -/
theorem PowSolved.of {eps : ℝ} {m : Nat} {r : Res ((Fl R × Nat) × Arr (Fl R))} (hs : 0 < s) (hk : k ∈ powClass n lo M s rho u)
    {P : Nat → Prop} {l : Fl R} {niter : Nat} {xf : Arr (Fl R)} (hr : r = .ok ((l, niter), xf)) (hxf : xf.IsVecShape n)
    (hF : FirstBelow P m niter) (hP : P N)
    (hv : ∀ j ≤ N + 1, min (niter + 1) m = j → |l.val - rayAt (k.mat n) (finV n k.x) j| ≤ eps)
    (hc : niter < m → niter ≤ N → (k.comp n fun i => (xf.vec i).val) ^ 2 ≥
      (finV n k.u ⬝ᵥ dirAt (k.mat n) (finV n k.x) (niter + 1)) ^ 2 - eps) :
    PowSolved (R := R) n N eps rho (k.mat n) (finV n k.x) (finV n k.u) k.mu m r := by
  have hx := class_ne hs hk
  have D := hk.2.2.1
  have hm : niter ≤ m := by rcases hF with ⟨h, -⟩ | ⟨h, -⟩ <;> omega
  have hN : niter ≤ N := by
    rcases Nat.lt_or_ge N m with h | h
    · exact hF.le hP h
    · omega
  refine ⟨l, niter, xf, hr, hxf, hN, hm, ?_, fun hlt => ?_⟩
  · have h1 := hv (min (niter + 1) m) (by omega) rfl
    have h2 := D.ray_err hx (min (niter + 1) m)
    rw [pow_mul]
    rw [_root_.abs_le] at *
    constructor <;> linarith
  · have h1 := D.dir_err hx (niter + 1)
    have h2 := hc hlt hN
    rw [pow_mul]
    have e : (k.comp n fun i => (xf.vec i).val) = finV n k.u ⬝ᵥ xf.flVec n := rfl
    rw [e] at h2
    linarith

variable {a x : Arr (Fl R)} {tol : Fl R} {m : Nat}

theorem run_solved (hn : 0 < n) (hs : 0 < s) (hu : u ≤ 1 / 4) (hk : k ∈ powClass n lo M s rho u)
    (hg : ∀ m0 m σ, σ.length ≤ N + 1 → PowGood n N ε R k m0 m σ) {t : ℝ} (hS : Settled n N k t) (ht : 5 / 4 * (t + 2 * ε) ≤ tol.val)
    (ht' : t + ε ≤ tol.val) (ha : a.IsMatShape n n) (hx : x.IsVecShape n) (hA : a.mat = fun i j => (⟨k.A i j⟩ : Fl R))
    (hX : x.vec = fun i => (⟨k.x i⟩ : Fl R)) :
    ∀ run ∈ [powerIteration (α := Fl R), powerIteration2, powerIteration3, powerIteration4],
      PowSolved n N ε rho (k.mat n) (finV n k.x) (finV n k.u) k.mu m (run a x ⟨m, tol⟩) := by
  have fseq : ∀ j, powSeq n a.mat x.vec j = k.fl n R .two (List.replicate j .two) := fun j => by
    rw [powSeq_path, hA, hX]; rfl
  have fseq1 : ∀ j, pow1Seq n a.mat x.vec j = k.fl n R .one (List.replicate j .one) := fun j => by
    rw [pow1Seq_path, hA, hX]; rfl
  have g2 : ∀ j ≤ N + 1, PowGood n N ε R k .two .two (List.replicate j .two) := fun j hj => hg _ _ _ (by simpa using hj)
  have g1 : ∀ j ≤ N + 1, PowGood n N ε R k .one .one (List.replicate j .one) := fun j hj => hg _ _ _ (by simpa using hj)
  have val2 : ∀ j ≤ N + 1, |(rayV n a.mat (powSeq n a.mat x.vec j)).val - rayAt (k.mat n) (finV n k.x) j| ≤ ε := by
    intro j hj
    have h := (g2 j hj).ray
    rw [ray_dir hs hk (exact_two hs hk j)] at h
    rw [fseq, hA]; exact h
  have cos2 : ∀ j ≤ N + 1, ∀ xf : Arr (Fl R), (∀ i < n, xf.vec i = powSeq n a.mat x.vec j i) →
      (k.comp n fun i => (xf.vec i).val) ^ 2 ≥ (finV n k.u ⬝ᵥ dirAt (k.mat n) (finV n k.x) j) ^ 2 - ε := by
    intro j hj xf hxf
    have h := (g2 j hj).cos
    have e : (k.comp n fun i => (xf.vec i).val) = k.comp n fun i => (k.fl n R .two (List.replicate j .two) i).val := by
      rw [← fseq]
      exact comp_congr k fun i hi => by rw [hxf i hi]
    have e' : k.comp n (k.exact n .two (List.replicate j .two)) = finV n k.u ⬝ᵥ dirAt (k.mat n) (finV n k.x) j := by
      rw [PowData.comp, exact_two hs hk]
    rw [e'] at h
    rw [e]
    linarith [(_root_.abs_le.1 h).1]
  have val3 : ∀ j ≤ N + 1, |(pow3Val n a.mat x.vec j).val - rayAt (k.mat n) (finV n k.x) j| ≤ ε := by
    intro j hj
    obtain ⟨σ, hσ, -, hv⟩ := pow3Seq_path (n := n) a.mat x.vec j
    have hf : pathV n a.mat x.vec .raw σ = k.fl n R .raw σ := by rw [hA, hX]; rfl
    have g := hg .raw .raw σ (by omega)
    rcases hv with ⟨hv, τ, hτ⟩ | hv
    · rw [hv, hf, hA]
      have h := g.ray
      have e := exact_head hs hk .raw τ
      rw [← hτ] at e
      rw [ray_dir hs hk e] at h
      rw [hτ, List.length_cons] at hσ
      rw [hσ] at h
      exact h
    · rw [hv, hf, hA]
      have h := g.quot
      rw [quot_exact hs hk, hσ] at h
      exact h
  intro run hrun
  simp only [List.mem_cons, List.not_mem_nil, or_false] at hrun
  rcases hrun with rfl | rfl | rfl | rfl
  · obtain ⟨niter, xf, h1, h2, h3, h4⟩ := C117_power_iteration hn ha hx m tol
    refine PowSolved.of hs hk h1 h2 h4 ?_ (fun j hj e => by rw [e]; exact val2 j hj) fun hlt hN => ?_
    · show closeV n tol (powSeq n a.mat x.vec (N + 1)) (powSeq n a.mat x.vec N) = true
      have hS2 := hS.two
      rw [← exact_two hs hk, ← exact_two hs hk] at hS2
      rw [fseq, fseq]
      exact close_of hS2 (g2 N (by omega)).diff (g2 N (by omega)).sum ht'
    · rw [min_eq_left (by omega)] at h3
      exact cos2 _ (by omega) xf h3
  · obtain ⟨niter, xf, h1, h2, h3, h4⟩ := C117_power_iteration2 hn ha hx m tol
    refine PowSolved.of hs hk h1 h2 h4 ?_ (fun j hj e => by rw [e]; exact val2 j hj) fun hlt hN => ?_
    · exact value_close_of hu hS.ray (val2 N (by omega)) (val2 (N + 1) le_rfl) ht
    · rw [min_eq_left (by omega)] at h3
      exact cos2 _ (by omega) xf h3
  · obtain ⟨niter, xf, h1, h2, h3, h4⟩ := C117_power_iteration3 hn ha hx m tol
    refine PowSolved.of hs hk h1 h2 h4 ?_ (fun j hj e => by rw [e]; exact val3 j hj) fun hlt hN => ?_
    · exact value_close_of hu hS.ray (val3 N (by omega)) (val3 (N + 1) le_rfl) ht
    · rw [min_eq_left (by omega), decide_eq_true hlt] at h3
      obtain ⟨σ, hσ, hq, -⟩ := pow3Seq_path (n := n) a.mat x.vec niter
      have hf : pathV n a.mat x.vec .raw σ = k.fl n R .raw σ := by rw [hA, hX]; rfl
      rw [hf] at hq
      cases hb : bigV n (mulV n a.mat (pow3Seq n a.mat x.vec niter)) with
      | true =>
        have g := (hg .raw .raw (.two :: σ) (by simp; omega)).cos
        have e : ∀ i < n, xf.vec i = k.fl n R .raw (.two :: σ) i := by
          intro i hi
          rw [h3 i hi]
          simp only [pow3Out, hb, Bool.not_true, Bool.and_false, Bool.false_eq_true, if_false]
          rw [pow3Seq, hb, if_pos rfl, hq, hA]; rfl
        have e1 : (k.comp n fun i => (xf.vec i).val) = k.comp n fun i => (k.fl n R .raw (.two :: σ) i).val :=
          comp_congr k fun i hi => by rw [e i hi]
        have e' : k.comp n (k.exact n .raw (.two :: σ)) = finV n k.u ⬝ᵥ dirAt (k.mat n) (finV n k.x) (niter + 1) := by
          rw [PowData.comp, exact_head hs hk, hσ]
        rw [e'] at g
        rw [e1]
        linarith [(_root_.abs_le.1 g).1]
      | false =>
        have g := (hg .raw .raw (.raw :: σ) (by simp; omega)).cos'
        have e : ∀ i < n, xf.vec i = unitV n (k.fl n R .raw (.raw :: σ)) i := by
          intro i hi
          rw [h3 i hi]
          simp only [pow3Out, hb, Bool.not_false, Bool.and_true, if_true]
          rw [pow3Seq, hb, if_neg (by simp), hq, hA]; rfl
        have e1 : (k.comp n fun i => (xf.vec i).val) = k.comp n fun i => (unitV n (k.fl n R .raw (.raw :: σ)) i).val :=
          comp_congr k fun i hi => by rw [e i hi]
        have e' : k.comp n (unitV n (k.exact n .raw (.raw :: σ))) = finV n k.u ⬝ᵥ dirAt (k.mat n) (finV n k.x) (niter + 1) := by
          rw [PowData.comp, unit_exact hs hk, List.length_cons, hσ]
        rw [e'] at g
        rw [e1]
        linarith [(_root_.abs_le.1 g).1]
  · obtain ⟨niter, xf, h1, h2, h3, h4⟩ := C117_power_iteration4 hn ha hx m tol
    refine PowSolved.of hs hk h1 h2 h4 ?_ (fun j hj e => ?_) fun hlt hN => ?_
    · show closeV n tol (pow1Seq n a.mat x.vec (N + 1)) (pow1Seq n a.mat x.vec N) = true
      have hS1 := hS.one
      rw [← exact_one hs hk, ← exact_one hs hk] at hS1
      rw [fseq1, fseq1]
      exact close_of hS1 (g1 N (by omega)).diff (g1 N (by omega)).sum ht'
    · rw [e, fseq1, hA]
      have h := (g1 j hj).ray'
      have e1 := unit_exact hs hk .one (List.replicate j .one)
      rw [List.length_replicate] at e1
      rw [ray_dir hs hk e1] at h
      exact h
    · rw [min_eq_left (by omega)] at h3
      have g := (g1 (niter + 1) (by omega)).cos'
      have e1 : (k.comp n fun i => (xf.vec i).val) =
          k.comp n fun i => (unitV n (k.fl n R .one (List.replicate (niter + 1) .one)) i).val := by
        rw [← fseq1]
        exact comp_congr k fun i hi => by rw [h3 i hi]
      have e' : k.comp n (unitV n (k.exact n .one (List.replicate (niter + 1) .one))) =
          finV n k.u ⬝ᵥ dirAt (k.mat n) (finV n k.x) (niter + 1) := by
        rw [PowData.comp, unit_exact hs hk, List.length_replicate]
      rw [e'] at g
      rw [e1]
      linarith [(_root_.abs_le.1 g).1]

end

/-- **C118** Fix a size, a bound `M` for the entries of the matrix and the start, a lower bound `lo` for the size of the dominant
eigenvalue, a ratio `rho < 1`, a lower bound `s` for the component of the start along the eigenvector, a lower bound `tol0` for the
tolerance and an accuracy `eps`.  There are a number of steps `N` and a unit roundoff, depending on nothing else, such that in every
arithmetic at least that precise all four variants stop within `N` iterations on every such matrix; the value misses the dominant
eigenvalue by at most the bound of exact arithmetic (C79) plus `eps`, and when a variant stops before the limit the vector it leaves has
at least the squared cosine of exact arithmetic minus `eps`. -/
theorem C118_dominant {lo M s rho tol0 eps : ℝ} (hlo : 0 < lo) (hM : 0 ≤ M) (hs : 0 < s) (hr0 : 0 ≤ rho) (hr1 : rho < 1)
    (htol0 : 0 < tol0) (heps : 0 < eps) (hn : 0 < n) :
    ∃ N : Nat, ∃ u0 > 0, ∀ u ≤ u0, ∀ (R : Rounding u) (a x : Arr (Fl R)) (tol : Fl R) (m : Nat),
      a.IsMatShape n n → x.IsVecShape n → (∀ i j, |a.flMat n i j| ≤ M) → (∀ i, |x.flVec n i| ≤ M) →
      ∀ (hA : (a.flMat n).IsHermitian) (i : Fin n), lo ≤ |hA.eigenvalues i| →
      (∀ j, j ≠ i → |hA.eigenvalues j| ≤ rho * |hA.eigenvalues i|) → s ≤ |(hA.eigenvectorBasis i).ofLp ⬝ᵥ x.flVec n| →
      tol0 ≤ tol.val →
      ∀ run ∈ [powerIteration (α := Fl R), powerIteration2, powerIteration3, powerIteration4],
        ∃ l niter xf, run a x ⟨m, tol⟩ = .ok ((l, niter), xf) ∧ xf.IsVecShape n ∧ niter ≤ N ∧ niter ≤ m ∧
          |l.val - hA.eigenvalues i| ≤ 2 * |hA.eigenvalues i| *
            (rho ^ (2 * min (niter + 1) m) * tanSq (hA.eigenvectorBasis i).ofLp (x.flVec n)) + eps ∧
          (niter < m → 1 - rho ^ (2 * (niter + 1)) * tanSq (hA.eigenvectorBasis i).ofLp (x.flVec n) - eps ≤
            ((hA.eigenvectorBasis i).ofLp ⬝ᵥ xf.flVec n) ^ 2) := by
  obtain ⟨N, hN⟩ := settled_exists hlo hs hM hn hr0 hr1 (half_pos htol0)
  obtain ⟨ε, hε⟩ : ∃ ε, ε = min eps (tol0 / 16) := ⟨_, rfl⟩
  have hε0 : 0 < ε := by rw [hε]; positivity
  have hε1 : ε ≤ eps := by rw [hε]; exact min_le_left _ _
  have hε2 : ε ≤ tol0 / 16 := by rw [hε]; exact min_le_right _ _
  obtain ⟨u0, p0, H⟩ := pow_units (n := n) (M := M) (rho := rho) hlo hs N hε0
  refine ⟨N, min u0 (1 / 4), lt_min p0 (by norm_num), fun u hu R a x tol m ha hx hab hxb hA i hlow hdom hst htol run hrun => ?_⟩
  have D := Dominant.of_eigenvalues hA i (abs_pos.1 (hlo.trans_le hlow)) hr0 hr1.le hdom
  obtain ⟨k, hk⟩ : ∃ k : PowData, k = ⟨fun i j => (a.mat i j).val, fun i => (x.vec i).val,
    fun j => if h : j < n then eigVec hA i ⟨j, h⟩ else 0, hA.eigenvalues i⟩ := ⟨_, rfl⟩
  have e1 : k.mat n = a.flMat n := by rw [hk]; rfl
  have e2 : finV n k.x = x.flVec n := by rw [hk]; rfl
  have e3 : finV n k.u = eigVec hA i := by
    rw [hk]; funext j; simp [finV]
  have e4 : k.mu = hA.eigenvalues i := by rw [hk]
  have hK : k ∈ powClass n lo M s rho u := by
    refine ⟨fun i hi l hl => ?_, fun i hi => ?_, ?_, ?_, ?_⟩
    · rw [hk]; exact hab ⟨i, hi⟩ ⟨l, hl⟩
    · rw [hk]; exact hxb ⟨i, hi⟩
    · rw [e1, e3, e4]; exact D
    · rw [e4]; exact hlow
    · rw [PowData.comp, e2, e3]; exact hst
  have h := run_solved (R := R) (a := a) (x := x) (tol := tol) (m := m) hn hs (hu.trans (min_le_right _ _)) hK
    (fun m0 m σ hσ => H u (hu.trans (min_le_left _ _)) R k hK m0 m σ hσ) (hN u k hK) (by linarith) (by linarith) ha hx
    (by rw [hk]) (by rw [hk]) run hrun
  rw [e1, e2, e3, e4] at h
  obtain ⟨l, niter, xf, h1, h2, h3, h4, h5, h6⟩ := h
  exact ⟨l, niter, xf, h1, h2, h3, h4, h5.trans (add_le_add le_rfl hε1), fun hlt => (sub_le_sub_left hε1 _).trans (h6 hlt)⟩

end Ellalgo
