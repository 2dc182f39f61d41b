import Verif.Props.RoundedLmi
import Verif.Lib.LdltFlOps
import Verif.Props.NanLmi
import Verif.Props.Loops

/-! # C82, continued: the cuts of the LMI oracle in rounded arithmetic -/

namespace Ellalgo
open Matrix Finset
variable {u : ℝ} {R : Rounding u} {d n : Nat}

theorem ldlt_margin_wit {t : ℝ} (h0 : 0 ≤ t) (h1 : 16 * t ≤ 1) :
    ((1 + t / (1 - t)) ^ 2 - 1 + (t / (1 - t)) ^ 2) / (1 - ((1 + t / (1 - t)) ^ 2 - 1)) ≤ 3 * t := by
  have hd : 0 < 1 - t := by linarith
  obtain ⟨k1, -, -⟩ := ldlt_margin h0 h1
  have e : 1 + t / (1 - t) = 1 / (1 - t) := by field_simp; ring
  rw [div_le_iff₀ (by linarith)]
  have e2 : (1 + t / (1 - t)) ^ 2 - 1 + (t / (1 - t)) ^ 2 = (2 * t) / (1 - t) ^ 2 := by
    rw [e, div_pow, one_pow, div_pow]; field_simp; ring
  have e3 : 3 * t * (1 - ((1 + t / (1 - t)) ^ 2 - 1)) = (3 * t * (2 * (1 - t) ^ 2 - 1)) / (1 - t) ^ 2 := by
    rw [e, div_pow, one_pow]; field_simp; ring
  rw [e3, e2]
  apply div_le_div_of_nonneg_right _ (by positivity)
  nlinarith [mul_nonneg h0 (by nlinarith : 0 ≤ 1 - 12 * t + 6 * t ^ 2)]

/-- the computed back substitution nearly solves `Lᵀ v = e_p` -/
theorem backsubst_fl {S : Nat → Nat → Fl R} {v : Nat → Fl R} {p : Nat} (hpn : p < n) (hnu : n * u < 1)
    (hv : ∀ i, i < p → v i = - sumTo (p - i) fun j => S (i + 1 + j) i * v (i + 1 + j)) (k : Nat) (hk : k < p) :
    |∑ a ∈ range (p + 1), LDLTMgr.Lf (fun a b => (S a b).val) a k * (v a).val| ≤
      n * u / (1 - n * u) * ∑ a ∈ range (p + 1), |LDLTMgr.Lf (fun a b => (S a b).val) a k| * |(v a).val| := by
  have hu0 := R.unit_nonneg
  have hsplit : ∀ F : Nat → ℝ, (∀ a, a < k → F a = 0) →
      ∑ a ∈ range (p + 1), F a = F k + ∑ j ∈ range (p - k), F (k + 1 + j) := by
    intro F hF
    rw [show p + 1 = k + 1 + (p - k) by omega, sum_range_add, sum_range_succ,
      sum_eq_zero fun a ha => hF a (mem_range.1 ha), zero_add]
  have hlt : ∀ a, a < k → LDLTMgr.Lf (fun a b => (S a b).val) a k = 0 := fun a ha => by simp [LDLTMgr.Lf, ha]
  have hkk : LDLTMgr.Lf (fun a b => (S a b).val) k k = 1 := by simp [LDLTMgr.Lf]
  have hgt : ∀ j, LDLTMgr.Lf (fun a b => (S a b).val) (k + 1 + j) k = (S (k + 1 + j) k).val := fun j => by
    simp only [LDLTMgr.Lf]; rw [if_neg (by omega), if_neg (by omega)]
  rw [hsplit _ fun a ha => by rw [hlt a ha, zero_mul], hsplit _ fun a ha => by rw [hlt a ha, abs_zero, zero_mul]]
  simp only [hkk, hgt, one_mul, abs_one]
  have h1 := sumTo_fl_err (p - k) (fun j => S (k + 1 + j) k) (fun j => v (k + 1 + j))
  have hvk : (v k).val = -(sumTo (p - k) fun j => S (k + 1 + j) k * v (k + 1 + j)).val := by
    rw [hv k hk]; rfl
  rw [hvk]
  set T := ∑ j ∈ range (p - k), |(S (k + 1 + j) k).val| * |(v (k + 1 + j)).val|
  set s := (sumTo (p - k) fun j => S (k + 1 + j) k * v (k + 1 + j)).val
  have hT0 : 0 ≤ T := sum_nonneg fun _ _ => by positivity
  have hpw : (1 + u) ^ (p - k + 1) - 1 ≤ n * u / (1 - n * u) := by
    have : (1 + u) ^ (p - k + 1) ≤ (1 + u) ^ n := pow_le_pow_right₀ (by linarith) (by omega)
    linarith [pow_one_add_le hu0 hnu]
  have he : 0 ≤ n * u / (1 - n * u) := div_nonneg (by positivity) (by linarith)
  have h3 := mul_le_mul_of_nonneg_right hpw hT0
  have h4 : 0 ≤ n * u / (1 - n * u) * |-s| := by positivity
  rw [show -s + ∑ j ∈ range (p - k), (S (k + 1 + j) k).val * (v (k + 1 + j)).val
    = -(s - ∑ j ∈ range (p - k), (S (k + 1 + j) k).val * (v (k + 1 + j)).val) by ring, abs_neg]
  nlinarith

theorem grad_loop_generic {α : Type} [Scalar α] {d : Nat} {q : Nat → α} {f : Nat → Arr α → Res (Arr α)}
    (hf : ∀ k g, k < d → f k g = g.setIdx k (q k)) :
    ∃ g, forRange 0 d (Arr.new d) f = .ok g ∧ g.IsVecShape d ∧ ∀ k, k < d → g.vec k = q k := by
  apply forRange_post (fun k (g : Arr α) => IsVec g d (fun i => if i < k then q i else 0)) (Nat.zero_le d)
  · simpa using isVec_new d
  · intro k g _ hk hg
    obtain ⟨g', h1, h2⟩ := hg.setIdx hk (q k)
    refine ⟨g', by rw [hf k g hk, h1], h2.congr ?_⟩
    intro i _
    simp only [upd1]
    by_cases hik : i = k
    · subst hik; simp
    · rw [if_neg hik]
      by_cases h : i < k
      · rw [if_pos h, if_pos (by omega)]
      · rw [if_neg h, if_neg (by omega)]
  · intro g hg
    refine ⟨hg.shape, fun k hk => ?_⟩
    have h1 := hg.idx hk
    rw [hg.shape.isVec.idx hk, if_pos hk] at h1
    exact Res.ok.inj h1

/-- a quadratic form is at most `n` times its largest coefficient times `‖w‖²` -/
theorem absForm_le {q : Nat} {w : Nat → ℝ} {f : Nat → Nat → ℝ} {c : ℝ} (hf : ∀ a b, a < q → b < q → |f a b| ≤ c) :
    ∑ a ∈ range q, ∑ b ∈ range q, |w a| * |f a b| * |w b| ≤ q * c * ∑ a ∈ range q, w a ^ 2 := by
  rcases Nat.eq_zero_or_pos q with rfl | hq
  · simp
  have hc : 0 ≤ c := (abs_nonneg _).trans (hf 0 0 hq hq)
  have h1 : ∑ a ∈ range q, ∑ b ∈ range q, |w a| * |f a b| * |w b| ≤ ∑ a ∈ range q, ∑ b ∈ range q, |w a| * c * |w b| := by
    refine sum_le_sum fun a ha => sum_le_sum fun b hb => ?_
    exact mul_le_mul_of_nonneg_right (mul_le_mul_of_nonneg_left (hf a b (mem_range.1 ha) (mem_range.1 hb)) (abs_nonneg _))
      (abs_nonneg _)
  refine h1.trans ?_
  have e : ∑ a ∈ range q, ∑ b ∈ range q, |w a| * c * |w b| = c * (∑ a ∈ range q, |w a|) ^ 2 := by
    rw [sq, sum_mul_sum, mul_sum]
    apply sum_congr rfl; intro a _
    rw [mul_sum]
    apply sum_congr rfl; intro b _; ring
  have h2 := sq_sum_le_card_mul_sum_sq (s := range q) (f := fun a => |w a|)
  simp only [card_range, sq_abs] at h2
  rw [e]
  calc c * (∑ a ∈ range q, |w a|) ^ 2 ≤ c * (q * ∑ a ∈ range q, w a ^ 2) := mul_le_mul_of_nonneg_left h2 hc
    _ = _ := by ring

set_option maxHeartbeats 800000 in
/-- what a rejected factorisation leaves behind: the witness and the quadratic forms -/
theorem ldlt_cut_core {m : LDLTMgr (Fl R)} {getElem : Nat → Nat → Res (Fl R)} {A : Nat → Nat → Fl R}
    {M : Matrix (Fin n) (Fin n) ℝ} {s γ : ℝ} (hM : M.IsSymm) (hm : m.Sized n) (hn : 0 < n)
    (hA : ∀ i j, j ≤ i → i < n → getElem i j = .ok (A i j)) (hs0 : 0 ≤ s) (hg0 : 0 ≤ γ) (hg1 : 15 * γ ≤ 1)
    (hu2 : 16 * ((n * n + 1 + 1 : Nat) * u) ≤ 1)
    (herr : ∀ i j : Fin n, |(A i j).val - M i j| ≤ γ * s) (hsz : ∀ i : Fin n, |M i i| ≤ s) :
    ∃ bb m1, m.factor getElem = .ok (bb, m1) ∧ m1.Sized n ∧ (bb = false → ∃ ep m2, ∃ w : Fin n → ℝ,
      m1.witness = .ok (ep, m2) ∧ m2.Sized n ∧ 0 ≤ ep.val ∧ 1 ≤ w ⬝ᵥ w ∧
      w ⬝ᵥ (M *ᵥ w) ≤ -(1 - 12 * (n * u)) * ep.val + n * s * (γ + 32 / 5 * (n * u)) * (w ⬝ᵥ w) ∧
      ∀ (F : Arr (Fl R)), F.IsMatShape n n → ∃ r, m2.symQuad F = .ok r ∧
        ∀ c, (∀ i j, |F.flMat n i j| ≤ c) →
          |r.val - w ⬝ᵥ (F.flMat n *ᵥ w)| ≤ 2 * ((n * n + 2) * u) * (n * c * (w ⬝ᵥ w))) := by
  have hu0 := R.unit_nonneg
  have hn0 : (0 : ℝ) ≤ n := Nat.cast_nonneg n
  have hn1 : (1 : ℝ) ≤ n := by exact_mod_cast hn
  have hnu0 : 0 ≤ n * u := by positivity
  have hnu : 16 * (n * u) ≤ 1 := by
    push_cast at hu2
    have : (n : ℝ) * u ≤ n * n * u := mul_le_mul_of_nonneg_right (by nlinarith) hu0
    linarith
  obtain ⟨bb, m1, S, h1, hn1', hS1, hw1, hh⟩ := LDLTMgr.factor_generic hm.1 hm.2.1 hA
  refine ⟨bb, m1, h1, ⟨hn1', hS1.shape, by rw [hw1]; exact hm.2.2⟩, fun hbb => ?_⟩
  rcases hh with ⟨hbb', -⟩ | ⟨-, p, hpn, hpos, hB, hp, hpp⟩
  · rw [hbb] at hbb'; simp at hbb'
  obtain ⟨wit', v, hwt, hv, hvp, hvi⟩ := LDLTMgr.witness_generic hn1' hS1 (by rw [hw1]; exact hm.2.2.isVec) hpos hpn
  have hp' : ∀ a, a < p → 0 < (S a a).val := fun a ha => by simpa using hp a ha
  have hpp' : (S p p).val ≤ 0 := by simpa using hpp
  set w : Fin n → ℝ := fun i => if 0 ≤ (i : Nat) ∧ (i : Nat) < p + 1 then (v i).val else 0 with hwd
  set β := -(S p p).val with hβ
  have hβ0 : 0 ≤ β := by linarith
  have hbv : (-S p p).val = β := rfl
  have hE := LDLTMgr.blkE_of_generic (by omega : p + 1 ≤ n) (by linarith) hB fun a ha => hp' a (by omega)
  have hden : 0 < 1 - n * u := by linarith
  obtain ⟨k1, k2, k3⟩ := ldlt_margin hnu0 hnu
  have hvp' : (v p).val = 1 := by rw [hvp]; rfl
  have key := LDLTMgr.blkE_wit (v := fun a => (v a).val) (by positivity) k1 hE hp' hpp' hvp'
    (fun k hk => backsubst_fl hpn (by linarith) hvi k hk)
  set N := ∑ a ∈ range p, (v a).val ^ 2 with hN
  have hN0 : 0 ≤ N := sum_nonneg fun _ _ => sq_nonneg _
  have hW : ∑ a ∈ range (p + 1), (v a).val ^ 2 = N + 1 := by rw [sum_range_succ, hvp', one_pow]
  have hww : w ⬝ᵥ w = N + 1 := by
    have := sum_fin_if (s := 0) (by omega : p + 1 ≤ n) (fun a => (v a).val ^ 2)
    rw [Nat.Ico_zero_eq_range, hW] at this
    rw [← this, dotProduct]
    apply sum_congr rfl
    intro i _
    simp only [hwd]
    split
    · ring
    · ring
  refine ⟨-S p p, { m1 with wit := wit' }, w, hwt, ⟨hn1', hS1.shape, hv.shape⟩, by rw [hbv]; exact hβ0,
    by rw [hww]; linarith, ?_, ?_⟩
  · rw [hbv, hww]
    have hAd : ∀ a, a < n → (A a a).val ≤ 16 / 15 * s := by
      intro a ha
      have h2 := (abs_le.1 (herr ⟨a, ha⟩ ⟨a, ha⟩)).2
      have h3 := (abs_le.1 (hsz ⟨a, ha⟩)).2
      simp only at h2
      have h4 := mul_le_mul_of_nonneg_right hg1 hs0
      linarith
    have hTA : ∑ a ∈ range p, (A a a).val ≤ n * (16 / 15 * s) := by
      have h2 : ∀ a ∈ range p, (A a a).val ≤ 16 / 15 * s := fun a ha => hAd a (by have := mem_range.1 ha; omega)
      have h3 := sum_le_card_nsmul _ _ _ h2
      simp only [card_range, nsmul_eq_mul] at h3
      have h4 : (p : ℝ) ≤ n := by exact_mod_cast hpn.le
      have h5 : (p : ℝ) * (16 / 15 * s) ≤ n * (16 / 15 * s) := mul_le_mul_of_nonneg_right h4 (by positivity)
      linarith
    have hθ := ldlt_margin_wit hnu0 hnu
    set θ := ((1 + n * u / (1 - n * u)) ^ 2 - 1 + (n * u / (1 - n * u)) ^ 2) /
      (1 - ((1 + n * u / (1 - n * u)) ^ 2 - 1)) with hθd
    have hθ0 : 0 ≤ θ := by
      rw [hθd]; apply div_nonneg
      · positivity
      · linarith
    have hbr : 2 * ((∑ a ∈ range p, (A a a).val) * N + (A p p).val) + 4 * (-(S p p).val) ≤
        32 / 15 * (n * s * (N + 1)) + 4 * β := by
      have h2 := mul_le_mul_of_nonneg_right hTA hN0
      have h3 := hAd p hpn
      have h4 : 16 / 15 * s ≤ n * (16 / 15 * s) := le_mul_of_one_le_left (by positivity) hn1
      rw [hβ]
      linarith
    have hbr0 : 0 ≤ 32 / 15 * (n * s * (N + 1)) + 4 * β := by positivity
    have hkey : ∑ a ∈ range (p + 1), ∑ b ∈ range (p + 1),
        (v a).val * LDLTMgr.symL (fun a b => (A a b).val) a b * (v b).val
        ≤ -β + 3 * (n * u) * (32 / 15 * (n * s * (N + 1)) + 4 * β) := by
      have h2 := (abs_le.1 key).2
      have h3 := mul_le_mul_of_nonneg_left hbr hθ0
      have h4 := mul_le_mul_of_nonneg_right hθ hbr0
      rw [hβ] at *
      linarith
    have hL : w ⬝ᵥ (lowerSym n (fun a b => (A a b).val) *ᵥ w) =
        ∑ a ∈ range (p + 1), ∑ b ∈ range (p + 1), (v a).val * LDLTMgr.symL (fun a b => (A a b).val) a b * (v b).val := by
      rw [← Nat.Ico_zero_eq_range, ← quad_fin_if (n := n) (by omega : p + 1 ≤ n) _ (fun a => (v a).val), lowerSym_eq]
    have hLM : ∀ i j, |lowerSym n (fun a b => (A a b).val) i j - M i j| ≤ γ * s := by
      intro i j
      simp only [lowerSym, Matrix.of_apply]
      split
      · exact herr i j
      · rw [← hM.apply i j]; exact herr j i
    have h2 := (abs_le.1 (quad_perturb hLM w)).1
    rw [hww, hL] at h2
    linear_combination h2 + hkey
  · intro F hFs
    obtain ⟨r, hr, he⟩ := LDLTMgr.symQuad_fl (m := { m1 with wit := wit' }) hv hFs.isMat hpos (by omega : p + 1 ≤ n)
    refine ⟨r, hr, fun c hc => ?_⟩
    rw [hww]
    have hFk : w ⬝ᵥ (F.flMat n *ᵥ w) =
        ∑ a ∈ range (p + 1), ∑ b ∈ range (p + 1), (v a).val * (F.mat a b).val * (v b).val := by
      rw [← Nat.Ico_zero_eq_range,
        ← quad_fin_if (n := n) (by omega : p + 1 ≤ n) (fun a b => (F.mat a b).val) (fun a => (v a).val)]
      rfl
    rw [hFk]
    refine he.trans ?_
    have h3 : ∑ a ∈ range (p + 1), ∑ b ∈ range (p + 1), |(v a).val| * |(F.mat a b).val| * |(v b).val| ≤ n * c * (N + 1) := by
      have h4 := absForm_le (q := p + 1) (w := fun a => (v a).val) (f := fun a b => (F.mat a b).val) (c := c)
        fun a b ha hb => hc ⟨a, by omega⟩ ⟨b, by omega⟩
      rw [hW] at h4
      refine h4.trans ?_
      have h5 : ((p + 1 : Nat) : ℝ) ≤ n := by exact_mod_cast hpn
      have h6 : 0 ≤ c := (abs_nonneg _).trans (hc ⟨0, hn⟩ ⟨0, hn⟩)
      exact mul_le_mul_of_nonneg_right (mul_le_mul_of_nonneg_right h5 h6) (by positivity)
    have h7 : (1 + u) ^ (2 + (p + 1) * (p + 1)) - 1 ≤ 2 * ((n * n + 2) * u) := by
      have h8 : (1 + u) ^ (2 + (p + 1) * (p + 1)) ≤ (1 + u) ^ (n * n + 1 + 1) := by
        apply pow_le_pow_right₀ (by linarith)
        have : (p + 1) * (p + 1) ≤ n * n := Nat.mul_le_mul hpn hpn
        omega
      have h9 := gamma_le hu2 hu0
      push_cast at h9
      have h10 : 0 ≤ (n * n + 2) * u := by positivity
      linarith
    have h11 : 0 ≤ ∑ a ∈ range (p + 1), ∑ b ∈ range (p + 1), |(v a).val| * |(F.mat a b).val| * |(v b).val| :=
      sum_nonneg fun _ _ => sum_nonneg fun _ _ => by positivity
    exact mul_le_mul h7 h3 h11 (by positivity)

theorem flLinMat_quad {fs : List (Arr (Fl R))} (w : Fin n → ℝ) (z : Fin d → ℝ) :
    w ⬝ᵥ (flLinMat n fs z *ᵥ w) = ∑ k, z k * (w ⬝ᵥ (flMatAt n fs k *ᵥ w)) := by
  unfold flLinMat
  rw [sum_mulVec, dotProduct_sum]
  apply sum_congr rfl
  intro k _
  rw [smul_mulVec, dotProduct_smul, smul_eq_mul]

/-- the last step, common to both oracles: gradient entries close to `wᵀ F_k w`, a quadratic form that is negative at `x` and
positive at `y` -/
theorem cut_arith {fs : List (Arr (Fl R))} {G P1 : ℝ} {w : Fin n → ℝ} {x y g f : Fin d → ℝ} {My : Matrix (Fin n) (Fin n) ℝ}
    {s lam γ β : ℝ} (hs0 : 0 ≤ s) (hw1 : 1 ≤ w ⬝ᵥ w)
    (hγ : γ = 16 / 15 * ((d + 1) * u)) (hu0 : 0 ≤ u)
    (hMx : G ≤ -(1 - 12 * (n * u)) * β + n * s * (γ + 32 / 5 * (n * u)) * (w ⬝ᵥ w))
    (hgk : ∀ k, |g k - P1 * (w ⬝ᵥ (flMatAt n fs k *ᵥ w))| ≤ 2 * ((n * n + 2) * u) * (n * f k * (w ⬝ᵥ w)))
    (hMy : w ⬝ᵥ (My *ᵥ w) = G - P1 * ∑ k, (y k - x k) * (w ⬝ᵥ (flMatAt n fs k *ᵥ w)))
    (hlam : n * u * (8 * (n + d + 1 : Nat) * s + 2 * (n * n + 2 : Nat) * ∑ k, f k * |y k - x k|) ≤ lam)
    (hpsd : (My - lam • (1 : Matrix (Fin n) (Fin n) ℝ)).PosSemidef) :
    g ⬝ᵥ (y - x) + (1 - 12 * (n * u)) * β +
      (lam - n * u * (8 * (n + d + 1 : Nat) * s + 2 * (n * n + 2 : Nat) * ∑ k, f k * |y k - x k|)) ≤ 0 := by
  have hw : 0 ≤ w ⬝ᵥ w := by linarith
  have hn0 : (0 : ℝ) ≤ n := Nat.cast_nonneg n
  have hd0 : (0 : ℝ) ≤ d := Nat.cast_nonneg d
  have hlow : lam * (w ⬝ᵥ w) ≤ w ⬝ᵥ (My *ᵥ w) := by
    have := hpsd.dotProduct_mulVec_nonneg w
    simp only [star_trivial] at this
    rw [sub_eq_add_neg, ← neg_smul, quad_shift] at this
    linarith
  have h3 : n * s * (γ + 32 / 5 * (n * u)) * (w ⬝ᵥ w) ≤ n * u * (8 * (n + d + 1) * s) * (w ⬝ᵥ w) := by
    have h4 : γ + 32 / 5 * (n * u) ≤ u * (8 * (n + d + 1)) := by
      have : 0 ≤ n * u := by positivity
      have : 0 ≤ d * u := by positivity
      rw [hγ]; linarith
    have h5 : 0 ≤ n * s * (w ⬝ᵥ w) := by positivity
    have h6 := mul_le_mul_of_nonneg_right h4 h5
    linear_combination h6
  have hgrad : g ⬝ᵥ (y - x) ≤ P1 * ∑ k, (y k - x k) * (w ⬝ᵥ (flMatAt n fs k *ᵥ w)) +
      n * u * (2 * (n * n + 2) * ∑ k, f k * |y k - x k|) * (w ⬝ᵥ w) := by
    have e : n * u * (2 * (n * n + 2) * ∑ k, f k * |y k - x k|) * (w ⬝ᵥ w) =
        ∑ k, 2 * ((n * n + 2) * u) * (n * f k * (w ⬝ᵥ w)) * |y k - x k| := by
      rw [mul_sum, mul_sum, sum_mul]
      apply sum_congr rfl; intro k _; ring
    rw [e, mul_sum, ← sum_add_distrib]
    show ∑ k, g k * (y - x) k ≤ _
    apply sum_le_sum
    intro k _
    have h2 := mul_le_mul_of_nonneg_right (hgk k) (abs_nonneg (y k - x k))
    rw [← abs_mul] at h2
    have h3 := (abs_le.1 h2).2
    simp only [Pi.sub_apply]
    linarith
  have hlam' := mul_le_mul_of_nonneg_left hw1 (sub_nonneg.2 hlam)
  push_cast at hlam' ⊢
  linarith

/-- the cut of the LMI oracle, with the margin it leaves -/
theorem lmi_cut_margin {fs : List (Arr (Fl R))} {b x : Arr (Fl R)} {o : LMIOracle (Fl R)} (hF : FlSymMats d n fs)
    (hb : b.IsMatShape n n) (hbs : (b.flMat n).IsSymm) (hoF : o.matF = fs) (hoB : o.matB = b) (hm : o.mgr.Sized n)
    (hx : x.IsVecShape d) (hu : 16 * ((n * n + n + d + 2 : Nat) * u) ≤ 1) {s : ℝ}
    (hs : ∀ i j, |b.flMat n i j| + flLinSize n fs (x.flVec d) i j ≤ s)
    {f : Fin d → ℝ} (hf : ∀ (k : Fin d) i j, |flMatAt n fs k i j| ≤ f k) :
    ∃ r o', o.assess x = .ok (r, o') ∧ o'.matF = fs ∧ o'.matB = b ∧ o'.mgr.Sized n ∧
      ∀ g c, r = some (g, c) → g.IsVecShape d ∧ 0 ≤ c.beta.val ∧
        ∀ (y : Fin d → ℝ) (lam : ℝ),
          n * u * (8 * (n + d + 1 : Nat) * s + 2 * (n * n + 2 : Nat) * ∑ k, f k * |y k - x.flVec d k|) ≤ lam →
          (flLmiMat n fs b y - lam • (1 : Matrix (Fin n) (Fin n) ℝ)).PosSemidef →
            g.flVec d ⬝ᵥ (y - x.flVec d) + (1 - 12 * (n * u)) * c.beta.val + (lam -
              n * u * (8 * (n + d + 1 : Nat) * s + 2 * (n * n + 2 : Nat) * ∑ k, f k * |y k - x.flVec d k|)) ≤ 0 := by
  have hu0 := R.unit_nonneg
  rcases Nat.eq_zero_or_pos n with hnz | hn
  · subst hnz
    have hrun : o.assess x = .ok (none, { o with mgr := { o.mgr with pos := (0, 0) } }) := by
      unfold LMIOracle.assess LDLTMgr.factor
      rw [hm.1]
      simp [LDLTMgr.factorLoop, LDLTMgr.isSpd, hm.1]
    exact ⟨_, _, hrun, hoF, hoB, hm, fun g c h => by simp at h⟩
  have hcast : ((n * n + n + d + 2 : Nat) : ℝ) = n * n + n + d + 2 := by push_cast; ring
  rw [hcast] at hu
  have hnn : 0 ≤ n * n * u := by positivity
  have hnu0 : 0 ≤ n * u := by positivity
  have hdu0 : 0 ≤ d * u := by positivity
  obtain ⟨A, γ, hA, hs0, hgc, hg0, hg1, herr, hsz⟩ := lmi_entries_fl hF hb hoF hoB hx hn (by linarith) hs
  obtain ⟨bb, m1, h1, h2, h3⟩ := ldlt_cut_core (flLmiMat_symm hF hbs) hm hn hA hs0 hg0 hg1 (by push_cast; linarith) herr hsz
  unfold LMIOracle.assess
  rw [h1]
  simp only [Res.ok_bind]
  cases bb with
  | true => exact ⟨none, _, rfl, hoF, hoB, h2, fun g c h => by simp at h⟩
  | false =>
  obtain ⟨ep, m2, w, hwt, hm2, hep, hw0, hMx, hquad⟩ := h3 rfl
  simp only [Bool.false_eq_true, if_false, hwt, Res.ok_bind]
  have hq : ∀ k, ∃ r : Fl R, k < d → (nthMat o.matF k >>= fun F => m2.symQuad F) = .ok r ∧
      ∀ c, (∀ i j, |flMatAt n fs k i j| ≤ c) →
        |r.val - w ⬝ᵥ (flMatAt n fs k *ᵥ w)| ≤ 2 * ((n * n + 2) * u) * (n * c * (w ⬝ᵥ w)) := by
    intro k
    by_cases hk : k < d
    · have hkl : k < fs.length := by rw [hF.1]; exact hk
      obtain ⟨e1, -⟩ := nthMat_ok (fun f hf => (hF.2 f hf).1) hkl
      obtain ⟨r, hr, he⟩ := hquad fs[k] (hF.2 _ (List.getElem_mem hkl)).1
      refine ⟨r, fun _ => ⟨by rw [hoF, e1]; exact hr, ?_⟩⟩
      rw [show flMatAt n fs k = (fs[k]).flMat n by unfold flMatAt; simp [List.getD, hkl]]
      exact he
    · exact ⟨0, fun h => absurd h hk⟩
  choose q hq using hq
  obtain ⟨g, hgr, hgs, hgv⟩ := grad_loop_generic (d := d) (q := q) (f := fun k g => do
      let f ← nthMat o.matF k
      let v ← m2.symQuad f
      g.setIdx k v) (by
    intro k g hk
    obtain ⟨F, e1, e2⟩ := Res.bind_eq_ok.1 (hq k hk).1
    simp only [e1, Res.ok_bind, e2])
  have hgl : lmiGrad m2 o.matF x.len = .ok g := by unfold lmiGrad; rw [hx.isVec.len']; exact hgr
  rw [hgl]
  refine ⟨_, _, rfl, hoF, hoB, hm2, ?_⟩
  rintro g1 c1 hr
  simp only [Option.some.injEq, Prod.mk.injEq] at hr
  obtain ⟨rfl, rfl⟩ := hr
  refine ⟨hgs, hep, fun y lam hlam hpsd => ?_⟩
  refine cut_arith (P1 := 1) (fs := fs) hs0 hw0 hgc hu0 hMx (fun k => ?_) ?_ hlam hpsd
  · rw [one_mul, show g.flVec d k = (q k).val by show (g.vec k).val = _; rw [hgv k k.2]]
    exact (hq k k.2).2 _ (hf k)
  · have hlin : ∀ z : Fin d → ℝ, w ⬝ᵥ (flLmiMat n fs b z *ᵥ w) = w ⬝ᵥ (b.flMat n *ᵥ w) -
        ∑ k, z k * (w ⬝ᵥ (flMatAt n fs k *ᵥ w)) := by
      intro z
      unfold flLmiMat
      rw [sub_mulVec, dotProduct_sub, flLinMat_quad]
    rw [hlin, hlin, one_mul, sub_sub, ← sum_add_distrib]
    congr 1
    apply sum_congr rfl; intro k _; ring

/-- **C82** (LMI cuts)  In rounded arithmetic, with `16 (n² + n + d + 2) u ≤ 1`, `s` a bound for the sizes
`|B_ij| + Σ_k |x_k (F_k)_ij|` and `f_k` bounds for `|(F_k)_ij|`: `assess_feas` never panics, leaves the oracle ready for the
next call, and a cut `(g, β)` it returns has `β ≥ 0` and keeps, after shortening `β` by the relative amount `12 n u`, every
point `y` at which `B - Σ y_k F_k` is positive semidefinite with a margin
`λ ≥ n u (8 (n+d+1) s + 2 (n²+2) Σ f_k |y_k - x_k|)`. -/
theorem C82_lmi_cut {fs : List (Arr (Fl R))} {b x : Arr (Fl R)} {o : LMIOracle (Fl R)} (hF : FlSymMats d n fs)
    (hb : b.IsMatShape n n) (hbs : (b.flMat n).IsSymm) (hoF : o.matF = fs) (hoB : o.matB = b) (hm : o.mgr.Sized n)
    (hx : x.IsVecShape d) (hu : 16 * ((n * n + n + d + 2 : Nat) * u) ≤ 1) {s : ℝ}
    (hs : ∀ i j, |b.flMat n i j| + flLinSize n fs (x.flVec d) i j ≤ s)
    {f : Fin d → ℝ} (hf : ∀ (k : Fin d) i j, |flMatAt n fs k i j| ≤ f k) :
    ∃ r o', o.assess x = .ok (r, o') ∧ o'.matF = fs ∧ o'.matB = b ∧ o'.mgr.Sized n ∧
      ∀ g c, r = some (g, c) → g.IsVecShape d ∧ 0 ≤ c.beta.val ∧
        ∀ (y : Fin d → ℝ) (lam : ℝ),
          n * u * (8 * (n + d + 1 : Nat) * s + 2 * (n * n + 2 : Nat) * ∑ k, f k * |y k - x.flVec d k|) ≤ lam →
          (flLmiMat n fs b y - lam • (1 : Matrix (Fin n) (Fin n) ℝ)).PosSemidef →
            g.flVec d ⬝ᵥ (y - x.flVec d) + (1 - 12 * (n * u)) * c.beta.val ≤ 0 := by
  obtain ⟨r, o', h1, h2, h3, h4, h5⟩ := lmi_cut_margin hF hb hbs hoF hoB hm hx hu hs hf
  refine ⟨r, o', h1, h2, h3, h4, fun g c h => ?_⟩
  obtain ⟨a1, a2, a3⟩ := h5 g c h
  refine ⟨a1, a2, fun y lam hlam hp => ?_⟩
  have := a3 y lam hlam hp
  linarith

/-! ## The homogeneous form -/

theorem lmi0_entries_fl {fs : List (Arr (Fl R))} {x : Arr (Fl R)} {o : LMI0Oracle (Fl R)} (hF : FlSymMats d n fs)
    (hoF : o.matF = fs) (hx : x.IsVecShape d) (hn : 0 < n) (hu : 16 * ((n + d + 1) * u) ≤ 1) {s : ℝ}
    (hs : ∀ i j, flLinSize n fs (x.flVec d) i j ≤ s) :
    ∃ (A : Nat → Nat → Fl R) (g : ℝ), (∀ i j, j ≤ i → i < n → o.elem x i j = .ok (A i j)) ∧ 0 ≤ s ∧
      g = 16 / 15 * ((d + 1) * u) ∧ 0 ≤ g ∧ 15 * g ≤ 1 ∧
      (∀ i j : Fin n, |(A i j).val - flLinMat n fs (x.flVec d) i j| ≤ g * s) ∧
      (∀ i : Fin n, |flLinMat n fs (x.flVec d) i i| ≤ s) := by
  have hu0 := R.unit_nonneg
  have hxl : x.len = d := hx.isVec.len'
  have hn0 : (0 : ℝ) ≤ n := Nat.cast_nonneg n
  have hd0 : (0 : ℝ) ≤ d := Nat.cast_nonneg d
  set A : Nat → Nat → Fl R := fun i j => sumTo d fun k => fEntry fs k i j * x.vec k with hAdef
  have hA : ∀ i j, j ≤ i → i < n → o.elem x i j = .ok (A i j) := by
    intro i j hj hi
    unfold LMI0Oracle.elem
    rw [hxl]
    apply forRange_sum
    intro k acc hk
    have hkl : k < fs.length := by rw [hF.1]; exact hk
    obtain ⟨e1, e2⟩ := nthMat_ok (fun f hf => (hF.2 f hf).1) hkl
    rw [hoF, e1]
    simp only [Res.ok_bind]
    rw [e2.getij hi (by omega), fEntry_eq hkl, hx.isVec.idx hk]
    rfl
  set g := 16 / 15 * ((d + 1 : Nat) * u) with hg
  have hgc : g = 16 / 15 * ((d + 1) * u) := by rw [hg]; push_cast; ring
  have hnu : 0 ≤ n * u := by positivity
  have hdu : 0 ≤ (d + 1) * u := by positivity
  have hg0 : 0 ≤ g := by rw [hgc]; positivity
  have hg1 : 15 * g ≤ 1 := by rw [hgc]; linarith
  have hterm : ∀ i j : Fin n, ∑ k ∈ range d, |(fEntry fs k i j).val| * |(x.vec k).val| ≤ s := by
    intro i j
    refine le_trans (le_of_eq ?_) (hs i j)
    rw [Finset.sum_range, flLinSize]
    apply sum_congr rfl
    intro k _
    rw [flMatAt_eq (by rw [hF.1]; exact k.2), mul_comm]
    rfl
  have hval : ∀ i j : Fin n, flLinMat n fs (x.flVec d) i j =
      ∑ k ∈ range d, (fEntry fs k i j).val * (x.vec k).val := by
    intro i j
    simp only [flLinMat, Matrix.sum_apply, Matrix.smul_apply, smul_eq_mul]
    rw [Finset.sum_range]
    apply sum_congr rfl
    intro k _
    rw [flMatAt_eq (by rw [hF.1]; exact k.2), mul_comm]
    rfl
  refine ⟨A, g, hA, le_trans (sum_nonneg fun _ _ => by positivity) (hterm ⟨0, hn⟩ ⟨0, hn⟩), hgc, hg0, hg1, ?_, ?_⟩
  · intro i j
    rw [hval, hAdef]
    refine (sumTo_fl_err d _ _).trans ?_
    have h1 : (1 + u) ^ (d + 1) - 1 ≤ g := gamma_le (by push_cast; linarith) hu0
    exact mul_le_mul h1 (hterm i j) (sum_nonneg fun _ _ => by positivity) hg0
  · intro i
    rw [hval]
    refine (abs_sum_le_sum_abs _ _).trans (le_trans (le_of_eq ?_) (hterm i i))
    exact sum_congr rfl fun k _ => abs_mul _ _

/-- **C82** (homogeneous LMI oracle)  The same three facts for `LMI0Oracle`, about `Σ x_k F_k`: what an acceptance means, when
the oracle must accept, and what its cuts keep; it never panics. -/
theorem C82_lmi0_rounded {fs : List (Arr (Fl R))} {x : Arr (Fl R)} {o : LMI0Oracle (Fl R)} (hF : FlSymMats d n fs)
    (hoF : o.matF = fs) (hm : o.mgr.Sized n)
    (hx : x.IsVecShape d) (hu : 16 * ((n * n + n + d + 2 : Nat) * u) ≤ 1) {s : ℝ}
    (hs : ∀ i j, flLinSize n fs (x.flVec d) i j ≤ s)
    {f : Fin d → ℝ} (hf : ∀ (k : Fin d) i j, |flMatAt n fs k i j| ≤ f k) :
    ∃ r o', o.assess x = .ok (r, o') ∧ o'.matF = fs ∧ o'.mgr.Sized n ∧
      (r = none → (flLinMat n fs (x.flVec d) + (4 * n * (n + d + 1 : Nat) * u * s) • (1 : Matrix (Fin n) (Fin n) ℝ)).PosDef) ∧
      ((∃ lam, 8 * n * (n + d + 1 : Nat) * u * s < lam ∧
        (flLinMat n fs (x.flVec d) - lam • (1 : Matrix (Fin n) (Fin n) ℝ)).PosSemidef) → r = none) ∧
      ∀ g ep, r = some (g, ep) → g.IsVecShape d ∧ 0 ≤ ep.val ∧
        ∀ (y : Fin d → ℝ) (lam : ℝ),
          n * u * (8 * (n + d + 1 : Nat) * s + 2 * (n * n + 2 : Nat) * ∑ k, f k * |y k - x.flVec d k|) ≤ lam →
          (flLinMat n fs y - lam • (1 : Matrix (Fin n) (Fin n) ℝ)).PosSemidef →
            g.flVec d ⬝ᵥ (y - x.flVec d) + (1 - 12 * (n * u)) * ep.val ≤ 0 := by
  have hu0 := R.unit_nonneg
  rcases Nat.eq_zero_or_pos n with hnz | hn
  · subst hnz
    have hrun : o.assess x = .ok (none, { o with mgr := { o.mgr with pos := (0, 0) } }) := by
      unfold LMI0Oracle.assess LDLTMgr.factor
      rw [hm.1]
      simp [LDLTMgr.factorLoop, LDLTMgr.isSpd, hm.1]
    refine ⟨_, _, hrun, hoF, hm, fun _ => ?_, fun _ => rfl, fun g c h => by simp at h⟩
    rw [posDef_iff_real]
    exact ⟨by ext i; exact i.elim0, fun y hy => absurd (Subsingleton.elim _ _) hy⟩
  have hcast : ((n * n + n + d + 2 : Nat) : ℝ) = n * n + n + d + 2 := by push_cast; ring
  have hcast' : ((n + d + 1 : Nat) : ℝ) = n + d + 1 := by push_cast; ring
  rw [hcast] at hu
  have hnn : 0 ≤ n * n * u := by positivity
  have hnu0 : 0 ≤ n * u := by positivity
  have hdu0 : 0 ≤ d * u := by positivity
  have hn0 : (0 : ℝ) ≤ n := Nat.cast_nonneg n
  obtain ⟨A, γ, hA, hs0, hgc, hg0, hg1, herr, hsz⟩ := lmi0_entries_fl hF hoF hx hn (by linarith) hs
  obtain ⟨bb, m1, h1, h2, h3⟩ := ldlt_cut_core (flLinMat_symm hF) hm hn hA hs0 hg0 hg1 (by push_cast; linarith) herr hsz
  obtain ⟨bb', m', h1', h4, h5⟩ := factor_of_approx (t := n * u) (flLinMat_symm hF) hm.1 hm.2.1 hA hs0 hg0 hg1 (le_refl _)
    (by linarith) herr hsz
  rw [h1] at h1'
  simp only [Res.ok.injEq, Prod.mk.injEq] at h1'
  obtain ⟨rfl, rfl⟩ := h1'
  have hns : 0 ≤ n * s := by positivity
  have c1 : n * s * (16 / 5 * (n * u) + γ) ≤ 4 * n * (n + d + 1) * u * s := by
    have : 16 / 5 * (n * u) + γ ≤ 4 * (n + d + 1) * u := by rw [hgc]; linarith
    calc n * s * (16 / 5 * (n * u) + γ) ≤ n * s * (4 * (n + d + 1) * u) := mul_le_mul_of_nonneg_left this hns
      _ = _ := by ring
  have c2 : n * s * (32 / 5 * (n * u) + γ) ≤ 8 * n * (n + d + 1) * u * s := by
    have : 32 / 5 * (n * u) + γ ≤ 8 * (n + d + 1) * u := by rw [hgc]; linarith
    calc n * s * (32 / 5 * (n * u) + γ) ≤ n * s * (8 * (n + d + 1) * u) := mul_le_mul_of_nonneg_left this hns
      _ = _ := by ring
  have hrej : (∃ lam, 8 * n * (n + d + 1 : Nat) * u * s < lam ∧
        (flLinMat n fs (x.flVec d) - lam • (1 : Matrix (Fin n) (Fin n) ℝ)).PosSemidef) → bb = true := by
    rintro ⟨lam, hl, hp⟩
    rw [hcast'] at hl
    exact h5 ⟨lam, by linarith, hp⟩
  have hacc : bb = true →
      (flLinMat n fs (x.flVec d) + (4 * n * (n + d + 1 : Nat) * u * s) • (1 : Matrix (Fin n) (Fin n) ℝ)).PosDef := by
    intro hb
    have hp := h4 hb
    rw [posDef_iff_real] at hp ⊢
    refine ⟨(flLinMat_symm hF).add (isSymm_one.smul _), fun z hz => ?_⟩
    have h6 := hp.2 z hz
    rw [quad_shift] at h6 ⊢
    have hzz : 0 ≤ z ⬝ᵥ z := by rw [dotProduct]; exact sum_nonneg fun i _ => mul_self_nonneg _
    rw [hcast']
    have := mul_le_mul_of_nonneg_right c1 hzz
    linarith
  unfold LMI0Oracle.assess
  rw [h1]
  simp only [Res.ok_bind]
  cases bb with
  | true => exact ⟨none, _, rfl, hoF, h2, fun _ => hacc rfl, fun _ => rfl, fun g c h => by simp at h⟩
  | false =>
  obtain ⟨ep, m2, w, hwt, hm2, hep, hw0, hMx, hquad⟩ := h3 rfl
  simp only [Bool.false_eq_true, if_false, hwt, Res.ok_bind]
  have hq : ∀ k, ∃ r : Fl R, k < d → (nthMat o.matF k >>= fun F => m2.symQuad F) = .ok r ∧
      ∀ c, (∀ i j, |flMatAt n fs k i j| ≤ c) →
        |r.val - w ⬝ᵥ (flMatAt n fs k *ᵥ w)| ≤ 2 * ((n * n + 2) * u) * (n * c * (w ⬝ᵥ w)) := by
    intro k
    by_cases hk : k < d
    · have hkl : k < fs.length := by rw [hF.1]; exact hk
      obtain ⟨e1, -⟩ := nthMat_ok (fun f hf => (hF.2 f hf).1) hkl
      obtain ⟨r, hr, he⟩ := hquad fs[k] (hF.2 _ (List.getElem_mem hkl)).1
      refine ⟨r, fun _ => ⟨by rw [hoF, e1]; exact hr, ?_⟩⟩
      rw [show flMatAt n fs k = (fs[k]).flMat n by unfold flMatAt; simp [List.getD, hkl]]
      exact he
    · exact ⟨0, fun h => absurd h hk⟩
  choose q hq using hq
  obtain ⟨g, hgr, hgs, hgv⟩ := grad_loop_generic (d := d) (q := fun k => -q k) (f := fun k g => do
      let f ← nthMat o.matF k
      let v ← m2.symQuad f
      g.setIdx k (-v)) (by
    intro k g hk
    obtain ⟨F, e1, e2⟩ := Res.bind_eq_ok.1 (hq k hk).1
    simp only [e1, Res.ok_bind, e2])
  have hgl : lmi0Grad m2 o.matF x.len = .ok g := by unfold lmi0Grad; rw [hx.isVec.len']; exact hgr
  rw [hgl]
  refine ⟨_, _, rfl, hoF, hm2, fun h => by simp at h, fun h => by simpa using hrej h, ?_⟩
  rintro g1 c1 hr
  simp only [Option.some.injEq, Prod.mk.injEq] at hr
  obtain ⟨rfl, rfl⟩ := hr
  refine ⟨hgs, hep, fun y lam hlam hpsd => ?_⟩
  refine le_trans (le_add_of_nonneg_right (sub_nonneg.2 hlam))
    (cut_arith (P1 := -1) (fs := fs) hs0 hw0 hgc hu0 hMx (fun k => ?_) ?_ hlam hpsd)
  · rw [show g.flVec d k = -(q k).val by show (g.vec k).val = _; rw [hgv k k.2]; rfl]
    have := (hq k k.2).2 _ (hf k)
    rwa [show -(q k).val - -1 * (w ⬝ᵥ (flMatAt n fs k *ᵥ w)) = -((q k).val - w ⬝ᵥ (flMatAt n fs k *ᵥ w)) by ring, abs_neg]
  · rw [flLinMat_quad, flLinMat_quad, neg_one_mul, sub_neg_eq_add, ← sum_add_distrib]
    apply sum_congr rfl; intro k _; ring

/-! ## Runs -/

/-- **C82** (runs)  `cutting_plane_feas` with an LMI oracle in rounded arithmetic, over any search space whose centre is always a
vector of length `d`: a point it returns satisfies the matrix inequality up to the margin `4 n (n + d + 1) u s`, whatever
the earlier cuts did and however long the run was. -/
theorem C82_lmi_run {S : Type} (sp : Space S (Arr (Fl R)) (SingleCut (Fl R)) (Fl R)) {fs : List (Arr (Fl R))}
    {b : Arr (Fl R)} {o o' : LMIOracle (Fl R)} (hF : FlSymMats d n fs)
    (hb : b.IsMatShape n n) (hbs : (b.flMat n).IsSymm) (hoF : o.matF = fs) (hoB : o.matB = b) (hm : o.mgr.Sized n)
    (hu : 16 * ((n + d + 1 : Nat) * u) ≤ 1) (e e' : S) (opts : Options (Fl R)) (x : Arr (Fl R)) (k : Nat)
    (h : cuttingPlaneFeas LMIOracle.oracle sp o e opts = .ok ((some x, k), o', e')) (hx : x.IsVecShape d)
    {s : ℝ} (hs : ∀ i j, |b.flMat n i j| + flLinSize n fs (x.flVec d) i j ≤ s) :
    (flLmiMat n fs b (x.flVec d) + (4 * n * (n + d + 1 : Nat) * u * s) • (1 : Matrix (Fin n) (Fin n) ℝ)).PosDef := by
  have hrun : ∀ {k : Nat} {o o1 : LMIOracle (Fl R)} {e e1 : S}, FeasRun LMIOracle.oracle sp opts.tolerance k o e o1 e1 →
      (o.Fits d n ∧ o.matF = fs ∧ o.matB = b) → o1.Fits d n ∧ o1.matF = fs ∧ o1.matB = b := by
    intro k o o1 e e1 hr
    induction hr with
    | nil => exact id
    | cons hq _ _ _ ih =>
      rintro ⟨h1, h2, h3⟩
      obtain ⟨e1, e2, -⟩ := LMIOracle.assess_data hq
      exact ih ⟨h1.assess hq, by rw [e1, h2], by rw [e2, h3]⟩
  obtain ⟨w1, s1, hr, h | h | h⟩ := (C01_feas_iff _ _ _ _ _ _ _ _ _).1 h
  · obtain ⟨-, hq, -, hxx⟩ := h
    simp only [Option.some.injEq] at hxx
    rw [← hxx] at hq
    obtain ⟨h1, h2, h3⟩ := hrun hr ⟨⟨by rw [hoF]; exact fun f hf => (hF.2 f hf).1, by rw [hoB]; exact hb, hm.1, hm.2.1,
      by rw [hoF, hF.1]⟩, hoF, hoB⟩
    exact (C82_lmi_rounded hF hb hbs h2 h3 ⟨h1.2.2.1, h1.2.2.2.1⟩ hx hu hs).1 _ hq
  · simp at h
  · simp at h

/-- **C82** (eager oracle)  `LMIOldOracle` gives the same answers as `LMIOracle` in rounded arithmetic too, so the facts above
hold of it. -/
theorem C82_lmi_old_same {fs : List (Arr (Fl R))} {b x : Arr (Fl R)} {o : LMIOracle (Fl R)} (hF : FlSymMats d n fs)
    (hb : b.IsMatShape n n) (hoF : o.matF = fs) (hoB : o.matB = b) (hm : o.mgr.Sized n) (hx : x.IsVecShape d) :
    o.assessOld x = o.assess x :=
  LMIOracle.assessOld_eq (n := n) (by rw [hoF]; exact fun f hf => (hF.2 f hf).1) (by rw [hoB]; exact hb) hm.1
    (by rw [hx.isVec.len', hoF, hF.1])

end Ellalgo
