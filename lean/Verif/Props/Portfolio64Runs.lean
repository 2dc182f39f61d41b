import Verif.Props.Portfolio64

/-! # C131: runs of the portfolio example in IEEE `f64` -/

namespace Ellalgo
open Matrix
variable {n : Nat}

/-- a difference of finite numbers has the right sign -/
theorem B64.le_of_sub {a b : B64} (ha : a.Finite) (hb : b.Finite) (h : Scalar.gt (a - b) 0 = false) : a.val ≤ b.val := by
  by_contra hc
  have hn := B64.neg_val hb
  have hpos : 0 < a.val + (-b).val := by rw [hn.2]; linarith
  have hr : rnd64 (a.val + (-b).val) = rnd53 (a.val + (-b).val) := rnd64_add (B64.rep_val ha) (B64.rep_val hn.1)
  have h53 : 0 < rnd53 (a.val + (-b).val) := bin53.pos (by norm_num) hpos
  have e : a - b = B64.ofReal (a.sgn && (-b).sgn) (a.val + (-b).val) := (show a - b = a + -b from rfl).trans (B64.finite_add ha hn.1)
  have hz := B64.place_finite Same.zero.1
  have hz2 : (0 : B64).val = 0 := Same.zero.2
  have : Scalar.lt (0 : B64) (a - b) = true := by
    rw [B64.lt_iff, hz.2, hz2, e]
    refine ⟨hz.1, B64.ofReal_ne_nan _ _, ?_⟩
    rcases B64.ofReal_cases (a.sgn && (-b).sgn) (a.val + (-b).val) with ⟨h1, -⟩ | ⟨-, -, c, hc1, h2⟩ | ⟨-, h2⟩
    · rw [hr] at h1; linarith
    · rw [h2]
      show ((0 : ℝ) : EReal) < ((c.x : ℝ) : EReal)
      rw [hc1, hr]
      exact_mod_cast h53
    · rw [h2, decide_eq_false (by linarith)]
      exact EReal.coe_lt_top _
  rw [show Scalar.gt (a - b) 0 = Scalar.lt (0 : B64) (a - b) from rfl, this] at h
  cases h

theorem B64.sub_of_le {a b : B64} (ha : a.Finite) (hb : b.Finite) (h : a.val ≤ b.val) : Scalar.gt (a - b) 0 = false := by
  have hn := B64.neg_val hb
  have hnp : a.val + (-b).val ≤ 0 := by rw [hn.2]; linarith
  have hr : rnd64 (a.val + (-b).val) = rnd53 (a.val + (-b).val) := rnd64_add (B64.rep_val ha) (B64.rep_val hn.1)
  have h53 : rnd53 (a.val + (-b).val) ≤ 0 := by
    have := rnd53_mono _ _ hnp
    rwa [show rnd53 0 = 0 from bin53.zero] at this
  have e : a - b = B64.ofReal (a.sgn && (-b).sgn) (a.val + (-b).val) := (show a - b = a + -b from rfl).trans (B64.finite_add ha hn.1)
  have hz := B64.place_finite Same.zero.1
  have hz2 : (0 : B64).val = 0 := Same.zero.2
  rw [show Scalar.gt (a - b) 0 = Scalar.lt (0 : B64) (a - b) from rfl]
  by_contra hc
  obtain ⟨-, -, h1⟩ := (B64.lt_iff _ _).1 (by simpa using hc : Scalar.lt (0 : B64) (a - b) = true)
  rw [hz.2, hz2, e] at h1
  rcases B64.ofReal_cases (a.sgn && (-b).sgn) (a.val + (-b).val) with ⟨-, h2⟩ | ⟨-, -, c, hc1, h2⟩ | ⟨h3, h2⟩
  · rw [h2] at h1
    exact lt_irrefl _ h1
  · rw [h2] at h1
    have h1 : ((0 : ℝ) : EReal) < ((c.x : ℝ) : EReal) := h1
    rw [hc1, hr] at h1
    exact absurd (by exact_mod_cast h1 : 0 < rnd53 (a.val + (-b).val)) (not_lt.2 h53)
  · rcases hnp.lt_or_eq with h4 | h4
    · rw [h2, decide_eq_true h4] at h1
      exact absurd h1 (not_lt.2 bot_le)
    · rw [h4] at h3
      rw [rnd64_zero, abs_zero] at h3
      exact absurd h3 (not_le.2 (by positivity))

theorem Mid64.ok {t : ℝ} (h : Mid64 t) : NoUnder t ∧ |t| ≤ (2 : ℝ) ^ (800 : ℤ) := by
  rcases h with rfl | ⟨h1, h2⟩
  · exact ⟨.inl rfl, by rw [abs_zero]; positivity⟩
  · exact ⟨.inr ((zpow_le_zpow_right₀ (by norm_num) (by norm_num)).trans h1), h2⟩

theorem pow_800 : (2 : ℝ) ^ (800 : ℤ) ≤ (2 : ℝ) ^ (900 : ℤ) := zpow_le_zpow_right₀ (by norm_num) (by norm_num)

/-- a product of ordinary size -/
theorem Same.mul_mid {a b : B64} {a' b' : Fl bin53} (ha : Same a a') (hb : Same b b') (h : Mid64 (a.val * b.val)) :
    Same (a * b) (a' * b') ∧ (a * b).Small 900 := by
  rw [ha.2, hb.2] at h
  obtain ⟨h1, h2⟩ := h.ok
  have h3 := rnd53_abs_pow h2
  have s := ha.mul hb ⟨h1, B64.pow_lt_max (by norm_num) h3⟩
  exact ⟨s, s.1, by rw [s.2]; exact h3.trans pow_800⟩

/-- a product with a rounded product -/
theorem Same.mul_mid2 {a b : B64} {a' b' : Fl bin53} {t : ℝ} (ha : Same a a') (hb : Same b b') (hat : a.val = rnd53 t)
    (h : Mid64 (t * b.val)) : Same (a * b) (a' * b') ∧ (a * b).Small 900 := by
  have he := rnd53_err t
  rw [← hat] at he
  have hu : (2 : ℝ) ^ (-53 : ℤ) ≤ 1 / 2 := by norm_num
  have h1 := he.trans (mul_le_mul_of_nonneg_right hu (abs_nonneg t))
  have hlo : |t| / 2 ≤ |a.val| := by
    have := abs_sub_abs_le_abs_sub t a.val
    rw [abs_sub_comm] at this
    linarith
  have hhi : |a.val| ≤ 2 * |t| := by
    have := abs_sub_abs_le_abs_sub a.val t
    have := abs_nonneg t
    linarith
  have hlo' : |t * b.val| / 2 ≤ |a.val * b.val| := by
    rw [abs_mul, abs_mul]
    have := mul_le_mul_of_nonneg_right hlo (abs_nonneg b.val)
    linarith
  have hhi' : |a.val * b.val| ≤ 2 * |t * b.val| := by
    rw [abs_mul, abs_mul]
    have := mul_le_mul_of_nonneg_right hhi (abs_nonneg b.val)
    linarith
  have hun : NoUnder (a.val * b.val) := by
    rcases h with h | ⟨h, -⟩
    · left
      rw [h, abs_zero, mul_zero] at hhi'
      exact abs_eq_zero.1 (le_antisymm hhi' (abs_nonneg _))
    · right
      refine le_trans ?_ ((div_le_div_of_nonneg_right h (by norm_num)).trans hlo')
      rw [div_eq_mul_inv, show (2 : ℝ)⁻¹ = (2 : ℝ) ^ (-1 : ℤ) by norm_num, ← zpow_add₀ (by norm_num)]
      exact zpow_le_zpow_right₀ (by norm_num) (by norm_num)
  have hov : |a.val * b.val| ≤ (2 : ℝ) ^ (801 : ℤ) := by
    refine hhi'.trans ((mul_le_mul_of_nonneg_left h.ok.2 (by norm_num)).trans (le_of_eq ?_))
    rw [show (801 : ℤ) = 1 + 800 by norm_num, zpow_add₀ (by norm_num), zpow_one]
  have h3 := rnd53_abs_pow hov
  rw [ha.2, hb.2] at hun h3
  have s := ha.mul hb ⟨hun, B64.pow_lt_max (by norm_num) h3⟩
  exact ⟨s, s.1, by rw [s.2]; exact h3.trans (zpow_le_zpow_right₀ (by norm_num) (by norm_num))⟩

/-- the data read as rounded numbers -/
noncomputable def Portfolio.toFl (p : Portfolio B64) : Portfolio (Fl bin53) :=
  ⟨p.expectedReturns.toFl, p.riskMatrix.toFl, ⟨p.maxRisk.val⟩, ⟨p.budget.val⟩⟩

theorem portfolio_same {p : Portfolio B64} (hp : p.Finite64 n) {x : Arr B64} (hf : x.AllFinite)
    (ht : PortfolioTame (p.expectedReturns.vec64 n) (p.riskMatrix.mat64 n) (x.vec64 n)) :
    Same (Portfolio.spentOf n x) (Portfolio.spentOf n x.toFl) ∧ Same (p.riskOf n x) (p.toFl.riskOf n x.toFl) ∧
      Same (p.returnOf n x) (p.toFl.returnOf n x.toFl) := by
  have sx : ∀ j : Nat, Same (x.vec j) (x.toFl.vec j) := fun j => ⟨allFinite_vec hf j, by rw [Arr.toFl_vec]⟩
  have sr : ∀ j : Nat, Same (p.expectedReturns.vec j) (p.toFl.expectedReturns.vec j) := fun j =>
    ⟨allFinite_vec hp.returns j, by rw [Portfolio.toFl, Arr.toFl_vec]⟩
  have sm : ∀ i j : Nat, Same (p.riskMatrix.mat i j) (p.toFl.riskMatrix.mat i j) := fun i j =>
    ⟨allFinite_vec hp.risk _, by rw [Portfolio.toFl, Arr.toFl_mat]⟩
  refine ⟨(Same.sum_stay n (fun j _ => sx j) fun j hj => ⟨(sx j).1, ht.hold ⟨j, hj⟩⟩).1, ?_, ?_⟩
  · have key : ∀ k < n * n, Same (x.vec (k / n) * p.riskMatrix.mat (k / n) (k % n) * x.vec (k % n))
        (x.toFl.vec (k / n) * p.toFl.riskMatrix.mat (k / n) (k % n) * x.toFl.vec (k % n)) ∧
        (x.vec (k / n) * p.riskMatrix.mat (k / n) (k % n) * x.vec (k % n)).Small 900 := by
      intro k hk
      have hn : 0 < n := by
        rcases Nat.eq_zero_or_pos n with rfl | h
        · simp at hk
        · exact h
      have hi : k / n < n := Nat.div_lt_of_lt_mul hk
      have hj : k % n < n := Nat.mod_lt _ hn
      obtain ⟨s1, -⟩ := Same.mul_mid (sx (k / n)) (sm (k / n) (k % n)) (ht.half ⟨_, hi⟩ ⟨_, hj⟩)
      refine Same.mul_mid2 (t := (x.vec (k / n)).val * (p.riskMatrix.mat (k / n) (k % n)).val) s1 (sx (k % n)) ?_ (ht.risk ⟨_, hi⟩ ⟨_, hj⟩)
      rw [s1.2]
      show rnd53 ((x.toFl.vec (k / n)).val * (p.toFl.riskMatrix.mat (k / n) (k % n)).val) = _
      rw [← (sx (k / n)).2, ← (sm (k / n) (k % n)).2]
    exact (Same.sum_stay (n * n) (fun k hk => (key k hk).1) fun k hk => (key k hk).2).1
  · have key : ∀ i < n, Same (p.expectedReturns.vec i * x.vec i) (p.toFl.expectedReturns.vec i * x.toFl.vec i) ∧
        (p.expectedReturns.vec i * x.vec i).Small 900 := fun i hi => Same.mul_mid (sr i) (sx i) (ht.ret ⟨i, hi⟩)
    exact (Same.sum_stay n (fun k hk => (key k hk).1) fun k hk => (key k hk).2).1

/-- **C131** (what the computed values mean)  If the data are finite and the computed amount and risk of a portfolio of finite numbers and of
ordinary size violate no limit, the portfolio is within the budget and the risk limit, and its computed return is finite and the true one, up to the
rounding in evaluating them, for `u = 2⁻⁵³`, whatever the number of assets. -/
theorem C131_portfolio_values {p : Portfolio B64} (hp : p.Finite64 n) {x : Arr B64} (hx : x.IsVecShape n) (hf : x.AllFinite)
    (ht : PortfolioTame (p.expectedReturns.vec64 n) (p.riskMatrix.mat64 n) (x.vec64 n)) (hk : p.Keeps n x) :
    (p.returnOf n x).Finite ∧
      ∑ i, x.vec64 n i ≤ p.budget.val + ((1 + (2 : ℝ) ^ (-53 : ℤ)) ^ n - 1) * ∑ i, |x.vec64 n i| ∧
      x.vec64 n ⬝ᵥ (p.riskMatrix.mat64 n *ᵥ x.vec64 n) ≤
        p.maxRisk.val + ((1 + (2 : ℝ) ^ (-53 : ℤ)) ^ (n * n + 2) - 1) * absQuad (p.riskMatrix.mat64 n) (x.vec64 n) ∧
      |(p.returnOf n x).val - p.expectedReturns.vec64 n ⬝ᵥ x.vec64 n| ≤
        ((1 + (2 : ℝ) ^ (-53 : ℤ)) ^ (n + 1) - 1) * ∑ i, |p.expectedReturns.vec64 n i| * |x.vec64 n i| := by
  obtain ⟨s1, s2, s3⟩ := portfolio_same hp hf ht
  have shp : ∀ b : Arr B64, b.IsVecShape n → b.toFl.IsVecShape n := fun b hb => ⟨hb.1, hb.2.1, by
    show (b.data.map _).length = _
    rw [List.length_map]; exact hb.2.2⟩
  have hsz : p.toFl.Sized n := ⟨shp _ hp.sized.1, hp.sized.2.1, hp.sized.2.2.1, by
    show (p.riskMatrix.data.map _).length = _
    rw [List.length_map]; exact hp.sized.2.2.2⟩
  have e1 : ∀ b : Arr B64, b.toFl.flVec n = b.vec64 n := by
    intro b
    funext j
    show (b.toFl.vec j).val = _
    rw [Arr.toFl_vec]; rfl
  have e2 : p.riskMatrix.toFl.flMat n = p.riskMatrix.mat64 n := by
    ext i j
    show (p.riskMatrix.toFl.mat i j).val = _
    rw [Arr.toFl_mat]; rfl
  have hb := B64.le_of_sub s1.1 hp.budget hk.1
  have hm := B64.le_of_sub s2.1 hp.maxRisk hk.2
  rw [s1.2] at hb
  rw [s2.2] at hm
  have hge : ∀ (a b : Fl bin53), a.val ≤ b.val → Scalar.gt (a - b) 0 = false := by
    intro a b h
    show decide ((0 : ℝ) < rnd53 (a.val - b.val)) = false
    have : rnd53 (a.val - b.val) ≤ rnd53 0 := rnd53_mono _ _ (by linarith)
    rw [show rnd53 0 = 0 from bin53.zero] at this
    exact decide_eq_false (not_lt.2 this)
  have hkf : p.toFl.Keeps n x.toFl := ⟨hge _ _ hb, hge _ _ hm⟩
  obtain ⟨γ, hγ⟩ : ∃ γ : Fl bin53, γ = ⟨(-p.toFl.returnOf n x.toFl).val + 1⟩ := ⟨_, rfl⟩
  obtain ⟨g, b, s, γ', q1, -, q2, q3, -⟩ := C131_portfolio_query hsz (shp x hx) γ
  obtain ⟨g2, b2, sh, γ2, r1, -, -, r2⟩ := C121_answers (p := p.toFl) (n := n) hsz (by norm_num) (shp x hx) γ
  rw [q1] at r1
  simp only [Res.ok.injEq, Prod.mk.injEq] at r1
  obtain ⟨⟨-, rfl⟩, rfl, -⟩ := r1
  have hs : s = true := q2.2 ⟨hkf, by
    show decide ((-p.toFl.returnOf n x.toFl).val < γ.val) = true
    rw [hγ]
    exact decide_eq_true (by show _ < _ + (1 : ℝ); linarith)⟩
  obtain ⟨-, r3, r4, r5⟩ := r2 hs
  rw [q3 hs] at r5
  simp only [Portfolio.toFl, e1, e2] at r3 r4 r5
  refine ⟨s3.1, r3, r4, ?_⟩
  rw [s3.2, ← abs_neg]
  refine le_trans (le_of_eq ?_) r5
  congr 1
  show -(_ - _) = -(p.toFl.returnOf n x.toFl).val + _
  ring

/-- **C131** (runs)  `cutting_plane_optim` with the portfolio oracle in IEEE-754 `f64`, over any search space that keeps its dimension, whatever
overflows, underflows or turns into a NaN in it on the way: the run ends without a panic and leaves the data unchanged; without a portfolio `γ` is
unchanged.  The computed amount and risk of a returned portfolio violate no limit, its computed negated return is the final value, and this is below
the starting value.  If the data and the portfolio are of finite numbers and of ordinary size, the value is finite and the limits are kept and the
return is the reported one, up to the rounding in evaluating them, for `u = 2⁻⁵³`. -/
theorem C131_portfolio_run {S : Type} {sp : Space S (Arr B64) (SingleCut B64) B64} {Q : S → Prop} (hsp : sp.Steady n Q)
    {p : Portfolio B64} (hp : p.Sized n) {s : S} (hs : Q s) (γ : B64) (opts : Options B64) :
    ∃ r k γ' s', cuttingPlaneOptim Portfolio.oracle sp p s γ opts = .ok ((r, k), γ', p, s') ∧ (r = none → γ' = γ) ∧
      ∀ x, r = some x → x.IsVecShape n ∧ p.Keeps n x ∧ γ' = -p.returnOf n x ∧ Scalar.lt γ' γ = true ∧
        (p.Finite64 n → x.AllFinite → PortfolioTame (p.expectedReturns.vec64 n) (p.riskMatrix.mat64 n) (x.vec64 n) → γ'.Finite ∧
          ∑ i, x.vec64 n i ≤ p.budget.val + ((1 + (2 : ℝ) ^ (-53 : ℤ)) ^ n - 1) * ∑ i, |x.vec64 n i| ∧
          x.vec64 n ⬝ᵥ (p.riskMatrix.mat64 n *ᵥ x.vec64 n) ≤
            p.maxRisk.val + ((1 + (2 : ℝ) ^ (-53 : ℤ)) ^ (n * n + 2) - 1) * absQuad (p.riskMatrix.mat64 n) (x.vec64 n) ∧
          |γ'.val + p.expectedReturns.vec64 n ⬝ᵥ x.vec64 n| ≤
            ((1 + (2 : ℝ) ^ (-53 : ℤ)) ^ (n + 1) - 1) * ∑ i, |p.expectedReturns.vec64 n i| * |x.vec64 n i|) := by
  have htr : ∀ a b c : B64, Scalar.lt a b = true → (b = c ∨ Scalar.lt b c = true) → Scalar.lt a c = true := by
    rintro a b c h1 (rfl | h2)
    · exact h1
    · obtain ⟨a1, a2, a3⟩ := (B64.lt_iff _ _).1 h1
      obtain ⟨b1, b2, b3⟩ := (B64.lt_iff _ _).1 h2
      exact (B64.lt_iff _ _).2 ⟨a1, b2, a3.trans b3⟩
  obtain ⟨r, k, γ', w', s', h1, h2, h3, h4⟩ := optim_accepted hsp (I := fun w g => w = p ∧ (g = γ ∨ Scalar.lt g γ = true))
    (orc := Portfolio.oracle) (w := p) (s := s) (g := γ) (by
      rintro w x g ⟨rfl, hg⟩ hx
      obtain ⟨gr, b, s, γ', q1, q2, q3, q4, q5, -⟩ := C131_portfolio_query hp hx g
      refine ⟨_, _, _, _, q1, ⟨rfl, ?_⟩, q5, q2⟩
      cases s with
      | false => rw [q5 rfl]; exact hg
      | true => rw [q4 rfl]; exact .inr (htr _ _ _ (q3.1 rfl).2 hg)) opts ⟨rfl, .inl rfl⟩ hs
  obtain ⟨rfl, hg⟩ := h2
  refine ⟨r, k, γ', s', h1, h3, ?_⟩
  intro x hx
  obtain ⟨hxs, w1, g1, c, w2, ⟨rfl, hg1⟩, hq⟩ := h4 x hx
  obtain ⟨gr, b, s, γ2, q1, q2, q3, q4, q5, -⟩ := C131_portfolio_query hp hxs g1
  have hq' : Portfolio.assess w1 x g1 = .ok ((c, true), γ', w2) := hq
  rw [q1] at hq'
  simp only [Res.ok.injEq, Prod.mk.injEq] at hq'
  obtain ⟨⟨-, rfl⟩, rfl, -⟩ := hq'
  obtain ⟨hk, hl⟩ := q3.1 rfl
  refine ⟨hxs, hk, q4 rfl, by rw [q4 rfl]; exact htr _ _ _ hl hg1, fun hp' hf ht => ?_⟩
  obtain ⟨v1, v2, v3, v4⟩ := C131_portfolio_values hp' hxs hf ht hk
  have hn := B64.neg_val v1
  rw [q4 rfl]
  refine ⟨hn.1, v2, v3, ?_⟩
  rw [hn.2, ← abs_neg]
  refine le_trans (le_of_eq ?_) v4
  congr 1
  ring

end Ellalgo
