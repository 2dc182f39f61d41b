import Verif.Lib.Rounded
import Mathlib.Analysis.SpecialFunctions.Log.Basic

/-! Quantities computed in rounded arithmetic that come close to the exact ones, uniformly on a bounded set of inputs, as the unit
roundoff goes to 0. -/

namespace Ellalgo
variable {κ : Type} {K : ℝ → Set κ}

/-- `c` is computed by rounded operations from the input `k`, and `e` is the exact value: `e` is bounded on the inputs in `K u`, and the
error is as small as wanted if the unit is small enough. -/
structure Appr (K : ℝ → Set κ) (c : ∀ u, Rounding u → κ → ℝ) (e : κ → ℝ) : Prop where
  bdd : ∃ M, 0 ≤ M ∧ ∀ u, 0 ≤ u → ∀ k ∈ K u, |e k| ≤ M
  close : ∀ ε > 0, ∃ u0 > 0, ∀ u ≤ u0, ∀ R : Rounding u, ∀ k ∈ K u, |c u R k - e k| ≤ ε

variable {c c' : ∀ u, Rounding u → κ → ℝ} {e e' : κ → ℝ}

/-- an input itself -/
theorem Appr.self (M : ℝ) (h : ∀ u, 0 ≤ u → ∀ k ∈ K u, |e k| ≤ M) : Appr K (fun _ _ k => e k) e :=
  ⟨⟨max M 0, le_max_right _ _, fun u hu k hk => (h u hu k hk).trans (le_max_left _ _)⟩, fun ε hε => ⟨1, one_pos, fun u _ R k _ => by
    rw [sub_self, abs_zero]; exact hε.le⟩⟩

theorem Appr.const (a : ℝ) : Appr K (fun _ _ _ => a) fun _ => a := Appr.self |a| fun _ _ _ _ => le_rfl

theorem Appr.mono {K' : ℝ → Set κ} (h : Appr K c e) (hK : ∀ u, K' u ⊆ K u) : Appr K' c e := by
  obtain ⟨M, hM0, hM⟩ := h.bdd
  refine ⟨⟨M, hM0, fun u hu k hk => hM u hu k (hK u hk)⟩, fun ε hε => ?_⟩
  obtain ⟨u0, h0, h1⟩ := h.close ε hε
  exact ⟨u0, h0, fun u hu R k hk => h1 u hu R k (hK u hk)⟩

theorem Appr.trans (h : Appr K c e) (h' : Appr K (fun _ _ k => e k) e') : Appr K c e' := by
  refine ⟨h'.bdd, fun ε hε => ?_⟩
  obtain ⟨u1, p1, h1⟩ := h.close (ε / 2) (by linarith)
  obtain ⟨u2, p2, h2⟩ := h'.close (ε / 2) (by linarith)
  refine ⟨min u1 u2, lt_min p1 p2, fun u hu R k hk => ?_⟩
  have a1 := h1 u (hu.trans (min_le_left _ _)) R k hk
  have a2 := h2 u (hu.trans (min_le_right _ _)) R k hk
  rw [show c u R k - e' k = (c u R k - e k) + (e k - e' k) by ring]
  exact (abs_add_le _ _).trans (by linarith)

theorem Appr.congr (h : Appr K c e) (hc : ∀ u R, ∀ k ∈ K u, c' u R k = c u R k) : Appr K c' e := by
  refine ⟨h.bdd, fun ε hε => ?_⟩
  obtain ⟨u0, h0, h1⟩ := h.close ε hε
  refine ⟨u0, h0, fun u hu R k hk => ?_⟩
  rw [hc u R k hk]
  exact h1 u hu R k hk

theorem Appr.add (h : Appr K c e) (h' : Appr K c' e') : Appr K (fun u R k => c u R k + c' u R k) fun k => e k + e' k := by
  obtain ⟨M, hM0, hM⟩ := h.bdd
  obtain ⟨M', hM0', hM'⟩ := h'.bdd
  refine ⟨⟨M + M', by linarith, fun u hu k hk => (abs_add_le _ _).trans (add_le_add (hM u hu k hk) (hM' u hu k hk))⟩, fun ε hε => ?_⟩
  obtain ⟨u1, p1, h1⟩ := h.close (ε / 2) (by linarith)
  obtain ⟨u2, p2, h2⟩ := h'.close (ε / 2) (by linarith)
  refine ⟨min u1 u2, lt_min p1 p2, fun u hu R k hk => ?_⟩
  have a1 := h1 u (hu.trans (min_le_left _ _)) R k hk
  have a2 := h2 u (hu.trans (min_le_right _ _)) R k hk
  rw [show c u R k + c' u R k - (e k + e' k) = (c u R k - e k) + (c' u R k - e' k) by ring]
  exact (abs_add_le _ _).trans (by linarith)

theorem Appr.neg (h : Appr K c e) : Appr K (fun u R k => -c u R k) fun k => -e k := by
  obtain ⟨M, hM0, hM⟩ := h.bdd
  refine ⟨⟨M, hM0, fun u hu k hk => by rw [abs_neg]; exact hM u hu k hk⟩, fun ε hε => ?_⟩
  obtain ⟨u1, p1, h1⟩ := h.close ε hε
  refine ⟨u1, p1, fun u hu R k hk => ?_⟩
  rw [show -c u R k - -e k = -(c u R k - e k) by ring, abs_neg]
  exact h1 u hu R k hk

theorem Appr.sub (h : Appr K c e) (h' : Appr K c' e') : Appr K (fun u R k => c u R k - c' u R k) fun k => e k - e' k := by
  simpa only [sub_eq_add_neg] using h.add h'.neg

theorem Appr.mul (h : Appr K c e) (h' : Appr K c' e') : Appr K (fun u R k => c u R k * c' u R k) fun k => e k * e' k := by
  obtain ⟨M, hM0, hM⟩ := h.bdd
  obtain ⟨M', hM0', hM'⟩ := h'.bdd
  refine ⟨⟨M * M', by positivity, fun u hu k hk => by
    rw [abs_mul]; exact mul_le_mul (hM u hu k hk) (hM' u hu k hk) (abs_nonneg _) hM0⟩, fun ε hε => ?_⟩
  have hs : 0 < M + M' + 1 := by linarith
  obtain ⟨u1, p1, h1⟩ := h.close (ε / (2 * (M + M' + 1))) (by positivity)
  obtain ⟨u2, p2, h2⟩ := h'.close (min 1 (ε / (2 * (M + M' + 1)))) (by positivity)
  refine ⟨min u1 u2, lt_min p1 p2, fun u hu R k hk => ?_⟩
  have hu0 := R.unit_nonneg
  have a1 := h1 u (hu.trans (min_le_left _ _)) R k hk
  have a2 := h2 u (hu.trans (min_le_right _ _)) R k hk
  have a3 := a2.trans (min_le_left _ _)
  have a4 := a2.trans (min_le_right _ _)
  have b1 := hM u hu0 k hk
  have b2 := hM' u hu0 k hk
  have b3 : |c' u R k| ≤ M' + 1 := by
    have := abs_sub_abs_le_abs_sub (c' u R k) (e' k)
    linarith
  rw [show c u R k * c' u R k - e k * e' k = (c u R k - e k) * c' u R k + e k * (c' u R k - e' k) by ring]
  refine (abs_add_le _ _).trans ?_
  rw [abs_mul, abs_mul]
  have c1 := mul_le_mul a1 b3 (abs_nonneg _) (by positivity)
  have c2 := mul_le_mul b1 a4 (abs_nonneg _) hM0
  refine (add_le_add c1 c2).trans ?_
  have h9 : ε / (2 * (M + M' + 1)) * (M' + 1) + M * (ε / (2 * (M + M' + 1))) = ε / 2 := by field_simp; ring
  linarith

theorem Appr.rnd (h : Appr K c e) : Appr K (fun u R k => R.rnd (c u R k)) e := by
  obtain ⟨M, hM0, hM⟩ := h.bdd
  refine ⟨h.bdd, fun ε hε => ?_⟩
  obtain ⟨u1, p1, h1⟩ := h.close (min 1 (ε / 2)) (by positivity)
  refine ⟨min u1 (ε / (2 * (M + 1))), lt_min p1 (by positivity), fun u hu R k hk => ?_⟩
  have hu0 := R.unit_nonneg
  have a1 := h1 u (hu.trans (min_le_left _ _)) R k hk
  have a2 := hu.trans (min_le_right _ _)
  have a3 := hM u hu0 k hk
  have a4 : |c u R k| ≤ M + 1 := by
    have := abs_sub_abs_le_abs_sub (c u R k) (e k)
    have := a1.trans (min_le_left _ _)
    linarith
  have a5 := R.err (c u R k)
  have a6 : u * |c u R k| ≤ ε / (2 * (M + 1)) * (M + 1) := mul_le_mul a2 a4 (abs_nonneg _) (by positivity)
  have a7 : ε / (2 * (M + 1)) * (M + 1) = ε / 2 := by field_simp
  have a8 := a1.trans (min_le_right _ _)
  rw [show R.rnd (c u R k) - e k = (R.rnd (c u R k) - c u R k) + (c u R k - e k) by ring]
  exact (abs_add_le _ _).trans (by linarith)

theorem exp_sub_le {a b M : ℝ} (ha : a ≤ M) (hb : b ≤ M) : |Real.exp a - Real.exp b| ≤ Real.exp M * |a - b| := by
  have key : ∀ a b : ℝ, a ≤ M → b ≤ a → Real.exp a - Real.exp b ≤ Real.exp M * (a - b) := by
    intro a b ha hab
    have h1 := Real.add_one_le_exp (b - a)
    have h2 : Real.exp b = Real.exp a * Real.exp (b - a) := by rw [← Real.exp_add]; ring_nf
    have h3 := mul_le_mul_of_nonneg_left h1 (Real.exp_pos a).le
    have h4 := mul_le_mul_of_nonneg_right (Real.exp_le_exp.2 ha) (sub_nonneg.2 hab)
    rw [h2]
    linarith
  rcases le_total b a with h | h
  · rw [abs_of_nonneg (sub_nonneg.2 h), abs_of_nonneg (sub_nonneg.2 (Real.exp_le_exp.2 h))]
    exact key a b ha h
  · rw [abs_sub_comm, abs_sub_comm a, abs_of_nonneg (sub_nonneg.2 h), abs_of_nonneg (sub_nonneg.2 (Real.exp_le_exp.2 h))]
    exact key b a hb h

theorem Appr.exp (h : Appr K c e) : Appr K (fun u R k => Real.exp (c u R k)) fun k => Real.exp (e k) := by
  obtain ⟨M, hM0, hM⟩ := h.bdd
  refine ⟨⟨Real.exp M, (Real.exp_pos M).le, fun u hu k hk => by
    rw [abs_of_pos (Real.exp_pos _)]; exact Real.exp_le_exp.2 ((le_abs_self _).trans (hM u hu k hk))⟩, fun ε hε => ?_⟩
  have hE := Real.exp_pos (M + 1)
  obtain ⟨u1, p1, h1⟩ := h.close (min 1 (ε / Real.exp (M + 1))) (by positivity)
  refine ⟨u1, p1, fun u hu R k hk => ?_⟩
  have a1 := h1 u hu R k hk
  have a2 := (le_abs_self _).trans (hM u R.unit_nonneg k hk)
  have a3 := (le_abs_self _).trans (a1.trans (min_le_left _ _))
  refine (exp_sub_le (M := M + 1) (by linarith) (by linarith)).trans ?_
  refine (mul_le_mul_of_nonneg_left (a1.trans (min_le_right _ _)) hE.le).trans (le_of_eq ?_)
  field_simp

theorem log_sub_le {a b m : ℝ} (hm : 0 < m) (ha : m ≤ a) (hb : m ≤ b) : |Real.log a - Real.log b| ≤ |a - b| / m := by
  have key : ∀ a b : ℝ, m ≤ b → b ≤ a → Real.log a - Real.log b ≤ (a - b) / m := by
    intro a b hb hab
    have hb0 := hm.trans_le hb
    rw [← Real.log_div (hb0.trans_le hab).ne' hb0.ne']
    refine (Real.log_le_sub_one_of_pos (div_pos (hb0.trans_le hab) hb0)).trans ?_
    rw [show a / b - 1 = (a - b) / b by field_simp]
    exact div_le_div_of_nonneg_left (sub_nonneg.2 hab) hm hb
  rcases le_total b a with h | h
  · rw [abs_of_nonneg (sub_nonneg.2 h), abs_of_nonneg (sub_nonneg.2 (Real.log_le_log (hm.trans_le hb) h))]
    exact key a b hb h
  · rw [abs_sub_comm, abs_sub_comm a, abs_of_nonneg (sub_nonneg.2 h),
      abs_of_nonneg (sub_nonneg.2 (Real.log_le_log (hm.trans_le ha) h))]
    exact key b a ha h

theorem Appr.log (h : Appr K c e) {m : ℝ} (hm : 0 < m) (hlow : ∀ u, 0 ≤ u → ∀ k ∈ K u, m ≤ e k) :
    Appr K (fun u R k => Real.log (c u R k)) fun k => Real.log (e k) := by
  obtain ⟨M, hM0, hM⟩ := h.bdd
  refine ⟨⟨|Real.log m| + |Real.log M|, by positivity, fun u hu k hk => ?_⟩, fun ε hε => ?_⟩
  · have h1 := hlow u hu k hk
    have h2 := (le_abs_self _).trans (hM u hu k hk)
    have h3 := Real.log_le_log hm h1
    have h4 := Real.log_le_log (hm.trans_le h1) h2
    rw [abs_le]
    constructor
    · linarith [neg_abs_le (Real.log m), abs_nonneg (Real.log M)]
    · linarith [le_abs_self (Real.log M), abs_nonneg (Real.log m)]
  · obtain ⟨u1, p1, h1⟩ := h.close (min (m / 2) (ε * (m / 2))) (by positivity)
    refine ⟨u1, p1, fun u hu R k hk => ?_⟩
    have a1 := h1 u hu R k hk
    have a2 := hlow u R.unit_nonneg k hk
    have a3 := a1.trans (min_le_left _ _)
    have a4 := neg_le_of_abs_le a3
    refine (log_sub_le (half_pos hm) (by linarith) (by linarith)).trans ?_
    rw [div_le_iff₀ (half_pos hm)]
    exact a1.trans (min_le_right _ _)

theorem Appr.inv (h : Appr K c e) {m : ℝ} (hm : 0 < m) (hlow : ∀ u, 0 ≤ u → ∀ k ∈ K u, m ≤ e k) :
    Appr K (fun u R k => 1 / c u R k) fun k => 1 / e k := by
  refine ⟨⟨1 / m, by positivity, fun u hu k hk => ?_⟩, fun ε hε => ?_⟩
  · have h1 := hlow u hu k hk
    rw [abs_of_pos (one_div_pos.2 (hm.trans_le h1))]
    exact one_div_le_one_div_of_le hm h1
  · obtain ⟨u1, p1, h1⟩ := h.close (min (m / 2) (ε * (m / 2 * m))) (by positivity)
    refine ⟨u1, p1, fun u hu R k hk => ?_⟩
    have a1 := h1 u hu R k hk
    have a2 := hlow u R.unit_nonneg k hk
    have a4 := neg_le_of_abs_le (a1.trans (min_le_left _ _))
    have b1 : m / 2 ≤ c u R k := by linarith
    have b2 : 0 < c u R k := (half_pos hm).trans_le b1
    have b3 : 0 < e k := hm.trans_le a2
    rw [show 1 / c u R k - 1 / e k = -(c u R k - e k) / (c u R k * e k) by field_simp; ring, abs_div, abs_neg,
      abs_of_pos (mul_pos b2 b3), div_le_iff₀ (mul_pos b2 b3)]
    refine (a1.trans (min_le_right _ _)).trans (mul_le_mul_of_nonneg_left (mul_le_mul b1 a2 hm.le b2.le) hε.le)

end Ellalgo
