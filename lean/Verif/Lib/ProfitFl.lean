import Verif.Lib.Approx
import Verif.Props.RoundedProfit

/-! The cuts and the profit that `ProfitOracle` computes come close to the exact ones, uniformly on bounded sets. -/

namespace Ellalgo
open Matrix

/-- what one evaluation of the profit depends on: the point, the elasticities in use, the level `γ`, and a level `h ≥ 0` close to it -/
structure ProfitIn where
  x : Fin 2 → ℝ
  a : Fin 2 → ℝ
  γ : ℝ
  h : ℝ

/-- bounded inputs -/
def ProfitIn.box (F A Γ C : ℝ) (u : ℝ) : Set ProfitIn :=
  {k | (∀ i, |k.x i| ≤ F) ∧ (∀ i, |k.a i| ≤ A) ∧ 0 ≤ k.h ∧ k.h ≤ Γ ∧ |k.γ - k.h| ≤ C * u}

variable (d : ProfitData) (u : ℝ) (R : Rounding u) (k : ProfitIn)

/-- the data with the elasticities of `k` -/
def ProfitIn.data (d : ProfitData) (k : ProfitIn) : ProfitData := { d with elas := k.a }

theorem ProfitIn.data_pos {d : ProfitData} (h : d.Pos) (k : ProfitIn) : (k.data d).Pos := ⟨h.price, h.scale, h.limit, h.cost⟩

noncomputable def pfQ (i : Fin 2) : ℝ := R.rnd (d.cost i * R.rnd (Real.exp (k.x i)))
noncomputable def pfCost : ℝ := R.rnd (pfQ d u R k 0 + pfQ d u R k 1)
noncomputable def pfSum : ℝ := R.rnd (k.γ + pfCost d u R k)
noncomputable def pfLog : ℝ :=
  R.rnd (R.rnd (Real.log (R.rnd (d.price * d.scale))) +
    R.rnd (R.rnd (0 + R.rnd (k.a 0 * k.x 0)) + R.rnd (k.a 1 * k.x 1)))
noncomputable def pfBeta : ℝ := R.rnd (R.rnd (Real.log (pfSum d u R k)) - pfLog d u R k)
noncomputable def pfGrad (i : Fin 2) : ℝ := R.rnd (R.rnd (pfQ d u R k i * R.rnd (1 / pfSum d u R k)) - k.a i)
noncomputable def pfExp : ℝ := R.rnd (Real.exp (pfLog d u R k))
noncomputable def pfProfit : ℝ := R.rnd (pfExp d u R k - pfCost d u R k)
noncomputable def pfGrad' (i : Fin 2) : ℝ := R.rnd (R.rnd (pfQ d u R k i * R.rnd (1 / pfExp d u R k)) - k.a i)

section
variable {d u R} {o : ProfitOracle (Fl R)} {a : Fin 2 → ℝ} (ho : o.FlFor { d with elas := a }) (y : Arr (Fl R)) (γ : Fl R) (h : ℝ)
include ho

theorem fl_q (i : Fin 2) : (o.flQ y i).val = pfQ d u R ⟨y.flVec 2, a, γ.val, h⟩ i := by
  have : (o.priceOut.vec i).val = d.cost i := congrFun ho.cost i
  show R.rnd ((o.priceOut.vec i).val * R.rnd (Real.exp (y.vec i).val)) = _
  rw [this]; rfl

theorem fl_cost : (o.flCost y).val = pfCost d u R ⟨y.flVec 2, a, γ.val, h⟩ := by
  show R.rnd ((o.flQ y 0).val + (o.flQ y 1).val) = _
  rw [show (o.flQ y 0) = o.flQ y (0 : Fin 2) from rfl, show (o.flQ y 1) = o.flQ y (1 : Fin 2) from rfl, fl_q ho y γ h, fl_q ho y γ h]
  rfl

theorem fl_sum : (γ + o.flCost y).val = pfSum d u R ⟨y.flVec 2, a, γ.val, h⟩ := by
  show R.rnd (γ.val + (o.flCost y).val) = _
  rw [fl_cost ho y γ h]; rfl

theorem fl_log : (o.flLog y).val = pfLog d u R ⟨y.flVec 2, a, γ.val, h⟩ := by
  have e0 : (o.elasticities.vec (0 : Fin 2)).val = a 0 := congrFun ho.elas 0
  have e1 : (o.elasticities.vec (1 : Fin 2)).val = a 1 := congrFun ho.elas 1
  show R.rnd (o.logPScale.val + R.rnd (R.rnd (0 + R.rnd ((o.elasticities.vec (0 : Fin 2)).val * (y.vec (0 : Fin 2)).val)) +
    R.rnd ((o.elasticities.vec (1 : Fin 2)).val * (y.vec (1 : Fin 2)).val))) = _
  rw [ho.scale, e0, e1]; rfl

theorem fl_beta : (Scalar.ln (γ + o.flCost y) - o.flLog y).val = pfBeta d u R ⟨y.flVec 2, a, γ.val, h⟩ := by
  show R.rnd (R.rnd (Real.log (γ + o.flCost y).val) - (o.flLog y).val) = _
  rw [fl_sum ho y γ h, fl_log ho y γ h]; rfl

theorem fl_grad (i : Fin 2) : (o.flQ y i * (1 / (γ + o.flCost y)) - o.elasticities.vec i).val =
    pfGrad d u R ⟨y.flVec 2, a, γ.val, h⟩ i := by
  have e : (o.elasticities.vec i).val = a i := congrFun ho.elas i
  show R.rnd (R.rnd ((o.flQ y i).val * R.rnd (1 / (γ + o.flCost y).val)) - (o.elasticities.vec i).val) = _
  rw [fl_sum ho y γ h, fl_q ho y γ h, e]; rfl

theorem fl_exp : (Scalar.exp (o.flLog y)).val = pfExp d u R ⟨y.flVec 2, a, γ.val, h⟩ := by
  show R.rnd (Real.exp (o.flLog y).val) = _
  rw [fl_log ho y γ h]; rfl

theorem fl_profit : (Scalar.exp (o.flLog y) - o.flCost y).val = pfProfit d u R ⟨y.flVec 2, a, γ.val, h⟩ := by
  show R.rnd ((Scalar.exp (o.flLog y)).val - (o.flCost y).val) = _
  rw [fl_exp ho y γ h, fl_cost ho y γ h]; rfl

theorem fl_grad' (i : Fin 2) : (o.flQ y i * (1 / Scalar.exp (o.flLog y)) - o.elasticities.vec i).val =
    pfGrad' d u R ⟨y.flVec 2, a, γ.val, h⟩ i := by
  have e : (o.elasticities.vec i).val = a i := congrFun ho.elas i
  show R.rnd (R.rnd ((o.flQ y i).val * R.rnd (1 / (Scalar.exp (o.flLog y)).val)) - (o.elasticities.vec i).val) = _
  rw [fl_exp ho y γ h, fl_q ho y γ h, e]; rfl

end

section
variable {d} {F A Γ C : ℝ}

theorem appr_x (i : Fin 2) : Appr (ProfitIn.box F A Γ C) (fun _ _ k => k.x i) fun k => k.x i := Appr.self F fun _ _ _ hk => hk.1 i
theorem appr_a (i : Fin 2) : Appr (ProfitIn.box F A Γ C) (fun _ _ k => k.a i) fun k => k.a i := Appr.self A fun _ _ _ hk => hk.2.1 i

theorem appr_level : Appr (ProfitIn.box F A Γ C) (fun _ _ k => k.γ) fun k => k.h := by
  refine ⟨⟨max Γ 0, le_max_right _ _, fun u _ k hk => ?_⟩, fun ε hε => ⟨ε / (|C| + 1), by positivity, fun u hu R k hk => ?_⟩⟩
  · rw [abs_of_nonneg hk.2.2.1]; exact hk.2.2.2.1.trans (le_max_left _ _)
  · refine hk.2.2.2.2.trans ?_
    have h0 := R.unit_nonneg
    rw [le_div_iff₀ (by positivity)] at hu
    nlinarith [le_abs_self C, mul_le_mul_of_nonneg_right (le_abs_self C) h0]

theorem appr_q (i : Fin 2) : Appr (ProfitIn.box F A Γ C) (fun u R k => pfQ d u R k i) fun k => d.cost i * Real.exp (k.x i) :=
  ((Appr.const _).mul (appr_x i).exp.rnd).rnd

theorem appr_cost : Appr (ProfitIn.box F A Γ C) (pfCost d) fun k => d.expense k.x := ((appr_q 0).add (appr_q 1)).rnd

theorem appr_sum : Appr (ProfitIn.box F A Γ C) (pfSum d) fun k => k.h + d.expense k.x := (appr_level.add appr_cost).rnd

theorem expense_low (h : d.Pos) {F : ℝ} {x : Fin 2 → ℝ} (hx : ∀ i, |x i| ≤ F) : (d.cost 0 + d.cost 1) * Real.exp (-F) ≤ d.expense x := by
  have h0 := mul_le_mul_of_nonneg_left (Real.exp_le_exp.2 (neg_le_of_abs_le (hx 0))) (h.cost 0).le
  have h1 := mul_le_mul_of_nonneg_left (Real.exp_le_exp.2 (neg_le_of_abs_le (hx 1))) (h.cost 1).le
  rw [ProfitData.expense]
  linarith

theorem appr_log (h : d.Pos) : Appr (ProfitIn.box F A Γ C) (pfLog d) fun k => Real.log ((k.data d).revenue k.x) := by
  have hp := mul_pos h.price h.scale
  have h1 : Appr (ProfitIn.box F A Γ C) (pfLog d) fun k => Real.log (d.price * d.scale) + (0 + k.a 0 * k.x 0 + k.a 1 * k.x 1) :=
    ((Appr.const _).rnd.log hp fun _ _ _ _ => le_rfl).rnd.add
      (((Appr.const 0).add ((appr_a 0).mul (appr_x 0)).rnd).rnd.add ((appr_a 1).mul (appr_x 1)).rnd).rnd |>.rnd
  have h2 : (fun k : ProfitIn => Real.log ((k.data d).revenue k.x)) =
      fun k => Real.log (d.price * d.scale) + (0 + k.a 0 * k.x 0 + k.a 1 * k.x 1) := by
    funext k
    rw [ProfitData.log_revenue (k.data_pos h), dotProduct, Fin.sum_univ_two]
    simp [ProfitIn.data]
  rw [h2]; exact h1

theorem appr_exp (h : d.Pos) : Appr (ProfitIn.box F A Γ C) (pfExp d) fun k => (k.data d).revenue k.x := by
  have h1 := (appr_log (F := F) (A := A) (Γ := Γ) (C := C) h).exp.rnd
  have h2 : (fun k : ProfitIn => (k.data d).revenue k.x) = fun k => Real.exp (Real.log ((k.data d).revenue k.x)) := by
    funext k
    rw [Real.exp_log (ProfitData.revenue_pos (k.data_pos h) _)]
  rw [h2]; exact h1

theorem revenue_low (h : d.Pos) (F A Γ C : ℝ) : ∃ m > 0, ∀ u, 0 ≤ u → ∀ k ∈ ProfitIn.box F A Γ C u, m ≤ (k.data d).revenue k.x := by
  obtain ⟨M, -, hM⟩ := (appr_log (F := F) (A := A) (Γ := Γ) (C := C) h).bdd
  refine ⟨Real.exp (-M), Real.exp_pos _, fun u hu k hk => ?_⟩
  have h1 := Real.exp_le_exp.2 (neg_le_of_abs_le (hM u hu k hk))
  rwa [Real.exp_log (ProfitData.revenue_pos (k.data_pos h) _)] at h1

theorem appr_beta (h : d.Pos) : Appr (ProfitIn.box F A Γ C) (pfBeta d) fun k => (k.data d).slack k.h k.x := by
  have hm : 0 < (d.cost 0 + d.cost 1) * Real.exp (-F) := mul_pos (add_pos (h.cost 0) (h.cost 1)) (Real.exp_pos _)
  exact ((appr_sum.log hm fun u _ k hk => by have := expense_low h hk.1; linarith [hk.2.2.1]).rnd.sub (appr_log h)).rnd

theorem appr_grad (h : d.Pos) (i : Fin 2) : Appr (ProfitIn.box F A Γ C) (fun u R k => pfGrad d u R k i) fun k =>
    (k.data d).grad k.h k.x i := by
  have hm : 0 < (d.cost 0 + d.cost 1) * Real.exp (-F) := mul_pos (add_pos (h.cost 0) (h.cost 1)) (Real.exp_pos _)
  have h1 := (((appr_q (d := d) (F := F) (A := A) (Γ := Γ) (C := C) i).mul (appr_sum.inv hm fun u _ k hk => by
    have := expense_low h hk.1; linarith [hk.2.2.1]).rnd).rnd.sub (appr_a i)).rnd
  have h2 : (fun k : ProfitIn => (k.data d).grad k.h k.x i) =
      fun k => d.cost i * Real.exp (k.x i) * (1 / (k.h + d.expense k.x)) - k.a i := by
    funext k
    rw [mul_one_div]; rfl
  rw [h2]; exact h1

theorem appr_profit (h : d.Pos) : Appr (ProfitIn.box F A Γ C) (pfProfit d) fun k => (k.data d).profit k.x :=
  ((appr_exp h).sub appr_cost).rnd

theorem appr_grad' (h : d.Pos) (i : Fin 2) : Appr (ProfitIn.box F A Γ C) (fun u R k => pfGrad' d u R k i) fun k =>
    (k.data d).grad ((k.data d).profit k.x) k.x i := by
  obtain ⟨m, hm, hlow⟩ := revenue_low h F A Γ C
  have h1 := (((appr_q (d := d) (F := F) (A := A) (Γ := Γ) (C := C) i).mul ((appr_exp h).inv hm hlow).rnd).rnd.sub (appr_a i)).rnd
  have h2 : (fun k : ProfitIn => (k.data d).grad ((k.data d).profit k.x) k.x i) =
      fun k => d.cost i * Real.exp (k.x i) * (1 / (k.data d).revenue k.x) - k.a i := by
    funext k
    rw [mul_one_div, ProfitData.grad, ProfitData.profit, sub_add_cancel]; rfl
  rw [h2]; exact h1

/-- the same with a level close to the profit in place of the profit -/
theorem appr_grad_level (h : d.Pos) (i : Fin 2) :
    Appr (fun u => {k | k ∈ ProfitIn.box F A Γ C u ∧ k.γ = (k.data d).profit k.x}) (fun u R k => pfGrad' d u R k i) fun k =>
    (k.data d).grad k.h k.x i := by
  have hsub : ∀ u, {k | k ∈ ProfitIn.box F A Γ C u ∧ k.γ = (k.data d).profit k.x} ⊆ ProfitIn.box F A Γ C u := fun u k hk => hk.1
  have hm : 0 < (d.cost 0 + d.cost 1) * Real.exp (-F) := mul_pos (add_pos (h.cost 0) (h.cost 1)) (Real.exp_pos _)
  have hexpense : Appr (ProfitIn.box F A Γ C) (fun _ _ k => d.expense k.x) fun k => d.expense k.x :=
    ((Appr.const _).mul (appr_x 0).exp).add ((Appr.const _).mul (appr_x 1).exp)
  have h0 : Appr (fun u => {k | k ∈ ProfitIn.box F A Γ C u ∧ k.γ = (k.data d).profit k.x}) (pfExp d) fun k => k.h + d.expense k.x := by
    refine ((appr_exp h).mono hsub).trans (((appr_level.add hexpense).mono hsub).congr fun u R k hk => ?_)
    rw [hk.2, ProfitData.profit]
    show _ = (k.data d).revenue k.x - d.expense k.x + d.expense k.x
    ring
  have h1 := ((((appr_q (d := d) i).mono hsub).mul (h0.inv hm fun u _ k hk => by
    have := expense_low h hk.1.1; linarith [hk.1.2.2.1]).rnd).rnd.sub ((appr_a i).mono hsub)).rnd
  have h2 : (fun k : ProfitIn => (k.data d).grad k.h k.x i) =
      fun k => d.cost i * Real.exp (k.x i) * (1 / (k.h + d.expense k.x)) - k.a i := by
    funext k
    rw [mul_one_div]; rfl
  rw [h2]; exact h1

/-- a cut within `ε` of the tangent of the constraint keeps the points that are better by more -/
theorem tangent_cut (h : d.Pos) {k : ProfitIn} {F A Γ C u Z δ ε β : ℝ} (hk : k ∈ ProfitIn.box F A Γ C u) {g z : Fin 2 → ℝ}
    (hg : ∀ i, |g i - (k.data d).grad k.h k.x i| ≤ ε) (hβ : |β - (k.data d).slack k.h k.x| ≤ ε) (hz : ∀ i, |z i| ≤ Z)
    (hε : ε * (2 * (Z + F) + 1) ≤ δ / 2) (hs : (k.data d).slack k.h z ≤ -δ) : g ⬝ᵥ (z - k.x) + β ≤ -δ / 2 := by
  have ht := ProfitData.slack_tangent (k.data_pos h) hk.2.2.1 k.x z
  have hε0 : 0 ≤ ε := (abs_nonneg _).trans (hg 0)
  have key : ∀ i, g i * (z i - k.x i) ≤ (k.data d).grad k.h k.x i * (z i - k.x i) + ε * (Z + F) := by
    intro i
    have h1 : |z i - k.x i| ≤ Z + F := (abs_sub _ _).trans (add_le_add (hz i) (hk.1 i))
    have h2 := mul_le_mul (hg i) h1 (abs_nonneg _) hε0
    rw [← abs_mul] at h2
    have h3 := (le_abs_self _).trans h2
    linarith
  have k0 := key 0
  have k1 := key 1
  have h5 := le_of_abs_le hβ
  simp only [dotProduct, Fin.sum_univ_two, Pi.sub_apply] at ht ⊢
  linarith

theorem reject_cut (h : d.Pos) (F A Γ C Z : ℝ) {δ : ℝ} (hδ : 0 < δ) (hZ : 0 ≤ Z) (hF : 0 ≤ F) : ∃ u0 > 0, ∀ u ≤ u0, ∀ R : Rounding u,
    ∀ k ∈ ProfitIn.box F A Γ C u, ∀ z : Fin 2 → ℝ, (∀ i, |z i| ≤ Z) → (k.data d).slack k.h z ≤ -δ →
      (fun i => pfGrad d u R k i) ⬝ᵥ (z - k.x) + pfBeta d u R k ≤ -δ / 2 := by
  have hε : 0 < δ / 2 / (2 * (Z + F) + 1) := by positivity
  obtain ⟨u1, p1, h1⟩ := (appr_beta (F := F) (A := A) (Γ := Γ) (C := C) h).close _ hε
  obtain ⟨u2, p2, h2⟩ := (appr_grad (F := F) (A := A) (Γ := Γ) (C := C) h 0).close _ hε
  obtain ⟨u3, p3, h3⟩ := (appr_grad (F := F) (A := A) (Γ := Γ) (C := C) h 1).close _ hε
  refine ⟨min u1 (min u2 u3), lt_min p1 (lt_min p2 p3), fun u hu R k hk z hz hs => ?_⟩
  refine tangent_cut h hk (ε := δ / 2 / (2 * (Z + F) + 1)) ?_ (h1 u (hu.trans (min_le_left _ _)) R k hk) hz
    (by rw [div_mul_cancel₀ _ (by positivity)]) hs
  intro i
  fin_cases i
  · exact h2 u (hu.trans ((min_le_right _ _).trans (min_le_left _ _))) R k hk
  · exact h3 u (hu.trans ((min_le_right _ _).trans (min_le_right _ _))) R k hk

theorem accept_cut (h : d.Pos) (F A Γ C Z : ℝ) {δ : ℝ} (hδ : 0 < δ) (hZ : 0 ≤ Z) (hF : 0 ≤ F) : ∃ u0 > 0, ∀ u ≤ u0, ∀ R : Rounding u,
    ∀ k ∈ ProfitIn.box F A Γ C u, k.γ = (k.data d).profit k.x → k.γ ≤ k.h → ∀ z : Fin 2 → ℝ, (∀ i, |z i| ≤ Z) →
      (k.data d).slack k.h z ≤ -δ → (fun i => pfGrad' d u R k i) ⬝ᵥ (z - k.x) ≤ -δ / 2 := by
  have hε : 0 < δ / 2 / (2 * (Z + F) + 1) := by positivity
  obtain ⟨u2, p2, h2⟩ := (appr_grad_level (F := F) (A := A) (Γ := Γ) (C := C) h 0).close _ hε
  obtain ⟨u3, p3, h3⟩ := (appr_grad_level (F := F) (A := A) (Γ := Γ) (C := C) h 1).close _ hε
  refine ⟨min u2 u3, lt_min p2 p3, fun u hu R k hk hkp hkh z hz hs => ?_⟩
  have hcut := tangent_cut h hk (ε := δ / 2 / (2 * (Z + F) + 1)) (g := fun i => pfGrad' d u R k i) (β := (k.data d).slack k.h k.x) (by
    intro i
    fin_cases i
    · exact h2 u (hu.trans (min_le_left _ _)) R k ⟨hk, hkp⟩
    · exact h3 u (hu.trans (min_le_right _ _)) R k ⟨hk, hkp⟩) (by rw [sub_self, abs_zero]; exact hε.le) hz
    (by rw [div_mul_cancel₀ _ (by positivity)]) hs
  have hs0 : 0 ≤ (k.data d).slack k.h k.x := by
    by_contra hneg
    have h0 := ProfitData.expense_pos (k.data_pos h) k.x
    have h1 := ProfitData.revenue_pos (k.data_pos h) k.x
    have hh := hk.2.2.1
    rw [not_le, ProfitData.slack, sub_neg, Real.log_lt_log_iff (by linarith) h1] at hneg
    rw [hkp, ProfitData.profit] at hkh
    linarith
  linarith

theorem limit_cut (l F : ℝ) {δ : ℝ} (hδ : 0 < δ) : ∃ u0 > 0, ∀ u ≤ u0, ∀ R : Rounding u, ∀ x : ℝ, |x| ≤ F → ∀ z ≤ l - δ,
    z - x + R.rnd (x - R.rnd l) ≤ -δ / 2 := by
  have h1 : Appr (κ := ℝ) (fun _ => {x | |x| ≤ F}) (fun _ R x => R.rnd (x - R.rnd l)) fun x => x - l :=
    ((Appr.self F fun _ _ k hk => hk).sub (Appr.const l).rnd).rnd
  obtain ⟨u0, h0, h2⟩ := h1.close (δ / 2) (by linarith)
  refine ⟨u0, h0, fun u hu R x hx z hz => ?_⟩
  have := le_of_abs_le (h2 u hu R x hx)
  linarith

end

end Ellalgo
