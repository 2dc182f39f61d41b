import Verif.Lib.CgHigh
import Verif.Props.RoundedPlane
import Verif.Props.QcvxProps

/-! The oracle of the quasiconvex example in rounded arithmetic. -/

namespace Ellalgo
open Matrix
variable {u : ℝ} {R : Rounding u}

theorem Rounding.nonpos_of (hu : u < 1) {x : ℝ} (h : R.rnd x ≤ 0) : x ≤ 0 := by
  by_contra hx
  exact absurd (R.pos hu (not_le.1 hx)) (not_lt.2 h)

theorem Rounding.pos_of {x : ℝ} (h : 0 < R.rnd x) : 0 < x := by
  by_contra hx
  have h1 := R.mono _ _ (not_lt.1 hx)
  rw [R.zero] at h1
  linarith

/-- an answer of the oracle at the point `(s, y)` -/
inductive QcvxAnswer (R : Rounding u) (s y γ : ℝ) : List (Fl R) → Fl R → Bool → Fl R → Prop
  | first (h : 0 < R.rnd (R.rnd (s * s) - y)) :
      QcvxAnswer R s y γ [⟨R.rnd (2 * s)⟩, ⟨-1⟩] ⟨R.rnd (R.rnd (s * s) - y)⟩ false ⟨γ⟩
  | second (h : 0 < R.rnd (-s + R.rnd (γ * R.rnd (Real.exp y)))) :
      QcvxAnswer R s y γ [⟨-1⟩, ⟨R.rnd (γ * R.rnd (Real.exp y))⟩] ⟨R.rnd (-s + R.rnd (γ * R.rnd (Real.exp y)))⟩ false ⟨γ⟩
  | better (h1 : R.rnd (R.rnd (s * s) - y) ≤ 0) (h2 : R.rnd (-s + R.rnd (γ * R.rnd (Real.exp y))) ≤ 0) :
      QcvxAnswer R s y γ [⟨-1⟩, ⟨s⟩] ⟨0⟩ true ⟨R.rnd (s / R.rnd (Real.exp y))⟩

theorem qcvx_answers (o : QcvxOracle) (ho : o.Reach) (x : Arr (Fl R)) (hx : x.IsVecShape 2) (γ : Fl R) : ∃ g β sh γ' o',
    QcvxOracle.oracle.assess o x γ = .ok (((Arr.ofList g, ⟨β⟩), sh), γ', o') ∧ o'.Reach ∧
      QcvxAnswer R (x.flVec 2 0) (x.flVec 2 1) γ.val g β sh γ' := by
  obtain ⟨hi1, hi2⟩ := ho
  obtain ⟨hx0, hx1⟩ := fl_idx_pair hx
  set a : Fl R := ⟨x.flVec 2 0⟩ with ha
  set b : Fl R := ⟨x.flVec 2 1⟩ with hb
  have e0 : (a * a - b).val = R.rnd (R.rnd (x.flVec 2 0 * x.flVec 2 0) - x.flVec 2 1) := rfl
  have e1 : (-a + γ * Scalar.exp b).val = R.rnd (-x.flVec 2 0 + R.rnd (γ.val * R.rnd (Real.exp (x.flVec 2 1)))) := rfl
  obtain ⟨r, idx', hr, hin, -, hnone, hsome⟩ := rrLoop_test (lo := 0) (hi := 2) (idx := o.idx)
    (body := qcvxBody a b γ)
    (t := fun i => if i = 0 then (if 0 < (a * a - b).val then some (Arr.ofList [nat 2 * a, -1], ⟨a * a - b⟩) else none)
      else (if 0 < (-a + γ * Scalar.exp b).val then some (Arr.ofList [-1, γ * Scalar.exp b], ⟨-a + γ * Scalar.exp b⟩) else none))
    (by omega) (by omega)
    (by
      intro i h1 h2
      obtain rfl | rfl : i = 0 ∨ i = 1 := by omega
      · simp only [qcvxBody, if_true, Scalar.gt, Fl.lt_eq, Fl.zero_val, decide_eq_true_eq]
        split <;> rfl
      · simp only [qcvxBody, one_ne_zero, if_false, if_true, Scalar.gt, Fl.lt_eq, Fl.zero_val, decide_eq_true_eq]
        split <;> rfl)
  have hreach : QcvxOracle.Reach ⟨idx'⟩ := by
    have := hin (by norm_num)
    exact ⟨by show (-1 : ℤ) ≤ idx'; omega, this.2⟩
  have hr' : rrLoop 0 2 (qcvxBody a b γ) 2 o.idx () = .ok (r, idx', ()) := hr
  have hass : QcvxOracle.oracle.assess o x γ = (match r with
      | some cut => .ok ((cut, false), γ, ⟨idx'⟩)
      | none => .ok (((Arr.ofList [-1, a], ⟨0⟩), true), a / Scalar.exp b, ⟨idx'⟩)) := by
    simp only [QcvxOracle.oracle, QcvxOracle.assess, hx0, hx1, Res.ok_bind, hr']
    cases r <;> rfl
  have htwo : (nat 2 * a : Fl R) = ⟨R.rnd (2 * x.flVec 2 0)⟩ := by
    ext
    show R.rnd (R.rnd ((2 : ℕ) : ℝ) * x.flVec 2 0) = _
    rw [Nat.cast_ofNat, R.two]
  cases r with
  | some cut =>
    obtain ⟨h1, h2, ht⟩ := hsome cut rfl
    obtain rfl | rfl : idx' = 0 ∨ idx' = 1 := by omega
    · simp only [if_true] at ht
      split at ht
      · rename_i hf
        obtain rfl := (Option.some.inj ht).symm
        have hass' : QcvxOracle.oracle.assess o x γ = .ok (((Arr.ofList [nat 2 * a, -1], ⟨a * a - b⟩), false), γ, ⟨0⟩) := hass
        rw [htwo] at hass'
        exact ⟨_, _, _, _, _, hass', hreach, .first (e0 ▸ hf)⟩
      · simp at ht
    · simp only [one_ne_zero, if_false] at ht
      split at ht
      · rename_i hf
        obtain rfl := (Option.some.inj ht).symm
        exact ⟨_, _, _, _, _, hass, hreach, .second (e1 ▸ hf)⟩
      · simp at ht
  | none =>
    have t0 := hnone rfl 0 (by norm_num) (by norm_num)
    have t1 := hnone rfl 1 (by norm_num) (by norm_num)
    simp only [if_true, ite_eq_right_iff, reduceCtorEq, imp_false, not_lt] at t0
    simp only [one_ne_zero, if_false, ite_eq_right_iff, reduceCtorEq, imp_false, not_lt] at t1
    exact ⟨_, _, _, _, _, hass, hreach, .better (e0 ▸ t0) (e1 ▸ t1)⟩

/-- what acceptance of `(s, y)` gives -/
structure QcvxBetter (u Γ s y γ γ' : ℝ) : Prop where
  pos : 0 ≤ s
  feasible : (1 - u) * s ^ 2 ≤ y
  value : |γ' - s / Real.exp y| ≤ 4 * u
  nonneg : 0 ≤ γ'
  le_two : γ' ≤ 2
  drift : γ ≤ γ' + 2 * u * Γ

theorem qcvx_better {s y γ Γ : ℝ} (hu : u ≤ 1 / 4) (hγ0 : 0 ≤ γ) (hγ : γ ≤ Γ) (h1 : R.rnd (R.rnd (s * s) - y) ≤ 0)
    (h2 : R.rnd (-s + R.rnd (γ * R.rnd (Real.exp y))) ≤ 0) : QcvxBetter u Γ s y γ (R.rnd (s / R.rnd (Real.exp y))) := by
  have hu0 := R.unit_nonneg
  have h1' := R.nonpos_of (by linarith) h1
  have h2' := R.nonpos_of (by linarith) h2
  have hE0 := Real.exp_pos y
  obtain ⟨E, hE⟩ : ∃ E, E = R.rnd (Real.exp y) := ⟨_, rfl⟩
  have eE := R.err (Real.exp y)
  rw [abs_of_pos hE0, ← hE, _root_.abs_le] at eE
  have hEp : 0 < E := by rw [hE]; exact R.pos (by linarith) hE0
  have hγE : 0 ≤ γ * E := by positivity
  have eT := R.err (γ * E)
  rw [abs_of_nonneg hγE, _root_.abs_le] at eT
  rw [← hE] at h2'
  have hT0 := R.nonneg hγE
  have hs : 0 ≤ s := by linarith
  have eS := R.err (s * s)
  rw [abs_of_nonneg (mul_self_nonneg s), _root_.abs_le] at eS
  have hfe : (1 - u) * s ^ 2 ≤ y := by nlinarith [eS.1]
  have hey := Real.add_one_le_exp y
  have hsy : s ≤ Real.exp y := by
    have h3 : 3 / 4 * s ^ 2 ≤ y := le_trans (mul_le_mul_of_nonneg_right (by linarith) (sq_nonneg s)) hfe
    nlinarith [sq_nonneg (s - 1)]
  have hq0 : 0 ≤ s / E := by positivity
  have hq1 : s / E ≤ 4 / 3 := by
    rw [div_le_iff₀ hEp]
    have : 3 / 4 * Real.exp y ≤ E := by nlinarith [eE.1]
    linarith
  have eQ := R.err (s / E)
  rw [abs_of_nonneg hq0, _root_.abs_le] at eQ
  rw [← hE]
  have hx1 : (1 - u) * γ ≤ s / E := by
    rw [le_div_iff₀ hEp]
    nlinarith [eT.1]
  refine ⟨hs, hfe, ?_, R.nonneg hq0, ?_, ?_⟩
  · have e1 : |s / E - s / Real.exp y| ≤ u * (s / E) := by
      have : s / E - s / Real.exp y = s / E * ((Real.exp y - E) / Real.exp y) := by
        field_simp
      rw [this, abs_mul, abs_of_nonneg hq0, mul_comm u, abs_div, abs_of_pos hE0]
      refine mul_le_mul_of_nonneg_left ?_ hq0
      rw [div_le_iff₀ hE0, _root_.abs_le]
      constructor <;> linarith [eE.1, eE.2]
    rw [_root_.abs_le] at *
    have : u * (s / E) ≤ u * (4 / 3) := mul_le_mul_of_nonneg_left hq1 hu0
    constructor <;> linarith [e1.1, e1.2, eQ.1, eQ.2]
  · have : u * (s / E) ≤ 1 / 4 * (4 / 3) := mul_le_mul hu hq1 hq0 (by norm_num)
    linarith [eQ.2]
  · have h5 : (1 - u) * ((1 - u) * γ) ≤ R.rnd (s / E) := by
      have := mul_le_mul_of_nonneg_left hx1 (by linarith : (0 : ℝ) ≤ 1 - u)
      linarith [eQ.1]
    have h6 : u * γ ≤ u * Γ := mul_le_mul_of_nonneg_left hγ hu0
    nlinarith [mul_nonneg hu0 (mul_nonneg hu0 hγ0)]

/-- the numbers of a query are close to the exact ones, for bounded points and levels -/
theorem qcvx_close (F Γ : ℝ) {δ : ℝ} (hδ : 0 < δ) : ∃ u0 > 0, ∀ u ≤ u0, ∀ (R : Rounding u) (s y γ : ℝ), |s| ≤ F → |y| ≤ F → |γ| ≤ Γ →
    |R.rnd (2 * s) - 2 * s| ≤ δ ∧ |R.rnd (R.rnd (s * s) - y) - (s * s - y)| ≤ δ ∧
    |R.rnd (γ * R.rnd (Real.exp y)) - γ * Real.exp y| ≤ δ ∧
    |R.rnd (-s + R.rnd (γ * R.rnd (Real.exp y))) - (-s + γ * Real.exp y)| ≤ δ := by
  obtain ⟨K, hK⟩ : ∃ K : ℝ → Set (ℝ × ℝ × ℝ), K = fun _ => {k | |k.1| ≤ F ∧ |k.2.1| ≤ F ∧ |k.2.2| ≤ Γ} := ⟨_, rfl⟩
  have as : Appr K (fun _ _ k => k.1) fun k => k.1 := Appr.self F fun u _ k hk => by rw [hK] at hk; exact hk.1
  have ay : Appr K (fun _ _ k => k.2.1) fun k => k.2.1 := Appr.self F fun u _ k hk => by rw [hK] at hk; exact hk.2.1
  have ag : Appr K (fun _ _ k => k.2.2) fun k => k.2.2 := Appr.self Γ fun u _ k hk => by rw [hK] at hk; exact hk.2.2
  have aT := (ag.mul ay.exp.rnd).rnd
  obtain ⟨u1, p1, h1⟩ := ((Appr.const 2).mul as).rnd.close δ hδ
  obtain ⟨u2, p2, h2⟩ := ((as.mul as).rnd.sub ay).rnd.close δ hδ
  obtain ⟨u3, p3, h3⟩ := aT.close δ hδ
  obtain ⟨u4, p4, h4⟩ := (as.neg.add aT).rnd.close δ hδ
  refine ⟨min (min u1 u2) (min u3 u4), lt_min (lt_min p1 p2) (lt_min p3 p4), fun u hu R s y γ hs hy hγ => ?_⟩
  simp only [le_min_iff] at hu
  have hk : (s, y, γ) ∈ K u := by rw [hK]; exact ⟨hs, hy, hγ⟩
  exact ⟨h1 u hu.1.1 R _ hk, h2 u hu.1.2 R _ hk, h3 u hu.2.1 R _ hk, h4 u hu.2.2 R _ hk⟩

/-- the cuts keep every point that is clearly better -/
theorem qcvx_cuts {F Z Γ δ δ' s y γ : ℝ} (hF : |s| ≤ F ∧ |y| ≤ F) (hγ0 : 0 ≤ γ)
    (hδ1 : δ' * (Z + F + 1) ≤ δ) (hδ2 : 4 * u * Real.exp Z ≤ δ) (hu : u ≤ 1 / 4) (hγ : γ ≤ Γ)
    (hc : |R.rnd (2 * s) - 2 * s| ≤ δ' ∧ |R.rnd (R.rnd (s * s) - y) - (s * s - y)| ≤ δ' ∧
      |R.rnd (γ * R.rnd (Real.exp y)) - γ * Real.exp y| ≤ δ' ∧
      |R.rnd (-s + R.rnd (γ * R.rnd (Real.exp y))) - (-s + γ * Real.exp y)| ≤ δ')
    {g : List (Fl R)} {β : Fl R} {sh : Bool} {γ' : Fl R} (h : QcvxAnswer R s y γ g β sh γ') {z : Fin 2 → ℝ} (hz : ∀ i, |z i| ≤ Z)
    (hz1 : z 0 ^ 2 - z 1 ≤ -δ) (hz2 : -z 0 + γ'.val * Real.exp (z 1) ≤ -δ) :
    (Arr.ofList g).flVec 2 ⬝ᵥ (z - ![s, y]) + (if sh = true then 0 else β.val) ≤ 0 := by
  obtain ⟨c1, c2, c3, c4⟩ := hc
  have hδ0 : 0 ≤ δ' := (abs_nonneg _).trans c1
  have d0 : |z 0 - s| ≤ Z + F := (abs_sub _ _).trans (add_le_add (hz 0) hF.1)
  have d1 : |z 1 - y| ≤ Z + F := (abs_sub _ _).trans (add_le_add (hz 1) hF.2)
  have key : ∀ {a b t : ℝ}, |a - b| ≤ δ' → |t| ≤ Z + F → a * t ≤ b * t + δ' * (Z + F) := by
    intro a b t hab ht
    have h1 := le_abs_self ((a - b) * t)
    rw [abs_mul] at h1
    have h2 := mul_le_mul hab ht (abs_nonneg _) hδ0
    nlinarith
  cases h with
  | first h =>
    rw [fl_pair_vec, pair_dot']
    simp only [Pi.sub_apply, cons_val_zero, cons_val_one, Bool.false_eq_true, if_false]
    have k1 := key c1 d0
    have k2 := (_root_.abs_le.1 c2).2
    nlinarith [sq_nonneg (z 0 - s)]
  | second h =>
    rw [fl_pair_vec, pair_dot']
    simp only [Pi.sub_apply, cons_val_zero, cons_val_one, Bool.false_eq_true, if_false]
    have k1 := key c3 d1
    have k2 := (_root_.abs_le.1 c4).2
    have k3 := mul_le_mul_of_nonneg_left (exp_tangent y (z 1)) hγ0
    nlinarith
  | better h1 h2 =>
    obtain ⟨b1, b2, b3, b4, -, -⟩ := qcvx_better hu hγ0 hγ h1 h2
    rw [fl_pair_vec, pair_dot']
    simp only [Pi.sub_apply, cons_val_zero, cons_val_one, if_true]
    obtain ⟨q, hq⟩ : ∃ q, q = s / Real.exp y := ⟨_, rfl⟩
    have e : q * Real.exp y = s := by rw [hq, div_mul_cancel₀ _ (Real.exp_pos _).ne']
    have hq0 : 0 ≤ q := by rw [hq]; exact div_nonneg b1 (Real.exp_pos _).le
    have k3 := mul_le_mul_of_nonneg_left (exp_tangent y (z 1)) hq0
    rw [mul_add, ← mul_assoc, e] at k3
    rw [← hq] at b3
    have k4 : q * Real.exp (z 1) ≤ R.rnd (s / R.rnd (Real.exp y)) * Real.exp (z 1) + 4 * u * Real.exp (z 1) := by
      rw [← add_mul]
      exact mul_le_mul_of_nonneg_right (by linarith [(_root_.abs_le.1 b3).1]) (Real.exp_pos _).le
    have k5 : 4 * u * Real.exp (z 1) ≤ 4 * u * Real.exp Z :=
      mul_le_mul_of_nonneg_left (Real.exp_le_exp.2 (le_of_abs_le (hz 1))) (by linarith [R.unit_nonneg])
    have hz2' : -z 0 + R.rnd (s / R.rnd (Real.exp y)) * Real.exp (z 1) ≤ -δ := hz2
    nlinarith

/-- the gradients have norm at least 1 -/
theorem qcvx_grad {s y γ : ℝ} {g : List (Fl R)} {β : Fl R} {sh : Bool} {γ' : Fl R} (h : QcvxAnswer R s y γ g β sh γ') :
    (1 : ℝ) ^ 2 ≤ normSq ((Arr.ofList g).flVec 2) ∧ (Arr.ofList g).IsVecShape 2 := by
  cases h with
  | first h =>
    refine ⟨?_, rfl, rfl, rfl⟩
    rw [fl_pair_vec, normSq, pair_dot']
    simp only [cons_val_zero, cons_val_one]
    nlinarith [sq_nonneg (R.rnd (2 * s))]
  | second h =>
    refine ⟨?_, rfl, rfl, rfl⟩
    rw [fl_pair_vec, normSq, pair_dot']
    simp only [cons_val_zero, cons_val_one]
    nlinarith [sq_nonneg (R.rnd (γ * R.rnd (Real.exp y)))]
  | better h1 h2 =>
    refine ⟨?_, rfl, rfl, rfl⟩
    rw [fl_pair_vec, normSq, pair_dot']
    simp only [cons_val_zero, cons_val_one]
    nlinarith [sq_nonneg s]

end Ellalgo
