import Verif.Spec.RoundedOracle
import Verif.Spec.Runs
import Verif.Lib.Rounded
import Verif.Lib.RoundRobinLemmas
import Verif.Model.Examples
import Verif.Model.TestOracles
import Verif.Props.EllGeneric
import Verif.Props.StableShapes
import Mathlib.Tactic.FinCases

/-! Property C86: in rounded arithmetic, a point handed back is what it is said to be, up to the rounding in evaluating the
problem at that point.  The search space may be anything. -/

namespace Ellalgo
open Matrix

section Generic
variable {Ω S X T α : Type} [Scalar α]

/-- Over a steady space, a run of `cutting_plane_optim` ends, a returned point was accepted by the oracle, and the final value is
the one the oracle wrote then. -/
theorem optim_accepted {orc : OracleOptim Ω (Arr α) T α} {sp : Space S (Arr α) T α} {n : Nat} {Q : S → Prop}
    (hsp : sp.Steady n Q) {I : Ω → α → Prop}
    (hI : ∀ w x g, I w g → x.IsVecShape n → ∃ c b g' w', orc.assess w x g = .ok ((c, b), g', w') ∧ I w' g' ∧
      (b = false → g' = g) ∧ c.1.IsVecShape n)
    {w : Ω} {s : S} {g : α} (opts : Options α) (hw : I w g) (hs : Q s) :
    ∃ r k g' w' s', cuttingPlaneOptim orc sp w s g opts = .ok ((r, k), g', w', s') ∧ I w' g' ∧ (r = none → g' = g) ∧
      ∀ x, r = some x → x.IsVecShape n ∧ ∃ w1 g1 c w2, I w1 g1 ∧ orc.assess w1 x g1 = .ok ((c, true), g', w2) := by
  have key : ∀ (m n0 : Nat) (xb : Option (Arr α)) (w : Ω) (s : S) (g1 : α), I w g1 → Q s → (xb = none → g1 = g) →
      (∀ y, xb = some y → y.IsVecShape n ∧ ∃ w1 g0 c w2, I w1 g0 ∧ orc.assess w1 y g0 = .ok ((c, true), g1, w2)) →
      ∃ r k g' w' s', optimLoop orc sp opts.tolerance m n0 xb w s g1 = .ok ((r, k), g', w', s') ∧ I w' g' ∧
        (r = none → g' = g) ∧
        ∀ x, r = some x → x.IsVecShape n ∧ ∃ w1 g1 c w2, I w1 g1 ∧ orc.assess w1 x g1 = .ok ((c, true), g', w2) := by
    intro m
    induction m with
    | zero => exact fun n0 xb w s g1 hw hs hn hb => ⟨xb, n0, g1, w, s, rfl, hw, hn, hb⟩
    | succ m ih =>
      intro n0 xb w s g1 hw hs hn hb
      obtain ⟨⟨gr, t⟩, b, g2, w1, hq, hI1, hg, hc⟩ := hI w (sp.xc s) g1 hw (hsp.centre s hs)
      have hb1 : ∀ y, (if b = true then some (sp.xc s) else xb) = some y →
          y.IsVecShape n ∧ ∃ w3 g3 c w2, I w3 g3 ∧ orc.assess w3 y g3 = .ok ((c, true), g2, w2) := by
        intro y hy
        cases b with
        | true =>
          simp only [if_true, Option.some.injEq] at hy
          exact ⟨hy ▸ hsp.centre s hs, w, g1, _, w1, hw, hy ▸ hq⟩
        | false =>
          rw [hg rfl]
          exact hb y (by simpa using hy)
      have hn1 : (if b = true then some (sp.xc s) else xb) = none → g2 = g := by
        cases b with
        | true => simp
        | false => intro h; rw [hg rfl]; exact hn (by simpa using h)
      obtain ⟨st, s1, hu, hs1⟩ : ∃ st s1, (if b = true then sp.updateCentral s (gr, t) else sp.updateBias s (gr, t)) =
          .ok (st, s1) ∧ Q s1 := by
        cases b with
        | true => exact hsp.step .central s gr t hs hc
        | false => exact hsp.step .bias s gr t hs hc
      simp only [optimLoop, hq, Res.ok_bind, hu]
      split
      · exact ⟨_, _, _, _, _, rfl, hI1, hn1, hb1⟩
      · exact ih _ _ _ _ _ hI1 hs1 hn1 hb1
  exact key _ _ _ _ _ _ hw hs (fun _ => rfl) (by simp)

/-- Over a steady space, a run of `cutting_plane_feas` ends, and a returned point was accepted by the oracle. -/
theorem feas_accepted {orc : OracleFeas Ω (Arr α) T α} {sp : Space S (Arr α) T α} {n : Nat} {Q : S → Prop}
    (hsp : sp.Steady n Q) {I : Ω → Prop}
    (hI : ∀ w x, I w → x.IsVecShape n → ∃ r w', orc.assess w x = .ok (r, w') ∧ I w' ∧ ∀ c, r = some c → c.1.IsVecShape n)
    {w : Ω} {s : S} (opts : Options α) (hw : I w) (hs : Q s) :
    ∃ r k w' s', cuttingPlaneFeas orc sp w s opts = .ok ((r, k), w', s') ∧
      ∀ x, r = some x → x.IsVecShape n ∧ ∃ w1, I w1 ∧ orc.assess w1 x = .ok (none, w') := by
  have key : ∀ (m n0 : Nat) (w : Ω) (s : S), I w → Q s →
      ∃ r k w' s', feasLoop orc sp opts.tolerance m n0 w s = .ok ((r, k), w', s') ∧
        ∀ x, r = some x → x.IsVecShape n ∧ ∃ w1, I w1 ∧ orc.assess w1 x = .ok (none, w') := by
    intro m
    induction m with
    | zero => exact fun n0 w s _ _ => ⟨_, _, _, _, rfl, by simp⟩
    | succ m ih =>
      intro n0 w s hw hs
      obtain ⟨r, w1, hq, hI1, hc⟩ := hI w (sp.xc s) hw (hsp.centre s hs)
      simp only [feasLoop, hq, Res.ok_bind]
      cases r with
      | none =>
        refine ⟨_, _, _, _, rfl, ?_⟩
        intro x hx
        simp only [Option.some.injEq] at hx
        exact ⟨hx ▸ hsp.centre s hs, w, hw, hx ▸ hq⟩
      | some c =>
        obtain ⟨gr, t⟩ := c
        obtain ⟨st, s1, hu, hs1⟩ := hsp.step .bias s gr t hs (hc _ rfl)
        have hu : sp.updateBias s (gr, t) = .ok (st, s1) := hu
        simp only [hu, Res.ok_bind]
        split
        · exact ⟨_, _, _, _, rfl, by simp⟩
        · exact ih _ _ _ hI1 hs1
  exact key _ _ _ _ hw hs

end Generic

section Oracles
variable {u : ℝ} {R : Rounding u}

/-- A rounding error relative to a bound on the rounded number. -/
theorem rnd_bound (R : Rounding u) (hu : u ≤ 1 / 8) {t B : ℝ} (h : |t| ≤ B) :
    |R.rnd t - t| ≤ u * B ∧ |R.rnd t| ≤ 9 / 8 * B := by
  have h0 := R.unit_nonneg
  have h1 := R.err t
  have h2 := R.abs_le t
  have h3 := mul_le_mul_of_nonneg_left h h0
  have hB : 0 ≤ B := (abs_nonneg t).trans h
  refine ⟨h1.trans h3, h2.trans ?_⟩
  nlinarith

theorem rnd_pos_iff (R : Rounding u) (hu : u ≤ 1 / 8) (t : ℝ) : 0 < R.rnd t ↔ 0 < t := by
  constructor
  · intro h
    by_contra hc
    have := R.mono _ _ (not_lt.1 hc)
    rw [R.zero] at this
    linarith
  · exact R.pos (by linarith)

theorem fl_idx_pair {x : Arr (Fl R)} (hx : x.IsVecShape 2) :
    x.idx 0 = .ok ⟨x.flVec 2 0⟩ ∧ x.idx 1 = .ok ⟨x.flVec 2 1⟩ :=
  ⟨hx.isVec.idx (by norm_num), hx.isVec.idx (by norm_num)⟩

theorem fl_pair_shape (a b : Fl R) : (Arr.ofList [a, b]).IsVecShape 2 := ⟨rfl, rfl, rfl⟩

theorem fl_pair_vec (a b : Fl R) : (Arr.ofList [a, b]).flVec 2 = ![a.val, b.val] := by
  funext i; fin_cases i <;> rfl

theorem pair_dot' (a b : ℝ) (v : Fin 2 → ℝ) : ![a, b] ⬝ᵥ v = a * v 0 + b * v 1 := by
  simp [dotProduct, Fin.sum_univ_two]

/-- the round-robin loop of tests `f i > 0` -/
theorem fl_cutIf_loop {m : Int} (hm : 0 < m) {body : Int → Unit → Res (Option (Arr (Fl R) × SingleCut (Fl R)) × Unit)}
    (f : Int → Fl R) (g : Int → List (Fl R)) (hb : ∀ i, 0 ≤ i → i < m → body i () = cutIf (f i) (g i)) {idx : Int}
    (h1 : -1 ≤ idx) (h2 : idx < m) :
    ∃ r idx', rrLoop 0 m body m.toNat idx () = .ok (r, idx', ()) ∧ 0 ≤ idx' ∧ idx' < m ∧
      (r = none → ∀ j, 0 ≤ j → j < m → (f j).val ≤ 0) ∧
      (∀ b, r = some b → 0 < (f idx').val ∧ b = (Arr.ofList (g idx'), ⟨f idx'⟩)) := by
  obtain ⟨r, idx', hr, hin, -, hn, hs⟩ := rrLoop_test (lo := 0) (hi := m) (idx := idx) (body := body)
    (t := fun i => if 0 < (f i).val then some (Arr.ofList (g i), ⟨f i⟩) else none) (by omega) (fun _ => h2) (by
      intro i hi1 hi2
      rw [hb i hi1 hi2]
      simp only [cutIf, Scalar.gt, Fl.lt_eq, Fl.zero_val, decide_eq_true_eq]
      split <;> rfl)
  rw [sub_zero] at hr
  refine ⟨r, idx', hr, (hin hm).1, (hin hm).2, ?_, ?_⟩
  · intro h j hj1 hj2
    have := hn h j hj1 hj2
    by_contra hc
    rw [if_pos (not_le.1 hc)] at this
    simp at this
  · intro b h
    have := (hs b h).2.2
    by_cases hc : 0 < (f idx').val
    · rw [if_pos hc] at this
      exact ⟨hc, by simpa using this.symm⟩
    · rw [if_neg hc] at this
      simp at this

/-! ### Evaluating the planar inequalities -/

variable (R) in
/-- rounding errors of the tests of `example1`: `x + y - 3`, `-x + y + 1`, and of the objective -/
theorem ex1_err (hu : u ≤ 1 / 8) (x : Fin 2 → ℝ) :
    |R.rnd (x 0 + x 1) - (x 0 + x 1)| + u * |R.rnd (x 0 + x 1)| ≤ err2 u x ∧
    |R.rnd (R.rnd (x 0 + x 1) - 3) - (x 0 + x 1 - 3)| ≤ err2 u x ∧
    |R.rnd (R.rnd (-x 0 + x 1) + 1) - (-x 0 + x 1 + 1)| ≤ err2 u x := by
  have h0 := R.unit_nonneg
  have ha := abs_nonneg (x 0)
  have hb := abs_nonneg (x 1)
  have hua := mul_nonneg h0 ha
  have hub := mul_nonneg h0 hb
  obtain ⟨p1, p2⟩ := rnd_bound R hu (abs_add_le (x 0) (x 1))
  obtain ⟨q1, q2⟩ := rnd_bound R hu (t := -x 0 + x 1) (B := |x 0| + |x 1|)
    (by have := abs_add_le (-x 0) (x 1); rwa [abs_neg] at this)
  obtain ⟨r1, -⟩ := rnd_bound R hu (t := R.rnd (x 0 + x 1) - 3) (B := 9 / 8 * (|x 0| + |x 1|) + 3)
    (by have := abs_sub (R.rnd (x 0 + x 1)) 3; rw [abs_of_pos (by norm_num : (0:ℝ) < 3)] at this; linarith)
  obtain ⟨s1, -⟩ := rnd_bound R hu (t := R.rnd (-x 0 + x 1) + 1) (B := 9 / 8 * (|x 0| + |x 1|) + 1)
    (by have := abs_add_le (R.rnd (-x 0 + x 1)) 1; rw [abs_one] at this; linarith)
  have p1' := p1
  rw [abs_le] at p1 q1 r1 s1
  unfold err2
  have p3 := mul_le_mul_of_nonneg_left p2 h0
  refine ⟨?_, abs_le.2 ⟨?_, ?_⟩, abs_le.2 ⟨?_, ?_⟩⟩ <;> nlinarith

variable (R) in
/-- rounding errors of the tests of `example4`: `-x - 1`, `-y - 2`, `x + y - 1`, and of the objective `2 x - 3 y` -/
theorem ex4_err (hu : u ≤ 1 / 8) (x : Fin 2 → ℝ) :
    |R.rnd (R.rnd (2 * x 0) - R.rnd (3 * x 1)) - (2 * x 0 - 3 * x 1)| +
      u * |R.rnd (R.rnd (2 * x 0) - R.rnd (3 * x 1))| ≤ 2 * err2 u x ∧
    |R.rnd (-x 0 - 1) - (-x 0 - 1)| ≤ err2 u x ∧
    |R.rnd (-x 1 - 2) - (-x 1 - 2)| ≤ err2 u x ∧
    |R.rnd (R.rnd (x 0 + x 1) - 1) - (x 0 + x 1 - 1)| ≤ err2 u x := by
  have h0 := R.unit_nonneg
  have ha := abs_nonneg (x 0)
  have hb := abs_nonneg (x 1)
  have hua := mul_nonneg h0 ha
  have hub := mul_nonneg h0 hb
  obtain ⟨a1, a2⟩ := rnd_bound R hu (t := 2 * x 0) (B := 2 * |x 0|) (by rw [abs_mul]; norm_num)
  obtain ⟨b1, b2⟩ := rnd_bound R hu (t := 3 * x 1) (B := 3 * |x 1|) (by rw [abs_mul]; norm_num)
  obtain ⟨c1, c2⟩ := rnd_bound R hu (t := R.rnd (2 * x 0) - R.rnd (3 * x 1)) (B := 9 / 8 * (2 * |x 0| + 3 * |x 1|))
    (by have := abs_sub (R.rnd (2 * x 0)) (R.rnd (3 * x 1)); linarith)
  obtain ⟨p1, p2⟩ := rnd_bound R hu (abs_add_le (x 0) (x 1))
  obtain ⟨r1, -⟩ := rnd_bound R hu (t := R.rnd (x 0 + x 1) - 1) (B := 9 / 8 * (|x 0| + |x 1|) + 1)
    (by have := abs_sub (R.rnd (x 0 + x 1)) 1; rw [abs_one] at this; linarith)
  obtain ⟨s1, -⟩ := rnd_bound R hu (t := -x 0 - 1) (B := |x 0| + 1)
    (by have := abs_sub (-x 0) 1; rw [abs_one, abs_neg] at this; linarith)
  obtain ⟨t1, -⟩ := rnd_bound R hu (t := -x 1 - 2) (B := |x 1| + 2)
    (by have := abs_sub (-x 1) 2; rw [abs_of_pos (by norm_num : (0:ℝ) < 2), abs_neg] at this; linarith)
  have c3 := mul_le_mul_of_nonneg_left c2 h0
  have tri : |R.rnd (R.rnd (2 * x 0) - R.rnd (3 * x 1)) - (2 * x 0 - 3 * x 1)| ≤
      u * (9 / 8 * (2 * |x 0| + 3 * |x 1|)) + u * (2 * |x 0|) + u * (3 * |x 1|) := by
    rw [abs_le] at a1 b1 c1 ⊢
    constructor <;> linarith
  rw [abs_le] at p1 r1
  unfold err2
  refine ⟨?_, ?_, ?_, abs_le.2 ⟨?_, ?_⟩⟩ <;> nlinarith

/-- the objective test `γ - f₀ > 0` and its cut, for a gradient that is minus the gradient of `f` -/
theorem fl_value_cut {γ f0 fx fz δ : ℝ} (he : |f0 - fx| + u * |f0| ≤ δ)
    (hz : γ + (δ + 2 * u * |γ|) ≤ fz) : fx - fz + R.rnd (γ - f0) ≤ 0 := by
  have h0 := R.unit_nonneg
  have h1 := (abs_le.1 (R.err (γ - f0))).2
  have h2 := mul_le_mul_of_nonneg_left (abs_sub γ f0) h0
  have h3 := neg_abs_le (f0 - fx)
  have h4 := mul_nonneg h0 (abs_nonneg γ)
  rw [mul_add] at h2
  nlinarith

/-- the answers of `example1` and `example1_rr`, case by case -/
theorem ex1_answers (hu : u ≤ 1 / 8) (x : Fin 2 → ℝ) (γ : ℝ) :
    (0 < R.rnd (R.rnd (x 0 + x 1) - 3) → FlMaxAnswer (R := R) ex1With (fun z => z 0 + z 1) (err2 u) x γ
      (Arr.ofList [1, 1]) (R.rnd (R.rnd (x 0 + x 1) - 3)) false γ) ∧
    (0 < R.rnd (R.rnd (-x 0 + x 1) + 1) → FlMaxAnswer (R := R) ex1With (fun z => z 0 + z 1) (err2 u) x γ
      (Arr.ofList [-1, 1]) (R.rnd (R.rnd (-x 0 + x 1) + 1)) false γ) ∧
    (0 < R.rnd (γ - R.rnd (x 0 + x 1)) → FlMaxAnswer (R := R) ex1With (fun z => z 0 + z 1) (err2 u) x γ
      (Arr.ofList [-1, -1]) (R.rnd (γ - R.rnd (x 0 + x 1))) false γ) ∧
    (R.rnd (R.rnd (x 0 + x 1) - 3) ≤ 0 → R.rnd (R.rnd (-x 0 + x 1) + 1) ≤ 0 → R.rnd (γ - R.rnd (x 0 + x 1)) ≤ 0 →
      FlMaxAnswer (R := R) ex1With (fun z => z 0 + z 1) (err2 u) x γ (Arr.ofList [-1, -1]) 0 true (R.rnd (x 0 + x 1))) := by
  obtain ⟨e0, e1, e2⟩ := ex1_err R hu x
  have h0 := R.unit_nonneg
  have m1 : (-1 : Fl R).val = -1 := rfl
  have e0' : |R.rnd (x 0 + x 1) - (x 0 + x 1)| ≤ err2 u x := by
    have := mul_nonneg h0 (abs_nonneg (R.rnd (x 0 + x 1))); linarith
  refine ⟨fun h => ?_, fun h => ?_, fun h => ?_, fun h1 h2 h3 => ?_⟩
  · refine ⟨fl_pair_shape _ _, by rw [fl_pair_vec]; intro h; have := congrFun h 0; simp at this, by simp, fun _ => ⟨rfl, h, ?_⟩⟩
    rintro z ⟨hz1, hz2⟩ -
    rw [fl_pair_vec, pair_dot']
    simp only [Fl.one_val, Pi.sub_apply]
    have := (abs_le.1 e1).2
    linarith
  · refine ⟨fl_pair_shape _ _, by rw [fl_pair_vec]; intro h; have := congrFun h 1; simp at this, by simp, fun _ => ⟨rfl, h, ?_⟩⟩
    rintro z ⟨hz1, hz2⟩ -
    rw [fl_pair_vec, pair_dot']
    simp only [Fl.one_val, m1, Pi.sub_apply]
    have := (abs_le.1 e2).2
    linarith
  · refine ⟨fl_pair_shape _ _, by rw [fl_pair_vec]; intro h; have := congrFun h 1; simp [m1] at this, by simp,
      fun _ => ⟨rfl, h, ?_⟩⟩
    intro z _ hz
    rw [fl_pair_vec, pair_dot']
    simp only [m1, Pi.sub_apply]
    have := fl_value_cut (R := R) e0 hz
    linarith
  · refine ⟨fl_pair_shape _ _, by rw [fl_pair_vec]; intro h; have := congrFun h 1; simp [m1] at this, fun _ => ⟨⟨?_, ?_⟩, e0', ?_,
      rfl, ?_⟩, by simp⟩
    · have := (abs_le.1 e1).1
      linarith
    · have := (abs_le.1 e2).1
      linarith
    · by_contra hc
      have := (rnd_pos_iff R hu (γ - R.rnd (x 0 + x 1))).2 (by linarith)
      linarith
    · intro z hz
      rw [fl_pair_vec, pair_dot']
      simp only [m1, Pi.sub_apply]
      linarith

/-- **C86** `example1::MyOracle` in rounded arithmetic. -/
theorem C86_example1 (hu : u ≤ 1 / 8) (h3 : R.Rep 3) :
    FlMaximizes (R := R) 2 ex1Oracle (fun _ => True) ex1With (fun z => z 0 + z 1) (err2 u) := by
  intro w x γ _ hx
  obtain ⟨hx0, hx1⟩ := fl_idx_pair hx
  obtain ⟨a1, a2, a3, a4⟩ := ex1_answers (R := R) hu (x.flVec 2) γ.val
  set a : Fl R := ⟨x.flVec 2 0⟩ with ha
  set b : Fl R := ⟨x.flVec 2 1⟩ with hb
  have v1 : (a + b - nat 3).val = R.rnd (R.rnd (x.flVec 2 0 + x.flVec 2 1) - 3) :=
    congrArg (fun t => R.rnd (R.rnd (x.flVec 2 0 + x.flVec 2 1) - t)) h3
  have v2 : (-a + b + 1).val = R.rnd (R.rnd (-x.flVec 2 0 + x.flVec 2 1) + 1) := rfl
  have v3 : (γ - (a + b)).val = R.rnd (γ.val - R.rnd (x.flVec 2 0 + x.flVec 2 1)) := rfl
  rw [← v1] at a1 a4
  rw [← v2] at a2 a4
  rw [← v3] at a3 a4
  simp only [ex1Oracle, ex1Assess, hx0, hx1, Res.ok_bind, Scalar.gt, Fl.lt_eq, Fl.zero_val, decide_eq_true_eq]
  split
  · exact ⟨_, _, _, _, _, rfl, trivial, a1 ‹_›⟩
  · split
    · exact ⟨_, _, _, _, _, rfl, trivial, a2 ‹_›⟩
    · split
      · exact ⟨_, _, _, _, _, rfl, trivial, a3 ‹_›⟩
      · exact ⟨_, _, _, _, _, rfl, trivial, a4 (not_lt.1 ‹_›) (not_lt.1 ‹_›) (not_lt.1 ‹_›)⟩

/-- **C86** `example1_rr::MyOracle` in rounded arithmetic, from every reachable position. -/
theorem C86_example1_rr (hu : u ≤ 1 / 8) (h3 : R.Rep 3) :
    FlMaximizes (R := R) 2 ex1rrOracle (fun idx => -1 ≤ idx ∧ idx < 3) ex1With (fun z => z 0 + z 1) (err2 u) := by
  rintro idx x γ ⟨h1, h2⟩ hx
  obtain ⟨hx0, hx1⟩ := fl_idx_pair hx
  obtain ⟨a1, a2, a3, a4⟩ := ex1_answers (R := R) hu (x.flVec 2) γ.val
  set a : Fl R := ⟨x.flVec 2 0⟩ with ha
  set b : Fl R := ⟨x.flVec 2 1⟩ with hb
  have v1 : (a + b - nat 3).val = R.rnd (R.rnd (x.flVec 2 0 + x.flVec 2 1) - 3) :=
    congrArg (fun t => R.rnd (R.rnd (x.flVec 2 0 + x.flVec 2 1) - t)) h3
  have v2 : (-a + b + 1).val = R.rnd (R.rnd (-x.flVec 2 0 + x.flVec 2 1) + 1) := rfl
  have v3 : (γ - (a + b)).val = R.rnd (γ.val - R.rnd (x.flVec 2 0 + x.flVec 2 1)) := rfl
  rw [← v1] at a1 a4
  rw [← v2] at a2 a4
  rw [← v3] at a3 a4
  obtain ⟨r, idx', hr, hi1, hi2, hn, hs⟩ := fl_cutIf_loop (m := 3) (by norm_num)
    (body := ex1rrBody a b (a + b) γ)
    (fun i => if i = 0 then a + b - nat 3 else if i = 1 then -a + b + 1 else γ - (a + b))
    (fun i => if i = 0 then [1, 1] else if i = 1 then [-1, 1] else [-1, -1])
    (by
      intro i hi1 hi2
      obtain rfl | rfl | rfl : i = 0 ∨ i = 1 ∨ i = 2 := by omega
      all_goals simp [ex1rrBody])
    h1 h2
  have hr' : rrLoop 0 3 (ex1rrBody a b (a + b) γ) 3 idx () = .ok (r, idx', ()) := hr
  simp only [ex1rrOracle, ex1rrAssess, hx0, hx1, Res.ok_bind, hr']
  cases r with
  | some c =>
    obtain ⟨hf, rfl⟩ := hs c rfl
    obtain rfl | rfl | rfl : idx' = 0 ∨ idx' = 1 ∨ idx' = 2 := by omega
    · exact ⟨_, _, _, _, _, rfl, by norm_num, a1 hf⟩
    · exact ⟨_, _, _, _, _, rfl, by norm_num, a2 hf⟩
    · exact ⟨_, _, _, _, _, rfl, by norm_num, a3 hf⟩
  | none =>
    refine ⟨_, _, _, _, _, rfl, by constructor <;> omega, a4 ?_ ?_ ?_⟩
    · exact hn rfl 0 (by norm_num) (by norm_num)
    · exact hn rfl 1 (by norm_num) (by norm_num)
    · exact hn rfl 2 (by norm_num) (by norm_num)

/-- the answers of `example4`, case by case -/
theorem ex4_answers (hu : u ≤ 1 / 8) (h3 : R.Rep 3) (x : Fin 2 → ℝ) (γ : ℝ) :
    (0 < R.rnd (-x 0 - 1) → FlMaxAnswer (R := R) ex4With (fun z => 2 * z 0 - 3 * z 1) (fun x => 2 * err2 u x) x γ
      (Arr.ofList [-1, 0]) (R.rnd (-x 0 - 1)) false γ) ∧
    (0 < R.rnd (-x 1 - 2) → FlMaxAnswer (R := R) ex4With (fun z => 2 * z 0 - 3 * z 1) (fun x => 2 * err2 u x) x γ
      (Arr.ofList [0, -1]) (R.rnd (-x 1 - 2)) false γ) ∧
    (0 < R.rnd (R.rnd (x 0 + x 1) - 1) → FlMaxAnswer (R := R) ex4With (fun z => 2 * z 0 - 3 * z 1) (fun x => 2 * err2 u x) x γ
      (Arr.ofList [1, 1]) (R.rnd (R.rnd (x 0 + x 1) - 1)) false γ) ∧
    (0 < R.rnd (γ - R.rnd (R.rnd (2 * x 0) - R.rnd (3 * x 1))) →
      FlMaxAnswer (R := R) ex4With (fun z => 2 * z 0 - 3 * z 1) (fun x => 2 * err2 u x) x γ
      (Arr.ofList [-(nat 2), nat 3]) (R.rnd (γ - R.rnd (R.rnd (2 * x 0) - R.rnd (3 * x 1)))) false γ) ∧
    (R.rnd (-x 0 - 1) ≤ 0 → R.rnd (-x 1 - 2) ≤ 0 → R.rnd (R.rnd (x 0 + x 1) - 1) ≤ 0 →
      R.rnd (γ - R.rnd (R.rnd (2 * x 0) - R.rnd (3 * x 1))) ≤ 0 →
      FlMaxAnswer (R := R) ex4With (fun z => 2 * z 0 - 3 * z 1) (fun x => 2 * err2 u x) x γ (Arr.ofList [-(nat 2), nat 3]) 0 true
        (R.rnd (R.rnd (2 * x 0) - R.rnd (3 * x 1)))) := by
  obtain ⟨e0, e1, e2, e3⟩ := ex4_err R hu x
  have h0 := R.unit_nonneg
  have m1 : (-1 : Fl R).val = -1 := rfl
  have m2 : (-(nat 2) : Fl R).val = -2 := congrArg Neg.neg R.two
  have n3 : (nat 3 : Fl R).val = 3 := h3
  have hE : 0 ≤ err2 u x := by unfold err2; positivity
  have e0' : |R.rnd (R.rnd (2 * x 0) - R.rnd (3 * x 1)) - (2 * x 0 - 3 * x 1)| ≤ 2 * err2 u x := by
    have := mul_nonneg h0 (abs_nonneg (R.rnd (R.rnd (2 * x 0) - R.rnd (3 * x 1)))); linarith
  refine ⟨fun h => ?_, fun h => ?_, fun h => ?_, fun h => ?_, fun g1 g2 g3 g4 => ?_⟩
  · refine ⟨fl_pair_shape _ _, by rw [fl_pair_vec]; intro h; have := congrFun h 0; simp [m1] at this, by simp,
      fun _ => ⟨rfl, h, ?_⟩⟩
    rintro z ⟨hz1, hz2, hz3⟩ -
    rw [fl_pair_vec, pair_dot']
    simp only [Fl.zero_val, m1, Pi.sub_apply]
    have := (abs_le.1 e1).2
    linarith
  · refine ⟨fl_pair_shape _ _, by rw [fl_pair_vec]; intro h; have := congrFun h 1; simp [m1] at this, by simp,
      fun _ => ⟨rfl, h, ?_⟩⟩
    rintro z ⟨hz1, hz2, hz3⟩ -
    rw [fl_pair_vec, pair_dot']
    simp only [Fl.zero_val, m1, Pi.sub_apply]
    have := (abs_le.1 e2).2
    linarith
  · refine ⟨fl_pair_shape _ _, by rw [fl_pair_vec]; intro h; have := congrFun h 1; simp at this, by simp,
      fun _ => ⟨rfl, h, ?_⟩⟩
    rintro z ⟨hz1, hz2, hz3⟩ -
    rw [fl_pair_vec, pair_dot']
    simp only [Fl.one_val, Pi.sub_apply]
    have := (abs_le.1 e3).2
    linarith
  · refine ⟨fl_pair_shape _ _, by rw [fl_pair_vec, m2]; intro h; have := congrFun h 0; simp at this, by simp,
      fun _ => ⟨rfl, h, ?_⟩⟩
    intro z _ hz
    rw [fl_pair_vec, pair_dot', m2, n3]
    simp only [Pi.sub_apply]
    have := fl_value_cut (R := R) e0 hz
    linarith
  · refine ⟨fl_pair_shape _ _, by rw [fl_pair_vec, m2]; intro h; have := congrFun h 0; simp at this,
      fun _ => ⟨⟨?_, ?_, ?_⟩, e0', ?_, rfl, ?_⟩, by simp⟩
    · have := (abs_le.1 e1).1
      linarith
    · have := (abs_le.1 e2).1
      linarith
    · have := (abs_le.1 e3).1
      linarith
    · by_contra hc
      have := (rnd_pos_iff R hu (γ - R.rnd (R.rnd (2 * x 0) - R.rnd (3 * x 1)))).2 (by linarith)
      linarith
    · intro z hz
      rw [fl_pair_vec, pair_dot', m2, n3]
      simp only [Pi.sub_apply]
      linarith

/-- **C86** `example4::MyOracle` in rounded arithmetic, from every reachable position. -/
theorem C86_example4 (hu : u ≤ 1 / 8) (h3 : R.Rep 3) :
    FlMaximizes (R := R) 2 ex4Oracle (fun idx => -1 ≤ idx ∧ idx < 4) ex4With (fun z => 2 * z 0 - 3 * z 1)
      (fun x => 2 * err2 u x) := by
  rintro idx x γ ⟨h1, h2⟩ hx
  obtain ⟨hx0, hx1⟩ := fl_idx_pair hx
  obtain ⟨a1, a2, a3, a4, a5⟩ := ex4_answers (R := R) hu h3 (x.flVec 2) γ.val
  set a : Fl R := ⟨x.flVec 2 0⟩ with ha
  set b : Fl R := ⟨x.flVec 2 1⟩ with hb
  set f0 : Fl R := nat 2 * a - nat 3 * b with hf0
  have v0 : f0.val = R.rnd (R.rnd (2 * x.flVec 2 0) - R.rnd (3 * x.flVec 2 1)) := by
    show R.rnd (R.rnd ((nat 2 : Fl R).val * x.flVec 2 0) - R.rnd ((nat 3 : Fl R).val * x.flVec 2 1)) = _
    rw [show (nat 2 : Fl R).val = 2 from R.two, show (nat 3 : Fl R).val = 3 from h3]
  have v1 : (-a - 1).val = R.rnd (-x.flVec 2 0 - 1) := rfl
  have v2 : (-b - nat 2).val = R.rnd (-x.flVec 2 1 - 2) := congrArg (fun t => R.rnd (-x.flVec 2 1 - t)) R.two
  have v3 : (a + b - 1).val = R.rnd (R.rnd (x.flVec 2 0 + x.flVec 2 1) - 1) := rfl
  have v4 : (γ - f0).val = R.rnd (γ.val - R.rnd (R.rnd (2 * x.flVec 2 0) - R.rnd (3 * x.flVec 2 1))) :=
    congrArg (fun t => R.rnd (γ.val - t)) v0
  rw [← v1] at a1 a5
  rw [← v2] at a2 a5
  rw [← v3] at a3 a5
  rw [← v4] at a4 a5
  rw [← v0] at a5
  obtain ⟨r, idx', hr, hi1, hi2, hn, hs⟩ := fl_cutIf_loop (m := 4) (by norm_num) (body := ex4Body a b f0 γ)
    (fun i => if i = 0 then -a - 1 else if i = 1 then -b - nat 2 else if i = 2 then a + b - 1 else γ - f0)
    (fun i => if i = 0 then [-1, 0] else if i = 1 then [0, -1] else if i = 2 then [1, 1] else [-(nat 2), nat 3])
    (by
      intro i hi1 hi2
      obtain rfl | rfl | rfl | rfl : i = 0 ∨ i = 1 ∨ i = 2 ∨ i = 3 := by omega
      all_goals simp [ex4Body])
    h1 h2
  have hr' : rrLoop 0 4 (ex4Body a b f0 γ) 4 idx () = .ok (r, idx', ()) := hr
  simp only [ex4Oracle, ex4Assess, hx0, hx1, Res.ok_bind, ← hf0, hr']
  cases r with
  | some c =>
    obtain ⟨hf, rfl⟩ := hs c rfl
    obtain rfl | rfl | rfl | rfl : idx' = 0 ∨ idx' = 1 ∨ idx' = 2 ∨ idx' = 3 := by omega
    · exact ⟨_, _, _, _, _, rfl, by norm_num, a1 hf⟩
    · exact ⟨_, _, _, _, _, rfl, by norm_num, a2 hf⟩
    · exact ⟨_, _, _, _, _, rfl, by norm_num, a3 hf⟩
    · exact ⟨_, _, _, _, _, rfl, by norm_num, a4 hf⟩
  | none =>
    refine ⟨_, _, _, _, _, rfl, by constructor <;> omega, a5 ?_ ?_ ?_ ?_⟩
    · exact hn rfl 0 (by norm_num) (by norm_num)
    · exact hn rfl 1 (by norm_num) (by norm_num)
    · exact hn rfl 2 (by norm_num) (by norm_num)
    · exact hn rfl 3 (by norm_num) (by norm_num)

/-- **C86** `MyOracle2` of the example2 test in rounded arithmetic, from every reachable position. -/
theorem C86_example2 (hu : u ≤ 1 / 8) (h3 : R.Rep 3) :
    FlFeasible (R := R) 2 ex2Oracle (fun idx => -1 ≤ idx ∧ idx < 2) ex1With (err2 u) := by
  rintro idx x ⟨h1, h2⟩ hx
  obtain ⟨hx0, hx1⟩ := fl_idx_pair hx
  obtain ⟨a1, a2, -, -⟩ := ex1_answers (R := R) hu (x.flVec 2) (-(err2 u (x.flVec 2)))
  obtain ⟨-, e1, e2⟩ := ex1_err R hu (x.flVec 2)
  set a : Fl R := ⟨x.flVec 2 0⟩ with ha
  set b : Fl R := ⟨x.flVec 2 1⟩ with hb
  have v1 : (a + b - nat 3).val = R.rnd (R.rnd (x.flVec 2 0 + x.flVec 2 1) - 3) :=
    congrArg (fun t => R.rnd (R.rnd (x.flVec 2 0 + x.flVec 2 1) - t)) h3
  have v2 : (-a + b + 1).val = R.rnd (R.rnd (-x.flVec 2 0 + x.flVec 2 1) + 1) := rfl
  have m1 : (-1 : Fl R).val = -1 := rfl
  rw [← v1] at a1 e1
  rw [← v2] at a2 e2
  obtain ⟨r, idx', hr, hi1, hi2, hn, hs⟩ := fl_cutIf_loop (m := 2) (by norm_num) (body := ex2Body a b)
    (fun i => if i = 0 then a + b - nat 3 else -a + b + 1) (fun i => if i = 0 then [1, 1] else [-1, 1])
    (by
      intro i hi1 hi2
      obtain rfl | rfl : i = 0 ∨ i = 1 := by omega
      all_goals simp [ex2Body])
    h1 h2
  have hr' : rrLoop 0 2 (ex2Body a b) 2 idx () = .ok (r, idx', ()) := hr
  simp only [ex2Oracle, ex2Assess, hx0, hx1, Res.ok_bind, hr']
  refine ⟨r, idx', rfl, by constructor <;> omega, fun hr => ⟨?_, ?_⟩, ?_⟩
  · have h := hn hr 0 (by norm_num) (by norm_num)
    simp only [if_true] at h
    have := (abs_le.1 e1).1
    linarith
  · have h : (-a + b + 1).val ≤ 0 := hn hr 1 (by norm_num) (by norm_num)
    have := (abs_le.1 e2).1
    linarith
  · intro g beta hc
    obtain ⟨hf, hc'⟩ := hs _ hc
    obtain rfl | rfl : idx' = 0 ∨ idx' = 1 := by omega
    · simp only [Prod.mk.injEq, SingleCut.mk.injEq] at hc'
      obtain ⟨rfl, rfl⟩ := hc'
      refine ⟨(a1 hf).shape, (a1 hf).nonzero, hf, ?_⟩
      rintro z ⟨hz1, hz2⟩
      show (Arr.ofList [1, 1]).flVec 2 ⬝ᵥ _ + (a + b - nat 3).val ≤ 0
      rw [fl_pair_vec, pair_dot']
      simp only [Fl.one_val, Pi.sub_apply]
      have := (abs_le.1 e1).2
      linarith
    · simp only [Prod.mk.injEq, SingleCut.mk.injEq] at hc'
      obtain ⟨rfl, rfl⟩ := hc'
      refine ⟨(a2 hf).shape, (a2 hf).nonzero, hf, ?_⟩
      rintro z ⟨hz1, hz2⟩
      show (Arr.ofList [-1, 1]).flVec 2 ⬝ᵥ _ + (-a + b + 1).val ≤ 0
      rw [fl_pair_vec, pair_dot']
      simp only [Fl.one_val, m1, Pi.sub_apply]
      have := (abs_le.1 e2).2
      linarith

/-- **C86** `MyOracle3` in rounded arithmetic, from every reachable position and with any target `t`. -/
theorem C86_example3 (hu : u ≤ 1 / 8) (h3 : R.Rep 3) (t : Fl R) :
    FlFeasible (R := R) 2 Ex3.oracle (fun o => -1 ≤ o.idx ∧ o.idx < 4 ∧ o.target = t) (ex3With t.val)
      (fun x => 2 * err2 u x + u * |t.val|) := by
  rintro o x ⟨h1, h2, rfl⟩ hx
  obtain ⟨hx0, hx1⟩ := fl_idx_pair hx
  have h0 := R.unit_nonneg
  obtain ⟨e0, e1, e2, e3⟩ := ex4_err R hu (x.flVec 2)
  have hE : 0 ≤ err2 u (x.flVec 2) := by unfold err2; positivity
  have hT : 0 ≤ u * |o.target.val| := by positivity
  set f := R.rnd (R.rnd (2 * x.flVec 2 0) - R.rnd (3 * x.flVec 2 1)) with hf
  have e4 : |R.rnd (f - o.target.val) - (2 * x.flVec 2 0 - 3 * x.flVec 2 1 - o.target.val)| ≤
      2 * err2 u (x.flVec 2) + u * |o.target.val| := by
    have a1 := R.err (f - o.target.val)
    have a2 := mul_le_mul_of_nonneg_left (abs_sub f o.target.val) h0
    have a3 : |R.rnd (f - o.target.val) - (2 * x.flVec 2 0 - 3 * x.flVec 2 1 - o.target.val)| ≤
        |R.rnd (f - o.target.val) - (f - o.target.val)| + |f - (2 * x.flVec 2 0 - 3 * x.flVec 2 1)| := by
      have := abs_add_le (R.rnd (f - o.target.val) - (f - o.target.val)) (f - (2 * x.flVec 2 0 - 3 * x.flVec 2 1))
      refine le_trans (le_of_eq ?_) this
      congr 1; ring
    rw [mul_add] at a2
    linarith
  set a : Fl R := ⟨x.flVec 2 0⟩ with ha
  set b : Fl R := ⟨x.flVec 2 1⟩ with hb
  have m1 : (-1 : Fl R).val = -1 := rfl
  have m2 : (nat 2 : Fl R).val = 2 := R.two
  have n3 : (nat 3 : Fl R).val = 3 := h3
  have m3 : (-(nat 3) : Fl R).val = -3 := congrArg Neg.neg h3
  have v1 : (-a - 1).val = R.rnd (-x.flVec 2 0 - 1) := rfl
  have v2 : (-b - nat 2).val = R.rnd (-x.flVec 2 1 - 2) := congrArg (fun t => R.rnd (-x.flVec 2 1 - t)) R.two
  have v3 : (a + b - 1).val = R.rnd (R.rnd (x.flVec 2 0 + x.flVec 2 1) - 1) := rfl
  have v4 : (nat 2 * a - nat 3 * b - o.target).val = R.rnd (f - o.target.val) := by
    show R.rnd (R.rnd (R.rnd ((nat 2 : Fl R).val * x.flVec 2 0) - R.rnd ((nat 3 : Fl R).val * x.flVec 2 1)) - o.target.val) = _
    rw [m2, n3]
  rw [← v1, abs_le] at e1
  rw [← v2, abs_le] at e2
  rw [← v3, abs_le] at e3
  rw [← v4, abs_le] at e4
  obtain ⟨r, idx', hr, hi1, hi2, hn, hs⟩ := fl_cutIf_loop (m := 4) (by norm_num) (body := ex3Body a b o.target)
    (fun i => if i = 0 then -a - 1 else if i = 1 then -b - nat 2 else if i = 2 then a + b - 1
      else nat 2 * a - nat 3 * b - o.target)
    (fun i => if i = 0 then [-1, 0] else if i = 1 then [0, -1] else if i = 2 then [1, 1] else [nat 2, -(nat 3)])
    (by
      intro i hi1 hi2
      obtain rfl | rfl | rfl | rfl : i = 0 ∨ i = 1 ∨ i = 2 ∨ i = 3 := by omega
      all_goals simp [ex3Body])
    h1 h2
  have hr' : rrLoop 0 4 (ex3Body a b o.target) 4 o.idx () = .ok (r, idx', ()) := hr
  simp only [Ex3.oracle, Ex3.assess, hx0, hx1, Res.ok_bind, hr']
  refine ⟨r, _, rfl, ⟨by show -1 ≤ idx'; omega, hi2, rfl⟩, fun hr => ?_, ?_⟩
  · have g0 : (-a - 1).val ≤ 0 := hn hr 0 (by norm_num) (by norm_num)
    have g1 : (-b - nat 2).val ≤ 0 := hn hr 1 (by norm_num) (by norm_num)
    have g2 : (a + b - 1).val ≤ 0 := hn hr 2 (by norm_num) (by norm_num)
    have g3 : (nat 2 * a - nat 3 * b - o.target).val ≤ 0 := hn hr 3 (by norm_num) (by norm_num)
    refine ⟨⟨?_, ?_, ?_⟩, ?_⟩ <;> linarith
  · intro g beta hc
    obtain ⟨hf, hc'⟩ := hs _ hc
    simp only [Prod.mk.injEq, SingleCut.mk.injEq] at hc'
    obtain rfl | rfl | rfl | rfl : idx' = 0 ∨ idx' = 1 ∨ idx' = 2 ∨ idx' = 3 := by omega
    · obtain ⟨rfl, rfl⟩ := hc'
      refine ⟨fl_pair_shape _ _, fun h => ?_, hf, ?_⟩
      · have := congrFun h 0
        rw [if_pos rfl, fl_pair_vec, m1] at this
        simp at this
      · rintro z ⟨⟨hz1, hz2, hz3⟩, hz4⟩
        show (Arr.ofList [-1, 0]).flVec 2 ⬝ᵥ _ + (-a - 1).val ≤ 0
        rw [fl_pair_vec, pair_dot', m1]
        simp only [Fl.zero_val, Pi.sub_apply]
        linarith
    · obtain ⟨rfl, rfl⟩ := hc'
      refine ⟨fl_pair_shape _ _, fun h => ?_, hf, ?_⟩
      · have : (Arr.ofList [0, -1] : Arr (Fl R)).flVec 2 1 = 0 := congrFun h 1
        rw [fl_pair_vec, m1] at this
        simp at this
      · rintro z ⟨⟨hz1, hz2, hz3⟩, hz4⟩
        show (Arr.ofList [0, -1]).flVec 2 ⬝ᵥ _ + (-b - nat 2).val ≤ 0
        rw [fl_pair_vec, pair_dot', m1]
        simp only [Fl.zero_val, Pi.sub_apply]
        linarith
    · obtain ⟨rfl, rfl⟩ := hc'
      refine ⟨fl_pair_shape _ _, fun h => ?_, hf, ?_⟩
      · have : (Arr.ofList [1, 1] : Arr (Fl R)).flVec 2 1 = 0 := congrFun h 1
        rw [fl_pair_vec] at this
        simp at this
      · rintro z ⟨⟨hz1, hz2, hz3⟩, hz4⟩
        show (Arr.ofList [1, 1]).flVec 2 ⬝ᵥ _ + (a + b - 1).val ≤ 0
        rw [fl_pair_vec, pair_dot']
        simp only [Fl.one_val, Pi.sub_apply]
        linarith
    · obtain ⟨rfl, rfl⟩ := hc'
      refine ⟨fl_pair_shape _ _, fun h => ?_, hf, ?_⟩
      · have : (Arr.ofList [nat 2, -(nat 3)] : Arr (Fl R)).flVec 2 0 = 0 := congrFun h 0
        rw [fl_pair_vec, m2] at this
        simp at this
      · rintro z ⟨⟨hz1, hz2, hz3⟩, hz4⟩
        show (Arr.ofList [nat 2, -(nat 3)]).flVec 2 ⬝ᵥ _ + (nat 2 * a - nat 3 * b - o.target).val ≤ 0
        rw [fl_pair_vec, pair_dot', m2, m3]
        simp only [Pi.sub_apply]
        linarith

/-! ### Runs -/

variable {Ω S : Type} {n : Nat}

/-- `Ell` and `EllStable` are steady spaces in any arithmetic. -/
theorem C86_ell_steady {α T : Type} [Scalar α] [CutType T α] (hn : 0 < n) :
    (Ell.space (α := α) (T := T)).Steady n (fun e => e.Shaped n) ∧
    (EllStable.space (α := α) (T := T)).Steady n (fun e => e.Shaped n) := by
  refine ⟨⟨fun e he => he.2, fun k e g t he hg => ?_⟩, ⟨fun e he => he.2, fun k e g t he hg => ?_⟩⟩
  · obtain ⟨st, e', h1, h2, -⟩ := Ell.update_shape hn k e (g, t) he hg
    exact ⟨st, e', h1, h2⟩
  · exact EllStable.update_shape hn k e (g, t) he hg.2.2.ge

/-- **C86** (runs of `cutting_plane_optim`)  With an oracle that is correct in rounded arithmetic, over any steady search space,
whatever rounding does to that space: the run ends without a panic; the value never decreases; with no point the value is the
initial one; and a returned point satisfies the inequalities up to `δ` and has the reported value up to `δ`. -/
theorem C86_optim_run {orc : OracleOptim Ω (Arr (Fl R)) (SingleCut (Fl R)) (Fl R)}
    {sp : Space S (Arr (Fl R)) (SingleCut (Fl R)) (Fl R)} {Q : S → Prop} (hsp : sp.Steady n Q) {I : Ω → Prop}
    {F : ℝ → Set (Fin n → ℝ)} {f δ : (Fin n → ℝ) → ℝ} (ho : FlMaximizes (R := R) n orc I F f δ) {w : Ω} {s : S}
    (γ : Fl R) (opts : Options (Fl R)) (hw : I w) (hs : Q s) :
    ∃ r k γ' w' s', cuttingPlaneOptim orc sp w s γ opts = .ok ((r, k), γ', w', s') ∧ γ.val ≤ γ'.val ∧ (r = none → γ' = γ) ∧
      ∀ x, r = some x → x.IsVecShape n ∧ x.flVec n ∈ F (-δ (x.flVec n)) ∧ |γ'.val - f (x.flVec n)| ≤ δ (x.flVec n) := by
  obtain ⟨r, k, γ', w', s', h1, h2, h3, h4⟩ := optim_accepted hsp (I := fun w g => I w ∧ γ.val ≤ g.val) (orc := orc)
    (w := w) (s := s) (g := γ) (by
      rintro w x g ⟨hw, hg⟩ hx
      obtain ⟨gr, beta, b, g', w', hq, hI, ha⟩ := ho w x g hw hx
      refine ⟨(gr, ⟨beta⟩), b, g', w', hq, ⟨hI, ?_⟩, ?_, ha.shape⟩
      · cases b with
        | true => exact hg.trans (ha.accepted rfl).2.2.1
        | false => rw [(ha.rejected rfl).1]; exact hg
      · rintro rfl
        exact Fl.ext (ha.rejected rfl).1) opts ⟨hw, le_rfl⟩ hs
  refine ⟨r, k, γ', w', s', h1, h2.2, h3, ?_⟩
  intro x hx
  obtain ⟨hxs, w1, g1, c, w2, ⟨hw1, -⟩, hq⟩ := h4 x hx
  obtain ⟨gr, beta, b, g', w3, hq', -, ha⟩ := ho w1 x g1 hw1 hxs
  rw [hq] at hq'
  simp only [Res.ok.injEq, Prod.mk.injEq] at hq'
  obtain ⟨⟨-, hb⟩, hg, -⟩ := hq'
  obtain ⟨h5, h6, -⟩ := ha.accepted hb.symm
  exact ⟨hxs, h5, hg ▸ h6⟩

/-- **C86** (runs of `cutting_plane_feas`)  With a feasibility oracle that is correct in rounded arithmetic, over any steady
search space: the run ends without a panic and a returned point satisfies the inequalities up to `δ`. -/
theorem C86_feas_run {orc : OracleFeas Ω (Arr (Fl R)) (SingleCut (Fl R)) (Fl R)}
    {sp : Space S (Arr (Fl R)) (SingleCut (Fl R)) (Fl R)} {Q : S → Prop} (hsp : sp.Steady n Q) {I : Ω → Prop}
    {F : ℝ → Set (Fin n → ℝ)} {δ : (Fin n → ℝ) → ℝ} (ho : FlFeasible (R := R) n orc I F δ) {w : Ω} {s : S}
    (opts : Options (Fl R)) (hw : I w) (hs : Q s) :
    ∃ r k w' s', cuttingPlaneFeas orc sp w s opts = .ok ((r, k), w', s') ∧
      ∀ x, r = some x → x.IsVecShape n ∧ x.flVec n ∈ F (-δ (x.flVec n)) := by
  obtain ⟨r, k, w', s', h1, h2⟩ := feas_accepted hsp (I := I) (orc := orc) (w := w) (s := s) (by
    intro w x hw hx
    obtain ⟨r, w', hq, hI, -, hc⟩ := ho w x hw hx
    refine ⟨r, w', hq, hI, ?_⟩
    rintro ⟨g, ⟨beta⟩⟩ hr
    exact (hc g beta hr).1) opts hw hs
  refine ⟨r, k, w', s', h1, ?_⟩
  intro x hx
  obtain ⟨hxs, w1, hw1, hq⟩ := h2 x hx
  obtain ⟨r', w2, hq', -, ha, -⟩ := ho w1 x hw1 hxs
  rw [hq] at hq'
  simp only [Res.ok.injEq, Prod.mk.injEq] at hq'
  exact ⟨hxs, ha hq'.1.symm⟩

end Oracles
end Ellalgo
