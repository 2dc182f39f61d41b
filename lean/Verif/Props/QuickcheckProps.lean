import Verif.Props.NoSolnComplete
import Verif.Props.EllReal

/-! The properties that `examples/quickcheck_tests.rs` samples, for all inputs (C92). -/

namespace Ellalgo
open Matrix

/-- **C92** (`ellcalccore_*`, `ellcalc_parallel_flag`)  The fields of a fresh `EllCalcCore`, and the flag of a fresh `EllCalc`. -/
theorem C92_core_fields (x : ℝ) (hx : 0 < x) (n : Nat) :
    0 < (EllCalcCore.new x).nF ∧ (EllCalcCore.new x).halfN = (EllCalcCore.new x).nF / 2 ∧
    (EllCalcCore.new x).nPlus1 = (EllCalcCore.new x).nF + 1 ∧ (EllCalc.new n : EllCalc ℝ).useParallelCut = true ∧
    (EllCalc.new n : EllCalc ℝ).nF = n := by
  refine ⟨hx, ?_, rfl, rfl, ?_⟩ <;> simp [EllCalcCore.new, EllCalc.new, nat]

/-- **C92** (`calc_central_cut_valid`)  In dimension more than one the three numbers of a central cut are positive. -/
theorem C92_central_positive {x tsq : ℝ} (hx : 1 < x) (ht : 0 < tsq) :
    0 < ((EllCalcCore.new x).calcCentralCut tsq).1 ∧ 0 < ((EllCalcCore.new x).calcCentralCut tsq).2.1 ∧
    1 < ((EllCalcCore.new x).calcCentralCut tsq).2.2 := by
  have h1 : 0 < x * x - 1 := by nlinarith
  have h2 := Real.sqrt_pos.2 ht
  have h3 : 0 < x := by linarith
  rw [calcCentralCut_real]
  refine ⟨by positivity, by positivity, ?_⟩
  rw [lt_div_iff₀ h1]; linarith

/-- **C92** (`calc_bias_cut_valid`)  The three numbers of a bias cut are positive exactly if the cut is neither shallower than
`-τ/n` nor as deep as `τ`. -/
theorem C92_bias_positive {x τ β : ℝ} (hx : 1 < x) (hτ : 0 < τ) (hβ : -τ < β) :
    (0 < ((EllCalcCore.new x).calcBiasCut β τ).1 ∧ 0 < ((EllCalcCore.new x).calcBiasCut β τ).2.1 ∧
      0 < ((EllCalcCore.new x).calcBiasCut β τ).2.2) ↔ -(τ / x) < β ∧ β < τ := by
  have h1 : 0 < x * x - 1 := by nlinarith
  have h3 : 0 < x := by linarith
  have h4 : 0 < x + 1 := by linarith
  have h5 : 0 < τ + β := by linarith
  have hη : -(τ / x) < β ↔ 0 < τ + x * β := by
    rw [← neg_div, div_lt_iff₀ h3]
    constructor <;> intro h <;> linarith
  have hδ : 0 < x * x / (x * x - 1) * (1 - β / τ * (β / τ)) ↔ β < τ := by
    have e : x * x / (x * x - 1) * (1 - β / τ * (β / τ)) = (x * x / (x * x - 1) * ((τ + β) / (τ * τ))) * (τ - β) := by
      field_simp; ring
    have hp : 0 < x * x / (x * x - 1) * ((τ + β) / (τ * τ)) := by positivity
    rw [e]
    constructor
    · intro h; exact sub_pos.1 ((mul_pos_iff_of_pos_left hp).1 h)
    · intro h; exact mul_pos hp (sub_pos.2 h)
  show (0 < ((EllCalcCore.new x).calcBiasCutFast β τ (τ + x * β)).1 ∧ 0 < ((EllCalcCore.new x).calcBiasCutFast β τ (τ + x * β)).2.1 ∧
      0 < ((EllCalcCore.new x).calcBiasCutFast β τ (τ + x * β)).2.2) ↔ _
  rw [calcBiasCutFast_real, hη]
  constructor
  · rintro ⟨a, -, c⟩
    exact ⟨by
      have := (div_pos_iff_of_pos_right h4).1 a
      exact this, hδ.1 c⟩
  · rintro ⟨a, b⟩
    exact ⟨by positivity, by positivity, hδ.2 b⟩

/-- **C92** (`calc_parallel_bias_cut_valid`)  The three numbers of a parallel cut whose two planes are on the same side of the
centre and inside the ellipsoid are positive. -/
theorem C92_parallel_positive {x tsq b0 b1 : ℝ} (hx : 1 < x) (h0 : 0 ≤ b0) (h01 : b0 < b1) (h1 : b1 * b1 ≤ tsq) :
    0 < ((EllCalcCore.new x).calcParallelBiasCut b0 b1 tsq).1 ∧ 0 < ((EllCalcCore.new x).calcParallelBiasCut b0 b1 tsq).2.1 ∧
    0 < ((EllCalcCore.new x).calcParallelBiasCut b0 b1 tsq).2.2 := by
  have hb1 : 0 < b1 := by linarith
  have ht : 0 < tsq := by nlinarith
  have h2 : 0 < x * x - 1 := by nlinarith
  have h3 : 0 < x := by linarith
  have hz : 0 < tsq - b0 * b0 := by nlinarith
  have hz1 : 0 ≤ tsq - b1 * b1 := by linarith
  have hη : 0 < tsq + x * (b0 * b1) := by positivity
  have hs : 0 < b0 + b1 := by linarith
  show 0 < ((EllCalcCore.new x).calcParallelBiasCutFast b0 b1 tsq (b0 * b1) (tsq + x * (b0 * b1))).1 ∧
    0 < ((EllCalcCore.new x).calcParallelBiasCutFast b0 b1 tsq (b0 * b1) (tsq + x * (b0 * b1))).2.1 ∧
    0 < ((EllCalcCore.new x).calcParallelBiasCutFast b0 b1 tsq (b0 * b1) (tsq + x * (b0 * b1))).2.2
  rw [calcParallelFast_real]
  dsimp only
  refine ⟨by positivity, by positivity, by positivity⟩

/-- **C92** (`ell_construct_*`, `ell_dimension_consistency`, `ell_various_kappa`, `ell_identity_mq`, `ell_single_dimension`,
`array_dimension_match`)  `new_with_scalar` in every dimension. -/
theorem C92_construct {n : Nat} (κ : ℝ) (xc : Arr ℝ) (hx : xc.IsVecShape n) :
    ∃ e, Ell.newWithScalar κ xc = .ok e ∧ e.kappa = κ ∧ e.tsq = 0 ∧ e.mq.rows = n ∧ e.mq.cols = n ∧ e.xc = xc ∧
      ∀ i j, i < n → j < n → e.mq.get i j = .ok (if i = j then 1 else 0) := by
  obtain ⟨y, h1, h2⟩ := eye_spec (α := ℝ) n
  have hl : xc.len = n := hx.2.2
  refine ⟨Ell.newWithMatrix κ y xc, by simp [Ell.newWithScalar, hl, h1], rfl, rfl, h2.rows, h2.cols, rfl, ?_⟩
  intro i j hi hj
  exact h2.getij hi hj

section
variable {n : Nat} {e e' : Ell ℝ} {st : CutStatus}

/-- **C92** (`*_central_cut_keeps_kappa_positive`, `kappa_stays_positive`)  A central cut leaves a positive `κ`, whatever its
offsets, single or parallel, accepted or not. -/
theorem C92_central_kappa {T : Type} [Cut T] (he : e.Valid n) (cut : Arr ℝ × T) (hs : cut.1.IsVecShape n)
    (hg : cut.1.toVec n ≠ 0) (h : Ell.space.update .central e cut = .ok (st, e')) : 0 < e'.kappa := by
  have hn : (1 : ℝ) < n := by exact_mod_cast (by have := he.dim; omega : 1 < n)
  have ht := he.tsq_pos hg
  obtain ⟨ρ, σ, δ, hc, h2⟩ := Ell.update_real he.shaped he.symm he.pos .central cut hs h
  rcases h2 with ⟨_, rfl⟩ | ⟨rfl, ha⟩
  · exact he.kappa
  rw [ha.kappa]
  suffices hδ : 0 < δ by
    split
    · exact one_pos
    · exact mul_pos he.kappa hδ
  have h0 := C92_central_positive hn ht
  have hcen : ∀ ρ σ δ : ℝ, (EllCalcCore.new (n : ℝ)).calcCentralCut (e.tsqOf n (cut.1.toVec n)) = (ρ, σ, δ) → 0 < δ := by
    intro a b c habc
    rw [habc] at h0
    exact one_pos.trans h0.2.2
  rw [he.helper, Cut.call_eq] at hc
  generalize Cut.hi cut.2 = hi at hc
  cases hi with
  | none =>
    change (EllCalc.new n).calcCentralCut (e.tsqOf n (cut.1.toVec n)) = _ at hc
    rw [calcCentralS_real] at hc
    exact hcen _ _ _ (Prod.mk.inj hc).2
  | some b1 =>
    change (EllCalc.new n).calcParallelCentralCut b1 (e.tsqOf n (cut.1.toVec n)) = _ at hc
    rw [calcParallelCentralS_real, calcCentralS_real] at hc
    generalize e.tsqOf n (cut.1.toVec n) = tsq at *
    split at hc
    · simp at hc
    · split at hc
      · exact hcen _ _ _ (Prod.mk.inj hc).2
      · rename_i hlt
        have hlt : b1 * b1 < tsq := by simpa using hlt
        rw [calcParallelCentral_real] at hc
        simp only [Prod.mk.injEq, true_and] at hc
        rw [← hc.2.2]
        have ha0 : 0 ≤ b1 * b1 / tsq := by have := mul_self_nonneg b1; positivity
        generalize b1 * b1 / tsq = a at *
        have h1 := (abs_le.1 (Real.abs_le_sqrt (x := 1 - n / 2 * a) (y := 1 - a + n / 2 * a * (n / 2 * a)) (by nlinarith))).2
        have h2 := Real.abs_le_sqrt (x := 1 - n / 2 * a) (y := 1 - a + n / 2 * a * (n / 2 * a)) (by nlinarith)
        have h3 := (le_abs_self _).trans h2
        have h4 : (1 : ℝ) / n < 1 := by rw [div_lt_one (by linarith)]; exact hn
        exact div_pos (by linarith) (by linarith)

/-- **C92** (`bias_cut_keeps_kappa_positive`, `bias_cut_no_effect`)  A bias cut with offset `β`: beyond `±τ` it is refused and
nothing changes; strictly inside it succeeds and `κ` stays positive; and at `β = ±τ` exactly it is accepted and `κ` becomes
zero (the ellipsoid is then a single point). -/
theorem C92_bias_kappa (he : e.Valid n) (hd : e.noDeferTrick = false) (g : Arr ℝ) (β : ℝ) (hs : g.IsVecShape n)
    (hg : g.toVec n ≠ 0) : ∃ st e', Ell.space.update .bias e (g, (⟨β⟩ : SingleCut ℝ)) = .ok (st, e') ∧
      (e.tsqOf n (g.toVec n) < β ^ 2 → st = .noSoln ∧ e'.kappa = e.kappa) ∧
      (β ^ 2 < e.tsqOf n (g.toVec n) → st = .success ∧ 0 < e'.kappa) ∧
      (β ^ 2 = e.tsqOf n (g.toVec n) → st = .success ∧ e'.kappa = 0) := by
  have hn : (1 : ℝ) < n := by exact_mod_cast (by have := he.dim; omega : 1 < n)
  have ht := he.tsq_pos hg
  obtain ⟨st, e', h⟩ : ∃ st e', Ell.space.update .bias e (g, (⟨β⟩ : SingleCut ℝ)) = .ok (st, e') :=
    let ⟨e', h⟩ := Ell.update_exists he.shaped he.symm he.pos .bias (g, (⟨β⟩ : SingleCut ℝ)) hs
    ⟨_, e', h⟩
  obtain ⟨ρ, σ, δ, hc, h2⟩ := Ell.update_real he.shaped he.symm he.pos .bias _ hs h
  refine ⟨st, e', h, ?_⟩
  rw [he.helper] at hc
  change (EllCalc.new n).calcBiasCut β (e.tsqOf n (g.toVec n)) = _ at hc
  rw [calcBias_real, calcBiasCutFast_real] at hc
  have hτ := Real.sqrt_pos.2 ht
  have hsq := Real.mul_self_sqrt ht.le
  generalize e.tsqOf n (g.toVec n) = tsq at *
  by_cases hb : tsq < β * β
  · rw [if_pos hb] at hc
    simp only [Prod.mk.injEq] at hc
    obtain ⟨rfl, -⟩ := hc
    rcases h2 with ⟨-, rfl⟩ | ⟨h2, -⟩
    · exact ⟨fun _ => ⟨rfl, rfl⟩, fun h => absurd h (by nlinarith), fun h => absurd h (by nlinarith)⟩
    · simp at h2
  · rw [if_neg hb] at hc
    simp only [Prod.mk.injEq] at hc
    obtain ⟨rfl, -, -, rfl⟩ := hc
    rcases h2 with ⟨h2, -⟩ | ⟨-, ha⟩
    · simp at h2
    have hκ := ha.kappa
    rw [hd] at hκ
    have e1 : (n : ℝ) * n / (n * n - 1) * (1 - β / √tsq * (β / √tsq)) = n * n / (n * n - 1) * ((tsq - β * β) / tsq) := by
      congr 1
      rw [div_mul_div_comm, hsq]
      field_simp
    have h1 : (0 : ℝ) < n * n - 1 := by nlinarith
    have h3 : (0 : ℝ) < n := by linarith
    have hp : (0 : ℝ) < n * n / (n * n - 1) := by positivity
    refine ⟨fun h => absurd h (by nlinarith), fun h => ⟨rfl, ?_⟩, fun h => ⟨rfl, ?_⟩⟩
    · rw [hκ, e1]
      have : 0 < tsq - β * β := by nlinarith
      have := he.kappa
      simp only [Bool.false_eq_true, if_false]
      positivity
    · rw [hκ, e1]
      have : tsq - β * β = 0 := by nlinarith
      simp [this]

/-- **C92** (`multiple_cuts_keep_kappa_positive`)  Any number of central cuts, with arbitrary non-zero gradients and offsets,
on a ball of positive squared radius in dimension at least two: every cut with a single plane succeeds and `κ` is positive
after each. -/
theorem C92_many_central_cuts (hn : 2 ≤ n) {κ : ℝ} (hκ : 0 < κ) {xc : Arr ℝ} (hx : xc.IsVecShape n)
    (h0 : Ell.newWithScalar κ xc = .ok e) (cuts : List (Arr ℝ × SingleCut ℝ))
    (hc : ∀ c ∈ cuts, c.1.IsVecShape n ∧ c.1.toVec n ≠ 0) :
    ∃ e', cuts.foldlM (fun e c => (Ell.space.update .central e c).bind fun r =>
        if r.1 = .success then .ok r.2 else .panic) e = .ok e' ∧ e'.Valid n ∧ 0 < e'.kappa := by
  obtain ⟨e1, h1, h2, -⟩ := C13_valid_with_scalar κ xc hn hx hκ
  rw [h0] at h1
  obtain rfl := Res.ok.inj h1
  clear h0 h1
  induction cuts generalizing e with
  | nil => exact ⟨e, rfl, h2, h2.kappa⟩
  | cons c cs ih =>
    obtain ⟨hs, hg⟩ := hc c (by simp)
    obtain ⟨e1, h1⟩ := Ell.update_exists h2.shaped h2.symm h2.pos .central c hs
    have hst : (CutType.call .central c.2 e.helper (e.tsqOf n (c.1.toVec n))).1 = .success := rfl
    rw [hst] at h1
    have hv := (C13_posDef_step .central e e1 c h2 hs hg (Or.inl ((Cut.adm_single n .central c.2.beta _).2 trivial)) h1).2.2
    obtain ⟨e2, h3, h4⟩ := ih (fun c' hc' => hc c' (by simp [hc'])) hv
    refine ⟨e2, ?_, h4⟩
    rw [List.foldlM_cons, h1]
    exact h3

end

/-! ## Non-vacuity -/

/-- the very arguments of the quickcheck tests -/
example : 0 < ((EllCalcCore.new (4 : ℝ)).calcParallelBiasCut 0.3 0.6 1).2.2 :=
  (C92_parallel_positive (by norm_num) (by norm_num) (by norm_num) (by norm_num)).2.2

example : 0 < ((EllCalcCore.new (4 : ℝ)).calcBiasCut 0.5 1).2.2 :=
  ((C92_bias_positive (by norm_num) one_pos (by norm_num)).2 ⟨by norm_num, by norm_num⟩).2.2

/-- five cuts with gradient `(0.1, 0.1, 0.1, 0.1)` on the unit ball -/
example {e : Ell ℝ} (h : Ell.newWithScalar 1 (Arr.new 4) = .ok e) :
    ∃ e', (List.replicate 5 (Arr.ofList [0.1, 0.1, 0.1, 0.1], (⟨0⟩ : SingleCut ℝ))).foldlM (fun e c =>
      (Ell.space.update .central e c).bind fun r => if r.1 = .success then .ok r.2 else .panic) e = .ok e' ∧ e'.Valid 4 ∧
      0 < e'.kappa := by
  refine C92_many_central_cuts (by norm_num) one_pos (isVec_new 4).shape h _ fun c hc => ?_
  obtain rfl := (List.mem_replicate.1 hc).2
  refine ⟨⟨rfl, rfl, rfl⟩, fun h => ?_⟩
  have := congrFun h 0
  norm_num [Arr.toVec, Arr.vec, Arr.ofList] at this

end Ellalgo
