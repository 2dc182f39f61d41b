import Verif.Props.Lowpass64New
import Verif.Props.Oracles64Examples

/-! Cases that meet the hypotheses of C130. -/

namespace Ellalgo.ExLowpass64
open Ellalgo Matrix ExOr64

theorem lp_ok : lpd.Ok := ⟨le_rfl, by show (1 : Nat) ≤ 2; norm_num, le_refl 2⟩

theorem one_is : (1 : B64).Equals 1 := ⟨Same.one.1, Same.one.2⟩
theorem two_is : (nat 2 : B64).Equals 2 := ⟨two_same.1, by rw [two_same.2, val_two]⟩
theorem neg_two_is : (-nat 2 : B64).Equals (-2) := by
  have := B64.neg_val two_is.1
  rwa [two_is.2] at this

theorem lp64_for : (lp : LowpassOracle B64).For64 lpd 2 0 where
  dim := by norm_num
  len := rfl
  shape := by
    intro col hc
    simp only [lp, List.mem_cons, List.mem_nil_iff, or_false] at hc
    rcases hc with rfl | rfl
    · refine ⟨⟨rfl, rfl, rfl⟩, ?_⟩
      intro y hy
      simp only [List.mem_cons, List.mem_nil_iff, or_false] at hy
      rcases hy with rfl | rfl
      · exact one_is.1
      · exact two_is.1
    · refine ⟨⟨rfl, rfl, rfl⟩, ?_⟩
      intro y hy
      simp only [List.mem_cons, List.mem_nil_iff, or_false] at hy
      rcases hy with rfl | rfl
      · exact one_is.1
      · exact neg_two_is.1
  close := by
    intro i h j
    have h2 : i < 2 := h
    interval_cases i <;> fin_cases j
    · show |(1 : B64).val - 1| ≤ 0; rw [one_is.2]; norm_num
    · show |(nat 2 : B64).val - (2 * Real.cos (lpd.freq 0 * ((1 : Nat) : ℝ)))| ≤ 0
      rw [two_is.2, LpData.freq]; simp
    · show |(1 : B64).val - 1| ≤ 0; rw [one_is.2]; norm_num
    · show |(-nat 2 : B64).val - (2 * Real.cos (lpd.freq 1 * ((1 : Nat) : ℝ)))| ≤ 0
      rw [neg_two_is.2, LpData.freq]
      simp [lpd]
  pass := rfl
  stop := rfl
  lp := ⟨Same.zero.1, Same.zero.2⟩
  up := one_is
  idx1 := ⟨le_rfl, fun _ => by show (-1 : Int) < 1; norm_num⟩
  idx2 := ⟨le_rfl, fun h => absurd h (by show ¬ (1 : Nat) < 1; norm_num)⟩
  idx3 := ⟨le_rfl, fun _ => by show (0 : Int) < 2; norm_num⟩

/-- the filter `(1, 0)`, with response 1 everywhere -/
noncomputable def flt : Arr B64 := ⟨[1, 0], 2, 0⟩

theorem flt_fin : flt.AllFinite := by
  intro y hy
  simp only [flt, List.mem_cons, List.mem_nil_iff, or_false] at hy
  rcases hy with rfl | rfl
  · exact one_is.1
  · exact Same.zero.1

theorem flt_val : flt.vec64 2 = ![1, 0] := by
  funext i
  fin_cases i
  · exact one_is.2
  · rfl

theorem flt_tame : (lp : LowpassOracle B64).TameAt 2 (flt.vec64 2) := by
  rw [flt_val]
  have h1 : (1 : ℝ) ≤ (2 : ℝ) ^ (900 : ℤ) := one_le_zpow₀ (by norm_num) (by norm_num)
  have h2 : (2 : ℝ) ^ (-1022 : ℤ) ≤ 1 := zpow_le_one_of_nonpos₀ (by norm_num) (by norm_num)
  have key : ∀ (c : Arr B64), c.vec 0 = 1 → ∀ j : Fin 2, NoUnder (c.vec64 2 j * (![1, 0] : Fin 2 → ℝ) j) ∧
      |c.vec64 2 j * (![1, 0] : Fin 2 → ℝ) j| ≤ (2 : ℝ) ^ (900 : ℤ) := by
    intro c hc j
    have e0 : c.vec64 2 0 = 1 := by
      show (c.vec 0).val = 1
      rw [hc]; exact one_is.2
    fin_cases j
    · show NoUnder (c.vec64 2 0 * 1) ∧ |c.vec64 2 0 * 1| ≤ _
      rw [e0, mul_one, abs_one]
      exact ⟨.inr (by rw [abs_one]; exact h2), h1⟩
    · show NoUnder (c.vec64 2 1 * 0) ∧ |c.vec64 2 1 * 0| ≤ _
      rw [mul_zero, abs_zero]
      exact ⟨.inl rfl, zero_le_one.trans h1⟩
  intro col hc
  simp only [lp, List.mem_cons, List.mem_nil_iff, or_false] at hc
  rcases hc with rfl | rfl
  · exact key _ rfl
  · exact key _ rfl

/-- C130: the response of this filter in the stopband, which is 1 -/
example : ((lp : LowpassOracle B64).respOf 2 flt 1).Finite ∧ |((lp : LowpassOracle B64).respOf 2 flt 1).val - lpResponse ![1, 0] (lpd.freq 1)| ≤
    lpErr ((2 : ℝ) ^ (-53 : ℤ)) 0 2 0 ![1, 0] ![1, 0] := by
  have := C130_lowpass_response lp64_for ⟨rfl, rfl, rfl⟩ flt_fin flt_tame (k := 1) (by show (1 : Nat) < 2; norm_num)
  rwa [flt_val] at this

/-- C130: a query of the feasibility oracle at a point with an infinity -/
example : ∃ r o', (lp : LowpassOracle B64).assessFeas ⟨[.inf false, 1], 2, 0⟩ = .ok (r, o') ∧
    (r = none ↔ (lp : LowpassOracle B64).Passes 2 1 ⟨[.inf false, 1], 2, 0⟩) := by
  obtain ⟨r, o', h1, -, -, -, h2, -⟩ := C130_lowpass_feas (n := 2) (by norm_num) (lp64_for.fits lp_ok) (x := ⟨[.inf false, 1], 2, 0⟩) ⟨rfl, rfl, rfl⟩
  exact ⟨r, o', h1, h2⟩

/-- C130: an optimisation query at a filter of NaNs panics -/
example (γ : B64) : LowpassOracle.oracle.assess (lp : LowpassOracle B64) ⟨[.nan, .nan], 2, 0⟩ γ = .panic := by
  have hr : ∀ k < 2, (lp : LowpassOracle B64).respOf 2 ⟨[.nan, .nan], 2, 0⟩ k = .nan := by
    have key : ∀ a b c : B64, (0 + a * .nan) + b * c = .nan := by
      intro a b c
      have h1 : a * .nan = .nan := by cases a <;> rfl
      rw [h1]
      rfl
    intro k hk
    interval_cases k
    · exact key 1 (nat 2) .nan
    · exact key 1 (-nat 2) .nan
  have hnan : ∀ a : B64, Scalar.lt a .nan = false ∧ Scalar.lt .nan a = false := by
    intro a
    constructor
    · by_contra h; exact ((B64.lt_iff _ _).1 (by simpa using h)).2.1 rfl
    · by_contra h; exact ((B64.lt_iff _ _).1 (by simpa using h)).1 rfl
  refine (C130_lowpass_query (n := 2) (by norm_num) (lp64_for.fits lp_ok) ⟨rfl, rfl, rfl⟩ γ).1.2 ⟨⟨?_, ?_, ?_, ?_⟩, ?_⟩
  · intro k hk
    rw [hr k (by have : (k : Int) < 1 := hk; omega)]
    exact ⟨(hnan _).1, (hnan _).2⟩
  · intro k _ hk
    rw [hr k hk]
    exact ⟨(hnan _).1, (hnan _).2⟩
  · intro k h1 h2
    have h1 : (1 : Int) ≤ k := h1
    have h2 : (k : Int) < 1 := h2
    omega
  · exact (hnan _).2
  · exact fun k _ hk => hr k hk

/-- C130: runs from any ellipsoid of dimension 2, of both kinds -/
example (e : Ell B64) (he : e.Shaped 2) (opts : Options B64) :
    ∃ r k o' s', cuttingPlaneFeas LowpassOracle.oracleFeas Ell.space lp e opts = .ok ((r, k), o', s') ∧
      ∀ x, r = some x → (lp : LowpassOracle B64).Passes 2 1 x := by
  obtain ⟨r, k, o', s', h1, h2⟩ := C130_lowpass_feas_run lp_ok (C86_ell_steady (by norm_num)).1 lp64_for he opts
  exact ⟨r, k, o', s', h1, fun x hx => (h2 x hx).2.1⟩
example (e : EllStable B64) (he : e.Shaped 2) (γ : B64) (opts : Options B64) :
    cuttingPlaneOptim LowpassOracle.oracle EllStable.space lp e γ opts = .panic ∨
      ∃ r k γ' o' s', cuttingPlaneOptim LowpassOracle.oracle EllStable.space lp e γ opts = .ok ((r, k), γ', o', s') ∧
      ∀ x, r = some x → (lp : LowpassOracle B64).Passes 2 γ' x := by
  rcases C130_lowpass_optim_run lp_ok (C86_ell_steady (by norm_num)).2 lp64_for he γ opts with h | ⟨r, k, γ', o', s', h1, -, -, h2⟩
  · exact .inl h.1
  · exact .inr ⟨r, k, γ', o', s', h1, fun x hx => (h2 x hx).2.1⟩

/-- C130: an oracle for two taps with band edges 1/8 and 1/4, and a run with it from any ellipsoid of dimension 2 -/
example (e : Ell B64) (he : e.Shaped 2) (opts : Options B64) :
    ∃ (o : LowpassOracle B64) (d : LpData), LowpassOracle.new 2 (B64.ofReal false ((2 : ℝ) ^ (-3 : ℤ))) (B64.ofReal false ((2 : ℝ) ^ (-2 : ℤ))) 0 1 1 = .ok o ∧
      d.m = 30 ∧ 3 < d.pass ∧ d.pass ≤ 5 ∧ ∃ r k o' s', cuttingPlaneFeas LowpassOracle.oracleFeas Ell.space o e opts = .ok ((r, k), o', s') ∧
      ∀ x, r = some x → o.Passes 2 o.spSq x := by
  have w : ∀ k : ℤ, -1074 ≤ k → k < 1024 → (B64.ofReal false ((2 : ℝ) ^ k)).Finite ∧ (B64.ofReal false ((2 : ℝ) ^ k)).val = (2 : ℝ) ^ k := by
    intro k h1 h2
    have hr := rnd64_pow h1
    have := B64.ofReal_val (s := false) (x := (2 : ℝ) ^ k) (by
      rw [hr]; exact B64.pow_lt_max h2 (by rw [abs_of_pos (by positivity)]))
    rwa [hr] at this
  obtain ⟨p1, p2⟩ := w (-3) (by norm_num) (by norm_num)
  obtain ⟨q1, q2⟩ := w (-2) (by norm_num) (by norm_num)
  obtain ⟨o, d, h1, h2, h3, -, h4, -, -, h5, h6, -⟩ := C130_lowpass_new (n := 2) (by norm_num) (by norm_num) _ _ 0 1 1 p1 q1 Same.zero.1 one_is.1
    (by rw [p2]; positivity) (by rw [p2, q2]; exact zpow_le_zpow_right₀ (by norm_num) (by norm_num)) (by rw [q2]; norm_num)
  rw [p2] at h5 h6
  refine ⟨o, d, h1, h4, h5 3 (by norm_num), ?_, ?_⟩
  · by_contra hc
    have := h6 5 (by omega)
    norm_num at this
  · obtain ⟨r, k, o', s', h1, h2⟩ := C130_lowpass_feas_run h3 (C86_ell_steady (by norm_num)).1 h2 he opts
    exact ⟨r, k, o', s', h1, fun x hx => (h2 x hx).2.1⟩

end Ellalgo.ExLowpass64
