import Verif.Model.Ell1D
import Mathlib.Order.Interval.Set.Basic
import Mathlib.Tactic.Linarith
import Mathlib.Tactic.Ring
import Mathlib.Tactic.FieldSimp
import Mathlib.Tactic.Positivity

/-! C101: the one-dimensional search space of `ell1d.rs` is an interval, and cuts are exact. -/

namespace Ellalgo

/-- the points an `Ell1D` stands for -/
def Ell1D.region (e : Ell1D ℝ) : Set ℝ := Set.Icc (e.xc - e.r) (e.xc + e.r)

/-- the points a cut at `c` keeps -/
def cutHalf (c g β : ℝ) : Set ℝ := {x | g * (x - c) + β ≤ 0}

/-- **C101** (construction)  `Ell1D::new(l, u)` stands for the interval from `l` to `u`, its centre is the midpoint. -/
theorem C101_new {l u : ℝ} (h : l ≤ u) :
    (Ell1D.new l u).region = Set.Icc l u ∧ (Ell1D.new l u).xc = (l + u) / 2 ∧ 0 ≤ (Ell1D.new l u).r := by
  simp only [Ell1D.region, Ell1D.new, Nat.cast_ofNat]
  refine ⟨?_, by ring, by linarith⟩
  congr 1 <;> ring

/-- **C101** (one cut)  For a gradient that is not zero an update reports `tsq = (r g)²`; `Success` replaces the interval by exactly the part the
cut keeps, which is not empty; `NoSoln` leaves it alone and no point of it satisfies the cut; `NoEffect` leaves it alone and every
point of it satisfies the cut.  There is no other status. -/
theorem C101_update_exact (e : Ell1D ℝ) (hr : 0 ≤ e.r) (g β : ℝ) (hg : g ≠ 0) :
    ∃ st e', e.updateSingle g β = ((st, (e.r * g) ^ 2), e') ∧
      (st = .success ∧ e'.region = e.region ∩ cutHalf e.xc g β ∧ 0 ≤ e'.r ∨
       st = .noSoln ∧ e' = e ∧ e.region ∩ cutHalf e.xc g β = ∅ ∨
       st = .noEffect ∧ e' = e ∧ e.region ⊆ cutHalf e.xc g β) := by
  obtain ⟨r, c⟩ := e
  replace hr : 0 ≤ r := hr
  -- the half-line, by the sign of the gradient
  have hpos : 0 < g → cutHalf c g β = Set.Iic (c - β / g) := by
    intro h
    ext x
    have e : g * (x - c) + β = g * (x - (c - β / g)) := by field_simp; ring
    show g * (x - c) + β ≤ 0 ↔ x ≤ c - β / g
    rw [e, ← sub_nonpos (a := x)]
    exact ⟨fun hx => nonpos_of_mul_nonpos_right hx h, fun hx => mul_nonpos_of_nonneg_of_nonpos h.le hx⟩
  have hneg : g < 0 → cutHalf c g β = Set.Ici (c - β / g) := by
    intro h
    ext x
    have e : g * (x - c) + β = g * (x - (c - β / g)) := by field_simp; ring
    show g * (x - c) + β ≤ 0 ↔ c - β / g ≤ x
    rw [e, ← sub_nonneg (a := x)]
    exact ⟨fun hx => nonneg_of_mul_nonpos_right hx h, fun hx => mul_nonpos_of_nonpos_of_nonneg h.le hx⟩
  set τ := |g| * r with hτ
  have hτ0 : 0 ≤ τ := by positivity
  have hval : ∀ x ∈ (⟨r, c⟩ : Ell1D ℝ).region, |g * (x - c)| ≤ τ := by
    intro x hx
    rw [abs_mul]
    refine mul_le_mul_of_nonneg_left (abs_le.2 ⟨?_, ?_⟩) (abs_nonneg _)
    · linarith [hx.1]
    · linarith [hx.2]
  have etau : (if g < 0 then -(r * g) else r * g) = τ := by
    rcases lt_or_gt_of_ne hg with h | h
    · simp [h, hτ, abs_of_neg h]; ring
    · simp [not_lt.2 h.le, hτ, abs_of_pos h]; ring
  have etsq : τ * τ = (r * g) ^ 2 := by rw [hτ, show |g| * r * (|g| * r) = (|g| * |g|) * r ^ 2 by ring, abs_mul_abs_self]; ring
  simp only [Ell1D.updateSingle, Scalar.gt, Scalar.real_lt, Scalar.real_beq, decide_eq_true_eq, Nat.cast_ofNat, etau, etsq]
  by_cases hb : β = 0
  · rw [if_pos hb]
    refine ⟨_, _, rfl, Or.inl ⟨rfl, ?_, div_nonneg hr zero_le_two⟩⟩
    subst hb
    rcases lt_or_gt_of_ne hg with h | h
    · rw [hneg h]
      ext x
      simp only [Ell1D.region, if_neg (not_lt.2 h.le), Set.mem_Icc, Set.mem_inter_iff, Set.mem_Ici, zero_div, sub_zero]
      constructor
      · rintro ⟨h1, h2⟩; exact ⟨⟨by linarith, by linarith⟩, by linarith⟩
      · rintro ⟨⟨h1, h2⟩, h3⟩; exact ⟨by linarith, by linarith⟩
    · rw [hpos h]
      ext x
      simp only [Ell1D.region, if_pos h, Set.mem_Icc, Set.mem_inter_iff, Set.mem_Iic, zero_div, sub_zero]
      constructor
      · rintro ⟨h1, h2⟩; exact ⟨⟨by linarith, by linarith⟩, by linarith⟩
      · rintro ⟨⟨h1, h2⟩, h3⟩; exact ⟨by linarith, by linarith⟩
  rw [if_neg hb]
  by_cases h1 : τ < β
  · rw [if_pos h1]
    refine ⟨_, _, rfl, Or.inr (Or.inl ⟨rfl, rfl, ?_⟩)⟩
    refine Set.eq_empty_of_forall_notMem fun x hx => ?_
    have h2 := (abs_le.1 (hval x hx.1)).1
    have h3 : g * (x - c) + β ≤ 0 := hx.2
    linarith
  rw [if_neg h1]
  by_cases h2 : β < -τ
  · rw [if_pos h2]
    refine ⟨_, _, rfl, Or.inr (Or.inr ⟨rfl, rfl, fun x hx => ?_⟩)⟩
    have h3 := (abs_le.1 (hval x hx)).2
    show g * (x - c) + β ≤ 0
    linarith
  rw [if_neg h2]
  have hq : |β / g| ≤ r := by
    rw [abs_div, div_le_iff₀ (abs_pos.2 hg), mul_comm]
    exact abs_le.2 ⟨not_lt.1 h2, not_lt.1 h1⟩
  obtain ⟨hq1, hq2⟩ := abs_le.1 hq
  refine ⟨_, _, rfl, Or.inl ⟨rfl, ?_, ?_⟩⟩
  · rcases lt_or_gt_of_ne hg with h | h
    · rw [hneg h]
      ext x
      simp only [Ell1D.region, if_neg (not_lt.2 h.le), Set.mem_Icc, Set.mem_inter_iff, Set.mem_Ici]
      constructor
      · rintro ⟨h1, h2⟩; exact ⟨⟨by linarith, by linarith⟩, by linarith⟩
      · rintro ⟨⟨h1, h2⟩, h3⟩; exact ⟨by linarith, by linarith⟩
    · rw [hpos h]
      ext x
      simp only [Ell1D.region, if_pos h, Set.mem_Icc, Set.mem_inter_iff, Set.mem_Iic]
      constructor
      · rintro ⟨h1, h2⟩; exact ⟨⟨by linarith, by linarith⟩, by linarith⟩
      · rintro ⟨⟨h1, h2⟩, h3⟩; exact ⟨by linarith, by linarith⟩
  · rcases lt_or_gt_of_ne hg with h | h
    · simp only [if_neg (not_lt.2 h.le)]; linarith
    · simp only [if_pos h]; linarith

/-- **C101** (length)  A cut through the centre or beyond it (`β ≥ 0`) leaves at most half of the interval. -/
theorem C101_update_halves (e : Ell1D ℝ) (g β : ℝ) (hg : g ≠ 0) (hβ : 0 ≤ β) (ts : ℝ) (e' : Ell1D ℝ)
    (h : e.updateSingle g β = ((.success, ts), e')) : e'.r ≤ e.r / 2 := by
  simp only [Ell1D.updateSingle, Scalar.gt, Scalar.real_lt, Scalar.real_beq, decide_eq_true_eq, Nat.cast_ofNat] at h
  by_cases hb : β = 0
  · rw [if_pos hb] at h
    obtain ⟨-, rfl⟩ := Prod.mk.inj h
    exact le_rfl
  rw [if_neg hb] at h
  split_ifs at h with h1 h2 h3 h4 h5 <;> simp only [Prod.mk.injEq, reduceCtorEq, false_and, true_and] at h <;>
    obtain ⟨-, rfl⟩ := h
  · have : β / g ≤ 0 := div_nonpos_of_nonneg_of_nonpos hβ h1.le
    linarith [lt_asymm h1 h4]
  · have : β / g ≤ 0 := div_nonpos_of_nonneg_of_nonpos hβ h1.le
    simp only; linarith
  · have : 0 ≤ β / g := div_nonneg hβ (by assumption : 0 < g).le
    simp only; linarith
  · exact absurd (lt_of_le_of_ne (not_lt.1 (by assumption)) (Ne.symm hg)) (by assumption)

/-- **C101** (zero gradient)  A gradient of zero with `β = 0` excludes no point, and yet the left half of the interval is dropped, with status
`Success`. -/
theorem C101_zero_gradient (e : Ell1D ℝ) :
    cutHalf e.xc 0 0 = Set.univ ∧ ∃ ts e', e.updateSingle 0 0 = ((.success, ts), e') ∧ e'.region = Set.Icc e.xc (e.xc + e.r) := by
  have hb : Scalar.beq (0 : ℝ) 0 = true := decide_eq_true rfl
  refine ⟨by ext x; simp [cutHalf], _, _, by simp only [Ell1D.updateSingle, hb, if_true]; rfl, ?_⟩
  simp only [Ell1D.region, Scalar.gt, Scalar.real_lt, lt_self_iff_false, decide_false, Bool.false_eq_true, if_false, Nat.cast_ofNat]
  congr 1 <;> ring

/-- a feasibility oracle on the line for the set `K`: no panic; a cut has a gradient of size at least `G > 0`, excludes
the centre or passes through it (`β ≥ 0`), and keeps `K` -/
structure LineFeas {Ω : Type} (orc : OracleFeas Ω ℝ ℝ ℝ) (I : Ω → Prop) (K : Set ℝ) (G : ℝ) : Prop where
  total : ∀ w x, I w → ∃ c w', orc.assess w x = .ok (c, w') ∧ I w'
  cut : ∀ w x g β w', I w → orc.assess w x = .ok (some (g, β), w') → G ≤ |g| ∧ 0 ≤ β ∧ K ⊆ cutHalf x g β

/-- the same for optimisation: `S γ` are the points better than `γ` -/
structure LineOptim {Ω : Type} (orc : OracleOptim Ω ℝ ℝ ℝ) (I : Ω → Prop) (S : ℝ → Set ℝ) (G : ℝ) : Prop where
  anti : ∀ γ γ', γ ≤ γ' → S γ' ⊆ S γ
  total : ∀ w x γ, I w → ∃ g β b γ' w', orc.assess w x γ = .ok (((g, β), b), γ', w') ∧ I w' ∧ γ ≤ γ' ∧ G ≤ |g| ∧ 0 ≤ β ∧
    S γ' ⊆ cutHalf x g β

/-- one successful cut that keeps an interval of radius `ρ` -/
theorem Ell1D.step {e : Ell1D ℝ} {p ρ G g β : ℝ} (hρ : 0 < ρ) (hG : 0 < G) (hg : G ≤ |g|) (hβ : 0 ≤ β)
    (hK : Set.Icc (p - ρ) (p + ρ) ⊆ e.region ∩ cutHalf e.xc g β) :
    ∃ st e', e.updateSingle g β = ((st, (e.r * g) ^ 2), e') ∧ ρ ≤ e.r ∧ ρ ^ 2 * G ^ 2 ≤ (e.r * g) ^ 2 ∧
      (st = .success ∧ Set.Icc (p - ρ) (p + ρ) ⊆ e'.region ∧ e'.r ≤ e.r / 2 ∨ st = .noEffect ∧ e' = e) := by
  have hp : p ∈ Set.Icc (p - ρ) (p + ρ) := ⟨by linarith, by linarith⟩
  have h1 := (hK ⟨by linarith, by linarith⟩ : p - ρ ∈ _).1.1
  have h2 := (hK ⟨by linarith, by linarith⟩ : p + ρ ∈ _).1.2
  have hr : ρ ≤ e.r := by linarith
  have hg0 : g ≠ 0 := by
    rintro rfl
    rw [abs_zero] at hg
    linarith
  obtain ⟨st, e', h3, h4⟩ := C101_update_exact e (hρ.le.trans hr) g β hg0
  refine ⟨st, e', h3, hr, ?_, ?_⟩
  · rw [mul_pow, ← sq_abs g]
    exact mul_le_mul (pow_le_pow_left₀ hρ.le hr 2) (pow_le_pow_left₀ hG.le hg 2) (by positivity) (by positivity)
  · rcases h4 with ⟨rfl, h5, -⟩ | ⟨-, -, h5⟩ | ⟨rfl, h5, -⟩
    · exact Or.inl ⟨rfl, by rw [h5]; exact hK, C101_update_halves e g β hg0 hβ _ _ h3⟩
    · exact absurd (hK hp) (by rw [h5]; exact id)
    · exact Or.inr ⟨rfl, h5⟩

/-- with `β ≥ 0` and a long enough interval there is no `NoEffect` -/
theorem Ell1D.noEffect_ne {e : Ell1D ℝ} {g β ts : ℝ} (hr : 0 < e.r) (hβ : 0 ≤ β) {e' : Ell1D ℝ}
    (h : e.updateSingle g β = ((.noEffect, ts), e')) : False := by
  simp only [Ell1D.updateSingle, Scalar.gt, Scalar.real_lt, Scalar.real_beq, decide_eq_true_eq, Nat.cast_ofNat] at h
  split_ifs at h with h1 h2 h3 h4 h5 <;> simp only [Prod.mk.injEq, reduceCtorEq, false_and, true_and] at h
  all_goals first
    | (have := mul_nonpos_of_nonneg_of_nonpos hr.le (by assumption : g < 0).le; linarith)
    | (have := mul_nonneg hr.le (not_lt.1 (by assumption : ¬ g < 0)); linarith)

section
variable {Ω : Type} {I : Ω → Prop} {G ρ p : ℝ}

theorem line_feas_loop {orc : OracleFeas Ω ℝ ℝ ℝ} {K : Set ℝ} (h : LineFeas orc I K G) (hG : 0 < G) (hρ : 0 < ρ)
    (hK : Set.Icc (p - ρ) (p + ρ) ⊆ K) {tol : ℝ} (ht : tol ≤ ρ ^ 2 * G ^ 2) (m : Nat) :
    ∀ (n0 : Nat) (w : Ω) (s : Ell1D ℝ × ℝ), I w → Set.Icc (p - ρ) (p + ρ) ⊆ s.1.region →
      ∃ x k w' s', feasLoop orc Ell1D.space tol m n0 w s = .ok ((x, k), w', s') ∧
        ((∃ y w1 j, x = some y ∧ I w1 ∧ orc.assess w1 y = .ok (none, w') ∧ k = n0 + j ∧ j < m ∧ ρ * 2 ^ j ≤ s.1.r) ∨
          (x = none ∧ k = n0 + m ∧ ρ * 2 ^ m ≤ s.1.r)) := by
  induction m with
  | zero =>
    intro n0 w s _ hs
    have h1 := (hs ⟨by linarith, by linarith⟩ : p - ρ ∈ _).1
    have h2 := (hs ⟨by linarith, by linarith⟩ : p + ρ ∈ _).2
    exact ⟨none, n0, w, s, rfl, Or.inr ⟨rfl, rfl, by rw [pow_zero, mul_one]; linarith⟩⟩
  | succ m ih =>
    intro n0 w s hw hs
    obtain ⟨c, w', h1, h2⟩ := h.total w s.1.xc hw
    have h1' : orc.assess w (Ell1D.space.xc s) = .ok (c, w') := h1
    cases c with
    | none =>
      have h3 := (hs ⟨by linarith, by linarith⟩ : p - ρ ∈ _).1
      have h4 := (hs ⟨by linarith, by linarith⟩ : p + ρ ∈ _).2
      refine ⟨some s.1.xc, n0, w', s, by simp only [feasLoop, h1', Res.ok_bind]; rfl,
        Or.inl ⟨_, w, 0, rfl, hw, h1, rfl, Nat.succ_pos _, by rw [pow_zero, mul_one]; linarith⟩⟩
    | some c =>
      obtain ⟨g, β⟩ := c
      obtain ⟨hg, hβ, hc⟩ := h.cut w _ g β w' hw h1
      obtain ⟨st, e', h3, h4, h5, h6⟩ := Ell1D.step hρ hG hg hβ (fun x hx => ⟨hs hx, hc (hK hx)⟩)
      rcases h6 with ⟨rfl, h7, h8⟩ | ⟨rfl, -⟩
      · obtain ⟨x, k, w2, s2, h9, h10⟩ := ih (n0 + 1) w' (e', (s.1.r * g) ^ 2) h2 h7
        have hu : Ell1D.space.updateBias s (g, β) = .ok (.success, e', (s.1.r * g) ^ 2) := by
          show Res.ok _ = _
          rw [h3]
        have hlt : Scalar.lt (Ell1D.space.tsq (T := ℝ) (e', (s.1.r * g) ^ 2)) tol = false :=
          decide_eq_false (not_lt.2 (ht.trans h5))
        refine ⟨x, k, w2, s2, by simp only [feasLoop, h1', Res.ok_bind, hu, hlt]; exact h9, ?_⟩
        rcases h10 with ⟨y, w1, j, a1, a2, a3, a4, a5, a6⟩ | ⟨a1, a2, a3⟩
        · refine Or.inl ⟨y, w1, j + 1, a1, a2, a3, by omega, by omega, ?_⟩
          rw [pow_succ]; linarith
        · refine Or.inr ⟨a1, by omega, ?_⟩
          rw [pow_succ]; linarith
      · exact (Ell1D.noEffect_ne (lt_of_lt_of_le hρ h4) hβ h3).elim

/-- **C101** (feasibility)  If the feasible set contains an interval of radius `ρ` inside `[l, u]`, `tolerance ≤ (ρ G)²` and
`u - l < 2 ρ 2^max_iters`, then `cutting_plane_feas` on `Ell1D::new(l, u)` returns a point the oracle accepts, after at most
`log₂ ((u - l) / 2ρ)` cuts. -/
theorem C101_feas_finds {orc : OracleFeas Ω ℝ ℝ ℝ} {K : Set ℝ} (h : LineFeas orc I K G) (hG : 0 < G) (hρ : 0 < ρ) {l u : ℝ}
    (hK : Set.Icc (p - ρ) (p + ρ) ⊆ K) (hE : Set.Icc (p - ρ) (p + ρ) ⊆ Set.Icc l u) (w : Ω) (hw : I w) (t0 : ℝ) (opts : Options ℝ)
    (ht : opts.tolerance ≤ (ρ * G) ^ 2) (hm : u - l < 2 * ρ * 2 ^ opts.maxIters) :
    ∃ x k w1 w' s', cuttingPlaneFeas orc Ell1D.space w (Ell1D.new l u, t0) opts = .ok ((some x, k), w', s') ∧
      orc.assess w1 x = .ok (none, w') ∧ k < opts.maxIters ∧ 2 * ρ * 2 ^ k ≤ u - l := by
  have h1 := (hE ⟨by linarith, by linarith⟩ : p - ρ ∈ _).1
  have h2 := (hE ⟨by linarith, by linarith⟩ : p + ρ ∈ _).2
  have hlu : l ≤ u := by linarith
  have hr : (Ell1D.new l u).r = (u - l) / 2 := by simp [Ell1D.new]
  obtain ⟨x, k, w', s', h3, h4⟩ := line_feas_loop h hG hρ hK (tol := opts.tolerance) (by rwa [mul_pow] at ht) opts.maxIters 0 w (Ell1D.new l u, t0) hw
    (by rw [(C101_new hlu).1]; exact hE)
  simp only [hr] at h4
  rcases h4 with ⟨y, w1, j, rfl, -, h5, h6, h7, h8⟩ | ⟨-, -, h5⟩
  · rw [Nat.zero_add] at h6
    subst h6
    exact ⟨y, k, w1, w', s', h3, h5, h7, by linarith⟩
  · linarith

/-- **C101** (infeasibility)  If `cutting_plane_feas` on `Ell1D::new(l, u)` answers `None` before `max_iters`, no interval of radius `ρ` with
`(ρ G)² ≥ tolerance` lies in the feasible set and in `[l, u]`. -/
theorem C101_feas_none {orc : OracleFeas Ω ℝ ℝ ℝ} {K : Set ℝ} (h : LineFeas orc I K G) (hG : 0 < G) {l u : ℝ}
    (w : Ω) (hw : I w) (t0 : ℝ) (opts : Options ℝ) {k : Nat} {w' : Ω} {s' : Ell1D ℝ × ℝ}
    (hrun : cuttingPlaneFeas orc Ell1D.space w (Ell1D.new l u, t0) opts = .ok ((none, k), w', s')) (hk : k < opts.maxIters)
    (p ρ : ℝ) (hρ : 0 < ρ) (hK : Set.Icc (p - ρ) (p + ρ) ⊆ K ∩ Set.Icc l u) : (ρ * G) ^ 2 < opts.tolerance := by
  by_contra hc
  have h1 := (hK ⟨by linarith, by linarith⟩ : p - ρ ∈ _).2.1
  have h2 := (hK ⟨by linarith, by linarith⟩ : p + ρ ∈ _).2.2
  have hlu : l ≤ u := by linarith
  have hc := not_lt.1 hc
  obtain ⟨x, k', w2, s2, h3, h4⟩ := line_feas_loop h hG hρ (fun x hx => (hK hx).1) (tol := opts.tolerance) (by rwa [mul_pow] at hc) opts.maxIters 0 w
    (Ell1D.new l u, t0) hw (by rw [(C101_new hlu).1]; exact fun x hx => (hK hx).2)
  rw [cuttingPlaneFeas, h3] at hrun
  simp only [Res.ok.injEq, Prod.mk.injEq] at hrun
  obtain ⟨⟨rfl, rfl⟩, -, -⟩ := hrun
  rcases h4 with ⟨y, w1, j, h5, -⟩ | ⟨-, h5, -⟩
  · cases h5
  · omega

theorem line_optim_loop {orc : OracleOptim Ω ℝ ℝ ℝ} {S : ℝ → Set ℝ} (h : LineOptim orc I S G) (hG : 0 < G) (hρ : 0 < ρ)
    {tol : ℝ} (ht : tol ≤ ρ ^ 2 * G ^ 2) (m : Nat) :
    ∀ (n0 : Nat) (xb : Option ℝ) (w : Ω) (s : Ell1D ℝ × ℝ) (γ : ℝ), I w → 0 ≤ s.1.r →
      ∃ xb' k γ' w' s', optimLoop orc Ell1D.space tol m n0 xb w s γ = .ok ((xb', k), γ', w', s') ∧ γ ≤ γ' ∧
        (Set.Icc (p - ρ) (p + ρ) ⊆ S γ' ∩ s.1.region → k = n0 + m ∧ ρ * 2 ^ m ≤ s.1.r) := by
  induction m with
  | zero =>
    intro n0 xb w s γ _ _
    refine ⟨xb, n0, γ, w, s, rfl, le_rfl, fun hs => ⟨rfl, ?_⟩⟩
    have h1 := (hs ⟨by linarith, by linarith⟩ : p - ρ ∈ _).2.1
    have h2 := (hs ⟨by linarith, by linarith⟩ : p + ρ ∈ _).2.2
    rw [pow_zero, mul_one]; linarith
  | succ m ih =>
    intro n0 xb w s γ hw hs0
    obtain ⟨g, β, b, γ1, w1, h1, h2, h3, hg, hβ, hc⟩ := h.total w s.1.xc γ hw
    have h1' : orc.assess w (Ell1D.space.xc (T := ℝ) s) γ = .ok (((g, β), b), γ1, w1) := h1
    have hg0 : g ≠ 0 := by
      rintro rfl
      rw [abs_zero] at hg
      linarith
    obtain ⟨st, e', h4, h5⟩ := C101_update_exact s.1 hs0 g β hg0
    have hu : (if b then Ell1D.space.updateCentral s (g, β) else Ell1D.space.updateBias s (g, β)) =
        .ok (st, e', (s.1.r * g) ^ 2) := by
      have : Ell1D.space.updateBias s (g, β) = .ok (st, e', (s.1.r * g) ^ 2) := by
        show Res.ok _ = _
        rw [h4]
      cases b
      · exact this
      · exact this
    -- an interval that is still better is kept, and forbids an early stop
    have key : ∀ γ', γ1 ≤ γ' → Set.Icc (p - ρ) (p + ρ) ⊆ S γ' ∩ s.1.region →
        st = .success ∧ Set.Icc (p - ρ) (p + ρ) ⊆ e'.region ∧ e'.r ≤ s.1.r / 2 ∧ ρ ^ 2 * G ^ 2 ≤ (s.1.r * g) ^ 2 := by
      intro γ' hγ hK
      obtain ⟨st', e2, a1, a2, a3, a4⟩ := Ell1D.step (e := s.1) hρ hG hg hβ
        (fun x hx => ⟨(hK hx).2, hc (h.anti _ _ hγ (hK hx).1)⟩)
      rw [h4] at a1
      simp only [Prod.mk.injEq, and_true] at a1
      obtain ⟨rfl, rfl⟩ := a1
      rcases a4 with ⟨a5, a6, a7⟩ | ⟨rfl, -⟩
      · exact ⟨a5, a6, a7, a3⟩
      · exact (Ell1D.noEffect_ne (lt_of_lt_of_le hρ a2) hβ h4).elim
    by_cases hstop : (st != .success || Scalar.lt ((s.1.r * g) ^ 2) tol) = true
    · refine ⟨if b then some s.1.xc else xb, n0, γ1, w1, (e', (s.1.r * g) ^ 2), ?_, h3, fun hK => ?_⟩
      · simp only [optimLoop, h1', Res.ok_bind, hu]
        exact if_pos hstop
      · obtain ⟨rfl, -, -, a⟩ := key γ1 le_rfl hK
        have : Scalar.lt ((s.1.r * g) ^ 2) tol = false := decide_eq_false (not_lt.2 (ht.trans a))
        rw [this] at hstop
        exact absurd hstop (by decide)
    · have hst : st = .success := by
        by_contra hc
        exact hstop (by simp [hc])
      have he' : 0 ≤ e'.r := by
        rcases h5 with ⟨-, -, a⟩ | ⟨a, -⟩ | ⟨a, -⟩
        · exact a
        · rw [hst] at a; cases a
        · rw [hst] at a; cases a
      obtain ⟨xb', k, γ', w', s', h6, h7, h8⟩ := ih (n0 + 1) (if b then some s.1.xc else xb) w1 (e', (s.1.r * g) ^ 2) γ1 h2 he'
      refine ⟨xb', k, γ', w', s', ?_, h3.trans h7, fun hK => ?_⟩
      · simp only [optimLoop, h1', Res.ok_bind, hu]
        exact (if_neg hstop).trans h6
      · obtain ⟨-, a1, a2, -⟩ := key γ' h7 hK
        obtain ⟨a3, a4⟩ := h8 fun x hx => ⟨(hK hx).1, a1 hx⟩
        refine ⟨by omega, ?_⟩
        have a4 : ρ * 2 ^ m ≤ e'.r := a4
        rw [pow_succ]; linarith

/-- **C101** (optimisation)  `cutting_plane_optim` on `Ell1D::new(l, u)` does not panic, never lowers `γ`, and with the value `γ'` it ends with: if it
stops before `max_iters`, or if `u - l < 2 ρ 2^max_iters`, no interval of radius `ρ`, `(ρ G)² ≥ tolerance`, of points better than
`γ'` lies in `[l, u]`. -/
theorem C101_optim {orc : OracleOptim Ω ℝ ℝ ℝ} {S : ℝ → Set ℝ} (h : LineOptim orc I S G) (hG : 0 < G) {l u : ℝ} (hlu : l ≤ u)
    (w : Ω) (hw : I w) (t0 γ : ℝ) (opts : Options ℝ) :
    ∃ xb k γ' w' s', cuttingPlaneOptim orc Ell1D.space w (Ell1D.new l u, t0) γ opts = .ok ((xb, k), γ', w', s') ∧ γ ≤ γ' ∧
      ∀ p ρ, 0 < ρ → opts.tolerance ≤ (ρ * G) ^ 2 → k < opts.maxIters ∨ u - l < 2 * ρ * 2 ^ opts.maxIters →
        ¬ Set.Icc (p - ρ) (p + ρ) ⊆ S γ' ∩ Set.Icc l u := by
  have hr : (Ell1D.new l u).r = (u - l) / 2 := by simp [Ell1D.new]
  have run := fun (p ρ : ℝ) (hρ : 0 < ρ) (ht : opts.tolerance ≤ ρ ^ 2 * G ^ 2) =>
    line_optim_loop (p := p) h hG hρ ht opts.maxIters 0 none w (Ell1D.new l u, t0) γ hw (C101_new hlu).2.2
  -- some radius is large enough for the tolerance
  obtain ⟨ρ0, h0, h0t⟩ : ∃ ρ0 : ℝ, 0 < ρ0 ∧ opts.tolerance ≤ ρ0 ^ 2 * G ^ 2 := by
    refine ⟨(|opts.tolerance| + 1) / G, by positivity, ?_⟩
    rw [div_pow, div_mul_cancel₀ _ (by positivity)]
    nlinarith [le_abs_self opts.tolerance, abs_nonneg opts.tolerance]
  obtain ⟨xb, k, γ', w', s', h1, h2, -⟩ := run 0 ρ0 h0 h0t
  refine ⟨xb, k, γ', w', s', h1, h2, fun p ρ hρ ht hk hK => ?_⟩
  obtain ⟨xb2, k2, γ2, w2, s2, h3, -, h5⟩ := run p ρ hρ (by rwa [mul_pow] at ht)
  rw [h1] at h3
  simp only [Res.ok.injEq, Prod.mk.injEq] at h3
  obtain ⟨⟨rfl, rfl⟩, rfl, -⟩ := h3
  obtain ⟨h6, h7⟩ := h5 (by rw [(C101_new hlu).1]; exact hK)
  simp only [hr] at h7
  rcases hk with hk | hk
  · omega
  · linarith

end

/-- `[0, 10]` and the feasible set `x ≤ 3`: the oracle cuts at the centre `5`, and the next centre `1.5` is accepted -/
example : LineFeas (⟨fun w x => .ok (if 3 < x then some (1, x - 3) else none, w), fun w _ => .ok w⟩ : OracleFeas Unit ℝ ℝ ℝ)
    (fun _ => True) (Set.Iic 3) 1 where
  total := fun w x _ => ⟨_, _, rfl, trivial⟩
  cut := by
    intro w x g β w' _ h
    simp only [Res.ok.injEq, Prod.mk.injEq, and_true] at h
    split_ifs at h with hx
    simp only [Option.some.injEq, Prod.mk.injEq] at h
    obtain ⟨rfl, rfl⟩ := h
    refine ⟨by simp, by linarith, fun y hy => ?_⟩
    show 1 * (y - x) + (x - 3) ≤ 0
    have : y ≤ 3 := hy
    linarith

/-- the hypotheses of `C101_feas_finds` for `[0, 10]` and `K = {x ≤ 3}`: the interval of radius `1` around `3/2`, ten iterations -/
example (orc : OracleFeas Unit ℝ ℝ ℝ) (h : LineFeas orc (fun _ => True) (Set.Iic 3) 1) :
    ∃ x k w1 w' s', cuttingPlaneFeas orc Ell1D.space () (Ell1D.new 0 10, 0) ⟨10, 1 / 100⟩ = .ok ((some x, k), w', s') ∧
      orc.assess w1 x = .ok (none, w') ∧ k < 10 ∧ 2 * 1 * 2 ^ k ≤ (10 : ℝ) - 0 :=
  C101_feas_finds h one_pos (ρ := 1) (p := 3 / 2) one_pos (fun x hx => by have := hx.2; show x ≤ 3; linarith)
    (fun x hx => ⟨by linarith [hx.1], by linarith [hx.2]⟩) () trivial 0 ⟨10, 1 / 100⟩ (by norm_num) (by norm_num)

/-- maximise `x` subject to `x ≤ 3` on the line: infeasible points get the constraint, feasible ones the objective -/
example : LineOptim (⟨fun w x γ => .ok (if 3 < x then (((1, x - 3), false), γ, w) else
    if γ < x then (((-1, 0), true), x, w) else (((-1, γ - x), false), γ, w))⟩ : OracleOptim Unit ℝ ℝ ℝ)
    (fun _ => True) (fun γ => {x | x ≤ 3 ∧ γ < x}) 1 where
  anti := fun γ γ' h x hx => ⟨hx.1, lt_of_le_of_lt h hx.2⟩
  total := by
    intro w x γ _
    by_cases h1 : 3 < x
    · refine ⟨1, x - 3, false, γ, w, by simp [h1], trivial, le_rfl, by simp, by linarith, fun y hy => ?_⟩
      show 1 * (y - x) + (x - 3) ≤ 0
      have : y ≤ 3 := hy.1
      linarith
    by_cases h2 : γ < x
    · refine ⟨-1, 0, true, x, w, by simp [h1, h2], trivial, h2.le, by simp, le_rfl, fun y hy => ?_⟩
      show -1 * (y - x) + 0 ≤ 0
      have : x < y := hy.2
      linarith
    · refine ⟨-1, γ - x, false, γ, w, by simp [h1, h2], trivial, le_rfl, by simp, by linarith, fun y hy => ?_⟩
      show -1 * (y - x) + (γ - x) ≤ 0
      have : γ < y := hy.2
      linarith

end Ellalgo
