import Verif.Lib.StepCases

/-! One update by `update_q`: all cases. -/

namespace Ellalgo
open Matrix
open scoped ComplexOrder

variable {n : Nat} {T : Type} {e : Ell ℝ}

/-- the only point of the ellipsoid with `s gᵀ(x - c) ≤ -τ` (`s = ±1`) is the new centre of a cut with `ρ = s τ` -/
theorem Ell.tangent_point (he : e.Valid n) {g : Fin n → ℝ} (hg : g ≠ 0) {s ρ : ℝ} (hs : s * s = 1)
    (hρ : ρ = s * e.tau n g) {x : Fin n → ℝ} (hx : x ∈ e.region n) (ht : s * (g ⬝ᵥ (x - e.c n)) ≤ -e.tau n g) :
    x = e.c n - (ρ / (g ⬝ᵥ (e.M n *ᵥ g))) • (e.M n *ᵥ g) := by
  have hω := quad_pos he.posDef hg
  have hτ2 : e.tau n g * e.tau n g = e.kappa * (g ⬝ᵥ (e.M n *ᵥ g)) := Ell.tau_sq he _
  have hτ : 0 ≤ e.tau n g := Real.sqrt_nonneg _
  have hQ : (x - e.c n) ⬝ᵥ ((e.M n)⁻¹ *ᵥ (x - e.c n)) ≤ e.kappa := hx
  have hexp := quad_inv_add he.posDef (x - e.c n) g (ρ / (g ⬝ᵥ (e.M n *ᵥ g)))
  set τ := e.tau n g
  set ω := g ⬝ᵥ (e.M n *ᵥ g)
  set t := g ⬝ᵥ (x - e.c n)
  have hle : (x - e.c n + (ρ / ω) • (e.M n *ᵥ g)) ⬝ᵥ ((e.M n)⁻¹ *ᵥ (x - e.c n + (ρ / ω) • (e.M n *ᵥ g))) ≤ 0 := by
    rw [hexp]
    have e1 : (ρ / ω) ^ 2 * ω = e.kappa := by
      have : (ρ / ω) ^ 2 * ω = ρ * ρ / ω := by field_simp
      rw [this, hρ, show s * τ * (s * τ) = s * s * (τ * τ) by ring, hs, hτ2]; field_simp
    have e2 : 2 * (ρ / ω) * t = 2 * (τ / ω) * (s * t) := by rw [hρ]; ring
    have e3 : 2 * (τ / ω) * (s * t) ≤ 2 * (τ / ω) * (-τ) := mul_le_mul_of_nonneg_left ht (by positivity)
    have e4 : 2 * (τ / ω) * (-τ) = -2 * e.kappa := by
      have : 2 * (τ / ω) * (-τ) = -2 * (τ * τ) / ω := by ring
      rw [this, hτ2]; field_simp
    linarith
  have hz : x - e.c n + (ρ / ω) • (e.M n *ᵥ g) = 0 := by
    by_contra hne
    exact absurd (quad_pos he.posDef.inv hne) (not_lt.mpr hle)
  rw [eq_sub_iff_add_eq, ← sub_eq_zero, ← hz]
  abel

/-- All cases of `update_q` by a cut with distinct planes. -/
theorem Ell.step_cases_q [Cut T] (he : e.Valid n) (cut : Arr ℝ × T)
    (hs : cut.1.IsVecShape n) (hg : cut.1.toVec n ≠ 0) (hne : Cut.hi cut.2 ≠ some (Cut.lo cut.2)) :
    ∃ st e', Ell.space.update .q e cut = .ok (st, e') ∧ e'.Shaped n ∧ e'.tsq = e.tsqOf n (cut.1.toVec n) ∧
      (st = .noSoln → ∀ x ∈ e.region n, ¬ Cut.Sat .q cut.2 (cut.1.toVec n ⬝ᵥ (x - e.c n))) ∧
      ((e'.Valid n ∧
          ∀ x ∈ e.region n, Cut.Sat .q cut.2 (cut.1.toVec n ⬝ᵥ (x - e.c n)) → x ∈ e'.region n) ∨
       (∀ x ∈ e.region n, Cut.Sat .q cut.2 (cut.1.toVec n ⬝ᵥ (x - e.c n)) → x = e'.c n)) := by
  have htp := he.tsq_pos hg
  have hτ : 0 < e.tau n (cut.1.toVec n) := Real.sqrt_pos.mpr htp
  have hn : (0 : ℝ) < n := by exact_mod_cast he.pos
  obtain ⟨e', h⟩ := Ell.update_exists he.shaped he.symm he.pos .q cut hs
  obtain ⟨ρ, σ, δ, hc, hr⟩ := Ell.update_real he.shaped he.symm he.pos .q cut hs h
  generalize hst : (CutType.call .q cut.2 e.helper (e.tsqOf n (cut.1.toVec n))).1 = st at *
  have hsh : e'.Shaped n ∧ e'.tsq = e.tsqOf n (cut.1.toVec n) := by
    rcases hr with ⟨-, rfl⟩ | ⟨-, ha⟩
    · exact ⟨he.shaped, rfl⟩
    · exact ⟨ha.shaped, ha.tsq⟩
  have hno : st = .noSoln → ∀ x ∈ e.region n, ¬ Cut.Sat .q cut.2 (cut.1.toVec n ⬝ᵥ (x - e.c n)) := by
    rintro rfl
    exact C18_noSoln_sound .q e _ cut he.pos he.shaped he.posDef he.kappa.le he.helper hs (by intro h; cases h) h
  refine ⟨st, e', h, hsh.1, hsh.2, hno, ?_⟩
  by_cases hsu : st = .success
  swap
  · rcases hr with ⟨-, rfl⟩ | ⟨hr, -⟩
    · exact Or.inl ⟨he.setTsq _, fun x hx _ => hx⟩
    · exact absurd hr hsu
  subst hsu
  rcases hr with ⟨hr, -⟩ | ⟨-, ha⟩
  · exact absurd rfl hr
  have hlt : ∀ b, Cut.hi cut.2 = some b → Cut.lo cut.2 < b := by
    intro b hb
    rcases lt_trichotomy (Cut.lo cut.2) b with h1 | h1 | h1
    · exact h1
    · exact absurd (h1 ▸ hb) hne
    · have := strat_cross (n := n) (tsq := e.tsqOf n (cut.1.toVec n)) .q cut.2 hb (by simpa using h1)
      rw [he.helper, this] at hst
      cases hst
  have hup : ∀ x ∈ e.region n, cut.1.toVec n ⬝ᵥ (x - e.c n) ≤ e.tau n (cut.1.toVec n) ∧
      -e.tau n (cut.1.toVec n) ≤ cut.1.toVec n ⬝ᵥ (x - e.c n) := by
    intro x hx
    have := abs_le.mp (Real.abs_le_sqrt (dot_sq_le he.posDef hx (cut.1.toVec n)))
    exact ⟨this.2, this.1⟩
  by_cases hb : ∃ b, Cut.hi cut.2 = some b ∧ b ≤ -e.tau n (cut.1.toVec n)
  · obtain ⟨b, hb, hle⟩ := hb
    rcases hle.lt_or_eq with hl | hl
    · refine Or.inr fun x hx hsat => ?_
      have h1 := hsat.2 b hb
      have h2 := (hup x hx).1
      linarith
    · refine Or.inr fun x hx hsat => ?_
      have h1 := hsat.2 b hb
      have hlb := hlt b hb
      have hτ2 : e.tau n (cut.1.toVec n) * e.tau n (cut.1.toVec n) = e.tsqOf n (cut.1.toVec n) := Ell.tau_sq he _
      rw [ha.c]
      refine Ell.tangent_point he hg (s := -1) (by norm_num) ?_ hx (by rw [hl] at h1; linarith)
      rw [he.helper, Cut.call_eq, hb] at hc
      have hc : (EllCalc.new n).calcParallelQ (Cut.lo cut.2) b (e.tsqOf n (cut.1.toVec n)) = _ := hc
      generalize Cut.lo cut.2 = β at *
      generalize e.tau n (cut.1.toVec n) = τ at *
      rw [← hτ2, hl] at hc
      have hpos : 0 < τ - n * β := by nlinarith
      rw [calcParallelQ_real, if_neg (by linarith), if_neg (by intro h; linarith [h.1]), if_neg (by nlinarith)] at hc
      simp only [Prod.mk.injEq, true_and, calcParallelFast_real] at hc
      rw [← hc.1]
      have hsq : √((τ * τ - β * β) * (τ * τ - -τ * -τ) + ↑n / 2 * (-τ * -τ - β * β) * (↑n / 2 * (-τ * -τ - β * β))) =
          n / 2 * (β * β - τ * τ) := by
        rw [show (τ * τ - β * β) * (τ * τ - -τ * -τ) + ↑n / 2 * (-τ * -τ - β * β) * (↑n / 2 * (-τ * -τ - β * β)) =
          (n / 2 * (β * β - τ * τ)) * (n / 2 * (β * β - τ * τ)) by ring]
        exact Real.sqrt_mul_self (mul_nonneg (by positivity) (by nlinarith))
      rw [hsq]
      have hd : τ * τ + β * -τ + ↑n / 2 * ((β + -τ) * (β + -τ)) + ↑n / 2 * (β * β - τ * τ) = (τ - β) * (τ - n * β) := by
        ring
      have h0 : τ - β ≠ 0 := by linarith
      rw [hd]
      field_simp
      ring
  · push Not at hb
    by_cases hτe : Cut.lo cut.2 = e.tau n (cut.1.toVec n)
    · refine Or.inr fun x hx hsat => ?_
      have hfar := strat_far (n := n) htp .q cut.2 (by rw [UpdateKind.lo_q, hτe]; exact le_rfl) (by simpa using hlt)
      rw [UpdateKind.lo_q, if_neg (by rw [hτe]; exact lt_irrefl _)] at hfar
      rw [he.helper, hfar] at hc
      have h1 := hsat.1
      rw [UpdateKind.lo_q, hτe] at h1
      rw [ha.c]
      refine Ell.tangent_point he hg (s := 1) (by norm_num) ?_ hx (by linarith)
      simp only [Prod.mk.injEq, true_and, calcBiasCutFast_real] at hc
      rw [← hc.1]
      have hn : (n : ℝ) + 1 ≠ 0 := by positivity
      show (e.tau n (cut.1.toVec n) + n * e.tau n (cut.1.toVec n)) / (n + 1) = _
      field_simp
      ring
    · have hadm : Cut.Adm n .q cut.2 (e.tsqOf n (cut.1.toVec n)) := by
        unfold Cut.Adm
        cases hh : Cut.hi cut.2 with
        | none => exact hτe
        | some b =>
          dsimp only
          rw [if_neg (by decide)]
          exact ⟨hlt b hh, fun _ => hτe, fun _ => ⟨hb b hh, by intro h; cases h⟩⟩
      obtain ⟨a1, a2, -⟩ := Ell.step_good he .q cut hs hg hadm h
      exact Or.inl ⟨a1, a2⟩

end Ellalgo
