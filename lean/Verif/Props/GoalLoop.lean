import Verif.Spec.Quadratic
import Verif.Props.Converge
import Verif.Props.Solve

/-! C73 (abstract): an oracle that protects a ball until its goal is met reaches the goal. -/

namespace Ellalgo
open Matrix

variable {Ω T : Type} [Cut T] {n : Nat}

/-- main induction -/
theorem goal_loop (hn : 0 < n) {orc : OracleOptim Ω (Arr ℝ) T ℝ} {I : Ω → ℝ → Prop} {K : Set (Fin n → ℝ)} {G r : ℝ}
    {Goal : ℝ → Prop} {p : Fin n → ℝ} (hor : KeepsUntil n orc I K G Goal) (hr : 0 < r) (hK : ball p r ⊆ K) {tol : ℝ}
    (htol : tol ≤ r ^ 2 * G ^ 2) (m : Nat) :
    ∀ (n0 : Nat) (xb : Option (Arr ℝ)) (w : Ω) (e : Ell ℝ) (γ : ℝ), I w γ → e.Shaped n →
      ∃ xb' k γ' w' e', optimLoop orc Ell.space tol m n0 xb w e γ = .ok ((xb', k), γ', w', e') ∧ I w' γ' ∧
        (Goal γ → Goal γ') ∧
        (e.Valid n → ball p r ⊆ e.region n → iterBound n e r < m → Goal γ') := by
  induction m with
  | zero =>
    intro n0 xb w e γ hI _
    refine ⟨_, _, _, _, _, rfl, hI, id, ?_⟩
    intro he hb hit
    have := iterBound_nonneg he hr hb
    simp only [Nat.cast_zero] at hit
    linarith
  | succ m ih =>
    intro n0 xb w e γ hI hsh
    obtain ⟨g, c, shrunk, γ1, w1, hq, hI1, hmono, hs, hcase⟩ := hor w e.xc γ hI hsh.2
    have hq' : orc.assess w (Ell.space (T := T).xc e) γ = .ok (((g, c), shrunk), γ1, w1) := hq
    obtain ⟨st, e1, hu, hsh1⟩ : ∃ st e1, (if shrunk then Ell.space.updateCentral e (g, c)
        else Ell.space.updateBias e (g, c)) = .ok (st, e1) ∧ e1.Shaped n := by
      cases shrunk
      · obtain ⟨st, e1, h1, h2, _⟩ := Ell.update_shape hn .bias e (g, c) hsh hs
        exact ⟨st, e1, h1, h2⟩
      · obtain ⟨st, e1, h1, h2, _⟩ := Ell.update_shape hn .central e (g, c) hsh hs
        exact ⟨st, e1, h1, h2⟩
    have good : e.Valid n → ball p r ⊆ e.region n → ¬ Goal γ1 →
        st = .success ∧ e1.Valid n ∧ ball p r ⊆ e1.region n ∧ iterBound n e1 r ≤ iterBound n e r - 1 ∧
        Scalar.lt (Ell.space (T := T).tsq e1) tol = false := by
      intro he hb hng
      obtain ⟨hg, hG, hcen, hbias⟩ := hcase.resolve_left hng
      obtain ⟨kd, hkd, hlo, hsat⟩ : ∃ kd : UpdateKind,
          (kd = if shrunk then .central else .bias) ∧ 0 ≤ kd.lo (Cut.lo c) ∧
          ∀ y ∈ K, Cut.Sat kd c (g.toVec n ⬝ᵥ (y - e.c n)) := by
        cases shrunk
        · exact ⟨.bias, rfl, by simpa using (hbias rfl).1, (hbias rfl).2⟩
        · exact ⟨.central, rfl, by simp, hcen rfl⟩
      obtain ⟨e2, hu2, hv, hb', hvol, -, htsq⟩ := Ell.step_ball he kd (g, c) hs hg hlo hr hb
        (fun y hy => hsat y (hK hy))
      have hu' : Ell.space.update kd e (g, c) = .ok (st, e1) := by
        rw [← hu, hkd]
        cases shrunk <;> rfl
      rw [hu2] at hu'
      simp only [Res.ok.injEq, Prod.mk.injEq] at hu'
      obtain ⟨rfl, rfl⟩ := hu'
      refine ⟨rfl, hv, hb', iterBound_step he hv hr hvol, ?_⟩
      have : tol ≤ e2.tsq :=
        htol.trans ((mul_le_mul_of_nonneg_left hG (by positivity)).trans htsq)
      show Scalar.lt e2.tsq tol = false
      rw [Scalar.real_lt]
      simpa using this
    unfold optimLoop
    simp only [hq', Res.ok_bind, hu]
    split
    · rename_i hstop
      refine ⟨_, _, _, _, _, rfl, hI1, hmono, ?_⟩
      intro he hb _
      by_contra hng
      obtain ⟨h1, -, -, -, h2⟩ := good he hb hng
      rw [h1, h2] at hstop
      simp at hstop
    · obtain ⟨xb', k, γ', w', e', h1, h1', h2, h3⟩ := ih (n0 + 1)
        (if shrunk = true then some (Ell.space (T := T).xc e) else xb) w1 e1 γ1 hI1 hsh1
      refine ⟨xb', k, γ', w', e', h1, h1', fun hg => h2 (hmono hg), ?_⟩
      intro he hb hit
      by_cases hng : Goal γ1
      · exact h2 hng
      · obtain ⟨-, a1, a2, a3, -⟩ := good he hb hng
        exact h3 a1 a2 (by push_cast at hit; linarith)

/-- **C73** (abstract).  Let an oracle protect the points of a ball of radius `r`, contained in the initial ellipsoid, until
its goal is met.  Then `cutting_plane_optim` meets the goal, given more than `(n+1) ln(det(κM)/r^(2n))` iterations and a
tolerance of at most `(rG)²`. -/
theorem C73_reaches_goal {orc : OracleOptim Ω (Arr ℝ) T ℝ} {I : Ω → ℝ → Prop} {K : Set (Fin n → ℝ)} {G r : ℝ}
    {Goal : ℝ → Prop} {p : Fin n → ℝ} (hor : KeepsUntil n orc I K G Goal) (hr : 0 < r) (hK : ball p r ⊆ K)
    {w : Ω} {e : Ell ℝ} {γ : ℝ} (hw : I w γ) (he : e.Valid n) (hE : ball p r ⊆ e.region n) {opts : Options ℝ}
    (htol : opts.tolerance ≤ r ^ 2 * G ^ 2)
    (hit : ((n : ℝ) + 1) * Real.log ((e.kappa • e.M n).det / (r ^ 2) ^ n) < opts.maxIters) :
    ∃ xb k γ' w' e', cuttingPlaneOptim orc Ell.space w e γ opts = .ok ((xb, k), γ', w', e') ∧ I w' γ' ∧ Goal γ' := by
  obtain ⟨xb, k, γ', w', e', h1, h2, -, h4⟩ := goal_loop (by have := he.dim; omega) hor hr hK htol opts.maxIters 0 none w e γ hw he.shaped
  exact ⟨xb, k, γ', w', e', h1, h2, h4 he hE hit⟩

end Ellalgo
