import Verif.Lib.StepQ
import Verif.Spec.Honest
import Verif.Props.EllGeneric

/-! C70: what `cutting_plane_optim_q` guarantees when run on `Ell` with an honest discrete oracle. -/

namespace Ellalgo
open Matrix
open scoped ComplexOrder

variable {n : Nat} {Ω T : Type} [Cut T]

/-- what is left of the points `B` in the state `e` -/
def Left (n : Nat) (e : Ell ℝ) (B : Set (Fin n → ℝ)) : Prop :=
  e.Shaped n ∧ ((e.Valid n ∧ B ⊆ e.region n) ∨ B ⊆ {e.c n})

theorem optimQ_keep_loop (orc : OracleOptimQ Ω (Arr ℝ) T ℝ) (I : Ω → ℝ → Prop)
    (S : ℝ → Set (Fin n → ℝ)) (E0 : Set (Fin n → ℝ)) (hn : 0 < n)
    (hor : HonestOptimQ n orc I S) (tol : ℝ) (m : Nat) :
    ∀ (n0 : Nat) (xb : Option (Arr ℝ)) (r : Bool) (w : Ω) (e : Ell ℝ) (γ : ℝ), I w γ → Left n e (S γ ∩ E0) →
      ∃ xb' k γ' w' e', optimQLoop orc Ell.space tol m n0 xb r w e γ = .ok ((xb', k), γ', w', e') ∧
        I w' γ' ∧ S γ' ⊆ S γ ∧ Left n e' (S γ' ∩ E0) ∧ k ≤ n0 + m ∧
        (tol ≤ 0 → k < n0 + m → S γ' ∩ E0 = ∅ ∨
          ∃ w0 x γ0 r0 g c shrunk xq, I w0 γ0 ∧ x.IsVecShape n ∧
            orc.assess w0 x γ0 r0 = .ok (((g, c), shrunk, xq, false), γ', w')) := by
  induction m with
  | zero =>
    intro n0 xb r w e γ hI hL
    exact ⟨_, _, _, _, _, rfl, hI, le_rfl, hL, by omega, fun _ hk => by omega⟩
  | succ m ih =>
    intro n0 xb r w e γ hI hL
    obtain ⟨hsh, hL⟩ := hL
    obtain ⟨g, c, shrunk, xq, more, γ1, w1, hq, hI1, hS1, hx, hs, hg, hne, hsat⟩ := hor w e.xc γ r hI hsh.2
    have hx : e.c n ∉ S γ1 := hx
    have hq' : orc.assess w (Ell.space (T := T).xc e) γ r = .ok (((g, c), shrunk, xq, more), γ1, w1) := hq
    -- the update
    obtain ⟨st, e1, hu, hL1, hno, htsq⟩ : ∃ st e1, Ell.space.updateQ e (g, c) = .ok (st, e1) ∧
        Left n e1 (S γ1 ∩ E0) ∧ (st = .noSoln → S γ1 ∩ E0 = ∅) ∧ (e1.tsq ≤ 0 → S γ1 ∩ E0 = ∅) := by
      rcases hL with ⟨he, hreg⟩ | hpt
      · obtain ⟨st, e1, hu, hsh1, htsq, hno, hcases⟩ := Ell.step_cases_q he (g, c) hs hg hne
        refine ⟨st, e1, hu, ⟨hsh1, ?_⟩, ?_, ?_⟩
        · rcases hcases with ⟨hv, hk⟩ | hk
          · exact Or.inl ⟨hv, fun y hy => hk y (hreg ⟨hS1 hy.1, hy.2⟩) (hsat y hy.1)⟩
          · exact Or.inr fun y hy => hk y (hreg ⟨hS1 hy.1, hy.2⟩) (hsat y hy.1)
        · intro hst
          rw [Set.eq_empty_iff_forall_notMem]
          exact fun y hy => hno hst y (hreg ⟨hS1 hy.1, hy.2⟩) (hsat y hy.1)
        · intro h
          rw [htsq] at h
          exact absurd (he.tsq_pos hg) (not_lt.mpr h)
      · have hemp : S γ1 ∩ E0 = ∅ := by
          rw [Set.eq_empty_iff_forall_notMem]
          rintro y ⟨hy, hyE⟩
          have h1 : y = e.c n := hpt ⟨hS1 hy, hyE⟩
          exact hx (h1 ▸ hy)
        obtain ⟨st, e1, hu, hsh1, -⟩ := Ell.update_shape hn .q e (g, c) hsh hs
        exact ⟨st, e1, hu, ⟨hsh1, Or.inr (by rw [hemp]; exact Set.empty_subset _)⟩, fun _ => hemp, fun _ => hemp⟩
    have hlt : tol ≤ 0 → Scalar.lt (Ell.space (T := T).tsq e1) tol = true → S γ1 ∩ E0 = ∅ := by
      intro h0 h1
      have h1 : Scalar.lt e1.tsq tol = true := h1
      rw [Scalar.real_lt, decide_eq_true_eq] at h1
      exact htsq (by linarith)
    have next : ∀ xb1 r1, ∃ xb' k γ' w' e', optimQLoop orc Ell.space tol m (n0 + 1) xb1 r1 w1 e1 γ1 =
          .ok ((xb', k), γ', w', e') ∧ I w' γ' ∧ S γ' ⊆ S γ ∧ Left n e' (S γ' ∩ E0) ∧ k ≤ n0 + (m + 1) ∧
        (tol ≤ 0 → k < n0 + (m + 1) → S γ' ∩ E0 = ∅ ∨
          ∃ w0 x γ0 r0 g c shrunk xq, I w0 γ0 ∧ x.IsVecShape n ∧
            orc.assess w0 x γ0 r0 = .ok (((g, c), shrunk, xq, false), γ', w')) := by
      intro xb1 r1
      obtain ⟨xb', k, γ', w', e', a1, a2, a3, a4, a5, a6⟩ := ih (n0 + 1) xb1 r1 w1 e1 γ1 hI1 hL1
      exact ⟨xb', k, γ', w', e', a1, a2, a3.trans hS1, a4, by omega, fun h0 hk => a6 h0 (by omega)⟩
    unfold optimQLoop
    simp only [hq', Res.ok_bind, hu]
    cases st with
    | noSoln => exact ⟨_, _, _, _, _, rfl, hI1, hS1, hL1, by omega, fun _ _ => Or.inl (hno rfl)⟩
    | noEffect =>
      cases more with
      | false =>
        exact ⟨_, _, _, _, _, rfl, hI1, hS1, hL1, by omega, fun _ _ => Or.inr
          ⟨w, e.xc, γ, r, g, c, shrunk, xq, hI, hsh.2, hq⟩⟩
      | true =>
        simp only [Bool.not_true, Bool.false_eq_true, if_false]
        cases hc : Scalar.lt (Ell.space (T := T).tsq e1) tol
        · simp only [Bool.false_eq_true, if_false]
          exact next _ _
        · simp only [if_true]
          exact ⟨_, _, _, _, _, rfl, hI1, hS1, hL1, by omega, fun h0 _ => Or.inl (hlt h0 hc)⟩
    | success =>
      simp only
      cases hc : Scalar.lt (Ell.space (T := T).tsq e1) tol
      · simp only [Bool.false_eq_true, if_false]
        exact next _ _
      · simp only [if_true]
        exact ⟨_, _, _, _, _, rfl, hI1, hS1, hL1, by omega, fun h0 _ => Or.inl (hlt h0 hc)⟩
    | unknown =>
      simp only
      cases hc : Scalar.lt (Ell.space (T := T).tsq e1) tol
      · simp only [Bool.false_eq_true, if_false]
        exact next _ _
      · simp only [if_true]
        exact ⟨_, _, _, _, _, rfl, hI1, hS1, hL1, by omega, fun h0 _ => Or.inl (hlt h0 hc)⟩

/-- **C70**.  With an honest discrete oracle, whatever `max_iters` and the tolerance, `cutting_plane_optim_q` on `Ell` does not
panic, and every point of the initial ellipsoid that is strictly better than the returned `γ'` lies in the final ellipsoid
(if a cut only touched the ellipsoid, the final ellipsoid is a single point and that is the final centre). -/
theorem C70_optimQ_better_points_kept (orc : OracleOptimQ Ω (Arr ℝ) T ℝ) (I : Ω → ℝ → Prop)
    (S : ℝ → Set (Fin n → ℝ)) (w : Ω) (e : Ell ℝ) (γ : ℝ) (opts : Options ℝ)
    (hor : HonestOptimQ n orc I S) (hw : I w γ) (he : e.Valid n) :
    ∃ xb k γ' w' e', cuttingPlaneOptimQ orc Ell.space w e γ opts = .ok ((xb, k), γ', w', e') ∧ k ≤ opts.maxIters ∧
      S γ' ⊆ S γ ∧
      ((e'.Valid n ∧ ∀ x ∈ e.region n, x ∈ S γ' → x ∈ e'.region n) ∨
       (∀ x ∈ e.region n, x ∈ S γ' → x = e'.c n)) := by
  obtain ⟨xb, k, γ', w', e', h, -, h2, ⟨-, h3⟩, h4, -⟩ := optimQ_keep_loop orc I S (e.region n) he.pos hor opts.tolerance
    opts.maxIters 0 none false w e γ hw ⟨he.shaped, Or.inl ⟨he, Set.inter_subset_right⟩⟩
  refine ⟨xb, k, γ', w', e', h, by omega, h2, ?_⟩
  rcases h3 with ⟨hv, h3⟩ | h3
  · exact Or.inl ⟨hv, fun x hx hS => h3 ⟨hS, hx⟩⟩
  · exact Or.inr fun x hx hS => h3 ⟨hS, hx⟩

/-- **C70** (certificate).  With tolerance `≤ 0`, stopping before `max_iters` means: no point of the initial ellipsoid is
strictly better than the returned `γ'`, or the last answer of the oracle had no effect and came without an alternative. -/
theorem C70_optimQ_early_stop (orc : OracleOptimQ Ω (Arr ℝ) T ℝ) (I : Ω → ℝ → Prop)
    (S : ℝ → Set (Fin n → ℝ)) (w : Ω) (e : Ell ℝ) (γ : ℝ) (opts : Options ℝ)
    (hor : HonestOptimQ n orc I S) (hw : I w γ) (he : e.Valid n) (htol : opts.tolerance ≤ 0)
    (xb : Option (Arr ℝ)) (k : Nat) (γ' : ℝ) (w' : Ω) (e' : Ell ℝ)
    (h : cuttingPlaneOptimQ orc Ell.space w e γ opts = .ok ((xb, k), γ', w', e')) (hk : k < opts.maxIters) :
    S γ' ∩ e.region n = ∅ ∨
      ∃ w0 x γ0 r0 g c shrunk xq, I w0 γ0 ∧ x.IsVecShape n ∧
        orc.assess w0 x γ0 r0 = .ok (((g, c), shrunk, xq, false), γ', w') := by
  obtain ⟨xb1, k1, γ1, w1, e1, h1, -, -, -, -, h6⟩ := optimQ_keep_loop orc I S (e.region n) he.pos hor opts.tolerance
    opts.maxIters 0 none false w e γ hw ⟨he.shaped, Or.inl ⟨he, Set.inter_subset_right⟩⟩
  have h : optimQLoop orc Ell.space opts.tolerance opts.maxIters 0 none false w e γ = _ := h
  rw [h1] at h
  simp only [Res.ok.injEq, Prod.mk.injEq] at h
  obtain ⟨⟨rfl, rfl⟩, rfl, rfl, rfl⟩ := h
  exact h6 htol (by omega)

end Ellalgo
