import Verif.Lib.RepeatLemmas

/-! C90: what happens to an oracle that gives the same answer for ever. -/

namespace Ellalgo
open Matrix

variable {Ω T : Type} [Cut T] {n : Nat}

theorem FirstStop.zero {P : Nat → Prop} : FirstStop P 0 0 := ⟨le_rfl, by simp, by simp⟩

theorem FirstStop.now {P : Nat → Prop} {m : Nat} (h : P 0) : FirstStop P (m + 1) 0 := ⟨by omega, by simp, fun _ => h⟩

theorem FirstStop.later {P : Nat → Prop} {m k : Nat} (h0 : ¬ P 0) (h : FirstStop (fun i => P (i + 1)) m k) :
    FirstStop P (m + 1) (k + 1) := by
  refine ⟨by have := h.1; omega, fun i hi => ?_, fun hk => h.2.2 (by omega)⟩
  cases i with
  | zero => exact h0
  | succ i => exact h.2.1 i (by omega)

/-- **C90** The number of iterations is determined. -/
theorem C90_first_stop_unique {P : Nat → Prop} {m k l : Nat} (hk : FirstStop P m k) (hl : FirstStop P m l) : k = l := by
  rcases lt_trichotomy k l with h | h | h
  · exact absurd (hk.2.2 (by have := hl.1; omega)) (hl.2.1 k h)
  · exact h
  · exact absurd (hl.2.2 (by have := hk.1; omega)) (hk.2.1 l h)

section
variable {g : Arr ℝ} {c : T} {tol : ℝ}

/-- one iteration, whichever loop: the run stops, or goes on from a space of reach `n/(n+1) (τ - β)` -/
theorem repeat_iter {e : Ell ℝ} {k : UpdateKind} (hn : 2 ≤ n) (hk : k = .bias ∨ k = .q) (hg : g.IsVecShape n)
    (hhi : Cut.hi c = none) (hlo : 0 ≤ Cut.lo c) (he : e.Reaching n (g.toVec n))
    (hpos : 0 < Cut.lo c ∨ 0 < e.tau n (g.toVec n)) :
    (stopsAt (Cut.lo c) tol (e.tau n (g.toVec n)) ∧ ∃ st e', Ell.space.update k e (g, c) = .ok (st, e') ∧
      (st = .noSoln ∨ (st = .success ∧ e'.tsq < tol))) ∨
    (¬ stopsAt (Cut.lo c) tol (e.tau n (g.toVec n)) ∧ ∃ e', Ell.space.update k e (g, c) = .ok (.success, e') ∧
      ¬ e'.tsq < tol ∧ e'.Reaching n (g.toVec n) ∧ (0 < Cut.lo c ∨ 0 < e'.tau n (g.toVec n)) ∧
      e'.tau n (g.toVec n) = (n : ℝ) / (n + 1) * (e.tau n (g.toVec n) - Cut.lo c)) := by
  obtain ⟨h1, h2⟩ := Ell.repeat_step hn hk hhi hlo hg he hpos
  rcases lt_or_ge (e.tau n (g.toVec n)) (Cut.lo c) with h | h
  · exact Or.inl ⟨Or.inl h, _, _, h1 h, Or.inl rfl⟩
  · obtain ⟨e', hu, hw, ht, hτ⟩ := h2 h
    by_cases htol : e.tau n (g.toVec n) ^ 2 < tol
    · exact Or.inl ⟨Or.inr htol, _, _, hu, Or.inr ⟨rfl, by rw [ht]; exact htol⟩⟩
    · refine Or.inr ⟨?_, e', hu, by rw [ht]; exact htol, hw, ?_, hτ⟩
      · rintro (h' | h')
        · linarith
        · exact htol h'
      · rcases hlo.lt_or_eq with hb | hb
        · exact Or.inl hb
        · right
          rw [hτ, ← hb, sub_zero]
          have : 0 < e.tau n (g.toVec n) := by
            rcases hpos with hp | hp
            · linarith
            · exact hp
          have : (0 : ℝ) < n := by exact_mod_cast (by omega : 0 < n)
          positivity

theorem feas_repeat (hn : 2 ≤ n) (hg : g.IsVecShape n) (hhi : Cut.hi c = none) (hlo : 0 ≤ Cut.lo c)
    {orc : OracleFeas Ω (Arr ℝ) T ℝ}
    (hor : ∀ w x, x.IsVecShape n → ∃ w', orc.assess w x = .ok (some (g, c), w')) :
    ∀ (m k0 : Nat) (w : Ω) (e : Ell ℝ), e.Reaching n (g.toVec n) → (0 < Cut.lo c ∨ 0 < e.tau n (g.toVec n)) →
      ∃ k w' e', feasLoop orc Ell.space tol m k0 w e = .ok ((none, k0 + k), w', e') ∧
        FirstStop (fun i => stopsAt (Cut.lo c) tol (reach n (e.tau n (g.toVec n)) (Cut.lo c) i)) m k := by
  intro m
  induction m with
  | zero => intro k0 w e _ _; exact ⟨0, w, e, rfl, FirstStop.zero⟩
  | succ m ih =>
    intro k0 w e he hpos
    obtain ⟨w1, hq⟩ := hor w (Ell.space (T := T).xc e) he.shaped.2
    rcases repeat_iter (tol := tol) hn (Or.inl rfl) hg hhi hlo he hpos with ⟨hs, st, e', hu, h⟩ | ⟨hs, e', hu, h, hw, hp, hτ⟩
    · refine ⟨0, w1, e', ?_, FirstStop.now (by simpa only [reach_zero] using hs)⟩
      unfold feasLoop
      rw [hq, Res.ok_bind]
      have hu' : Ell.space.updateBias e (g, c) = .ok (st, e') := hu
      simp only [hu', Res.ok_bind, add_zero]
      rw [if_pos]
      rcases h with rfl | ⟨rfl, h⟩
      · simp
      · have : Scalar.lt (Ell.space (T := T).tsq e') tol = true := by simpa [Ell.space] using h
        simp [this]
    · obtain ⟨k, w', e'', hrun, hf⟩ := ih (k0 + 1) w1 e' hw hp
      refine ⟨k + 1, w', e'', ?_, FirstStop.later (by simpa only [reach_zero] using hs) ?_⟩
      · unfold feasLoop
        rw [hq, Res.ok_bind]
        have hu' : Ell.space.updateBias e (g, c) = .ok (.success, e') := hu
        simp only [hu', Res.ok_bind]
        rw [if_neg, hrun]
        · congr 3; omega
        · have : Scalar.lt (Ell.space (T := T).tsq e') tol = false := by simpa [Ell.space] using h
          simp [this]
      · rw [hτ] at hf
        simpa only [reach_shift] using hf

theorem optim_repeat (hn : 2 ≤ n) (hg : g.IsVecShape n) (hhi : Cut.hi c = none) (hlo : 0 ≤ Cut.lo c)
    {orc : OracleOptim Ω (Arr ℝ) T ℝ}
    (hor : ∀ w x γ, x.IsVecShape n → ∃ w', orc.assess w x γ = .ok (((g, c), false), γ, w')) (γ : ℝ) :
    ∀ (m k0 : Nat) (w : Ω) (e : Ell ℝ), e.Reaching n (g.toVec n) → (0 < Cut.lo c ∨ 0 < e.tau n (g.toVec n)) →
      ∃ k w' e', optimLoop orc Ell.space tol m k0 none w e γ = .ok ((none, k0 + k), γ, w', e') ∧
        FirstStop (fun i => stopsAt (Cut.lo c) tol (reach n (e.tau n (g.toVec n)) (Cut.lo c) i)) m k := by
  intro m
  induction m with
  | zero => intro k0 w e _ _; exact ⟨0, w, e, rfl, FirstStop.zero⟩
  | succ m ih =>
    intro k0 w e he hpos
    obtain ⟨w1, hq⟩ := hor w (Ell.space (T := T).xc e) γ he.shaped.2
    rcases repeat_iter (tol := tol) hn (Or.inl rfl) hg hhi hlo he hpos with ⟨hs, st, e', hu, h⟩ | ⟨hs, e', hu, h, hw, hp, hτ⟩
    · refine ⟨0, w1, e', ?_, FirstStop.now (by simpa only [reach_zero] using hs)⟩
      unfold optimLoop
      rw [hq, Res.ok_bind]
      have hu' : Ell.space.updateBias e (g, c) = .ok (st, e') := hu
      simp only [hu', Res.ok_bind, add_zero, Bool.false_eq_true, if_false]
      rw [if_pos]
      rcases h with rfl | ⟨rfl, h⟩
      · simp
      · have : Scalar.lt (Ell.space (T := T).tsq e') tol = true := by simpa [Ell.space] using h
        simp [this]
    · obtain ⟨k, w', e'', hrun, hf⟩ := ih (k0 + 1) w1 e' hw hp
      refine ⟨k + 1, w', e'', ?_, FirstStop.later (by simpa only [reach_zero] using hs) ?_⟩
      · unfold optimLoop
        rw [hq, Res.ok_bind]
        have hu' : Ell.space.updateBias e (g, c) = .ok (.success, e') := hu
        simp only [hu', Res.ok_bind, Bool.false_eq_true, if_false]
        rw [if_neg, hrun]
        · congr 3; omega
        · have : Scalar.lt (Ell.space (T := T).tsq e') tol = false := by simpa [Ell.space] using h
          simp [this]
      · rw [hτ] at hf
        simpa only [reach_shift] using hf

theorem optimQ_repeat (hn : 2 ≤ n) (hg : g.IsVecShape n) (hhi : Cut.hi c = none) (hlo : 0 ≤ Cut.lo c)
    {orc : OracleOptimQ Ω (Arr ℝ) T ℝ}
    (hor : ∀ w x γ retry, x.IsVecShape n → ∃ xq more w', orc.assess w x γ retry = .ok (((g, c), false, xq, more), γ, w'))
    (γ : ℝ) :
    ∀ (m k0 : Nat) (retry : Bool) (w : Ω) (e : Ell ℝ), e.Reaching n (g.toVec n) → (0 < Cut.lo c ∨ 0 < e.tau n (g.toVec n)) →
      ∃ k w' e', optimQLoop orc Ell.space tol m k0 none retry w e γ = .ok ((none, k0 + k), γ, w', e') ∧
        FirstStop (fun i => stopsAt (Cut.lo c) tol (reach n (e.tau n (g.toVec n)) (Cut.lo c) i)) m k := by
  intro m
  induction m with
  | zero => intro k0 r w e _ _; exact ⟨0, w, e, rfl, FirstStop.zero⟩
  | succ m ih =>
    intro k0 r w e he hpos
    obtain ⟨xq, more, w1, hq⟩ := hor w (Ell.space (T := T).xc e) γ r he.shaped.2
    rcases repeat_iter (tol := tol) hn (Or.inr rfl) hg hhi hlo he hpos with ⟨hs, st, e', hu, h⟩ | ⟨hs, e', hu, h, hw, hp, hτ⟩
    · refine ⟨0, w1, e', ?_, FirstStop.now (by simpa only [reach_zero] using hs)⟩
      unfold optimQLoop
      rw [hq, Res.ok_bind]
      have hu' : Ell.space.updateQ e (g, c) = .ok (st, e') := hu
      simp only [hu', Res.ok_bind, add_zero, Bool.false_eq_true, if_false]
      rcases h with rfl | ⟨rfl, h⟩
      · simp
      · have : Scalar.lt (Ell.space (T := T).tsq e') tol = true := by simpa [Ell.space] using h
        simp [this]
    · obtain ⟨k, w', e'', hrun, hf⟩ := ih (k0 + 1) false w1 e' hw hp
      refine ⟨k + 1, w', e'', ?_, FirstStop.later (by simpa only [reach_zero] using hs) ?_⟩
      · unfold optimQLoop
        rw [hq, Res.ok_bind]
        have hu' : Ell.space.updateQ e (g, c) = .ok (.success, e') := hu
        have : Scalar.lt (Ell.space (T := T).tsq e') tol = false := by simpa [Ell.space] using h
        simp only [hu', Res.ok_bind, Bool.false_eq_true, if_false, this, hrun]
        congr 3; omega
      · rw [hτ] at hf
        simpa only [reach_shift] using hf

end

section
variable {g : Arr ℝ} {c : T} {e : Ell ℝ}

/-- **C90** `cutting_plane_feas` with an oracle that answers every query with the same single cut `(g, β)`, `β ≥ 0`, finds
nothing, and the number of iterations is known exactly: it is the first `k` for which no point of the current ellipsoid is
left beyond the plane, `(n/(n+1))^k (τ + nβ) - nβ < β`, or that reach is below the square root of the tolerance (or the
iteration limit).  All dimensions `n ≥ 2`, all ellipsoids, gradients, offsets and options, with and without
`no_defer_trick`. -/
theorem C90_feas_same_cut (he : e.Valid n) (hg : g.IsVecShape n) (hg0 : g.toVec n ≠ 0) (hhi : Cut.hi c = none)
    (hlo : 0 ≤ Cut.lo c) {orc : OracleFeas Ω (Arr ℝ) T ℝ}
    (hor : ∀ w x, x.IsVecShape n → ∃ w', orc.assess w x = .ok (some (g, c), w')) (w : Ω) (opts : Options ℝ) :
    ∃ k w' e', cuttingPlaneFeas orc Ell.space w e opts = .ok ((none, k), w', e') ∧
      FirstStop (fun i => stopsAt (Cut.lo c) opts.tolerance (reach n (e.tau n (g.toVec n)) (Cut.lo c) i)) opts.maxIters k := by
  have := feas_repeat (tol := opts.tolerance) he.dim hg hhi hlo hor opts.maxIters 0 w e (he.reaching _)
    (Or.inr (Real.sqrt_pos.mpr (he.tsq_pos hg0)))
  simp only [zero_add] at this
  exact this

/-- **C90** The same for `cutting_plane_optim` with an oracle that never reports an improvement; `γ` is what it was. -/
theorem C90_optim_same_cut (he : e.Valid n) (hg : g.IsVecShape n) (hg0 : g.toVec n ≠ 0) (hhi : Cut.hi c = none)
    (hlo : 0 ≤ Cut.lo c) {orc : OracleOptim Ω (Arr ℝ) T ℝ}
    (hor : ∀ w x γ, x.IsVecShape n → ∃ w', orc.assess w x γ = .ok (((g, c), false), γ, w')) (w : Ω) (γ : ℝ)
    (opts : Options ℝ) :
    ∃ k w' e', cuttingPlaneOptim orc Ell.space w e γ opts = .ok ((none, k), γ, w', e') ∧
      FirstStop (fun i => stopsAt (Cut.lo c) opts.tolerance (reach n (e.tau n (g.toVec n)) (Cut.lo c) i)) opts.maxIters k := by
  have := optim_repeat (tol := opts.tolerance) he.dim hg hhi hlo hor γ opts.maxIters 0 w e (he.reaching _)
    (Or.inr (Real.sqrt_pos.mpr (he.tsq_pos hg0)))
  simp only [zero_add] at this
  exact this

/-- **C90** The same for `cutting_plane_optim_q`, whatever the oracle says about alternatives. -/
theorem C90_optim_q_same_cut (he : e.Valid n) (hg : g.IsVecShape n) (hg0 : g.toVec n ≠ 0) (hhi : Cut.hi c = none)
    (hlo : 0 ≤ Cut.lo c) {orc : OracleOptimQ Ω (Arr ℝ) T ℝ}
    (hor : ∀ w x γ retry, x.IsVecShape n → ∃ xq more w', orc.assess w x γ retry = .ok (((g, c), false, xq, more), γ, w'))
    (w : Ω) (γ : ℝ) (opts : Options ℝ) :
    ∃ k w' e', cuttingPlaneOptimQ orc Ell.space w e γ opts = .ok ((none, k), γ, w', e') ∧
      FirstStop (fun i => stopsAt (Cut.lo c) opts.tolerance (reach n (e.tau n (g.toVec n)) (Cut.lo c) i)) opts.maxIters k := by
  have := optimQ_repeat (tol := opts.tolerance) he.dim hg hhi hlo hor γ opts.maxIters 0 false w e (he.reaching _)
    (Or.inr (Real.sqrt_pos.mpr (he.tsq_pos hg0)))
  simp only [zero_add] at this
  exact this

end
end Ellalgo
