import Verif.Props.Solve

/-! C61: epsilon-optimality when gradients may vanish. -/

namespace Ellalgo
open Matrix

variable {Ω : Type} {n : Nat} {orc : OracleOptim Ω (Arr ℝ) (SingleCut ℝ) ℝ} {I : Ω → ℝ → Prop}
  {F B : Set (Fin n → ℝ)} {f : (Fin n → ℝ) → ℝ}

/-- an oracle with gradients bounded away from zero is a special case -/
theorem Maximizes.optimizes {G : ℝ} (hG : 0 < G) (h : Maximizes n orc I F f G) (B : Set (Fin n → ℝ)) :
    Optimizes n orc I F f B := by
  intro ε _
  refine ⟨G, hG, 1, one_pos, fun w x γ hw hx => ?_⟩
  obtain ⟨g, b, s, γ', w', h1, h2, h3, -, h5⟩ := h w x γ hw hx
  exact ⟨g, b, s, γ', w', h1, h2, h3, Or.inl h5⟩

/-- main induction -/
theorem smooth_loop (hn : 0 < n) {ε G δ r : ℝ} (hδ : 0 < δ) (hG : 0 < G) (hr : 0 < r) {p : Fin n → ℝ} {lvl γ0 tol : ℝ}
    (hq : ∀ w x γ, I w γ → x.IsVecShape n → ∃ g beta shrunk γ' w',
      orc.assess w x γ = .ok (((g, ⟨beta⟩), shrunk), γ', w') ∧ I w' γ' ∧
      MaxAnswer F f (x.toVec n) γ g beta shrunk γ' ∧
      (G ^ 2 ≤ normSq (g.toVec n) ∨
        ∀ z ∈ F, z ∈ B → γ' + ε ≤ f z → g.toVec n ⬝ᵥ (z - x.toVec n) + beta ≤ -δ))
    (hball : ∀ z ∈ ball p r, z ∈ F ∧ z ∈ B ∧ lvl + ε ≤ f z) (hε : 0 < ε)
    (ht1 : tol ≤ r ^ 2 * G ^ 2) (ht2 : tol ≤ δ ^ 2) (m : Nat) :
    ∀ (n0 : Nat) (xb : Option (Arr ℝ)) (w : Ω) (e : Ell ℝ) (γ : ℝ), I w γ → e.Shaped n → Attained n F f γ0 xb γ →
      ∃ xb' k γ' w' e', optimLoop orc Ell.space tol m n0 xb w e γ = .ok ((xb', k), γ', w', e') ∧
        γ ≤ γ' ∧ Attained n F f γ0 xb' γ' ∧
        (e.Valid n → ball p r ⊆ e.region n → iterBound n e r < m → lvl ≤ γ') := by
  have hpball : p ∈ ball p r := by
    show normSq (p - p) ≤ r ^ 2
    rw [sub_self]; simp [normSq]; positivity
  induction m with
  | zero =>
    intro n0 xb w e γ _ _ hA
    refine ⟨_, _, _, _, _, rfl, le_rfl, hA, ?_⟩
    intro he hb hit
    have := iterBound_nonneg he hr hb
    simp only [Nat.cast_zero] at hit
    linarith
  | succ m ih =>
    intro n0 xb w e γ hI hsh hA
    obtain ⟨g, b, s, γ1, w1, hq1, hI1, hm, hgd⟩ := hq w e.xc γ hI hsh.2
    have hq' : orc.assess w (Ell.space (T := SingleCut ℝ).xc e) γ = .ok (((g, ⟨b⟩), s), γ1, w1) := hq1
    obtain ⟨st, e1, hu, hsh1⟩ : ∃ st e1, (if s then Ell.space.updateCentral e (g, (⟨b⟩ : SingleCut ℝ))
        else Ell.space.updateBias e (g, (⟨b⟩ : SingleCut ℝ))) = .ok (st, e1) ∧ e1.Shaped n := by
      cases s
      · obtain ⟨st, e1, h1, h2, _⟩ := Ell.update_shape hn .bias e (g, (⟨b⟩ : SingleCut ℝ)) hsh hm.shape
        exact ⟨st, e1, h1, h2⟩
      · obtain ⟨st, e1, h1, h2, _⟩ := Ell.update_shape hn .central e (g, (⟨b⟩ : SingleCut ℝ)) hsh hm.shape
        exact ⟨st, e1, h1, h2⟩
    have hA' : Attained n F f γ0 (if s = true then some (Ell.space (T := SingleCut ℝ).xc e) else xb) γ1 := by
      have hv := hm.value
      cases hs : s with
      | true =>
        rw [hs] at hv
        exact Or.inr ⟨e.xc, rfl, hsh.2, (hm.improves.1 hs).1, by rw [hv]; rfl⟩
      | false =>
        rw [hs] at hv
        simp only [Bool.false_eq_true, if_false] at hv ⊢
        rw [hv]; exact hA
    have good : e.Valid n → ball p r ⊆ e.region n → γ1 < lvl →
        st = .success ∧ e1.Valid n ∧ ball p r ⊆ e1.region n ∧ iterBound n e1 r ≤ iterBound n e r - 1 ∧
        Scalar.lt (Ell.space (T := SingleCut ℝ).tsq e1) tol = false := by
      intro he hb hlt
      have hb0 : 0 ≤ b := by
        cases s with
        | true => rw [(hm.accepted rfl).1]
        | false => exact (hm.rejected rfl).1.le
      have hkeep : ∀ z ∈ ball p r, g.toVec n ⬝ᵥ (z - e.c n) + b ≤ 0 := by
        intro z hz
        obtain ⟨z1, -, z3⟩ := hball z hz
        cases hs : s with
        | true =>
          have h1 := (hm.accepted hs).2 z z1 (by linarith)
          rw [(hm.accepted hs).1]
          have : g.toVec n ⬝ᵥ (z - e.c n) ≤ 0 := h1
          linarith
        | false => exact (hm.rejected hs).2 z z1 (by linarith [hm.mono])
      have hgd' : G ^ 2 ≤ normSq (g.toVec n) ∨ g.toVec n ⬝ᵥ (p - e.c n) ≤ -δ := by
        rcases hgd with h | h
        · exact Or.inl h
        · right
          obtain ⟨z1, z2, z3⟩ := hball p hpball
          have : g.toVec n ⬝ᵥ (p - e.c n) + b ≤ -δ := h p z1 z2 (by linarith)
          linarith
      have hg : g.toVec n ≠ 0 := by
        intro h0
        rw [h0] at hgd'
        rcases hgd' with h | h
        · simp [normSq] at h; nlinarith
        · simp at h; linarith
      obtain ⟨kd, hkd, hlo, hsat⟩ : ∃ kd : UpdateKind, (kd = if s then .central else .bias) ∧ 0 ≤ kd.lo b ∧
          ∀ y ∈ ball p r, Cut.Sat kd (⟨b⟩ : SingleCut ℝ) (g.toVec n ⬝ᵥ (y - e.c n)) := by
        cases s
        · exact ⟨.bias, rfl, by simpa using hb0, fun y hy => ⟨by simpa using hkeep y hy, by simp⟩⟩
        · refine ⟨.central, rfl, by simp, fun y hy => ⟨?_, by simp⟩⟩
          have : g.toVec n ⬝ᵥ (y - e.c n) ≤ 0 := by linarith [hkeep y hy]
          simpa using this
      obtain ⟨e2, hu2, hv, hb', hvol, htq, htsq⟩ := Ell.step_ball he kd (g, (⟨b⟩ : SingleCut ℝ)) hm.shape hg hlo hr hb hsat
      have hu' : Ell.space.update kd e (g, (⟨b⟩ : SingleCut ℝ)) = .ok (st, e1) := by
        rw [← hu, hkd]
        cases s <;> rfl
      rw [hu2] at hu'
      simp only [Res.ok.injEq, Prod.mk.injEq] at hu'
      obtain ⟨rfl, rfl⟩ := hu'
      refine ⟨rfl, hv, hb', iterBound_step he hv hr hvol, ?_⟩
      have : tol ≤ e2.tsq := by
        rcases hgd' with h | h
        · exact ht1.trans ((mul_le_mul_of_nonneg_left h (by positivity)).trans htsq)
        · refine ht2.trans ?_
          have h2 := dot_sq_le he.posDef (hb hpball) (g.toVec n)
          rw [htq]
          refine le_trans ?_ h2
          nlinarith
      show Scalar.lt e2.tsq tol = false
      rw [Scalar.real_lt]
      simpa using this
    unfold optimLoop
    simp only [hq', Res.ok_bind, hu]
    split
    · rename_i hstop
      refine ⟨_, _, _, _, _, rfl, hm.mono, hA', ?_⟩
      intro he hb _
      by_contra hcon
      obtain ⟨h1, -, -, -, h2⟩ := good he hb (not_le.1 hcon)
      rw [h1, h2] at hstop
      simp at hstop
    · obtain ⟨xb', k, γ', w', e', h1, h2, h3, h4⟩ := ih (n0 + 1)
        (if s = true then some (Ell.space (T := SingleCut ℝ).xc e) else xb) w1 e1 γ1 hI1 hsh1 hA'
      refine ⟨xb', k, γ', w', e', h1, hm.mono.trans h2, h3, ?_⟩
      intro he hb hit
      by_contra hcon
      obtain ⟨-, a1, a2, a3, -⟩ := good he hb (by linarith [not_le.1 hcon])
      exact hcon (h4 a1 a2 (by push_cast at hit; linarith))

/-- **C61** Epsilon-optimality as in C56, for oracles whose gradients may vanish (`Optimizes`, with the initial ellipsoid
as the set of interest). -/
theorem C61_epsilon_optimal_smooth (w : Ω) (e : Ell ℝ) (γ : ℝ) (h : Optimizes n orc I F f (e.region n)) (hw : I w γ)
    (he : e.Valid n) (hF : Convex ℝ F) (hint : (interior F).Nonempty) {xs : Fin n → ℝ} (hxs : xs ∈ F)
    (hmax : ∀ x ∈ F, f x ≤ f xs) (hcont : ContinuousAt f xs) (hin : xs ∈ interior (e.region n)) (hγ : γ ≤ f xs)
    {ε : ℝ} (hε : 0 < ε) :
    ∃ (N : Nat) (tol0 : ℝ), 0 < tol0 ∧ ∀ opts : Options ℝ, N ≤ opts.maxIters → opts.tolerance ≤ tol0 →
      ∃ xb k γ' w' e', cuttingPlaneOptim orc Ell.space w e γ opts = .ok ((xb, k), γ', w', e') ∧
        f xs - ε ≤ γ' ∧ γ' ≤ f xs ∧
        ((xb = none ∧ γ' = γ) ∨ ∃ x, xb = some x ∧ x.toVec n ∈ F ∧ f (x.toVec n) = γ') := by
  obtain ⟨G, hG, δ, hδ, hq⟩ := h (ε / 2) (by linarith)
  have hU : {x | f xs - ε / 2 ≤ f x} ∩ e.region n ∈ nhds xs := by
    refine Filter.inter_mem ?_ (mem_interior_iff_mem_nhds.1 hin)
    have := hcont.eventually (lt_mem_nhds (show f xs - ε / 2 < f xs by linarith))
    filter_upwards [this] with x hx using hx.le
  obtain ⟨p, r, hr, hb1, hb2⟩ := exists_ball_near hF hint hxs hU
  refine ⟨Nat.floor (((n : ℝ) + 1) * Real.log ((e.kappa • e.M n).det / (r ^ 2) ^ n)) + 1,
    min (r ^ 2 * G ^ 2) (δ ^ 2), lt_min (by positivity) (by positivity), ?_⟩
  intro opts hN htol
  obtain ⟨xb, k, γ', w', e', h1, h2, hA, h3⟩ := smooth_loop (lvl := f xs - ε) (γ0 := γ) (p := p) he.pos hδ hG hr hq
    (fun z hz => ⟨hb1 hz, (hb2 hz).2, by have := (hb2 hz).1; simp only [Set.mem_ofPred_eq] at this; linarith⟩)
    (by linarith) (htol.trans (min_le_left _ _)) (htol.trans (min_le_right _ _)) opts.maxIters 0 none w e γ hw he.shaped
    (Or.inl ⟨rfl, rfl⟩)
  refine ⟨xb, k, γ', w', e', h1, h3 he (fun x hx => (hb2 hx).2) ?_, ?_, ?_⟩
  · have := Nat.lt_floor_add_one (((n : ℝ) + 1) * Real.log ((e.kappa • e.M n).det / (r ^ 2) ^ n))
    have hN' : ((Nat.floor (((n : ℝ) + 1) * Real.log ((e.kappa • e.M n).det / (r ^ 2) ^ n)) + 1 : ℕ) : ℝ) ≤
      opts.maxIters := by exact_mod_cast hN
    push_cast at hN'
    exact this.trans_le hN'
  · rcases hA with ⟨-, rfl⟩ | ⟨x, -, -, hx, rfl⟩
    · exact hγ
    · exact hmax _ hx
  · rcases hA with h | ⟨x, h1, -, h3, h4⟩
    · exact Or.inl h
    · exact Or.inr ⟨x, h1, h3, h4⟩

end Ellalgo
