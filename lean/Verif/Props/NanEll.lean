import Verif.Lib.NanLemmas
import Verif.Props.EllGeneric

/-! C81: what a NaN does to the ellipsoid and to the cutting-plane methods. -/

namespace Ellalgo
variable {α : Type} [Scalar α] {N : α → Prop}

theorem Ell.tsq_nan (hN : NanLaws N) {n : Nat} {e : Ell α} (he : e.Shaped n) {g : Arr α} (hg : g.IsVecShape n)
    (h : g.SomeNan N ∨ e.Spoilt N) : N (e.kappa * Ell.om n e.mq.mat g.vec) := by
  rcases h with h | h | h
  · exact hN.mul_right _ (Ell.om_nan hN (Or.inl (hg.isVec.someNan.1 h)))
  · exact hN.mul_left h _
  · exact hN.mul_right _ (Ell.om_nan hN (Or.inr (he.1.isMat.someNan.1 h)))

/-- **C81** (single cuts)  If the gradient, the ellipsoid's size or (for bias and quantised cuts) the offset has a NaN, the
update is reported as `Success`, every coordinate of the new centre is a NaN, and the ellipsoid's size is spoilt. -/
theorem C81_nan_cut_succeeds (hN : NanLaws N) {n : Nat} (hn : 0 < n) (k : UpdateKind) (e : Ell α) (he : e.Shaped n)
    (g : Arr α) (hg : g.IsVecShape n) (beta : α)
    (h : g.SomeNan N ∨ e.Spoilt N ∨ (k ≠ .central ∧ N beta)) :
    ∃ e', Ell.space.update k e (g, (⟨beta⟩ : SingleCut α)) = .ok (.success, e') ∧ e'.Shaped n ∧ e'.xc.AllNan N ∧
      e'.Spoilt N := by
  have hs : ∃ ρ σ δ, CutType.call k (⟨beta⟩ : SingleCut α) e.helper (e.kappa * Ell.om n e.mq.mat g.vec) =
      (.success, ρ, σ, δ) ∧ N ρ ∧ (e.Spoilt N ∨ g.SomeNan N ∨ N δ) := by
    rcases h with h | h | h
    · obtain ⟨ρ, σ, δ, h1, h2, -⟩ := single_nan hN e.helper k beta _ (Or.inl (Ell.tsq_nan hN he hg (Or.inl h)))
      exact ⟨ρ, σ, δ, h1, h2, Or.inr (Or.inl h)⟩
    · obtain ⟨ρ, σ, δ, h1, h2, -⟩ := single_nan hN e.helper k beta _ (Or.inl (Ell.tsq_nan hN he hg (Or.inr h)))
      exact ⟨ρ, σ, δ, h1, h2, Or.inl h⟩
    · obtain ⟨ρ, σ, δ, h1, h2, h3⟩ := single_nan hN e.helper k beta (e.kappa * Ell.om n e.mq.mat g.vec) (Or.inr h)
      exact ⟨ρ, σ, δ, h1, h2, Or.inr (Or.inr (h3 h.1))⟩
  obtain ⟨e', h1, h2, -, h3, h4, -⟩ := Ell.update_nan hN hn k e he g hg _ hs
  exact ⟨e', h1, h2, h3, h4⟩

/-- **C81** (parallel cuts)  The same, except that the comparison of the two offsets comes first: `NoSoln` is reported if and
only if that comparison fails (`beta1 < beta0`, or `beta1 < 0` for a central cut). -/
theorem C81_nan_parallel_cut (hN : NanLaws N) {n : Nat} (hn : 0 < n) (k : UpdateKind) (e : Ell α) (he : e.Shaped n)
    (g : Arr α) (hg : g.IsVecShape n) (b0 b1 : α)
    (h : g.SomeNan N ∨ e.Spoilt N ∨ (k ≠ .central ∧ N b0) ∨ (e.helper.useParallelCut = true ∧ N b1)) :
    (Scalar.lt b1 (if k = .central then 0 else b0) = true ∧
      Ell.space.update k e (g, (⟨b0, some b1⟩ : ParallelCut α)) =
        .ok (.noSoln, { e with tsq := e.kappa * Ell.om n e.mq.mat g.vec })) ∨
    (Scalar.lt b1 (if k = .central then 0 else b0) = false ∧
      ∃ e', Ell.space.update k e (g, (⟨b0, some b1⟩ : ParallelCut α)) = .ok (.success, e') ∧ e'.Shaped n ∧
        e'.xc.AllNan N ∧ e'.Spoilt N) := by
  have ht : g.SomeNan N ∨ e.Spoilt N → N (e.kappa * Ell.om n e.mq.mat g.vec) := Ell.tsq_nan hN he hg
  have key := par_nan hN e.helper k b0 b1 (e.kappa * Ell.om n e.mq.mat g.vec) (by
    rcases h with h | h | h
    · exact Or.inl (ht (Or.inl h))
    · exact Or.inl (ht (Or.inr h))
    · exact Or.inr h)
  rcases key with ⟨h1, h2⟩ | ⟨h1, ρ, σ, δ, h2, h3, h4⟩
  · left
    refine ⟨h1, ?_⟩
    rcases hc : CutType.call k (⟨b0, some b1⟩ : ParallelCut α) e.helper (e.kappa * Ell.om n e.mq.mat g.vec) with ⟨st, ρ, σ, δ⟩
    rw [hc] at h2
    have h2 : st = .noSoln := h2
    subst h2
    rcases Ell.updateCore_spec he.1.isMat he.2.isVec hg.isVec hn _ hc with ⟨-, h5⟩ | ⟨h5, -⟩
    · rw [Ell.update_eq]; exact h5
    · simp at h5
  · right
    refine ⟨h1, ?_⟩
    by_cases hsp : g.SomeNan N ∨ e.Spoilt N
    · obtain ⟨e', h5, h6, -, h7, h8, -⟩ := Ell.update_nan hN hn k e he g hg (⟨b0, some b1⟩ : ParallelCut α)
        ⟨ρ, σ, δ, h2, h3, hsp.elim (fun h => Or.inr (Or.inl h)) Or.inl⟩
      exact ⟨e', h5, h6, h7, h8⟩
    · -- only an offset is a NaN: the parameters themselves are spoilt
      have h' : (k ≠ .central ∧ N b0) ∨ (e.helper.useParallelCut = true ∧ N b1) := by
        rcases h with h | h | h
        · exact absurd (Or.inl h) hsp
        · exact absurd (Or.inr h) hsp
        · exact h
      rcases h4 with h4 | ⟨hk, hu⟩
      · obtain ⟨e', h5, h6, -, h7, h8, -⟩ := Ell.update_nan hN hn k e he g hg (⟨b0, some b1⟩ : ParallelCut α)
          ⟨ρ, σ, δ, h2, h3, Or.inr (Or.inr h4)⟩
        exact ⟨e', h5, h6, h7, h8⟩
      · rcases h' with h' | h'
        · exact absurd hk h'.1
        · rw [hu] at h'; simp at h'

/-- **C81** (permanence)  Once the size is spoilt, every further single cut, whatever its kind, gradient and offset, is
reported as `Success`, and the centre consists of NaN from then on. -/
theorem C81_nan_is_permanent (hN : NanLaws N) {n : Nat} (hn : 0 < n) (e : Ell α) (he : e.Shaped n) (hsp : e.Spoilt N)
    (cuts : List (UpdateKind × Arr α × SingleCut α)) (hg : ∀ c ∈ cuts, c.2.1.IsVecShape n) :
    ∃ tr, Ell.space.run e cuts = .ok tr ∧ tr.length = cuts.length ∧
      ∀ p ∈ tr, p.1 = .success ∧ p.2.xc.AllNan N ∧ p.2.Spoilt N := by
  induction cuts generalizing e with
  | nil => exact ⟨[], rfl, rfl, by simp⟩
  | cons c cs ih =>
    obtain ⟨k, g, b⟩ := c
    obtain ⟨e', h1, h2, h3, h4⟩ := C81_nan_cut_succeeds hN hn k e he g (hg (k, g, b) (by simp)) b.beta (Or.inr (Or.inl hsp))
    have h1 : Ell.space.update k e (g, b) = .ok (.success, e') := h1
    obtain ⟨tr, h5, h6, h7⟩ := ih e' h2 h4 (fun c hc => hg c (by simp [hc]))
    refine ⟨(.success, e') :: tr, ?_, by simp [h6], ?_⟩
    · simp only [Space.run, h1, Res.ok_bind, h5]
    · intro p hp
      rcases List.mem_cons.mp hp with rfl | hp
      · exact ⟨rfl, h3, h4⟩
      · exact h7 p hp

/-- a single cut on a spoilt ellipsoid leaves a NaN in `tsq` -/
theorem Ell.spoilt_step (hN : NanLaws N) {n : Nat} (hn : 0 < n) (k : UpdateKind) (e : Ell α) (he : e.Shaped n)
    (hsp : e.Spoilt N) (g : Arr α) (hg : g.IsVecShape n) (c : SingleCut α) :
    ∃ e', Ell.space.update k e (g, c) = .ok (.success, e') ∧ e'.Shaped n ∧ e'.xc.AllNan N ∧ e'.Spoilt N ∧ N e'.tsq := by
  have ht := Ell.tsq_nan hN he hg (Or.inr hsp)
  obtain ⟨ρ, σ, δ, h1, h2, -⟩ := single_nan hN e.helper k c.beta _ (Or.inl ht)
  obtain ⟨e', h5, h6, -, h7, h8, h9⟩ := Ell.update_nan hN hn k e he g hg c ⟨ρ, σ, δ, h1, h2, Or.inl hsp⟩
  exact ⟨e', h5, h6, h7, h8, by rw [h9]; exact ht⟩

section loops
variable {Ω : Type}

theorem feasLoop_spoilt (hN : NanLaws N) {n : Nat} (hn : 0 < n) (orc : OracleFeas Ω (Arr α) (SingleCut α) α)
    (hsh : ∀ w x g c w', orc.assess w x = .ok (some (g, c), w') → g.IsVecShape n) (tol : α) (m : Nat) :
    ∀ (n0 : Nat) (w : Ω) (e : Ell α) (r : Option (Arr α)) (k : Nat) (w' : Ω) (e' : Ell α), e.Shaped n → e.Spoilt N →
      feasLoop orc Ell.space tol m n0 w e = .ok ((r, k), w', e') →
      (r = none → k = n0 + m) ∧ ∀ x, r = some x → (k = n0 ∧ x = e.xc) ∨ x.AllNan N := by
  induction m with
  | zero =>
    intro n0 w e r k w' e' _ _ h
    simp only [feasLoop, Res.ok.injEq, Prod.mk.injEq] at h
    obtain ⟨⟨rfl, rfl⟩, -, -⟩ := h
    simp
  | succ m ih =>
    intro n0 w e r k w' e' he hsp h
    unfold feasLoop at h
    simp only [Res.bind_eq_ok] at h
    obtain ⟨⟨cut, w1⟩, hq, h⟩ := h
    cases cut with
    | none =>
      simp only [Res.ok.injEq, Prod.mk.injEq] at h
      obtain ⟨⟨rfl, rfl⟩, -, -⟩ := h
      refine ⟨by simp, fun x hx => Or.inl ⟨rfl, ?_⟩⟩
      simpa [Ell.space] using hx.symm
    | some c =>
      obtain ⟨g, b⟩ := c
      obtain ⟨e1, h1, h2, h3, h4, h5⟩ := Ell.spoilt_step hN hn .bias e he hsp g (hsh _ _ _ _ _ hq) b
      have h1 : (Ell.space (T := SingleCut α)).updateBias e (g, b) = .ok (.success, e1) := h1
      have hlt : Scalar.lt ((Ell.space (T := SingleCut α)).tsq e1) tol = false := hN.lt_left h5 _
      simp only [h1, Res.ok_bind, hlt, bne_self_eq_false, Bool.or_self, Bool.false_eq_true, if_false] at h
      obtain ⟨i1, i2⟩ := ih (n0 + 1) w1 e1 r k w' e' h2 h4 h
      refine ⟨fun hr => by rw [i1 hr]; omega, fun x hx => Or.inr ?_⟩
      rcases i2 x hx with ⟨-, rfl⟩ | h
      · exact h3
      · exact h

/-- **C81** (feasibility)  Started on a spoilt ellipsoid, `cutting_plane_feas` never reports "no solution" before
`max_iters`: it either uses up all iterations or ends with the oracle's approval, of the starting centre or of a point all of
whose coordinates are NaN. -/
theorem C81_feas_on_nan (hN : NanLaws N) {n : Nat} (hn : 0 < n) (orc : OracleFeas Ω (Arr α) (SingleCut α) α)
    (hsh : ∀ w x g c w', orc.assess w x = .ok (some (g, c), w') → g.IsVecShape n) (w : Ω) (e : Ell α) (he : e.Shaped n)
    (hsp : e.Spoilt N) (opts : Options α) (r : Option (Arr α)) (k : Nat) (w' : Ω) (e' : Ell α)
    (h : cuttingPlaneFeas orc Ell.space w e opts = .ok ((r, k), w', e')) :
    (r = none ∧ k = opts.maxIters) ∨ (r = some e.xc ∧ k = 0) ∨ ∃ x, r = some x ∧ x.AllNan N := by
  obtain ⟨h1, h2⟩ := feasLoop_spoilt hN hn orc hsh opts.tolerance opts.maxIters 0 w e r k w' e' he hsp h
  cases r with
  | none => exact Or.inl ⟨rfl, by rw [h1 rfl]; omega⟩
  | some x =>
    rcases h2 x rfl with ⟨h3, h4⟩ | h3
    · exact Or.inr (Or.inl ⟨by rw [h4], h3⟩)
    · exact Or.inr (Or.inr ⟨x, rfl, h3⟩)

theorem optimLoop_spoilt (hN : NanLaws N) {n : Nat} (hn : 0 < n) (orc : OracleOptim Ω (Arr α) (SingleCut α) α)
    (hsh : ∀ w x γ g c s γ' w', orc.assess w x γ = .ok (((g, c), s), γ', w') → g.IsVecShape n) (tol : α) (m : Nat) :
    ∀ (n0 : Nat) (xb : Option (Arr α)) (w : Ω) (e : Ell α) (γ : α) (r : Option (Arr α)) (k : Nat) (γ' : α) (w' : Ω)
      (e' : Ell α), e.Shaped n → e.Spoilt N →
      optimLoop orc Ell.space tol m n0 xb w e γ = .ok ((r, k), γ', w', e') → k = n0 + m := by
  induction m with
  | zero =>
    intro n0 xb w e γ r k γ' w' e' _ _ h
    simp only [optimLoop, Res.ok.injEq, Prod.mk.injEq] at h
    obtain ⟨⟨-, rfl⟩, -, -⟩ := h
    rfl
  | succ m ih =>
    intro n0 xb w e γ r k γ' w' e' he hsp h
    unfold optimLoop at h
    simp only [Res.bind_eq_ok] at h
    obtain ⟨⟨⟨⟨g, b⟩, s⟩, γ1, w1⟩, hq, h⟩ := h
    have hg := hsh _ _ _ _ _ _ _ _ hq
    obtain ⟨e1, h1, h2, -, h4, h5⟩ := Ell.spoilt_step hN hn (if s then .central else .bias) e he hsp g hg b
    have h1 : (if s = true then (Ell.space (T := SingleCut α)).updateCentral e (g, b)
        else (Ell.space (T := SingleCut α)).updateBias e (g, b)) = .ok (.success, e1) := by
      cases s <;> exact h1
    have hlt : Scalar.lt ((Ell.space (T := SingleCut α)).tsq e1) tol = false := hN.lt_left h5 _
    obtain ⟨⟨st, e2⟩, h6, h⟩ := h
    rw [h1] at h6
    simp only [Res.ok.injEq, Prod.mk.injEq] at h6
    obtain ⟨rfl, rfl⟩ := h6
    simp only [hlt, bne_self_eq_false, Bool.or_self, Bool.false_eq_true, if_false] at h
    rw [ih _ _ _ _ _ _ _ _ _ _ h2 h4 h]
    omega

/-- **C81** (optimisation)  Started on a spoilt ellipsoid, `cutting_plane_optim` uses up all `max_iters` iterations. -/
theorem C81_optim_on_nan (hN : NanLaws N) {n : Nat} (hn : 0 < n) (orc : OracleOptim Ω (Arr α) (SingleCut α) α)
    (hsh : ∀ w x γ g c s γ' w', orc.assess w x γ = .ok (((g, c), s), γ', w') → g.IsVecShape n) (w : Ω) (e : Ell α)
    (he : e.Shaped n) (hsp : e.Spoilt N) (γ : α) (opts : Options α) (r : Option (Arr α)) (k : Nat) (γ' : α) (w' : Ω)
    (e' : Ell α) (h : cuttingPlaneOptim orc Ell.space w e γ opts = .ok ((r, k), γ', w', e')) : k = opts.maxIters := by
  rw [optimLoop_spoilt hN hn orc hsh opts.tolerance opts.maxIters 0 none w e γ r k γ' w' e' he hsp h]
  omega

end loops

end Ellalgo
