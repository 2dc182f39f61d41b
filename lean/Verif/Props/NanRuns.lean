import Verif.Props.NanOracles

/-! C81: what an early stop says about NaN, and what comes back from a spoilt optimisation. -/

namespace Ellalgo
variable {α : Type} [Scalar α] {N : α → Prop} {Ω : Type}

/-- an update with a NaN in `tsq` is a success -/
theorem Ell.update_tsq_nan (hN : NanLaws N) {n : Nat} (hn : 0 < n) (k : UpdateKind) (e : Ell α) (he : e.Shaped n)
    (g : Arr α) (hg : g.IsVecShape n) (c : SingleCut α) {st : CutStatus} {e' : Ell α}
    (h : Ell.space.update k e (g, c) = .ok (st, e')) : e'.Shaped n ∧ (N e'.tsq → st = .success) := by
  rcases hc : CutType.call k c e.helper (e.kappa * Ell.om n e.mq.mat g.vec) with ⟨st', ρ, σ, δ⟩
  rw [Ell.update_eq] at h
  rcases Ell.updateCore_spec he.1.isMat he.2.isVec hg.isVec hn _ hc with ⟨h1, h2⟩ | ⟨h1, e2, h2, h3, h4, -⟩
  · rw [h2] at h
    cases h
    refine ⟨he, fun hnan => ?_⟩
    obtain ⟨ρ', σ', δ', h5, -, -⟩ := single_nan hN e.helper k c.beta _ (Or.inl hnan)
    have h5 : CutType.call k c e.helper (e.kappa * Ell.om n e.mq.mat g.vec) = (.success, ρ', σ', δ') := h5
    rw [hc] at h5
    simpa using congrArg Prod.fst h5
  · rw [h2] at h
    cases h
    exact ⟨⟨h3.shape, h4.shape⟩, fun _ => rfl⟩

theorem feasLoop_early (hN : NanLaws N) {n : Nat} (hn : 0 < n) (orc : OracleFeas Ω (Arr α) (SingleCut α) α)
    (hsh : ∀ w x g c w', orc.assess w x = .ok (some (g, c), w') → g.IsVecShape n) (tol : α) (m : Nat) :
    ∀ (n0 : Nat) (w : Ω) (e : Ell α) (k : Nat) (w' : Ω) (e' : Ell α), e.Shaped n →
      feasLoop orc Ell.space tol m n0 w e = .ok ((none, k), w', e') → k < n0 + m → ¬ N e'.tsq := by
  induction m with
  | zero =>
    intro n0 w e k w' e' _ h hk
    simp only [feasLoop, Res.ok.injEq, Prod.mk.injEq] at h
    omega
  | succ m ih =>
    intro n0 w e k w' e' he h hk
    unfold feasLoop at h
    simp only [Res.bind_eq_ok] at h
    obtain ⟨⟨cut, w1⟩, hq, h⟩ := h
    cases cut with
    | none => simp at h
    | some c =>
      obtain ⟨g, b⟩ := c
      simp only [Res.bind_eq_ok] at h
      obtain ⟨⟨st, e1⟩, hu, h⟩ := h
      obtain ⟨h1, h2⟩ := Ell.update_tsq_nan hN hn .bias e he g (hsh _ _ _ _ _ hq) b hu
      split at h
      · rename_i hstop
        simp only [Res.ok.injEq, Prod.mk.injEq] at h
        obtain ⟨-, -, rfl⟩ := h
        intro hnan
        rw [h2 hnan] at hstop
        have : Scalar.lt ((Ell.space (T := SingleCut α)).tsq e1) tol = false := hN.lt_left hnan _
        simp [this] at hstop
      · exact ih _ _ _ _ _ _ h1 h (by omega)

/-- **C81** (early stop)  A "no solution" that `cutting_plane_feas` reports before `max_iters` is not the work of a NaN: the
ellipsoid it started from was not spoilt, and the test value that ended the loop is a number. -/
theorem C81_early_stop_is_not_nan (hN : NanLaws N) {n : Nat} (hn : 0 < n) (orc : OracleFeas Ω (Arr α) (SingleCut α) α)
    (hsh : ∀ w x g c w', orc.assess w x = .ok (some (g, c), w') → g.IsVecShape n) (w : Ω) (e : Ell α) (he : e.Shaped n)
    (opts : Options α) (k : Nat) (w' : Ω) (e' : Ell α)
    (h : cuttingPlaneFeas orc Ell.space w e opts = .ok ((none, k), w', e')) (hk : k < opts.maxIters) :
    ¬ e.Spoilt N ∧ ¬ N e'.tsq := by
  refine ⟨fun hsp => ?_, feasLoop_early hN hn orc hsh _ _ 0 w e k w' e' he h (by omega)⟩
  rcases C81_feas_on_nan hN hn orc hsh w e he hsp opts none k w' e' h with ⟨-, h1⟩ | ⟨h1, -⟩ | ⟨x, h1, -⟩
  · omega
  · simp at h1
  · simp at h1

theorem optimLoop_answer_nan (hN : NanLaws N) {n : Nat} (hn : 0 < n) (orc : OracleOptim Ω (Arr α) (SingleCut α) α)
    (hsh : ∀ w x γ g c s γ' w', orc.assess w x γ = .ok (((g, c), s), γ', w') → g.IsVecShape n) (W : Ω → Prop)
    (hW : ∀ w x γ r γ' w', W w → orc.assess w x γ = .ok (r, γ', w') → W w')
    (hacc : ∀ w x γ g c s γ' w', W w → x.IsVecShape n → x.AllNan N → orc.assess w x γ = .ok (((g, c), s), γ', w') → s = true)
    (tol : α) (m : Nat) :
    ∀ (n0 : Nat) (xb : Option (Arr α)) (w : Ω) (e : Ell α) (γ : α) (r : Option (Arr α)) (k : Nat) (γ' : α) (w' : Ω)
      (e' : Ell α), W w → e.Shaped n → e.Spoilt N → e.xc.AllNan N →
      (0 < m ∨ ∃ x, xb = some x ∧ x.AllNan N) →
      optimLoop orc Ell.space tol m n0 xb w e γ = .ok ((r, k), γ', w', e') → ∃ x, r = some x ∧ x.AllNan N := by
  induction m with
  | zero =>
    intro n0 xb w e γ r k γ' w' e' _ _ _ _ hx h
    simp only [optimLoop, Res.ok.injEq, Prod.mk.injEq] at h
    obtain ⟨⟨rfl, -⟩, -⟩ := h
    simpa using hx
  | succ m ih =>
    intro n0 xb w e γ r k γ' w' e' hw he hsp hxc hx h
    unfold optimLoop at h
    simp only [Res.bind_eq_ok] at h
    obtain ⟨⟨⟨⟨g, b⟩, s⟩, γ1, w1⟩, hq, h⟩ := h
    have hg := hsh _ _ _ _ _ _ _ _ hq
    obtain rfl : s = true := hacc _ _ _ _ _ _ _ _ hw he.2 hxc hq
    obtain ⟨e1, h1, h2, h3, h4, h5⟩ := Ell.spoilt_step hN hn .central e he hsp g hg b
    have h1 : (Ell.space (T := SingleCut α)).updateCentral e (g, b) = .ok (.success, e1) := h1
    have hlt : Scalar.lt ((Ell.space (T := SingleCut α)).tsq e1) tol = false := hN.lt_left h5 _
    obtain ⟨⟨st, e2⟩, h6, h⟩ := h
    simp only [if_true] at h6
    rw [h1] at h6
    simp only [Res.ok.injEq, Prod.mk.injEq] at h6
    obtain ⟨rfl, rfl⟩ := h6
    simp only [if_true, hlt, bne_self_eq_false, Bool.or_self, Bool.false_eq_true, if_false] at h
    exact ih _ _ _ _ _ _ _ _ _ _ (hW _ _ _ _ _ _ hw hq) h2 h4 h3 (Or.inr ⟨_, rfl, hxc⟩) h

/-- **C81** (the answer of a spoilt optimisation)  If the oracle answers "better point found" at every centre made of NaN, as
the examples, the SVM oracle and the profit oracle do, then `cutting_plane_optim` on a spoilt ellipsoid, with at least two
iterations, returns a point made of NaN as the best point. -/
theorem C81_optim_answer_is_nan (hN : NanLaws N) {n : Nat} (hn : 0 < n) (orc : OracleOptim Ω (Arr α) (SingleCut α) α)
    (hsh : ∀ w x γ g c s γ' w', orc.assess w x γ = .ok (((g, c), s), γ', w') → g.IsVecShape n) (W : Ω → Prop)
    (hW : ∀ w x γ r γ' w', W w → orc.assess w x γ = .ok (r, γ', w') → W w')
    (hacc : ∀ w x γ g c s γ' w', W w → x.IsVecShape n → x.AllNan N → orc.assess w x γ = .ok (((g, c), s), γ', w') → s = true)
    (w : Ω) (hw : W w) (e : Ell α) (he : e.Shaped n) (hsp : e.Spoilt N) (γ : α) (opts : Options α) (h2 : 2 ≤ opts.maxIters)
    (r : Option (Arr α)) (k : Nat) (γ' : α) (w' : Ω) (e' : Ell α)
    (h : cuttingPlaneOptim orc Ell.space w e γ opts = .ok ((r, k), γ', w', e')) : ∃ x, r = some x ∧ x.AllNan N := by
  obtain ⟨m, hm⟩ : ∃ m, opts.maxIters = (m + 1) + 1 := ⟨opts.maxIters - 2, by omega⟩
  unfold cuttingPlaneOptim at h
  rw [hm, optimLoop] at h
  simp only [Res.bind_eq_ok] at h
  obtain ⟨⟨⟨⟨g, b⟩, s⟩, γ1, w1⟩, hq, h⟩ := h
  have hg := hsh _ _ _ _ _ _ _ _ hq
  obtain ⟨e1, h1, h3, h4, h5, h6⟩ := Ell.spoilt_step hN hn (if s then .central else .bias) e he hsp g hg b
  have h1 : (if s = true then (Ell.space (T := SingleCut α)).updateCentral e (g, b)
      else (Ell.space (T := SingleCut α)).updateBias e (g, b)) = .ok (.success, e1) := by
    cases s <;> exact h1
  have hlt : Scalar.lt ((Ell.space (T := SingleCut α)).tsq e1) opts.tolerance = false := hN.lt_left h6 _
  obtain ⟨⟨st, e2⟩, h7, h⟩ := h
  rw [h1] at h7
  simp only [Res.ok.injEq, Prod.mk.injEq] at h7
  obtain ⟨rfl, rfl⟩ := h7
  simp only [hlt, bne_self_eq_false, Bool.or_self, Bool.false_eq_true, if_false] at h
  exact optimLoop_answer_nan hN hn orc hsh W hW hacc opts.tolerance (m + 1) _ _ _ _ _ _ _ _ _ _ (hW _ _ _ _ _ _ hw hq) h3
    h5 h4 (Or.inl (by omega)) h

/-- **C81** (example 1, end to end)  With the oracle of example 1, a spoilt ellipsoid gives a "best point" made of NaN. -/
theorem C81_example1_answer_is_nan (hN : NanLaws N) (e : Ell α) (he : e.Shaped 2) (hsp : e.Spoilt N) (γ : α)
    (opts : Options α) (h2 : 2 ≤ opts.maxIters) :
    ∃ x γ' e', cuttingPlaneOptim ex1Oracle Ell.space () e γ opts = .ok ((some x, opts.maxIters), γ', (), e') ∧ x.AllNan N := by
  have hsh : ∀ w x γ g c s γ' w', (ex1Oracle (α := α)).assess w x γ = .ok (((g, c), s), γ', w') → g.IsVecShape 2 := by
    intro w x γ g c s γ' w' h
    simp only [ex1Oracle, ex1Assess, Res.bind_eq_ok] at h
    obtain ⟨a, -, b, -, h⟩ := h
    split at h
    · cases h; exact ⟨rfl, rfl, rfl⟩
    · split at h
      · cases h; exact ⟨rfl, rfl, rfl⟩
      · split at h
        · cases h; exact ⟨rfl, rfl, rfl⟩
        · cases h; exact ⟨rfl, rfl, rfl⟩
  have htot : ∀ (m n0 : Nat) (xb : Option (Arr α)) (e : Ell α) (γ : α), e.Shaped 2 → e.Spoilt N →
      ∃ r, optimLoop ex1Oracle Ell.space opts.tolerance m n0 xb () e γ = .ok r := by
    intro m
    induction m with
    | zero => intro n0 xb e γ _ _; exact ⟨_, rfl⟩
    | succ m ih =>
      intro n0 xb e γ he hsp
      obtain ⟨g, c, s, γ', hq⟩ : ∃ g c s γ', ex1Assess () e.xc γ = .ok (((g, c), s), γ', ()) := by
        simp only [ex1Assess, he.2.isVec.idx (by omega : 0 < 2), he.2.isVec.idx (by omega : 1 < 2), Res.ok_bind]
        split
        · exact ⟨_, _, _, _, rfl⟩
        · split
          · exact ⟨_, _, _, _, rfl⟩
          · split
            · exact ⟨_, _, _, _, rfl⟩
            · exact ⟨_, _, _, _, rfl⟩
      have hq : (ex1Oracle (α := α)).assess () ((Ell.space (T := SingleCut α)).xc e) γ = .ok (((g, c), s), γ', ()) := hq
      obtain ⟨e1, h1, h3, -, h5, h6⟩ := Ell.spoilt_step hN (by omega : 0 < 2) (if s then .central else .bias) e he hsp g
        (hsh _ _ _ _ _ _ _ _ hq) c
      have h1 : (if s = true then (Ell.space (T := SingleCut α)).updateCentral e (g, c)
          else (Ell.space (T := SingleCut α)).updateBias e (g, c)) = .ok (.success, e1) := by
        cases s <;> exact h1
      have hlt : Scalar.lt ((Ell.space (T := SingleCut α)).tsq e1) opts.tolerance = false := hN.lt_left h6 _
      obtain ⟨r, hr⟩ := ih (n0 + 1) (if s then some e.xc else xb) e1 γ' h3 h5
      refine ⟨r, ?_⟩
      rw [optimLoop]
      simp only [hq, Res.ok_bind, h1, hlt, bne_self_eq_false, Bool.or_self, Bool.false_eq_true, if_false]
      exact hr
  obtain ⟨⟨⟨r, k⟩, γ', ⟨⟩, e'⟩, hr⟩ := htot opts.maxIters 0 none e γ he hsp
  have hr : cuttingPlaneOptim ex1Oracle Ell.space () e γ opts = .ok ((r, k), γ', (), e') := hr
  obtain rfl := C81_optim_on_nan hN (by omega : 0 < 2) ex1Oracle hsh () e he hsp γ opts r k γ' () e' hr
  obtain ⟨x, rfl, hx⟩ := C81_optim_answer_is_nan hN (by omega : 0 < 2) ex1Oracle hsh (fun _ => True) (by simp)
    (by
      intro w x γ g c s γ' w' _ hx hall h
      obtain ⟨⟨γ'', h3, -⟩, -⟩ := C81_examples_accept_nan hN x hx hall γ
      have h : ex1Assess () x γ = .ok (((g, c), s), γ', w') := h
      rw [h3] at h
      cases h
      rfl) () trivial e he hsp γ opts h2 r _ γ' () e' hr
  exact ⟨x, γ', e', hr, hx⟩

end Ellalgo
