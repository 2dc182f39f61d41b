import Verif.Lib.OneDimLemmas
import Verif.Spec.Runs
import Verif.Spec.Checked
import Verif.Props.CheckedProps

/-! C89: what the ellipsoid search spaces do in dimension one.  `EllCalcCore::new(1.0)` divides by `1² - 1 = 0`, so the first
successful cut makes the size of the ellipsoid infinite or NaN, and the second one the centre. -/

namespace Ellalgo
variable {α : Type} [Scalar α] {B : α → Prop} {S T Ω : Type} [CutType T α] [ScaledCut T]

/-- how a search space behaves in dimension one; `V` are the one-dimensional states, `Bl` those whose size is not finite -/
def Space.OneDimLaw (sp : Space S (Arr α) T α) (B : α → Prop) (V Bl : S → Prop) : Prop :=
  ∀ (k : UpdateKind) (s : S), V s → ∀ (g : Arr α), g.IsVecShape 1 → ∀ (c : T), ScaledCut.scaled k c →
    ∃ st s', sp.update k s (g, c) = .ok (st, s') ∧ V s' ∧
      (st ≠ .success → sp.xc s' = sp.xc s ∧ (Bl s → Bl s')) ∧
      (st = .success → Bl s' ∧ (Bl s → (sp.xc s').NonFinite B))

section generic
variable {sp : Space S (Arr α) T α} {V Bl : S → Prop} (law : sp.OneDimLaw B V Bl)
include law

omit [Scalar α] [CutType T α] in
theorem oneDim_run (cuts : List (UpdateKind × Arr α × T))
    (hc : ∀ c ∈ cuts, c.2.1.IsVecShape 1 ∧ ScaledCut.scaled c.1 c.2.2) :
    ∀ s, V s → ∃ tr, sp.run s cuts = .ok tr ∧ tr.length = cuts.length ∧
      (Bl s → (sp.xc s).NonFinite B → ∀ p ∈ tr, (sp.xc p.2).NonFinite B) ∧
      (Bl s → ∀ i j (hij : i ≤ j) (hj : j < tr.length), (tr[i]'(by omega)).1 = .success → (sp.xc tr[j].2).NonFinite B) ∧
      (∀ h i j (_ : h < i) (hij : i ≤ j) (hj : j < tr.length), (tr[h]'(by omega)).1 = .success →
        (tr[i]'(by omega)).1 = .success → (sp.xc tr[j].2).NonFinite B) := by
  induction cuts with
  | nil => exact fun s _ => ⟨[], rfl, rfl, by simp, by simp, by simp⟩
  | cons c cs ih =>
    intro s hs
    obtain ⟨k, g, c⟩ := c
    obtain ⟨hg, hk⟩ := hc (k, g, c) (by simp)
    obtain ⟨st, s1, h1, hV, hN, hS⟩ := law k s hs g hg c hk
    obtain ⟨tr, h2, h3, ha, hb, hcc⟩ := ih (fun c h => hc c (by simp [h])) s1 hV
    have hbl : Bl s → Bl s1 := fun h => by
      by_cases hst : st = .success
      · exact (hS hst).1
      · exact (hN hst).2 h
    have hnf : Bl s → (sp.xc s).NonFinite B → (sp.xc s1).NonFinite B := fun h h' => by
      by_cases hst : st = .success
      · exact (hS hst).2 h
      · rw [(hN hst).1]; exact h'
    refine ⟨(st, s1) :: tr, by simp only [Space.run, h1, Res.ok_bind, h2], by simp [h3], ?_, ?_, ?_⟩
    · intro h h' p hp
      rcases List.mem_cons.1 hp with rfl | hp
      · exact hnf h h'
      · exact ha (hbl h) (hnf h h') p hp
    · intro h i j hij hj hi
      cases i with
      | zero =>
        have hst : st = .success := hi
        have h4 := (hS hst).2 h
        cases j with
        | zero => exact h4
        | succ j => exact ha (hbl h) h4 _ (List.getElem_mem (by simpa using hj))
      | succ i =>
        cases j with
        | zero => omega
        | succ j => exact hb (hbl h) i j (by omega) (by simpa using hj) hi
    · intro h i j hhi hij hj hsh hsi
      cases i with
      | zero => omega
      | succ i =>
        cases j with
        | zero => omega
        | succ j =>
          cases h with
          | zero => exact hb (hS hsh).1 i j (by omega) (by simpa using hj) hsi
          | succ h => exact hcc h i j (by omega) (by omega) (by simpa using hj) hsh hsi

omit [Scalar α] [CutType T α] in
/-- one iteration with a successful update -/
theorem oneDim_succ {k : UpdateKind} {s s1 : S} (hs : V s) {g : Arr α} (hg : g.IsVecShape 1) {c : T}
    (hk : ScaledCut.scaled k c) (h : sp.update k s (g, c) = .ok (.success, s1)) :
    V s1 ∧ Bl s1 ∧ (Bl s → (sp.xc s1).NonFinite B) := by
  obtain ⟨st, s', h1, h2, -, h4⟩ := law k s hs g hg c hk
  rw [h] at h1
  simp only [Res.ok.injEq, Prod.mk.injEq] at h1
  obtain ⟨rfl, rfl⟩ := h1
  exact ⟨h2, h4 rfl⟩

omit [CutType T α] in
theorem oneDim_feasLoop (orc : OracleFeas Ω (Arr α) T α) (hsh : ∀ w x g c w', orc.assess w x = .ok (some (g, c), w') →
      g.IsVecShape 1 ∧ ScaledCut.scaled .bias c) (tol : α) (m : Nat) :
    ∀ n0 w s x k w' s', V s → feasLoop orc sp tol m n0 w s = .ok ((some x, k), w', s') →
      n0 ≤ k ∧ (k = n0 → x = sp.xc s) ∧ (Bl s → k ≠ n0 → x.NonFinite B) ∧ (n0 + 2 ≤ k → x.NonFinite B) := by
  induction m with
  | zero => intro n0 w s x k w' s' _ h; simp [feasLoop] at h
  | succ m ih =>
    intro n0 w s x k w' s' hs h
    unfold feasLoop at h
    simp only [Res.bind_eq_ok] at h
    obtain ⟨⟨cut, w1⟩, hq, h⟩ := h
    cases cut with
    | none =>
      simp only [Res.ok.injEq, Prod.mk.injEq, Option.some.injEq] at h
      obtain ⟨⟨rfl, rfl⟩, -, -⟩ := h
      exact ⟨le_rfl, fun _ => rfl, fun _ h => absurd rfl h, fun h => by omega⟩
    | some c =>
      obtain ⟨g, c⟩ := c
      obtain ⟨hg, hk⟩ := hsh _ _ _ _ _ hq
      simp only [Res.bind_eq_ok] at h
      obtain ⟨⟨st, s1⟩, hu, h⟩ := h
      split at h
      · simp at h
      · rename_i hcond
        have hst : st = .success := by
          by_contra hne
          apply hcond; simp [hne]
        subst hst
        obtain ⟨h1, h2, h3⟩ := oneDim_succ law (k := .bias) hs hg hk hu
        obtain ⟨i1, i2, i3, i4⟩ := ih _ _ _ _ _ _ _ h1 h
        refine ⟨by omega, fun h => by omega, fun hb _ => ?_, fun hk => ?_⟩
        · by_cases hkn : k = n0 + 1
          · rw [i2 hkn]; exact h3 hb
          · exact i3 h2 hkn
        · exact i3 h2 (by omega)

omit [CutType T α] in
theorem oneDim_optimLoop (orc : OracleOptim Ω (Arr α) T α) (hsh : ∀ w x γ g c b γ' w',
      orc.assess w x γ = .ok (((g, c), b), γ', w') → g.IsVecShape 1 ∧ ScaledCut.scaled (if b then .central else .bias) c)
    (tol : α) (m : Nat) :
    ∀ n0 xb w s γ r k γ' w' s', V s → Bl s → (sp.xc s).NonFinite B →
      optimLoop orc sp tol m n0 xb w s γ = .ok ((r, k), γ', w', s') →
      r = xb ∨ ∃ x, r = some x ∧ x.NonFinite B := by
  induction m with
  | zero =>
    intro n0 xb w s γ r k γ' w' s' _ _ _ h
    simp only [optimLoop, Res.ok.injEq, Prod.mk.injEq] at h
    exact Or.inl h.1.1.symm
  | succ m ih =>
    intro n0 xb w s γ r k γ' w' s' hV hBl hx h
    unfold optimLoop at h
    simp only [Res.bind_eq_ok] at h
    obtain ⟨⟨⟨⟨g, c⟩, b⟩, γ1, w1⟩, hq, h⟩ := h
    obtain ⟨hg, hk⟩ := hsh _ _ _ _ _ _ _ _ hq
    obtain ⟨⟨st, s1⟩, hu, h⟩ := h
    have hxb : (if b = true then some (sp.xc s) else xb) = xb ∨
        ∃ x, (if b = true then some (sp.xc s) else xb) = some x ∧ x.NonFinite B := by
      cases b
      · exact Or.inl rfl
      · exact Or.inr ⟨_, rfl, hx⟩
    split at h
    · simp only [Res.ok.injEq, Prod.mk.injEq] at h
      obtain ⟨⟨rfl, -⟩, -⟩ := h
      exact hxb
    · rename_i hcond
      have hst : st = .success := by
        by_contra hne
        apply hcond; simp [hne]
      subst hst
      have hu : sp.update (if b then .central else .bias) s (g, c) = .ok (.success, s1) := by cases b <;> exact hu
      obtain ⟨h1, h2, h3⟩ := oneDim_succ law hV hg hk hu
      rcases ih _ _ _ _ _ _ _ _ _ _ h1 h2 (h3 hBl) h with h4 | h4
      · rw [h4]; exact hxb
      · exact Or.inr h4

omit [CutType T α] in
theorem oneDim_optim (orc : OracleOptim Ω (Arr α) T α) (hsh : ∀ w x γ g c b γ' w',
      orc.assess w x γ = .ok (((g, c), b), γ', w') → g.IsVecShape 1 ∧ ScaledCut.scaled (if b then .central else .bias) c)
    (w : Ω) (s : S) (hV : V s) (γ : α) (opts : Options α) {x : Arr α} {k : Nat} {γ' : α} {w' : Ω} {s' : S}
    (h : cuttingPlaneOptim orc sp w s γ opts = .ok ((some x, k), γ', w', s')) :
    x = sp.xc s ∨ (∃ w1 s1 γ1, OptimRun orc sp opts.tolerance 1 (w, s, γ) (w1, s1, γ1) ∧ x = sp.xc s1) ∨ x.NonFinite B := by
  obtain ⟨mi, tol⟩ := opts
  unfold cuttingPlaneOptim at h
  cases mi with
  | zero => simp [optimLoop] at h
  | succ m =>
    simp only [optimLoop, Res.bind_eq_ok] at h
    obtain ⟨⟨⟨⟨g, c⟩, b⟩, γ1, w1⟩, hq, h⟩ := h
    obtain ⟨hg, hk⟩ := hsh _ _ _ _ _ _ _ _ hq
    obtain ⟨⟨st, s1⟩, hu, h⟩ := h
    split at h
    · simp only [Res.ok.injEq, Prod.mk.injEq] at h
      obtain ⟨⟨h1, -⟩, -⟩ := h
      cases b
      · simp at h1
      · exact Or.inl (by simpa using h1.symm)
    · rename_i hcond
      have hst : st = .success := by
        by_contra hne
        apply hcond; simp [hne]
      subst hst
      have hu' : sp.update (if b then .central else .bias) s (g, c) = .ok (.success, s1) := by cases b <;> exact hu
      obtain ⟨h1, h2, -⟩ := oneDim_succ law hV hg hk hu'
      have hrun : OptimRun orc sp tol 1 (w, s, γ) (w1, s1, γ1) := by
        refine .cons hq (fun hb => ?_) (fun hb => ?_) ?_ (.nil _)
        · subst hb; exact hu
        · subst hb; exact hu
        · simp only [bne_self_eq_false, Bool.false_or, Bool.not_eq_true] at hcond
          exact hcond
      cases m with
      | zero =>
        simp only [optimLoop, Res.ok.injEq, Prod.mk.injEq] at h
        obtain ⟨⟨h3, -⟩, -⟩ := h
        cases b
        · simp at h3
        · exact Or.inl (by simpa using h3.symm)
      | succ m =>
        simp only [optimLoop, Res.bind_eq_ok] at h
        obtain ⟨⟨⟨⟨g2, c2⟩, b2⟩, γ2, w2⟩, hq2, h⟩ := h
        obtain ⟨hg2, hk2⟩ := hsh _ _ _ _ _ _ _ _ hq2
        obtain ⟨⟨st2, s2⟩, hu2, h⟩ := h
        have hcase : ∀ r : Option (Arr α), r = some x →
            r = (if b2 = true then some (sp.xc s1) else if b = true then some (sp.xc s) else none) →
            x = sp.xc s ∨ (∃ w1 s1 γ1, OptimRun orc sp tol 1 (w, s, γ) (w1, s1, γ1) ∧ x = sp.xc s1) ∨ x.NonFinite B := by
          rintro r rfl h5
          cases b2
          · cases b
            · simp at h5
            · exact Or.inl (by simpa using h5)
          · exact Or.inr (Or.inl ⟨_, _, _, hrun, by simpa using h5⟩)
        split at h
        · simp only [Res.ok.injEq, Prod.mk.injEq] at h
          exact hcase _ rfl h.1.1.symm
        · rename_i hcond2
          have hst : st2 = .success := by
            by_contra hne
            apply hcond2; simp [hne]
          subst hst
          have hu2' : sp.update (if b2 then .central else .bias) s1 (g2, c2) = .ok (.success, s2) := by cases b2 <;> exact hu2
          obtain ⟨h3, h4, h5⟩ := oneDim_succ law h1 hg2 hk2 hu2'
          rcases oneDim_optimLoop law orc hsh tol m _ _ _ _ _ _ _ _ _ _ h3 h4 (h5 h2) h with h6 | ⟨y, h6, h7⟩
          · exact hcase _ rfl h6
          · rw [Option.some.inj h6]; exact Or.inr (Or.inr h7)

end generic

variable [LawfulScaled (α := α) T]

theorem Ell.oneDimLaw (hB : NonFiniteLaws B) : (Ell.space (T := T) (α := α)).OneDimLaw B Ell.OneDim (Ell.Blown B) :=
  fun k e he g hg c hk => Ell.oneDim_step hB k e he g hg c hk
theorem EllStable.oneDimLaw (hB : NonFiniteLaws B) :
    (EllStable.space (T := T) (α := α)).OneDimLaw B EllStable.OneDim (fun e => B e.kappa) :=
  fun k e he g hg c hk => EllStable.oneDim_step hB k e he g hg c hk

omit [CutType T α] [ScaledCut T] [LawfulScaled (α := α) T] in
/-- **C89** (constructors)  Every ellipsoid built from a centre of length one is one-dimensional in the sense of the theorems
below. -/
theorem C89_constructors (κ : α) (mq xc : Arr α) (hm : mq.IsMatShape 1 1) (hx : xc.IsVecShape 1) :
    (Ell.newWithMatrix κ mq xc).OneDim ∧ (EllStable.newWithMatrix κ mq xc).OneDim ∧
    ∃ e es, Ell.newWithScalar κ xc = .ok e ∧ e.OneDim ∧ EllStable.newWithScalar κ xc = .ok es ∧ es.OneDim := by
  have hl : xc.len = 1 := hx.2.2
  refine ⟨⟨⟨hm, hx⟩, ?_⟩, ⟨⟨hm, hx⟩, ?_⟩, Ell.newWithMatrix κ ⟨[1], 1, 1⟩ xc, EllStable.newWithMatrix κ ⟨[1], 1, 1⟩ xc, ?_, ⟨⟨⟨rfl, rfl, rfl⟩, hx⟩, ?_⟩, ?_,
    ⟨⟨rfl, rfl, rfl⟩, hx⟩, ?_⟩
  all_goals first
    | (simp only [Ell.newWithMatrix, EllStable.newWithMatrix, hl]; rfl)
    | (simp only [Ell.newWithScalar, EllStable.newWithScalar, hl]; rfl)

/-- **C89** (first cut)  In dimension one the first successful cut leaves a scale factor or matrix that is not finite, and a
successful cut of such an ellipsoid a centre that is not finite. -/
theorem C89_step (hB : NonFiniteLaws B) (k : UpdateKind) (e : Ell α) (he : e.OneDim) (g : Arr α)
    (hg : g.IsVecShape 1) (c : T) (hk : ScaledCut.scaled k c) (e' : Ell α)
    (h : Ell.space.update k e (g, c) = .ok (.success, e')) :
    (B e'.kappa ∨ B (e'.mq.mat 0 0)) ∧ (B e.kappa ∨ B (e.mq.mat 0 0) → e'.xc.NonFinite B) := by
  obtain ⟨-, h1, h2⟩ := oneDim_succ (Ell.oneDimLaw hB) he hg hk h
  exact ⟨h1, h2⟩

/-- **C89** (sequences)  For every sequence of cuts of a one-dimensional ellipsoid: from the second `Success` on, the centre is
not finite any more. -/
theorem C89_sequence (hB : NonFiniteLaws B) (e : Ell α) (he : e.OneDim) (cuts : List (UpdateKind × Arr α × T))
    (hc : ∀ c ∈ cuts, c.2.1.IsVecShape 1 ∧ ScaledCut.scaled c.1 c.2.2) :
    ∃ tr, Ell.space.run e cuts = .ok tr ∧ tr.length = cuts.length ∧
      ∀ h i j (_ : h < i) (hij : i ≤ j) (hj : j < tr.length), (tr[h]'(by omega)).1 = .success →
        (tr[i]'(by omega)).1 = .success → tr[j].2.xc.NonFinite B := by
  obtain ⟨tr, h1, h2, -, -, h3⟩ := oneDim_run (Ell.oneDimLaw hB) cuts hc e he
  exact ⟨tr, h1, h2, h3⟩

/-- **C89** (sequences, `EllStable`) -/
theorem C89_sequence_stable (hB : NonFiniteLaws B) (e : EllStable α) (he : e.OneDim) (cuts : List (UpdateKind × Arr α × T))
    (hc : ∀ c ∈ cuts, c.2.1.IsVecShape 1 ∧ ScaledCut.scaled c.1 c.2.2) :
    ∃ tr, EllStable.space.run e cuts = .ok tr ∧ tr.length = cuts.length ∧
      ∀ h i j (_ : h < i) (hij : i ≤ j) (hj : j < tr.length), (tr[h]'(by omega)).1 = .success →
        (tr[i]'(by omega)).1 = .success → tr[j].2.xc.NonFinite B := by
  obtain ⟨tr, h1, h2, -, -, h3⟩ := oneDim_run (EllStable.oneDimLaw hB) cuts hc e he
  exact ⟨tr, h1, h2, h3⟩

/-- **C89** (feasibility runs)  A one-dimensional run of `cutting_plane_feas` examines at most two finite points: the given
centre (answer after 0 iterations) and one more (answer after 1).  A point reported later is not finite. -/
theorem C89_feas_run (hB : NonFiniteLaws B) (orc : OracleFeas Ω (Arr α) T α)
    (hsh : ∀ w x g c w', orc.assess w x = .ok (some (g, c), w') → g.IsVecShape 1 ∧ ScaledCut.scaled .bias c)
    (w : Ω) (e : Ell α) (he : e.OneDim) (opts : Options α) {x : Arr α} {k : Nat} {w' : Ω} {e' : Ell α}
    (h : cuttingPlaneFeas orc Ell.space w e opts = .ok ((some x, k), w', e')) :
    (k = 0 ∧ x = e.xc) ∨ k = 1 ∨ x.NonFinite B := by
  obtain ⟨-, h2, -, h4⟩ := oneDim_feasLoop (Ell.oneDimLaw hB) orc hsh _ _ _ _ _ _ _ _ _ he h
  by_cases h0 : k = 0
  · exact Or.inl ⟨h0, h2 h0⟩
  by_cases h1 : k = 1
  · exact Or.inr (Or.inl h1)
  · exact Or.inr (Or.inr (h4 (by omega)))

/-- **C89** (feasibility runs, `EllStable`) -/
theorem C89_feas_run_stable (hB : NonFiniteLaws B) (orc : OracleFeas Ω (Arr α) T α)
    (hsh : ∀ w x g c w', orc.assess w x = .ok (some (g, c), w') → g.IsVecShape 1 ∧ ScaledCut.scaled .bias c)
    (w : Ω) (e : EllStable α) (he : e.OneDim) (opts : Options α) {x : Arr α} {k : Nat} {w' : Ω} {e' : EllStable α}
    (h : cuttingPlaneFeas orc EllStable.space w e opts = .ok ((some x, k), w', e')) :
    (k = 0 ∧ x = e.xc) ∨ k = 1 ∨ x.NonFinite B := by
  obtain ⟨-, h2, -, h4⟩ := oneDim_feasLoop (EllStable.oneDimLaw hB) orc hsh _ _ _ _ _ _ _ _ _ he h
  by_cases h0 : k = 0
  · exact Or.inl ⟨h0, h2 h0⟩
  by_cases h1 : k = 1
  · exact Or.inr (Or.inl h1)
  · exact Or.inr (Or.inr (h4 (by omega)))

/-- **C89** (optimisation runs)  The best point of a one-dimensional `cutting_plane_optim` is the given centre, the centre after
the first cut, or not finite. -/
theorem C89_optim_run (hB : NonFiniteLaws B) (orc : OracleOptim Ω (Arr α) T α)
    (hsh : ∀ w x γ g c b γ' w', orc.assess w x γ = .ok (((g, c), b), γ', w') →
      g.IsVecShape 1 ∧ ScaledCut.scaled (if b then .central else .bias) c)
    (w : Ω) (e : Ell α) (he : e.OneDim) (γ : α) (opts : Options α) {x : Arr α} {k : Nat} {γ' : α} {w' : Ω} {e' : Ell α}
    (h : cuttingPlaneOptim orc Ell.space w e γ opts = .ok ((some x, k), γ', w', e')) :
    x = e.xc ∨ (∃ w1 e1 γ1, OptimRun orc Ell.space opts.tolerance 1 (w, e, γ) (w1, e1, γ1) ∧ x = e1.xc) ∨ x.NonFinite B :=
  oneDim_optim (Ell.oneDimLaw hB) orc hsh w e he γ opts h

/-- **C89** (optimisation runs, `EllStable`) -/
theorem C89_optim_run_stable (hB : NonFiniteLaws B) (orc : OracleOptim Ω (Arr α) T α)
    (hsh : ∀ w x γ g c b γ' w', orc.assess w x γ = .ok (((g, c), b), γ', w') →
      g.IsVecShape 1 ∧ ScaledCut.scaled (if b then .central else .bias) c)
    (w : Ω) (e : EllStable α) (he : e.OneDim) (γ : α) (opts : Options α) {x : Arr α} {k : Nat} {γ' : α} {w' : Ω}
    {e' : EllStable α} (h : cuttingPlaneOptim orc EllStable.space w e γ opts = .ok ((some x, k), γ', w', e')) :
    x = e.xc ∨ (∃ w1 e1 γ1, OptimRun orc EllStable.space opts.tolerance 1 (w, e, γ) (w1, e1, γ1) ∧ x = e1.xc) ∨
      x.NonFinite B :=
  oneDim_optim (EllStable.oneDimLaw hB) orc hsh w e he γ opts h

end Ellalgo
