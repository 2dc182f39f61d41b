import Verif.Spec.Runs

/-! # C01-C05: the control flow of `cutting_plane.rs`, for every oracle, space and scalar type -/

namespace Ellalgo
variable {Ω S X T α : Type} [Scalar α]

section Feas
variable (orc : OracleFeas Ω X T α) (sp : Space S X T α)

/-- How the feasibility loop can end after `k` full iterations that led to `(w1, s1)`. -/
def FeasEnd (tol : α) (maxIters k : Nat) (w1 : Ω) (s1 : S) (r : Option X) (w' : Ω) (s' : S) : Prop :=
  (k < maxIters ∧ orc.assess w1 (sp.xc s1) = .ok (none, w') ∧ s' = s1 ∧ r = some (sp.xc s1)) ∨
  (k < maxIters ∧ r = none ∧ ∃ c st, orc.assess w1 (sp.xc s1) = .ok (some c, w') ∧
    sp.updateBias s1 c = .ok (st, s') ∧ (st ≠ .success ∨ Scalar.lt (sp.tsq s') tol = true)) ∨
  (k = maxIters ∧ r = none ∧ w' = w1 ∧ s' = s1)

theorem feasLoop_iff (tol : α) (m : Nat) : ∀ (n0 : Nat) (w : Ω) (s : S) (r : Option X) (k : Nat) (w' : Ω) (s' : S),
    feasLoop orc sp tol m n0 w s = .ok ((r, k), w', s') ↔
      ∃ j, k = n0 + j ∧ ∃ w1 s1, FeasRun orc sp tol j w s w1 s1 ∧ FeasEnd orc sp tol m j w1 s1 r w' s' := by
  induction m with
  | zero =>
    intro n0 w s r k w' s'
    constructor
    · intro h
      simp only [feasLoop, Res.ok.injEq, Prod.mk.injEq] at h
      obtain ⟨⟨rfl, rfl⟩, rfl, rfl⟩ := h
      exact ⟨0, rfl, w, s, .nil _ _, Or.inr (Or.inr ⟨rfl, rfl, rfl, rfl⟩)⟩
    · rintro ⟨j, rfl, w1, s1, hr, he⟩
      rcases he with ⟨h, _⟩ | ⟨h, _⟩ | ⟨rfl, rfl, rfl, rfl⟩
      · omega
      · omega
      · cases hr; rfl
  | succ m ih =>
    intro n0 w s r k w' s'
    unfold feasLoop
    constructor
    · intro h
      obtain ⟨⟨c, w1⟩, hq, h⟩ := Res.bind_eq_ok.1 h
      cases c with
      | none =>
        simp only [Res.ok.injEq, Prod.mk.injEq] at h
        obtain ⟨⟨rfl, rfl⟩, rfl, rfl⟩ := h
        exact ⟨0, rfl, w, s, .nil _ _, Or.inl ⟨by omega, hq, rfl, rfl⟩⟩
      | some c =>
        obtain ⟨⟨st, s1⟩, hu, h⟩ := Res.bind_eq_ok.1 h
        simp only at h
        split at h
        · rename_i hc
          simp only [Res.ok.injEq, Prod.mk.injEq] at h
          obtain ⟨⟨rfl, rfl⟩, rfl, rfl⟩ := h
          refine ⟨0, rfl, w, s, .nil _ _, Or.inr (Or.inl ⟨by omega, rfl, c, st, hq, hu, ?_⟩)⟩
          simpa using hc
        · rename_i hc
          simp only [Bool.or_eq_true, bne_iff_ne, ne_eq, not_or, not_not, Bool.not_eq_true] at hc
          obtain ⟨j, rfl, w2, s2, hr, he⟩ := (ih _ _ _ _ _ _ _).1 h
          refine ⟨j + 1, by omega, w2, s2, .cons hq (hc.1 ▸ hu) hc.2 hr, ?_⟩
          rcases he with ⟨h, he⟩ | ⟨h, he⟩ | ⟨h, he⟩
          · exact Or.inl ⟨by omega, he⟩
          · exact Or.inr (Or.inl ⟨by omega, he⟩)
          · exact Or.inr (Or.inr ⟨by omega, he⟩)
    · rintro ⟨j, rfl, w1, s1, hr, he⟩
      cases hr with
      | nil =>
        rcases he with ⟨h, hq, rfl, rfl⟩ | ⟨h, rfl, c, st, hq, hu, hs⟩ | ⟨h, _⟩
        · rw [hq]; rfl
        · rw [hq]
          simp only [Res.ok_bind, hu]
          rw [if_pos (by simpa using hs)]
          simp
        · omega
      | cons hq hu ht hr =>
        rename_i j _ _ c
        rw [hq]
        simp only [Res.ok_bind, hu]
        rw [if_neg (by simp [ht])]
        refine (ih _ _ _ _ _ _ _).2 ⟨j, by omega, w1, s1, hr, ?_⟩
        rcases he with ⟨h, he⟩ | ⟨h, he⟩ | ⟨h, he⟩
        · exact Or.inl ⟨by omega, he⟩
        · exact Or.inr (Or.inl ⟨by omega, he⟩)
        · exact Or.inr (Or.inr ⟨by omega, he⟩)

/-- **C01** Complete characterisation of `cutting_plane_feas`: it returns `(r, k)` exactly when `k` full
iterations went through and then either (a) the oracle accepted the current centre and `r` is that
centre, or (b) the oracle cut and the update failed or made `tsq < tol`, `r = None`, or (c) the
iteration budget is used up, `r = None`. -/
theorem C01_feas_iff (w : Ω) (s : S) (opts : Options α) (r : Option X) (k : Nat) (w' : Ω) (s' : S) :
    cuttingPlaneFeas orc sp w s opts = .ok ((r, k), w', s') ↔
      ∃ w1 s1, FeasRun orc sp opts.tolerance k w s w1 s1 ∧
        ((k < opts.maxIters ∧ orc.assess w1 (sp.xc s1) = .ok (none, w') ∧ s' = s1 ∧
            r = some (sp.xc s1)) ∨
         (k < opts.maxIters ∧ r = none ∧ ∃ c st, orc.assess w1 (sp.xc s1) = .ok (some c, w') ∧
            sp.updateBias s1 c = .ok (st, s') ∧
            (st ≠ .success ∨ Scalar.lt (sp.tsq s') opts.tolerance = true)) ∨
         (k = opts.maxIters ∧ r = none ∧ w' = w1 ∧ s' = s1)) := by
  unfold cuttingPlaneFeas
  rw [feasLoop_iff]
  constructor
  · rintro ⟨j, hj, h⟩
    simp only [Nat.zero_add] at hj
    subst hj
    exact h
  · intro h
    exact ⟨k, by omega, h⟩

/-- **C01** (consequence) a returned point was accepted by the oracle in its very last call and is the
centre of the space as it is left. -/
theorem C01_feas_some (w : Ω) (s : S) (opts : Options α) (x : X) (k : Nat) (w' : Ω) (s' : S)
    (h : cuttingPlaneFeas orc sp w s opts = .ok ((some x, k), w', s')) :
    sp.xc s' = x ∧ k < opts.maxIters ∧ ∃ w1, orc.assess w1 x = .ok (none, w') := by
  obtain ⟨w1, s1, _, h | h | h⟩ := (C01_feas_iff orc sp w s opts _ _ _ _).1 h
  · obtain ⟨hk, hq, rfl, hx⟩ := h
    simp only [Option.some.injEq] at hx
    subst hx
    exact ⟨rfl, hk, w1, hq⟩
  · simp at h
  · simp at h

/-- Panics of `cutting_plane_feas` come only from the oracle or the space. -/
theorem C01_feas_no_panic (hq : ∀ w x, orc.assess w x ≠ .panic) (hu : ∀ s c, sp.updateBias s c ≠ .panic)
    (w : Ω) (s : S) (opts : Options α) : cuttingPlaneFeas orc sp w s opts ≠ .panic := by
  unfold cuttingPlaneFeas
  generalize opts.maxIters = m
  generalize (0 : Nat) = n0
  induction m generalizing n0 w s with
  | zero => simp [feasLoop]
  | succ m ih =>
    unfold feasLoop
    cases hq' : orc.assess w (sp.xc s) with
    | panic => exact absurd hq' (hq _ _)
    | ok r =>
      obtain ⟨c, w1⟩ := r
      cases c with
      | none => simp
      | some c =>
        simp only [Res.ok_bind]
        cases hu' : sp.updateBias s c with
        | panic => exact absurd hu' (hu _ _)
        | ok r =>
          obtain ⟨st, s1⟩ := r
          simp only [Res.ok_bind]
          split
          · simp
          · exact ih _ _ _

/-- Recording the queries does not change the run. -/
theorem feas_record_project (w : Ω) (h : List X) (s : S) (tol : α) (m n0 : Nat) :
    (feasLoop orc.record sp tol m n0 (w, h) s >>= fun r => .ok (r.1, r.2.1.1, r.2.2)) =
      feasLoop orc sp tol m n0 w s := by
  induction m generalizing n0 w s h with
  | zero => simp [feasLoop]
  | succ m ih =>
    unfold feasLoop
    simp only [OracleFeas.record]
    cases hq : orc.assess w (sp.xc s) with
    | panic => simp
    | ok r =>
      obtain ⟨c, w1⟩ := r
      cases c with
      | none => simp
      | some c =>
        simp only [Res.ok_bind]
        cases hu : sp.updateBias s c with
        | panic => simp
        | ok r =>
          obtain ⟨st, s1⟩ := r
          simp only [Res.ok_bind]
          split
          · simp
          · exact ih _ _ _ _

/-- Observing the queries with `record` is faithful. -/
theorem C02_feas_record_faithful (w : Ω) (s : S) (opts : Options α) :
    (cuttingPlaneFeas orc.record sp (w, []) s opts >>= fun r => .ok (r.1, r.2.1.1, r.2.2)) =
      cuttingPlaneFeas orc sp w s opts :=
  feas_record_project orc sp w [] s _ _ _

theorem feasLoop_count (w : Ω) (h : List X) (s : S) (tol : α) (m n0 : Nat)
    (r : Option X) (k : Nat) (w' : Ω) (q : List X) (s' : S)
    (hrun : feasLoop orc.record sp tol m n0 (w, h) s = .ok ((r, k), (w', q), s')) :
    n0 ≤ k ∧ k ≤ n0 + m ∧
    ((k < n0 + m ∧ q.length = h.length + (k - n0) + 1) ∨
     (k = n0 + m ∧ r = none ∧ q.length = h.length + (k - n0))) := by
  induction m generalizing n0 w s h with
  | zero =>
    simp only [feasLoop, Res.ok.injEq, Prod.mk.injEq] at hrun
    obtain ⟨⟨rfl, rfl⟩, ⟨rfl, rfl⟩, rfl⟩ := hrun
    simp
  | succ m ih =>
    unfold feasLoop at hrun
    obtain ⟨⟨c, w1, h1⟩, hq, hrun⟩ := Res.bind_eq_ok.1 hrun
    simp only [OracleFeas.record] at hq
    obtain ⟨⟨c0, w0⟩, _, hq⟩ := Res.bind_eq_ok.1 hq
    simp only [Res.ok.injEq, Prod.mk.injEq] at hq
    obtain ⟨rfl, rfl, rfl⟩ := hq
    cases c0 with
    | none =>
      simp only [Res.ok.injEq, Prod.mk.injEq] at hrun
      obtain ⟨⟨rfl, rfl⟩, ⟨rfl, rfl⟩, rfl⟩ := hrun
      simp
    | some c =>
      obtain ⟨⟨st, s1⟩, hu, hrun⟩ := Res.bind_eq_ok.1 hrun
      simp only at hrun
      split at hrun
      · simp only [Res.ok.injEq, Prod.mk.injEq] at hrun
        obtain ⟨⟨rfl, rfl⟩, ⟨rfl, rfl⟩, rfl⟩ := hrun
        simp
      · obtain ⟨h1, h2, h3 | h3⟩ := ih _ _ _ _ hrun
        · simp only [List.length_append, List.length_cons, List.length_nil] at h3
          exact ⟨by omega, by omega, Or.inl ⟨by omega, by omega⟩⟩
        · simp only [List.length_append, List.length_cons, List.length_nil] at h3
          exact ⟨by omega, by omega, Or.inr ⟨by omega, h3.2.1, by omega⟩⟩

/-- **C02** The count `k` never exceeds `max_iters`; the oracle was asked exactly `k + 1` times when the
loop stopped early (`k < max_iters`) and exactly `max_iters` times when it ran out of budget. -/
theorem C02_feas_calls (w : Ω) (s : S) (opts : Options α)
    (r : Option X) (k : Nat) (w' : Ω) (q : List X) (s' : S)
    (hrun : cuttingPlaneFeas orc.record sp (w, []) s opts = .ok ((r, k), (w', q), s')) :
    (k < opts.maxIters ∧ q.length = k + 1) ∨
    (k = opts.maxIters ∧ r = none ∧ q.length = opts.maxIters) := by
  obtain ⟨h1, h2, h3 | h3⟩ := feasLoop_count orc sp _ _ _ _ _ _ _ _ _ _ _ hrun
  · simp only [List.length_nil] at h3
    exact Or.inl ⟨by omega, by omega⟩
  · simp only [List.length_nil] at h3
    exact Or.inr ⟨by omega, h3.2.1, by omega⟩

/-- With `max_iters = 0` the oracle is never called. -/
theorem C02_feas_zero (w : Ω) (s : S) (tol : α) :
    cuttingPlaneFeas orc sp w s ⟨0, tol⟩ = .ok ((none, 0), w, s) := rfl

end Feas

section Optim
variable (orc : OracleOptim Ω X T α) (sp : Space S X T α)

/-- Observing the history with `record` is faithful. -/
theorem optimLoop_record_project (tol : α) (m n0 : Nat) (xb : Option X) (w : Ω)
    (h : List (OptimEvent X α)) (s : S) (g : α) :
    (optimLoop orc.record sp tol m n0 xb (w, h) s g >>= fun r => .ok (r.1, r.2.1, r.2.2.1.1, r.2.2.2)) =
      optimLoop orc sp tol m n0 xb w s g := by
  induction m generalizing n0 xb w s h g with
  | zero => simp [optimLoop]
  | succ m ih =>
    unfold optimLoop
    simp only [OracleOptim.record]
    cases hq : orc.assess w (sp.xc s) g with
    | panic => simp
    | ok r =>
      obtain ⟨⟨c, sh⟩, g1, w1⟩ := r
      simp only [Res.ok_bind]
      cases hu : (if sh = true then sp.updateCentral s c else sp.updateBias s c) with
      | panic => simp
      | ok r =>
        obtain ⟨st, s1⟩ := r
        simp only [Res.ok_bind]
        split
        · simp
        · exact ih _ _ _ _ _ _

theorem C03_optim_record_faithful (w : Ω) (s : S) (g : α) (opts : Options α) :
    (cuttingPlaneOptim orc.record sp (w, []) s g opts >>= fun r => .ok (r.1, r.2.1, r.2.2.1.1, r.2.2.2)) =
      cuttingPlaneOptim orc sp w s g opts :=
  optimLoop_record_project orc sp _ _ _ _ _ _ _ _

/-- The last improving event of a history. -/
def lastImproving (h : List (OptimEvent X α)) : Option (OptimEvent X α) :=
  (h.filter (·.shrunk)).getLast?

theorem optimLoop_history (tol : α) (m n0 : Nat) (xb : Option X) (w : Ω)
    (h : List (OptimEvent X α)) (s : S) (g : α) (r : Option X) (k : Nat) (g' : α) (w' : Ω)
    (h' : List (OptimEvent X α)) (s' : S)
    (hrun : optimLoop orc.record sp tol m n0 xb (w, h) s g = .ok ((r, k), g', (w', h'), s')) :
    ∃ e, h' = h ++ e ∧
      r = ((lastImproving e).map (·.x)).or xb ∧
      g' = (e.getLast?.map (·.gammaOut)).getD g ∧
      (e.head?.map (·.gammaIn)).getD g = g ∧
      (∀ i (hi : i + 1 < e.length), e[i + 1].gammaIn = e[i].gammaOut) ∧
      n0 ≤ k ∧ ((k < n0 + m ∧ e.length = k - n0 + 1) ∨ (k = n0 + m ∧ e.length = m)) := by
  induction m generalizing n0 xb w s h g with
  | zero =>
    simp only [optimLoop, Res.ok.injEq, Prod.mk.injEq] at hrun
    obtain ⟨⟨rfl, rfl⟩, rfl, ⟨rfl, rfl⟩, rfl⟩ := hrun
    exact ⟨[], by simp, by simp [lastImproving], by simp, by simp, by simp, by simp⟩
  | succ m ih =>
    unfold optimLoop at hrun
    obtain ⟨⟨⟨c, sh⟩, g1, w1, h1⟩, hq, hrun⟩ := Res.bind_eq_ok.1 hrun
    simp only [OracleOptim.record] at hq
    obtain ⟨⟨⟨c0, sh0⟩, g0, w0⟩, _, hq⟩ := Res.bind_eq_ok.1 hq
    simp only [Res.ok.injEq, Prod.mk.injEq] at hq
    obtain ⟨⟨rfl, rfl⟩, rfl, rfl, rfl⟩ := hq
    simp only at hrun
    obtain ⟨⟨st, s1⟩, hu, hrun⟩ := Res.bind_eq_ok.1 hrun
    simp only at hrun
    split at hrun
    · simp only [Res.ok.injEq, Prod.mk.injEq] at hrun
      obtain ⟨⟨rfl, rfl⟩, rfl, ⟨rfl, rfl⟩, rfl⟩ := hrun
      refine ⟨[⟨sp.xc s, g, g0, sh0⟩], rfl, ?_, by simp, by simp, by simp, by simp⟩
      cases sh0 <;> simp [lastImproving]
    · obtain ⟨e, he, hr, hg, hin, hch, hk, hl⟩ := ih _ _ _ _ _ _ hrun
      refine ⟨⟨sp.xc s, g, g0, sh0⟩ :: e, by simp [he], ?_, ?_, by simp, ?_, by omega, ?_⟩
      · rw [hr]
        cases sh0
        · simp [lastImproving]
        · simp only [lastImproving, if_true, List.filter_cons_of_pos, List.getLast?_cons]
          cases (List.filter (fun x => x.shrunk) e).getLast? <;> simp
      · rw [hg]
        simp only [List.getLast?_cons]
        cases e.getLast? <;> simp
      · intro i hi
        cases i with
        | zero =>
          cases e with
          | nil => simp at hi
          | cons a e => simpa using hin
        | succ i =>
          simp only [List.length_cons] at hi
          simpa using hch i (by omega)
      · simp only [List.length_cons]; omega

/-- **C03** `cutting_plane_optim`: with `e` the history of oracle calls of the run, the returned point
is the query point of the last improving call (`None` iff there was none), the caller's `gamma` on
return is the value after the last call, and gamma is threaded unchanged between calls. -/
theorem C03_optim_history (w : Ω) (s : S) (g : α) (opts : Options α)
    (r : Option X) (k : Nat) (g' : α) (w' : Ω) (e : List (OptimEvent X α)) (s' : S)
    (hrun : cuttingPlaneOptim orc.record sp (w, []) s g opts = .ok ((r, k), g', (w', e), s')) :
    r = (lastImproving e).map (·.x) ∧
    g' = (e.getLast?.map (·.gammaOut)).getD g ∧
    (∀ e0, e.head? = some e0 → e0.gammaIn = g) ∧
    (∀ i (hi : i + 1 < e.length), e[i + 1].gammaIn = e[i].gammaOut) := by
  obtain ⟨e', he, hr, hg, hin, hch, _, _⟩ := optimLoop_history orc sp _ _ _ _ _ _ _ _ _ _ _ _ _ _ hrun
  simp only [List.nil_append] at he
  subst he
  refine ⟨by simpa using hr, hg, ?_, hch⟩
  intro e0 he0
  simpa [he0] using hin

/-- **C03** If the oracle changes gamma only when it reports an improvement, the final gamma is exactly
the value written at the last improving query, whose point is returned (and untouched if there was none). -/
theorem C03_optim_pairing (hfix : ∀ w x g c g' w', orc.assess w x g = .ok ((c, false), g', w') → g' = g)
    (w : Ω) (s : S) (g : α) (opts : Options α)
    (r : Option X) (k : Nat) (g' : α) (w' : Ω) (e : List (OptimEvent X α)) (s' : S)
    (hrun : cuttingPlaneOptim orc.record sp (w, []) s g opts = .ok ((r, k), g', (w', e), s')) :
    (r = none ∧ g' = g ∧ ∀ ev ∈ e, ev.shrunk = false) ∨
    ∃ ev, lastImproving e = some ev ∧ r = some ev.x ∧ g' = ev.gammaOut := by
  have key : ∀ (tol : α) (m n0 : Nat) (xb : Option X) (w : Ω) (h : List (OptimEvent X α)) (s : S) (g : α),
      optimLoop orc.record sp tol m n0 xb (w, h) s g = .ok ((r, k), g', (w', e), s') →
      ∃ e1, e = h ++ e1 ∧ ((r = xb ∧ g' = g ∧ ∀ ev ∈ e1, ev.shrunk = false) ∨
        ∃ ev, lastImproving e1 = some ev ∧ r = some ev.x ∧ g' = ev.gammaOut) := by
    intro tol m
    induction m with
    | zero =>
      intro n0 xb w h s g hrun
      simp only [optimLoop, Res.ok.injEq, Prod.mk.injEq] at hrun
      obtain ⟨⟨rfl, rfl⟩, rfl, ⟨rfl, rfl⟩, rfl⟩ := hrun
      exact ⟨[], by simp, Or.inl ⟨rfl, rfl, by simp⟩⟩
    | succ m ih =>
      intro n0 xb w h s g hrun
      unfold optimLoop at hrun
      obtain ⟨⟨⟨c, sh⟩, g1, w1, h1⟩, hq, hrun⟩ := Res.bind_eq_ok.1 hrun
      simp only [OracleOptim.record] at hq
      obtain ⟨⟨⟨c0, sh0⟩, g0, w0⟩, hq0, hq⟩ := Res.bind_eq_ok.1 hq
      simp only [Res.ok.injEq, Prod.mk.injEq] at hq
      obtain ⟨⟨rfl, rfl⟩, rfl, rfl, rfl⟩ := hq
      simp only at hrun
      obtain ⟨⟨st, s1⟩, hu, hrun⟩ := Res.bind_eq_ok.1 hrun
      simp only at hrun
      split at hrun
      · simp only [Res.ok.injEq, Prod.mk.injEq] at hrun
        obtain ⟨⟨rfl, rfl⟩, rfl, ⟨rfl, rfl⟩, rfl⟩ := hrun
        refine ⟨[⟨sp.xc s, g, g0, sh0⟩], rfl, ?_⟩
        cases sh0
        · left; simp [hfix _ _ _ _ _ _ hq0]
        · right; simp [lastImproving]
      · obtain ⟨e1, he, hor⟩ := ih _ _ _ _ _ _ hrun
        refine ⟨⟨sp.xc s, g, g0, sh0⟩ :: e1, by simp [he], ?_⟩
        rcases hor with ⟨hr, hg, hall⟩ | ⟨ev, h1, h2, h3⟩
        · cases sh0
          · left
            refine ⟨by simpa using hr, by rw [hg, hfix _ _ _ _ _ _ hq0], ?_⟩
            intro ev hev
            rcases List.mem_cons.1 hev with rfl | hev
            · rfl
            · exact hall _ hev
          · right
            refine ⟨⟨sp.xc s, g, g0, true⟩, ?_, by simpa using hr, hg⟩
            have : List.filter (fun x => x.shrunk) e1 = [] := by simpa [List.filter_eq_nil_iff] using hall
            simp [lastImproving, this]
        · right
          refine ⟨ev, ?_, h2, h3⟩
          simp only [lastImproving] at h1 ⊢
          cases sh0
          · simpa using h1
          · simp [List.getLast?_cons, h1]
  obtain ⟨e1, he, hor⟩ := key _ _ _ _ _ _ _ _ hrun
  simp only [List.nil_append] at he
  subst he
  exact hor

theorem optimLoop_run (tol : α) (m n0 : Nat) (xb : Option X) (w : Ω) (s : S) (g : α)
    (r : Option X) (k : Nat) (g' : α) (w' : Ω) (s' : S)
    (hrun : optimLoop orc sp tol m n0 xb w s g = .ok ((r, k), g', w', s')) :
    ∃ j, k = n0 + j ∧ ∃ w1 s1 g1, OptimRun orc sp tol j (w, s, g) (w1, s1, g1) ∧
      ((j = m ∧ w' = w1 ∧ s' = s1 ∧ g' = g1) ∨
       (j < m ∧ ∃ c sh st, orc.assess w1 (sp.xc s1) g1 = .ok ((c, sh), g', w') ∧
          (if sh = true then sp.updateCentral s1 c else sp.updateBias s1 c) = .ok (st, s') ∧
          (st ≠ .success ∨ Scalar.lt (sp.tsq s') tol = true))) := by
  induction m generalizing n0 xb w s g with
  | zero =>
    simp only [optimLoop, Res.ok.injEq, Prod.mk.injEq] at hrun
    obtain ⟨⟨rfl, rfl⟩, rfl, rfl, rfl⟩ := hrun
    exact ⟨0, rfl, w, s, g, .nil _, Or.inl ⟨rfl, rfl, rfl, rfl⟩⟩
  | succ m ih =>
    unfold optimLoop at hrun
    obtain ⟨⟨⟨c, sh⟩, g1, w1⟩, hq, hrun⟩ := Res.bind_eq_ok.1 hrun
    simp only at hrun
    obtain ⟨⟨st, s1⟩, hu, hrun⟩ := Res.bind_eq_ok.1 hrun
    simp only at hrun
    split at hrun
    · rename_i hc
      simp only [Res.ok.injEq, Prod.mk.injEq] at hrun
      obtain ⟨⟨rfl, rfl⟩, rfl, rfl, rfl⟩ := hrun
      exact ⟨0, rfl, w, s, g, .nil _, Or.inr ⟨by omega, c, sh, st, hq, hu, by simpa using hc⟩⟩
    · rename_i hc
      simp only [Bool.or_eq_true, bne_iff_ne, ne_eq, not_or, not_not, Bool.not_eq_true] at hc
      obtain ⟨rfl, hc⟩ := hc
      obtain ⟨j, rfl, w2, s2, g2, hr, he⟩ := ih _ _ _ _ _ hrun
      refine ⟨j + 1, by omega, w2, s2, g2,
        .cons hq (fun h => by simpa [h] using hu) (fun h => by simpa [h] using hu) hc hr, ?_⟩
      rcases he with ⟨rfl, he⟩ | ⟨h, he⟩
      · exact Or.inl ⟨rfl, he⟩
      · exact Or.inr ⟨by omega, he⟩

/-- **C03** Shape of a run: `k` full iterations, each cutting centrally exactly when the oracle reported
an improvement, followed by either the exhausted budget or a final iteration whose update was not
`Success` or dropped `tsq` below the tolerance. -/
theorem C03_optim_run (w : Ω) (s : S) (g : α) (opts : Options α)
    (r : Option X) (k : Nat) (g' : α) (w' : Ω) (s' : S)
    (hrun : cuttingPlaneOptim orc sp w s g opts = .ok ((r, k), g', w', s')) :
    ∃ w1 s1 g1, OptimRun orc sp opts.tolerance k (w, s, g) (w1, s1, g1) ∧
      ((k = opts.maxIters ∧ w' = w1 ∧ s' = s1 ∧ g' = g1) ∨
       (k < opts.maxIters ∧ ∃ c sh st, orc.assess w1 (sp.xc s1) g1 = .ok ((c, sh), g', w') ∧
          (if sh = true then sp.updateCentral s1 c else sp.updateBias s1 c) = .ok (st, s') ∧
          (st ≠ .success ∨ Scalar.lt (sp.tsq s') opts.tolerance = true))) := by
  obtain ⟨j, hj, h⟩ := optimLoop_run orc sp _ _ _ _ _ _ _ _ _ _ _ _ hrun
  simp only [Nat.zero_add] at hj
  subst hj
  exact h

/-- The converse: every such sequence of iterations is what `cutting_plane_optim` does, so its count, `gamma`, oracle state and
space are characterised completely (the point is given by `C03_optim_history`). -/
theorem C03_optim_iff (w : Ω) (s : S) (g : α) (opts : Options α) (k : Nat) (g' : α) (w' : Ω) (s' : S) :
    (∃ r, cuttingPlaneOptim orc sp w s g opts = .ok ((r, k), g', w', s')) ↔
    ∃ w1 s1 g1, OptimRun orc sp opts.tolerance k (w, s, g) (w1, s1, g1) ∧
      ((k = opts.maxIters ∧ w' = w1 ∧ s' = s1 ∧ g' = g1) ∨
       (k < opts.maxIters ∧ ∃ c sh st, orc.assess w1 (sp.xc s1) g1 = .ok ((c, sh), g', w') ∧
          (if sh = true then sp.updateCentral s1 c else sp.updateBias s1 c) = .ok (st, s') ∧
          (st ≠ .success ∨ Scalar.lt (sp.tsq s') opts.tolerance = true))) := by
  constructor
  · rintro ⟨r, h⟩
    exact C03_optim_run orc sp w s g opts r k g' w' s' h
  · rintro ⟨w1, s1, g1, hrun, hend⟩
    have key : ∀ (m n0 : Nat) (xb : Option X) (a b : Ω × S × α), OptimRun orc sp opts.tolerance k a b →
        ((k = m ∧ w' = b.1 ∧ s' = b.2.1 ∧ g' = b.2.2) ∨
         (k < m ∧ ∃ c sh st, orc.assess b.1 (sp.xc b.2.1) b.2.2 = .ok ((c, sh), g', w') ∧
          (if sh = true then sp.updateCentral b.2.1 c else sp.updateBias b.2.1 c) = .ok (st, s') ∧
          (st ≠ .success ∨ Scalar.lt (sp.tsq s') opts.tolerance = true))) →
        ∃ r, optimLoop orc sp opts.tolerance m n0 xb a.1 a.2.1 a.2.2 = .ok ((r, n0 + k), g', w', s') := by
      clear hrun hend
      induction k with
      | zero =>
        intro m n0 xb a b hr he
        cases hr
        rcases he with ⟨rfl, rfl, rfl, rfl⟩ | ⟨hm, c, sh, st, h1, h2, h3⟩
        · exact ⟨xb, rfl⟩
        · obtain ⟨m, rfl⟩ : ∃ m', m = m' + 1 := ⟨m - 1, by omega⟩
          refine ⟨if sh then some (sp.xc a.2.1) else xb, ?_⟩
          unfold optimLoop
          have h3' : (st != .success || Scalar.lt (sp.tsq s') opts.tolerance) = true := by simpa using h3
          simp only [h1, Res.ok_bind, h2, h3', if_true]
          rfl
      | succ k ih =>
        intro m n0 xb a b hr he
        obtain ⟨m, rfl⟩ : ∃ m', m = m' + 1 := ⟨m - 1, by omega⟩
        cases hr with
        | @cons _ w0 w2 s0 s2 g0 g2 c sh _ hq hc hb ht hr =>
          obtain ⟨r, h⟩ := ih m (n0 + 1) (if sh then some (sp.xc s0) else xb) _ b hr (by
            rcases he with ⟨h, he⟩ | ⟨h, he⟩
            · exact Or.inl ⟨by omega, he⟩
            · exact Or.inr ⟨by omega, he⟩)
          refine ⟨r, ?_⟩
          unfold optimLoop
          have hu : (if sh = true then sp.updateCentral s0 c else sp.updateBias s0 c) = .ok (.success, s2) := by
            cases sh
            · simpa using hb rfl
            · simpa using hc rfl
          simp only [hq, Res.ok_bind, hu, ht]
          rw [show n0 + (k + 1) = n0 + 1 + k by omega]
          simpa using h
    obtain ⟨r, h⟩ := key opts.maxIters 0 none (w, s, g) (w1, s1, g1) hrun hend
    exact ⟨r, by simpa [cuttingPlaneOptim] using h⟩

/-- **C02** call counts for `cutting_plane_optim`. -/
theorem C02_optim_calls (w : Ω) (s : S) (g : α) (opts : Options α)
    (r : Option X) (k : Nat) (g' : α) (w' : Ω) (e : List (OptimEvent X α)) (s' : S)
    (hrun : cuttingPlaneOptim orc.record sp (w, []) s g opts = .ok ((r, k), g', (w', e), s')) :
    (k < opts.maxIters ∧ e.length = k + 1) ∨ (k = opts.maxIters ∧ e.length = opts.maxIters) := by
  obtain ⟨e', he, _, _, _, _, hk, hl⟩ := optimLoop_history orc sp _ _ _ _ _ _ _ _ _ _ _ _ _ _ hrun
  simp only [List.nil_append] at he
  subst he
  omega

/-- With `max_iters = 0` nothing happens. -/
theorem C02_optim_zero (w : Ω) (s : S) (g tol : α) :
    cuttingPlaneOptim orc sp w s g ⟨0, tol⟩ = .ok ((none, 0), g, w, s) := rfl

end Optim

section OptimQ
variable (orc : OracleOptimQ Ω X T α) (sp : Space S X T α)

/-- Observing both sides is faithful. -/
theorem optimQLoop_record_project (tol : α) (m n0 : Nat) (xb : Option X) (retry : Bool) (w : Ω)
    (h : List (QEvent X α)) (s : S) (hs : List CutStatus) (g : α) :
    (optimQLoop orc.record sp.recordQ tol m n0 xb retry (w, h) (s, hs) g >>=
        fun r => .ok (r.1, r.2.1, r.2.2.1.1, r.2.2.2.1)) =
      optimQLoop orc sp tol m n0 xb retry w s g := by
  induction m generalizing n0 xb retry w s h hs g with
  | zero => simp [optimQLoop]
  | succ m ih =>
    unfold optimQLoop
    simp only [OracleOptimQ.record, Space.recordQ]
    cases hq : orc.assess w (sp.xc s) g retry with
    | panic => simp
    | ok r =>
      obtain ⟨⟨c, sh, xq, more⟩, g1, w1⟩ := r
      simp only [Res.ok_bind]
      cases hu : sp.updateQ s c with
      | panic => simp
      | ok r =>
        obtain ⟨st, s1⟩ := r
        simp only [Res.ok_bind]
        cases st
        · simp only []
          split
          · simp
          · exact ih _ _ _ _ _ _ _ _
        · simp
        · simp only []
          split
          · simp
          · split
            · simp
            · exact ih _ _ _ _ _ _ _ _
        · simp only []
          split
          · simp
          · exact ih _ _ _ _ _ _ _ _

theorem C04_optimQ_record_faithful (w : Ω) (s : S) (g : α) (opts : Options α) :
    (cuttingPlaneOptimQ orc.record sp.recordQ (w, []) (s, []) g opts >>=
        fun r => .ok (r.1, r.2.1, r.2.2.1.1, r.2.2.2.1)) = cuttingPlaneOptimQ orc sp w s g opts :=
  optimQLoop_record_project orc sp _ _ _ _ _ _ _ _ _ _

/-- The retry flag a call must carry, given the previous call's event and the status of the update
that followed it. -/
def nextRetry (prev : QEvent X α) (st : CutStatus) : Prop :=
  st = .noEffect ∨ (st = .unknown ∧ prev.shrunk = false ∧ prev.retry = true)

theorem optimQLoop_history (tol : α) (m n0 : Nat) (xb : Option X) (retry : Bool) (w : Ω)
    (h : List (QEvent X α)) (s : S) (hs : List CutStatus) (g : α) (r : Option X) (k : Nat) (g' : α)
    (w' : Ω) (h' : List (QEvent X α)) (s' : S) (hs' : List CutStatus)
    (hrun : optimQLoop orc.record sp.recordQ tol m n0 xb retry (w, h) (s, hs) g
      = .ok ((r, k), g', (w', h'), (s', hs'))) :
    ∃ e es, h' = h ++ e ∧ hs' = hs ++ es ∧ e.length = es.length ∧
      r = ((e.filter (·.shrunk)).getLast?.map (·.xq)).or xb ∧
      (∀ e0, e.head? = some e0 → e0.retry = retry) ∧
      (∀ i (hi : i + 1 < e.length) (hi' : i < es.length), (e[i + 1].retry = true ↔ nextRetry e[i] es[i])) ∧
      n0 ≤ k ∧
      ((k < n0 + m ∧ e.length = k - n0 + 1 ∧
          (es.getLast? = some .noSoln ∨
           (es.getLast? = some .noEffect ∧ e.getLast?.map (·.moreAlt) = some false) ∨
           Scalar.lt (sp.tsq s') tol = true)) ∨
       (k = n0 + m ∧ e.length = m)) ∧
      (∀ i (hi : i + 1 < es.length) (hi' : i < e.length), es[i] ≠ .noSoln ∧
          (es[i] = .noEffect → e[i].moreAlt = true)) := by
  induction m generalizing n0 xb retry w s h hs g with
  | zero =>
    simp only [optimQLoop, Res.ok.injEq, Prod.mk.injEq] at hrun
    obtain ⟨⟨rfl, rfl⟩, rfl, ⟨rfl, rfl⟩, rfl, rfl⟩ := hrun
    exact ⟨[], [], by simp, by simp, rfl, by simp, by simp, by simp, by simp, by simp, by simp⟩
  | succ m ih =>
    unfold optimQLoop at hrun
    obtain ⟨⟨⟨c, sh, xq, more⟩, g1, w1, h1⟩, hq, hrun⟩ := Res.bind_eq_ok.1 hrun
    simp only [OracleOptimQ.record] at hq
    obtain ⟨⟨⟨c0, sh0, xq0, more0⟩, g0, w0⟩, hq0, hq⟩ := Res.bind_eq_ok.1 hq
    simp only [Res.ok.injEq, Prod.mk.injEq] at hq
    obtain ⟨⟨rfl, rfl, rfl, rfl⟩, rfl, rfl, rfl⟩ := hq
    simp only at hrun
    obtain ⟨⟨st, s1, hs1⟩, hu, hrun⟩ := Res.bind_eq_ok.1 hrun
    simp only [Space.recordQ] at hu
    obtain ⟨⟨st0, s10⟩, hu0, hu⟩ := Res.bind_eq_ok.1 hu
    simp only [Res.ok.injEq, Prod.mk.injEq] at hu
    obtain ⟨rfl, rfl, rfl⟩ := hu
    simp only at hrun
    -- the stopping case
    have stop : ∀ (hst : (st0 = .noSoln ∨ (st0 = .noEffect ∧ more0 = false) ∨
          Scalar.lt (sp.tsq s10) tol = true)),
        (Res.ok (((if sh0 = true then some xq0 else xb), n0), g0,
          (w0, h ++ [(⟨sp.recordQ.xc (s, hs), retry, sh0, xq0, more0, g0⟩ : QEvent X α)]),
          (s10, hs ++ [st0])) : Res _) = .ok ((r, k), g', (w', h'), (s', hs')) →
        ∃ e es, h' = h ++ e ∧ hs' = hs ++ es ∧ e.length = es.length ∧
      r = ((e.filter (·.shrunk)).getLast?.map (·.xq)).or xb ∧
      (∀ e0, e.head? = some e0 → e0.retry = retry) ∧
      (∀ i (hi : i + 1 < e.length) (hi' : i < es.length), (e[i + 1].retry = true ↔ nextRetry e[i] es[i])) ∧
      n0 ≤ k ∧
      ((k < n0 + (m+1) ∧ e.length = k - n0 + 1 ∧
          (es.getLast? = some .noSoln ∨
           (es.getLast? = some .noEffect ∧ e.getLast?.map (·.moreAlt) = some false) ∨
           Scalar.lt (sp.tsq s') tol = true)) ∨
       (k = n0 + (m+1) ∧ e.length = (m+1))) ∧
      (∀ i (hi : i + 1 < es.length) (hi' : i < e.length), es[i] ≠ .noSoln ∧
          (es[i] = .noEffect → e[i].moreAlt = true)) := by
      intro hst heq
      simp only [Res.ok.injEq, Prod.mk.injEq] at heq
      obtain ⟨⟨rfl, rfl⟩, rfl, ⟨rfl, rfl⟩, rfl, rfl⟩ := heq
      refine ⟨[_], [_], rfl, rfl, rfl, ?_, by simp, by simp, by simp, ?_, by simp⟩
      · cases sh0 <;> simp
      · left
        refine ⟨by omega, by simp, ?_⟩
        simpa using hst
    -- the continuing case
    have cont : ∀ (retry' : Bool) (hne : st0 ≠ .noSoln) (hma : st0 = .noEffect → more0 = true)
        (hretry : retry' = true ↔ nextRetry (⟨sp.recordQ.xc (s, hs), retry, sh0, xq0, more0, g0⟩ : QEvent X α) st0),
        optimQLoop orc.record sp.recordQ tol m (n0 + 1) (if sh0 = true then some xq0 else xb) retry'
          (w0, h ++ [(⟨sp.recordQ.xc (s, hs), retry, sh0, xq0, more0, g0⟩ : QEvent X α)])
          (s10, hs ++ [st0]) g0 = .ok ((r, k), g', (w', h'), (s', hs')) →
        ∃ e es, h' = h ++ e ∧ hs' = hs ++ es ∧ e.length = es.length ∧
      r = ((e.filter (·.shrunk)).getLast?.map (·.xq)).or xb ∧
      (∀ e0, e.head? = some e0 → e0.retry = retry) ∧
      (∀ i (hi : i + 1 < e.length) (hi' : i < es.length), (e[i + 1].retry = true ↔ nextRetry e[i] es[i])) ∧
      n0 ≤ k ∧
      ((k < n0 + (m+1) ∧ e.length = k - n0 + 1 ∧
          (es.getLast? = some .noSoln ∨
           (es.getLast? = some .noEffect ∧ e.getLast?.map (·.moreAlt) = some false) ∨
           Scalar.lt (sp.tsq s') tol = true)) ∨
       (k = n0 + (m+1) ∧ e.length = (m+1))) ∧
      (∀ i (hi : i + 1 < es.length) (hi' : i < e.length), es[i] ≠ .noSoln ∧
          (es[i] = .noEffect → e[i].moreAlt = true)) := by
      intro retry' hne hma hretry heq
      obtain ⟨e, es, he, hes, hlen, hr, hhd, hch, hk, hend, hmid⟩ := ih _ _ _ _ _ _ _ _ heq
      refine ⟨⟨sp.recordQ.xc (s, hs), retry, sh0, xq0, more0, g0⟩ :: e, st0 :: es, by simp [he],
        by simp [hes], by simp [hlen], ?_, by simp, ?_, by omega, ?_, ?_⟩
      · rw [hr]
        cases sh0
        · simp
        · simp only [if_true, List.filter_cons_of_pos, List.getLast?_cons]
          cases (List.filter (fun x => x.shrunk) e).getLast? <;> simp
      · intro i hi hi'
        cases i with
        | zero =>
          cases e with
          | nil => simp at hi
          | cons a e =>
            have := hhd a (by simp)
            simp only [List.getElem_cons_succ, List.getElem_cons_zero]
            rw [this]; exact hretry
        | succ i =>
          simp only [List.length_cons] at hi hi'
          simpa using hch i (by omega) (by omega)
      · rcases hend with ⟨hk', hl, hx⟩ | ⟨hk', hl⟩
        · left
          refine ⟨by omega, by simp only [List.length_cons]; omega, ?_⟩
          have hne : e ≠ [] := by intro h0; simp [h0] at hl
          have hne' : es ≠ [] := by intro h0; rw [h0] at hlen; simp [hl] at hlen
          rw [List.getLast?_cons, List.getLast?_cons, List.getLast?_eq_some_getLast hne,
            List.getLast?_eq_some_getLast hne'] 
          rw [List.getLast?_eq_some_getLast hne, List.getLast?_eq_some_getLast hne'] at hx
          simpa using hx
        · right
          refine ⟨by omega, by simp only [List.length_cons]; omega⟩
      · intro i hi hi'
        cases i with
        | zero => exact ⟨hne, hma⟩
        | succ i =>
          simp only [List.length_cons] at hi hi'
          simpa using hmid i (by omega) (by omega)
    cases st0 with
    | noSoln => exact stop (Or.inl rfl) hrun
    | noEffect =>
      simp only at hrun
      split at hrun
      · rename_i hm
        exact stop (Or.inr (Or.inl ⟨rfl, by simpa using hm⟩)) hrun
      · rename_i hm
        split at hrun
        · rename_i ht
          exact stop (Or.inr (Or.inr ht)) hrun
        · exact cont true (by simp) (fun _ => by simpa using hm) (by simp [nextRetry]) hrun
    | success =>
      simp only at hrun
      split at hrun
      · rename_i ht
        exact stop (Or.inr (Or.inr ht)) hrun
      · exact cont false (by simp) (by simp) (by simp [nextRetry]) hrun
    | unknown =>
      simp only at hrun
      split at hrun
      · rename_i ht
        exact stop (Or.inr (Or.inr ht)) hrun
      · refine cont _ (by simp) (by simp) ?_ hrun
        cases sh0 <;> simp [nextRetry]

/-- **C04** The retry protocol of `cutting_plane_optim_q`.  With `e` the oracle history and `es` the
statuses of the updates of a run: the returned point is the discrete point of the last improving
answer; the first call has `retry = false`; a later call has `retry = true` iff the preceding update
was `NoEffect` (or `Unknown` after a non-improving call that itself was a retry); before the last
iteration no update was `NoSoln` and every `NoEffect` came with a further alternative; and an early
stop is due to `NoSoln`, `NoEffect` without alternative, or `tsq` below the tolerance. -/
theorem C04_optimQ_protocol (w : Ω) (s : S) (g : α) (opts : Options α) (r : Option X) (k : Nat) (g' : α)
    (w' : Ω) (e : List (QEvent X α)) (s' : S) (es : List CutStatus)
    (hrun : cuttingPlaneOptimQ orc.record sp.recordQ (w, []) (s, []) g opts
      = .ok ((r, k), g', (w', e), (s', es))) :
    e.length = es.length ∧
    r = (e.filter (·.shrunk)).getLast?.map (·.xq) ∧
    (∀ e0, e.head? = some e0 → e0.retry = false) ∧
    (∀ i (hi : i + 1 < e.length) (hi' : i < es.length),
      (e[i + 1].retry = true ↔
        (es[i] = .noEffect ∨ (es[i] = .unknown ∧ e[i].shrunk = false ∧ e[i].retry = true)))) ∧
    (∀ i (hi : i + 1 < es.length) (hi' : i < e.length),
      es[i] ≠ .noSoln ∧ (es[i] = .noEffect → e[i].moreAlt = true)) ∧
    ((k < opts.maxIters ∧ e.length = k + 1 ∧
        (es.getLast? = some .noSoln ∨
         (es.getLast? = some .noEffect ∧ e.getLast?.map (·.moreAlt) = some false) ∨
         Scalar.lt (sp.tsq s') opts.tolerance = true)) ∨
     (k = opts.maxIters ∧ e.length = opts.maxIters)) := by
  obtain ⟨e', es', he, hes, hlen, hr, hhd, hch, hk, hend, hmid⟩ :=
    optimQLoop_history orc sp _ _ _ _ _ _ _ _ _ _ _ _ _ _ _ _ _ hrun
  simp only [List.nil_append] at he hes
  subst he hes
  refine ⟨hlen, by simpa using hr, hhd, hch, hmid, ?_⟩
  simpa using hend

/-- **C02** call counts for `cutting_plane_optim_q`. -/
theorem C02_optimQ_calls (w : Ω) (s : S) (g : α) (opts : Options α) (r : Option X) (k : Nat) (g' : α)
    (w' : Ω) (e : List (QEvent X α)) (s' : S) (es : List CutStatus)
    (hrun : cuttingPlaneOptimQ orc.record sp.recordQ (w, []) (s, []) g opts
      = .ok ((r, k), g', (w', e), (s', es))) :
    (k < opts.maxIters ∧ e.length = k + 1) ∨ (k = opts.maxIters ∧ e.length = opts.maxIters) := by
  have := (C04_optimQ_protocol orc sp _ _ _ _ _ _ _ _ _ _ _ hrun).2.2.2.2.2
  rcases this with ⟨h1, h2, _⟩ | h
  · exact Or.inl ⟨h1, h2⟩
  · exact Or.inr h

/-- one iteration of the quantised loop -/
theorem optimQLoop_succ (tol : α) (m n0 : Nat) (xb : Option X) (retry : Bool) (w : Ω) (s : S) (g : α) :
    optimQLoop orc sp tol (m + 1) n0 xb retry w s g = (do
      let ((cut, shrunk, xq, more), g, w) ← orc.assess w (sp.xc s) g retry
      let (status, s) ← sp.updateQ s cut
      if status = .noSoln ∨ (status = .noEffect ∧ more = false) ∨ Scalar.lt (sp.tsq s) tol = true then
        .ok ((if shrunk then some xq else xb, n0), g, w, s)
      else optimQLoop orc sp tol m (n0 + 1) (if shrunk then some xq else xb) (retryAfter retry shrunk status) w s g) := by
  rw [optimQLoop]
  rcases orc.assess w (sp.xc s) g retry with ⟨⟨⟨c, sh, xq, more⟩, g1, w1⟩⟩ | _
  · simp only [Res.ok_bind]
    rcases sp.updateQ s c with ⟨⟨st, s1⟩⟩ | _
    · simp only [Res.ok_bind]
      cases st <;> cases more <;> cases sh <;> cases retry <;> simp [retryAfter]
    · rfl
  · rfl

theorem optimQLoop_count (tol : α) (m n0 : Nat) (xb : Option X) (retry : Bool) (w : Ω) (s : S) (g : α)
    (r : Option X) (k : Nat) (g' : α) (w' : Ω) (s' : S)
    (h : optimQLoop orc sp tol m n0 xb retry w s g = .ok ((r, k), g', w', s')) : n0 ≤ k := by
  induction m generalizing n0 xb retry w s g with
  | zero =>
    simp only [optimQLoop, Res.ok.injEq, Prod.mk.injEq] at h
    omega
  | succ m ih =>
    rw [optimQLoop_succ] at h
    obtain ⟨⟨⟨c, sh, xq, more⟩, g1, w1⟩, h1, h⟩ := Res.bind_eq_ok.mp h
    obtain ⟨⟨st, s1⟩, h2, h⟩ := Res.bind_eq_ok.mp h
    simp only at h
    split at h
    · simp only [Res.ok.injEq, Prod.mk.injEq] at h
      omega
    · have := ih _ _ _ _ _ _ h
      omega

/-- **C04** Complete characterisation of `cutting_plane_optim_q`: it returns `(best, k)`, `gamma`, oracle and space exactly
when `k` iterations as described by `OptimQRun` (none of which stops) lead either to the exhausted budget, or to a last
iteration that stops: `NoSoln`, `NoEffect` without a further alternative, or `tsq` below the tolerance. -/
theorem C04_optimQ_iff (w : Ω) (s : S) (g : α) (opts : Options α) (r : Option X) (k : Nat) (g' : α) (w' : Ω) (s' : S) :
    cuttingPlaneOptimQ orc sp w s g opts = .ok ((r, k), g', w', s') ↔
    ∃ w1 s1 g1 retry best, OptimQRun orc sp opts.tolerance k (w, s, g, false, none) (w1, s1, g1, retry, best) ∧
      ((k = opts.maxIters ∧ w' = w1 ∧ s' = s1 ∧ g' = g1 ∧ r = best) ∨
       (k < opts.maxIters ∧ ∃ c sh xq more st,
          orc.assess w1 (sp.xc s1) g1 retry = .ok ((c, sh, xq, more), g', w') ∧ sp.updateQ s1 c = .ok (st, s') ∧
          r = (if sh then some xq else best) ∧
          (st = .noSoln ∨ (st = .noEffect ∧ more = false) ∨ Scalar.lt (sp.tsq s') opts.tolerance = true))) := by
  have key : ∀ (m k n0 : Nat) (xb : Option X) (retry : Bool) (w : Ω) (s : S) (g : α),
      (optimQLoop orc sp opts.tolerance m n0 xb retry w s g = .ok ((r, n0 + k), g', w', s') ↔
      ∃ w1 s1 g1 retry1 best, OptimQRun orc sp opts.tolerance k (w, s, g, retry, xb) (w1, s1, g1, retry1, best) ∧
      ((k = m ∧ w' = w1 ∧ s' = s1 ∧ g' = g1 ∧ r = best) ∨
       (k < m ∧ ∃ c sh xq more st,
          orc.assess w1 (sp.xc s1) g1 retry1 = .ok ((c, sh, xq, more), g', w') ∧ sp.updateQ s1 c = .ok (st, s') ∧
          r = (if sh then some xq else best) ∧
          (st = .noSoln ∨ (st = .noEffect ∧ more = false) ∨ Scalar.lt (sp.tsq s') opts.tolerance = true)))) := by
    clear w s g k
    intro m
    induction m with
    | zero =>
      intro k n0 xb retry w s g
      simp only [optimQLoop, Res.ok.injEq, Prod.mk.injEq]
      constructor
      · rintro ⟨⟨rfl, hk⟩, rfl, rfl, rfl⟩
        obtain rfl : k = 0 := by omega
        exact ⟨w, s, g, retry, xb, .nil _, .inl ⟨rfl, rfl, rfl, rfl, rfl⟩⟩
      · rintro ⟨w1, s1, g1, retry1, best, hr, ⟨rfl, rfl, rfl, rfl, rfl⟩ | ⟨h, -⟩⟩
        · cases hr
          simp
        · omega
    | succ m ih =>
      intro k n0 xb retry w s g
      rw [optimQLoop_succ]
      constructor
      · intro h
        obtain ⟨⟨⟨c, sh, xq, more⟩, g1, w1⟩, h1, h⟩ := Res.bind_eq_ok.mp h
        obtain ⟨⟨st, s1⟩, h2, h⟩ := Res.bind_eq_ok.mp h
        simp only at h h2
        split at h
        · rename_i hst
          simp only [Res.ok.injEq, Prod.mk.injEq] at h
          obtain ⟨⟨hr, hk⟩, rfl, rfl, rfl⟩ := h
          obtain rfl : k = 0 := by omega
          exact ⟨w, s, g, retry, xb, .nil _, .inr ⟨by omega, c, sh, xq, more, st, h1, h2, hr.symm, hst⟩⟩
        · rename_i hst
          simp only [not_or, not_and, Bool.not_eq_false, Bool.not_eq_true] at hst
          have hc := optimQLoop_count orc sp _ _ _ _ _ _ _ _ _ _ _ _ _ h
          obtain ⟨k, rfl⟩ : ∃ k', k = k' + 1 := ⟨k - 1, by omega⟩
          rw [show n0 + (k + 1) = n0 + 1 + k by omega] at h
          obtain ⟨w2, s2, g2, retry2, best, hr, he⟩ := (ih _ _ _ _ _ _ _).mp h
          refine ⟨w2, s2, g2, retry2, best, .cons h1 h2 hst.1 hst.2.1 hst.2.2 hr, ?_⟩
          rcases he with ⟨h, he⟩ | ⟨h, he⟩
          · exact Or.inl ⟨by omega, he⟩
          · exact Or.inr ⟨by omega, he⟩
      · rintro ⟨w1, s1, g1, retry1, best, hr, he⟩
        cases hr with
        | nil =>
          rcases he with ⟨h, -⟩ | ⟨-, c, sh, xq, more, st, h1, h2, h3, h4⟩
          · omega
          · simp only [h1, Res.ok_bind, h2, if_pos h4, h3, Nat.add_zero]
        | @cons k _ w2 _ s2 _ g2 _ _ c sh xq more st _ hq hu h1 h2 ht hr =>
          have hst : ¬ (st = .noSoln ∨ (st = .noEffect ∧ more = false) ∨ Scalar.lt (sp.tsq s2) opts.tolerance = true) := by
            rintro (h | ⟨h, h'⟩ | h)
            · exact h1 h
            · simp [h2 h] at h'
            · simp [ht] at h
          simp only [hq, Res.ok_bind, hu, if_neg hst]
          rw [show n0 + (k + 1) = n0 + 1 + k by omega]
          refine (ih _ _ _ _ _ _ _).mpr ⟨w1, s1, g1, retry1, best, hr, ?_⟩
          rcases he with ⟨h, he⟩ | ⟨h, he⟩
          · exact Or.inl ⟨by omega, he⟩
          · exact Or.inr ⟨by omega, he⟩
  simpa [cuttingPlaneOptimQ] using key opts.maxIters k 0 none false w s g

end OptimQ

section Adaptor
variable (orc : OracleFeas Ω X T α) (sp : Space S X T α)

/-- **C05** `assess_bs(gamma)`: the oracle's level is set to `gamma` first, the feasibility loop is run
from the stored space, the answer is whether that run found a point; the stored space changes only
by `set_xc` of the point found, and not at all when none was found; the options are kept. -/
theorem C05_assessBs_iff (a a' : BSearchAdaptor Ω S α) (gamma : α) (b : Bool) :
    BSearchAdaptor.assessBs orc sp a gamma = .ok (b, a') ↔
      ∃ w r k w' s', orc.update a.omega gamma = .ok w ∧
        cuttingPlaneFeas orc sp w a.space a.options = .ok ((r, k), w', s') ∧
        b = r.isSome ∧ a'.omega = w' ∧ a'.options = a.options ∧
        (∀ x, r = some x → a'.space = sp.setXc a.space x) ∧
        (r = none → a'.space = a.space) := by
  unfold BSearchAdaptor.assessBs
  constructor
  · intro h
    obtain ⟨w, hw, h⟩ := Res.bind_eq_ok.1 h
    obtain ⟨⟨⟨r, k⟩, w', s'⟩, hf, h⟩ := Res.bind_eq_ok.1 h
    refine ⟨w, r, k, w', s', hw, hf, ?_⟩
    cases r with
    | none =>
      simp only [Res.ok.injEq, Prod.mk.injEq] at h
      obtain ⟨rfl, rfl⟩ := h
      simp
    | some x =>
      simp only [Res.ok.injEq, Prod.mk.injEq] at h
      obtain ⟨rfl, rfl⟩ := h
      simp
  · rintro ⟨w, r, k, w', s', hw, hf, rfl, h1, h2, h3, h4⟩
    rw [hw]
    simp only [Res.ok_bind, hf]
    obtain ⟨o, s, op⟩ := a'
    cases r with
    | none => simp_all
    | some x => simp_all

end Adaptor

end Ellalgo
