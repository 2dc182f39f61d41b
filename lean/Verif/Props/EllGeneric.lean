import Verif.Spec.EllOps
import Verif.Lib.EllLemmas
import Verif.Lib.Toy

/-! C09, C10, C11, C26: facts about `Ell` / `EllStable` that hold for every scalar arithmetic
(no law of `+ - * /`, comparison or `sqrt` is used, so NaN and rounding are covered). -/

namespace Ellalgo
variable {α : Type} [Scalar α] {T : Type} [CutType T α]

/-! ### C09 -/

theorem Ell.updateCore_rejected {e e' : Ell α} {grad : Arr α} {strategy : α → CutStatus × Triple α}
    {st : CutStatus} (h : e.updateCore grad strategy = .ok (st, e')) (hst : st ≠ .success) :
    e' = { e with tsq := e'.tsq } := by
  unfold Ell.updateCore at h
  simp only [Res.bind_eq_ok] at h
  obtain ⟨gT, _, om, _, h⟩ := h
  rcases hs : strategy (e.kappa * om) with ⟨s, ρ, σ, δ⟩
  simp only [hs] at h
  by_cases hss : s = .success
  · subst hss
    simp only [bne_self_eq_false, Bool.false_eq_true, if_false, Res.bind_eq_ok] at h
    obtain ⟨_, _, _, _, h⟩ := h
    split at h <;> simp only [Res.ok.injEq, Prod.mk.injEq] at h <;> exact absurd h.1.symm hst
  · have : (s != CutStatus.success) = true := by simpa using hss
    simp only [this, if_true, Res.ok.injEq, Prod.mk.injEq] at h
    rw [← h.2]

/-- **C09** (`Ell`).  If an update reports anything but `Success`, the state is the old one with only
`tsq` replaced: matrix, centre, `kappa`, options are the very same values. -/
theorem C09_rejected_unchanged_ell (k : UpdateKind) (e e' : Ell α) (cut : Arr α × T) (st : CutStatus)
    (h : (Ell.space (T := T)).update k e cut = .ok (st, e')) (hst : st ≠ .success) :
    e'.mq = e.mq ∧ e'.xc = e.xc ∧ e'.kappa = e.kappa ∧ e'.helper = e.helper ∧
      e'.noDeferTrick = e.noDeferTrick := by
  have : e' = { e with tsq := e'.tsq } := by
    rw [Ell.update_eq] at h
    exact Ell.updateCore_rejected h hst
  rw [this]
  exact ⟨rfl, rfl, rfl, rfl, rfl⟩

/-- forward substitution writes only the strict lower triangle -/
theorem EllStable.forward_spec {n : Nat} {mq g : Arr α} {m : Nat → Nat → α} {v : Nat → α}
    (hm : IsMat mq n n m) (hg : IsVec g n v) :
    ∃ mq' w, EllStable.forward n mq g = .ok (mq', w) ∧ w.IsVecShape n ∧ mq'.IsMatShape n n ∧
      ∀ i j, i ≤ j → j < n → mq'.mat i j = m i j := by
  rcases Nat.eq_zero_or_pos n with hn | hn
  · subst hn
    refine ⟨mq, g, ?_, hg.shape, hm.shape, fun i j _ hj => absurd hj (by omega)⟩
    simp [EllStable.forward, forRange, forN]
  have key : ∃ st, EllStable.forward n mq g = .ok st ∧ st.2.IsVecShape n ∧ st.1.IsMatShape n n ∧
      ∀ i j, i ≤ j → j < n → st.1.mat i j = m i j := by
    unfold EllStable.forward
    refine forRange_post (fun _ (st : Arr α × Arr α) => st.2.IsVecShape n ∧ st.1.IsMatShape n n ∧
      ∀ i j, i ≤ j → j < n → st.1.mat i j = m i j) hn
      ⟨hg.shape, hm.shape, fun i j h1 h2 => hm.mat (by omega) h2⟩ ?_ (fun _ h => h)
    intro i st _ hi hst
    refine forRange_post (fun _ (st : Arr α × Arr α) => st.2.IsVecShape n ∧ st.1.IsMatShape n n ∧
      ∀ i j, i ≤ j → j < n → st.1.mat i j = m i j) (Nat.zero_le i) hst ?_ (fun _ h => h)
    rintro j ⟨mq1, v1⟩ _ hj ⟨h1, h2, h3⟩
    have hv := h1.isVec
    have hM := h2.isMat
    obtain ⟨mq2, e1, hM2⟩ := hM.setIdx hi (by omega : j < n) (mq1.mat j i * v1.vec j)
    obtain ⟨v2, e2, hv2⟩ := hv.setIdx hi (v1.vec i - mq1.mat j i * v1.vec j)
    refine ⟨(mq2, v2), ?_, hv2.shape, hM2.shape, ?_⟩
    · dsimp only
      rw [hM.getij (by omega : j < n) hi, hv.idx (by omega : j < n)]
      simp only [Res.ok_bind]
      rw [e1, hv.idx hi]
      simp only [Res.ok_bind]
      rw [e2]
      rfl
    · intro p q hpq hq
      rw [hM2.mat (by omega) hq, upd2, if_neg (by omega)]
      exact h3 p q hpq hq
  obtain ⟨⟨a, b⟩, h⟩ := key
  exact ⟨a, b, h⟩

theorem EllStable.updateCore_rejected {e e' : EllStable α} {grad : Arr α}
    {strategy : α → CutStatus × Triple α}
    {st : CutStatus} (h : e.updateCore grad strategy = .ok (st, e')) (hst : st ≠ .success) :
    ∃ w, EllStable.forward e.xc.len e.mq grad = .ok (e'.mq, w) ∧
      e' = { e with mq := e'.mq, tsq := e'.tsq } := by
  unfold EllStable.updateCore at h
  simp only [Res.bind_eq_ok] at h
  obtain ⟨⟨mq, w⟩, hf, z, _, ⟨gg, om⟩, _, h⟩ := h
  dsimp only at h
  rcases hs : strategy (e.kappa * om) with ⟨s, ρ, σ, δ⟩
  simp only [hs] at h
  by_cases hss : s = .success
  · subst hss
    simp only [bne_self_eq_false, Bool.false_eq_true, if_false, Res.bind_eq_ok] at h
    obtain ⟨_, _, _, _, _, _, h⟩ := h
    simp only [Res.ok.injEq, Prod.mk.injEq] at h
    exact absurd h.1.symm hst
  · have : (s != CutStatus.success) = true := by simpa using hss
    simp only [this, if_true, Res.ok.injEq, Prod.mk.injEq] at h
    rw [← h.2]
    exact ⟨w, hf, rfl⟩

/-- **C09** (`EllStable`).  After a rejected cut the centre and `kappa` are the very same values, and so
is the meaningful part of the matrix (diagonal and upper triangle; the lower triangle is scratch
space that the code overwrites before the cut is classified). -/
theorem C09_rejected_unchanged_stable (k : UpdateKind) (e e' : EllStable α) (cut : Arr α × T)
    (st : CutStatus) (h : (EllStable.space (T := T)).update k e cut = .ok (st, e'))
    (hst : st ≠ .success) :
    e'.xc = e.xc ∧ e'.kappa = e.kappa ∧ e'.helper = e.helper ∧
    ∀ n, e.Shaped n → cut.1.IsVecShape n → ∀ i j, i ≤ j → j < n → e'.mq.mat i j = e.mq.mat i j := by
  have : ∃ w, EllStable.forward e.xc.len e.mq cut.1 = .ok (e'.mq, w) ∧
      e' = { e with mq := e'.mq, tsq := e'.tsq } := by
    rw [EllStable.update_eq] at h
    exact EllStable.updateCore_rejected h hst
  obtain ⟨w, hf, he⟩ := this
  refine ⟨by rw [he], by rw [he], by rw [he], ?_⟩
  intro n hsh hg i j hij hj
  obtain ⟨mq', w', hf', _, _, hm⟩ := EllStable.forward_spec hsh.1.isMat hg.isVec
  have hl : e.xc.len = n := hsh.2.2.2
  rw [hl, hf'] at hf
  simp only [Res.ok.injEq, Prod.mk.injEq] at hf
  rw [← hf.1]
  exact hm i j hij hj

/-! ### C10 -/

theorem Ell.update_shape {n : Nat} (hn : 0 < n) (k : UpdateKind) (e : Ell α) (cut : Arr α × T)
    (he : e.Shaped n) (hg : cut.1.IsVecShape n) :
    ∃ st e', (Ell.space (T := T)).update k e cut = .ok (st, e') ∧ e'.Shaped n ∧
      e'.helper = e.helper ∧ e'.noDeferTrick = e.noDeferTrick ∧
      ((st = .success ∧ e'.mq.Symm n) ∨ (st ≠ .success ∧ e'.mq = e.mq)) := by
  have key : ∀ strategy : α → CutStatus × Triple α, ∃ st e', e.updateCore cut.1 strategy = .ok (st, e') ∧
      e'.Shaped n ∧ e'.helper = e.helper ∧ e'.noDeferTrick = e.noDeferTrick ∧
      ((st = .success ∧ e'.mq.Symm n) ∨ (st ≠ .success ∧ e'.mq = e.mq)) := by
    intro strategy
    rcases hs : strategy (e.kappa * Ell.om n e.mq.mat cut.1.vec) with ⟨st, ρ, σ, δ⟩
    rcases Ell.updateCore_spec he.1.isMat he.2.isVec hg.isVec hn strategy hs with
      ⟨h1, h2⟩ | ⟨h1, e', h2, h3, h4, h5, h6, h7, h8⟩
    · exact ⟨st, _, h2, he, rfl, rfl, Or.inr ⟨h1, rfl⟩⟩
    · refine ⟨_, e', h2, ⟨h3.shape, h4.shape⟩, h6, h7, Or.inl ⟨rfl, ?_⟩⟩
      intro i j hi hj
      rw [h3.mat hi hj, h3.mat hj hi, Ell.deferM, Ell.deferM, newMq_symm]
  rw [Ell.update_eq]
  exact key _

/-- **C10** (one step).  After a successful update the stored matrix is exactly symmetric, whatever
it was before. -/
theorem C10_symmetric_after_success (n : Nat) (k : UpdateKind) (e e' : Ell α) (cut : Arr α × T)
    (hn : 0 < n) (he : e.Shaped n) (hg : cut.1.IsVecShape n)
    (h : (Ell.space (T := T)).update k e cut = .ok (.success, e')) : e'.mq.Symm n := by
  obtain ⟨st, e'', h1, _, _, _, h2⟩ := Ell.update_shape hn k e cut he hg
  rw [h] at h1
  simp only [Res.ok.injEq, Prod.mk.injEq] at h1
  obtain ⟨rfl, rfl⟩ := h1
  rcases h2 with h2 | h2
  · exact h2.2
  · exact absurd rfl h2.1

/-- **C11** (sequences).  Well-shaped input never panics, and all shapes are preserved, for any
sequence of updates of any kind. -/
theorem C11_no_panic_and_shapes (n : Nat) (hn : 0 < n) (e : Ell α) (he : e.Shaped n)
    (cuts : List (UpdateKind × Arr α × T)) (hg : ∀ c ∈ cuts, c.2.1.IsVecShape n) :
    ∃ tr, (Ell.space (T := T)).run e cuts = .ok tr ∧ tr.length = cuts.length ∧
      ∀ p ∈ tr, p.2.Shaped n := by
  induction cuts generalizing e with
  | nil => exact ⟨[], rfl, rfl, by simp⟩
  | cons c cs ih =>
    obtain ⟨k, cut⟩ := c
    obtain ⟨st, e', h1, h2, _⟩ := Ell.update_shape hn k e cut he (hg (k, cut) (by simp))
    obtain ⟨tr, h3, h4, h5⟩ := ih e' h2 (fun c hc => hg c (by simp [hc]))
    refine ⟨(st, e') :: tr, ?_, by simp [h4], ?_⟩
    · simp only [Space.run, h1, Res.ok_bind, h3]
    · intro p hp
      rcases List.mem_cons.mp hp with rfl | hp
      · exact h2
      · exact h5 p hp

/-- **C11** (ill-shaped gradient).  A gradient of the wrong length panics (in the first operation,
before the ellipsoid is written). -/
theorem C11_bad_gradient_panics (n : Nat) (k : UpdateKind) (e : Ell α) (cut : Arr α × T)
    (he : e.Shaped n) (hg : cut.1.len ≠ n) :
    (Ell.space (T := T)).update k e cut = .panic ∧ e.mq.dotMv cut.1 = .panic := by
  have hd : e.mq.dotMv cut.1 = .panic := by
    unfold Arr.dotMv
    have h3 : (e.mq.cols == cut.1.len) = false := by
      rw [he.1.2.1]; simpa using fun h => hg h.symm
    rw [h3]
    cases e.mq.is2d <;> cases cut.1.is2d <;> rfl
  have key : ∀ strategy, e.updateCore cut.1 strategy = .panic := by
    intro strategy
    unfold Ell.updateCore
    rw [hd]
    rfl
  refine ⟨?_, hd⟩
  rw [Ell.update_eq]
  exact key _

/-- **C10** (sequences).  Starting from an exactly symmetric matrix, the matrix is exactly symmetric
after every step of every sequence of updates. -/
theorem C10_symmetric_sequences (n : Nat) (hn : 0 < n) (e : Ell α) (he : e.Shaped n)
    (hsym : e.mq.Symm n) (cuts : List (UpdateKind × Arr α × T))
    (hg : ∀ c ∈ cuts, c.2.1.IsVecShape n) (tr : List (CutStatus × Ell α))
    (h : (Ell.space (T := T)).run e cuts = .ok tr) : ∀ p ∈ tr, p.2.mq.Symm n := by
  induction cuts generalizing e tr with
  | nil =>
    simp only [Space.run, Res.ok.injEq] at h
    subst h; simp
  | cons c cs ih =>
    obtain ⟨k, cut⟩ := c
    obtain ⟨st, e', h1, h2, _, _, h3⟩ := Ell.update_shape hn k e cut he (hg (k, cut) (by simp))
    have hs' : e'.mq.Symm n := by
      rcases h3 with h3 | h3
      · exact h3.2
      · rw [h3.2]; exact hsym
    simp only [Space.run, h1, Res.ok_bind, Res.bind_eq_ok, Res.ok.injEq] at h
    obtain ⟨tr', h4, rfl⟩ := h
    intro p hp
    rcases List.mem_cons.mp hp with rfl | hp
    · exact hs'
    · exact ih e' h2 hs' (fun c hc => hg c (by simp [hc])) tr' h4 p hp

/-! ### C26 -/

/-- **C26** (`None`).  `ParallelCut(b, None)` and `SingleCut(b)` are interchangeable for every update
kind of both ellipsoid classes. -/
theorem C26_parallel_none_is_single (k : UpdateKind) (g : Arr α) (b : α) :
    (∀ e : Ell α, Ell.space.update k e (g, (⟨b, none⟩ : ParallelCut α)) =
      Ell.space.update k e (g, (⟨b⟩ : SingleCut α))) ∧
    (∀ e : EllStable α, EllStable.space.update k e (g, (⟨b, none⟩ : ParallelCut α)) =
      EllStable.space.update k e (g, (⟨b⟩ : SingleCut α))) := by
  constructor <;> intro e <;> cases k <;> rfl

/-- **C26** (parallel cuts switched off).  With `use_parallel_cut = false` a parallel cut with
`b0 <= b1` (for the central kind: `0 <= b1`) gives exactly the single-cut result. -/
theorem C26_parallel_disabled_is_single (k : UpdateKind) (g : Arr α) (b0 b1 : α)
    (h01 : Scalar.lt b1 b0 = false) (hc : k = .central → Scalar.lt b1 0 = false) :
    (∀ e : Ell α, e.helper.useParallelCut = false →
      Ell.space.update k e (g, (⟨b0, some b1⟩ : ParallelCut α)) =
        Ell.space.update k e (g, (⟨b0⟩ : SingleCut α))) ∧
    (∀ e : EllStable α, e.helper.useParallelCut = false →
      EllStable.space.update k e (g, (⟨b0, some b1⟩ : ParallelCut α)) =
        EllStable.space.update k e (g, (⟨b0⟩ : SingleCut α))) := by
  constructor <;> intro e hu <;> cases k <;>
    simp [Space.update, Ell.space, EllStable.space, Ell.updateBias, Ell.updateCentral, Ell.updateQ,
      EllStable.updateBias, EllStable.updateCentral, EllStable.updateQ, CutType.callBias,
      CutType.callCentral, CutType.callQ, EllCalc.calcSingleOrParallelBiasCut,
      EllCalc.calcSingleOrParallelCentralCut, EllCalc.calcSingleOrParallelQ,
      EllCalc.calcParallelBiasCut, EllCalc.calcParallelCentralCut, EllCalc.calcParallelQ, hu, h01, hc]

theorem Ell.updateCore_tsq {e e' : Ell α} {grad : Arr α} {strategy strategy' : α → CutStatus × Triple α}
    {st : CutStatus} (h : e.updateCore grad strategy = .ok (st, e'))
    (hs : strategy' e'.tsq = strategy e'.tsq) : e.updateCore grad strategy' = .ok (st, e') := by
  unfold Ell.updateCore at h ⊢
  simp only [Res.bind_eq_ok] at h
  obtain ⟨gT, h1, om, h2, h⟩ := h
  have ht : e'.tsq = e.kappa * om := by
    split at h
    · simp only [Res.ok.injEq, Prod.mk.injEq] at h
      rw [← h.2]
    · simp only [Res.bind_eq_ok] at h
      obtain ⟨_, _, _, _, h⟩ := h
      split at h <;> simp only [Res.ok.injEq, Prod.mk.injEq] at h <;> rw [← h.2]
  rw [ht] at hs
  simp only [h1, Res.ok_bind, h2, hs]
  exact h

theorem EllStable.updateCore_tsq {e e' : EllStable α} {grad : Arr α}
    {strategy strategy' : α → CutStatus × Triple α}
    {st : CutStatus} (h : e.updateCore grad strategy = .ok (st, e'))
    (hs : strategy' e'.tsq = strategy e'.tsq) : e.updateCore grad strategy' = .ok (st, e') := by
  unfold EllStable.updateCore at h ⊢
  simp only [Res.bind_eq_ok] at h
  obtain ⟨⟨mq, w⟩, h1, z, h2, ⟨gg, om⟩, h3, h⟩ := h
  have ht : e'.tsq = e.kappa * om := by
    dsimp only at h
    split at h
    · simp only [Res.ok.injEq, Prod.mk.injEq] at h
      rw [← h.2]
    · simp only [Res.bind_eq_ok] at h
      obtain ⟨_, _, _, _, _, _, h⟩ := h
      simp only [Res.ok.injEq, Prod.mk.injEq] at h
      rw [← h.2]
  rw [ht] at hs
  simp only [h1, Res.ok_bind, h2, h3, hs]
  exact h

/-- **C26** (far plane outside the ellipsoid).  If `b0 <= b1`, `b1 > 0` and `b1² >= tsq`, a parallel cut
gives exactly the single-cut result. -/
theorem C26_parallel_far_is_single (k : UpdateKind) (g : Arr α) (b0 b1 : α)
    (h01 : Scalar.lt b1 b0 = false) (hpos : Scalar.gt b1 0 = true) (hnn : Scalar.lt b1 0 = false) :
    (∀ (e e' : Ell α) st, Ell.space.update k e (g, (⟨b0⟩ : SingleCut α)) = .ok (st, e') →
      Scalar.le e'.tsq (b1 * b1) = true →
      Ell.space.update k e (g, (⟨b0, some b1⟩ : ParallelCut α)) = .ok (st, e')) ∧
    (∀ (e e' : EllStable α) st, EllStable.space.update k e (g, (⟨b0⟩ : SingleCut α)) = .ok (st, e') →
      Scalar.le e'.tsq (b1 * b1) = true →
      EllStable.space.update k e (g, (⟨b0, some b1⟩ : ParallelCut α)) = .ok (st, e')) := by
  constructor
  · intro e e' st h hle
    rw [Ell.update_eq] at h ⊢
    refine Ell.updateCore_tsq h ?_
    cases k <;> simp [CutType.call, CutType.callBias, CutType.callCentral, CutType.callQ, EllCalc.calcSingleOrParallelBiasCut,
        EllCalc.calcSingleOrParallelCentralCut, EllCalc.calcSingleOrParallelQ,
        EllCalc.calcParallelBiasCut, EllCalc.calcParallelCentralCut, EllCalc.calcParallelQ, h01, hpos,
        hnn, Scalar.ge, hle]
  · intro e e' st h hle
    rw [EllStable.update_eq] at h ⊢
    refine EllStable.updateCore_tsq h ?_
    cases k <;> simp [CutType.call, CutType.callBias, CutType.callCentral, CutType.callQ, EllCalc.calcSingleOrParallelBiasCut,
        EllCalc.calcSingleOrParallelCentralCut, EllCalc.calcSingleOrParallelQ,
        EllCalc.calcParallelBiasCut, EllCalc.calcParallelCentralCut, EllCalc.calcParallelQ, h01, hpos,
        hnn, Scalar.ge, hle]

/-! ### Concrete instances (rational scalars, dimension 2) -/

namespace Toy
/-- unit disc at the origin -/
def disc : Ell Rat := Ell.newWithMatrix 1 ⟨[1, 0, 0, 1], 2, 2⟩ ⟨[0, 0], 2, 0⟩
/-- the same as an `EllStable` -/
def discS : EllStable Rat := EllStable.newWithMatrix 1 ⟨[1, 0, 0, 1], 2, 2⟩ ⟨[0, 0], 2, 0⟩
def g : Arr Rat := ⟨[3/5, 4/5], 2, 0⟩

example : disc.Shaped 2 := ⟨⟨rfl, rfl, rfl⟩, ⟨rfl, rfl, rfl⟩⟩
example : disc.mq.Symm 2 := by
  intro i j hi hj
  rcases (by omega : i = 0 ∨ i = 1) with rfl | rfl <;> rcases (by omega : j = 0 ∨ j = 1) with rfl | rfl <;> rfl
/-- C09: a cut that is rejected -/
example : (Ell.space.update .bias disc (g, (⟨2⟩ : SingleCut Rat)) >>= fun r => .ok (r.1, r.2.tsq)) =
    .ok (.noSoln, 1) := by decide +kernel
example : (EllStable.space.update .bias discS (g, (⟨2⟩ : SingleCut Rat)) >>= fun r => .ok (r.1, r.2.tsq)) =
    .ok (.noSoln, 1) := by decide +kernel
/-- C10, C11: a successful central cut followed by a deep cut -/
example : (Ell.space.run disc [(.central, g, (⟨0⟩ : SingleCut Rat)), (.bias, g, ⟨1/3⟩)] >>= fun tr =>
    .ok (tr.map fun p => (p.1, p.2.mq.data))) =
    .ok [(.success, [19/25, -8/25, -8/25, 43/75]), (.success, [49/75, -104/225, -104/225, 259/675])] := by
  decide +kernel
/-- C26: the far plane is outside the disc -/
example : (Ell.space.update .bias disc (g, (⟨1/2, some 3⟩ : ParallelCut Rat)) >>= fun r =>
    .ok (r.1, r.2.xc.data)) = .ok (.success, [-2/5, -8/15]) := by decide +kernel
end Toy

end Ellalgo
