import Verif.Lib.StableShape
import Mathlib.Data.Real.Basic
import Mathlib.Tactic.NormNum

/-! Property C87: sizes of the arrays of an `EllStable`. -/

namespace Ellalgo
variable {α : Type} [Scalar α] {T : Type} [CutType T α]

theorem EllStable.update_shape {n : Nat} (hn : 0 < n) (k : UpdateKind) (e : EllStable α) (cut : Arr α × T)
    (he : e.Shaped n) (hg : n ≤ cut.1.data.length) :
    ∃ st e', (EllStable.space (T := T)).update k e cut = .ok (st, e') ∧ e'.Shaped n := by
  have hv := VEq.refl_of hg
  cases k
  · obtain ⟨st, e', h, -, h'⟩ := EllStable.updateCore_rel hn he hv (fun tsq => CutType.callBias cut.2 e.helper tsq)
    exact ⟨st, e', h, h'⟩
  · obtain ⟨st, e', h, -, h'⟩ := EllStable.updateCore_rel hn he hv (fun tsq => CutType.callCentral cut.2 e.helper tsq)
    exact ⟨st, e', h, h'⟩
  · obtain ⟨st, e', h, -, h'⟩ := EllStable.updateCore_rel hn he hv (fun tsq => CutType.callQ cut.2 e.helper tsq)
    exact ⟨st, e', h, h'⟩

/-- **C87**  Well-shaped input never panics, and all shapes are preserved, for any sequence of updates of any
kind. -/
theorem C87_stable_no_panic_and_shapes (n : Nat) (hn : 0 < n) (e : EllStable α) (he : e.Shaped n)
    (cuts : List (UpdateKind × Arr α × T)) (hg : ∀ c ∈ cuts, c.2.1.IsVecShape n) :
    ∃ tr, (EllStable.space (T := T)).run e cuts = .ok tr ∧ tr.length = cuts.length ∧ ∀ p ∈ tr, p.2.Shaped n := by
  induction cuts generalizing e with
  | nil => exact ⟨[], rfl, rfl, by simp⟩
  | cons c cs ih =>
    obtain ⟨k, cut⟩ := c
    obtain ⟨st, e', h1, h2⟩ := EllStable.update_shape hn k e cut he (hg (k, cut) (by simp)).2.2.ge
    obtain ⟨tr, h3, h4, h5⟩ := ih e' h2 (fun c hc => hg c (by simp [hc]))
    refine ⟨(st, e') :: tr, ?_, by simp [h4], ?_⟩
    · simp only [Space.run, h1, Res.ok_bind, h3]
    · intro p hp
      simp only [List.mem_cons] at hp
      rcases hp with rfl | hp
      · exact h2
      · exact h5 p hp

/-- **C87**  A gradient that is too long is not reported: the entries beyond the dimension are ignored.  (`Ell`
panics on it: `C11_bad_gradient_panics`.) -/
theorem C87_stable_long_gradient_ignored (n : Nat) (hn : 0 < n) (k : UpdateKind) (e : EllStable α) (he : e.Shaped n)
    (g : Arr α) (hg : g.IsVecShape n) (extra : List α) (r c : Nat) (b : T) :
    (EllStable.space (T := T)).update k e (⟨g.data ++ extra, r, c⟩, b) = (EllStable.space (T := T)).update k e (g, b) := by
  have hv : VEq n (⟨g.data ++ extra, r, c⟩ : Arr α) g := by
    refine ⟨by simp [hg.2.2], hg.2.2.ge, ?_⟩
    intro i hi
    show (g.data ++ extra)[i]? = g.data[i]?
    rw [List.getElem?_append_left (by rw [hg.2.2]; exact hi)]
  cases k
  · obtain ⟨st, e', h1, h2, -⟩ := EllStable.updateCore_rel hn he hv (fun tsq => CutType.callBias b e.helper tsq)
    exact h1.trans h2.symm
  · obtain ⟨st, e', h1, h2, -⟩ := EllStable.updateCore_rel hn he hv (fun tsq => CutType.callCentral b e.helper tsq)
    exact h1.trans h2.symm
  · obtain ⟨st, e', h1, h2, -⟩ := EllStable.updateCore_rel hn he hv (fun tsq => CutType.callQ b e.helper tsq)
    exact h1.trans h2.symm

/-- what a loop that finished has established -/
theorem forRange_partial {σ : Type} (P : Nat → σ → Prop) {f : Nat → σ → Res σ} {lo hi : Nat} {s s' : σ} (hle : lo ≤ hi)
    (h0 : P lo s) (hs : ∀ i s s', lo ≤ i → i < hi → P i s → f i s = .ok s' → P (i + 1) s')
    (h : forRange lo hi s f = .ok s') : P hi s' := by
  have key : ∀ (k lo : Nat) (s : σ), P lo s →
      (∀ i s s', lo ≤ i → i < lo + k → P i s → f i s = .ok s' → P (i + 1) s') → forN k lo s f = .ok s' → P (lo + k) s' := by
    intro k
    induction k with
    | zero =>
      intro lo s h0 _ h
      simp only [forN, Res.ok.injEq] at h
      exact h ▸ h0
    | succ k ih =>
      intro lo s h0 hs h
      simp only [forN, Res.bind_eq_ok] at h
      obtain ⟨s1, h1, h2⟩ := h
      have := ih (lo + 1) s1 (hs lo s s1 le_rfl (by omega) h0 h1) (fun i s s' hi hi' => hs i s s' (by omega) (by omega)) h2
      rwa [show lo + 1 + k = lo + (k + 1) by omega] at this
  have := key (hi - lo) lo s h0 (fun i s s' h1 h2 => hs i s s' h1 (by omega)) h
  rwa [show lo + (hi - lo) = hi by omega] at this

omit [Scalar α] in
theorem Arr.setIdx_length {a a' : Arr α} {i : Nat} {x : α} (h : a.setIdx i x = .ok a') :
    a'.data.length = a.data.length := by
  unfold Arr.setIdx at h
  split at h
  · simp only [Res.ok.injEq] at h
    rw [← h]; simp
  · simp at h

/-- **C87**  A gradient that is too short panics, whatever the state and the kind of update. -/
theorem C87_stable_short_gradient_panics (k : UpdateKind) (e : EllStable α) (cut : Arr α × T)
    (hg : cut.1.data.length < e.xc.len) : (EllStable.space (T := T)).update k e cut = .panic := by
  have key : ∀ strategy : α → CutStatus × Triple α, e.updateCore cut.1 strategy = .panic := by
    intro strategy
    cases hu : e.updateCore cut.1 strategy with
    | panic => rfl
    | ok r =>
      exfalso
      unfold EllStable.updateCore at hu
      obtain ⟨⟨mq, w⟩, hf, hu⟩ := Res.bind_eq_ok.1 hu
      obtain ⟨z, hz, -⟩ := Res.bind_eq_ok.1 hu
      have hw : w.data.length = cut.1.data.length := by
        refine forRange_partial (P := fun _ (s : Arr α × Arr α) => s.2.data.length = cut.1.data.length)
          (lo := 1) (hi := e.xc.len) (s := (e.mq, cut.1)) (s' := (mq, w)) (by omega) rfl ?_ hf
        intro i s s' _ _ hs h
        refine forRange_partial (P := fun _ (s : Arr α × Arr α) => s.2.data.length = cut.1.data.length) (Nat.zero_le _) hs ?_ h
        rintro j ⟨a, v⟩ ⟨a', v'⟩ _ _ hv h
        simp only [Res.bind_eq_ok] at h
        obtain ⟨_, _, _, _, _, _, _, _, v2, h2, h⟩ := h
        simp only [Res.ok.injEq, Prod.mk.injEq] at h
        rw [← h.2]
        exact (Arr.setIdx_length h2).trans hv
      have := forRange_partial (P := fun i (v : Arr α) => v.data.length = cut.1.data.length ∧ i ≤ cut.1.data.length)
        (Nat.zero_le _) ⟨hw, Nat.zero_le _⟩ (by
          intro i v v' _ _ hv h
          obtain ⟨x, hx, h⟩ := Res.bind_eq_ok.1 h
          obtain ⟨d, _, h⟩ := Res.bind_eq_ok.1 h
          have hi : i < v.data.length := by
            by_contra hc
            rw [Arr.idx, List.getElem?_eq_none (by omega)] at hx
            simp at hx
          exact ⟨(Arr.setIdx_length h).trans hv.1, by omega⟩) hz
      omega
  cases k <;> exact key _

/-! ### Non-vacuity -/

noncomputable def shapeDisc : EllStable ℝ := ⟨⟨[1, 0, 0, 1], 2, 2⟩, ⟨[0, 0], 2, 0⟩, 1, EllCalc.new 2, 0⟩

example : shapeDisc.Shaped 2 ∧ (⟨[3, 4], 2, 0⟩ : Arr ℝ).IsVecShape 2 :=
  ⟨⟨⟨rfl, rfl, rfl⟩, rfl, rfl, rfl⟩, rfl, rfl, rfl⟩

/-- a gradient with a third entry moves a two-dimensional ellipsoid exactly like its first two entries -/
example : EllStable.space.update .central shapeDisc (⟨[3, 4, 5], 3, 0⟩, (⟨0⟩ : SingleCut ℝ)) =
    EllStable.space.update .central shapeDisc (⟨[3, 4], 2, 0⟩, (⟨0⟩ : SingleCut ℝ)) :=
  C87_stable_long_gradient_ignored 2 (by norm_num) .central shapeDisc ⟨⟨rfl, rfl, rfl⟩, rfl, rfl, rfl⟩ ⟨[3, 4], 2, 0⟩
    ⟨rfl, rfl, rfl⟩ [5] 3 0 (⟨0⟩ : SingleCut ℝ)

example : EllStable.space.update .central shapeDisc (⟨[3], 1, 0⟩, (⟨0⟩ : SingleCut ℝ)) = .panic :=
  C87_stable_short_gradient_panics .central shapeDisc _ (by decide)

end Ellalgo
