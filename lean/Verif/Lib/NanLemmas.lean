import Verif.Spec.Nan
import Verif.Lib.EllLemmas

/-! NaN through sums, strategies and one ellipsoid update. -/

namespace Ellalgo
variable {α : Type} [Scalar α] {N : α → Prop}

theorem NanLaws.sumTo (hN : NanLaws N) {n : Nat} {f : Nat → α} {i : Nat} (hi : i < n) (h : N (f i)) :
    N (sumTo n f) := by
  induction n with
  | zero => omega
  | succ n ih =>
    rcases Nat.lt_succ_iff_lt_or_eq.1 hi with h' | rfl
    · exact hN.add_left (ih h') _
    · exact hN.add_right _ h

omit [Scalar α] in
theorem IsVec.someNan {a : Arr α} {n : Nat} {v : Nat → α} (h : IsVec a n v) : a.SomeNan N ↔ ∃ i < n, N (v i) := by
  constructor
  · rintro ⟨x, hx, hnx⟩
    obtain ⟨i, hi, rfl⟩ := List.mem_iff_getElem.1 hx
    have hin : i < n := h.len ▸ hi
    refine ⟨i, hin, ?_⟩
    have := h.get i hin
    rw [List.getElem?_eq_getElem hi] at this
    rwa [← Option.some.inj this]
  · rintro ⟨i, hi, hnx⟩
    exact ⟨v i, List.mem_of_getElem? (h.get i hi), hnx⟩

omit [Scalar α] in
theorem IsVec.allNan {a : Arr α} {n : Nat} {v : Nat → α} (h : IsVec a n v) (hv : ∀ i < n, N (v i)) : a.AllNan N := by
  intro x hx
  obtain ⟨i, hi, rfl⟩ := List.mem_iff_getElem.1 hx
  have hin : i < n := h.len ▸ hi
  have := h.get i hin
  rw [List.getElem?_eq_getElem hi] at this
  rw [Option.some.inj this]
  exact hv i hin

omit [Scalar α] in
theorem IsMat.someNan {a : Arr α} {r c : Nat} {m : Nat → Nat → α} (h : IsMat a r c m) :
    a.SomeNan N ↔ ∃ i < r, ∃ j < c, N (m i j) := by
  constructor
  · rintro ⟨x, hx, hnx⟩
    obtain ⟨k, hk, rfl⟩ := List.mem_iff_getElem.1 hx
    have hkn : k < r * c := h.len ▸ hk
    have hc : 0 < c := Nat.pos_of_ne_zero fun h0 => by rw [h0] at hkn; omega
    have h1 : k / c < r := (Nat.div_lt_iff_lt_mul hc).2 hkn
    have h2 : k % c < c := Nat.mod_lt _ hc
    refine ⟨k / c, h1, k % c, h2, ?_⟩
    have := h.get _ _ h1 h2
    rw [Nat.div_add_mod' k c, List.getElem?_eq_getElem hk] at this
    rwa [← Option.some.inj this]
  · rintro ⟨i, hi, j, hj, hnx⟩
    exact ⟨m i j, List.mem_of_getElem? (h.get i j hi hj), hnx⟩

section strategies
variable (hN : NanLaws N) (c : EllCalc α)
include hN

/-- the strategies of single cuts -/
theorem single_nan (k : UpdateKind) (b tsq : α) (h : N tsq ∨ (k ≠ .central ∧ N b)) :
    ∃ ρ σ δ, CutType.call k (⟨b⟩ : SingleCut α) c tsq = (.success, ρ, σ, δ) ∧ N ρ ∧ (k ≠ .central → N δ) := by
  cases k with
  | central =>
    have h : N tsq := by simpa using h
    exact ⟨_, _, _, rfl, hN.div_left (hN.sqrt h) _, by simp⟩
  | bias =>
    have h : N tsq ∨ N b := by simpa using h
    have h1 : Scalar.lt tsq (b * b) = false := h.elim (fun h => hN.lt_left h _) fun h => hN.lt_right _ (hN.mul_left h _)
    have h2 : N (Scalar.sqrt tsq) ∨ N b := h.imp_left hN.sqrt
    refine ⟨_, _, _, by simp only [CutType.call, CutType.callBias, EllCalc.calcBiasCut, h1]; rfl, ?_, fun _ => ?_⟩
    · exact hN.div_left (h2.elim (fun h => hN.add_left h _) fun h => hN.add_right _ (hN.mul_right _ h)) _
    · exact hN.mul_right _ (hN.sub_right _ (hN.mul_left (h2.elim (fun h => hN.div_right _ h) fun h => hN.div_left h _) _))
  | q =>
    have h : N tsq ∨ N b := by simpa using h
    have h2 : N (Scalar.sqrt tsq) ∨ N b := h.imp_left hN.sqrt
    have h1 : Scalar.lt (Scalar.sqrt tsq) b = false := h2.elim (fun h => hN.lt_left h _) fun h => hN.lt_right _ h
    have h3 : N (Scalar.sqrt tsq + c.nF * b) :=
      h2.elim (fun h => hN.add_left h _) fun h => hN.add_right _ (hN.mul_right _ h)
    refine ⟨_, _, _, by
      simp only [CutType.call, CutType.callQ, EllCalc.calcBiasCutQ, h1, hN.lt_left h3]; rfl, ?_, fun _ => ?_⟩
    · exact hN.div_left h3 _
    · exact hN.mul_right _ (hN.sub_right _ (hN.mul_left (h2.elim (fun h => hN.div_right _ h) fun h => hN.div_left h _) _))

/-- the fast parallel formula -/
theorem parFast_nan (b0 b1 tsq : α) (h : N tsq ∨ N b0 ∨ N b1) (e : α) (he : N e) :
    ∃ ρ σ δ, c.helper.calcParallelBiasCutFast b0 b1 tsq (b0 * b1) e = (ρ, σ, δ) ∧ N ρ ∧ N δ := by
  refine ⟨_, _, _, rfl, ?_, ?_⟩
  · exact hN.div_left (hN.mul_left (hN.div_left (hN.mul_right _ he) _) _) _
  · rcases h with h | h | h
    · exact hN.div_right _ h
    · exact hN.div_left (hN.mul_right _ (hN.add_left (hN.div_left (hN.add_left
        (hN.sub_right _ (hN.mul_left h _)) _) _) _)) _
    · exact hN.div_left (hN.mul_right _ (hN.add_left (hN.div_left (hN.add_right _
        (hN.sub_right _ (hN.mul_left h _))) _) _)) _

/-- the strategies of parallel cuts: apart from the comparison of the two offsets, NaN leads to success -/
theorem par_nan (k : UpdateKind) (b0 b1 tsq : α)
    (h : N tsq ∨ (k ≠ .central ∧ N b0) ∨ (c.useParallelCut = true ∧ N b1)) :
    (Scalar.lt b1 (if k = .central then 0 else b0) = true ∧ (CutType.call k (⟨b0, some b1⟩ : ParallelCut α) c tsq).1 = .noSoln) ∨
    (Scalar.lt b1 (if k = .central then 0 else b0) = false ∧ ∃ ρ σ δ, CutType.call k (⟨b0, some b1⟩ : ParallelCut α) c tsq = (.success, ρ, σ, δ) ∧ N ρ ∧
      (N δ ∨ (k = .central ∧ c.useParallelCut = false))) := by
  cases k with
  | central =>
    rw [if_pos rfl]
    simp only [CutType.call, CutType.callCentral, EllCalc.calcSingleOrParallelCentralCut, EllCalc.calcParallelCentralCut]
    by_cases hw : Scalar.lt b1 0 = true
    · left; simp [hw]
    · right
      have hw : Scalar.lt b1 0 = false := by simpa using hw
      refine ⟨hw, ?_⟩
      have h : N tsq ∨ (c.useParallelCut = true ∧ N b1) := by simpa using h
      have hle : Scalar.le tsq (b1 * b1) = false :=
        h.elim (fun h => hN.le_left h _) fun h => hN.le_right _ (hN.mul_left h.2 _)
      simp only [hw, hle]
      by_cases hu : c.useParallelCut = true
      · have h' : N tsq ∨ N b1 := h.imp_right fun h => h.2
        have ha : N (b1 * b1 / tsq) := h'.elim (fun h => hN.div_right _ h) fun h => hN.div_left (hN.mul_left h _) _
        have hr : N (c.helper.halfN * (b1 * b1 / tsq) + Scalar.sqrt (1 - b1 * b1 / tsq +
            c.helper.halfN * (b1 * b1 / tsq) * (c.helper.halfN * (b1 * b1 / tsq)))) := hN.add_left (hN.mul_right _ ha) _
        refine ⟨_, _, _, by rw [hu]; rfl, ?_, ?_⟩
        · exact hN.div_right _ (hN.add_left hr _)
        · left; exact hN.div_left hr _
      · have hu' : c.useParallelCut = false := by simpa using hu
        have ht : N tsq := h.resolve_right fun h => hu h.1
        refine ⟨_, _, _, by rw [hu']; rfl, hN.div_left (hN.sqrt ht) _, Or.inr (by simp [hu'])⟩
  | bias =>
    rw [if_neg (by simp)]
    simp only [CutType.call, CutType.callBias, EllCalc.calcSingleOrParallelBiasCut, EllCalc.calcParallelBiasCut]
    by_cases hw : Scalar.lt b1 b0 = true
    · left; simp [hw]
    · right
      have hw : Scalar.lt b1 b0 = false := by simpa using hw
      refine ⟨hw, ?_⟩
      simp only [hw]
      by_cases hcond : ((Scalar.gt b1 0 && Scalar.le tsq (b1 * b1)) || !c.useParallelCut) = true
      · have h' : N tsq ∨ ((UpdateKind.bias) ≠ .central ∧ N b0) := by
          rcases h with h | h | ⟨hu, hb⟩
          · exact Or.inl h
          · exact Or.inr h
          · rw [hu] at hcond
            have : Scalar.gt b1 0 = false := hN.lt_right _ hb
            simp [this] at hcond
        obtain ⟨ρ, σ, δ, h1, h2, h3⟩ := single_nan hN c .bias b0 tsq h'
        refine ⟨ρ, σ, δ, ?_, h2, Or.inl (h3 (by simp))⟩
        rw [if_neg (by simp), if_pos hcond]
        exact h1
      · have h' : N tsq ∨ N b0 ∨ N b1 := by
          rcases h with h | h | h
          · exact Or.inl h
          · exact Or.inr (Or.inl h.2)
          · exact Or.inr (Or.inr h.2)
        have he : N (tsq + c.helper.nF * (b0 * b1)) := by
          rcases h' with h | h | h
          · exact hN.add_left h _
          · exact hN.add_right _ (hN.mul_right _ (hN.mul_left h _))
          · exact hN.add_right _ (hN.mul_right _ (hN.mul_right _ h))
        obtain ⟨ρ, σ, δ, h1, h2, h3⟩ := parFast_nan hN c b0 b1 tsq h' _ he
        refine ⟨ρ, σ, δ, ?_, h2, Or.inl h3⟩
        rw [if_neg (by simp), if_neg hcond]
        simp only [EllCalcCore.calcParallelBiasCut, h1]
  | q =>
    rw [if_neg (by simp)]
    simp only [CutType.call, CutType.callQ, EllCalc.calcSingleOrParallelQ, EllCalc.calcParallelQ]
    by_cases hw : Scalar.lt b1 b0 = true
    · left; simp [hw]
    · right
      have hw : Scalar.lt b1 b0 = false := by simpa using hw
      refine ⟨hw, ?_⟩
      simp only [hw]
      by_cases hcond : ((Scalar.gt b1 0 && Scalar.ge (b1 * b1) tsq) || !c.useParallelCut) = true
      · have h' : N tsq ∨ ((UpdateKind.q) ≠ .central ∧ N b0) := by
          rcases h with h | h | ⟨hu, hb⟩
          · exact Or.inl h
          · exact Or.inr h
          · rw [hu] at hcond
            have : Scalar.gt b1 0 = false := hN.lt_right _ hb
            simp [this] at hcond
        obtain ⟨ρ, σ, δ, h1, h2, h3⟩ := single_nan hN c .q b0 tsq h'
        refine ⟨ρ, σ, δ, ?_, h2, Or.inl (h3 (by simp))⟩
        rw [if_neg (by simp), if_pos hcond]
        exact h1
      · have h' : N tsq ∨ N b0 ∨ N b1 := by
          rcases h with h | h | h
          · exact Or.inl h
          · exact Or.inr (Or.inl h.2)
          · exact Or.inr (Or.inr h.2)
        have he : N (tsq + c.nF * (b0 * b1)) := by
          rcases h' with h | h | h
          · exact hN.add_left h _
          · exact hN.add_right _ (hN.mul_right _ (hN.mul_left h _))
          · exact hN.add_right _ (hN.mul_right _ (hN.mul_right _ h))
        obtain ⟨ρ, σ, δ, h1, h2, h3⟩ := parFast_nan hN c b0 b1 tsq h' _ he
        refine ⟨ρ, σ, δ, ?_, h2, Or.inl h3⟩
        rw [if_neg (by simp), if_neg hcond]
        simp only [hN.le_left he, h1]
        rfl

end strategies

variable {T : Type} [CutType T α]

/-- `omega` is a NaN when the gradient or the matrix has one -/
theorem Ell.om_nan (hN : NanLaws N) {n : Nat} {m : Nat → Nat → α} {g : Nat → α}
    (h : (∃ i < n, N (g i)) ∨ ∃ i < n, ∃ j < n, N (m i j)) : N (Ell.om n m g) := by
  rcases h with ⟨i, hi, h⟩ | ⟨i, hi, j, hj, h⟩
  · exact hN.sumTo hi (hN.mul_left h _)
  · exact hN.sumTo hi (hN.mul_right _ (hN.sumTo hj (hN.mul_left h _)))

/-- one update whose strategy succeeds with a NaN step -/
theorem Ell.update_nan (hN : NanLaws N) {n : Nat} (hn : 0 < n) (k : UpdateKind) (e : Ell α) (he : e.Shaped n) (g : Arr α)
    (hg : g.IsVecShape n) (c : T)
    (hs : ∃ ρ σ δ, CutType.call k c e.helper (e.kappa * Ell.om n e.mq.mat g.vec) = (.success, ρ, σ, δ) ∧ N ρ ∧
      (e.Spoilt N ∨ g.SomeNan N ∨ N δ)) :
    ∃ e', (Ell.space (T := T)).update k e (g, c) = .ok (.success, e') ∧ e'.Shaped n ∧ e'.helper = e.helper ∧
      e'.xc.AllNan N ∧ e'.Spoilt N ∧ e'.tsq = e.kappa * Ell.om n e.mq.mat g.vec := by
  obtain ⟨ρ, σ, δ, hs, hρ, hbad⟩ := hs
  rcases Ell.updateCore_spec he.1.isMat he.2.isVec hg.isVec hn _ hs with ⟨h1, -⟩ | ⟨-, e', h2, h3, h4, h5, h6, h7, h8⟩
  · exact absurd rfl h1
  · refine ⟨e', by rw [Ell.update_eq]; exact h2, ⟨h3.shape, h4.shape⟩, h6, ?_, ?_, h8⟩
    · exact h4.allNan fun i hi => hN.sub_right _ (hN.mul_left (hN.div_left hρ _) _)
    · have hcase : N (e.kappa * δ) ∨ N (Ell.om n e.mq.mat g.vec) := by
        rcases hbad with (h | h) | h | h
        · exact Or.inl (hN.mul_left h _)
        · exact Or.inr (Ell.om_nan hN (Or.inr (he.1.isMat.someNan.1 h)))
        · exact Or.inr (Ell.om_nan hN (Or.inl (hg.isVec.someNan.1 h)))
        · exact Or.inl (hN.mul_right _ h)
      rcases hcase with h | h
      · cases hd : e.noDeferTrick
        · left; rw [h5, hd]; simpa using h
        · right
          rw [h3.someNan]
          refine ⟨0, hn, 0, hn, ?_⟩
          simp only [Ell.deferM, hd, if_true]
          exact hN.mul_right _ h
      · right
        rw [h3.someNan]
        refine ⟨0, hn, 0, hn, ?_⟩
        have : N (newMq e.mq.mat (Ell.gt n e.mq.mat g.vec) (σ / Ell.om n e.mq.mat g.vec) 0 0) := by
          simp only [newMq, le_refl, if_true]
          exact hN.sub_right _ (hN.mul_left (hN.mul_left (hN.div_right _ h) _) _)
        unfold Ell.deferM
        split
        · exact hN.mul_left this _
        · exact this

end Ellalgo
