import Verif.Props.EllReal

/-! One update by a cut with non-negative lower bound: all cases. -/

namespace Ellalgo
open Matrix
open scoped ComplexOrder

variable {n : Nat} {T : Type} {e : Ell ℝ}

/-- the strategies succeed on `0 ≤ lo < τ`, `lo < hi` -/
theorem strat_success [Cut T] {tsq : ℝ} (ht : 0 < tsq) (k : UpdateKind) (c : T)
    (h0 : 0 ≤ k.lo (Cut.lo c)) (h1 : k.lo (Cut.lo c) ≤ √tsq)
    (h2 : ∀ b, Cut.hi c = some b → k.lo (Cut.lo c) < b) :
    (CutType.call k c (EllCalc.new n) tsq).1 = .success := by
  have hτ : 0 < √tsq := Real.sqrt_pos.mpr ht
  have hτ2 : √tsq * √tsq = tsq := Real.mul_self_sqrt ht.le
  have hn0 : (0 : ℝ) ≤ n := Nat.cast_nonneg n
  rw [Cut.call_eq]
  generalize Cut.lo c = β at *
  generalize Cut.hi c = hi at *
  have bias : 0 ≤ β → β ≤ √tsq → ((EllCalc.new n).calcBiasCut β tsq).1 = .success := by
    intro h0 h1
    rw [calcBias_real, if_neg (by nlinarith)]
  have q : 0 ≤ β → β ≤ √tsq → ((EllCalc.new n).calcBiasCutQ β tsq).1 = .success := by
    intro h0 h1
    rw [calcBiasQ_real, if_neg (by linarith), if_neg]
    have := mul_nonneg hn0 h0
    linarith
  cases hi with
  | none =>
    cases k with
    | bias => exact bias (by simpa using h0) (by simpa using h1)
    | q => exact q (by simpa using h0) (by simpa using h1)
    | central => show ((EllCalc.new n).calcCentralCut tsq).1 = _; rw [calcCentralS_real]
  | some b =>
    have h2 := h2 b rfl
    cases k with
    | bias =>
      simp only [UpdateKind.lo_bias] at h0 h1 h2
      show ((EllCalc.new n).calcParallelBiasCut β b tsq).1 = _
      rw [calcParallelBias_real, if_neg (by linarith)]
      split
      · exact bias h0 h1
      · rfl
    | q =>
      simp only [UpdateKind.lo_q] at h0 h1 h2
      show ((EllCalc.new n).calcParallelQ β b tsq).1 = _
      rw [calcParallelQ_real, if_neg (by linarith)]
      split
      · exact q h0 h1
      · rw [if_neg]
        have := mul_nonneg hn0 (mul_nonneg h0 (h0.trans h2.le))
        linarith
    | central =>
      simp only [UpdateKind.lo_central] at h2
      show ((EllCalc.new n).calcParallelCentralCut b tsq).1 = _
      rw [calcParallelCentralS_real, if_neg (by linarith)]
      split
      · rw [calcCentralS_real]
      · rfl

theorem adm_of_nonneg [Cut T] {tsq : ℝ} (ht : 0 < tsq) (k : UpdateKind) (c : T)
    (h0 : 0 ≤ k.lo (Cut.lo c)) (h1 : k.lo (Cut.lo c) < √tsq)
    (h2 : ∀ b, Cut.hi c = some b → k.lo (Cut.lo c) < b) : Cut.Adm n k c tsq := by
  have hτ : 0 < √tsq := Real.sqrt_pos.mpr ht
  have hn0 : (0 : ℝ) ≤ n := Nat.cast_nonneg n
  have single : Cut.Adm.AdmSingle n k (Cut.lo c) tsq := by
    cases k with
    | central => trivial
    | bias =>
      simp only [UpdateKind.lo_bias] at h0 h1
      have := mul_nonneg hn0 h0
      exact ⟨by linarith, h1⟩
    | q => exact ne_of_lt (by simpa using h1)
  unfold Cut.Adm
  cases hh : Cut.hi c with
  | none => exact single
  | some b =>
    have h2 := h2 b hh
    dsimp only
    by_cases hk : k = .central
    · subst hk
      simpa using h2
    · rw [if_neg hk]
      have hl : k.lo (Cut.lo c) = Cut.lo c := by simp [UpdateKind.lo, hk]
      rw [hl] at h0 h1 h2
      refine ⟨h2, fun _ => single, fun _ => ⟨by linarith, fun _ => ?_⟩⟩
      have := mul_nonneg hn0 (mul_nonneg h0 (h0.trans h2.le))
      linarith

/-- the planes cross: `NoSoln` -/
theorem strat_cross [Cut T] {tsq : ℝ} (k : UpdateKind) (c : T) {b : ℝ}
    (hb : Cut.hi c = some b) (h2 : b < k.lo (Cut.lo c)) :
    (CutType.call k c (EllCalc.new n) tsq).1 = .noSoln := by
  rw [Cut.call_eq, hb]
  generalize Cut.lo c = β at *
  cases k with
  | bias =>
    simp only [UpdateKind.lo_bias] at h2
    show ((EllCalc.new n).calcParallelBiasCut β b tsq).1 = _
    rw [calcParallelBias_real, if_pos h2]
  | q =>
    simp only [UpdateKind.lo_q] at h2
    show ((EllCalc.new n).calcParallelQ β b tsq).1 = _
    rw [calcParallelQ_real, if_pos h2]
  | central =>
    simp only [UpdateKind.lo_central] at h2
    show ((EllCalc.new n).calcParallelCentralCut b tsq).1 = _
    rw [calcParallelCentralS_real, if_pos h2]

/-- touching or outside: the answer is that of the single cut -/
theorem strat_far [Cut T] {tsq : ℝ} (ht : 0 < tsq) (k : UpdateKind) (c : T)
    (h1 : √tsq ≤ k.lo (Cut.lo c)) (h2 : ∀ b, Cut.hi c = some b → k.lo (Cut.lo c) < b) :
    CutType.call k c (EllCalc.new n) tsq =
      if √tsq < k.lo (Cut.lo c) then (.noSoln, 0, 0, 0)
      else (.success, (EllCalcCore.new (n : ℝ)).calcBiasCutFast (√tsq) (√tsq) (√tsq + n * √tsq)) := by
  have hτ : 0 < √tsq := Real.sqrt_pos.mpr ht
  have hτ2 : √tsq * √tsq = tsq := Real.mul_self_sqrt ht.le
  have hn0 : (0 : ℝ) ≤ n := Nat.cast_nonneg n
  rw [Cut.call_eq]
  generalize Cut.lo c = β at *
  generalize Cut.hi c = hi at *
  have bias : √tsq ≤ β → (EllCalc.new n).calcBiasCut β tsq = if √tsq < β then (.noSoln, 0, 0, 0)
      else (.success, (EllCalcCore.new (n : ℝ)).calcBiasCutFast (√tsq) (√tsq) (√tsq + n * √tsq)) := by
    intro h
    rw [calcBias_real]
    rcases h.lt_or_eq with h | h
    · rw [if_pos h, if_pos (by nlinarith)]
    · rw [← h, if_neg (by rw [hτ2]; exact lt_irrefl _), if_neg (lt_irrefl _)]
  have q : √tsq ≤ β → (EllCalc.new n).calcBiasCutQ β tsq = if √tsq < β then (.noSoln, 0, 0, 0)
      else (.success, (EllCalcCore.new (n : ℝ)).calcBiasCutFast (√tsq) (√tsq) (√tsq + n * √tsq)) := by
    intro h
    rw [calcBiasQ_real]
    rcases h.lt_or_eq with h | h
    · rw [if_pos h, if_pos h]
    · have := mul_nonneg hn0 hτ.le
      rw [← h, if_neg (lt_irrefl _), if_neg (by linarith), if_neg (lt_irrefl _)]
  cases hi with
  | none =>
    cases k with
    | bias => simp only [UpdateKind.lo_bias] at h1 ⊢; exact bias h1
    | q => simp only [UpdateKind.lo_q] at h1 ⊢; exact q h1
    | central => simp only [UpdateKind.lo_central] at h1; linarith
  | some b =>
    have h2 := h2 b rfl
    cases k with
    | bias =>
      simp only [UpdateKind.lo_bias] at h1 h2 ⊢
      refine Eq.trans ?_ (bias h1)
      show (EllCalc.new n).calcParallelBiasCut β b tsq = _
      rw [calcParallelBias_real, if_neg (by linarith), if_pos ⟨by linarith, by nlinarith⟩]
    | q =>
      simp only [UpdateKind.lo_q] at h1 h2 ⊢
      refine Eq.trans ?_ (q h1)
      show (EllCalc.new n).calcParallelQ β b tsq = _
      rw [calcParallelQ_real, if_neg (by linarith), if_pos ⟨by linarith, by nlinarith⟩]
    | central => simp only [UpdateKind.lo_central] at h1; linarith

/-- All cases of an update by a cut with non-negative lower bound and distinct planes. -/
theorem Ell.step_cases [Cut T] (he : e.Valid n) (k : UpdateKind) (cut : Arr ℝ × T)
    (hs : cut.1.IsVecShape n) (hg : cut.1.toVec n ≠ 0) (h0 : 0 ≤ k.lo (Cut.lo cut.2))
    (hne : Cut.hi cut.2 ≠ some (k.lo (Cut.lo cut.2))) :
    ∃ st e', Ell.space.update k e cut = .ok (st, e') ∧ e'.Shaped n ∧
      e'.tsq = e.tsqOf n (cut.1.toVec n) ∧
      ((st = .success ∧ e'.Valid n ∧
          (∀ x ∈ e.region n, Cut.Sat k cut.2 (cut.1.toVec n ⬝ᵥ (x - e.c n)) → x ∈ e'.region n) ∧
          e'.vol2 n ≤ Real.exp (-(1 / ((n : ℝ) + 1))) * e.vol2 n) ∨
       (st = .success ∧
          ∀ x ∈ e.region n, Cut.Sat k cut.2 (cut.1.toVec n ⬝ᵥ (x - e.c n)) → x = e'.c n) ∨
       (st = .noSoln ∧ ∀ x ∈ e.region n, ¬ Cut.Sat k cut.2 (cut.1.toVec n ⬝ᵥ (x - e.c n)))) := by
  have htp := he.tsq_pos hg
  have hτ : 0 < e.tau n (cut.1.toVec n) := Real.sqrt_pos.mpr htp
  obtain ⟨e', h⟩ := Ell.update_exists he.shaped he.symm he.pos k cut hs
  have noSoln : (CutType.call k cut.2 e.helper (e.tsqOf n (cut.1.toVec n))).1 = .noSoln →
      e'.Shaped n ∧ e'.tsq = e.tsqOf n (cut.1.toVec n) ∧
      ∀ x ∈ e.region n, ¬ Cut.Sat k cut.2 (cut.1.toVec n ⬝ᵥ (x - e.c n)) := by
    intro hst
    rw [hst] at h
    obtain ⟨ρ, σ, δ, _, h2⟩ := Ell.update_real he.shaped he.symm he.pos k cut hs h
    rcases h2 with ⟨_, rfl⟩ | ⟨h2, _⟩
    · refine ⟨he.shaped, rfl, C18_noSoln_sound k e _ cut he.pos he.shaped he.posDef he.kappa.le he.helper hs ?_ h⟩
      intro hk
      subst hk
      simp only [UpdateKind.lo_bias] at h0
      linarith
    · cases h2
  by_cases hcross : ∃ b, Cut.hi cut.2 = some b ∧ b < k.lo (Cut.lo cut.2)
  · obtain ⟨b, hb, hlt⟩ := hcross
    have hst := strat_cross (n := n) (tsq := e.tsqOf n (cut.1.toVec n)) k cut.2 hb hlt
    rw [← he.helper] at hst
    obtain ⟨a1, a2, a3⟩ := noSoln hst
    exact ⟨_, e', h, a1, a2, Or.inr (Or.inr ⟨hst, a3⟩)⟩
  have h2 : ∀ b, Cut.hi cut.2 = some b → k.lo (Cut.lo cut.2) < b := by
    intro b hb
    push Not at hcross
    refine lt_of_le_of_ne (hcross b hb) ?_
    rintro rfl
    exact hne hb
  rcases lt_or_ge (k.lo (Cut.lo cut.2)) (e.tau n (cut.1.toVec n)) with hlt | hge
  · have hst := strat_success (n := n) htp k cut.2 h0 hlt.le h2
    rw [← he.helper] at hst
    rw [hst] at h
    have hadm := adm_of_nonneg (n := n) htp k cut.2 h0 hlt h2
    obtain ⟨a1, a2, a3, a4⟩ := Ell.step_good he k cut hs hg hadm h
    exact ⟨_, e', h, a1.shaped, a4, Or.inl ⟨rfl, a1, a2, a3 h0⟩⟩
  · have hfar := strat_far (n := n) htp k cut.2 hge h2
    rw [← he.helper] at hfar
    by_cases hgt : √(e.tsqOf n (cut.1.toVec n)) < k.lo (Cut.lo cut.2)
    · rw [if_pos hgt] at hfar
      have hst : (CutType.call k cut.2 e.helper (e.tsqOf n (cut.1.toVec n))).1 = .noSoln := by rw [hfar]
      obtain ⟨a1, a2, a3⟩ := noSoln hst
      exact ⟨_, e', h, a1, a2, Or.inr (Or.inr ⟨hst, a3⟩)⟩
    · rw [if_neg hgt] at hfar
      have hlo : k.lo (Cut.lo cut.2) = e.tau n (cut.1.toVec n) := le_antisymm (not_lt.mp hgt) hge
      rw [hfar] at h
      obtain ⟨ρ, σ, δ, hc, hr⟩ := Ell.update_real he.shaped he.symm he.pos k cut hs h
      rw [hfar] at hc
      rcases hr with ⟨hr, _⟩ | ⟨_, ha⟩
      · exact absurd rfl hr
      refine ⟨_, e', h, ha.shaped, ha.tsq, Or.inr (Or.inl ⟨rfl, ?_⟩)⟩
      intro x hx hsat
      have hρ : ρ = e.tau n (cut.1.toVec n) := by
        simp only [Prod.mk.injEq, true_and, calcBiasCutFast_real] at hc
        rw [← hc.1]
        have hn : (n : ℝ) + 1 ≠ 0 := by positivity
        show (e.tau n (cut.1.toVec n) + n * e.tau n (cut.1.toVec n)) / (n + 1) = _
        field_simp
        ring
      have h1 := hsat.1
      rw [hlo] at h1
      have hω := quad_pos he.posDef hg
      have hτ2 : e.tau n (cut.1.toVec n) * e.tau n (cut.1.toVec n) =
        e.kappa * (cut.1.toVec n ⬝ᵥ (e.M n *ᵥ cut.1.toVec n)) := Ell.tau_sq he _
      have hQ : (x - e.c n) ⬝ᵥ ((e.M n)⁻¹ *ᵥ (x - e.c n)) ≤ e.kappa := hx
      have hexp := quad_inv_add he.posDef (x - e.c n) (cut.1.toVec n)
        (e.tau n (cut.1.toVec n) / (cut.1.toVec n ⬝ᵥ (e.M n *ᵥ cut.1.toVec n)))
      rw [ha.c, hρ]
      set τ := e.tau n (cut.1.toVec n)
      set ω := cut.1.toVec n ⬝ᵥ (e.M n *ᵥ cut.1.toVec n)
      set t := cut.1.toVec n ⬝ᵥ (x - e.c n)
      have hle : (x - e.c n + (τ / ω) • (e.M n *ᵥ cut.1.toVec n)) ⬝ᵥ ((e.M n)⁻¹ *ᵥ
          (x - e.c n + (τ / ω) • (e.M n *ᵥ cut.1.toVec n))) ≤ 0 := by
        rw [hexp]
        have e1 : (τ / ω) ^ 2 * ω = e.kappa := by
          have : (τ / ω) ^ 2 * ω = τ * τ / ω := by field_simp
          rw [this, hτ2]; field_simp
        have e2 : 2 * (τ / ω) * t ≤ 2 * (τ / ω) * (-τ) :=
          mul_le_mul_of_nonneg_left (by linarith) (by positivity)
        have e3 : 2 * (τ / ω) * (-τ) = -2 * e.kappa := by
          have : 2 * (τ / ω) * (-τ) = -2 * (τ * τ) / ω := by ring
          rw [this, hτ2]; field_simp
        linarith
      have hz : x - e.c n + (τ / ω) • (e.M n *ᵥ cut.1.toVec n) = 0 := by
        by_contra hne
        exact absurd (quad_pos he.posDef.inv hne) (not_lt.mpr hle)
      rw [eq_sub_iff_add_eq, ← sub_eq_zero, ← hz]
      abel

/-- A cut that every point of a ball inside the ellipsoid satisfies: it succeeds, keeps the ball, shrinks
the volume, and `tsq` is at least `r² ‖g‖²`. -/
theorem Ell.step_ball_adm [Cut T] (he : e.Valid n) (k : UpdateKind) (cut : Arr ℝ × T)
    (hs : cut.1.IsVecShape n) (hg : cut.1.toVec n ≠ 0) (h0 : 0 ≤ k.lo (Cut.lo cut.2))
    {p : Fin n → ℝ} {r : ℝ} (hr : 0 < r) (hb : ball p r ⊆ e.region n)
    (hsat : ∀ y ∈ ball p r, Cut.Sat k cut.2 (cut.1.toVec n ⬝ᵥ (y - e.c n))) :
    Cut.Adm n k cut.2 (e.tsqOf n (cut.1.toVec n)) ∧
    ∃ e', Ell.space.update k e cut = .ok (.success, e') ∧ e'.Valid n ∧ ball p r ⊆ e'.region n ∧
      e'.vol2 n ≤ Real.exp (-(1 / ((n : ℝ) + 1))) * e.vol2 n ∧
      e'.tsq = e.tsqOf n (cut.1.toVec n) ∧ r ^ 2 * normSq (cut.1.toVec n) ≤ e'.tsq := by
  have htp := he.tsq_pos hg
  have htsq := ball_tsq he.posDef he.kappa.le hr.le hb (cut.1.toVec n)
  set g := cut.1.toVec n with hgd
  have hgg : 0 < normSq g := by
    unfold normSq
    have : g ⬝ᵥ g ≠ 0 := fun h => hg (dotProduct_self_eq_zero.mp h)
    have h2 : 0 ≤ g ⬝ᵥ g := by
      unfold dotProduct; exact Finset.sum_nonneg (fun i _ => mul_self_nonneg _)
    exact lt_of_le_of_ne h2 (Ne.symm this)
  set N := √(normSq g) with hN
  have hNpos : 0 < N := Real.sqrt_pos.mpr hgg
  have hN2 : N * N = normSq g := Real.mul_self_sqrt hgg.le
  have hmem : ∀ s : ℝ, s ^ 2 = 1 → p + (s * (r / N)) • g ∈ ball p r := by
    intro s hs2
    show normSq _ ≤ _
    have e1 : p + (s * (r / N)) • g - p = (s * (r / N)) • g := by simp
    rw [e1]
    unfold normSq
    rw [dotProduct_smul, smul_dotProduct, smul_eq_mul, smul_eq_mul]
    have : s * (r / N) * (s * (r / N) * (g ⬝ᵥ g)) = s ^ 2 * (r / N) ^ 2 * normSq g := by
      unfold normSq; ring
    rw [this, hs2, ← hN2]
    have : 1 * (r / N) ^ 2 * (N * N) = r ^ 2 := by field_simp
    rw [this]
  have hval : ∀ s : ℝ, g ⬝ᵥ (p + (s * (r / N)) • g - e.c n) = g ⬝ᵥ (p - e.c n) + s * (r * N) := by
    intro s
    have : p + (s * (r / N)) • g - e.c n = (p - e.c n) + (s * (r / N)) • g := by abel
    rw [this, dotProduct_add, dotProduct_smul, smul_eq_mul]
    have : g ⬝ᵥ g = N * N := hN2.symm
    rw [this]
    field_simp
  have hp := hsat _ (hmem 1 (by norm_num))
  have hm := hsat _ (hmem (-1) (by norm_num))
  rw [hval] at hp hm
  have hrN : 0 < r * N := mul_pos hr hNpos
  have hlow := t_le_tau (dot_sq_le he.posDef (hb (hmem (-1) (by norm_num))) g)
  rw [hval] at hlow
  have hlow : 0 ≤ g ⬝ᵥ (p - e.c n) + -1 * (r * N) + √(e.tsqOf n g) := hlow
  have h1 : k.lo (Cut.lo cut.2) < √(e.tsqOf n g) := by linarith [hp.1]
  have h2 : ∀ b, Cut.hi cut.2 = some b → k.lo (Cut.lo cut.2) < b := by
    intro b hb
    have := hm.2 b hb
    linarith [hp.1]
  have hst := strat_success (n := n) htp k cut.2 h0 h1.le h2
  rw [← he.helper] at hst
  obtain ⟨e', h⟩ := Ell.update_exists he.shaped he.symm he.pos k cut hs
  rw [hst] at h
  have hadm := adm_of_nonneg (n := n) htp k cut.2 h0 h1 h2
  obtain ⟨a1, a2, a3, a4⟩ := Ell.step_good he k cut hs hg hadm h
  exact ⟨hadm, e', h, a1, fun x hx => a2 x (hb hx) (hsat x hx), a3 h0, a4, by rw [a4]; exact htsq⟩

theorem Ell.step_ball [Cut T] (he : e.Valid n) (k : UpdateKind) (cut : Arr ℝ × T)
    (hs : cut.1.IsVecShape n) (hg : cut.1.toVec n ≠ 0) (h0 : 0 ≤ k.lo (Cut.lo cut.2))
    {p : Fin n → ℝ} {r : ℝ} (hr : 0 < r) (hb : ball p r ⊆ e.region n)
    (hsat : ∀ y ∈ ball p r, Cut.Sat k cut.2 (cut.1.toVec n ⬝ᵥ (y - e.c n))) :
    ∃ e', Ell.space.update k e cut = .ok (.success, e') ∧ e'.Valid n ∧ ball p r ⊆ e'.region n ∧
      e'.vol2 n ≤ Real.exp (-(1 / ((n : ℝ) + 1))) * e.vol2 n ∧
      e'.tsq = e.tsqOf n (cut.1.toVec n) ∧ r ^ 2 * normSq (cut.1.toVec n) ≤ e'.tsq :=
  (Ell.step_ball_adm he k cut hs hg h0 hr hb hsat).2

end Ellalgo
