import Verif.Spec.MyLmi
import Verif.Props.LmiProps
import Verif.Props.EllReal
import Verif.Lib.VecOps
import Verif.Lib.Pair

/-! C74: minimising a linear function subject to two LMIs, as tests/lmi_tests.rs does it. -/

namespace Ellalgo
open Matrix

/-- **C33** in the form needed here: the LMI oracle decides positive definiteness of `B - Σ x_k F_k`. -/
theorem lmi_decides {d m : Nat} {fs : List (Arr ℝ)} {b : Arr ℝ} (hF : SymMats d m fs) (hb : b.IsMatShape m m)
    (hbs : (b.toMat m m).IsSymm) :
    Decides d (LMIOracle.oracle (α := ℝ)) (LMIOracle.For m fs b) {y | (lmiMat m fs b y).PosDef} := by
  intro w x hw hx
  obtain ⟨r, w', h1, h2, h3, h4⟩ := lmi_assess hF hb hbs hw hx
  refine ⟨r, w', h1, h2, h3, fun g c h => ?_⟩
  obtain ⟨k1, k2, k3, -, -⟩ := h4 g c h
  exact ⟨k1, k2, fun y hy => k3 y (Matrix.PosDef.posSemidef hy)⟩

section
variable {σ : Type} {n : Nat} {orc : OracleFeas σ (Arr ℝ) (SingleCut ℝ) ℝ} {I1 I2 : σ → Prop} {K1 K2 : Set (Fin n → ℝ)}
  {c : Arr ℝ}

/-- **C74** One answer of `MyLmiOracle`.  An improvement is reported exactly when the point is feasible for both LMIs and its
cost is at most `γ`; then `γ'` is its cost.  Every cut keeps the feasible points of cost at most `γ'`.  But a rejected point may
also change `γ`: to the cost of a point that is not feasible. -/
theorem C74_answers (h1 : Decides n orc I1 K1) (h2 : Decides n orc I2 K2) {o : MyLmi σ ℝ} (ho : o.For n c I1 I2) {x : Arr ℝ}
    (hx : x.IsVecShape n) (γ : ℝ) :
    ∃ g b s γ' o', (MyLmi.oracle orc).assess o x γ = .ok (((g, b), s), γ', o') ∧ o'.For n c I1 I2 ∧ g.IsVecShape n ∧
      (s = true ↔ x.toVec n ∈ K1 ∧ x.toVec n ∈ K2 ∧ c.toVec n ⬝ᵥ x.toVec n ≤ γ) ∧
      (s = true → γ' = c.toVec n ⬝ᵥ x.toVec n) ∧
      (s = false → γ' = γ ∨ (γ' = c.toVec n ⬝ᵥ x.toVec n ∧ c.toVec n ⬝ᵥ x.toVec n ≤ γ ∧
        ¬ (x.toVec n ∈ K1 ∧ x.toVec n ∈ K2))) ∧
      0 ≤ b.beta ∧
      ∀ y ∈ K1 ∩ K2, c.toVec n ⬝ᵥ y ≤ γ' → g.toVec n ⬝ᵥ (y - x.toVec n) + b.beta ≤ 0 := by
  obtain ⟨rfl, hc, i1, i2, lo, hi⟩ := ho
  obtain ⟨r1, w1, a1, a2, a3, a4⟩ := h1 o.lmi1 x i1 hx
  obtain ⟨r2, w2, b1, b2, b3, b4⟩ := h2 o.lmi2 x i2 hx
  have hdot : o.c.dot x = .ok (o.c.toVec n ⬝ᵥ x.toVec n) := RV.dot ⟨hc, rfl⟩ ⟨hx, rfl⟩
  set f0 := o.c.toVec n ⬝ᵥ x.toVec n with hf0
  have e0 : ∀ (g : ℝ) (l : σ), myLmiBody orc o.c x f0 0 (g, o.lmi1, l) = .ok (r1, g, w1, l) := by
    intro g l; simp [myLmiBody, a1]
  have e1 : ∀ (g : ℝ) (l : σ), myLmiBody orc o.c x f0 1 (g, l, o.lmi2) = .ok (r2, g, l, w2) := by
    intro g l; simp [myLmiBody, b1]
  have e2 : ∀ (l1 l2 : σ), myLmiBody orc o.c x f0 2 (γ, l1, l2) =
      if 0 < f0 - γ then .ok (some (o.c, ⟨f0 - γ⟩), γ, l1, l2) else .ok (none, f0, l1, l2) := by
    intro l1 l2; simp [myLmiBody, Scalar.real_gt]
  have cutc : ∀ y : Fin n → ℝ, o.c.toVec n ⬝ᵥ (y - x.toVec n) = o.c.toVec n ⬝ᵥ y - f0 := by
    intro y; rw [dotProduct_sub]
  -- the four possible outcomes
  have hacc : r1 = none → r2 = none → ¬ 0 < f0 - γ → ∀ o' : MyLmi σ ℝ, o'.For n o.c I1 I2 →
      ∃ g b s γ' o'', (Res.ok (((o.c, (⟨0⟩ : SingleCut ℝ)), true), f0, o') : Res (((Arr ℝ × SingleCut ℝ) × Bool) × ℝ × MyLmi σ ℝ)) =
        .ok (((g, b), s), γ', o'') ∧ o''.For n o.c I1 I2 ∧ g.IsVecShape n ∧
      (s = true ↔ x.toVec n ∈ K1 ∧ x.toVec n ∈ K2 ∧ f0 ≤ γ) ∧ (s = true → γ' = f0) ∧
      (s = false → γ' = γ ∨ (γ' = f0 ∧ f0 ≤ γ ∧ ¬ (x.toVec n ∈ K1 ∧ x.toVec n ∈ K2))) ∧ 0 ≤ b.beta ∧
      ∀ y ∈ K1 ∩ K2, o.c.toVec n ⬝ᵥ y ≤ γ' → g.toVec n ⬝ᵥ (y - x.toVec n) + b.beta ≤ 0 := by
    intro k1 k2 k3 o' ho'
    have k4 : f0 ≤ γ := by linarith
    refine ⟨_, _, _, _, _, rfl, ho', hc, ⟨fun _ => ⟨a3.1 k1, b3.1 k2, k4⟩, fun _ => rfl⟩, fun _ => rfl, by simp, le_rfl, ?_⟩
    intro y _ hy
    rw [cutc]; simp only; linarith
  have hrej : ∀ γ', γ' = γ ∨ (γ' = f0 ∧ f0 ≤ γ) → ∀ g b, (r1 = some (g, b) ∨ r2 = some (g, b)) → ∀ o' : MyLmi σ ℝ,
      o'.For n o.c I1 I2 → ∃ g' b' s γ'' o'', (Res.ok (((g, b), false), γ', o') :
        Res (((Arr ℝ × SingleCut ℝ) × Bool) × ℝ × MyLmi σ ℝ)) =
        .ok (((g', b'), s), γ'', o'') ∧ o''.For n o.c I1 I2 ∧ g'.IsVecShape n ∧
      (s = true ↔ x.toVec n ∈ K1 ∧ x.toVec n ∈ K2 ∧ f0 ≤ γ) ∧ (s = true → γ'' = f0) ∧
      (s = false → γ'' = γ ∨ (γ'' = f0 ∧ f0 ≤ γ ∧ ¬ (x.toVec n ∈ K1 ∧ x.toVec n ∈ K2))) ∧ 0 ≤ b'.beta ∧
      ∀ y ∈ K1 ∩ K2, o.c.toVec n ⬝ᵥ y ≤ γ'' → g'.toVec n ⬝ᵥ (y - x.toVec n) + b'.beta ≤ 0 := by
    intro γ' hγ g b hgb o' ho'
    have hn : ¬ (x.toVec n ∈ K1 ∧ x.toVec n ∈ K2) := by
      rintro ⟨m1, m2⟩
      rcases hgb with h | h
      · rw [a3.2 m1] at h; simp at h
      · rw [b3.2 m2] at h; simp at h
    have hcut : g.IsVecShape n ∧ 0 ≤ b.beta ∧ ∀ y ∈ K1 ∩ K2, g.toVec n ⬝ᵥ (y - x.toVec n) + b.beta ≤ 0 := by
      rcases hgb with h | h
      · exact ⟨(a4 g b h).1, (a4 g b h).2.1, fun y hy => (a4 g b h).2.2 y hy.1⟩
      · exact ⟨(b4 g b h).1, (b4 g b h).2.1, fun y hy => (b4 g b h).2.2 y hy.2⟩
    refine ⟨_, _, _, _, _, rfl, ho', hcut.1, ?_, by simp, ?_, hcut.2.1, fun y hy _ => hcut.2.2 y hy⟩
    · simp only [Bool.false_eq_true, false_iff]
      exact fun h => hn ⟨h.1, h.2.1⟩
    · intro _
      rcases hγ with h | ⟨h, h'⟩
      · exact Or.inl h
      · exact Or.inr ⟨h, h', hn⟩
  have hobj : 0 < f0 - γ → ∀ o' : MyLmi σ ℝ, o'.For n o.c I1 I2 →
      ∃ g b s γ' o'', (Res.ok (((o.c, (⟨f0 - γ⟩ : SingleCut ℝ)), false), γ, o') :
        Res (((Arr ℝ × SingleCut ℝ) × Bool) × ℝ × MyLmi σ ℝ)) =
        .ok (((g, b), s), γ', o'') ∧ o''.For n o.c I1 I2 ∧ g.IsVecShape n ∧
      (s = true ↔ x.toVec n ∈ K1 ∧ x.toVec n ∈ K2 ∧ f0 ≤ γ) ∧ (s = true → γ' = f0) ∧
      (s = false → γ' = γ ∨ (γ' = f0 ∧ f0 ≤ γ ∧ ¬ (x.toVec n ∈ K1 ∧ x.toVec n ∈ K2))) ∧ 0 ≤ b.beta ∧
      ∀ y ∈ K1 ∩ K2, o.c.toVec n ⬝ᵥ y ≤ γ' → g.toVec n ⬝ᵥ (y - x.toVec n) + b.beta ≤ 0 := by
    intro k o' ho'
    refine ⟨_, _, _, _, _, rfl, ho', hc, ?_, by simp, fun _ => Or.inl rfl, k.le, ?_⟩
    · simp only [Bool.false_eq_true, false_iff]
      rintro ⟨-, -, h⟩; linarith
    · intro y _ hy
      rw [cutc]; simp only; linarith
  have cond : ∀ idx l1 l2, I1 l1 → I2 l2 → -1 ≤ idx → idx ≤ 2 → ({ o with idx := idx, lmi1 := l1, lmi2 := l2 } : MyLmi σ ℝ).For n o.c I1 I2 :=
    fun idx l1 l2 j1 j2 j3 j4 => ⟨rfl, hc, j1, j2, j3, j4⟩
  simp only [MyLmi.oracle, MyLmi.assess, hdot, Res.ok_bind]
  obtain hidx | hidx | hidx : (o.idx = -1 ∨ o.idx = 2) ∨ o.idx = 0 ∨ o.idx = 1 := by omega
  · have hz : (if o.idx + 1 = 3 then 0 else o.idx + 1) = 0 := by
      rcases hidx with h | h <;> rw [h] <;> rfl
    rcases hr1 : r1 with _ | ⟨g, b⟩
    · rcases hr2 : r2 with _ | ⟨g, b⟩
      · by_cases hf : 0 < f0 - γ
        · simp only [rrLoop, hz, e0, hr1, Res.ok_bind, zero_add, show ((1 : Int) = 3) = False by decide, if_false, e1, hr2,
            show ((2 : Int) = 3) = False by decide, show (1 : Int) + 1 = 2 by decide, e2, if_pos hf]
          refine hobj hf _ (cond _ _ _ a2 b2 ?_ ?_) <;> decide
        · simp only [rrLoop, hz, e0, hr1, Res.ok_bind, zero_add, show ((1 : Int) = 3) = False by decide, if_false, e1, hr2,
            show ((2 : Int) = 3) = False by decide, show (1 : Int) + 1 = 2 by decide, e2, if_neg hf]
          refine hacc hr1 hr2 hf _ (cond _ _ _ a2 b2 ?_ ?_) <;> decide
      · simp only [rrLoop, hz, e0, hr1, Res.ok_bind, zero_add, show ((1 : Int) = 3) = False by decide, if_false, e1, hr2]
        refine hrej γ (Or.inl rfl) g b (Or.inr hr2) _ (cond _ _ _ a2 b2 ?_ ?_) <;> decide
    · simp only [rrLoop, hz, e0, hr1, Res.ok_bind]
      refine hrej γ (Or.inl rfl) g b (Or.inl hr1) _ (cond _ _ _ a2 i2 ?_ ?_) <;> decide
  · rcases hr2 : r2 with _ | ⟨g, b⟩
    · by_cases hf : 0 < f0 - γ
      · simp only [rrLoop, hidx, Res.ok_bind, zero_add, show ((1 : Int) = 3) = False by decide, if_false, e1, hr2,
          show ((2 : Int) = 3) = False by decide, show (1 : Int) + 1 = 2 by decide, e2, if_pos hf]
        refine hobj hf _ (cond _ _ _ i1 b2 ?_ ?_) <;> decide
      · rcases hr1 : r1 with _ | ⟨g, b⟩
        · simp only [rrLoop, hidx, Res.ok_bind, zero_add, show ((1 : Int) = 3) = False by decide, if_false, e1, hr2,
            show ((2 : Int) = 3) = False by decide, show (1 : Int) + 1 = 2 by decide, e2, if_neg hf,
            show (2 : Int) + 1 = 3 by decide, if_true, e0, hr1]
          refine hacc hr1 hr2 hf _ (cond _ _ _ a2 b2 ?_ ?_) <;> decide
        · simp only [rrLoop, hidx, Res.ok_bind, zero_add, show ((1 : Int) = 3) = False by decide, if_false, e1, hr2,
            show ((2 : Int) = 3) = False by decide, show (1 : Int) + 1 = 2 by decide, e2, if_neg hf,
            show (2 : Int) + 1 = 3 by decide, if_true, e0, hr1]
          refine hrej f0 (Or.inr ⟨rfl, by linarith⟩) g b (Or.inl hr1) _ (cond _ _ _ a2 b2 ?_ ?_) <;> decide
    · simp only [rrLoop, hidx, Res.ok_bind, zero_add, show ((1 : Int) = 3) = False by decide, if_false, e1, hr2]
      refine hrej γ (Or.inl rfl) g b (Or.inr hr2) _ (cond _ _ _ i1 b2 ?_ ?_) <;> decide
  · by_cases hf : 0 < f0 - γ
    · simp only [rrLoop, hidx, Res.ok_bind, show ((2 : Int) = 3) = False by decide, if_false,
        show (1 : Int) + 1 = 2 by decide, e2, if_pos hf]
      refine hobj hf _ (cond _ _ _ i1 i2 ?_ ?_) <;> decide
    · rcases hr1 : r1 with _ | ⟨g, b⟩
      · rcases hr2 : r2 with _ | ⟨g, b⟩
        · simp only [rrLoop, hidx, Res.ok_bind, show ((2 : Int) = 3) = False by decide, if_false,
            show (1 : Int) + 1 = 2 by decide, e2, if_neg hf, show (2 : Int) + 1 = 3 by decide, if_true, e0, hr1,
            zero_add, show ((1 : Int) = 3) = False by decide, e1, hr2]
          refine hacc hr1 hr2 hf _ (cond _ _ _ a2 b2 ?_ ?_) <;> decide
        · simp only [rrLoop, hidx, Res.ok_bind, show ((2 : Int) = 3) = False by decide, if_false,
            show (1 : Int) + 1 = 2 by decide, e2, if_neg hf, show (2 : Int) + 1 = 3 by decide, if_true, e0, hr1,
            zero_add, show ((1 : Int) = 3) = False by decide, e1, hr2]
          refine hrej f0 (Or.inr ⟨rfl, by linarith⟩) g b (Or.inr hr2) _ (cond _ _ _ a2 b2 ?_ ?_) <;> decide
      · simp only [rrLoop, hidx, Res.ok_bind, show ((2 : Int) = 3) = False by decide, if_false,
          show (1 : Int) + 1 = 2 by decide, e2, if_neg hf, show (2 : Int) + 1 = 3 by decide, if_true, e0, hr1]
        refine hrej f0 (Or.inr ⟨rfl, by linarith⟩) g b (Or.inl hr1) _ (cond _ _ _ a2 i2 ?_ ?_) <;> decide

/-- **C74** The defect: when the previous query ended at the second LMI, the next one tests the objective first.  A point of
cost at most `γ` that violates the first LMI is rejected, but `γ` is still lowered to its cost. -/
theorem C74_value_overwritten (h1 : Decides n orc I1 K1) {o : MyLmi σ ℝ} (ho : o.For n c I1 I2) (hidx : o.idx = 1)
    {x : Arr ℝ} (hx : x.IsVecShape n) (hout : x.toVec n ∉ K1) {γ : ℝ} (hγ : c.toVec n ⬝ᵥ x.toVec n ≤ γ) :
    ∃ g b o', (MyLmi.oracle orc).assess o x γ = .ok (((g, b), false), c.toVec n ⬝ᵥ x.toVec n, o') ∧ o'.For n c I1 I2 := by
  obtain ⟨rfl, hc, i1, i2, lo, hi⟩ := ho
  obtain ⟨r1, w1, a1, a2, a3, a4⟩ := h1 o.lmi1 x i1 hx
  have hdot : o.c.dot x = .ok (o.c.toVec n ⬝ᵥ x.toVec n) := RV.dot ⟨hc, rfl⟩ ⟨hx, rfl⟩
  set f0 := o.c.toVec n ⬝ᵥ x.toVec n with hf0
  have e0 : ∀ (g : ℝ) (l : σ), myLmiBody orc o.c x f0 0 (g, o.lmi1, l) = .ok (r1, g, w1, l) := by
    intro g l; simp [myLmiBody, a1]
  have e2 : ∀ (l1 l2 : σ), myLmiBody orc o.c x f0 2 (γ, l1, l2) = .ok (none, f0, l1, l2) := by
    intro l1 l2; simp [myLmiBody, Scalar.real_gt, hγ]
  rcases hr1 : r1 with _ | ⟨g, b⟩
  · exact absurd (a3.1 hr1) hout
  · refine ⟨g, b, { o with idx := 0, lmi1 := w1 }, ?_, rfl, hc, a2, i2, by simp, by simp⟩
    simp only [MyLmi.oracle, MyLmi.assess, hdot, Res.ok_bind]
    simp only [rrLoop, hidx, Res.ok_bind, show ((2 : Int) = 3) = False by decide, if_false,
      show (1 : Int) + 1 = 2 by decide, e2, show (2 : Int) + 1 = 3 by decide, if_true, e0, hr1]

/-- all answers of a run, from any state of the run -/
theorem myLmi_loop (hn : 0 < n) (h1 : Decides n orc I1 K1) (h2 : Decides n orc I2 K2) {γ0 tol : ℝ} (m : Nat) :
    ∀ (n0 : Nat) (xb : Option (Arr ℝ)) (o : MyLmi σ ℝ) (e : Ell ℝ) (γ : ℝ), o.For n c I1 I2 → e.Shaped n → γ ≤ γ0 →
      (∀ x, xb = some x → x.IsVecShape n ∧ x.toVec n ∈ K1 ∧ x.toVec n ∈ K2 ∧ γ ≤ c.toVec n ⬝ᵥ x.toVec n ∧
        c.toVec n ⬝ᵥ x.toVec n ≤ γ0) →
      ∃ xb' k γ' o' e', optimLoop (MyLmi.oracle orc) Ell.space tol m n0 xb o e γ = .ok ((xb', k), γ', o', e') ∧ γ' ≤ γ ∧
        (∀ x, xb' = some x → x.IsVecShape n ∧ x.toVec n ∈ K1 ∧ x.toVec n ∈ K2 ∧ γ' ≤ c.toVec n ⬝ᵥ x.toVec n ∧
          c.toVec n ⬝ᵥ x.toVec n ≤ γ0) ∧
        ((∀ y ∈ K1 ∩ K2, γ < c.toVec n ⬝ᵥ y) → xb' = xb) := by
  induction m with
  | zero => intro n0 xb o e γ _ _ _ hA; exact ⟨_, _, _, _, _, rfl, le_rfl, hA, fun _ => rfl⟩
  | succ m ih =>
    intro n0 xb o e γ ho hsh hle hA
    obtain ⟨g, b, s, γ1, o1, q1, q2, q3, q4, q5, q6, q7, q8⟩ := C74_answers h1 h2 ho hsh.2 γ
    have hγ1 : γ1 ≤ γ := by
      cases hs : s with
      | true => rw [q5 hs]; exact (q4.1 hs).2.2
      | false =>
        rcases q6 hs with h | h
        · exact h.le
        · rw [h.1]; exact h.2.1
    have q1' : (MyLmi.oracle orc).assess o (Ell.space (T := SingleCut ℝ).xc e) γ = .ok (((g, b), s), γ1, o1) := q1
    obtain ⟨st, e1, hu, hsh1⟩ : ∃ st e1, (if s then Ell.space.updateCentral e (g, b)
        else Ell.space.updateBias e (g, b)) = .ok (st, e1) ∧ e1.Shaped n := by
      cases s
      · obtain ⟨st, e1, h1, h2, _⟩ := Ell.update_shape hn .bias e (g, b) hsh q3
        exact ⟨st, e1, h1, h2⟩
      · obtain ⟨st, e1, h1, h2, _⟩ := Ell.update_shape hn .central e (g, b) hsh q3
        exact ⟨st, e1, h1, h2⟩
    have hA' : ∀ x, (if s = true then some (Ell.space (T := SingleCut ℝ).xc e) else xb) = some x → x.IsVecShape n ∧
        x.toVec n ∈ K1 ∧ x.toVec n ∈ K2 ∧ γ1 ≤ c.toVec n ⬝ᵥ x.toVec n ∧ c.toVec n ⬝ᵥ x.toVec n ≤ γ0 := by
      intro x hx
      cases hs : s with
      | true =>
        rw [hs] at hx
        simp only [if_true, Option.some.injEq] at hx
        subst hx
        obtain ⟨k1, k2, k3⟩ := q4.1 hs
        exact ⟨hsh.2, k1, k2, (q5 hs).le, k3.trans hle⟩
      | false =>
        rw [hs] at hx
        simp only [Bool.false_eq_true, if_false] at hx
        obtain ⟨k0, k1, k2, k3, k4⟩ := hA x hx
        exact ⟨k0, k1, k2, hγ1.trans k3, k4⟩
    have hB' : (∀ y ∈ K1 ∩ K2, γ < c.toVec n ⬝ᵥ y) →
        (if s = true then some (Ell.space (T := SingleCut ℝ).xc e) else xb) = xb := by
      intro h
      cases hs : s with
      | true =>
        obtain ⟨k1, k2, k3⟩ := q4.1 hs
        exact absurd (h _ ⟨k1, k2⟩) (not_lt.2 k3)
      | false => rfl
    unfold optimLoop
    simp only [q1', Res.ok_bind, hu]
    split
    · exact ⟨_, _, _, _, _, rfl, hγ1, hA', hB'⟩
    · obtain ⟨xb', k, γ', o', e', j1, j2, j3, j4⟩ := ih (n0 + 1) _ o1 e1 γ1 q2 hsh1 (hγ1.trans hle) hA'
      exact ⟨xb', k, γ', o', e', j1, j2.trans hγ1, j3,
        fun h => (j4 fun y hy => hγ1.trans_lt (h y hy)).trans (hB' h)⟩

/-- **C74** Every run of `cutting_plane_optim` with `MyLmiOracle` ends without a panic.  The point it returns (if any) satisfies
both LMIs and costs at most the initial `γ`; the final `γ` is at most its cost.  (Missing from the full claim: the final `γ` *is*
the cost of the returned point, and a point is found when the initial ellipsoid contains a good one; both are false, see
`C74_loses_solutions`.) -/
theorem C74_result_partial (hn : 0 < n) (h1 : Decides n orc I1 K1) (h2 : Decides n orc I2 K2) {o : MyLmi σ ℝ}
    (ho : o.For n c I1 I2) {e : Ell ℝ} (he : e.Shaped n) (γ : ℝ) (opts : Options ℝ) :
    ∃ xb k γ' o' e', cuttingPlaneOptim (MyLmi.oracle orc) Ell.space o e γ opts = .ok ((xb, k), γ', o', e') ∧ γ' ≤ γ ∧
      ∀ x, xb = some x → x.IsVecShape n ∧ x.toVec n ∈ K1 ∧ x.toVec n ∈ K2 ∧ γ' ≤ c.toVec n ⬝ᵥ x.toVec n ∧
        c.toVec n ⬝ᵥ x.toVec n ≤ γ := by
  obtain ⟨xb, k, γ', o', e', j1, j2, j3, -⟩ := myLmi_loop (tol := opts.tolerance) hn h1 h2 opts.maxIters 0 none o e γ ho he le_rfl
    (by simp)
  exact ⟨xb, k, γ', o', e', j1, j2, j3⟩

/-- **C74** Once `γ` is below the cost of every feasible point, the run never finds one. -/
theorem C74_stuck (hn : 0 < n) (h1 : Decides n orc I1 K1) (h2 : Decides n orc I2 K2) {o : MyLmi σ ℝ}
    (ho : o.For n c I1 I2) {e : Ell ℝ} (he : e.Shaped n) {γ : ℝ} (hγ : ∀ y ∈ K1 ∩ K2, γ < c.toVec n ⬝ᵥ y) (opts : Options ℝ) :
    ∃ k γ' o' e', cuttingPlaneOptim (MyLmi.oracle orc) Ell.space o e γ opts = .ok ((none, k), γ', o', e') := by
  obtain ⟨xb, k, γ', o', e', j1, -, -, j4⟩ := myLmi_loop (tol := opts.tolerance) hn h1 h2 opts.maxIters 0 none o e γ ho he le_rfl
    (by simp)
  rw [j4 hγ] at j1
  exact ⟨k, γ', o', e', j1⟩

end

section
open scoped ComplexOrder

/-- the 1×1 LMI `b - a x₀ > 0` in two variables -/
noncomputable def strip (a : ℝ) : List (Arr ℝ) := [⟨[a], 1, 1⟩, ⟨[0], 1, 1⟩]

theorem strip_sym (a : ℝ) : SymMats 2 1 (strip a) := by
  refine ⟨rfl, ?_⟩
  intro f hf
  simp only [strip, List.mem_cons, List.not_mem_nil, or_false] at hf
  rcases hf with rfl | rfl
  all_goals
    refine ⟨⟨rfl, rfl, rfl⟩, ?_⟩
    ext i j; fin_cases i; fin_cases j; rfl

theorem strip_posDef (a b : ℝ) (y : Fin 2 → ℝ) : (lmiMat 1 (strip a) ⟨[b], 1, 1⟩ y).PosDef ↔ 0 < b - a * y 0 := by
  have h : lmiMat 1 (strip a) ⟨[b], 1, 1⟩ y = Matrix.diagonal fun _ => b - a * y 0 := by
    ext i j
    fin_cases i; fin_cases j
    simp [lmiMat, linMat, matAt, Fin.sum_univ_two, strip, Arr.toMat, Arr.mat, mul_comm]
  rw [h, posDef_diagonal_iff]
  exact ⟨fun hp => hp 0, fun hp _ => hp⟩

/-- the first query of the second LMI: the origin violates `-1 - x₀ > 0` -/
theorem strip_first : ∃ o', (LMIOracle.new (strip 1) ⟨[-1], 1, 1⟩).assess (Arr.new 2) = .ok (some (Arr.ofList [1, 0], ⟨1⟩), o') := by
  simp [LMIOracle.assess, LMIOracle.new, LDLTMgr.new, LDLTMgr.factor, LDLTMgr.factorLoop, LDLTMgr.factorRow, LMIOracle.elem,
    forRange, forN, Arr.get, Arr.is2d, Arr.idx, Res.ofOption, Res.assert, Arr.new, Arr.len, Res.ok_bind, nthMat, strip, Arr.zeros,
    Arr.setIdx, Scalar.real_le, LDLTMgr.isSpd, LDLTMgr.witness, forDown, forDownN, lmiGrad, LDLTMgr.symQuad, Arr.ofList]

/-- the centre of the disc of radius 2 around the origin after the cut `x₀ + 1 ≤ 0` -/
theorem disc_step {e : Ell ℝ} (he : Ell.newWithScalar 4 (Arr.new 2) = .ok e) :
    ∃ e', Ell.space.updateBias e (Arr.ofList [1, 0], (⟨1⟩ : SingleCut ℝ)) = .ok (.success, e') ∧ e'.Shaped 2 ∧
      e'.c 2 = ![-4 / 3, 0] := by
  obtain ⟨e0, k1, hv, -⟩ := C13_valid_with_scalar (n := 2) 4 (Arr.new 2) le_rfl rv_new.1 (by norm_num)
  rw [he] at k1
  simp only [Res.ok.injEq] at k1
  subst k1
  have hE : e = Ell.newWithMatrix 4 ⟨[1, 0, 0, 1], 2, 2⟩ (Arr.new 2) := by
    have : Ell.newWithScalar (4 : ℝ) (Arr.new 2) = .ok (Ell.newWithMatrix 4 ⟨[1, 0, 0, 1], 2, 2⟩ (Arr.new 2)) := by
      simp [Ell.newWithScalar, Arr.eye, forRange, forN, Arr.new, Arr.len, Arr.zeros, Arr.set, Arr.is2d, Res.assert, Arr.setIdx]
    rw [he] at this
    simpa using this
  have hM : e.M 2 = 1 := by
    rw [hE]
    ext i j
    fin_cases i <;> fin_cases j <;> simp [Ell.M, Arr.toMat, Ell.newWithMatrix, Arr.mat]
  have hκ : e.kappa = 4 := by rw [hE]; rfl
  have hc : e.c 2 = 0 := by rw [hE]; exact rv_new.2
  have htsq : e.tsqOf 2 ((Arr.ofList [(1 : ℝ), 0]).toVec 2) = 4 := by
    rw [Ell.tsqOf, hM, hκ, one_mulVec, pair_toVec, pair_dot]; simp
  have hs : √(4 : ℝ) = 2 := by rw [show (4 : ℝ) = 2 ^ 2 by norm_num, Real.sqrt_sq (by norm_num)]
  have hcall : CutType.call .bias (⟨1⟩ : SingleCut ℝ) e.helper (4 : ℝ) =
      (.success, (EllCalcCore.new ((2 : Nat) : ℝ)).calcBiasCutFast 1 (√4) (√4 + (2 : Nat) * 1)) := by
    show EllCalc.calcBiasCut _ _ _ = _
    rw [hv.helper, calcBias_real, if_neg (by norm_num)]
  obtain ⟨e', h⟩ := Ell.update_exists hv.shaped hv.symm hv.pos .bias
    ((Arr.ofList [1, 0], ⟨1⟩) : Arr ℝ × SingleCut ℝ) (pair_shape 1 0)
  rw [show (Arr.ofList [(1 : ℝ), 0], (⟨1⟩ : SingleCut ℝ)).1 = Arr.ofList [(1 : ℝ), 0] from rfl, htsq,
    show (Arr.ofList [(1 : ℝ), 0], (⟨1⟩ : SingleCut ℝ)).2 = ⟨1⟩ from rfl, hcall] at h
  obtain ⟨ρ, σ, δ, hc2, hc3⟩ := Ell.update_real hv.shaped hv.symm hv.pos .bias _ (pair_shape 1 0) h
  rw [show (Arr.ofList [(1 : ℝ), 0], (⟨1⟩ : SingleCut ℝ)).1 = Arr.ofList [(1 : ℝ), 0] from rfl, htsq,
    show (Arr.ofList [(1 : ℝ), 0], (⟨1⟩ : SingleCut ℝ)).2 = ⟨1⟩ from rfl, hcall] at hc2
  rcases hc3 with ⟨hc3, -⟩ | ⟨-, ha⟩
  · exact absurd rfl hc3
  · have hρ : ρ = 4 / 3 := by
      simp only [Prod.mk.injEq, true_and] at hc2
      have : _ = ρ := congrArg Prod.fst hc2
      rw [← this]
      simp [EllCalcCore.calcBiasCutFast, EllCalcCore.new, hs]
      norm_num
    refine ⟨e', h, ha.shaped, ?_⟩
    rw [ha.c, hM, hc, one_mulVec]
    show (0 : Fin 2 → ℝ) - (ρ / ((Arr.ofList [(1 : ℝ), 0]).toVec 2 ⬝ᵥ (Arr.ofList [(1 : ℝ), 0]).toVec 2)) •
      (Arr.ofList [(1 : ℝ), 0]).toVec 2 = _
    rw [pair_toVec, pair_dot, hρ]
    ext i; fin_cases i <;> simp
    norm_num

/-- **C74** `C74_result_partial` for the LMI oracle of the library: `B - Σ x_k F_k` symmetric, of any sizes `m1`, `m2`. -/
theorem C74_two_lmis_partial {d m1 m2 : Nat} {fs1 fs2 : List (Arr ℝ)} {b1 b2 c : Arr ℝ} (hd : 0 < d)
    (hF1 : SymMats d m1 fs1) (hb1 : b1.IsMatShape m1 m1) (hs1 : (b1.toMat m1 m1).IsSymm)
    (hF2 : SymMats d m2 fs2) (hb2 : b2.IsMatShape m2 m2) (hs2 : (b2.toMat m2 m2).IsSymm) (hc : c.IsVecShape d)
    {e : Ell ℝ} (he : e.Shaped d) (γ : ℝ) (opts : Options ℝ) :
    ∃ xb k γ' o' e', cuttingPlaneOptim (MyLmi.oracle LMIOracle.oracle) Ell.space
        ⟨-1, c, LMIOracle.new fs1 b1, LMIOracle.new fs2 b2⟩ e γ opts = .ok ((xb, k), γ', o', e') ∧ γ' ≤ γ ∧
      ∀ x, xb = some x → x.IsVecShape d ∧ (lmiMat m1 fs1 b1 (x.toVec d)).PosDef ∧ (lmiMat m2 fs2 b2 (x.toVec d)).PosDef ∧
        γ' ≤ c.toVec d ⬝ᵥ x.toVec d ∧ c.toVec d ⬝ᵥ x.toVec d ≤ γ :=
  C74_result_partial hd (lmi_decides hF1 hb1 hs1) (lmi_decides hF2 hb2 hs2)
    ⟨rfl, hc, LMIOracle.for_new hb1, LMIOracle.for_new hb2, by simp, by simp⟩ he γ opts

/-- C74: the two LMIs of `C74_loses_solutions` meet the hypotheses of the theorems above -/
example : SymMats 2 1 (strip (-1)) ∧ SymMats 2 1 (strip 1) ∧ (⟨[11 / 10], 1, 1⟩ : Arr ℝ).IsMatShape 1 1 ∧
    (Arr.ofList [(1 : ℝ), 0]).IsVecShape 2 ∧ ∃ e : Ell ℝ, Ell.newWithScalar 4 (Arr.new 2) = .ok e ∧ e.Shaped 2 := by
  obtain ⟨e, h1, h2, -⟩ := C13_valid_with_scalar (n := 2) 4 (Arr.new 2) le_rfl rv_new.1 (by norm_num)
  exact ⟨strip_sym _, strip_sym _, ⟨rfl, rfl, rfl⟩, pair_shape 1 0, e, h1, h2.shaped⟩

/-- **C74** End to end: minimise `x₀` subject to the two LMIs `x₀ + 1.1 > 0` and `-1 - x₀ > 0`, starting from the disc of radius
2 around the origin.  The disc contains a ball of feasible points, but whatever the initial `γ`, the tolerance and the iteration
limit, the run returns no point. -/
theorem C74_loses_solutions :
    ∃ e, Ell.newWithScalar 4 (Arr.new 2) = .ok e ∧
      (∀ z ∈ ball ![-21 / 20, 0] (1 / 20 : ℝ), z ∈ e.region 2) ∧
      (∀ z : Fin 2 → ℝ, normSq (z - ![-21 / 20, 0]) < (1 / 20) ^ 2 →
        (lmiMat 1 (strip (-1)) ⟨[11 / 10], 1, 1⟩ z).PosDef ∧ (lmiMat 1 (strip 1) ⟨[-1], 1, 1⟩ z).PosDef) ∧
      ∀ γ opts, ∃ k γ' o' e', cuttingPlaneOptim (MyLmi.oracle LMIOracle.oracle) Ell.space
        ⟨-1, Arr.ofList [1, 0], LMIOracle.new (strip (-1)) ⟨[11 / 10], 1, 1⟩, LMIOracle.new (strip 1) ⟨[-1], 1, 1⟩⟩ e γ opts =
          .ok ((none, k), γ', o', e') := by
  obtain ⟨e, h1, h2, h3⟩ := C13_valid_with_scalar (n := 2) 4 (Arr.new 2) le_rfl rv_new.1 (by norm_num)
  obtain ⟨e1, u1, u2, u3⟩ := disc_step h1
  have hxc : e.xc = Arr.new 2 := by
    simp only [Ell.newWithScalar] at h1
    obtain ⟨y, -, h1⟩ := Res.bind_eq_ok.1 h1
    simp only [Res.ok.injEq] at h1
    rw [← h1]; rfl
  have d1 := lmi_decides (strip_sym (-1)) (b := ⟨[11 / 10], 1, 1⟩) ⟨rfl, rfl, rfl⟩
    (by ext i j; fin_cases i; fin_cases j; rfl)
  have d2 := lmi_decides (strip_sym 1) (b := ⟨[-1], 1, 1⟩) ⟨rfl, rfl, rfl⟩
    (by ext i j; fin_cases i; fin_cases j; rfl)
  have hb : ∀ z : Fin 2 → ℝ, (z 0 + 21 / 20) ^ 2 ≤ normSq (z - ![-21 / 20, 0]) := by
    intro z
    simp only [normSq, dotProduct, Fin.sum_univ_two, Pi.sub_apply, cons_val_zero, cons_val_one]
    nlinarith [sq_nonneg (z 1)]
  refine ⟨e, h1, ?_, ?_, ?_⟩
  · intro z hz
    have hz' : normSq (z - ![-21 / 20, 0]) ≤ (1 / 20) ^ 2 := hz
    rw [h3]
    show normSq (z - (Arr.new 2).toVec 2) ≤ 4
    rw [rv_new.2]
    simp only [normSq, dotProduct, Fin.sum_univ_two, Pi.sub_apply, cons_val_zero, cons_val_one, Pi.zero_apply, sub_zero] at hz' ⊢
    nlinarith [sq_nonneg (z 1), sq_nonneg (z 0 + 1)]
  · intro z hz
    have hz' := (hb z).trans_lt hz
    have h4 := abs_lt_of_sq_lt_sq hz' (by norm_num)
    rw [abs_lt] at h4
    rw [strip_posDef, strip_posDef]
    constructor <;> linarith [h4.1, h4.2]
  · intro γ opts
    set o : MyLmi (LMIOracle ℝ) ℝ := ⟨-1, Arr.ofList [1, 0], LMIOracle.new (strip (-1)) ⟨[11 / 10], 1, 1⟩,
      LMIOracle.new (strip 1) ⟨[-1], 1, 1⟩⟩ with ho
    have hF : o.For 2 (Arr.ofList [1, 0]) (LMIOracle.For 1 (strip (-1)) ⟨[11 / 10], 1, 1⟩)
        (LMIOracle.For 1 (strip 1) ⟨[-1], 1, 1⟩) :=
      ⟨rfl, pair_shape 1 0, LMIOracle.for_new ⟨rfl, rfl, rfl⟩, LMIOracle.for_new ⟨rfl, rfl, rfl⟩, by simp [ho], by simp [ho]⟩
    have hlow : ∀ y ∈ {y : Fin 2 → ℝ | (lmiMat 1 (strip (-1)) ⟨[11 / 10], 1, 1⟩ y).PosDef} ∩
        {y | (lmiMat 1 (strip 1) ⟨[-1], 1, 1⟩ y).PosDef}, -11 / 10 < (Arr.ofList [(1 : ℝ), 0]).toVec 2 ⬝ᵥ y := by
      rintro y ⟨hy, -⟩
      have hy : (lmiMat 1 (strip (-1)) ⟨[11 / 10], 1, 1⟩ y).PosDef := hy
      rw [strip_posDef] at hy
      rw [pair_toVec, pair_dot]; linarith
    -- the first query
    obtain ⟨r1, w1, a1, a2, a3, -⟩ := d1 o.lmi1 (Arr.new 2) hF.2.2.1 rv_new.1
    have hr1 : r1 = none := by
      rw [a3, Set.mem_ofPred_eq, strip_posDef, rv_new.2]; norm_num
    rw [hr1] at a1
    obtain ⟨w2, b1⟩ := strip_first
    obtain ⟨r2, w2', b2, b3, -, -⟩ := d2 o.lmi2 (Arr.new 2) hF.2.2.2.1 rv_new.1
    have b1' : LMIOracle.oracle.assess o.lmi2 (Arr.new 2) = .ok (some (Arr.ofList [1, 0], ⟨1⟩), w2) := b1
    rw [b1'] at b2
    simp only [Res.ok.injEq, Prod.mk.injEq] at b2
    obtain ⟨-, rfl⟩ := b2
    set o1 : MyLmi (LMIOracle ℝ) ℝ := ⟨1, Arr.ofList [1, 0], w1, w2⟩ with ho1
    have q1 : (MyLmi.oracle LMIOracle.oracle).assess o (Ell.space (T := SingleCut ℝ).xc e) γ =
        .ok (((Arr.ofList [1, 0], ⟨1⟩), false), γ, o1) := by
      show MyLmi.assess LMIOracle.oracle o e.xc γ = _
      rw [hxc]
      have hdot : (Arr.ofList [(1 : ℝ), 0]).dot (Arr.new 2) = .ok ((Arr.ofList [(1 : ℝ), 0]).toVec 2 ⬝ᵥ (0 : Fin 2 → ℝ)) :=
        RV.dot ⟨pair_shape 1 0, rfl⟩ rv_new
      have a1' : LMIOracle.oracle.assess (LMIOracle.new (strip (-1)) ⟨[11 / 10], 1, 1⟩) (Arr.new 2) = .ok (none, w1) := a1
      have b1'' : LMIOracle.oracle.assess (LMIOracle.new (strip 1) ⟨[-1], 1, 1⟩) (Arr.new 2) =
        .ok (some (Arr.ofList [1, 0], ⟨1⟩), w2) := b1
      simp only [ho, ho1, MyLmi.assess, hdot, Res.ok_bind, rrLoop, myLmiBody, a1', b1'', if_true, if_false,
        show (-1 : Int) + 1 = 0 by decide, show ((0 : Int) = 3) = False by decide, show ((0 : Int) + 1) = 1 by decide,
        show ((1 : Int) = 3) = False by decide, show ((1 : Int) = 0) = False by decide]
    have hF1 : o1.For 2 (Arr.ofList [1, 0]) (LMIOracle.For 1 (strip (-1)) ⟨[11 / 10], 1, 1⟩)
        (LMIOracle.For 1 (strip 1) ⟨[-1], 1, 1⟩) :=
      ⟨rfl, pair_shape 1 0, a2, b3, by simp [ho1], by simp [ho1]⟩
    show ∃ k γ' o' e', optimLoop _ _ opts.tolerance opts.maxIters 0 none o e γ = _
    rcases opts.maxIters with _ | m
    · exact ⟨_, _, _, _, rfl⟩
    unfold optimLoop
    simp only [q1, Res.ok_bind, Bool.false_eq_true, if_false, u1]
    split
    · exact ⟨_, _, _, _, rfl⟩
    by_cases hγ : γ ≤ -11 / 10
    · obtain ⟨xb, k, γ', o', e', j1, -, -, j4⟩ := myLmi_loop (tol := opts.tolerance) (γ0 := γ) two_pos d1 d2 m (0 + 1) none o1 e1 γ
        hF1 u2 le_rfl (by simp)
      rw [j4 fun y hy => hγ.trans_lt (hlow y hy)] at j1
      exact ⟨_, _, _, _, j1⟩
    rw [not_le] at hγ
    rcases m with _ | m
    · exact ⟨_, _, _, _, rfl⟩
    have hx : e1.xc.toVec 2 = ![-4 / 3, 0] := u3
    have hcost : (Arr.ofList [(1 : ℝ), 0]).toVec 2 ⬝ᵥ e1.xc.toVec 2 = -4 / 3 := by
      rw [hx, pair_toVec, pair_dot]; simp
    obtain ⟨g, b, o2, p1, p2⟩ := C74_value_overwritten (I2 := LMIOracle.For 1 (strip 1) ⟨[-1], 1, 1⟩) d1 hF1 rfl u2.2
      (by rw [hx, Set.mem_ofPred_eq, strip_posDef]; norm_num) (γ := γ) (by rw [hcost]; linarith)
    rw [hcost] at p1
    obtain ⟨g', b', s', γ'', o'', p3, -, p4, -⟩ := C74_answers d1 d2 hF1 u2.2 γ
    rw [p1] at p3
    simp only [Res.ok.injEq, Prod.mk.injEq] at p3
    obtain ⟨⟨⟨rfl, rfl⟩, rfl⟩, rfl, rfl⟩ := p3
    obtain ⟨st, e2, v1, v2, -⟩ := Ell.update_shape two_pos .bias e1 (g, b) u2 p4
    have v1' : Ell.space.updateBias e1 (g, b) = .ok (st, e2) := v1
    have p1' : (MyLmi.oracle LMIOracle.oracle).assess o1 (Ell.space (T := SingleCut ℝ).xc e1) γ = _ := p1
    unfold optimLoop
    simp only [p1', Res.ok_bind, Bool.false_eq_true, if_false, v1']
    split
    · exact ⟨_, _, _, _, rfl⟩
    obtain ⟨xb, k, γ', o', e', j1, -, -, j4⟩ := myLmi_loop (tol := opts.tolerance) (γ0 := γ) two_pos d1 d2 m (0 + 1 + 1) none o2 e2
      (-4 / 3) p2 v2 (by linarith) (by simp)
    rw [j4 fun y hy => by linarith [hlow y hy]] at j1
    exact ⟨_, _, _, _, j1⟩

end
end Ellalgo
