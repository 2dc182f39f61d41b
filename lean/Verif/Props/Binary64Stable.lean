import Verif.Props.Binary64Ell
import Verif.Props.StableShapes

/-! C99: gradients that are too small, for `EllStable`. -/

namespace Ellalgo
open B64

namespace B64

theorem Small.mono {s t : ℤ} (h : s ≤ t) {a : B64} (ha : Small s a) : Small t a :=
  ⟨ha.1, ha.2.trans (zpow_le_zpow_right₀ (by norm_num) h)⟩

theorem Small.neg {t : ℤ} {a : B64} (ha : Small t a) : Small t (B64.neg a) := by
  obtain ⟨h1, h2⟩ := ha
  cases a with
  | nan => exact h1.elim
  | inf s => exact h1.elim
  | zero s => exact zero_small _ _
  | num a => exact ⟨trivial, by simpa [val, B64.neg] using h2⟩

/-- a difference of two numbers below `2^t` is below `2^(t+1)` -/
theorem Small.sub {t : ℤ} (h1 : -1075 ≤ t) (h2 : t + 1 < 1024) {a b : B64} (ha : Small t a) (hb : Small t b) :
    Small (t + 1) (a - b) := by
  have hb' := hb.neg
  have h : |a.val + (B64.neg b).val| ≤ (2 : ℝ) ^ (t + 1) := by
    rw [zpow_add₀ (by norm_num), zpow_one]
    have := abs_add_le a.val (B64.neg b).val
    have e1 := ha.2
    have e2 := hb'.2
    linarith
  have h3 := rnd64_abs_le (by omega) h
  obtain ⟨h4, h5⟩ := ofReal_val (s := a.sgn && (B64.neg b).sgn) (pow_lt_max h2 h3)
  show Small (t + 1) (a + B64.neg b)
  rw [finite_add ha.1 hb'.1]
  exact ⟨h4, by rw [h5]; exact h3⟩

end B64

namespace EllStable
variable {n : Nat}

/-- forward substitution of a small vector -/
theorem forward_small {mq g : Arr B64} {m : Nat → Nat → B64} {v : Nat → B64} {r t : ℤ} (hm : IsMat mq n n m) (hg : IsVec g n v)
    (hr : 0 ≤ r) (h1 : -1074 ≤ t) (h2 : t + n * (r + 1) < 1024) (hu : ∀ i j, i < j → j < n → Small r (m i j))
    (hv : ∀ i < n, Small t (v i)) :
    ∃ mq' w, forward n mq g = .ok (mq', w) ∧ (∃ m', IsMat mq' n n m' ∧ ∀ i < n, m' i i = m i i) ∧
      ∃ v', IsVec w n v' ∧ ∀ i < n, Small (t + n * (r + 1)) (v' i) := by
  let Inv : Nat → Arr B64 × Arr B64 → Prop := fun i st => ∃ m' v', IsMat st.1 n n m' ∧ IsVec st.2 n v' ∧
    (∀ a b, a ≤ b → b < n → m' a b = m a b) ∧ (∀ k < n, k < i → Small (t + k * (r + 1)) (v' k)) ∧
    ∀ k < n, i ≤ k → Small t (v' k)
  have hmono : ∀ k : Nat, k ≤ n → t + k * (r + 1) ≤ t + n * (r + 1) := by
    intro k hk
    have : (k : ℤ) * (r + 1) ≤ n * (r + 1) := mul_le_mul_of_nonneg_right (by exact_mod_cast hk) (by omega)
    omega
  have fin : ∀ st, Inv n st → ∃ m' v', (IsMat st.1 n n m' ∧ ∀ i < n, m' i i = m i i) ∧ IsVec st.2 n v' ∧
      ∀ i < n, Small (t + n * (r + 1)) (v' i) := by
    rintro st ⟨m', v', a1, a2, a3, a4, -⟩
    exact ⟨m', v', ⟨a1, fun i hi => a3 i i le_rfl hi⟩, a2, fun i hi => (a4 i hi hi).mono (hmono i hi.le)⟩
  have main : ∃ st, forward n mq g = .ok st ∧ Inv (max n 1) st := by
    unfold forward
    rcases Nat.lt_or_ge n 2 with hn2 | hn2
    · rw [forRange_empty (by omega)]
      refine ⟨_, rfl, m, v, hm, hg, fun _ _ _ _ => rfl, fun k hk _ => (hv k hk).mono ?_, fun k hk _ => hv k hk⟩
      have : (0 : ℤ) ≤ k * (r + 1) := by positivity
      omega
    · rw [show max n 1 = n by omega]
      refine forRange_spec Inv (by omega) ⟨m, v, hm, hg, fun _ _ _ _ => rfl, fun k hk _ => (hv k hk).mono ?_, fun k hk _ => hv k hk⟩ ?_
      · have : (0 : ℤ) ≤ k * (r + 1) := by positivity
        omega
      rintro i ⟨mq, w⟩ hi1 hi ⟨m', v', a1, a2, a3, a4, a5⟩
      simp only at a1 a2
      let Inn : Nat → Arr B64 × Arr B64 → Prop := fun j st => ∃ m' v', IsMat st.1 n n m' ∧ IsVec st.2 n v' ∧
        (∀ a b, a ≤ b → b < n → m' a b = m a b) ∧ (∀ k < n, k < i → Small (t + k * (r + 1)) (v' k)) ∧
        Small (t + j * (r + 1)) (v' i) ∧ ∀ k < n, i < k → Small t (v' k)
      refine forRange_post Inn (Nat.zero_le i) ⟨m', v', a1, a2, a3, a4, by simpa using a5 i hi le_rfl, fun k hk h => a5 k hk h.le⟩ ?_ ?_
      · rintro j ⟨mq, w⟩ - hj ⟨m', v', b1, b2, b3, b4, b5, b6⟩
        simp only at b1 b2
        have hj' : j < n := by omega
        obtain ⟨mq2, c1, c2⟩ := b1.setIdx hi hj' (m' j i * v' j)
        obtain ⟨w2, d1, d2⟩ := b2.setIdx hi (v' i - m' j i * v' j)
        have hjn := hmono (j + 1) (by omega)
        push_cast at hjn
        have hj0 : (0 : ℤ) ≤ j * (r + 1) := by positivity
        have hprod : Small (t + j * (r + 1) + r) (m' j i * v' j) := by
          rw [b3 j i hj.le hi]
          exact Small.mul (by ring) (by omega) (by linarith) (hu j i hj hi) (b4 j hj' hj)
        have hdiff : Small (t + (j + 1 : ℕ) * (r + 1)) (v' i - m' j i * v' j) := by
          have := Small.sub (t := t + j * (r + 1) + r) (by omega) (by linarith) (b5.mono (by omega)) hprod
          rw [show t + ((j + 1 : ℕ) : ℤ) * (r + 1) = t + j * (r + 1) + r + 1 by push_cast; ring]
          exact this
        refine ⟨(mq2, w2), ?_, _, _, c2, d2, ?_, ?_, ?_, ?_⟩
        · simp only [b1.getij hj' hi, b2.idx hj', Res.ok_bind, c1, b2.idx hi, d1]
        · intro a b hab hb
          simp only [upd2]
          rw [if_neg (by omega)]
          exact b3 a b hab hb
        · intro k hk hki
          simp only [upd1]
          rw [if_neg (by omega)]
          exact b4 k hk hki
        · simp only [upd1, if_true]
          exact hdiff
        · intro k hk hki
          simp only [upd1]
          rw [if_neg (by omega)]
          exact b6 k hk hki
      · rintro st ⟨m', v', b1, b2, b3, b4, b5, b6⟩
        refine ⟨m', v', b1, b2, b3, fun k hk hki => ?_, fun k hk hki => b6 k hk (by omega)⟩
        rcases Nat.lt_or_ge k i with h | h
        · exact b4 k hk h
        · rw [show k = i by omega]; exact b5
  obtain ⟨⟨mq', w⟩, e1, e2⟩ := main
  rcases Nat.eq_zero_or_pos n with h0 | h0
  · subst h0
    obtain ⟨m', v', a1, a2, -⟩ := e2
    exact ⟨mq', w, e1, ⟨m', a1, fun i hi => absurd hi (by omega)⟩, v', a2, fun i hi => absurd hi (by omega)⟩
  · rw [show max n 1 = n by omega] at e2
    obtain ⟨m', v', f1, f2, f3⟩ := fin _ e2
    exact ⟨mq', w, e1, ⟨m', f1⟩, v', f2, f3⟩

theorem scaleDiag_small {mq w : Arr B64} {m : Nat → Nat → B64} {v : Nat → B64} (hm : IsMat mq n n m) (hw : IsVec w n v) :
    ∃ z, scaleDiag n mq w = .ok z ∧ IsVec z n fun i => v i * m i i := by
  unfold scaleDiag
  refine forRange_post (fun k (z : Arr B64) => IsVec z n (fun i => if i < k then v i * m i i else v i)) (Nat.zero_le n)
    (hw.congr fun i _ => by simp) ?_ fun z hz => hz.congr fun i hi => by simp [hi]
  intro i z _ hi hz
  obtain ⟨z', a1, a2⟩ := hz.setIdx hi ((if i < i then v i * m i i else v i) * m i i)
  refine ⟨z', ?_, a2.congr fun k _ => ?_⟩
  · simp only [hz.idx hi, hm.getij hi hi, Res.ok_bind, a1]
  · unfold upd1
    by_cases hk : k = i
    · subst hk; simp
    · have : k < i + 1 ↔ k < i := by omega
      simp [hk, this]

theorem calcOmega_any {z w : Arr B64} {x y : Nat → B64} (hz : IsVec z n x) (hw : IsVec w n y) :
    ∃ p, calcOmega n z w = .ok (p, sumTo n fun i => x i * y i) := by
  unfold calcOmega
  obtain ⟨⟨p, om⟩, h1, -, h2⟩ := forRange_spec (σ := Arr B64 × B64)
    (fun k st => IsVec st.1 n (fun i => if i < k then x i * y i else x i) ∧ st.2 = sumTo k fun i => x i * y i)
    (f := fun i (ggT, omega) => do
    let x ← ggT.idx i
    let y ← w.idx i
    let ggT ← ggT.setIdx i (x * y)
    let p ← ggT.idx i
    .ok (ggT, omega + p)) (s := (z, (0 : B64))) (Nat.zero_le n) ⟨hz.congr fun i _ => by simp, rfl⟩ (by
    rintro i ⟨q, om⟩ _ hi ⟨hy, ho⟩
    simp only at hy ho
    obtain ⟨y', a1, a2⟩ := hy.setIdx hi (x i * y i)
    refine ⟨(y', om + x i * y i), ?_, a2.congr fun k _ => ?_, ?_⟩
    · simp only [hy.idx hi, hw.idx hi, Res.ok_bind, a1, a2.idx hi, upd1, if_true, lt_irrefl, if_false]
    · unfold upd1
      by_cases hk : k = i
      · subst hk; simp
      · have : k < i + 1 ↔ k < i := by omega
        simp [hk, this]
    · rw [sumTo, ← ho])
  exact ⟨p, by rw [h1]; congr 2⟩

/-- the new centre after a step whose length is not finite -/
theorem updateXc_nonFinite {xc gT : Arr B64} (hx : xc.IsVecShape n) (hg : n ≤ gT.data.length) {r : B64} (hr : ¬ r.Finite) :
    ∃ y, updateXc n xc gT r = .ok y ∧ y.IsVecShape n ∧ ∀ v ∈ y.data, ¬ v.Finite := by
  unfold updateXc
  refine forRange_post (fun k (y : Arr B64) => ∃ c, IsVec y n c ∧ ∀ i < n, i < k → ¬ (c i).Finite) (Nat.zero_le n)
    ⟨_, hx.isVec, by intros; omega⟩ ?_ ?_
  · rintro i y - hi ⟨c, h1, h2⟩
    obtain ⟨x, hx1, -⟩ := (VEq.refl_of hg).idx hi
    obtain ⟨y', a1, a2⟩ := h1.setIdx hi (c i - r * x)
    refine ⟨y', by simp only [h1.idx hi, hx1, Res.ok_bind, a1], _, a2, ?_⟩
    intro k hk hki
    simp only [upd1]
    by_cases h : k = i
    · rw [if_pos h]
      exact nonFiniteLaws.sub_right _ (nonFiniteLaws.mul_left hr _)
    · rw [if_neg h]
      exact h2 k hk (by omega)
  · rintro y ⟨c, h1, h2⟩
    exact ⟨h1.shape, h1.forall_mem.2 fun i hi => h2 i hi hi⟩

end EllStable

/-- **C99** (gradients that are too small, `EllStable`)  The same for `EllStable`, in any dimension: for every kind of update and
every cut, the update does not panic, records the size zero, and either is not `Success` and keeps the centre and the scale
factor, or is `Success` and no coordinate of the new centre is a finite number. -/
theorem C99_tiny_gradient_stable {T : Type} [CutType T B64] {n : Nat} (hn : 0 < n) (k : UpdateKind) (e : EllStable B64)
    (he : e.Shaped n) (hκ : e.kappa.Finite) (g : Arr B64) (hg : g.IsVecShape n) {s r t : ℤ} (ht : TinyGradStable n s r t e.mq g)
    (c : T) :
    ∃ st e' z, EllStable.space.update k e (g, c) = .ok (st, e') ∧ e'.Shaped n ∧ e'.tsq = .zero z ∧
      (st ≠ .success → e'.xc = e.xc ∧ e'.kappa = e.kappa) ∧ (st = .success → ∀ v ∈ e'.xc.data, ¬ v.Finite) := by
  obtain ⟨t1, t2, t3, t4, t5, t6, t7, t8, t9⟩ := ht
  have hnr : (0 : ℤ) ≤ n * (r + 1) := by positivity
  obtain ⟨mq, w, f1, ⟨m', f2, f3⟩, v', f4, f5⟩ := EllStable.forward_small he.1.isMat hg.isVec t4 t6 t8 t2 t3
  obtain ⟨z, s1, s2⟩ := EllStable.scaleDiag_small f2 f4
  obtain ⟨p, c1⟩ := EllStable.calcOmega_any s2 f4
  have hom : (sumTo n fun i => v' i * m' i i * v' i) = .zero false := by
    refine sum_zero n fun i hi => ?_
    have hz : Small (t + n * (r + 1) + s) (v' i * m' i i) :=
      Small.mul rfl (by omega) (by omega) (f5 i hi) (by rw [f3 i hi]; exact t1 i hi)
    exact Small.underflow (by omega) hz (f5 i hi)
  rw [hom] at c1
  have hz0 : ∃ b, e.kappa * .zero false = .zero b := by
    refine ⟨_, (finite_mul hκ (b := .zero false) trivial).trans (ofReal_zero ?_)⟩
    simp only [val, mul_zero]
    exact rnd64_zero
  obtain ⟨b, hb⟩ := hz0
  obtain ⟨st, e', h1, h2⟩ := EllStable.update_shape (T := T) hn k e (g, c) he (by rw [hg.2.2])
  refine ⟨st, e', b, h1, h2, ?_⟩
  rw [EllStable.update_eq] at h1
  unfold EllStable.updateCore at h1
  have hlen : e.xc.len = n := he.2.isVec.len'
  simp only [hlen, f1, s1, c1, Res.ok_bind, hb] at h1
  rcases hc : CutType.call k c e.helper (B64.zero b) with ⟨st', ρ, σ, δ⟩
  simp only [hc] at h1
  by_cases hst : st' = .success
  · subst hst
    simp only [bne_self_eq_false, Bool.false_eq_true, if_false, Res.bind_eq_ok] at h1
    obtain ⟨gT, g1, y, g2, mq2, g3, g4⟩ := h1
    obtain ⟨w1, w2, b1, -, b3⟩ := EllStable.backward_rel f2.shape (VEq.refl_of (v := z) (by rw [s2.len]))
    rw [g1] at b1
    cases b1
    obtain ⟨y', y1, y2, y3⟩ := EllStable.updateXc_nonFinite he.2 b3.1
      (r := ρ / .zero false) (nonFiniteLaws.div_zero _ (decide_eq_true rfl))
    rw [y1] at g2
    cases g2
    simp only [Res.ok.injEq, Prod.mk.injEq] at g4
    obtain ⟨rfl, rfl⟩ := g4
    exact ⟨rfl, fun h => absurd rfl h, fun _ => y3⟩
  · have hne : (st' != .success) = true := by simpa using hst
    simp only [hne, if_true, Res.ok.injEq, Prod.mk.injEq] at h1
    obtain ⟨rfl, rfl⟩ := h1
    exact ⟨rfl, fun _ => ⟨rfl, rfl⟩, fun h => absurd h hst⟩

/-- **C99** (the feasibility method gives up, `EllStable`) -/
theorem C99_feas_gives_up_stable {Ω T : Type} [CutType T B64] {n : Nat} (hn : 0 < n) (orc : OracleFeas Ω (Arr B64) T B64) (w : Ω)
    (e : EllStable B64) (he : e.Shaped n) (hκ : e.kappa.Finite) (opts : Options B64) (hm : 0 < opts.maxIters)
    (htol : Scalar.lt 0 opts.tolerance = true) (g : Arr B64) (c : T) (w' : Ω) (ha : orc.assess w e.xc = .ok (some (g, c), w'))
    (hg : g.IsVecShape n) {s r t : ℤ} (ht : TinyGradStable n s r t e.mq g) :
    ∃ e', cuttingPlaneFeas orc EllStable.space w e opts = .ok ((none, 0), w', e') := by
  obtain ⟨m, hm⟩ : ∃ m, opts.maxIters = m + 1 := ⟨opts.maxIters - 1, by omega⟩
  obtain ⟨st, e', z, h1, -, h2, -⟩ := C99_tiny_gradient_stable hn .bias e he hκ g hg ht c
  have h1 : (EllStable.space (T := T)).updateBias e (g, c) = .ok (st, e') := h1
  have ha : orc.assess w ((EllStable.space (T := T)).xc e) = .ok (some (g, c), w') := ha
  have hlt : Scalar.lt ((EllStable.space (T := T)).tsq e') opts.tolerance = true := by
    show Scalar.lt e'.tsq _ = true
    rw [h2, ← htol]
    cases opts.tolerance <;> rfl
  refine ⟨e', ?_⟩
  unfold cuttingPlaneFeas
  rw [hm, feasLoop]
  simp only [ha, h1, Res.ok_bind, hlt, Bool.or_true, if_true]

end Ellalgo
