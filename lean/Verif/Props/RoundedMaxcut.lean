import Verif.Spec.RoundedMaxcut
import Verif.Props.MaxcutProps
import Verif.Props.RoundedSvm

/-! # C94: the maxcut oracle in rounded arithmetic -/

namespace Ellalgo
open Matrix Finset
variable {u : ℝ} {R : Rounding u} {n : Nat}

open Classical in
/-- what an edge `{i, j}` contributes to the cut -/
noncomputable def crossTerm (W : Matrix (Fin n) (Fin n) ℝ) (z : Fin n → ℝ) (i j : Nat) : ℝ :=
  if ext0 (signOf z) i ≠ ext0 (signOf z) j then ext00 W i j else 0

open Classical in
theorem sum_crossTerm (W : Matrix (Fin n) (Fin n) ℝ) (z : Fin n → ℝ) :
    ∑ i ∈ range n, ∑ j ∈ Ico (i + 1) n, crossTerm W z i j = cutWeight W z := by
  rw [cutWeight, Finset.sum_range fun i => ∑ j ∈ Ico (i + 1) n, crossTerm W z i j]
  refine Finset.sum_congr rfl fun i _ => ?_
  have h2 : ∀ t : Nat → ℝ, ∑ j ∈ Ico ((i : Nat) + 1) n, t j = ∑ j ∈ range n, if (i : Nat) < j then t j else 0 := by
    intro t
    rw [← Finset.sum_filter]
    refine Finset.sum_congr ?_ fun _ _ => rfl
    ext j; simp only [mem_Ico, mem_filter, mem_range]; omega
  rw [h2, Finset.sum_range]
  refine Finset.sum_congr rfl fun j _ => ?_
  simp only [crossTerm, Fin.val_fin_lt, ext0_fin, signOf_ne, ite_and, ext00, i.2, j.2, and_self, dite_true, Fin.eta]

/-- the signs of a rounded vector -/
theorem fl_signs {xc : Arr (Fl R)} (hx : xc.IsVecShape n) :
    IsVec (maxcutSigns xc) n (fun i => (⟨ext0 (signOf (xc.flVec n)) i⟩ : Fl R)) := by
  refine (hx.isVec.map fun v => if Scalar.ge v 0 then (1 : Fl R) else -1).congr fun i hi => ?_
  rw [show ext0 (signOf (xc.flVec n)) i = signOf (xc.flVec n) ⟨i, hi⟩ by simp [ext0, hi], signOf]
  have hge : Scalar.ge (xc.vec i) 0 = decide (0 ≤ xc.flVec n ⟨i, hi⟩) := rfl
  rw [hge]
  by_cases h : 0 ≤ xc.flVec n ⟨i, hi⟩
  · simp only [h, decide_true, if_true]; rfl
  · simp only [h, decide_false, if_false, Bool.false_eq_true]; rfl

/-- The loop adds the crossing weights one by one: any property of (number of steps, exact sum, sum of absolute values,
accumulator) that survives adding a weight and skipping holds of the result. -/
theorem maxcut_fold {o : MaxcutOracle (Fl R)} (ho : o.FlFor n) {x : Arr (Fl R)} {z : Fin n → ℝ}
    (hx : IsVec x n (fun i => (⟨ext0 (signOf z) i⟩ : Fl R))) (P : Nat → ℝ → ℝ → Fl R → Prop) (h0 : P 0 0 0 0)
    (hadd : ∀ k E A s (i j : Fin n), k < n * n → P k E A s →
      P (k + 1) (E + o.weights.flRect n n i j) (A + |o.weights.flRect n n i j|) (s + o.weights.mat i j))
    (hskip : ∀ k E A s, k < n * n → P k E A s → P (k + 1) E A s) :
    ∃ v, o.cutValue x = .ok v ∧
      P (n * n) (cutWeight (o.weights.flRect n n) z) (cutWeight (fun i j => |o.weights.flRect n n i j|) z) v := by
  set W := o.weights.flRect n n with hW
  set Wa : Matrix (Fin n) (Fin n) ℝ := fun i j => |W i j| with hWa
  have hc : o.weights.cols = n := ho.weights.2.1
  have hmono : ∀ d k E A s, k + d ≤ n * n → P k E A s → P (k + d) E A s := by
    intro d
    induction d with
    | zero => intro k E A s _ h; exact h
    | succ d ih => intro k E A s hk h; exact hskip (k + d) _ _ _ (by omega) (ih k E A s (by omega) h)
  have inner : ∀ (i : Nat) (s : Fl R) (k : Nat) (E A : ℝ), i < n → k + n ≤ n * n → P k E A s → ∃ s',
      (forRange (i + 1) o.n s fun j s => do
        let xi ← x.idx i
        let xj ← x.idx j
        if !Scalar.beq xi xj then do
          let w ← o.weights.idx (i * o.weights.cols + j)
          .ok (s + w)
        else .ok s) = .ok s' ∧
      P (k + n) (E + ∑ j ∈ Ico (i + 1) n, crossTerm W z i j) (A + ∑ j ∈ Ico (i + 1) n, crossTerm Wa z i j) s' := by
    intro i s k E A hi hk hP
    rw [ho.size]
    obtain ⟨s', h1, h2⟩ := forRange_spec (σ := Fl R) (fun j s => P (k + (j - (i + 1)))
        (E + ∑ j ∈ Ico (i + 1) j, crossTerm W z i j) (A + ∑ j ∈ Ico (i + 1) j, crossTerm Wa z i j) s)
      (f := fun j s => do
        let xi ← x.idx i
        let xj ← x.idx j
        if !Scalar.beq xi xj then do
          let w ← o.weights.idx (i * o.weights.cols + j)
          .ok (s + w)
        else .ok s) (lo := i + 1) (hi := n) (s := s) (by omega) (by simpa using hP) (by
        intro j s h1 hj hP
        rw [hx.idx hi, hx.idx hj, hc, ho.weights.isMat.idx hi hj]
        simp only [Res.ok_bind, Fl.beq_eq]
        rw [show k + (j + 1 - (i + 1)) = k + (j - (i + 1)) + 1 by omega, sum_Ico_succ_top h1, sum_Ico_succ_top h1,
          ← add_assoc, ← add_assoc]
        by_cases hne : ext0 (signOf z) i = ext0 (signOf z) j
        · simp only [hne, decide_true, Bool.not_true, Bool.false_eq_true, if_false]
          refine ⟨s, rfl, ?_⟩
          have e1 : crossTerm W z i j = 0 := if_neg (not_not.2 hne)
          have e2 : crossTerm Wa z i j = 0 := if_neg (not_not.2 hne)
          rw [e1, e2, add_zero, add_zero]
          exact hskip _ _ _ _ (by omega) hP
        · simp only [hne, decide_false, Bool.not_false, if_true]
          refine ⟨_, rfl, ?_⟩
          have e1 : crossTerm W z i j = W ⟨i, hi⟩ ⟨j, hj⟩ := by rw [crossTerm, if_pos hne]; simp [ext00, hi, hj]
          have e2 : crossTerm Wa z i j = |W ⟨i, hi⟩ ⟨j, hj⟩| := by rw [crossTerm, if_pos hne]; simp [ext00, hi, hj, hWa]
          rw [e1, e2]
          exact hadd _ _ _ _ ⟨i, hi⟩ ⟨j, hj⟩ (by omega) hP)
    refine ⟨s', h1, ?_⟩
    have := hmono (n - (n - (i + 1))) _ _ _ _ (by omega) h2
    rwa [show k + (n - (i + 1)) + (n - (n - (i + 1))) = k + n by omega] at this
  obtain ⟨v, h1, h2⟩ := forRange_spec (σ := Fl R) (fun i s => P (i * n)
      (∑ i ∈ range i, ∑ j ∈ Ico (i + 1) n, crossTerm W z i j) (∑ i ∈ range i, ∑ j ∈ Ico (i + 1) n, crossTerm Wa z i j) s)
    (f := fun i s => forRange (i + 1) o.n s fun j s => do
        let xi ← x.idx i
        let xj ← x.idx j
        if !Scalar.beq xi xj then do
          let w ← o.weights.idx (i * o.weights.cols + j)
          .ok (s + w)
        else .ok s) (lo := 0) (hi := n) (s := 0) (Nat.zero_le n) (by simpa using h0) (by
      intro i s _ hi hP
      obtain ⟨s', h1, h2⟩ := inner i s _ _ _ hi (by nlinarith) hP
      refine ⟨s', h1, ?_⟩
      rw [sum_range_succ, sum_range_succ, Nat.succ_mul]
      exact h2)
  rw [sum_crossTerm, sum_crossTerm] at h2
  refine ⟨v, ?_, h2⟩
  rw [MaxcutOracle.cutValue]
  conv_lhs => rw [show (forRange 0 o.n) = forRange (σ := Fl R) 0 n by rw [ho.size]]
  exact h1

theorem cutWeight_abs_le (W : Matrix (Fin n) (Fin n) ℝ) (z : Fin n → ℝ) :
    |cutWeight W z| ≤ cutWeight (fun i j => |W i j|) z := by
  unfold cutWeight
  refine (abs_sum_le_sum_abs _ _).trans (sum_le_sum fun i _ => (abs_sum_le_sum_abs _ _).trans (sum_le_sum fun j _ => ?_))
  split <;> simp

/-- the computed cut weight -/
theorem maxcut_value_fl {o : MaxcutOracle (Fl R)} (ho : o.FlFor n) {x : Arr (Fl R)} {z : Fin n → ℝ}
    (hx : IsVec x n (fun i => (⟨ext0 (signOf z) i⟩ : Fl R))) :
    ∃ v, o.cutValue x = .ok v ∧ |v.val - cutWeight (o.weights.flRect n n) z| ≤ cutErr u (o.weights.flRect n n) z ∧
      ((∃ w : ℝ, (∀ i j, ∃ k : ℤ, o.weights.flRect n n i j = k ∧ |(k : ℝ)| ≤ w) ∧
          ∀ k : ℤ, |(k : ℝ)| ≤ (n * n : ℕ) * w → R.Rep k) → v.val = cutWeight (o.weights.flRect n n) z) := by
  have hu := R.unit_nonneg
  obtain ⟨v, h1, h2, -, h3⟩ := maxcut_fold ho hx
    (fun k E A s => |s.val - E| ≤ ((1 + u) ^ k - 1) * A ∧ |E| ≤ A ∧
      ∀ w : ℝ, (∀ i j, ∃ k : ℤ, o.weights.flRect n n i j = k ∧ |(k : ℝ)| ≤ w) →
        (∀ k : ℤ, |(k : ℝ)| ≤ (n * n : ℕ) * w → R.Rep k) → s.val = E ∧ ∃ q : ℤ, E = q ∧ |(q : ℝ)| ≤ k * w)
    ⟨by simp [show ((0 : Fl R)).val = 0 from rfl], by simp, fun w _ _ => ⟨rfl, 0, by simp, by simp⟩⟩
    (by
      rintro k E A s i j hk ⟨ha, hb, hc⟩
      set t := o.weights.flRect n n i j with ht
      have hA := (abs_nonneg E).trans hb
      have hC : (1 : ℝ) ≤ (1 + u) ^ k := one_le_pow₀ (by linarith)
      have hval : (s + o.weights.mat i j).val = R.rnd (s.val + t) := rfl
      have hb' : |E + t| ≤ A + |t| := (abs_add_le _ _).trans (by linarith)
      refine ⟨?_, hb', ?_⟩
      · rw [hval, pow_succ']
        refine rnd_rel ?_ hb'
        rw [add_sub_add_right_eq_sub]
        have := mul_nonneg (sub_nonneg.2 hC) (abs_nonneg t)
        linarith
      · intro w hw hrep
        obtain ⟨he, q, hq, hq'⟩ := hc w hw hrep
        obtain ⟨p, hp, hp'⟩ := hw i j
        have hsum : E + t = ((q + p : ℤ) : ℝ) := by rw [ht, hp, hq]; push_cast; ring
        have hle : |((q + p : ℤ) : ℝ)| ≤ ((k + 1 : ℕ) : ℝ) * w := by
          push_cast
          refine (abs_add_le _ _).trans ?_
          linarith
        refine ⟨?_, q + p, hsum, hle⟩
        rw [hval, he, hsum]
        refine hrep _ (hle.trans ?_)
        exact mul_le_mul_of_nonneg_right (by exact_mod_cast hk) ((abs_nonneg _).trans hp'))
    (by
      rintro k E A s hk ⟨ha, hb, hc⟩
      have hA := (abs_nonneg E).trans hb
      have hC : (1 : ℝ) ≤ (1 + u) ^ k := one_le_pow₀ (by linarith)
      refine ⟨ha.trans (mul_le_mul_of_nonneg_right ?_ hA), hb, fun w hw hrep => ?_⟩
      · rw [pow_succ]
        nlinarith
      · obtain ⟨he, q, hq, hq'⟩ := hc w hw hrep
        refine ⟨he, q, hq, hq'.trans ?_⟩
        obtain ⟨p, -, hp⟩ : ∃ p : ℤ, True ∧ |(p : ℝ)| ≤ w := by
          have hn : 0 < n := Nat.pos_of_ne_zero fun h => by subst h; simp at hk
          obtain ⟨p, -, hp⟩ := hw ⟨0, hn⟩ ⟨0, hn⟩
          exact ⟨p, trivial, hp⟩
        exact mul_le_mul_of_nonneg_right (by push_cast; linarith) ((abs_nonneg _).trans hp))
  refine ⟨v, h1, h2, ?_⟩
  rintro ⟨w, hw, hrep⟩
  exact (h3 w hw hrep).1

/-- the gradient is always computed and is a vector of length `n` -/
theorem maxcut_grad_fl {o : MaxcutOracle (Fl R)} (ho : o.FlFor n) {x : Arr (Fl R)} (hx : x.IsVecShape n) :
    ∃ g, o.grad x = .ok g ∧ g.IsVecShape n := by
  have hc : o.weights.cols = n := ho.weights.2.1
  obtain ⟨g, h1, h2⟩ := forRange_spec (σ := Arr (Fl R)) (fun _ g => g.IsVecShape n)
    (f := fun i g => forRange 0 n g fun j g => do
        let xi ← x.idx i
        let xj ← x.idx j
        if !Scalar.beq xi xj then do
          let w ← o.weights.idx (i * o.weights.cols + j)
          let old ← g.idx i
          g.setIdx i (old + w)
        else .ok g) (lo := 0) (hi := n) (s := Arr.new n) (Nat.zero_le n) (isVec_new n).shape (by
      intro i g _ hi hg
      refine forRange_spec (σ := Arr (Fl R)) (fun _ g => g.IsVecShape n) (Nat.zero_le n) hg ?_
      intro j g _ hj hg
      rw [hx.isVec.idx hi, hx.isVec.idx hj, hc, ho.weights.isMat.idx hi hj]
      simp only [Res.ok_bind, hg.isVec.idx hi]
      split
      · obtain ⟨a, e1, e2⟩ := hg.isVec.setIdx hi (g.vec i + o.weights.mat i j)
        exact ⟨a, e1, e2.shape⟩
      · exact ⟨g, rfl, hg⟩)
  refine ⟨g.smul (nat 2), ?_, (h2.isVec.map _).shape⟩
  rw [MaxcutOracle.grad, ho.size, h1]
  rfl

/-- **C94** One query of `MaxcutOracle` in rounded arithmetic, at any point: it never panics and leaves the oracle unchanged;
the cut weight it computes is the true weight of the cut up to `cutErr`, and exactly the true weight if all weights are
integers of size at most `w` and all integers of size at most `n² w` are floating-point numbers; improvement is reported exactly if
the computed weight beats `γ`, and then it is the new `γ`; otherwise `γ` is unchanged. -/
theorem C94_maxcut_answer (o : MaxcutOracle (Fl R)) (ho : o.FlFor n) (xc : Arr (Fl R)) (hx : xc.IsVecShape n) (γ : Fl R) :
    ∃ g beta shrunk γ' v, MaxcutOracle.oracle.assess o xc γ = .ok (((g, ⟨beta⟩), shrunk), γ', o) ∧ g.IsVecShape n ∧
      |v - cutWeight (o.weights.flRect n n) (xc.flVec n)| ≤ cutErr u (o.weights.flRect n n) (xc.flVec n) ∧
      (∀ w : ℝ, (∀ i j, ∃ k : ℤ, o.weights.flRect n n i j = k ∧ |(k : ℝ)| ≤ w) →
        (∀ k : ℤ, |(k : ℝ)| ≤ (n * n : ℕ) * w → R.Rep k) → v = cutWeight (o.weights.flRect n n) (xc.flVec n)) ∧
      (shrunk = true ↔ γ.val < v) ∧ (shrunk = true → γ'.val = v ∧ beta.val = -v) ∧ (shrunk = false → γ' = γ ∧ beta = γ) := by
  have hs := fl_signs hx
  obtain ⟨v, hv, hv1, hv2⟩ := maxcut_value_fl ho hs
  obtain ⟨g, hg, hg'⟩ := maxcut_grad_fl ho hs.shape
  have hneg : g.neg.IsVecShape n := (hg'.isVec.map _).shape
  have hex := fun w h1 h2 => hv2 ⟨w, h1, h2⟩
  have hgt : Scalar.gt v γ = decide (γ.val < v.val) := rfl
  by_cases h : γ.val < v.val
  · refine ⟨g.neg, -v, true, v, v.val, ?_, hneg, hv1, hex, by simp [h], fun _ => ⟨rfl, rfl⟩, by simp⟩
    simp only [MaxcutOracle.oracle, MaxcutOracle.assess, hv, hg, Res.ok_bind, hgt, h, decide_true, if_true]
  · refine ⟨g.neg, γ, false, γ, v.val, ?_, hneg, hv1, hex, by simp [h], by simp, fun _ => ⟨rfl, rfl⟩⟩
    simp only [MaxcutOracle.oracle, MaxcutOracle.assess, hv, hg, Res.ok_bind, hgt, h, decide_false, if_false, Bool.false_eq_true]

/-- **C94** (runs)  `cutting_plane_optim` with a maxcut oracle in rounded arithmetic, over any steady search space, whatever
rounding does to that space: the run ends without a panic, `γ` never decreases, with no solution it is unchanged, and a returned
point is a cut whose weight is the reported `γ'` up to `cutErr` — exactly for integer weights as above — and beats the
starting `γ`. -/
theorem C94_maxcut_run {S : Type} {sp : Space S (Arr (Fl R)) (SingleCut (Fl R)) (Fl R)} {Q : S → Prop} (hsp : sp.Steady n Q)
    (o : MaxcutOracle (Fl R)) (ho : o.FlFor n) {s : S} (hs : Q s) (γ : Fl R) (opts : Options (Fl R)) :
    ∃ r k γ' s', cuttingPlaneOptim MaxcutOracle.oracle sp o s γ opts = .ok ((r, k), γ', o, s') ∧ γ.val ≤ γ'.val ∧
      (r = none → γ' = γ) ∧
      ∀ x, r = some x → x.IsVecShape n ∧ γ.val < γ'.val ∧
        |γ'.val - cutWeight (o.weights.flRect n n) (x.flVec n)| ≤ cutErr u (o.weights.flRect n n) (x.flVec n) ∧
        ∀ w : ℝ, (∀ i j, ∃ k : ℤ, o.weights.flRect n n i j = k ∧ |(k : ℝ)| ≤ w) →
          (∀ k : ℤ, |(k : ℝ)| ≤ (n * n : ℕ) * w → R.Rep k) → γ'.val = cutWeight (o.weights.flRect n n) (x.flVec n) := by
  obtain ⟨r, k, γ', w', s', h1, ⟨rfl, h2⟩, h3, h4⟩ := optim_accepted hsp (I := fun w g => w = o ∧ γ.val ≤ g.val)
    (orc := MaxcutOracle.oracle) (w := o) (s := s) (g := γ) (by
      rintro w x g ⟨rfl, hge⟩ hx
      obtain ⟨gr, beta, sh, g', v, hq, hsh, -, -, h3, h4, h5⟩ := C94_maxcut_answer w ho x hx g
      refine ⟨(gr, ⟨beta⟩), sh, g', w, hq, ⟨rfl, ?_⟩, fun h => (h5 h).1, hsh⟩
      cases sh with
      | true => rw [(h4 rfl).1]; exact hge.trans (h3.1 rfl).le
      | false => rw [(h5 rfl).1]; exact hge) opts ⟨rfl, le_rfl⟩ hs
  refine ⟨r, k, γ', s', h1, h2, h3, ?_⟩
  intro x hx
  obtain ⟨hxs, w1, g1, c, w2, ⟨rfl, hg1⟩, hq⟩ := h4 x hx
  obtain ⟨gr, beta, sh, g', v, hq', -, ha, hb, h5, h6, -⟩ := C94_maxcut_answer w1 ho x hxs g1
  rw [hq] at hq'
  simp only [Res.ok.injEq, Prod.mk.injEq] at hq'
  obtain ⟨⟨-, rfl⟩, rfl, -⟩ := hq'
  have h7 := (h6 rfl).1
  refine ⟨hxs, ?_, h7 ▸ ha, fun w e1 e2 => h7.trans (hb w e1 e2)⟩
  rw [h7]
  exact hg1.trans_lt (h5.1 rfl)

end Ellalgo
