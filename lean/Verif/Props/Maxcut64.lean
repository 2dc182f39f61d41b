import Verif.Lib.Maxcut64

/-! # C127: the maxcut oracle in IEEE `f64` -/

namespace Ellalgo
open Matrix Finset
variable {n : Nat}

theorem side_signOf (xc : Arr B64) : signOf (xc.side64 n) = xc.side64 n := by
  funext i
  unfold signOf Arr.side64
  split_ifs with h1 h2 h2
  · rfl
  · exact absurd zero_le_one h2
  · exact absurd h2 (by norm_num)
  · rfl

/-- the entries of the vector of signs -/
noncomputable def sign64 (xc : Arr B64) (i : Nat) : B64 := if Scalar.ge (xc.vec i) 0 then 1 else -1

theorem signs64 {xc : Arr B64} (hx : xc.IsVecShape n) : IsVec (maxcutSigns xc) n (sign64 xc) :=
  hx.isVec.map fun v => if Scalar.ge v 0 then (1 : B64) else -1

theorem sign64_same (xc : Arr B64) {i : Nat} (hi : i < n) : Same (sign64 xc i) (⟨ext0 (signOf (xc.side64 n)) i⟩ : Fl bin53) := by
  have e : ext0 (signOf (xc.side64 n)) i = if Scalar.ge (xc.vec i) 0 then 1 else -1 := by
    rw [side_signOf]
    simp [ext0, hi, Arr.side64]
  rw [e]
  unfold sign64
  split
  · exact Same.one
  · exact Same.one.neg

theorem sign64_ne (xc : Arr B64) (i j : Fin n) : (!Scalar.beq (sign64 xc i) (sign64 xc j)) = true ↔
    ¬(onLeft (xc.side64 n) i ↔ onLeft (xc.side64 n) j) := by
  rw [← signOf_ne, (sign64_same xc i.2).beq (sign64_same xc j.2), Fl.beq_eq, Bool.not_eq_true', decide_eq_false_iff_not, ext0_fin, ext0_fin]

/-- the same weights in arithmetic rounded to 53 bits -/
def MaxcutOracle.toFl (o : MaxcutOracle B64) : MaxcutOracle (Fl bin53) :=
  ⟨⟨o.weights.data.map fun a => ⟨a.val⟩, o.weights.rows, o.weights.cols⟩, o.n⟩

theorem MaxcutOracle.For64.same {o : MaxcutOracle B64} (ho : o.For64 n) : o.weights.Same o.toFl.weights := by
  refine ⟨rfl, rfl, ?_⟩
  have : ∀ l : List B64, (∀ a ∈ l, a.Small 968) → List.Forall₂ Same l (l.map fun a => (⟨a.val⟩ : Fl bin53)) := by
    intro l
    induction l with
    | nil => intro _; exact .nil
    | cons a l ih => intro h; exact .cons ⟨(h a (by simp)).1, rfl⟩ (ih fun b hb => h b (by simp [hb]))
  exact this _ ho.small

theorem MaxcutOracle.For64.toFl {o : MaxcutOracle B64} (ho : o.For64 n) : o.toFl.FlFor n :=
  ⟨⟨ho.weights.1, ho.weights.2.1, by simpa [MaxcutOracle.toFl] using ho.weights.2.2⟩, ho.size⟩

theorem MaxcutOracle.For64.entry {o : MaxcutOracle B64} (ho : o.For64 n) {i j : Nat} (hi : i < n) (hj : j < n) :
    (o.weights.mat i j).Small 968 := by
  refine ho.small _ ?_
  have hl : i * o.weights.cols + j < o.weights.data.length := by
    rw [ho.weights.2.2, ho.weights.2.1]; exact rm_lt hi hj
  rw [Arr.mat, List.getD_eq_getElem?_getD, List.getElem?_eq_getElem hl]
  exact List.getElem_mem hl

open Classical in
/-- the sum of the crossing weights at a vertex -/
theorem crossing_sum (xc : Arr B64) (i : Fin n) (f : Nat → ℝ) (W : Matrix (Fin n) (Fin n) ℝ) (h : ∀ j : Fin n, f j = W i j) :
    (∑ j ∈ range n, if (!Scalar.beq (sign64 xc i) (sign64 xc j)) = true then f j else 0) = crossingAt W (xc.side64 n) i := by
  rw [Finset.sum_range, crossingAt]
  refine sum_congr rfl fun j _ => ?_
  simp only [sign64_ne, h]

/-- **C127** One query of `MaxcutOracle` in IEEE-754 `f64`, with finite weights of size at most `2⁹⁶⁸`, at any point, infinities and NaN
included, and with any `γ`.  It never panics and leaves the oracle unchanged.  The cut weight `v` it computes is a finite number, the true
weight of the cut up to `cutErr`.  Improvement is reported exactly if `v > γ`, and then `v` is the new `γ`; otherwise `γ` is unchanged.
The gradient is made of finite numbers: minus twice the crossing weight at each vertex, up to `crossErr`.  If the weights are integers with
`n² w ≤ 2⁵³` then the weight and the gradient are exact. -/
theorem C127_maxcut_query (o : MaxcutOracle B64) (ho : o.For64 n) (xc : Arr B64) (hx : xc.IsVecShape n) (γ : B64) :
    ∃ g beta shrunk γ' v, MaxcutOracle.oracle.assess o xc γ = .ok (((g, ⟨beta⟩), shrunk), γ', o) ∧ v.Finite ∧
      |v.val - cutWeight (o.weights.rect64 n n) (xc.side64 n)| ≤ cutErr ((2 : ℝ) ^ (-53 : ℤ)) (o.weights.rect64 n n) (xc.side64 n) ∧
      shrunk = Scalar.gt v γ ∧ (shrunk = true → γ' = v ∧ beta = -v) ∧ (shrunk = false → γ' = γ ∧ beta = γ) ∧
      g.IsVecShape n ∧ (∀ i : Fin n, (g.vec i).Finite ∧
        |(g.vec i).val + 2 * crossingAt (o.weights.rect64 n n) (xc.side64 n) i| ≤
          crossErr ((2 : ℝ) ^ (-53 : ℤ)) (o.weights.rect64 n n) (xc.side64 n) i) ∧
      ∀ w, IntWeights (o.weights.rect64 n n) w → v.val = cutWeight (o.weights.rect64 n n) (xc.side64 n) ∧
        ∀ i : Fin n, (g.vec i).val = -(2 * crossingAt (o.weights.rect64 n n) (xc.side64 n) i) := by
  have hs := signs64 hx
  have hs' : IsVec (⟨(List.range n).map fun i => ⟨ext0 (signOf (xc.side64 n)) i⟩, n, 0⟩ : Arr (Fl bin53)) n
      (fun i => ⟨ext0 (signOf (xc.side64 n)) i⟩) := ⟨rfl, rfl, by simp, fun i hi => by simp [hi]⟩
  obtain ⟨v, v', hv, hv', hvv⟩ := maxcut_value_same ho.same ho.toFl.weights ho.size ho.toFl.size (fun i j hi hj => ho.entry hi hj) hs hs'
    fun i hi => sign64_same xc hi
  obtain ⟨v1, h1, h2, h3⟩ := maxcut_value_fl ho.toFl hs'
  obtain rfl : v' = v1 := by simpa using hv'.symm.trans h1
  rw [← rect64_eq ho.same ho.toFl.weights, ← hvv.2] at h2 h3
  obtain ⟨g, hg, hg'⟩ := maxcut_grad_generic ho.weights.isMat ho.size hs
  have hneg : IsVec g.neg n _ := hg'.map fun a => -a
  have key : ∀ i : Fin n, (g.neg.vec i).Finite ∧
      |(g.neg.vec i).val + 2 * crossingAt (o.weights.rect64 n n) (xc.side64 n) i| ≤
        crossErr ((2 : ℝ) ^ (-53 : ℤ)) (o.weights.rect64 n n) (xc.side64 n) i ∧
      ∀ w, IntWeights (o.weights.rect64 n n) w → (g.neg.vec i).val = -(2 * crossingAt (o.weights.rect64 n n) (xc.side64 n) i) := by
    intro i
    rw [hneg.vec i.2]
    obtain ⟨a1, a2, -, a4⟩ := crossSum_err (fun j => !Scalar.beq (sign64 xc i) (sign64 xc j)) (o.weights.mat i) n fun j hj => ho.entry i.2 hj
    rw [crossing_sum xc i _ (o.weights.rect64 n n) fun j => rfl] at a2 a4
    rw [crossing_sum xc i (fun j => |(o.weights.mat i j).val|) (fun i j => |o.weights.rect64 n n i j|) fun j => rfl] at a2
    obtain ⟨b1, b2⟩ := B64.double a1
    obtain ⟨c1, c2⟩ := B64.neg_val b1
    refine ⟨c1, ?_, fun w hw => ?_⟩
    · rw [c2, b2, crossErr]
      have e : ∀ a b : ℝ, -(2 * a) + 2 * b = -(2 * (a - b)) := fun a b => by ring
      rw [e, abs_neg, abs_mul, abs_two]
      exact mul_le_mul_of_nonneg_left a2 (by norm_num)
    · have hn : (1 : ℝ) ≤ n := by exact_mod_cast (Nat.succ_le_of_lt (lt_of_le_of_lt (Nat.zero_le _) i.2))
      have hw0 : 0 ≤ w := by
        obtain ⟨q, -, hq⟩ := hw.1 i i
        exact (abs_nonneg _).trans hq
      have hb := hw.2
      push_cast at hb
      have := (a4 w hw0 (fun j hj => hw.1 i ⟨j, hj⟩) (by nlinarith)).1
      rw [c2, b2, this]
  have hex : ∀ w, IntWeights (o.weights.rect64 n n) w → v.val = cutWeight (o.weights.rect64 n n) (xc.side64 n) := by
    intro w hw
    refine h3 ⟨w, hw.1, fun k hk => ?_⟩
    have := rnd53_rep k 0 (by
      have : |((k : ℤ) : ℝ)| ≤ (2 : ℝ) ^ 53 := hk.trans hw.2
      rw [← Int.cast_abs] at this
      exact_mod_cast this)
    rw [zpow_zero, mul_one] at this
    exact this
  cases h : Scalar.gt v γ
  · refine ⟨g.neg, γ, false, γ, v, ?_, hvv.1, h2, h.symm, by simp, fun _ => ⟨rfl, rfl⟩, hneg.shape, fun i => ⟨(key i).1, (key i).2.1⟩,
      fun w hw => ⟨hex w hw, fun i => (key i).2.2 w hw⟩⟩
    simp only [MaxcutOracle.oracle, MaxcutOracle.assess, hv, hg, Res.ok_bind, h, if_false, Bool.false_eq_true]
  · refine ⟨g.neg, -v, true, v, v, ?_, hvv.1, h2, h.symm, fun _ => ⟨rfl, rfl⟩, by simp, hneg.shape, fun i => ⟨(key i).1, (key i).2.1⟩,
      fun w hw => ⟨hex w hw, fun i => (key i).2.2 w hw⟩⟩
    simp only [MaxcutOracle.oracle, MaxcutOracle.assess, hv, hg, Res.ok_bind, h, if_true]

theorem gt_trans64 {a b c : B64} (ha : a.Finite) (hb : b.Finite) (h1 : Scalar.gt a b = true) (h2 : Scalar.gt b c = true) :
    Scalar.gt a c = true := by
  have f : ∀ x y : B64, x.Finite → y.Finite → (Scalar.gt x y = true ↔ y.val < x.val) := fun x y hx hy =>
    (C99_normal_range y x hy hx).2.2.2.2.2.1
  have g : ∀ c : B64, c.Finite → Scalar.gt b c = true → Scalar.gt a c = true := fun c hc h2 =>
    (f a c ha hc).2 (((f b c hb hc).1 h2).trans ((f a b ha hb).1 h1))
  cases c with
  | nan => cases b <;> exact absurd (show false = true from h2) Bool.false_ne_true
  | inf s =>
    cases s with
    | true => cases a <;> first | exact ha.elim | rfl
    | false => cases b <;> first | exact hb.elim | exact absurd (show false = true from h2) Bool.false_ne_true
  | zero s => exact g _ trivial h2
  | num c => exact g _ trivial h2

/-- **C127** (runs)  `cutting_plane_optim` with a maxcut oracle in IEEE-754 `f64`, over any steady search space, whatever happens in that
space — rounding, overflow, NaN.  The run ends without a panic; with no solution `γ` is unchanged; a returned vector chooses a cut whose
weight is the reported number, up to `cutErr` and exactly for integer weights with `n² w ≤ 2⁵³`, and beats the starting `γ`. -/
theorem C127_maxcut_run {S : Type} {sp : Space S (Arr B64) (SingleCut B64) B64} {Q : S → Prop} (hsp : sp.Steady n Q)
    (o : MaxcutOracle B64) (ho : o.For64 n) {s : S} (hs : Q s) (γ : B64) (opts : Options B64) :
    ∃ r k γ' s', cuttingPlaneOptim MaxcutOracle.oracle sp o s γ opts = .ok ((r, k), γ', o, s') ∧ (r = none → γ' = γ) ∧
      ∀ x, r = some x → x.IsVecShape n ∧ γ'.Finite ∧ Scalar.gt γ' γ = true ∧
        |γ'.val - cutWeight (o.weights.rect64 n n) (x.side64 n)| ≤ cutErr ((2 : ℝ) ^ (-53 : ℤ)) (o.weights.rect64 n n) (x.side64 n) ∧
        ∀ w, IntWeights (o.weights.rect64 n n) w → γ'.val = cutWeight (o.weights.rect64 n n) (x.side64 n) := by
  obtain ⟨r, k, γ', w', s', h1, ⟨rfl, -⟩, h3, h4⟩ := optim_accepted hsp
    (I := fun w g => w = o ∧ (g = γ ∨ g.Finite ∧ Scalar.gt g γ = true)) (orc := MaxcutOracle.oracle) (w := o) (s := s) (g := γ) (by
      rintro w x g ⟨rfl, hg⟩ hx
      obtain ⟨gr, beta, sh, g', v, hq, hv, -, h3, h4, h5, h6, -⟩ := C127_maxcut_query w ho x hx g
      refine ⟨(gr, ⟨beta⟩), sh, g', w, hq, ⟨rfl, ?_⟩, fun h => (h5 h).1, h6⟩
      cases sh with
      | true =>
        rw [(h4 rfl).1]
        right
        refine ⟨hv, ?_⟩
        rcases hg with rfl | ⟨hg1, hg2⟩
        · exact h3.symm
        · exact gt_trans64 hv hg1 h3.symm hg2
      | false => rw [(h5 rfl).1]; exact hg) opts ⟨rfl, .inl rfl⟩ hs
  refine ⟨r, k, γ', s', h1, h3, ?_⟩
  intro x hx
  obtain ⟨hxs, w1, g1, c, w2, ⟨rfl, hg1⟩, hq⟩ := h4 x hx
  obtain ⟨gr, beta, sh, g', v, hq', hv, ha, h5, h6, -, -, -, hb⟩ := C127_maxcut_query w1 ho x hxs g1
  rw [hq] at hq'
  simp only [Res.ok.injEq, Prod.mk.injEq] at hq'
  obtain ⟨⟨-, rfl⟩, rfl, -⟩ := hq'
  obtain rfl := (h6 rfl).1
  refine ⟨hxs, hv, ?_, ha, fun w hw => (hb w hw).1⟩
  rcases hg1 with rfl | ⟨hg1, hg2⟩
  · exact h5.symm
  · exact gt_trans64 hv hg1 h5.symm hg2

end Ellalgo
