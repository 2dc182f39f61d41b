import Verif.Spec.Binary64Run
import Verif.Props.Binary64Range

/-! `f64` operations in range are those of arithmetic rounded to 53 bits; so are the strategies and the update. -/

namespace Ellalgo
variable {a b : B64} {x y : Fl bin53}

namespace Same

theorem add (h : Same a x) (k : Same b y) (ok : AddOk x y) : Same (a + b) (x + y) := by
  have := (C99_normal_range a b h.1 k.1).1
  rw [h.2, k.2] at this
  exact this ok

theorem sub (h : Same a x) (k : Same b y) (ok : SubOk x y) : Same (a - b) (x - y) := by
  have := (C99_normal_range a b h.1 k.1).2.1
  rw [h.2, k.2] at this
  exact this ok

theorem mul (h : Same a x) (k : Same b y) (ok : MulOk x y) : Same (a * b) (x * y) := by
  have := (C99_normal_range a b h.1 k.1).2.2.1
  rw [h.2, k.2] at this
  exact this ok.1 ok.2

theorem div (h : Same a x) (k : Same b y) (ok : DivOk x y) : Same (a / b) (x / y) := by
  have := (C99_normal_range a b h.1 k.1).2.2.2.1
  rw [h.2, k.2] at this
  refine this ok.1 (ok.2.1.imp_left fun h => ?_) ok.2.2
  exact (div_eq_zero_iff.1 h).resolve_right ok.1

theorem sqrt (h : Same a x) (ok : SqrtOk x) : Same (Scalar.sqrt a) (Scalar.sqrt x) := by
  have := (C99_normal_range a a h.1 h.1).2.2.2.2.1
  rw [h.2] at this
  exact this ok

theorem lt (h : Same a x) (k : Same b y) : Scalar.lt a b = Scalar.lt x y := by
  have := (C99_normal_range a b h.1 k.1).2.2.2.2.2.1
  rw [h.2, k.2] at this
  rw [Bool.eq_iff_iff, this]
  exact decide_eq_true_iff.symm

theorem le (h : Same a x) (k : Same b y) : Scalar.le a b = Scalar.le x y := by
  have := (C99_normal_range a b h.1 k.1).2.2.2.2.2.2
  rw [h.2, k.2] at this
  rw [Bool.eq_iff_iff, this]
  exact decide_eq_true_iff.symm

theorem gt (h : Same a x) (k : Same b y) : Scalar.gt a b = Scalar.gt x y := lt k h
theorem ge (h : Same a x) (k : Same b y) : Scalar.ge a b = Scalar.ge x y := le k h

theorem zero : Same 0 0 := ⟨trivial, rfl⟩

theorem nat (k : Nat) (hk : (k : ℝ) ≤ (2 : ℝ) ^ (1000 : ℤ)) : Same (Ellalgo.nat k) (Ellalgo.nat k) := by
  refine Ellalgo.ofReal_normal ?_ ?_
  · rcases Nat.eq_zero_or_pos k with h | h
    · left; rw [h, Nat.cast_zero]
    · right
      rw [abs_of_nonneg (Nat.cast_nonneg k)]
      have h1 : (1 : ℝ) ≤ k := by exact_mod_cast h
      refine le_trans ?_ h1
      exact zpow_le_one_of_nonpos₀ (by norm_num) (by norm_num)
  · have h1 := bin53.err (k : ℝ)
    rw [abs_of_nonneg (Nat.cast_nonneg k : (0 : ℝ) ≤ k)] at h1
    have h2 : |rnd53 k| ≤ 2 * (k : ℝ) := by
      have h3 : |rnd53 k| ≤ |bin53.rnd k - k| + |(k : ℝ)| := by
        have := abs_add_le (bin53.rnd k - k) (k : ℝ)
        rw [sub_add_cancel] at this
        exact this
      rw [abs_of_nonneg (Nat.cast_nonneg k : (0 : ℝ) ≤ k)] at h3
      have h4 : (2 : ℝ) ^ (-53 : ℤ) ≤ 1 := zpow_le_one_of_nonpos₀ (by norm_num) (by norm_num)
      nlinarith [(Nat.cast_nonneg k : (0 : ℝ) ≤ k)]
    have h5 : (2 : ℝ) * (2 : ℝ) ^ (1000 : ℤ) < (2 : ℝ) ^ (1024 : ℤ) := by
      rw [← zpow_one_add₀ (by norm_num : (2 : ℝ) ≠ 0)]
      exact zpow_lt_zpow_right₀ (by norm_num) (by norm_num)
    exact (h2.trans (mul_le_mul_of_nonneg_left hk (by norm_num))).trans_lt h5

theorem two : Same (Ellalgo.nat 2) (Ellalgo.nat 2) := nat 2 (by
  rw [show ((2 : Nat) : ℝ) = (2 : ℝ) ^ (1 : ℤ) by norm_num]
  exact zpow_le_zpow_right₀ (by norm_num) (by norm_num))

theorem one : Same 1 1 := by
  have := nat 1 (by
    rw [show ((1 : Nat) : ℝ) = (2 : ℝ) ^ (0 : ℤ) by norm_num]
    exact zpow_le_zpow_right₀ (by norm_num) (by norm_num))
  have e : (Ellalgo.nat 1 : B64) = 1 := by
    show B64.ofReal false ((1 : Nat) : ℝ) = B64.ofReal false 1
    rw [Nat.cast_one]
  rw [e] at this
  refine ⟨this.1, this.2.trans ?_⟩
  show rnd53 ((1 : Nat) : ℝ) = 1
  rw [Nat.cast_one]
  exact bin53.one

theorem sumTo {n : Nat} {f : Nat → B64} {f' : Nat → Fl bin53} (h : ∀ k < n, Same (f k) (f' k)) (ok : SumOk n f') :
    Same (sumTo n f) (sumTo n f') := by
  induction n with
  | zero => exact zero
  | succ n ih => exact (ih (fun k hk => h k (by omega)) fun k hk => ok k (by omega)).add (h n (by omega)) (ok n (by omega))

end Same

/-- same status, same parameters -/
def SameCall (p : CutStatus × Triple B64) (q : CutStatus × Triple (Fl bin53)) : Prop :=
  p.1 = q.1 ∧ Same p.2.1 q.2.1 ∧ Same p.2.2.1 q.2.2.1 ∧ Same p.2.2.2 q.2.2.2

/-- same parameters -/
def SameTriple (p : Triple B64) (q : Triple (Fl bin53)) : Prop := Same p.1 q.1 ∧ Same p.2.1 q.2.1 ∧ Same p.2.2 q.2.2

section core
variable {c : EllCalcCore B64} {c' : EllCalcCore (Fl bin53)} {β β1 τ η t : B64} {β' β1' τ' η' t' : Fl bin53}

theorem same_biasFast (hc : c.Same c') (hβ : Same β β') (hτ : Same τ τ') (hη : Same η η') (ok : c'.BiasFastSafe β' τ' η') :
    SameTriple (c.calcBiasCutFast β τ η) (c'.calcBiasCutFast β' τ' η') := by
  obtain ⟨k1, k2, k3, k4, k5, k6, k7, k8⟩ := ok
  have r := hη.div hc.nPlus1 k1
  have al := hβ.div hτ k5
  exact ⟨r, (Same.two.mul r k2).div (hτ.add hβ k3) k4, hc.cst1.mul (Same.one.sub (al.mul al k6) k7) k8⟩

theorem same_coreBias (hc : c.Same c') (hβ : Same β β') (hτ : Same τ τ') (ok : c'.BiasSafe β' τ') :
    SameTriple (c.calcBiasCut β τ) (c'.calcBiasCut β' τ') :=
  same_biasFast hc hβ hτ (hτ.add (hc.nF.mul hβ ok.1) ok.2.1) ok.2.2

theorem same_coreCentral (hc : c.Same c') (ht : Same t t') (ok : c'.CentralSafe t') :
    SameTriple (c.calcCentralCut t) (c'.calcCentralCut t') :=
  ⟨(ht.sqrt ok.1).div hc.nPlus1 ok.2, hc.cst2, hc.cst1⟩

theorem same_parallelFast {bb : B64} {bb' : Fl bin53} (hc : c.Same c') (h0 : Same β β') (h1 : Same β1 β1') (ht : Same t t')
    (hb : Same bb bb') (hη : Same η η') (ok : c'.ParallelFastSafe β' β1' t' bb' η') :
    SameTriple (c.calcParallelBiasCutFast β β1 t bb η) (c'.calcParallelBiasCutFast β' β1' t' bb' η') := by
  obtain ⟨k1, k2, k3, k4, k5, k6, k7, k8, k9, k10, k11, k12, k13, k14, k15, k16, k17, k18, k19, k20, k21, k22, k23, k24, k25,
    k26⟩ := ok
  have q0 := h0.mul h0 k1
  have q1 := h1.mul h1 k2
  have z0 := ht.sub q0 k3
  have z1 := ht.sub q1 k4
  have tp := hc.halfN.mul (q1.sub q0 k5) k6
  have xi := ((z0.mul z1 k7).add (tp.mul tp k8) k9).sqrt k10
  have bs := h0.add h1 k11
  have den := ((ht.add hb k14).add (hc.halfN.mul (bs.mul bs k12) k13) k15).add xi k16
  have sg := (Same.two.mul hη k17).div den k18
  exact ⟨(sg.mul bs k19).div Same.two k20, sg,
    (hc.cst1.mul (((z0.add z1 k21).div Same.two k22).add (xi.div hc.nF k23) k24) k25).div ht k26⟩

theorem same_coreParallel (hc : c.Same c') (h0 : Same β β') (h1 : Same β1 β1') (ht : Same t t') (ok : c'.ParallelSafe β' β1' t') :
    SameTriple (c.calcParallelBiasCut β β1 t) (c'.calcParallelBiasCut β' β1' t') := by
  obtain ⟨k1, k2, k3, k4⟩ := ok
  have bb := h0.mul h1 k1
  exact same_parallelFast hc h0 h1 ht bb (ht.add (hc.nF.mul bb k2) k3) k4

theorem same_coreParallelCentral (hc : c.Same c') (h1 : Same β1 β1') (ht : Same t t') (ok : c'.ParallelCentralSafe β1' t') :
    SameTriple (c.calcParallelCentralCut β1 t) (c'.calcParallelCentralCut β1' t') := by
  obtain ⟨k1, k2, k3, k4, k5, k6, k7, k8, k9, k10, k11, k12, k13⟩ := ok
  have aq := (h1.mul h1 k1).div ht k2
  have hv := hc.halfN.mul aq k3
  have rt := hv.add (((Same.one.sub aq k4).add (hv.mul hv k5) k6).sqrt k7) k8
  have rp := rt.add Same.one k9
  exact ⟨h1.div rp k10, Same.two.div rp k11, rt.div (rt.sub hc.invN k12) k13⟩

end core

section strategies
variable {c : EllCalc B64} {c' : EllCalc (Fl bin53)} {β β1 t : B64} {β' β1' t' : Fl bin53}

theorem SameTriple.call {p : Triple B64} {q : Triple (Fl bin53)} (h : SameTriple p q) (st : CutStatus) : SameCall (st, p) (st, q) :=
  ⟨rfl, h⟩

theorem sameTriple_zero : SameTriple (0, 0, 0) (0, 0, 0) := ⟨.zero, .zero, .zero⟩
theorem sameTriple_one : SameTriple (0, 0, 1) (0, 0, 1) := ⟨.zero, .zero, .one⟩

theorem same_bias (hc : c.Same c') (hβ : Same β β') (ht : Same t t') (ok : c'.BiasSafe β' t') :
    SameCall (c.calcBiasCut β t) (c'.calcBiasCut β' t') := by
  unfold EllCalc.calcBiasCut
  rw [ht.lt (hβ.mul hβ ok.1)]
  cases h : Scalar.lt t' (β' * β')
  · obtain ⟨k1, k2⟩ := ok.2 h
    exact (same_coreBias hc.core hβ (ht.sqrt k1) k2).call _
  · exact sameTriple_zero.call _

theorem same_biasQ (hc : c.Same c') (hβ : Same β β') (ht : Same t t') (ok : c'.BiasQSafe β' t') :
    SameCall (c.calcBiasCutQ β t) (c'.calcBiasCutQ β' t') := by
  unfold EllCalc.calcBiasCutQ
  have hτ := ht.sqrt ok.1
  simp only [hτ.lt hβ]
  cases h : Scalar.lt (Scalar.sqrt t') β'
  · obtain ⟨k1, k2, k3⟩ := ok.2 h
    have hη := hτ.add (hc.nF.mul hβ k1) k2
    simp only [hη.lt Same.zero]
    cases h2 : Scalar.lt (Scalar.sqrt t' + c'.nF * β') 0
    · exact (same_biasFast hc.core hβ hτ hη (k3 h2)).call _
    · exact sameTriple_one.call _
  · exact sameTriple_zero.call _

theorem same_central (hc : c.Same c') (ht : Same t t') (ok : c'.helper.CentralSafe t') :
    SameCall (c.calcCentralCut t) (c'.calcCentralCut t') := (same_coreCentral hc.core ht ok).call _

/-- the shortcut `β₁ > 0 && …` -/
theorem and_congr_left_true {p q q' : Bool} (h : p = true → q = q') : (p && q) = (p && q') := by
  cases p
  · rfl
  · exact h rfl

theorem same_parallel (hc : c.Same c') (h0 : Same β β') (h1 : Same β1 β1') (ht : Same t t') (ok : c'.ParallelSafe β' β1' t') :
    SameCall (c.calcParallelBiasCut β β1 t) (c'.calcParallelBiasCut β' β1' t') := by
  unfold EllCalc.calcParallelBiasCut
  rw [h1.lt h0]
  cases h : Scalar.lt β1' β'
  · obtain ⟨k1, k2⟩ := ok h
    have e : (Scalar.gt β1 0 && Scalar.le t (β1 * β1)) = (Scalar.gt β1' 0 && Scalar.le t' (β1' * β1')) := by
      rw [h1.gt Same.zero]
      exact and_congr_left_true fun hg => ht.le (h1.mul h1 (k1 hg))
    rw [e, hc.flag]
    simp only [Bool.false_eq_true, if_false]
    split at k2
    · rename_i hb
      rw [if_pos hb, if_pos hb]
      exact same_bias hc h0 ht k2
    · rename_i hb
      rw [if_neg hb, if_neg hb]
      exact (same_coreParallel hc.core h0 h1 ht k2).call _
  · exact sameTriple_zero.call _

theorem same_parallelQ (hc : c.Same c') (h0 : Same β β') (h1 : Same β1 β1') (ht : Same t t') (ok : c'.ParallelQSafe β' β1' t') :
    SameCall (c.calcParallelQ β β1 t) (c'.calcParallelQ β' β1' t') := by
  unfold EllCalc.calcParallelQ
  rw [h1.lt h0]
  cases h : Scalar.lt β1' β'
  · obtain ⟨k1, k2⟩ := ok h
    have e : (Scalar.gt β1 0 && Scalar.ge (β1 * β1) t) = (Scalar.gt β1' 0 && Scalar.ge (β1' * β1') t') := by
      rw [h1.gt Same.zero]
      exact and_congr_left_true fun hg => (h1.mul h1 (k1 hg)).ge ht
    rw [e, hc.flag]
    simp only [Bool.false_eq_true, if_false]
    split at k2
    · rename_i hb
      rw [if_pos hb, if_pos hb]
      exact same_biasQ hc h0 ht k2
    · rename_i hb
      rw [if_neg hb, if_neg hb]
      obtain ⟨k3, k4, k5, k6⟩ := k2
      have bb := h0.mul h1 k3
      have hη := ht.add (hc.nF.mul bb k4) k5
      rw [hη.le Same.zero]
      cases h2 : Scalar.le (t' + c'.nF * (β' * β1')) 0
      · exact (same_parallelFast hc.core h0 h1 ht bb hη (k6 h2)).call _
      · exact sameTriple_one.call _
  · exact sameTriple_zero.call _

theorem same_parallelCentral (hc : c.Same c') (h1 : Same β1 β1') (ht : Same t t') (ok : c'.ParallelCentralSafe β1' t') :
    SameCall (c.calcParallelCentralCut β1 t) (c'.calcParallelCentralCut β1' t') := by
  unfold EllCalc.calcParallelCentralCut
  rw [h1.lt Same.zero]
  cases h : Scalar.lt β1' 0
  · obtain ⟨k1, k2⟩ := ok h
    rw [ht.le (h1.mul h1 k1), hc.flag]
    simp only [Bool.false_eq_true, if_false]
    split at k2
    · rename_i hb
      rw [if_pos hb, if_pos hb]
      exact same_central hc ht k2
    · rename_i hb
      rw [if_neg hb, if_neg hb]
      exact (same_coreParallelCentral hc.core h1 ht k2).call _
  · exact sameTriple_zero.call _

end strategies

/-- kinds of cut whose strategies agree in range -/
class LawfulCut64 (T T' : Type) [Cut64 T T'] [CutType T B64] [CutType T' (Fl bin53)] : Prop where
  call : ∀ (k : UpdateKind) (c : T) (c' : T') (h : EllCalc B64) (h' : EllCalc (Fl bin53)) (t : B64) (t' : Fl bin53),
    Cut64.same c c' → h.Same h' → Same t t' → Cut64.safe k c' h' t' → SameCall (CutType.call k c h t) (CutType.call k c' h' t')

instance : LawfulCut64 (SingleCut B64) (SingleCut (Fl bin53)) where
  call k c c' h h' t t' hc hh ht ok := by
    cases k
    · exact same_bias hh hc ht ok
    · exact same_central hh ht ok
    · exact same_biasQ hh hc ht ok

instance : LawfulCut64 (ParallelCut B64) (ParallelCut (Fl bin53)) where
  call k c c' h h' t t' hc hh ht ok := by
    obtain ⟨b0, b1⟩ := c
    obtain ⟨b0', b1'⟩ := c'
    obtain ⟨hc0, hc1⟩ := hc
    cases b1 <;> cases b1' <;> first | exact hc1.elim | skip
    · cases k
      · exact same_bias hh hc0 ht ok
      · exact same_central hh ht ok
      · exact same_biasQ hh hc0 ht ok
    · cases k
      · exact same_parallel hh hc0 hc1 ht ok
      · exact same_parallelCentral hh hc1 ht ok
      · exact same_parallelQ hh hc0 hc1 ht ok

section arrays
variable {n : Nat} {p : Arr B64} {q : Arr (Fl bin53)}

theorem Arr.Same.get (h : p.Same q) (i : Nat) (hi : i < q.data.length) : Ellalgo.Same (p.data.getD i 0) (q.data.getD i 0) := by
  have hl := h.data.length_eq
  have := List.forall₂_iff_get.1 h.data
  have h2 := this.2 i (by omega) hi
  rw [List.getD_eq_getElem?_getD, List.getD_eq_getElem?_getD, List.getElem?_eq_getElem hi,
    List.getElem?_eq_getElem (by omega : i < p.data.length)]
  exact h2

theorem Arr.Same.vecShape (h : p.Same q) (hq : q.IsVecShape n) : p.IsVecShape n :=
  ⟨h.rows.trans hq.1, h.cols.trans hq.2.1, h.data.length_eq.trans hq.2.2⟩

theorem Arr.Same.matShape (h : p.Same q) (hq : q.IsMatShape n n) : p.IsMatShape n n :=
  ⟨h.rows.trans hq.1, h.cols.trans hq.2.1, h.data.length_eq.trans hq.2.2⟩

theorem Arr.Same.vec (h : p.Same q) (hq : q.IsVecShape n) (i : Nat) (hi : i < n) : Ellalgo.Same (p.vec i) (q.vec i) :=
  h.get i (by rw [hq.2.2]; exact hi)

theorem Arr.Same.mat (h : p.Same q) (hq : q.IsMatShape n n) (i j : Nat) (hi : i < n) (hj : j < n) :
    Ellalgo.Same (p.mat i j) (q.mat i j) := by
  unfold Arr.mat
  rw [h.cols]
  refine h.get _ ?_
  rw [hq.2.2, hq.2.1]
  exact rm_lt hi hj

theorem IsVec.same {f : Nat → B64} {f' : Nat → Fl bin53} (hp : IsVec p n f) (hq : IsVec q n f') (h : ∀ i < n, Same (f i) (f' i)) :
    p.Same q := by
  refine ⟨hp.rows.trans hq.rows.symm, hp.cols.trans hq.cols.symm, List.forall₂_iff_get.2 ⟨hp.len.trans hq.len.symm, ?_⟩⟩
  intro i h1 h2
  have hi : i < n := by rw [← hp.len]; exact h1
  have e1 := hp.get i hi
  have e2 := hq.get i hi
  rw [List.getElem?_eq_getElem h1] at e1
  rw [List.getElem?_eq_getElem h2] at e2
  have := h i hi
  rw [← Option.some.inj e1, ← Option.some.inj e2] at this
  exact this

theorem IsMat.same {f : Nat → Nat → B64} {f' : Nat → Nat → Fl bin53} (hp : IsMat p n n f) (hq : IsMat q n n f')
    (h : ∀ i < n, ∀ j < n, Same (f i j) (f' i j)) : p.Same q := by
  refine ⟨hp.rows.trans hq.rows.symm, hp.cols.trans hq.cols.symm, List.forall₂_iff_get.2 ⟨hp.len.trans hq.len.symm, ?_⟩⟩
  intro i h1 h2
  have hi : i < n * n := by rw [← hp.len]; exact h1
  have hn : 0 < n := Nat.pos_of_ne_zero fun h => by simp [h] at hi
  have hr : i / n < n := by rw [Nat.div_lt_iff_lt_mul hn]; exact hi
  have e1 := hp.get (i / n) (i % n) hr (Nat.mod_lt _ hn)
  have e2 := hq.get (i / n) (i % n) hr (Nat.mod_lt _ hn)
  rw [Nat.div_add_mod', List.getElem?_eq_getElem h1] at e1
  rw [Nat.div_add_mod', List.getElem?_eq_getElem h2] at e2
  have := h (i / n) hr (i % n) (Nat.mod_lt _ hn)
  rw [← Option.some.inj e1, ← Option.some.inj e2] at this
  exact this

end arrays

section update
variable {n : Nat} {T T' : Type} [Cut64 T T'] [CutType T B64] [CutType T' (Fl bin53)] [LawfulCut64 T T']

theorem same_update {e : Ell B64} {e' : Ell (Fl bin53)} {c : Arr B64 × T} {c' : Arr (Fl bin53) × T'} (hn : 0 < n) (he : e.Same64 e')
    (hs : e'.Shaped n) (hc : SameCut c c') (hg : c'.1.IsVecShape n) (k : UpdateKind) (ok : Ell.Safe n k e' c') :
    Res.Rel (fun p q => p.1 = q.1 ∧ p.2.Same64 q.2) (Ell.space.update k e c) (Ell.space.update k e' c') ∧
    ∀ q, Ell.space.update k e' c' = .ok q → q.2.Shaped n := by
  obtain ⟨k1, k2, k3, k4, k5, k6, k7⟩ := ok
  rw [Ell.update_eq, Ell.update_eq]
  have hM := he.mq.matShape hs.1
  have hX := he.xc.vecShape hs.2
  have hG := hc.1.vecShape hg
  have sm := he.mq.mat hs.1
  have sx := he.xc.vec hs.2
  have sg := hc.1.vec hg
  have sw : ∀ i < n, Same (Ell.gt n e.mq.mat c.1.vec i) (Ell.gt n e'.mq.mat c'.1.vec i) := fun i hi =>
    Same.sumTo (fun j hj => (sm i j hi hj).mul (sg j hj) (k1 i hi j hj)) (k2 i hi)
  have so : Same (Ell.om n e.mq.mat c.1.vec) (Ell.om n e'.mq.mat c'.1.vec) :=
    Same.sumTo (fun i hi => (sg i hi).mul (sw i hi) (k3 i hi)) k4
  have st := he.kappa.mul so k5
  have hcall := LawfulCut64.call k c.2 c'.2 e.helper e'.helper _ _ hc.2 he.helper st k6
  obtain ⟨⟨s, ρ, σ, δ⟩, hq⟩ : ∃ q, CutType.call k c.2 e.helper (e.kappa * Ell.om n e.mq.mat c.1.vec) = q := ⟨_, rfl⟩
  obtain ⟨⟨s', ρ', σ', δ'⟩, hq'⟩ : ∃ q, CutType.call k c'.2 e'.helper (e'.kappa * Ell.om n e'.mq.mat c'.1.vec) = q := ⟨_, rfl⟩
  rw [hq, hq'] at hcall
  obtain ⟨hst, hρ, hσ, hδ⟩ := hcall
  simp only at hst hρ hσ hδ
  subst hst
  have u := Ell.updateCore_spec hM.isMat hX.isVec hG.isVec hn (CutType.call k c.2 e.helper) hq
  have u' := Ell.updateCore_spec hs.1.isMat hs.2.isVec hg.isVec hn (CutType.call k c'.2 e'.helper) hq'
  rcases u with ⟨a1, a2⟩ | ⟨a1, r, a2, a3, a4, a5, a6, a7, a8⟩
  · rcases u' with ⟨b1, b2⟩ | ⟨b1, _⟩
    · rw [a2, b2]
      refine ⟨⟨rfl, he.flag, he.mq, he.xc, he.kappa, he.helper, st⟩, ?_⟩
      intro q hq
      cases hq
      exact hs
    · exact absurd b1 a1
  · subst a1
    rcases u' with ⟨b1, _⟩ | ⟨_, r', b2, b3, b4, b5, b6, b7, b8⟩
    · exact absurd rfl b1
    · obtain ⟨d1, d2, d3, d4, d5, d6⟩ := k7 ρ' σ' δ' hq'
      have hro := hρ.div so d1
      have hso := hσ.div so d2
      have hkd := he.kappa.mul hδ d3
      have low : ∀ i < n, ∀ j ≤ i, Same (e.mq.mat i j - σ / Ell.om n e.mq.mat c.1.vec * Ell.gt n e.mq.mat c.1.vec i *
          Ell.gt n e.mq.mat c.1.vec j) (e'.mq.mat i j - σ' / Ell.om n e'.mq.mat c'.1.vec * Ell.gt n e'.mq.mat c'.1.vec i *
          Ell.gt n e'.mq.mat c'.1.vec j) := fun i hi j hj =>
        (sm i j hi (by omega)).sub ((hso.mul (sw i hi) (d5 i hi)).mul (sw j (by omega)) (d6 i hi j hj).1) (d6 i hi j hj).2.1
      rw [a2, b2]
      refine ⟨⟨rfl, ?_, ?_, ?_, ?_, ?_, ?_⟩, ?_⟩
      · show r.noDeferTrick = r'.noDeferTrick
        rw [a7, b7, he.flag]
      · refine IsMat.same a3 b3 fun i hi j hj => ?_
        rw [he.flag]
        unfold Ell.deferM newMq
        cases hd : e'.noDeferTrick
        · simp only [Bool.false_eq_true, if_false]
          split_ifs with h
          · exact low i hi j h
          · exact low j hj i (by omega)
        · simp only [if_true]
          split_ifs with h
          · exact (low i hi j h).mul hkd ((d6 i hi j h).2.2 hd)
          · exact (low j hj i (by omega)).mul hkd ((d6 j hj i (by omega)).2.2 hd)
      · exact IsVec.same a4 b4 fun i hi => (sx i hi).sub (hro.mul (sw i hi) (d4 i hi).1) (d4 i hi).2
      · show Same r.kappa r'.kappa
        rw [a5, b5, he.flag]
        split
        · exact Same.one
        · exact hkd
      · show r.helper.Same r'.helper
        rw [a6, b6]
        exact he.helper
      · show Same r.tsq r'.tsq
        rw [a8, b8]
        exact st
      · intro q hq
        cases hq
        exact ⟨b3.shape, b4.shape⟩

end update

end Ellalgo
