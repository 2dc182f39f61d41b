import Verif.Spec.Svm64
import Verif.Lib.Order64
import Verif.Props.Profit64
import Verif.Props.RoundedSvm

/-! # C129: the SVM oracle in IEEE `f64`, at every point -/

namespace Ellalgo
open Matrix
variable {m n : Nat}

/-- the search for the smallest margin in `f64`: what is found is the margin of a sample, no margin is below it, and if nothing is found no margin
is below `∞` -/
theorem svm_search64 {o : SvmOracle B64} (ho : o.Shaped m n) {x w : Arr B64} (hw : IsVec w n x.vec) :
    ∃ s : Option B64 × Nat, o.search w (x.vec n) = .ok s ∧
      (s.1 = none → ∀ j < m, Scalar.ltInf (o.marginOf n x j) = false) ∧
      ∀ v, s.1 = some v → s.2 < m ∧ v = o.marginOf n x s.2 ∧ v ≠ .nan ∧ ∀ j < m, Scalar.lt (o.marginOf n x j) v = false := by
  unfold SvmOracle.search
  rw [ho.data.1]
  refine forRange_post (P := fun i (s : Option B64 × Nat) =>
    (s.1 = none → ∀ j < i, Scalar.ltInf (o.marginOf n x j) = false) ∧
      ∀ v, s.1 = some v → s.2 < i ∧ v = o.marginOf n x s.2 ∧ v ≠ .nan ∧ ∀ j < i, Scalar.lt (o.marginOf n x j) v = false)
    (Nat.zero_le m) ⟨fun _ j hj => by omega, fun v h => by simp at h⟩ ?_ fun s h => h
  rintro i ⟨f, k⟩ - hi ⟨h1, h2⟩
  simp only at h1 h2
  obtain ⟨a, ha, hav⟩ := row_spec ho.data.isMat ho.pos hi
  have hlen : i < o.labels.length := by rw [ho.labels]; exact hi
  have hl : o.labels[i]? = some (o.labels.getD i 0) := by
    rw [List.getD_eq_getElem?_getD, List.getElem?_eq_getElem hlen]; rfl
  have e1 : w.dot a = .ok (sumTo n fun j => x.vec j * o.data.mat i j) := dot_spec hw hav
  have em : Scalar.ofInt (o.labels.getD i 0) * ((sumTo n fun j => x.vec j * o.data.mat i j) + x.vec n) = o.marginOf n x i := rfl
  simp only [hl, Res.ofOption, Res.ok_bind, ha, e1, em]
  cases f with
  | none =>
    simp only
    cases hc : Scalar.ltInf (o.marginOf n x i) with
    | true =>
      refine ⟨_, if_pos rfl, by simp, ?_⟩
      rintro v hv
      obtain rfl : o.marginOf n x i = v := by simpa using hv
      refine ⟨by simp, rfl, ((B64.ltInf_iff _).1 hc).1, fun j hj => ?_⟩
      by_contra hne
      obtain ⟨b1, b2, b3⟩ := (B64.lt_iff _ _).1 (by simpa using hne)
      rcases Nat.lt_succ_iff_lt_or_eq.1 hj with hj | rfl
      · have := h1 rfl j hj
        rw [(B64.ltInf_iff _).2 ⟨b1, b3.trans_le le_top⟩] at this
        cases this
      · exact lt_irrefl _ b3
    | false =>
      refine ⟨_, if_neg Bool.false_ne_true, fun _ j hj => ?_, fun v h => by simp at h⟩
      rcases Nat.lt_succ_iff_lt_or_eq.1 hj with hj | rfl
      · exact h1 rfl j hj
      · exact hc
  | some v =>
    obtain ⟨k1, k2, k3, k4⟩ := h2 v rfl
    simp only
    rcases Bool.eq_false_or_eq_true (Scalar.lt (o.marginOf n x i) v) with hc | hc
    · refine ⟨_, if_pos hc, by simp, ?_⟩
      rintro v' hv
      obtain rfl : o.marginOf n x i = v' := by simpa using hv
      obtain ⟨c1, c2, c3⟩ := (B64.lt_iff _ _).1 hc
      refine ⟨by simp, rfl, c1, fun j hj => ?_⟩
      by_contra hne
      obtain ⟨b1, b2, b3⟩ := (B64.lt_iff _ _).1 (by simpa using hne)
      rcases Nat.lt_succ_iff_lt_or_eq.1 hj with hj | rfl
      · have := k4 j hj
        rw [(B64.lt_iff _ _).2 ⟨b1, c2, b3.trans c3⟩] at this
        cases this
      · exact lt_irrefl _ b3
    · refine ⟨_, if_neg (by rw [hc]; exact Bool.false_ne_true), by simp, ?_⟩
      rintro v' hv
      obtain rfl : v = v' := by simpa using hv
      refine ⟨by simp only; omega, k2, k3, fun j hj => ?_⟩
      rcases Nat.lt_succ_iff_lt_or_eq.1 hj with hj | rfl
      · exact k4 j hj
      · exact hc

/-- **C129** (queries)  A query of `SvmOracle` in IEEE-754 `f64`, at any classifier `x = (w, b)`, infinities and NaN included, whatever overflows or
underflows: it never panics, always reports an improvement and leaves the oracle unchanged.  The answer is one of two.
* Stop: value 0 and a zero cut; then no computed margin compares below 1.
* Cut: the value is the computed margin of a sample `i`, it is below 1, and no computed margin compares below it; the gradient is `-y_i x_i` and
  `-y_i`. -/
theorem C129_svm_query (o : SvmOracle B64) (ho : o.Shaped m n) (x : Arr B64) (hx : x.IsVecShape (n + 1)) (γ : B64) :
    ∃ g beta γ', SvmOracle.oracle.assess o x γ = .ok (((g, ⟨beta⟩), true), γ', o) ∧ g.IsVecShape (n + 1) ∧ o.Verdict m n x γ' ∧ beta = γ' ∧
      ((γ' = 0 ∧ g = Arr.new (n + 1)) ∨
        ∃ i < m, γ' = o.marginOf n x i ∧ (∀ j < n, g.vec j = -Scalar.ofInt (o.labels.getD i 0) * o.data.mat i j) ∧
          g.vec n = -Scalar.ofInt (o.labels.getD i 0)) := by
  have hmap : (List.range n).mapM (fun i => x.idx i) = .ok ((List.range n).map fun i => x.vec i) :=
    mapM_range_ok n fun i hi => hx.isVec.idx (by omega)
  have hw : IsVec (⟨(List.range n).map fun i => x.vec i, n, 0⟩ : Arr B64) n x.vec := ⟨rfl, rfl, by simp, fun i hi => by simp [hi]⟩
  have hb : x.idx n = .ok (x.vec n) := hx.isVec.idx (by omega)
  obtain ⟨⟨f, k⟩, hs, h1, h2⟩ := svm_search64 ho hw
  simp only at h1 h2
  have one : (1 : B64) ≠ .nan ∧ (1 : B64).place = ((1 : ℝ) : EReal) := by
    have := B64.place_finite Same.one.1
    rw [Same.one.2] at this
    exact this
  have hnew : (Arr.new (n + 1) : Arr B64).IsVecShape (n + 1) := (isVec_new (n + 1)).shape
  show ∃ g beta γ', o.assess x γ = _ ∧ _
  unfold SvmOracle.assess
  simp only [ho.nfeat, hmap, hb, hs, Res.ok_bind]
  cases f with
  | none =>
    refine ⟨_, _, _, rfl, hnew, .inl ⟨rfl, fun j hj => ?_⟩, rfl, .inl ⟨rfl, rfl⟩⟩
    by_contra hne
    obtain ⟨b1, b2, b3⟩ := (B64.lt_iff _ _).1 (by simpa using hne)
    have := h1 rfl j hj
    rw [(B64.ltInf_iff _).2 ⟨b1, b3.trans_le le_top⟩] at this
    cases this
  | some v =>
    obtain ⟨k1, k2, k3, k4⟩ := h2 v rfl
    simp only
    cases hc : Scalar.ge v 1 with
    | true =>
      refine ⟨_, _, _, if_pos rfl, hnew, .inl ⟨rfl, fun j hj => ?_⟩, rfl, .inl ⟨rfl, rfl⟩⟩
      obtain ⟨-, c2, c3⟩ := (B64.le_iff 1 v).1 hc
      by_contra hne
      obtain ⟨b1, b2, b3⟩ := (B64.lt_iff _ _).1 (by simpa using hne)
      have := k4 j hj
      rw [(B64.lt_iff _ _).2 ⟨b1, c2, b3.trans_le c3⟩] at this
      cases this
    | false =>
      obtain ⟨a, ha, hav⟩ := row_spec ho.data.isMat ho.pos k1
      have hlen : k < o.labels.length := by rw [ho.labels]; exact k1
      have hl : o.labels[k]? = some (o.labels.getD k 0) := by
        rw [List.getD_eq_getElem?_getD, List.getElem?_eq_getElem hlen]; rfl
      have hlen2 : a.data.length = n := hav.shape.2.2
      have hlt : Scalar.lt v 1 = true := by
        refine (B64.lt_iff _ _).2 ⟨k3, one.1, ?_⟩
        by_contra hge
        have : Scalar.ge v 1 = true := (B64.le_iff 1 v).2 ⟨one.1, k3, not_lt.1 hge⟩
        rw [hc] at this
        cases this
      simp only [hl, Res.ofOption, Res.ok_bind, ha]
      refine ⟨_, _, _, if_neg Bool.false_ne_true, ⟨by simp [Arr.ofList, hlen2], rfl, by simp [Arr.ofList, hlen2]⟩,
        .inr ⟨hlt, ⟨k, k1, k2⟩, k4⟩, rfl, .inr ⟨k, k1, k2, fun j hj => ?_, ?_⟩⟩
      · show (a.data.map (fun x => -Scalar.ofInt (o.labels.getD k 0) * x) ++ [-Scalar.ofInt (o.labels.getD k 0)] : List B64).getD j 0 = _
        have hja : a.data.getD j 0 = o.data.mat k j := hav.vec hj
        have hj' : j < a.data.length := by omega
        have hjb : a.data.getD j 0 = a.data[j] := by rw [List.getD_eq_getElem?_getD, List.getElem?_eq_getElem hj']; rfl
        rw [← hja, hjb]
        generalize o.labels.getD k 0 = t
        rw [List.getD_eq_getElem?_getD, List.getElem?_append_left (by simpa using hj'), List.getElem?_map, List.getElem?_eq_getElem hj']
        rfl
      · show (a.data.map (fun x => -Scalar.ofInt (o.labels.getD k 0) * x) ++ [-Scalar.ofInt (o.labels.getD k 0)] : List B64).getD n 0 = _
        rw [List.getD_eq_getElem?_getD, List.getElem?_append_right (by simp [hlen2])]
        simp [hlen2]

/-! ### the value of the computed margins -/

/-- products with integers do not underflow -/
theorem rnd64_int_mul {x : ℝ} (hx : rnd64 x = x) (z : ℤ) : rnd64 (z * x) = rnd53 (z * x) := by
  rcases lt_or_ge |z * x| ((2 : ℝ) ^ (-1022 : ℤ)) with h | h
  · obtain ⟨j, hj⟩ := rnd64_grid x
    rw [hx] at hj
    have e : z * x = ((z * j : ℤ) : ℝ) * (2 : ℝ) ^ (-1074 : ℤ) := by rw [hj]; push_cast; ring
    have hp : (0 : ℝ) < (2 : ℝ) ^ (-1074 : ℤ) := by positivity
    have e2 : (2 : ℝ) ^ (-1022 : ℤ) = ((2 ^ 52 : ℤ) : ℝ) * (2 : ℝ) ^ (-1074 : ℤ) := by
      rw [show (-1022 : ℤ) = 52 + -1074 by norm_num, zpow_add₀ (by norm_num)]
      norm_num
    have hb : |z * j| ≤ 2 ^ 53 := by
      rw [e, abs_mul, abs_of_pos hp, e2] at h
      have h2 := lt_of_mul_lt_mul_right h hp.le
      have h3 : |z * j| < (2 ^ 52 : ℤ) := by exact_mod_cast h2
      exact h3.le.trans (by norm_num)
    rw [e, rnd64_rep _ _ hb le_rfl, rnd53_rep _ _ hb]
  · exact rnd64_normal h

theorem Same.sum_stay {f : Nat → B64} {f' : Nat → Fl bin53} (k : Nat) (h : ∀ i < k, Same (f i) (f' i)) (hs : ∀ i < k, (f i).Small 900) :
    Same (Ellalgo.sumTo k f) (Ellalgo.sumTo k f') ∧ (Ellalgo.sumTo k f).Small 954 := by
  induction k with
  | zero => exact ⟨.zero, B64.zero_small _ _⟩
  | succ k ih =>
    obtain ⟨i1, i2⟩ := ih (fun i hi => h i (by omega)) (fun i hi => hs i (by omega))
    have hst := B64.Small.stay (t := 900) (by norm_num) (by norm_num) i2 (hs k (by omega))
    refine ⟨i1.add (h k (by omega)) ?_, hst⟩
    have h3 := rnd64_stay (t := 900) (by norm_num) i2.2 (hs k (by omega)).2
    rw [rnd64_add (B64.rep_val i2.1) (B64.rep_val (hs k (by omega)).1), i1.2, (h k (by omega)).2] at h3
    exact B64.pow_lt_max (by norm_num) h3

theorem Arr.toFl_mat {a : Arr B64} (i j : Nat) : (a.toFl).mat i j = ⟨(a.mat i j).val⟩ := by
  show (a.data.map fun v => (⟨v.val⟩ : Fl bin53)).getD (i * a.cols + j) 0 = ⟨(a.data.getD (i * a.cols + j) 0).val⟩
  exact Arr.toFl_vec (a := a) (i * a.cols + j)

theorem SvmOracle.For64.shaped {o : SvmOracle B64} {y : Fin m → ℤ} (ho : o.For64 m n y) : o.Shaped m n :=
  ⟨ho.pos, ho.data, by rw [ho.labels]; simp, ho.nfeat⟩

theorem SvmOracle.For64.toFl {o : SvmOracle B64} {y : Fin m → ℤ} (ho : o.For64 m n y) :
    (⟨o.data.toFl, o.labels, o.nfeat⟩ : SvmOracle (Fl bin53)).FlFor m n y := by
  refine ⟨ho.pos, ⟨ho.data.1, ho.data.2.1, ?_⟩, ho.labels, ho.nfeat, fun i => ?_⟩
  · show (o.data.data.map _).length = _
    rw [List.length_map]; exact ho.data.2.2
  · show rnd53 ((y i : ℤ) : ℝ) = _
    have := rnd53_rep (y i) 0 ((ho.i32 i).trans (by norm_num))
    simpa using this

/-- **C129** (margins)  At a classifier of finite numbers and of ordinary size the computed margins are finite and are the true ones up to `svmErr`,
for `u = 2⁻⁵³`, whatever the number of features. -/
theorem C129_svm_margin {o : SvmOracle B64} {y : Fin m → ℤ} (ho : o.For64 m n y) {x : Arr B64} (hf : x.AllFinite)
    (ht : SvmTameAt (o.data.rect64 m n) (x.vec64 (n + 1))) (i : Fin m) :
    (o.marginOf n x i).Finite ∧ |(o.marginOf n x i).val - svmMargin (o.data.rect64 m n) y (x.vec64 (n + 1)) i| ≤
      svmErr ((2 : ℝ) ^ (-53 : ℤ)) (o.data.rect64 m n) y (x.vec64 (n + 1)) i := by
  have sx : ∀ j : Nat, Same (x.vec j) (x.toFl.vec j) := fun j => ⟨allFinite_vec hf j, by rw [Arr.toFl_vec]⟩
  have sd : ∀ j : Nat, Same (o.data.mat i j) (o.data.toFl.mat i j) := fun j =>
    ⟨allFinite_vec ho.finite _, by rw [Arr.toFl_mat]⟩
  have hlab : o.labels.getD i 0 = y i := by
    rw [ho.labels, List.getD_eq_getElem?_getD, List.getElem?_ofFn]
    simp
  have prod : ∀ j < n, Same (x.vec j * o.data.mat i j) (x.toFl.vec j * o.data.toFl.mat i j) ∧ (x.vec j * o.data.mat i j).Small 900 := by
    intro j hj
    have e : (x.vec j).val * (o.data.mat i j).val = o.data.rect64 m n i ⟨j, hj⟩ * x.vec64 (n + 1) (Fin.castSucc ⟨j, hj⟩) := mul_comm _ _
    have ho' : |rnd53 ((x.vec j).val * (o.data.mat i j).val)| ≤ (2 : ℝ) ^ (900 : ℤ) := by
      rw [e]; exact rnd53_abs_pow (ht.over i ⟨j, hj⟩)
    have s : Same (x.vec j * o.data.mat i j) (x.toFl.vec j * o.data.toFl.mat i j) := (sx j).mul (sd j) (by
      refine ⟨?_, ?_⟩
      · rw [← (sx j).2, ← (sd j).2, e]; exact ht.under i ⟨j, hj⟩
      · rw [← (sx j).2, ← (sd j).2]; exact B64.pow_lt_max (by norm_num) ho')
    refine ⟨s, s.1, ?_⟩
    rw [s.2]
    show |rnd53 ((x.toFl.vec j).val * (o.data.toFl.mat i j).val)| ≤ _
    rw [← (sx j).2, ← (sd j).2]
    exact ho'
  obtain ⟨s1, s2⟩ := Same.sum_stay n (fun j hj => (prod j hj).1) (fun j hj => (prod j hj).2)
  have hbs : (x.vec n).Small 900 := ⟨allFinite_vec hf n, ht.bias⟩
  have s3 : Same ((sumTo n fun j => x.vec j * o.data.mat i j) + x.vec n) ((sumTo n fun j => x.toFl.vec j * o.data.toFl.mat i j) + x.toFl.vec n) ∧
      ((sumTo n fun j => x.vec j * o.data.mat i j) + x.vec n).Small 954 := by
    have hst := B64.Small.stay (t := 900) (by norm_num) (by norm_num) s2 hbs
    refine ⟨s1.add (sx n) ?_, hst⟩
    have h3 := rnd64_stay (t := 900) (by norm_num) s2.2 hbs.2
    rw [rnd64_add (B64.rep_val s2.1) (B64.rep_val hbs.1), s1.2, (sx n).2] at h3
    exact B64.pow_lt_max (by norm_num) h3
  have s4 := Same.ofInt (ho.i32 i)
  have hy : (Scalar.ofInt (y i) : Fl bin53).val = (y i : ℝ) := ho.toFl.exact i
  have hys : (Scalar.ofInt (y i) : B64).Small 31 := ⟨s4.1, by
    rw [s4.2, hy, ← Int.cast_abs]
    have : ((|y i| : ℤ) : ℝ) ≤ ((2 ^ 31 : ℤ) : ℝ) := by exact_mod_cast ho.i32 i
    exact this.trans (le_of_eq (by norm_num))⟩
  have hm := B64.Small.mul (k := 985) (by norm_num) (by norm_num) (by norm_num) hys s3.2
  have s5 : Same (o.marginOf n x i) (svmComputed (⟨o.data.toFl, o.labels, o.nfeat⟩ : SvmOracle (Fl bin53)) y n x.toFl.vec (x.toFl.vec n) i) := by
    unfold SvmOracle.marginOf svmComputed
    rw [hlab]
    refine ⟨hm.1, ?_⟩
    have e1 := hm
    rw [B64.finite_mul hys.1 s3.2.1] at e1 ⊢
    have hr : rnd64 ((Scalar.ofInt (y i) : B64).val * ((sumTo n fun j => x.vec j * o.data.mat i j) + x.vec n).val) =
        rnd53 ((Scalar.ofInt (y i) : B64).val * ((sumTo n fun j => x.vec j * o.data.mat i j) + x.vec n).val) := by
      rw [s4.2, hy]; exact rnd64_int_mul (B64.rep_val s3.2.1) _
    have hle : |rnd64 ((Scalar.ofInt (y i) : B64).val * ((sumTo n fun j => x.vec j * o.data.mat i j) + x.vec n).val)| ≤ (2 : ℝ) ^ (985 : ℤ) := by
      refine rnd64_abs_le (by norm_num) ?_
      rw [abs_mul, show (985 : ℤ) = 31 + 954 by norm_num, zpow_add₀ (by norm_num)]
      exact mul_le_mul hys.2 s3.2.2 (abs_nonneg _) (by positivity)
    rw [(B64.ofReal_val (B64.pow_lt_max (by norm_num) hle)).2, hr, s4.2, s3.1.2]
    rfl
  refine ⟨s5.1, ?_⟩
  have h2 := svm_computed_err ho.toFl x.toFl i
  have e1 : (o.data.toFl).flRect m n = o.data.rect64 m n := by
    ext a b
    show (o.data.toFl.mat a b).val = _
    rw [Arr.toFl_mat]; rfl
  have e2 : x.toFl.flVec (n + 1) = x.vec64 (n + 1) := by
    funext a
    show (x.toFl.vec a).val = _
    rw [Arr.toFl_vec]; rfl
  simp only [e1, e2] at h2
  rw [s5.2]
  exact h2

/-- what the verdict of a run means for the true margins -/
theorem svm_verdict_real {o : SvmOracle B64} {y : Fin m → ℤ} (ho : o.For64 m n y) {x : Arr B64} (hf : x.AllFinite)
    (ht : SvmTameAt (o.data.rect64 m n) (x.vec64 (n + 1))) {v : B64} (hv : o.Verdict m n x v) :
    v.Finite ∧
      ((v.val = 0 ∧ ∀ i, 1 - svmErr ((2 : ℝ) ^ (-53 : ℤ)) (o.data.rect64 m n) y (x.vec64 (n + 1)) i ≤
            svmMargin (o.data.rect64 m n) y (x.vec64 (n + 1)) i) ∨
         (v.val < 1 ∧ (∀ j, v.val - svmErr ((2 : ℝ) ^ (-53 : ℤ)) (o.data.rect64 m n) y (x.vec64 (n + 1)) j ≤
            svmMargin (o.data.rect64 m n) y (x.vec64 (n + 1)) j) ∧
          ∃ i, |v.val - svmMargin (o.data.rect64 m n) y (x.vec64 (n + 1)) i| ≤
            svmErr ((2 : ℝ) ^ (-53 : ℤ)) (o.data.rect64 m n) y (x.vec64 (n + 1)) i)) := by
  have hge : ∀ a b : B64, a.Finite → b.Finite → Scalar.lt a b = false → b.val ≤ a.val := by
    intro a b ha hb h
    by_contra hc
    have p1 := B64.place_finite ha
    have p2 := B64.place_finite hb
    rw [(B64.lt_iff a b).2 ⟨p1.1, p2.1, by rw [p1.2, p2.2]; exact_mod_cast not_le.1 hc⟩] at h
    cases h
  rcases hv with ⟨rfl, h⟩ | ⟨h1, ⟨i, hi, rfl⟩, h3⟩
  · refine ⟨Same.zero.1, .inl ⟨Same.zero.2, fun i => ?_⟩⟩
    obtain ⟨a1, a2⟩ := C129_svm_margin ho hf ht i
    have := hge _ _ a1 Same.one.1 (h i i.2)
    have h1 : (1 : B64).val = 1 := Same.one.2
    rw [h1] at this
    have := (abs_le.1 a2).2
    linarith
  · obtain ⟨a1, a2⟩ := C129_svm_margin ho hf ht ⟨i, hi⟩
    refine ⟨a1, .inr ⟨?_, fun j => ?_, ⟨i, hi⟩, a2⟩⟩
    · obtain ⟨-, -, p⟩ := (B64.lt_iff _ _).1 h1
      rw [(B64.place_finite a1).2, (B64.place_finite Same.one.1).2] at p
      have h1 : (1 : B64).val = 1 := Same.one.2
      rw [h1] at p
      exact_mod_cast p
    · obtain ⟨b1, b2⟩ := C129_svm_margin ho hf ht j
      have := hge _ _ b1 a1 (h3 j j.2)
      have := (abs_le.1 b2).2
      linarith

/-- **C129** (runs)  `cutting_plane_optim` in IEEE-754 `f64` with an SVM oracle for `m` samples with `n` features and labels `y`, over any search
space that keeps its dimension, `Ell` and `EllStable` among them, whatever overflows, underflows or turns into a NaN in it on the way: the run ends
without a panic, leaves the oracle unchanged, and without a classifier `γ` is unchanged.  The computed margins of a returned classifier are as the
reported value says (`Verdict`).  If the classifier is of finite numbers and of ordinary size, the value is finite; either it is 0 and all true
margins are at least 1 up to `svmErr`, or it is below 1 and is the smallest true margin up to `svmErr`, for `u = 2⁻⁵³`. -/
theorem C129_svm_run {S : Type} {sp : Space S (Arr B64) (SingleCut B64) B64} {Q : S → Prop} (hsp : sp.Steady (n + 1) Q)
    {y : Fin m → ℤ} (o : SvmOracle B64) (ho : o.For64 m n y) {s : S} (hs : Q s) (γ : B64) (opts : Options B64) :
    ∃ r k γ' s', cuttingPlaneOptim SvmOracle.oracle sp o s γ opts = .ok ((r, k), γ', o, s') ∧ (r = none → γ' = γ) ∧
      ∀ x, r = some x → x.IsVecShape (n + 1) ∧ o.Verdict m n x γ' ∧
        (x.AllFinite → SvmTameAt (o.data.rect64 m n) (x.vec64 (n + 1)) → γ'.Finite ∧
          ((γ'.val = 0 ∧ ∀ i, 1 - svmErr ((2 : ℝ) ^ (-53 : ℤ)) (o.data.rect64 m n) y (x.vec64 (n + 1)) i ≤
                svmMargin (o.data.rect64 m n) y (x.vec64 (n + 1)) i) ∨
             (γ'.val < 1 ∧ (∀ j, γ'.val - svmErr ((2 : ℝ) ^ (-53 : ℤ)) (o.data.rect64 m n) y (x.vec64 (n + 1)) j ≤
                svmMargin (o.data.rect64 m n) y (x.vec64 (n + 1)) j) ∧
              ∃ i, |γ'.val - svmMargin (o.data.rect64 m n) y (x.vec64 (n + 1)) i| ≤
                svmErr ((2 : ℝ) ^ (-53 : ℤ)) (o.data.rect64 m n) y (x.vec64 (n + 1)) i))) := by
  obtain ⟨r, k, γ', w', s', h1, h2, h3, h4⟩ := optim_accepted hsp (I := fun w _ => w = o)
    (orc := SvmOracle.oracle) (w := o) (s := s) (g := γ) (by
      rintro w x g rfl hx
      obtain ⟨gr, beta, g', hq, hsh, -⟩ := C129_svm_query w ho.shaped x hx g
      exact ⟨(gr, ⟨beta⟩), true, g', w, hq, rfl, by simp, hsh⟩) opts rfl hs
  subst h2
  refine ⟨r, k, γ', s', h1, h3, ?_⟩
  intro x hx
  obtain ⟨hxs, w1, g1, c, w2, rfl, hq⟩ := h4 x hx
  obtain ⟨gr, beta, g', hq', -, hv, -⟩ := C129_svm_query w1 ho.shaped x hxs g1
  rw [hq] at hq'
  simp only [Res.ok.injEq, Prod.mk.injEq] at hq'
  obtain ⟨-, rfl, -⟩ := hq'
  exact ⟨hxs, hv, fun hf ht => svm_verdict_real ho hf ht hv⟩

end Ellalgo
