import Verif.Model.Svm
import Verif.Spec.Svm
import Verif.Lib.VecOps
import Verif.Lib.ArrLemmas

/-! C50: the SVM oracle. -/

namespace Ellalgo
open Matrix

variable {m n : Nat}

/-- the oracle holds the samples `X` (one per row, at least one feature) and labels `y` -/
structure SvmOracle.For (o : SvmOracle ℝ) (X : Matrix (Fin m) (Fin n) ℝ) (y : Fin m → ℤ) : Prop where
  pos : 0 < n
  data : RM o.data X
  labels : o.labels = List.ofFn y
  nfeat : o.nfeat = n

/-- `SvmOracle::new` on an `m × n` matrix with `m` labels -/
theorem svm_new {X : Matrix (Fin m) (Fin n) ℝ} {y : Fin m → ℤ} {a : Arr ℝ} (hn : 0 < n) (ha : RM a X) :
    (SvmOracle.new a (List.ofFn y)).For X y := ⟨hn, ha, rfl, ha.1.2.1⟩

theorem RM.row {r c : Nat} {a : Arr ℝ} {A : Matrix (Fin r) (Fin c) ℝ} (hA : RM a A) (hc : 0 < c) (i : Fin r) :
    ∃ z, a.row i = .ok z ∧ RV z (A i) := by
  obtain ⟨z, h1, h2⟩ := row_spec hA.isMat hc i.2
  exact ⟨z, h1, RV.of_isVec h2 fun j => by simp⟩

theorem svm_label {o : SvmOracle ℝ} {X : Matrix (Fin m) (Fin n) ℝ} {y : Fin m → ℤ} (ho : o.For X y) (i : Fin m) :
    o.labels[(i : Nat)]? = some (y i) := by
  rw [ho.labels]; simp

theorem margin_sub {X : Matrix (Fin m) (Fin n) ℝ} {y : Fin m → ℤ} (z x : Fin (n + 1) → ℝ) (i : Fin m) :
    svmMargin X y (z - x) i = svmMargin X y z i - svmMargin X y x i := by
  simp only [svmMargin, Pi.sub_apply, mul_sub, Finset.sum_sub_distrib]
  ring

/-- the search loop finds a sample of least margin -/
theorem svm_search {o : SvmOracle ℝ} {X : Matrix (Fin m) (Fin n) ℝ} {y : Fin m → ℤ} (ho : o.For X y)
    (z : Fin (n + 1) → ℝ) {w : Arr ℝ} (hw : RV w fun j : Fin n => z j.castSucc) :
    ∃ r k, o.search w (z (Fin.last n)) = .ok (r, k) ∧ (r = none → m = 0) ∧
      (∀ μ, r = some μ → ∃ i : Fin m, k = i ∧ svmMargin X y z i = μ ∧ ∀ j, μ ≤ svmMargin X y z j) := by
  have hrows : o.data.rows = m := ho.data.1.1
  obtain ⟨⟨r, k⟩, h1, h2, h3⟩ := forRange_spec (σ := Option ℝ × Nat)
    (fun i s => (s.1 = none → i = 0) ∧
      (∀ μ, s.1 = some μ → ∃ q : Fin m, s.2 = q ∧ (q : Nat) < i ∧ svmMargin X y z q = μ ∧
        ∀ j : Fin m, (j : Nat) < i → μ ≤ svmMargin X y z j))
    (f := fun i (s : Option ℝ × Nat) => do
      let yy ← Res.ofOption o.labels[i]?
      let xi ← o.data.row i
      let d ← w.dot xi
      let margin := Scalar.ofInt yy * (d + z (Fin.last n))
      let smaller := match s.1 with
        | none => Scalar.ltInf margin
        | some m => Scalar.lt margin m
      if smaller then .ok (some margin, i) else .ok (s.1, s.2))
    (s := (none, 0)) (lo := 0) (hi := m) (Nat.zero_le m) ⟨fun _ => rfl, by simp⟩ (by
      rintro i ⟨μ0, k0⟩ _ hi ⟨hP1, hP2⟩
      obtain ⟨xi, hx1, hx2⟩ := RM.row ho.data ho.pos ⟨i, hi⟩
      have hx1' : o.data.row i = .ok xi := hx1
      have hl : o.labels[i]? = some (y ⟨i, hi⟩) := svm_label ho ⟨i, hi⟩
      have hd := RV.dot hw hx2
      have hmar : Scalar.ofInt (y ⟨i, hi⟩) * ((fun j : Fin n => z j.castSucc) ⬝ᵥ X ⟨i, hi⟩ + z (Fin.last n)) =
          svmMargin X y z ⟨i, hi⟩ := by
        rw [svmMargin, Scalar.real_ofInt, dotProduct]
        congr 2
        exact Finset.sum_congr rfl fun j _ => mul_comm _ _
      simp only [hl, Res.ofOption, Res.ok_bind, hx1', hd, hmar]
      cases μ0 with
      | none =>
        have h0 : i = 0 := hP1 rfl
        refine ⟨(some (svmMargin X y z ⟨i, hi⟩), i), by simp, by simp, ?_⟩
        intro μ hμ
        obtain rfl : _ = μ := by simpa using hμ
        refine ⟨⟨i, hi⟩, rfl, Nat.lt_succ_self i, rfl, fun j hj => ?_⟩
        have : j = ⟨i, hi⟩ := Fin.ext (by simp only; omega)
        rw [this]
      | some μ0 =>
        obtain ⟨q, hq1, hq2, hq3, hq4⟩ := hP2 μ0 rfl
        simp only [Scalar.real_lt, decide_eq_true_eq]
        split
        · rename_i hlt
          refine ⟨_, rfl, by simp, ?_⟩
          intro μ hμ
          obtain rfl : _ = μ := by simpa using hμ
          refine ⟨⟨i, hi⟩, rfl, Nat.lt_succ_self i, rfl, fun j hj => ?_⟩
          by_cases hji : (j : Nat) < i
          · exact hlt.le.trans (hq4 j hji)
          · have : j = ⟨i, hi⟩ := Fin.ext (by simp only; omega)
            rw [this]
        · rename_i hlt
          refine ⟨_, rfl, by simp, ?_⟩
          intro μ hμ
          obtain rfl : μ0 = μ := by simpa using hμ
          refine ⟨q, hq1, by omega, hq3, fun j hj => ?_⟩
          by_cases hji : (j : Nat) < i
          · exact hq4 j hji
          · have : j = ⟨i, hi⟩ := Fin.ext (by simp only; omega)
            rw [this]
            exact not_lt.1 hlt)
  refine ⟨r, k, ?_, h2, ?_⟩
  · rw [SvmOracle.search, hrows, ← h1]
    congr 1
    funext i s
    rcases s with ⟨a, b⟩
    cases a <;> rfl
  · intro μ hμ
    obtain ⟨q, a, b, c, e⟩ := h3 μ hμ
    exact ⟨q, a, c, fun j => e j j.2⟩

/-- **C50** One query of `SvmOracle` at the classifier `x = (w, b)`: it never panics, always reports improvement and
leaves the oracle unchanged.
* If all margins at `x` are at least 1: `γ' = 0`, zero gradient, `beta = 0`.
* Otherwise `γ' = beta` is the smallest margin (`< 1`), the gradient is minus the gradient of that sample's margin, and
  the central cut keeps every separating classifier, strictly. -/
theorem C50_svm {X : Matrix (Fin m) (Fin n) ℝ} {y : Fin m → ℤ} (o : SvmOracle ℝ) (ho : o.For X y) (xc : Arr ℝ)
    (hx : xc.IsVecShape (n + 1)) (γ : ℝ) :
    ∃ g beta γ', SvmOracle.oracle.assess o xc γ = .ok (((g, ⟨beta⟩), true), γ', o) ∧ g.IsVecShape (n + 1) ∧
      (xc.toVec (n + 1) ∈ svmSep X y → γ' = 0 ∧ beta = 0 ∧ g.toVec (n + 1) = 0) ∧
      (xc.toVec (n + 1) ∉ svmSep X y → ∃ i, γ' = svmMargin X y (xc.toVec (n + 1)) i ∧
        (∀ j, γ' ≤ svmMargin X y (xc.toVec (n + 1)) j) ∧ γ' < 1 ∧ beta = γ' ∧
        (∀ z, g.toVec (n + 1) ⬝ᵥ z = -svmMargin X y z i) ∧
        ∀ z ∈ svmSep X y, g.toVec (n + 1) ⬝ᵥ (z - xc.toVec (n + 1)) < 0) := by
  set z := xc.toVec (n + 1) with hz
  have hxv : RV xc z := ⟨hx, rfl⟩
  have hmap : (List.range n).mapM (fun i => xc.idx i) = .ok ((List.range n).map fun i => ext0 z i) := by
    refine mapM_range_ok n fun i hi => ?_
    exact hxv.isVec.idx (by omega)
  have hw : RV (⟨(List.range n).map fun i => ext0 z i, n, 0⟩ : Arr ℝ) fun j : Fin n => z j.castSucc := by
    refine RV.of_isVec (f := fun i => ext0 z i) ⟨rfl, rfl, by simp, fun i hi => by simp [hi]⟩ fun j => ?_
    exact ext0_fin z j.castSucc
  have hb : xc.idx n = .ok (z (Fin.last n)) := RV.idx hxv (Fin.last n)
  obtain ⟨r, k, hs, hr0, hr1⟩ := svm_search ho z hw
  have hzero : RV (Arr.new (n + 1) : Arr ℝ) (0 : Fin (n + 1) → ℝ) := rv_new
  have hass : SvmOracle.oracle.assess o xc γ = (match r with
      | none => .ok (((Arr.new (n + 1), ⟨0⟩), true), 0, o)
      | some m =>
        if Scalar.ge m 1 then .ok (((Arr.new (n + 1), ⟨0⟩), true), 0, o)
        else do
          let y ← Res.ofOption o.labels[k]?
          let xi ← o.data.row k
          let yi : ℝ := Scalar.ofInt y
          let grad := Arr.ofList (xi.data.map (fun x => -yi * x) ++ [-yi])
          .ok (((grad, ⟨m⟩), true), m, o)) := by
    simp only [SvmOracle.oracle, SvmOracle.assess, ho.nfeat, hmap, Res.ok_bind, hb, hs]
    cases r <;> rfl
  cases r with
  | none =>
    have hm : m = 0 := hr0 rfl
    subst hm
    refine ⟨_, _, _, hass, hzero.1, fun _ => ⟨rfl, rfl, hzero.2⟩, fun h => absurd (fun i => i.elim0) h⟩
  | some μ =>
    obtain ⟨i, rfl, hi1, hi2⟩ := hr1 μ rfl
    by_cases h1 : 1 ≤ μ
    · simp only [Scalar.real_ge, decide_eq_true_eq, if_pos h1] at hass
      exact ⟨_, _, _, hass, hzero.1, fun _ => ⟨rfl, rfl, hzero.2⟩, fun h => absurd (fun j => h1.trans (hi2 j)) h⟩
    · obtain ⟨xi, hx1, hx2⟩ := RM.row ho.data ho.pos i
      simp only [Scalar.real_ge, decide_eq_true_eq, if_neg h1, svm_label ho i, Res.ofOption, Res.ok_bind, hx1,
        Scalar.real_ofInt] at hass
      have hg : RV (Arr.ofList (xi.data.map (fun x => -(y i : ℝ) * x) ++ [-(y i : ℝ)]))
          (Fin.snoc (fun j : Fin n => -(y i : ℝ) * X i j) (-(y i : ℝ)) : Fin (n + 1) → ℝ) := by
        have hlen : xi.data.length = n := hx2.isVec.len
        refine RV.of_isVec (f := ext0 (Fin.snoc (fun j : Fin n => -(y i : ℝ) * X i j) (-(y i : ℝ)) : Fin (n + 1) → ℝ))
          ⟨by simp [Arr.ofList, hlen], rfl, by simp [Arr.ofList, hlen], ?_⟩ fun j => by simp
        intro j hj
        show (xi.data.map (fun x => -(y i : ℝ) * x) ++ [-(y i : ℝ)])[j]? = _
        by_cases hjn : j < n
        · rw [List.getElem?_append_left (by simp [hlen, hjn]), List.getElem?_map, hx2.isVec.get j hjn]
          simp [ext0, hjn, hj, Fin.snoc]
        · have : j = n := by omega
          subst this
          rw [List.getElem?_append_right (by simp [hlen])]
          simp [hlen, ext0, Fin.snoc]
      have hdot : ∀ v : Fin (n + 1) → ℝ, (Fin.snoc (fun j : Fin n => -(y i : ℝ) * X i j) (-(y i : ℝ)) : Fin (n + 1) → ℝ) ⬝ᵥ v
          = -svmMargin X y v i := by
        intro v
        rw [dotProduct, Fin.sum_univ_castSucc, svmMargin]
        simp only [Fin.snoc_castSucc, Fin.snoc_last]
        rw [mul_add, Finset.mul_sum, neg_add, ← Finset.sum_neg_distrib]
        congr 1
        · exact Finset.sum_congr rfl fun j _ => by ring
        · ring
      refine ⟨_, _, _, hass, hg.1, fun h => absurd (hi1 ▸ h i) h1, fun _ => ⟨i, hi1.symm, hi2, not_le.1 h1, rfl, ?_, ?_⟩⟩
      · intro v; rw [hg.2]; exact hdot v
      · intro v hv
        rw [hg.2, hdot, margin_sub, hi1]
        have := hv i
        linarith [not_le.1 h1]

/-- **C50** (construction)  `SvmOracle::new` on an `m × n` sample matrix and `m` labels: the first query is answered for that
data, and a separating point gets the value 0. -/
theorem C50_svm_new {X : Matrix (Fin m) (Fin n) ℝ} {y : Fin m → ℤ} {a : Arr ℝ} (hn : 0 < n) (ha : RM a X) (xc : Arr ℝ)
    (hx : xc.IsVecShape (n + 1)) (γ : ℝ) :
    ∃ g beta γ', SvmOracle.oracle.assess (SvmOracle.new a (List.ofFn y)) xc γ =
        .ok (((g, ⟨beta⟩), true), γ', SvmOracle.new a (List.ofFn y)) ∧
      (xc.toVec (n + 1) ∈ svmSep X y → γ' = 0) ∧
      (xc.toVec (n + 1) ∉ svmSep X y → ∃ i, γ' = svmMargin X y (xc.toVec (n + 1)) i ∧
        ∀ j, γ' ≤ svmMargin X y (xc.toVec (n + 1)) j) := by
  obtain ⟨g, b, γ', h1, -, h2, h3⟩ := C50_svm (SvmOracle.new a (List.ofFn y)) (svm_new hn ha) xc hx γ
  refine ⟨g, b, γ', h1, fun h => (h2 h).1, fun h => ?_⟩
  obtain ⟨i, a1, a2, -⟩ := h3 h
  exact ⟨i, a1, a2⟩

end Ellalgo
