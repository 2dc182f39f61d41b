import Verif.Spec.RoundedSvm
import Verif.Props.SvmProps
import Verif.Props.RoundedPlane

/-! # C93: the SVM oracle in rounded arithmetic -/

namespace Ellalgo
open Matrix
variable {u : ℝ} {R : Rounding u} {m n : Nat}

/-- one more rounding -/
theorem rnd_rel {a E B C : ℝ} (h : |a - E| ≤ (C - 1) * B) (hE : |E| ≤ B) :
    |R.rnd a - E| ≤ ((1 + u) * C - 1) * B := by
  have hu := R.unit_nonneg
  have h1 := R.err a
  have h2 : |a| ≤ C * B := by
    have := abs_add_le (a - E) E
    rw [sub_add_cancel] at this
    linarith
  have h3 := abs_add_le (R.rnd a - a) (a - E)
  rw [show R.rnd a - a + (a - E) = R.rnd a - E by ring] at h3
  have := mul_le_mul_of_nonneg_left h2 hu
  linarith

/-- the margin as computed -/
noncomputable def svmComputed (o : SvmOracle (Fl R)) (y : Fin m → ℤ) (n : Nat) (w : Nat → Fl R) (b : Fl R) (i : Fin m) : Fl R :=
  Scalar.ofInt (y i) * ((sumTo n fun j => w j * o.data.mat i j) + b)

theorem svm_computed_err {o : SvmOracle (Fl R)} {y : Fin m → ℤ} (ho : o.FlFor m n y) (xc : Arr (Fl R)) (i : Fin m) :
    |(svmComputed o y n xc.vec (xc.vec n) i).val - svmMargin (o.data.flRect m n) y (xc.flVec (n + 1)) i| ≤
      svmErr u (o.data.flRect m n) y (xc.flVec (n + 1)) i := by
  have hu := R.unit_nonneg
  have h1 := sumTo_fl_err n xc.vec (fun j => o.data.mat i j)
  rw [Finset.sum_range, Finset.sum_range] at h1
  have e1 : ∑ j : Fin n, (xc.vec j).val * (o.data.mat i j).val =
      ∑ j : Fin n, o.data.flRect m n i j * xc.flVec (n + 1) j.castSucc :=
    Finset.sum_congr rfl fun j _ => mul_comm _ _
  have e2 : ∑ j : Fin n, |(xc.vec j).val| * |(o.data.mat i j).val| =
      ∑ j : Fin n, |o.data.flRect m n i j| * |xc.flVec (n + 1) j.castSucc| :=
    Finset.sum_congr rfl fun j _ => mul_comm _ _
  rw [e1, e2] at h1
  have hDA : |∑ j : Fin n, o.data.flRect m n i j * xc.flVec (n + 1) j.castSucc| ≤
      ∑ j : Fin n, |o.data.flRect m n i j| * |xc.flVec (n + 1) j.castSucc| :=
    (Finset.abs_sum_le_sum_abs _ _).trans (le_of_eq (Finset.sum_congr rfl fun j _ => abs_mul _ _))
  have hb : (xc.vec n).val = xc.flVec (n + 1) (Fin.last n) := rfl
  have hval : (svmComputed o y n xc.vec (xc.vec n) i).val =
      R.rnd (R.rnd (y i) * R.rnd ((sumTo n fun j => xc.vec j * o.data.mat i j).val + (xc.vec n).val)) := rfl
  rw [hval, ho.exact i, hb, svmMargin, svmErr]
  generalize (sumTo n fun j => xc.vec j * o.data.mat i j).val = d at *
  generalize ∑ j : Fin n, o.data.flRect m n i j * xc.flVec (n + 1) j.castSucc = D at *
  generalize ∑ j : Fin n, |o.data.flRect m n i j| * |xc.flVec (n + 1) j.castSucc| = A at *
  generalize xc.flVec (n + 1) (Fin.last n) = b at *
  generalize (y i : ℝ) = t at *
  have hP : (1 : ℝ) ≤ (1 + u) ^ (n + 1) := one_le_pow₀ (by linarith)
  have h2 : |d + b - (D + b)| ≤ ((1 + u) ^ (n + 1) - 1) * (A + |b|) := by
    rw [show d + b - (D + b) = d - D by ring]
    have := mul_nonneg (sub_nonneg.2 hP) (abs_nonneg b)
    linarith
  have h3 : |D + b| ≤ A + |b| := (abs_add_le _ _).trans (by linarith)
  have h4 := rnd_rel (R := R) h2 h3
  have h5 : |t * R.rnd (d + b) - t * (D + b)| ≤ ((1 + u) * (1 + u) ^ (n + 1) - 1) * (|t| * (A + |b|)) := by
    rw [← mul_sub, abs_mul]
    have := mul_le_mul_of_nonneg_left h4 (abs_nonneg t)
    linarith
  have h6 : |t * (D + b)| ≤ |t| * (A + |b|) := by
    rw [abs_mul]; exact mul_le_mul_of_nonneg_left h3 (abs_nonneg t)
  have h7 := rnd_rel (R := R) h5 h6
  have e3 : (1 + u) * ((1 + u) * (1 + u) ^ (n + 1)) = (1 + u) ^ (n + 3) := by ring
  rwa [e3] at h7

/-- the search loop finds a sample of least computed margin -/
theorem svm_search_fl {o : SvmOracle (Fl R)} {y : Fin m → ℤ} (ho : o.FlFor m n y) {w : Arr (Fl R)} {v : Nat → Fl R}
    (hw : IsVec w n v) (b : Fl R) :
    ∃ r k, o.search w b = .ok (r, k) ∧ (r = none → m = 0) ∧
      (∀ μ, r = some μ → ∃ i : Fin m, k = i ∧ svmComputed o y n v b i = μ ∧ ∀ j, μ.val ≤ (svmComputed o y n v b j).val) := by
  have hrows : o.data.rows = m := ho.data.1
  obtain ⟨⟨r, k⟩, h1, h2, h3⟩ := forRange_spec (σ := Option (Fl R) × Nat)
    (fun i s => (s.1 = none → i = 0) ∧
      (∀ μ, s.1 = some μ → ∃ q : Fin m, s.2 = q ∧ (q : Nat) < i ∧ svmComputed o y n v b q = μ ∧
        ∀ j : Fin m, (j : Nat) < i → μ.val ≤ (svmComputed o y n v b j).val))
    (f := fun i (s : Option (Fl R) × Nat) => do
      let yy ← Res.ofOption o.labels[i]?
      let xi ← o.data.row i
      let d ← w.dot xi
      let margin := Scalar.ofInt yy * (d + b)
      let smaller := match s.1 with
        | none => Scalar.ltInf margin
        | some m => Scalar.lt margin m
      if smaller then .ok (some margin, i) else .ok (s.1, s.2))
    (s := (none, 0)) (lo := 0) (hi := m) (Nat.zero_le m) ⟨fun _ => rfl, by simp⟩ (by
      rintro i ⟨μ0, k0⟩ _ hi ⟨hP1, hP2⟩
      obtain ⟨xi, hx1, hx2⟩ := row_spec ho.data.isMat ho.pos hi
      have hl : o.labels[i]? = some (y ⟨i, hi⟩) := by rw [ho.labels]; simp [hi]
      have hd := dot_spec hw hx2
      have hmar : Scalar.ofInt (y ⟨i, hi⟩) * ((sumTo n fun j => v j * o.data.mat i j) + b) =
          svmComputed o y n v b ⟨i, hi⟩ := rfl
      simp only [hl, Res.ofOption, Res.ok_bind, hx1, hd, hmar]
      cases μ0 with
      | none =>
        have h0 : i = 0 := hP1 rfl
        refine ⟨(some (svmComputed o y n v b ⟨i, hi⟩), i), rfl, by simp, ?_⟩
        intro μ hμ
        obtain rfl : _ = μ := by simpa using hμ
        refine ⟨⟨i, hi⟩, rfl, Nat.lt_succ_self i, rfl, fun j hj => ?_⟩
        have : j = ⟨i, hi⟩ := Fin.ext (by simp only; omega)
        rw [this]
      | some μ0 =>
        obtain ⟨q, hq1, hq2, hq3, hq4⟩ := hP2 μ0 rfl
        simp only [Fl.lt_eq, decide_eq_true_eq]
        split
        · rename_i hlt
          refine ⟨_, rfl, by simp, ?_⟩
          intro μ hμ
          obtain rfl : _ = μ := by simpa using hμ
          refine ⟨⟨i, hi⟩, rfl, Nat.lt_succ_self i, rfl, fun j hj => ?_⟩
          by_cases hji : (j : Nat) < i
          · exact hlt.le.trans (hq4 j hji)
          · have : j = ⟨i, hi⟩ := Fin.ext (by simp only; omega)
            rw [this]
        · rename_i hlt
          refine ⟨_, rfl, by simp, ?_⟩
          intro μ hμ
          obtain rfl : μ0 = μ := by simpa using hμ
          refine ⟨q, hq1, by omega, hq3, fun j hj => ?_⟩
          by_cases hji : (j : Nat) < i
          · exact hq4 j hji
          · have : j = ⟨i, hi⟩ := Fin.ext (by simp only; omega)
            rw [this]
            exact not_lt.1 hlt)
  refine ⟨r, k, ?_, h2, ?_⟩
  · rw [SvmOracle.search, hrows, ← h1]
    congr 1
    funext i s
    rcases s with ⟨a, b⟩
    cases a <;> rfl
  · intro μ hμ
    obtain ⟨q, a, b, c, e⟩ := h3 μ hμ
    exact ⟨q, a, c, fun j => e j j.2⟩

/-- **C93** One query of `SvmOracle` in rounded arithmetic, at any classifier `x = (w, b)`: it never panics, always reports
improvement and leaves the oracle unchanged.  The answer is one of two.
* Stop: `γ' = 0`, `beta = 0`, zero gradient; then every true margin at `x` is at least 1 up to `svmErr`.
* Cut: for some sample `i` the value `γ' = beta < 1` is its margin up to `svmErr`, no true margin is below `γ'` by more than
  `svmErr`, the last component of the gradient is `-y_i`, and the central cut keeps every classifier `z` whose margin on sample `i` exceeds 1 by
  `svmErr + u |y_i| Σ_j |X_ij| |z_j - x_j|`. -/
theorem C93_svm_answer {y : Fin m → ℤ} (o : SvmOracle (Fl R)) (ho : o.FlFor m n y) (xc : Arr (Fl R))
    (hx : xc.IsVecShape (n + 1)) (γ : Fl R) :
    ∃ g beta γ', SvmOracle.oracle.assess o xc γ = .ok (((g, ⟨beta⟩), true), γ', o) ∧ g.IsVecShape (n + 1) ∧
      ((γ'.val = 0 ∧ beta.val = 0 ∧ g.flVec (n + 1) = 0 ∧
          ∀ i, 1 - svmErr u (o.data.flRect m n) y (xc.flVec (n + 1)) i ≤
            svmMargin (o.data.flRect m n) y (xc.flVec (n + 1)) i) ∨
        (beta = γ' ∧ γ'.val < 1 ∧
          (∀ j, γ'.val - svmErr u (o.data.flRect m n) y (xc.flVec (n + 1)) j ≤
            svmMargin (o.data.flRect m n) y (xc.flVec (n + 1)) j) ∧
          ∃ i, |γ'.val - svmMargin (o.data.flRect m n) y (xc.flVec (n + 1)) i| ≤
              svmErr u (o.data.flRect m n) y (xc.flVec (n + 1)) i ∧ g.flVec (n + 1) (Fin.last n) = -(y i : ℝ) ∧
            ∀ z, 1 + svmErr u (o.data.flRect m n) y (xc.flVec (n + 1)) i +
                u * (|(y i : ℝ)| * ∑ j : Fin n, |o.data.flRect m n i j| * |z j.castSucc - xc.flVec (n + 1) j.castSucc|) ≤
                svmMargin (o.data.flRect m n) y z i →
              g.flVec (n + 1) ⬝ᵥ (z - xc.flVec (n + 1)) < 0)) := by
  have hmap : (List.range n).mapM (fun i => xc.idx i) = .ok ((List.range n).map fun i => xc.vec i) :=
    mapM_range_ok n fun i hi => hx.isVec.idx (by omega)
  have hw : IsVec (⟨(List.range n).map fun i => xc.vec i, n, 0⟩ : Arr (Fl R)) n xc.vec :=
    ⟨rfl, rfl, by simp, fun i hi => by simp [hi]⟩
  have hb : xc.idx n = .ok (xc.vec n) := hx.isVec.idx (by omega)
  obtain ⟨r, k, hs, hr0, hr1⟩ := svm_search_fl ho hw (xc.vec n)
  have hzero : IsVec (Arr.new (n + 1) : Arr (Fl R)) (n + 1) fun _ => 0 := isVec_new (n + 1)
  have hz0 : (Arr.new (n + 1) : Arr (Fl R)).flVec (n + 1) = 0 := by
    funext i
    exact congrArg Fl.val (hzero.vec i.2)
  have hass : SvmOracle.oracle.assess o xc γ = (match r with
      | none => .ok (((Arr.new (n + 1), ⟨0⟩), true), 0, o)
      | some m =>
        if Scalar.ge m 1 then .ok (((Arr.new (n + 1), ⟨0⟩), true), 0, o)
        else do
          let y ← Res.ofOption o.labels[k]?
          let xi ← o.data.row k
          let yi : Fl R := Scalar.ofInt y
          let grad := Arr.ofList (xi.data.map (fun x => -yi * x) ++ [-yi])
          .ok (((grad, ⟨m⟩), true), m, o)) := by
    simp only [SvmOracle.oracle, SvmOracle.assess, ho.nfeat, hmap, Res.ok_bind, hb, hs]
    cases r <;> rfl
  have herr := svm_computed_err ho xc
  cases r with
  | none =>
    have hm : m = 0 := hr0 rfl
    subst hm
    exact ⟨_, _, _, hass, hzero.shape, Or.inl ⟨rfl, rfl, hz0, fun i => i.elim0⟩⟩
  | some μ =>
    obtain ⟨i, rfl, hi1, hi2⟩ := hr1 μ rfl
    by_cases h1 : 1 ≤ μ.val
    · have hge : Scalar.ge μ 1 = true := decide_eq_true h1
      simp only [hge, if_true] at hass
      refine ⟨_, _, _, hass, hzero.shape, Or.inl ⟨rfl, rfl, hz0, fun j => ?_⟩⟩
      have := (abs_le.1 (herr j)).2
      have := hi2 j
      linarith
    · have hge : Scalar.ge μ 1 = false := decide_eq_false h1
      obtain ⟨xi, hx1, hx2⟩ := row_spec ho.data.isMat ho.pos i.2
      have hl : o.labels[(i : Nat)]? = some (y i) := by rw [ho.labels]; simp
      simp only [hge, hl, Res.ofOption, Res.ok_bind, hx1] at hass
      simp only [Bool.false_eq_true, if_false] at hass
      have hg : IsVec (Arr.ofList (xi.data.map (fun x => -(Scalar.ofInt (y i) : Fl R) * x) ++ [-(Scalar.ofInt (y i) : Fl R)]))
          (n + 1) (fun j => if j < n then -(Scalar.ofInt (y i) : Fl R) * o.data.mat i j else -(Scalar.ofInt (y i) : Fl R)) := by
        have hlen : xi.data.length = n := hx2.len
        refine ⟨by simp [Arr.ofList, hlen], rfl, by simp [Arr.ofList, hlen], ?_⟩
        intro j hj
        show (xi.data.map (fun x => -(Scalar.ofInt (y i) : Fl R) * x) ++ [-(Scalar.ofInt (y i) : Fl R)])[j]? = _
        by_cases hjn : j < n
        · rw [List.getElem?_append_left (by simp [hlen, hjn]), List.getElem?_map, hx2.get j hjn, if_pos hjn]
          rfl
        · have : j = n := by omega
          subst this
          rw [List.getElem?_append_right (by simp [hlen])]
          simp [hlen]
      have hoi : (Scalar.ofInt (y i) : Fl R).val = y i := ho.exact i
      have hlast : (Arr.ofList (xi.data.map (fun x => -(Scalar.ofInt (y i) : Fl R) * x) ++
          [-(Scalar.ofInt (y i) : Fl R)])).flVec (n + 1) (Fin.last n) = -(y i : ℝ) := by
        have h := congrArg Fl.val (hg.vec (i := n) (by omega))
        simp only [lt_irrefl, if_false] at h
        rw [← hoi]
        exact h
      refine ⟨_, _, _, hass, hg.shape, Or.inr ⟨rfl, not_le.1 h1, fun j => ?_, i, hi1 ▸ herr i, hlast, fun z hz => ?_⟩⟩
      · have := (abs_le.1 (herr j)).2
        have := hi2 j
        linarith
      · have hrest : ∀ j : Fin n, (Arr.ofList (xi.data.map (fun x => -(Scalar.ofInt (y i) : Fl R) * x) ++
            [-(Scalar.ofInt (y i) : Fl R)])).flVec (n + 1) j.castSucc = R.rnd (-(y i : ℝ) * o.data.flRect m n i j) := by
          intro j
          have h := congrArg Fl.val (hg.vec (i := j) (by omega))
          simp only [j.2, if_true] at h
          rw [← hoi]
          exact h
        have hi3 := (abs_le.1 (herr i)).1
        rw [hi1] at hi3
        have hsub := margin_sub (X := o.data.flRect m n) (y := y) z (xc.flVec (n + 1)) i
        have h1' := not_le.1 h1
        generalize xc.flVec (n + 1) = x at *
        rw [dotProduct, Fin.sum_univ_castSucc, hlast]
        simp only [hrest, Pi.sub_apply]
        have hterm : ∀ j : Fin n, R.rnd (-(y i : ℝ) * o.data.flRect m n i j) * (z j.castSucc - x j.castSucc) ≤
            -(y i : ℝ) * (o.data.flRect m n i j * (z j.castSucc - x j.castSucc)) +
              u * (|(y i : ℝ)| * (|o.data.flRect m n i j| * |z j.castSucc - x j.castSucc|)) := by
          intro j
          have h := R.err (-(y i : ℝ) * o.data.flRect m n i j)
          have h2 := mul_le_mul_of_nonneg_right h (abs_nonneg (z j.castSucc - x j.castSucc))
          rw [← abs_mul] at h2
          have h3 := (abs_le.1 h2).2
          rw [abs_mul, abs_neg] at h3
          nlinarith [h3]
        have hsum := Finset.sum_le_sum fun j (_ : j ∈ Finset.univ) => hterm j
        rw [Finset.sum_add_distrib, ← Finset.mul_sum, ← Finset.mul_sum, ← Finset.mul_sum] at hsum
        have hm2 : svmMargin (o.data.flRect m n) y (z - x) i =
            (y i : ℝ) * (∑ j : Fin n, o.data.flRect m n i j * (z j.castSucc - x j.castSucc) + (z (Fin.last n) - x (Fin.last n))) := rfl
        rw [hm2] at hsub
        linarith

/-- **C93** (runs)  `cutting_plane_optim` with an SVM oracle in rounded arithmetic, over any steady search space (`Ell`,
`EllStable`, …), whatever rounding does to that space: the run ends without a panic, and a returned classifier either has all
margins at least 1 up to `svmErr` (value 0), or its smallest margin is the reported value `γ' < 1` up to `svmErr`. -/
theorem C93_svm_run {S : Type} {sp : Space S (Arr (Fl R)) (SingleCut (Fl R)) (Fl R)} {Q : S → Prop}
    (hsp : sp.Steady (n + 1) Q) {y : Fin m → ℤ} (o : SvmOracle (Fl R)) (ho : o.FlFor m n y) {s : S} (hs : Q s) (γ : Fl R)
    (opts : Options (Fl R)) :
    ∃ r k γ' s', cuttingPlaneOptim SvmOracle.oracle sp o s γ opts = .ok ((r, k), γ', o, s') ∧ (r = none → γ' = γ) ∧
      ∀ x, r = some x → x.IsVecShape (n + 1) ∧
        ((γ'.val = 0 ∧ ∀ i, 1 - svmErr u (o.data.flRect m n) y (x.flVec (n + 1)) i ≤
            svmMargin (o.data.flRect m n) y (x.flVec (n + 1)) i) ∨
         (γ'.val < 1 ∧
          (∀ j, γ'.val - svmErr u (o.data.flRect m n) y (x.flVec (n + 1)) j ≤
            svmMargin (o.data.flRect m n) y (x.flVec (n + 1)) j) ∧
          ∃ i, svmMargin (o.data.flRect m n) y (x.flVec (n + 1)) i ≤
            γ'.val + svmErr u (o.data.flRect m n) y (x.flVec (n + 1)) i)) := by
  obtain ⟨r, k, γ', w', s', h1, rfl, h3, h4⟩ := optim_accepted hsp (I := fun w _ => w = o) (orc := SvmOracle.oracle)
    (w := o) (s := s) (g := γ) (by
      rintro w x g rfl hx
      obtain ⟨gr, beta, g', hq, hsh, -⟩ := C93_svm_answer w ho x hx g
      exact ⟨(gr, ⟨beta⟩), true, g', w, hq, rfl, by simp, hsh⟩) opts rfl hs
  refine ⟨r, k, γ', s', h1, h3, ?_⟩
  intro x hx
  obtain ⟨hxs, w1, g1, c, w2, rfl, hq⟩ := h4 x hx
  obtain ⟨gr, beta, g', hq', -, ha⟩ := C93_svm_answer w1 ho x hxs g1
  rw [hq] at hq'
  simp only [Res.ok.injEq, Prod.mk.injEq] at hq'
  obtain ⟨-, rfl, -⟩ := hq'
  refine ⟨hxs, ?_⟩
  rcases ha with ⟨a, -, -, b⟩ | ⟨-, a, b, i, c, -⟩
  · exact Or.inl ⟨a, b⟩
  · exact Or.inr ⟨a, b, i, by have := (abs_le.1 c).1; linarith⟩

end Ellalgo
