import Verif.Lib.SlabStep
import Verif.Lib.SlabCentral

/-! One parallel cut in rounded arithmetic, without `no_defer_trick`. -/

namespace Ellalgo
open Matrix
open scoped ComplexOrder
variable {u : ℝ} {R : Rounding u} {n : Nat}

/-- which strategy a parallel cut uses when its upper plane cuts the ellipsoid -/
theorem slab_call (hu : u < 1) (kd : UpdateKind) (hkd : kd = .bias ∨ kd = .q) {β0 β1 Th : Fl R} (hn : 2 ≤ n) (hb0 : 0 ≤ β0.val)
    (hb : β0.val ≤ β1.val) (hT : 0 < Th.val) (h : (β1 * β1).val < Th.val) :
    CutType.call kd (ParallelCut.mk β0 (some β1)) (EllCalc.new n) Th =
      (.success, (EllCalcCore.new (Nat.cast n : Fl R)).calcParallelBiasCut β0 β1 Th) := by
  have e1 : Scalar.lt β1 β0 = false := decide_eq_false (not_lt.2 hb)
  rcases hkd with rfl | rfl
  · show (EllCalc.new n : EllCalc (Fl R)).calcParallelBiasCut β0 β1 Th = _
    unfold EllCalc.calcParallelBiasCut
    have e2 : Scalar.le Th (β1 * β1) = false := decide_eq_false (not_le.2 h)
    rw [e1, e2]
    simp [EllCalc.new]
  · show (EllCalc.new n : EllCalc (Fl R)).calcParallelQ β0 β1 Th = _
    unfold EllCalc.calcParallelQ
    have e2 : Scalar.ge (β1 * β1) Th = false := decide_eq_false (not_le.2 h)
    have e3 : Scalar.le (Th + (EllCalc.new n : EllCalc (Fl R)).nF * (β0 * β1)) 0 = false := by
      refine decide_eq_false (not_le.2 ?_)
      have p1 : 0 ≤ (β0 * β1).val := R.nonneg (mul_nonneg hb0 (hb0.trans hb))
      have p2 : 0 ≤ (EllCalc.new n : EllCalc (Fl R)).nF.val := R.nonneg (Nat.cast_nonneg n)
      have p3 : 0 ≤ ((EllCalc.new n : EllCalc (Fl R)).nF * (β0 * β1)).val := R.nonneg (mul_nonneg p2 p1)
      exact (Near.rnd (R := R) hu (x := Th.val + ((EllCalc.new n : EllCalc (Fl R)).nF * (β0 * β1)).val) (by linarith)).pos hu
        (by linarith)
    rw [e1, e2]
    dsimp only
    rw [e3]
    simp [EllCalc.new, EllCalcCore.calcParallelBiasCut, EllCalcCore.new]

/-- the parameters of a parallel cut of any kind; a central cut ignores `beta0` -/
theorem slab_any_call (hu : u ≤ 1 / 64) (hn : 2 ≤ n) {T w v b0 : ℝ} {Th β0 β1 : Fl R} (kd : UpdateKind)
    (hkd : kd = .central ∧ b0 = 0 ∨ (kd = .bias ∨ kd = .q) ∧ b0 = β0.val) (hT : 0 < T) (hTh : Th.val = (1 - u) * T)
    (hw0 : 0 < w) (hw1 : w ≤ 1) (hb0 : 0 ≤ b0) (hb : b0 + w * √T ≤ β1.val) (h : (β1 * β1).val < Th.val)
    (hv : v = 32 * (u * (n : ℝ) ^ 2) / w ^ 2) (hv1 : v ≤ 1 / 100) :
    ∃ ρ σ δ : Fl R, CutType.call kd (ParallelCut.mk β0 (some β1)) (EllCalc.new n) Th = (.success, (ρ, σ, δ)) ∧
      Near v 17 ρ.val (slabRho n T b0 β1.val) ∧ Near v 14 σ.val (slabSigma n T b0 β1.val) ∧
      Near v 17 δ.val (slabDelta n T b0 β1.val) := by
  have h0 := R.unit_nonneg
  have hu1 : u < 1 := by linarith
  have hwsT : 0 < w * √T := mul_pos hw0 (Real.sqrt_pos.2 hT)
  have hb1p : 0 < β1.val := by linarith
  have hb1T : β1.val * β1.val < T := by
    have a := (Near.rnd (R := R) hu1 (x := β1.val * β1.val) (by positivity)).1
    rw [pow_one] at a
    have b : (1 - u) * (β1.val * β1.val) < (1 - u) * T := by
      rw [← hTh]
      exact lt_of_le_of_lt a h
    exact lt_of_mul_lt_mul_left b (by linarith)
  rcases hkd with ⟨rfl, rfl⟩ | ⟨hkd, rfl⟩
  · obtain ⟨ρ, σ, δ, h1, h2⟩ := slabCentral_params (R := R) hu hn hT hTh hw0 hw1 (by linarith) hb1T hv hv1
    refine ⟨ρ, σ, δ, ?_, h2⟩
    show (EllCalc.new n : EllCalc (Fl R)).calcParallelCentralCut β1 Th = _
    unfold EllCalc.calcParallelCentralCut
    have e1 : Scalar.lt β1 0 = false := decide_eq_false (not_lt.2 hb1p.le)
    have e2 : Scalar.le Th (β1 * β1) = false := decide_eq_false (not_le.2 h)
    rw [e1, e2, ← h1]
    simp [EllCalc.new]
  · obtain ⟨ρ, σ, δ, h1, h2⟩ := slab_params (R := R) hu hn hT hTh hw0 hw1 hb0 hb hb1T.le hv (by linarith)
    refine ⟨ρ, σ, δ, ?_, h2⟩
    rw [slab_call hu1 kd hkd hn hb0 (by linarith) (by rw [hTh]; exact mul_pos (by linarith) hT) h, h1]

/-- and when it does not -/
theorem single_call (kd : UpdateKind) {β0 Th : Fl R} {β1 : Option (Fl R)} {b0 : ℝ}
    (hkd : kd = .central ∧ b0 = 0 ∨ (kd = .bias ∨ kd = .q) ∧ b0 = β0.val)
    (hb : ∀ b ∈ β1, b0 ≤ b.val ∧ 0 < b.val ∧ Th.val ≤ (b * b).val) :
    CutType.call kd (ParallelCut.mk β0 β1) (EllCalc.new n) Th = CutType.call kd (SingleCut.mk β0) (EllCalc.new n) Th := by
  cases β1 with
  | none => rcases hkd with ⟨rfl, -⟩ | ⟨rfl | rfl, -⟩ <;> rfl
  | some β1 =>
    obtain ⟨h1, h2, h3⟩ := hb β1 rfl
    rcases hkd with ⟨rfl, -⟩ | ⟨hkd, rfl⟩
    · show (EllCalc.new n : EllCalc (Fl R)).calcParallelCentralCut β1 Th = _
      unfold EllCalc.calcParallelCentralCut
      have e1 : Scalar.lt β1 0 = false := decide_eq_false (not_lt.2 h2.le)
      have e2 : Scalar.le Th (β1 * β1) = true := decide_eq_true h3
      rw [e1, e2]
      rfl
    have e1 : Scalar.lt β1 β0 = false := decide_eq_false (not_lt.2 h1)
    have e4 : Scalar.gt β1 0 = true := decide_eq_true h2
    rcases hkd with rfl | rfl
    · show (EllCalc.new n : EllCalc (Fl R)).calcParallelBiasCut β0 β1 Th = _
      unfold EllCalc.calcParallelBiasCut
      have e2 : Scalar.le Th (β1 * β1) = true := decide_eq_true h3
      rw [e1, e2, e4]
      rfl
    · show (EllCalc.new n : EllCalc (Fl R)).calcParallelQ β0 β1 Th = _
      unfold EllCalc.calcParallelQ
      have e2 : Scalar.ge (β1 * β1) Th = true := decide_eq_true h3
      rw [e1, e2, e4]
      rfl

namespace Ell.Held
variable {l H P : ℝ} {e : Ell (Fl R)} (he : e.Held n l H P)
include he

theorem low_le : l ≤ H := by
  have i : Fin n := ⟨0, by have := he.dim; omega⟩
  have h := he.lower (Pi.single i 1)
  simp at h
  refine h.trans (le_trans ?_ (he.entries i i))
  exact mul_le_mul_of_nonneg_left (le_abs_self _) he.kappa.le

theorem low' (v : Fin n → ℝ) : l / e.kappa.val * (v ⬝ᵥ v) ≤ v ⬝ᵥ (e.mq.flMat n *ᵥ v) := by
  rw [div_mul_eq_mul_div, div_le_iff₀ he.kappa]
  linarith [he.lower v]

theorem ent' (i j : Fin n) : |e.mq.flMat n i j| ≤ H / e.kappa.val := by
  rw [le_div_iff₀ he.kappa]
  linarith [he.entries i j]

theorem posDef : (e.mq.flMat n).PosDef := posDef_of_lower he.symm (div_pos he.low_pos he.kappa) he.low'

theorem err : quadErr u n (H / e.kappa.val) (l / e.kappa.val) = quadErr u n H l := by
  have := quadErr_scale (u := u) (n := n) (B := H) (lam := l) (inv_pos.2 he.kappa)
  rwa [inv_mul_eq_div, inv_mul_eq_div] at this

end Ell.Held

/-- the volume after a parallel cut -/
theorem slab_volume {κ κn d s E h ε D D' V : ℝ} (hκ : 0 < κ) (hκn0 : 0 ≤ κn) (hκn : κn ≤ (1 + 24 * h) * (κ * d)) (hd : 0 ≤ d) (hs : 0 ≤ 1 - s)
    (hE : 0 ≤ E) (hh : 0 ≤ h) (hD : 0 ≤ D) (hD0 : 0 ≤ D') (hD' : D' ≤ (1 + E * h) ^ n * ((1 - s) * D)) (hV : d ^ n * (1 - s) ≤ V)
    (hsm : 2 * (n * ((E + 24) * h)) ≤ ε) (hε : ε ≤ 1) : κn ^ n * D' ≤ (1 + ε) * (V * (κ ^ n * D)) := by
  have a1 := pow_le_pow_left₀ hκn0 hκn n
  have a2 := mul_le_mul a1 hD' hD0 (by positivity)
  have e1 : ((1 + 24 * h) * (κ * d)) ^ n * ((1 + E * h) ^ n * ((1 - s) * D)) =
      ((1 + 24 * h) * (1 + E * h)) ^ n * (d ^ n * (1 - s) * (κ ^ n * D)) := by
    rw [mul_pow, mul_pow, mul_pow]; ring
  rw [e1] at a2
  have hKD : 0 ≤ κ ^ n * D := by positivity
  have a3 : ((1 + 24 * h) * (1 + E * h)) ^ n ≤ 1 + ε := by
    have b1 : (1 + 24 * h) * (1 + E * h) ≤ Real.exp ((E + 24) * h) := by
      have c1 := Real.add_one_le_exp (24 * h)
      have c2 := Real.add_one_le_exp (E * h)
      have := mul_le_mul c1 c2 (by positivity) (Real.exp_pos _).le
      rw [← Real.exp_add] at this
      calc _ = (24 * h + 1) * (E * h + 1) := by ring
        _ ≤ _ := this
        _ = _ := by ring_nf
    refine (pow_le_pow_left₀ (by positivity) b1 n).trans ?_
    rw [← Real.exp_nat_mul]
    exact exp_le_of_small hsm (by linarith) (by positivity)
  have hV0 : 0 ≤ d ^ n * (1 - s) := by positivity
  have hVV := hV0.trans hV
  have a4 := mul_le_mul a3 (mul_le_mul_of_nonneg_right hV hKD) (by positivity) (le_trans (by positivity) a3)
  exact a2.trans a4

theorem slab_kappa {κ d δ κn h : ℝ} (h0 : 0 ≤ u) (hu1 : u < 1) (hκ : 0 < κ) (hd : 0 < d) (h12 : 12 * u ≤ h) (hh : 100 * h ≤ 1) (hδ : |δ - d| ≤ 23 * h * d)
    (hκn : Near u 1 κn (κ * δ)) : (1 - 24 * h) * (κ * d) ≤ κn ∧ κn ≤ (1 + 24 * h) * (κ * d) := by
  obtain ⟨a1, a2⟩ := abs_le.1 hδ
  obtain ⟨b1, b2⟩ := hκn
  rw [pow_one] at b1 b2
  have hh0 : 0 ≤ h := by linarith
  have hκd : 0 < κ * d := by positivity
  constructor
  · refine le_trans ?_ b1
    have c1 : (1 - 23 * h) * (κ * d) ≤ κ * δ := by nlinarith
    have c2 := mul_le_mul_of_nonneg_left c1 (by linarith : 0 ≤ 1 - u)
    refine le_trans ?_ c2
    rw [← mul_assoc (1 - u)]
    exact mul_le_mul_of_nonneg_right (by nlinarith) hκd.le
  · have c1 : κ * δ ≤ (1 + 23 * h) * (κ * d) := by nlinarith
    have c2 : (1 - u) * κn ≤ (1 - u) * ((1 + 24 * h) * (κ * d)) := by
      refine b2.trans (c1.trans ?_)
      rw [← mul_assoc (1 - u)]
      refine mul_le_mul_of_nonneg_right ?_ hκd.le
      nlinarith
    exact le_of_mul_le_mul_left c2 (by linarith)

theorem slab_entries {κ κn d h H y B : ℝ} (hκ : 0 < κ) (hh0 : 0 ≤ h) (hh : 100000 * h ≤ 1) (hH : 0 < H) (hd0 : 0 < d) (hdu : d ≤ 3)
    (q2 : κn ≤ (1 + 24 * h) * (κ * d)) (hB : B = H / κ) (hy0 : 0 ≤ y) (hy : y ≤ (1 + 8 * (26 * h)) * B) : κn * y ≤ 4 * H := by
  have a := mul_le_mul q2 hy hy0 (by positivity)
  refine a.trans ?_
  have e1 : (1 + 24 * h) * (κ * d) * ((1 + 8 * (26 * h)) * B) = (1 + 24 * h) * (1 + 208 * h) * (d * H) := by
    rw [hB]; field_simp; ring
  rw [e1]
  have e2 : (1 + 24 * h) * (1 + 208 * h) ≤ 4 / 3 := by nlinarith
  have e3 := mul_le_mul e2 (mul_le_mul_of_nonneg_right hdu hH.le) (by positivity) (by norm_num)
  linarith

theorem slab_lower {κ κn d w N l η s : ℝ} (hκ : 0 < κ) (hl : 0 < l) (hN : 2 ≤ N) (hw0 : 0 < w) (hdl : w / 2 ≤ d) (hη : η ≤ 1 / 2)
    (hgap : w ^ 2 / (12 * N) ≤ 1 - s) (hκn : κ * d / 2 ≤ κn) : w ^ 3 * l / (96 * N) ≤ κn * ((1 - η) * (1 - s) * (l / κ)) := by
  have c1 : w ^ 2 / (24 * N) ≤ (1 - η) * (1 - s) := by
    have : (1 / 2 : ℝ) * (w ^ 2 / (12 * N)) ≤ (1 - η) * (1 - s) :=
      mul_le_mul (by linarith) hgap (by positivity) (by linarith)
    refine le_trans (le_of_eq ?_) this
    field_simp; norm_num
  have c2 : κ * (w / 4) ≤ κn := by
    have := mul_le_mul_of_nonneg_left hdl hκ.le
    linarith
  have c3 := mul_le_mul c2 (mul_le_mul_of_nonneg_right c1 (div_pos hl hκ).le) (by positivity) (le_trans (by positivity) c2)
  refine le_trans (le_of_eq ?_) c3
  field_simp
  norm_num

theorem slab_size {κ κ' d h a : ℝ} (hκ : 0 < κ) (hh : 0 ≤ h) (hd0 : 0 < d) (hdu : d ≤ 3) (hk1 : (1 - 2 * h) * κ ≤ κ')
    (hk2 : κ' ≤ (1 + 5 * h) * κ) : (1 + a) * κ + (d - 1) * κ' ≤ κ * (d + a + 10 * h) := by
  have b1 : (d - 1) * (κ' - κ) ≤ 10 * h * κ := by
    have c1 : |κ' - κ| ≤ 5 * h * κ := abs_le.2 ⟨by
      have : 0 ≤ h * κ := by positivity
      linarith, by linarith⟩
    have c2 : |d - 1| ≤ 2 := abs_le.2 ⟨by linarith, by linarith⟩
    have c3 := mul_le_mul c2 c1 (abs_nonneg _) (by norm_num)
    rw [← abs_mul] at c3
    have := le_abs_self ((d - 1) * (κ' - κ))
    linarith
  linarith

theorem slab_tsq {κ κ' h ω : ℝ} (hu : u ≤ 1 / 64) (hκω : 0 < κ * ω) (hω : 0 < ω) (hh : 100000 * h ≤ 1)
    (hk1 : (1 - 2 * h) * κ ≤ κ') : κ * ω / 2 ≤ (1 - u) * (κ' * ω) := by
  have a := mul_le_mul_of_nonneg_right hk1 hω.le
  have b := mul_le_mul_of_nonneg_right hh hκω.le
  have c := mul_le_mul_of_nonneg_left a (by linarith : 0 ≤ 1 - u)
  have d : (63 / 64 : ℝ) * (99 / 100 * (κ * ω)) ≤ (1 - u) * ((1 - 2 * h) * κ * ω) :=
    mul_le_mul (by linarith) (by linarith) (by positivity) (by linarith)
  linarith

/-- the parallel cut without the switch, in the reference value `T` of `tsq` -/
theorem slab_core {l H P w ε h : ℝ} (hu : u ≤ 1 / 64) {e : Ell (Fl R)} (he : e.Held n l H P) (hd : e.noDeferTrick = false) {g : Arr (Fl R)}
    (hg : g.IsVecShape n) (hne : g.flVec n ≠ 0) (kd : UpdateKind) {β0 β1 : Fl R} {b0 : ℝ}
    (hkd : kd = .central ∧ b0 = 0 ∨ (kd = .bias ∨ kd = .q) ∧ b0 = β0.val) (hb0 : 0 ≤ b0)
    (hw0 : 0 < w) (hw1 : w ≤ 1) (hb : b0 + 2 * w * √(e.kappa.val * (g.flVec n ⬝ᵥ (e.mq.flMat n *ᵥ g.flVec n))) ≤ β1.val)
    (hbr : (β1 * β1).val < (e.kappa * Ell.om n e.mq.mat g.vec).val) (hθ : quadErr u n H l ≤ h) (hv : 32 * (u * (n : ℝ) ^ 2) / w ^ 2 ≤ h)
    (hε0 : 0 ≤ ε) (hε1 : ε ≤ 1) (hsm : h * slabL n l H P w ≤ ε * (w / 2)) :
    ∃ e', Ell.space.update kd e (g, ParallelCut.mk β0 (some β1)) = .ok (.success, e') ∧ e'.Shaped n ∧ e'.helper = EllCalc.new n ∧
      0 < e'.kappa.val ∧ (e'.mq.flMat n).IsSymm ∧
      (∀ v : Fin n → ℝ, w ^ 3 * l / (96 * n) * (v ⬝ᵥ v) ≤ e'.kappa.val * (v ⬝ᵥ (e'.mq.flMat n *ᵥ v))) ∧
      (∀ i j, e'.kappa.val * |e'.mq.flMat n i j| ≤ 4 * H) ∧
      (e'.kappa.val • e'.mq.flMat n).det ≤ (1 + ε) * (Real.exp (-(1 / ((n : ℝ) + 1))) * (e.kappa.val • e.mq.flMat n).det) ∧
      e.kappa.val * (g.flVec n ⬝ᵥ (e.mq.flMat n *ᵥ g.flVec n)) / 2 ≤ e'.tsq.val ∧
      ∀ a, 0 ≤ a → a ≤ 1 → ∀ x ∈ slab (g.flVec n) (e.xc.flVec n) b0 (some β1.val),
        x ∈ ellipsoid (e.mq.flMat n) ((1 + a) * e.kappa.val) (e.xc.flVec n) →
        x ∈ ellipsoid (e'.mq.flMat n) ((1 + 3 / w ^ 4 * a + ε) * e'.kappa.val) (e'.xc.flVec n) := by
  have h0 := R.unit_nonneg
  have hu1 : u < 1 := by linarith
  have hn := he.dim
  have hn2 : (2 : ℝ) ≤ n := by exact_mod_cast hn
  have hl := he.low_pos
  have hlH := he.low_le
  have hH : 0 < H := by linarith
  have hκ := he.kappa
  have hM := he.posDef
  have h12 := quadErr_ge h0 hn hl hlH
  have hh0 : 0 ≤ h := by linarith
  obtain ⟨hE0, hF0, hnE, hEh, hh, hd1, -⟩ := slab_small hn hl hlH ((norm2_nonneg _).trans he.centre) hw0 hw1 hε0 hε1 hh0 hsm
  obtain ⟨hωh0, hWd, -⟩ := dir_err (R := R) e.mq.mat g.vec (M := e.mq.flMat n) (fun _ _ => rfl) hn he.symm (div_pos hl hκ) he.low' he.ent'
    (by rw [he.err]; linarith) (G := g.flVec n) rfl hne
  rw [he.err] at hWd
  obtain ⟨ω, hω⟩ : ∃ ω, ω = g.flVec n ⬝ᵥ (e.mq.flMat n *ᵥ g.flVec n) := ⟨_, rfl⟩
  rw [← hω] at hWd hb ⊢
  have hω0 : 0 < ω := hω ▸ quad_pos hM hne
  have hW0 : 0 < √ω := Real.sqrt_pos.2 hω0
  have hWh0 : 0 < √(Ell.om n e.mq.mat g.vec).val := Real.sqrt_pos.2 hωh0
  have hThn : Near u 1 (e.kappa * Ell.om n e.mq.mat g.vec).val (e.kappa.val * √(Ell.om n e.mq.mat g.vec).val ^ 2) := by
    rw [Real.sq_sqrt hωh0.le]
    exact Near.rnd (R := R) hu1 (by positivity)
  obtain ⟨T, hTd⟩ : ∃ T, T = (e.kappa * Ell.om n e.mq.mat g.vec).val / (1 - u) := ⟨_, rfl⟩
  obtain ⟨hTh, hT0, hk1, hk2⟩ := slab_ref h0 hκ (Real.sq_sqrt hω0.le) hW0 hWh0 hWd h12 hθ (by linarith) hThn hTd
  have hκω : 0 < e.kappa.val * ω := mul_pos hκ hω0
  obtain ⟨κ', hκ'⟩ : ∃ κ', κ' = T / ω := ⟨_, rfl⟩
  have hTκ : T = κ' * ω := by rw [hκ']; field_simp
  rw [← hκ'] at hk1 hk2
  have hhκ : h * e.kappa.val ≤ e.kappa.val / 100000 := by
    have := mul_le_mul_of_nonneg_right hh hκ.le
    linarith
  have hκ'4 : κ' ≤ 4 * e.kappa.val := by linarith
  have hκ'0 : 0 < κ' := by rw [hκ']; positivity
  have hTle : T ≤ 2 ^ 2 * (e.kappa.val * ω) := by
    rw [hTκ]
    have := mul_le_mul_of_nonneg_right hκ'4 hω0.le
    linarith
  have hsT : √T ≤ 2 * √(e.kappa.val * ω) := by
    refine (Real.sqrt_le_sqrt hTle).trans (le_of_eq ?_)
    rw [Real.sqrt_mul (by norm_num), Real.sqrt_sq (by norm_num)]
  have hbT : b0 + w * √T ≤ β1.val := by
    have := mul_le_mul_of_nonneg_left hsT hw0.le
    linarith
  have hsT0 := Real.sqrt_pos.2 hT0
  have hwsT : 0 < w * √T := mul_pos hw0 hsT0
  have hb1p : 0 < β1.val := by linarith
  have hb1T : β1.val * β1.val ≤ T := by
    have a := (Near.rnd (R := R) hu1 (x := β1.val * β1.val) (by positivity)).1
    rw [pow_one] at a
    have b : (1 - u) * (β1.val * β1.val) ≤ (1 - u) * T := by
      rw [← hTh]
      exact a.trans hbr.le
    exact le_of_mul_le_mul_left b (by linarith)
  -- the parameters
  obtain ⟨v, hvd⟩ : ∃ v, v = 32 * (u * (n : ℝ) ^ 2) / w ^ 2 := ⟨_, rfl⟩
  rw [← hvd] at hv
  have hv0 : 0 ≤ v := by rw [hvd]; positivity
  have hv1 : v < 1 := by linarith
  obtain ⟨ρ, σ, δ, hpar, hρn, hσn, hδn⟩ := slab_any_call (R := R) (β0 := β0) hu hn kd hkd hT0 hTh hw0 hw1 hb0 hbT hbr hvd (by linarith)
  obtain ⟨hgood, hgap, hr0, hrT, hdl, hdu, hvol⟩ := slab_good hn hT0 hw0 hw1 hb0 hbT hb1T
  obtain ⟨r, hr⟩ : ∃ r, r = slabRho n T b0 β1.val := ⟨_, rfl⟩
  obtain ⟨s, hs⟩ : ∃ s, s = slabSigma n T b0 β1.val := ⟨_, rfl⟩
  obtain ⟨d, hdd⟩ : ∃ d, d = slabDelta n T b0 β1.val := ⟨_, rfl⟩
  rw [← hr] at hρn hr0 hrT hgood
  rw [← hs] at hσn hgap hvol hgood
  rw [← hdd] at hδn hdl hdu hvol hgood
  have hd0 : 0 < d := by linarith
  have lin : ∀ {k : ℕ} {x y : ℝ}, (k : ℝ) ≤ 17 → 0 ≤ y → Near v k x y → |x - y| ≤ 23 * h * y := fun hk hy hxy => by
    rename_i k x y
    have hkv : (k : ℝ) * v ≤ 17 * h := mul_le_mul hk hv hv0 (by norm_num)
    have := hxy.abs_lin hv0 (by linarith) hv1 hy
    refine this.trans ?_
    have : 4 / 3 * (k * v) ≤ 23 * h := by linarith
    exact mul_le_mul_of_nonneg_right this hy
  have hρe := lin (by norm_num) hr0 hρn
  have hσe := lin (by norm_num) hgood.sig0 hσn
  have hδe := lin (by norm_num) hd0.le hδn
  have hWd' : |√(Ell.om n e.mq.mat g.vec).val - √ω| ≤ h * √ω := hWd.trans (mul_le_mul_of_nonneg_right hθ hW0.le)
  have hTW : √T = √κ' * √ω := by rw [hTκ, Real.sqrt_mul hκ'0.le]
  have hrW : r / √ω ≤ √κ' := by
    rw [div_le_iff₀ hW0, ← hTW]
    exact hrT
  have hρE := slab_rho_err hρe hr0 hW0 hWh0 hWd' (by linarith) hh0 hrW
  have hσE : |σ.val - s| ≤ 25 * h := by
    refine hσe.trans ?_
    have := mul_le_mul_of_nonneg_left hgood.sig1.le (by linarith : 0 ≤ 23 * h)
    linarith
  have hcall := hpar
  rw [← he.helper] at hcall
  have hcen := he.centre
  obtain ⟨e', p1, p2, p3, p4, p5, p6, p7, p8, p9, p10, p11⟩ := Ell.rounded_update (R := R) he.shaped hn hd he.symm (div_pos hl hκ) he.low'
    he.ent' hg hne (CutType.call kd (ParallelCut.mk β0 (some β1)) e.helper) hcall (ω := ω) (k := √κ') (r := r) (s := s) (ζ₁ := 25 * h)
    (ζ := 26 * h) (η := slabE n l H w * h) (D := √e.kappa.val * (h * slabF n l H P w)) hω (Real.sqrt_pos.2 hκ'0) hgood.sig0 hgood.sig1 hr0
    hrW hρE hσE (by linarith) (by linarith) (by rw [he.err]; linarith) (by linarith) (mul_nonneg hE0 hh0) (by linarith)
    (slab_loss hn hl hH hw0 hκ hh0 hgap) (by positivity)
    (slab_drift h0 (by linarith) hn hl hH hcen (norm2_nonneg _) hw0 hκ hκ'4 hgap)
  have hs1 : 0 < 1 - s := by linarith [hgood.sig1]
  have hδ0 : 0 < δ.val := hδn.pos hv1 hd0
  obtain ⟨q1, q2⟩ := slab_kappa h0 hu1 hκ hd0 (h12.trans hθ) (by linarith) hδe
    (Near.rnd (R := R) hu1 (x := e.kappa.val * δ.val) (by positivity))
  have hke : e'.kappa.val = R.rnd (e.kappa.val * δ.val) := by rw [p5]; rfl
  rw [← hke] at q1 q2
  have hκd : 0 < e.kappa.val * d := mul_pos hκ hd0
  have hhκd := mul_le_mul_of_nonneg_right hh hκd.le
  have hκn0 : 0 < e'.kappa.val := by linarith
  have hκn2 : e.kappa.val * d / 2 ≤ e'.kappa.val := by linarith
  refine ⟨e', by rw [Ell.update_eq]; exact p1, p2, p3.trans he.helper, hκn0, p6, ?_, ?_, ?_, ?_, ?_⟩
  · intro v
    have a := p7 v
    have b := mul_le_mul_of_nonneg_left a hκn0.le
    refine le_trans ?_ b
    rw [← mul_assoc]
    refine mul_le_mul_of_nonneg_right ?_ (dot_self_nonneg' v)
    exact slab_lower hκ hl hn2 hw0 hdl (by linarith) hgap hκn2
  · intro i j
    exact slab_entries hκ hh0 hh hH hd0 hdu q2 rfl (abs_nonneg _) (p8 i j)
  · have hpos' : (e'.mq.flMat n).PosDef := posDef_of_lower p6 (by
      have : 0 < 1 - slabE n l H w * h := by linarith
      positivity) p7
    rw [det_smul, det_smul, Fintype.card_fin]
    exact slab_volume hκ hκn0.le q2 hd0.le hs1.le hE0 hh0 hM.det_pos.le hpos'.det_pos.le p9 hvol (by
      have : 0 ≤ n * ((slabE n l H w + 24) * h) := by positivity
      linarith) hε1
  · rw [p10, hTh]
    rw [hTκ]
    exact slab_tsq hu hκω hω0 hh hk1
  · intro a ha0 ha1 x hx hxe
    have hxs : g.flVec n ⬝ᵥ (x - e.xc.flVec n) + b0 ≤ 0 ∧ ∀ b ∈ some β1.val, 0 ≤ g.flVec n ⬝ᵥ (x - e.xc.flVec n) + b := hx
    have hgood' : GoodCut (κ' * (g.flVec n ⬝ᵥ (e.mq.flMat n *ᵥ g.flVec n))) b0 β1.val r s d := by
      rw [← hω, ← hTκ]; exact hgood
    have a1 := slab_exact hM hne hgood' hxe hxs.1 (hxs.2 _ rfl)
    rw [← hω] at a1
    have a2 : x ∈ ellipsoid (cutM (e.mq.flMat n) (g.flVec n) s) (e.kappa.val * (d + a + 10 * h))
        (e.xc.flVec n - (r / ω) • (e.mq.flMat n *ᵥ g.flVec n)) := by
      refine le_trans (show (x - _) ⬝ᵥ (_ *ᵥ (x - _)) ≤ _ from a1) ?_
      exact slab_size hκ hh0 hd0 hdu hk1 hk2
    refine le_trans (show (x - _) ⬝ᵥ (_ *ᵥ (x - _)) ≤ _ from p11 _ x a2) ?_
    refine slab_infl hκ hw0 hdl hdu ha0 ha1 hh0 (by linarith) hF0 hE0 hε0 hε1 ?_ (by linarith) (by linarith) q1 hd1
    rw [div_mul_div_comm, le_div_iff₀ (by positivity), one_mul]
    have : w ^ 4 ≤ w := pow_le_of_le_one hw0.le hw1 (by norm_num)
    linarith

end Ellalgo
