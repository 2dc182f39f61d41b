import Verif.Props.Binary64Huge
import Verif.Props.Binary64Stable

/-! C99: concrete cases. -/

namespace Ellalgo
open B64

/-- the value of a finite number -/
def B64.Is (a : B64) (x : ℝ) : Prop := a.Finite ∧ a.val = x

namespace B64

/-- a real number that is a binary64 number -/
def Exact (x : ℝ) : Prop := rnd64 x = x ∧ |x| < (2 : ℝ) ^ (1024 : ℤ)

theorem exact_pow {k : ℤ} (h1 : -1074 ≤ k) (h2 : k < 1024) : Exact ((2 : ℝ) ^ k) :=
  ⟨rnd64_pow h1, by rw [abs_of_pos (by positivity)]; exact zpow_lt_zpow_right₀ (by norm_num) h2⟩

theorem exact_zero : Exact 0 := ⟨rnd64_zero, by rw [abs_zero]; positivity⟩

/-- numbers `m / 2^6` with a small numerator -/
theorem exact_dy (m : ℤ) (h : |m| ≤ 1000) : Exact (m * (2 : ℝ) ^ (-6 : ℤ)) := by
  refine ⟨rnd64_rep m _ (h.trans (by norm_num)) (by norm_num), ?_⟩
  have h1 : |(m : ℝ)| ≤ 1000 := by exact_mod_cast h
  rw [abs_mul, abs_of_pos (by positivity : (0 : ℝ) < (2 : ℝ) ^ (-6 : ℤ))]
  have h2 : (2 : ℝ) ^ (10 : ℤ) ≤ (2 : ℝ) ^ (1024 : ℤ) := zpow_le_zpow_right₀ (by norm_num) (by norm_num)
  have h3 : |(m : ℝ)| * (2 : ℝ) ^ (-6 : ℤ) ≤ 1000 * 1 :=
    mul_le_mul h1 (zpow_le_one_of_nonpos₀ (by norm_num) (by norm_num)) (by positivity) (by norm_num)
  have h4 : (1000 * 1 : ℝ) < (2 : ℝ) ^ (10 : ℤ) := by norm_num
  exact lt_of_le_of_lt h3 (lt_of_lt_of_le h4 h2)

theorem ex {x : ℝ} (m : ℤ) (h : x = m / 64) (hm : |m| ≤ 1000) : Exact x := by
  have := exact_dy m hm
  rw [show (m : ℝ) * (2 : ℝ) ^ (-6 : ℤ) = x by rw [h, zpow_neg]; norm_num; ring] at this
  exact this

theorem is_ofReal {s : Bool} {x : ℝ} (h : Exact x) : (ofReal s x).Is x := by
  have := ofReal_val (s := s) (x := x) (by rw [h.1]; exact h.2)
  rwa [h.1] at this

theorem Is.add {a b : B64} {x y z : ℝ} (ha : a.Is x) (hb : b.Is y) (hz : x + y = z) (h : Exact z) : (a + b).Is z := by
  rw [finite_add ha.1 hb.1, ha.2, hb.2, hz]; exact is_ofReal h
theorem Is.mul {a b : B64} {x y z : ℝ} (ha : a.Is x) (hb : b.Is y) (hz : x * y = z) (h : Exact z) : (a * b).Is z := by
  rw [finite_mul ha.1 hb.1, ha.2, hb.2, hz]; exact is_ofReal h
theorem Is.neg {a : B64} {x : ℝ} (ha : a.Is x) : (B64.neg a).Is (-x) := by
  obtain ⟨h1, h2⟩ := ha
  cases a with
  | nan => exact h1.elim
  | inf s => exact h1.elim
  | zero s => exact ⟨trivial, by rw [← h2]; simp [val, B64.neg]⟩
  | num a => exact ⟨trivial, by rw [← h2]; rfl⟩
theorem Is.sub {a b : B64} {x y z : ℝ} (ha : a.Is x) (hb : b.Is y) (hz : x - y = z) (h : Exact z) : (a - b).Is z :=
  Is.add ha hb.neg (by rw [← hz]; ring) h
theorem Is.div {a b : B64} {x y z : ℝ} (ha : a.Is x) (hb : b.Is y) (hy : y ≠ 0) (hz : x / y = z) (h : Exact z) : (a / b).Is z := by
  have key : a / b = ofReal (a.sgn ^^ b.sgn) (a.val / b.val) := by
    obtain ⟨h1, h2⟩ := ha
    obtain ⟨h3, h4⟩ := hb
    cases b with
    | nan => exact h3.elim
    | inf s => exact h3.elim
    | zero s => exact absurd h4.symm hy
    | num b => cases a <;> first | exact h1.elim | rfl
  rw [key, ha.2, hb.2, hz]; exact is_ofReal h
theorem Is.sqrt {a : B64} {x z : ℝ} (ha : a.Is x) (hz : Real.sqrt x = z) (hx : 0 < x) (h : Exact z) : (Scalar.sqrt a).Is z := by
  obtain ⟨h1, h2⟩ := ha
  cases a with
  | nan => exact h1.elim
  | inf s => exact h1.elim
  | zero s => exact absurd h2 hx.ne
  | num a =>
    have h2 : a.x = x := h2
    have : Scalar.sqrt (num a) = ofReal false (Real.sqrt a.x) := by
      show B64.sqrt (num a) = _
      simp only [B64.sqrt]
      rw [if_neg (by rw [h2]; exact not_lt.2 hx.le)]
    rw [this, h2, hz]; exact is_ofReal h
theorem Is.lt {a b : B64} {x y : ℝ} (ha : a.Is x) (hb : b.Is y) : Scalar.lt a b = true ↔ x < y := by
  obtain ⟨h1, h2⟩ := ha
  obtain ⟨h3, h4⟩ := hb
  subst h2 h4
  cases a <;> cases b <;> first | exact h1.elim | exact h3.elim | exact decide_eq_true_iff
theorem Is.small {a : B64} {x : ℝ} {t : ℤ} (ha : a.Is x) (h : |x| ≤ (2 : ℝ) ^ t) : Small t a := ⟨ha.1, by rw [ha.2]; exact h⟩
theorem is_one : (1 : B64).Is 1 := by rw [one_eq]; exact ⟨trivial, rfl⟩
theorem is_zero : (0 : B64).Is 0 := ⟨trivial, rfl⟩

end B64

namespace ExB64

/-- a half-plane `{x | g·x + c ≤ 0}` as a feasibility oracle -/
noncomputable def halfPlane (g : Arr B64) (c : B64) : OracleFeas Unit (Arr B64) (SingleCut B64) B64 where
  assess _ x := do
    let s ← g.dot x
    if Scalar.gt (s + c) 0 then .ok (some (g, ⟨s + c⟩), ()) else .ok (none, ())
  update _ _ := .ok ()

/-- the number `2^k` -/
noncomputable def p2 (k : ℤ) : B64 := ofReal false ((2 : ℝ) ^ k)
theorem p2_is {k : ℤ} (h1 : -1074 ≤ k) (h2 : k < 1024) : (p2 k).Is ((2 : ℝ) ^ k) := is_ofReal (exact_pow h1 h2)

/-- the unit disc -/
noncomputable def disc : Ell B64 := Ell.newWithMatrix 1 ⟨[1, 0, 0, 1], 2, 2⟩ ⟨[0, 0], 2, 0⟩
theorem disc_new : Ell.newWithScalar (1 : B64) ⟨[0, 0], 2, 0⟩ = .ok disc := rfl
theorem disc_shaped : disc.Shaped 2 := ⟨⟨rfl, rfl, rfl⟩, ⟨rfl, rfl, rfl⟩⟩

/-- the half-plane `x₀ ≤ -1/4` -/
noncomputable def plane : OracleFeas Unit (Arr B64) (SingleCut B64) B64 := halfPlane ⟨[1, 0], 2, 0⟩ (p2 (-2))
/-- the same half-plane, with the coefficients multiplied by `2⁻⁶²⁰` -/
noncomputable def planeS : OracleFeas Unit (Arr B64) (SingleCut B64) B64 := halfPlane ⟨[p2 (-620), 0], 2, 0⟩ (p2 (-622))

/-- both half-planes are the same set, and it has an inner point in the disc with a disc of radius `1/4` around it -/
example (x y : ℝ) : (1 * x + 0 * y + (2 : ℝ) ^ (-2 : ℤ) ≤ 0 ↔ (2 : ℝ) ^ (-620 : ℤ) * x + 0 * y + (2 : ℝ) ^ (-622 : ℤ) ≤ 0) ∧
    ((x + 1 / 2) ^ 2 + y ^ 2 ≤ (1 / 4) ^ 2 → x ^ 2 + y ^ 2 ≤ 1 ∧ 1 * x + 0 * y + (2 : ℝ) ^ (-2 : ℤ) ≤ 0) := by
  have hp : (0 : ℝ) < (2 : ℝ) ^ (-620 : ℤ) := by positivity
  have e2 : (2 : ℝ) ^ (-2 : ℤ) = 1 / 4 := by norm_num [zpow_neg]
  have e : (2 : ℝ) ^ (-622 : ℤ) = (2 : ℝ) ^ (-620 : ℤ) * (1 / 4) := by
    rw [show (-622 : ℤ) = -620 + -2 by norm_num, zpow_add₀ (by norm_num), e2]
  constructor
  · rw [e, e2, show (2 : ℝ) ^ (-620 : ℤ) * x + 0 * y + (2 : ℝ) ^ (-620 : ℤ) * (1 / 4) =
      (2 : ℝ) ^ (-620 : ℤ) * (1 * x + 0 * y + 1 / 4) by ring]
    generalize (2 : ℝ) ^ (-620 : ℤ) = q at hp
    constructor
    · intro h; exact mul_nonpos_of_nonneg_of_nonpos hp.le h
    · intro h; exact nonpos_of_mul_nonpos_right h hp
  · rw [e2]
    intro h
    have h1 : (x + 1 / 2) ^ 2 ≤ (1 / 4) ^ 2 := by nlinarith [sq_nonneg y]
    have h2 := abs_le_of_sq_le_sq' h1 (by norm_num)
    constructor
    · nlinarith
    · linarith [h2.2]

/-- the default tolerance `1e-20` -/
theorem tol_is : (Options.default (α := B64)).tolerance.Finite ∧ 0 < (Options.default (α := B64)).tolerance.val ∧
    (Options.default (α := B64)).tolerance.val ≤ 1 := by
  have hd : (dec 1 20 : ℝ) = 1 / 10 ^ 20 := by
    show ((1 : ℕ) : ℝ) / 10 ^ 20 = _
    norm_num
  have h1 : rnd64 (dec 1 20) ≤ 1 := by
    have := rnd64_mono (x := dec 1 20) (y := 1) (by rw [hd]; norm_num)
    rwa [rnd64_one] at this
  have h2 : (2 : ℝ) ^ (-70 : ℤ) ≤ rnd64 (dec 1 20) := by
    have := rnd64_mono (x := (2 : ℝ) ^ (-70 : ℤ)) (y := dec 1 20) (by rw [hd, zpow_neg]; norm_num)
    rwa [rnd64_pow (by norm_num)] at this
  have h3 : 0 < rnd64 (dec 1 20) := lt_of_lt_of_le (by positivity) h2
  have h4 : |rnd64 (dec 1 20)| < (2 : ℝ) ^ (1024 : ℤ) := by
    rw [abs_of_pos h3]
    exact lt_of_le_of_lt h1 (one_lt_zpow₀ (by norm_num) (by norm_num))
  obtain ⟨h5, h6⟩ := ofReal_val (s := false) h4
  have h6 : (Options.default (α := B64)).tolerance.val = rnd64 (dec 1 20) := h6
  exact ⟨h5, by rw [h6]; exact h3, by rw [h6]; exact h1⟩

/-- **C99** (a scaled constraint)  The half-plane `x₀ ≤ -1/4` and the unit disc, default options.  Written with the coefficients
`(1, 0)` and `1/4`, `cutting_plane_feas` finds the point `(-1/2, 0)` in one iteration.  Written with the coefficients
`(2⁻⁶²⁰, 0)` and `2⁻⁶²²`, the same set, it returns `(None, 0)`. -/
theorem C99_scaled_constraint_infeasible :
    (∃ x e', cuttingPlaneFeas plane Ell.space () disc Options.default = .ok ((some x, 1), (), e') ∧ x.IsVecShape 2 ∧
      (x.vec 0).Is (-1 / 2) ∧ (x.vec 1).Is 0) ∧
    ∃ e', cuttingPlaneFeas planeS Ell.space () disc Options.default = .ok ((none, 0), (), e') := by
  have e0 : Exact 0 := exact_zero
  have e1 : Exact 1 := ex 64 (by norm_num) (by norm_num)
  constructor
  · -- the first assessment
    have hc : (p2 (-2)).Is (1 / 4) := by
      have := p2_is (k := -2) (by norm_num) (by norm_num)
      rwa [show (2 : ℝ) ^ (-2 : ℤ) = 1 / 4 by norm_num [zpow_neg]] at this
    obtain ⟨b, hb, hbe⟩ : ∃ b : B64, b.Is (1 / 4) ∧ plane.assess () ⟨[0, 0], 2, 0⟩ = .ok (some (⟨[1, 0], 2, 0⟩, ⟨b⟩), ()) := by
      have hs : (((0 : B64) + 1 * 0) + 0 * 0 + p2 (-2)).Is (1 / 4) :=
        (((is_zero.add (is_one.mul is_zero (z := 0) (by norm_num) e0) (z := 0) (by norm_num) e0).add
          (is_zero.mul is_zero (z := 0) (by norm_num) e0) (z := 0) (by norm_num) e0)).add hc (by norm_num)
          (ex 16 (by norm_num) (by norm_num))
      refine ⟨_, hs, ?_⟩
      have hlt := (is_zero.lt hs).2 (by norm_num)
      show (if Scalar.lt 0 (((0 : B64) + 1 * 0) + 0 * 0 + p2 (-2)) then _ else _) = _
      rw [hlt]
      rfl
    -- the update
    have hgt0 : (Ell.gt 2 disc.mq.mat (Arr.vec ⟨[1, 0], 2, 0⟩) 0).Is 1 := by
      show (((0 : B64) + 1 * 1) + 0 * 0).Is 1
      exact (is_zero.add (is_one.mul is_one (z := 1) (by norm_num) e1) (z := 1) (by norm_num) e1).add
        (is_zero.mul is_zero (z := 0) (by norm_num) e0) (by norm_num) e1
    have hgt1 : (Ell.gt 2 disc.mq.mat (Arr.vec ⟨[1, 0], 2, 0⟩) 1).Is 0 := by
      show (((0 : B64) + 0 * 1) + 1 * 0).Is 0
      exact (is_zero.add (is_zero.mul is_one (z := 0) (by norm_num) e0) (z := 0) (by norm_num) e0).add
        (is_one.mul is_zero (z := 0) (by norm_num) e0) (by norm_num) e0
    have hom : (Ell.om 2 disc.mq.mat (Arr.vec ⟨[1, 0], 2, 0⟩)).Is 1 := by
      show (((0 : B64) + 1 * Ell.gt 2 disc.mq.mat (Arr.vec ⟨[1, 0], 2, 0⟩) 0) +
        0 * Ell.gt 2 disc.mq.mat (Arr.vec ⟨[1, 0], 2, 0⟩) 1).Is 1
      exact (is_zero.add (is_one.mul hgt0 (z := 1) (by norm_num) e1) (z := 1) (by norm_num) e1).add
        (is_zero.mul hgt1 (z := 0) (by norm_num) e0) (by norm_num) e1
    have htsq : (disc.kappa * Ell.om 2 disc.mq.mat (Arr.vec ⟨[1, 0], 2, 0⟩)).Is 1 := is_one.mul hom (by norm_num) e1
    have hlt : Scalar.lt (disc.kappa * Ell.om 2 disc.mq.mat (Arr.vec ⟨[1, 0], 2, 0⟩)) (b * b) = false := by
      have := (htsq.lt (hb.mul hb (z := 1 / 16) (by norm_num) (ex 4 (by norm_num) (by norm_num)))).not.2 (by norm_num)
      simpa using this
    have htau := htsq.sqrt (z := 1) (by simp) (by norm_num) e1
    have hnat : (nat 2 : B64).Is 2 := is_ofReal (s := false) (x := ((2 : ℕ) : ℝ)) (ex 128 (by norm_num) (by norm_num))
    have hrho := (htau.add (hnat.mul hb (z := 1 / 2) (by norm_num) (ex 32 (by norm_num) (by norm_num))) (z := 3 / 2) (by norm_num)
      (ex 96 (by norm_num) (by norm_num))).div (hnat.add is_one (z := 3) (by norm_num) (ex 192 (by norm_num) (by norm_num)))
      (by norm_num) (z := 1 / 2) (by norm_num) (ex 32 (by norm_num) (by norm_num))
    have hro := hrho.div hom (by norm_num) (z := 1 / 2) (by norm_num) (ex 32 (by norm_num) (by norm_num))
    have hcall : CutType.callBias (⟨b⟩ : SingleCut B64) disc.helper (disc.kappa * Ell.om 2 disc.mq.mat (Arr.vec ⟨[1, 0], 2, 0⟩)) =
        (.success, disc.helper.helper.calcBiasCut b
          (Scalar.sqrt (disc.kappa * Ell.om 2 disc.mq.mat (Arr.vec ⟨[1, 0], 2, 0⟩)))) := by
      show (if Scalar.lt _ (b * b) then _ else _) = _
      rw [hlt]
      rfl
    rcases Ell.updateCore_spec disc_shaped.1.isMat disc_shaped.2.isVec
      (show (⟨[1, 0], 2, 0⟩ : Arr B64).IsVecShape 2 from ⟨rfl, rfl, rfl⟩).isVec (by norm_num) _ hcall with
      ⟨h, -⟩ | ⟨-, e', h2, h3, h4, h5, h6, h7, h8⟩
    · exact absurd rfl h
    have x0 : (e'.xc.vec 0).Is (-1 / 2) := by
      rw [show e'.xc.vec 0 = _ from Option.some.inj ((by
        have := h4.get 0 (by norm_num); rw [Arr.vec, List.getD_eq_getElem?_getD, this] : some (e'.xc.vec 0) = some _))]
      exact is_zero.sub (hro.mul hgt0 (z := 1 / 2) (by norm_num) (ex 32 (by norm_num) (by norm_num))) (by norm_num)
        (ex (-32) (by norm_num) (by norm_num))
    have x1 : (e'.xc.vec 1).Is 0 := by
      rw [show e'.xc.vec 1 = _ from Option.some.inj ((by
        have := h4.get 1 (by norm_num); rw [Arr.vec, List.getD_eq_getElem?_getD, this] : some (e'.xc.vec 1) = some _))]
      exact is_zero.sub (hro.mul hgt1 (z := 0) (by norm_num) e0) (by norm_num) e0
    have hx : e'.xc.IsVecShape 2 := h4.shape
    -- the second assessment
    have h2nd : plane.assess () e'.xc = .ok (none, ()) := by
      have hd := dot_spec (show (⟨[1, 0], 2, 0⟩ : Arr B64).IsVecShape 2 from ⟨rfl, rfl, rfl⟩).isVec hx.isVec
      have hs : ((((0 : B64) + 1 * e'.xc.vec 0) + 0 * e'.xc.vec 1) + p2 (-2)).Is (-1 / 4) :=
        (((is_zero.add (is_one.mul x0 (z := -1 / 2) (by norm_num) (ex (-32) (by norm_num) (by norm_num))) (z := -1 / 2) (by norm_num)
          (ex (-32) (by norm_num) (by norm_num))).add
          (is_zero.mul x1 (z := 0) (by norm_num) e0) (z := -1 / 2) (by norm_num) (ex (-32) (by norm_num) (by norm_num)))).add hc
          (by norm_num) (ex (-16) (by norm_num) (by norm_num))
      have hlt : Scalar.lt 0 ((((0 : B64) + 1 * e'.xc.vec 0) + 0 * e'.xc.vec 1) + p2 (-2)) = false := by
        have := (is_zero.lt hs).not.2 (by norm_num)
        simpa using this
      have hd : (⟨[1, 0], 2, 0⟩ : Arr B64).dot e'.xc = .ok (((0 : B64) + 1 * e'.xc.vec 0) + 0 * e'.xc.vec 1) := hd
      show (do
        let s ← (⟨[1, 0], 2, 0⟩ : Arr B64).dot e'.xc
        if Scalar.gt (s + p2 (-2)) 0 then Res.ok (some ((⟨[1, 0], 2, 0⟩ : Arr B64), (⟨s + p2 (-2)⟩ : SingleCut B64)), ())
          else Res.ok (none, ())) = _
      rw [hd, Res.ok_bind]
      show (if Scalar.lt 0 _ then _ else _) = _
      rw [hlt]
      rfl
    have htol : Scalar.lt e'.tsq (Options.default (α := B64)).tolerance = false := by
      rw [h8]
      have := (htsq.lt ⟨tol_is.1, rfl⟩).not.2 (not_lt.2 tol_is.2.2)
      simpa using this
    refine ⟨e'.xc, e', ?_, hx, x0, x1⟩
    show feasLoop plane Ell.space _ (1998 + 1 + 1) 0 () disc = _
    rw [feasLoop]
    have hbe : plane.assess () ((Ell.space (T := SingleCut B64)).xc disc) = .ok (some (⟨[1, 0], 2, 0⟩, ⟨b⟩), ()) := hbe
    have h2 : (Ell.space (T := SingleCut B64)).updateBias disc (⟨[1, 0], 2, 0⟩, ⟨b⟩) = .ok (.success, e') := h2
    have htol : Scalar.lt ((Ell.space (T := SingleCut B64)).tsq e') (Options.default (α := B64)).tolerance = false := htol
    simp only [hbe, Res.ok_bind, h2, htol, bne_self_eq_false, Bool.or_self, Bool.false_eq_true, if_false]
    rw [feasLoop]
    have h2nd : plane.assess () ((Ell.space (T := SingleCut B64)).xc e') = .ok (none, ()) := h2nd
    simp only [h2nd, Res.ok_bind]
    rfl
  · have hg0 := p2_is (k := -620) (by norm_num) (by norm_num)
    have hc := p2_is (k := -622) (by norm_num) (by norm_num)
    have hs : ((((0 : B64) + p2 (-620) * 0) + 0 * 0) + p2 (-622)).Is ((2 : ℝ) ^ (-622 : ℤ)) :=
      ((is_zero.add (hg0.mul is_zero (z := 0) (mul_zero _) e0) (z := 0) (by norm_num) e0).add
        (is_zero.mul is_zero (z := 0) (by norm_num) e0) (z := 0) (by norm_num) e0).add hc (zero_add _)
        (exact_pow (by norm_num) (by norm_num))
    have hlt := (is_zero.lt hs).2 (by positivity)
    refine C99_feas_gives_up (n := 2) (s := 0) (t := -620) (by norm_num) planeS () disc disc_shaped is_one.1 Options.default
      (by show 0 < 2000; norm_num) ((is_zero.lt ⟨tol_is.1, rfl⟩).2 tol_is.2.1) ⟨[p2 (-620), 0], 2, 0⟩
      ⟨(((0 : B64) + p2 (-620) * 0) + 0 * 0) + p2 (-622)⟩ () ?_ ⟨rfl, rfl, rfl⟩ ⟨?_, ?_, by norm_num, by norm_num, by norm_num⟩
    · show (if Scalar.lt 0 ((((0 : B64) + p2 (-620) * 0) + 0 * 0) + p2 (-622)) then _ else _) = _
      rw [hlt]
      rfl
    · intro v hv
      have hv : v ∈ [(1 : B64), 0, 0, 1] := hv
      simp only [List.mem_cons, List.not_mem_nil, or_false] at hv
      rcases hv with rfl | rfl | rfl | rfl
      · exact is_one.small (by simp)
      · exact is_zero.small (by simp)
      · exact is_zero.small (by simp)
      · exact is_one.small (by simp)
    · intro v hv
      have hv : v ∈ [p2 (-620), (0 : B64)] := hv
      simp only [List.mem_cons, List.not_mem_nil, or_false] at hv
      rcases hv with rfl | rfl
      · exact hg0.small (by rw [abs_of_pos (by positivity)])
      · exact is_zero.small (by rw [abs_zero]; positivity)

/-- the disc of radius `2^100`, the half-plane `x₀ ≤ -2^90` written with tiny coefficients: a cut through the disc, reported as
`NoSoln` -/
example : ∃ z, Ell.space.updateBias { disc with kappa := p2 200 } (⟨[p2 (-620), 0], 2, 0⟩, (⟨p2 (-530)⟩ : SingleCut B64)) =
    .ok (.noSoln, { disc with kappa := p2 200, tsq := .zero z }) := by
  have hg0 := p2_is (k := -620) (by norm_num) (by norm_num)
  have hb := p2_is (k := -530) (by norm_num) (by norm_num)
  refine C99_tiny_gradient_nosoln (n := 2) (s := 0) (t := -620) (by norm_num) { disc with kappa := p2 200 } disc_shaped
    (p2_is (k := 200) (by norm_num) (by norm_num)).1 _ ⟨rfl, rfl, rfl⟩ ⟨?_, ?_, by norm_num, by norm_num, by norm_num⟩ _
    ((is_zero.lt (hb.mul hb (z := (2 : ℝ) ^ (-1060 : ℤ)) (by rw [← zpow_add₀ (by norm_num)]; norm_num)
      (exact_pow (by norm_num) (by norm_num)))).2 (by positivity))
  · intro v hv
    have hv : v ∈ [(1 : B64), 0, 0, 1] := hv
    simp only [List.mem_cons, List.not_mem_nil, or_false] at hv
    rcases hv with rfl | rfl | rfl | rfl
    · exact is_one.small (by simp)
    · exact is_zero.small (by simp)
    · exact is_zero.small (by simp)
    · exact is_one.small (by simp)
  · intro v hv
    have hv : v ∈ [p2 (-620), (0 : B64)] := hv
    simp only [List.mem_cons, List.not_mem_nil, or_false] at hv
    rcases hv with rfl | rfl
    · exact hg0.small (by rw [abs_of_pos (by positivity)])
    · exact is_zero.small (by rw [abs_zero]; positivity)

/-- the unit disc and the half-plane `2^600 x₀ ≤ 0` -/
example : ∃ e e', Ell.newWithScalar (1 : B64) ⟨[0, 0], 2, 0⟩ = .ok e ∧
    Ell.space.update .central e (⟨[p2 600, 0], 2, 0⟩, (⟨0⟩ : SingleCut B64)) = .ok (.success, e') ∧
    e'.xc.IsVecShape 2 ∧ ∀ v ∈ e'.xc.data, v = .nan := by
  have hg0 := p2_is (k := 600) (by norm_num) (by norm_num)
  refine C99_huge_gradient (n := 2) (by norm_num) .central 1 is_one.1 (by rw [is_one.2]; norm_num) _ ⟨rfl, rfl, rfl⟩ _
    ⟨rfl, rfl, rfl⟩ ?_ ⟨p2 600, by simp, ?_⟩ 0
  · intro v hv
    simp only [List.mem_cons, List.not_mem_nil, or_false] at hv
    rcases hv with rfl | rfl
    · exact hg0.1
    · trivial
  · rw [hg0.2, abs_of_pos (by positivity)]
    exact zpow_le_zpow_right₀ (by norm_num) (by norm_num)

/-- the unit disc as an `EllStable`: the scaled half-plane is declared infeasible as well -/
example : ∃ e e', EllStable.newWithScalar (1 : B64) ⟨[0, 0], 2, 0⟩ = .ok e ∧
    cuttingPlaneFeas planeS EllStable.space () e Options.default = .ok ((none, 0), (), e') := by
  have e0 : Exact 0 := exact_zero
  have hg0 := p2_is (k := -620) (by norm_num) (by norm_num)
  have hc := p2_is (k := -622) (by norm_num) (by norm_num)
  have hs : ((((0 : B64) + p2 (-620) * 0) + 0 * 0) + p2 (-622)).Is ((2 : ℝ) ^ (-622 : ℤ)) :=
    ((is_zero.add (hg0.mul is_zero (z := 0) (mul_zero _) e0) (z := 0) (by norm_num) e0).add
      (is_zero.mul is_zero (z := 0) (by norm_num) e0) (z := 0) (by norm_num) e0).add hc (zero_add _)
      (exact_pow (by norm_num) (by norm_num))
  have hlt := (is_zero.lt hs).2 (by positivity)
  refine ⟨EllStable.newWithMatrix 1 ⟨[1, 0, 0, 1], 2, 2⟩ ⟨[0, 0], 2, 0⟩, ?_⟩
  have h := C99_feas_gives_up_stable (n := 2) (s := 0) (r := 0) (t := -620) (by norm_num) planeS ()
    (EllStable.newWithMatrix 1 ⟨[1, 0, 0, 1], 2, 2⟩ ⟨[0, 0], 2, 0⟩) ⟨⟨rfl, rfl, rfl⟩, ⟨rfl, rfl, rfl⟩⟩ is_one.1 Options.default
    (by show 0 < 2000; norm_num) ((is_zero.lt ⟨tol_is.1, rfl⟩).2 tol_is.2.1) ⟨[p2 (-620), 0], 2, 0⟩
    ⟨(((0 : B64) + p2 (-620) * 0) + 0 * 0) + p2 (-622)⟩ () ?_ ⟨rfl, rfl, rfl⟩
    ⟨?_, ?_, ?_, le_rfl, by norm_num, by norm_num, by norm_num, by norm_num, by norm_num⟩
  · obtain ⟨e', h⟩ := h
    exact ⟨e', rfl, h⟩
  · show (if Scalar.lt 0 ((((0 : B64) + p2 (-620) * 0) + 0 * 0) + p2 (-622)) then _ else _) = _
    rw [hlt]
    rfl
  · intro i hi
    interval_cases i <;> exact is_one.small (by simp)
  · intro i j hij hj
    interval_cases j
    · omega
    · interval_cases i
      exact is_zero.small (by simp)
  · intro i hi
    interval_cases i
    · exact hg0.small (by rw [abs_of_pos (by positivity)])
    · exact is_zero.small (by rw [abs_zero]; positivity)

end ExB64
end Ellalgo
