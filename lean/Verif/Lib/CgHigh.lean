import Verif.Lib.Approx
import Verif.Lib.CgMath
import Verif.Spec.CgIter
import Verif.Spec.Mat
import Verif.Lib.PowerFlMath

/-! The conjugate gradient iterates in rounded arithmetic stay close to the exact ones, uniformly over a class of systems. -/

namespace Ellalgo
open Matrix
variable {κ : Type} {K : ℝ → Set κ} {c c' : ∀ u, Rounding u → κ → ℝ} {e e' : κ → ℝ}

theorem sqrt_sub_le {a b : ℝ} (ha : 0 ≤ a) (hb : 0 ≤ b) : |√a - √b| ≤ √|a - b| := by
  have key : ∀ a b : ℝ, 0 ≤ a → 0 ≤ b → √a - √b ≤ √|a - b| := by
    intro a b ha hb
    rw [sub_le_iff_le_add]
    refine Real.sqrt_le_iff.2 ⟨by positivity, ?_⟩
    have h1 := Real.sq_sqrt hb
    have h2 := Real.sq_sqrt (abs_nonneg (a - b))
    have h3 := mul_nonneg (Real.sqrt_nonneg |a - b|) (Real.sqrt_nonneg b)
    have h4 := le_abs_self (a - b)
    nlinarith
  rw [_root_.abs_le]
  have h1 := key a b ha hb
  have h2 := key b a hb ha
  rw [abs_sub_comm] at h2
  constructor <;> linarith

theorem Appr.sqrt (h : Appr K c e) (h0 : ∀ u, 0 ≤ u → ∀ k ∈ K u, 0 ≤ e k) : Appr K (fun u R k => √(c u R k)) fun k => √(e k) := by
  obtain ⟨M, hM0, hM⟩ := h.bdd
  refine ⟨⟨√M, Real.sqrt_nonneg _, fun u hu k hk => ?_⟩, fun ε hε => ?_⟩
  · rw [abs_of_nonneg (Real.sqrt_nonneg _)]
    exact Real.sqrt_le_sqrt ((le_abs_self _).trans (hM u hu k hk))
  · obtain ⟨u1, p1, h1⟩ := h.close (ε ^ 2) (by positivity)
    refine ⟨u1, p1, fun u hu R k hk => ?_⟩
    have a1 := h1 u hu R k hk
    have a2 := h0 u R.unit_nonneg k hk
    have e1 : √(c u R k) = √(max (c u R k) 0) := by
      rcases le_total 0 (c u R k) with h | h
      · rw [max_eq_left h]
      · rw [max_eq_right h, Real.sqrt_eq_zero_of_nonpos h, Real.sqrt_zero]
    have a3 : |max (c u R k) 0 - e k| ≤ ε ^ 2 := by
      rcases le_total 0 (c u R k) with h | h
      · rw [max_eq_left h]; exact a1
      · rw [max_eq_right h]
        refine le_trans ?_ a1
        rw [zero_sub, abs_neg, abs_of_nonneg a2, abs_of_nonpos (by linarith)]
        linarith
    rw [e1]
    refine (sqrt_sub_le (le_max_right _ _) a2).trans ?_
    rw [← Real.sqrt_sq hε.le]
    exact Real.sqrt_le_sqrt a3

theorem Appr.div (h : Appr K c e) (h' : Appr K c' e') {m : ℝ} (hm : 0 < m) (hlow : ∀ u, 0 ≤ u → ∀ k ∈ K u, m ≤ e' k) :
    Appr K (fun u R k => c u R k / c' u R k) fun k => e k / e' k := by
  have h2 := h.mul (h'.inv hm hlow)
  simpa only [mul_one_div] using h2

/-- a computed left-to-right sum -/
theorem Appr.sumFl {n : Nat} {f : ∀ u (R : Rounding u), κ → Nat → Fl R} {g : κ → Nat → ℝ}
    (h : ∀ j < n, Appr K (fun u R k => (f u R k j).val) fun k => g k j) :
    Appr K (fun u R k => (sumTo n (f u R k)).val) fun k => sumTo n (g k) := by
  induction n with
  | zero => exact Appr.const 0
  | succ n ih => exact ((ih fun j hj => h j (by omega)).add (h n (by omega))).rnd

/-- an exact sum of computed terms -/
theorem Appr.sumEx {n : Nat} {f : ∀ u, Rounding u → κ → Nat → ℝ} {g : κ → Nat → ℝ}
    (h : ∀ j < n, Appr K (fun u R k => f u R k j) fun k => g k j) :
    Appr K (fun u R k => sumTo n (f u R k)) fun k => sumTo n (g k) := by
  induction n with
  | zero => exact Appr.const 0
  | succ n ih => exact (ih fun j hj => h j (by omega)).add (h n (by omega))

/-- a finite number of smallness conditions on the unit can be met together -/
theorem small_units {P : Nat → ℝ → Prop} (n : Nat) (h : ∀ j ≤ n, ∃ u0 > 0, ∀ u ≤ u0, P j u) : ∃ u0 > 0, ∀ u ≤ u0, ∀ j ≤ n, P j u := by
  induction n with
  | zero =>
    obtain ⟨u0, h1, h2⟩ := h 0 le_rfl
    refine ⟨u0, h1, fun u hu j hj => ?_⟩
    obtain rfl : j = 0 := by omega
    exact h2 u hu
  | succ n ih =>
    obtain ⟨u0, h1, h2⟩ := ih fun j hj => h j (by omega)
    obtain ⟨u1, h3, h4⟩ := h (n + 1) le_rfl
    refine ⟨min u0 u1, lt_min h1 h3, fun u hu j hj => ?_⟩
    rcases Nat.le_succ_iff.1 hj with h | rfl
    · exact h2 u (hu.trans (min_le_left _ _)) j h
    · exact h4 u (hu.trans (min_le_right _ _))

/-- a linear system with a starting point -/
structure CgData where
  A : Nat → Nat → ℝ
  b : Nat → ℝ
  x : Nat → ℝ

variable {n : Nat}

/-- the matrix of a system -/
def CgData.mat (n : Nat) (k : CgData) : Matrix (Fin n) (Fin n) ℝ := fun i j => k.A i j

/-- the exact iterates -/
noncomputable def CgData.exact (n : Nat) (k : CgData) (j : Nat) : CgIt ℝ := cgAt n k.A k.b k.x j
/-- the computed ones -/
noncomputable def CgData.comp (n : Nat) (k : CgData) {u : ℝ} (R : Rounding u) (j : Nat) : CgIt (Fl R) :=
  cgAt n (fun i j => (⟨k.A i j⟩ : Fl R)) (fun i => ⟨k.b i⟩) (fun i => ⟨k.x i⟩) j

/-- the exact state in the form of `Lib/CgMath` -/
noncomputable def CgData.start (n : Nat) (k : CgData) : CgSt n :=
  ⟨fun i => k.x i, fun i => (k.exact n 0).r i, fun i => (k.exact n 0).p i⟩

theorem mulV_real (k : CgData) (v : Nat → ℝ) (i : Fin n) : mulV n k.A v i = (k.mat n *ᵥ fun j : Fin n => v j) i := by
  rw [mulV, sumTo_fin]; rfl

theorem dotV_real (v w : Nat → ℝ) : dotV n v w = (fun i : Fin n => v i) ⬝ᵥ fun i : Fin n => w i := by
  rw [dotV, sumTo_fin]; rfl

theorem curv_real (k : CgData) (s : CgIt ℝ) :
    s.curv n k.A = (fun i : Fin n => s.p i) ⬝ᵥ (k.mat n *ᵥ fun i : Fin n => s.p i) := by
  rw [CgIt.curv, dotV_real]
  congr 1
  funext i
  exact mulV_real _ _ i

theorem exact_link (k : CgData) (j : Nat) :
    (cgIter (k.mat n) (k.start n) j).x = (fun i : Fin n => (k.exact n j).x i) ∧
    (cgIter (k.mat n) (k.start n) j).r = (fun i : Fin n => (k.exact n j).r i) ∧
    (cgIter (k.mat n) (k.start n) j).p = (fun i : Fin n => (k.exact n j).p i) ∧
    (k.exact n j).rr = (cgIter (k.mat n) (k.start n) j).r ⬝ᵥ (cgIter (k.mat n) (k.start n) j).r := by
  induction j with
  | zero => exact ⟨rfl, rfl, rfl, dotV_real _ _⟩
  | succ j ih =>
    obtain ⟨h1, h2, h3, h4⟩ := ih
    have hc : (k.exact n j).curv n k.A = (cgIter (k.mat n) (k.start n) j).p ⬝ᵥ (k.mat n *ᵥ (cgIter (k.mat n) (k.start n) j).p) := by
      rw [h3]; exact curv_real k _
    obtain ⟨t, ht⟩ : ∃ t, t = cgIter (k.mat n) (k.start n) j := ⟨_, rfl⟩
    have hst : cgIter (k.mat n) (k.start n) (j + 1) = cgStep (k.mat n) t := by rw [ht]; rfl
    rw [hst]
    rw [← ht] at h1 h2 h3 h4 hc
    have sx : (cgStep (k.mat n) t).x = t.x + ((t.r ⬝ᵥ t.r) / (t.p ⬝ᵥ (k.mat n *ᵥ t.p))) • t.p := rfl
    have sr : (cgStep (k.mat n) t).r = t.r - ((t.r ⬝ᵥ t.r) / (t.p ⬝ᵥ (k.mat n *ᵥ t.p))) • (k.mat n *ᵥ t.p) := rfl
    have sp : (cgStep (k.mat n) t).p = (cgStep (k.mat n) t).r +
      (((cgStep (k.mat n) t).r ⬝ᵥ (cgStep (k.mat n) t).r) / (t.r ⬝ᵥ t.r)) • t.p := rfl
    have er : (cgStep (k.mat n) t).r = (fun i : Fin n => (k.exact n (j + 1)).r i) := by
      funext i
      have : (k.exact n (j + 1)).r i = (k.exact n j).r i - (k.exact n j).rr / (k.exact n j).curv n k.A *
        mulV n k.A (k.exact n j).p i := rfl
      rw [this, mulV_real, hc, h4, ← h3, sr, Pi.sub_apply, Pi.smul_apply, smul_eq_mul, congrFun h2 i]
    have err : (k.exact n (j + 1)).rr = (cgStep (k.mat n) t).r ⬝ᵥ (cgStep (k.mat n) t).r := by
      rw [er]; exact dotV_real _ _
    refine ⟨?_, er, ?_, err⟩
    · funext i
      have : (k.exact n (j + 1)).x i = (k.exact n j).x i + (k.exact n j).rr / (k.exact n j).curv n k.A *
        (k.exact n j).p i := rfl
      rw [this, hc, h4, sx, Pi.add_apply, Pi.smul_apply, smul_eq_mul, congrFun h1 i, congrFun h3 i]
    · funext i
      have : (k.exact n (j + 1)).p i = (k.exact n (j + 1)).r i + (k.exact n (j + 1)).rr / (k.exact n j).rr * (k.exact n j).p i := rfl
      rw [this, err, h4, sp, Pi.add_apply, Pi.smul_apply, smul_eq_mul, congrFun er i, congrFun h3 i]

/-- the residual the exact recurrence carries is the true one -/
theorem exact_residual (k : CgData) (j : Nat) (i : Fin n) :
    (k.exact n j).r i = k.b i - mulV n k.A (k.exact n j).x i := by
  induction j generalizing i with
  | zero => rfl
  | succ j ih =>
    show (k.exact n j).r i - (k.exact n j).rr / (k.exact n j).curv n k.A * mulV n k.A (k.exact n j).p i = _
    rw [ih, mulV_real, mulV_real, mulV_real]
    have e : (fun l : Fin n => (k.exact n (j + 1)).x l) = (fun l : Fin n => (k.exact n j).x l) +
        ((k.exact n j).rr / (k.exact n j).curv n k.A) • fun l : Fin n => (k.exact n j).p l := by
      funext l; rfl
    rw [e, mulVec_add, mulVec_smul]
    simp only [Pi.add_apply, Pi.smul_apply, smul_eq_mul]
    ring

/-- the systems: entries up to `M`, symmetric, curvature at least `lo`, and exact residuals not yet small before step `j` -/
def cgClass (n : Nat) (lo M m : ℝ) (j : Nat) : ℝ → Set CgData := fun _ =>
  {k | (∀ i < n, ∀ l < n, |k.A i l| ≤ M) ∧ (∀ i < n, |k.b i| ≤ M) ∧ (∀ i < n, |k.x i| ≤ M) ∧ (k.mat n).IsSymm ∧
    (∀ v : Fin n → ℝ, lo * (v ⬝ᵥ v) ≤ v ⬝ᵥ (k.mat n *ᵥ v)) ∧ ∀ i < j, m ≤ (k.exact n i).rr}

variable {lo M m : ℝ}

theorem cgClass_succ {j : Nat} {u : ℝ} {k : CgData} (h : k ∈ cgClass n lo M m (j + 1) u) : k ∈ cgClass n lo M m j u :=
  ⟨h.1, h.2.1, h.2.2.1, h.2.2.2.1, h.2.2.2.2.1, fun i hi => h.2.2.2.2.2 i (by omega)⟩

theorem posOf (hlo : 0 < lo) {A : Matrix (Fin n) (Fin n) ℝ} (h : ∀ v : Fin n → ℝ, lo * (v ⬝ᵥ v) ≤ v ⬝ᵥ (A *ᵥ v)) (v : Fin n → ℝ)
    (hv : v ≠ 0) : 0 < v ⬝ᵥ (A *ᵥ v) := (mul_pos hlo (dot_self_pos hv)).trans_le (h v)

theorem exact_ne (hm : 0 < m) {k : CgData} {i : Nat} (h : m ≤ (k.exact n i).rr) : (cgIter (k.mat n) (k.start n) i).r ≠ 0 := by
  intro h0
  rw [(exact_link k i).2.2.2, h0, dotProduct_zero] at h
  linarith

/-- the exact curvature is bounded below while the residual is not small -/
theorem exact_curv (hlo : 0 < lo) (hm : 0 < m) {j : Nat} {u : ℝ} {k : CgData} (h : k ∈ cgClass n lo M m (j + 1) u) :
    lo * m ≤ (k.exact n j).curv n k.A := by
  obtain ⟨-, -, -, h4, h5, h6⟩ := h
  obtain ⟨e1, e2, e3, e4⟩ := exact_link (n := n) k j
  obtain ⟨o1, -, -⟩ := cg_orth h4 (posOf hlo h5) (s := k.start n) rfl j (fun i hi => exact_ne hm (h6 i (by omega)))
  have o := o1 j le_rfl
  have hrr := h6 j (by omega)
  rw [e4] at hrr
  rw [curv_real, ← e3]
  refine le_trans ?_ (h5 _)
  refine mul_le_mul_of_nonneg_left (hrr.trans ?_) hlo.le
  have h7 := dot_le_norm2 (cgIter (k.mat n) (k.start n) j).r (cgIter (k.mat n) (k.start n) j).p
  rw [o] at h7
  generalize (cgIter (k.mat n) (k.start n) j).r = r at *
  generalize (cgIter (k.mat n) (k.start n) j).p = p at *
  have h8 := norm2_sq r
  have h9 := norm2_sq p
  have h10 : 0 ≤ norm2 r := Real.sqrt_nonneg _
  have h11 : 0 ≤ norm2 p := Real.sqrt_nonneg _
  rw [← h8] at h7 hrr
  rw [← h8, ← h9]
  have h7 := (le_abs_self _).trans h7
  have h12 : norm2 r ≤ norm2 p := by
    by_contra hc
    push Not at hc
    have h13 := mul_lt_mul_of_pos_left hc (h11.trans_lt hc)
    nlinarith
  nlinarith

/-- some exact residual is small after at most `n` steps -/
theorem exact_ends (hlo : 0 < lo) (hm : 0 < m) {u : ℝ} {k : CgData} (h : k ∈ cgClass n lo M m 0 u) :
    ∃ J ≤ n, (k.exact n J).rr < m ∧ k ∈ cgClass n lo M m J u := by
  classical
  have hex : ∃ J, (k.exact n J).rr < m := by
    by_contra hc
    push Not at hc
    exact absurd (cg_terminates h.2.2.2.1 (posOf hlo h.2.2.2.2.1) (s := k.start n) rfl n fun i _ => exact_ne hm (hc i)) (lt_irrefl _)
  have hmin : ∀ i < Nat.find hex, m ≤ (k.exact n i).rr := fun i hi => not_lt.1 (Nat.find_min hex hi)
  refine ⟨Nat.find hex, ?_, Nat.find_spec hex, h.1, h.2.1, h.2.2.1, h.2.2.2.1, h.2.2.2.2.1, hmin⟩
  by_contra hc
  exact absurd (cg_terminates h.2.2.2.1 (posOf hlo h.2.2.2.2.1) (s := k.start n) rfl n fun i hi => exact_ne hm (hmin i (by omega)))
    (lt_irrefl _)

/-- all parts of the computed iterate are close to the exact ones -/
structure CgClose (n : Nat) (K : ℝ → Set CgData) (j : Nat) : Prop where
  x : ∀ i < n, Appr K (fun _ R k => ((k.comp n R j).x i).val) fun k => (k.exact n j).x i
  r : ∀ i < n, Appr K (fun _ R k => ((k.comp n R j).r i).val) fun k => (k.exact n j).r i
  p : ∀ i < n, Appr K (fun _ R k => ((k.comp n R j).p i).val) fun k => (k.exact n j).p i
  rr : Appr K (fun _ R k => (k.comp n R j).rr.val) fun k => (k.exact n j).rr

theorem Appr.dotV {f g : ∀ u (R : Rounding u), κ → Nat → Fl R} {f' g' : κ → Nat → ℝ}
    (hf : ∀ j < n, Appr K (fun u R k => (f u R k j).val) fun k => f' k j)
    (hg : ∀ j < n, Appr K (fun u R k => (g u R k j).val) fun k => g' k j) :
    Appr K (fun u R k => (dotV n (f u R k) (g u R k)).val) fun k => Ellalgo.dotV n (f' k) (g' k) :=
  Appr.sumFl fun j hj => ((hf j hj).mul (hg j hj)).rnd

theorem appr_A {j i l : Nat} (hi : i < n) (hl : l < n) : Appr (cgClass n lo M m j) (fun _ _ k => k.A i l) fun k => k.A i l :=
  Appr.self M fun _ _ _ hk => hk.1 i hi l hl

theorem appr_mulV {j i : Nat} (hi : i < n) {f : ∀ u (R : Rounding u), CgData → Nat → Fl R} {f' : CgData → Nat → ℝ}
    (hf : ∀ l < n, Appr (cgClass n lo M m j) (fun u R k => (f u R k l).val) fun k => f' k l) :
    Appr (cgClass n lo M m j) (fun u R k => (mulV n (fun i j => (⟨k.A i j⟩ : Fl R)) (f u R k) i).val) fun k => mulV n k.A (f' k) i :=
  Appr.sumFl fun l hl => ((appr_A hi hl).mul (hf l hl)).rnd

theorem appr_curv {j s : Nat} (h : CgClose n (cgClass n lo M m j) s) :
    Appr (cgClass n lo M m j) (fun _ R k => ((k.comp n R s).curv n fun i j => (⟨k.A i j⟩ : Fl R)).val) fun k =>
      (k.exact n s).curv n k.A :=
  Appr.dotV h.p fun _ hi => appr_mulV hi h.p

theorem cg_close (hlo : 0 < lo) (hm : 0 < m) (j : Nat) : CgClose n (cgClass n lo M m j) j := by
  induction j with
  | zero =>
    have hx : ∀ i < n, Appr (cgClass n lo M m 0) (fun _ _ k => k.x i) fun k => k.x i := fun i hi =>
      Appr.self M fun _ _ _ hk => hk.2.2.1 i hi
    have hb : ∀ i < n, Appr (cgClass n lo M m 0) (fun _ _ k => k.b i) fun k => k.b i := fun i hi =>
      Appr.self M fun _ _ _ hk => hk.2.1 i hi
    have hr : ∀ i < n, Appr (cgClass n lo M m 0) (fun _ R k => ((k.comp n R 0).r i).val) fun k => (k.exact n 0).r i := fun i hi =>
      ((hb i hi).sub (appr_mulV (f := fun _ R k i => (⟨k.x i⟩ : Fl R)) (f' := fun k => k.x) hi hx)).rnd
    exact ⟨hx, hr, hr, Appr.dotV hr hr⟩
  | succ j ih =>
    have h : CgClose n (cgClass n lo M m (j + 1)) j :=
      ⟨fun i hi => (ih.x i hi).mono fun _ _ => cgClass_succ, fun i hi => (ih.r i hi).mono fun _ _ => cgClass_succ,
        fun i hi => (ih.p i hi).mono fun _ _ => cgClass_succ, ih.rr.mono fun _ _ => cgClass_succ⟩
    have hst := (h.rr.div (appr_curv h) (mul_pos hlo hm) fun _ _ _ hk => exact_curv hlo hm hk).rnd
    have hr : ∀ i < n, Appr (cgClass n lo M m (j + 1)) (fun _ R k => ((k.comp n R (j + 1)).r i).val) fun k =>
        (k.exact n (j + 1)).r i := fun i hi => ((h.r i hi).sub (hst.mul (appr_mulV hi h.p)).rnd).rnd
    have hrr : Appr (cgClass n lo M m (j + 1)) (fun _ R k => (k.comp n R (j + 1)).rr.val) fun k => (k.exact n (j + 1)).rr :=
      Appr.dotV hr hr
    refine ⟨fun i hi => ((h.x i hi).add (hst.mul (h.p i hi)).rnd).rnd, hr, fun i hi => ?_, hrr⟩
    have hq := (hrr.div h.rr hm fun _ _ _ hk => hk.2.2.2.2.2 j (by omega)).rnd
    exact ((hr i hi).add (hq.mul (h.p i hi)).rnd).rnd

theorem cgClass_le {i j : Nat} (hij : i ≤ j) {u : ℝ} {k : CgData} (h : k ∈ cgClass n lo M m j u) : k ∈ cgClass n lo M m i u :=
  ⟨h.1, h.2.1, h.2.2.1, h.2.2.2.1, h.2.2.2.2.1, fun l hl => h.2.2.2.2.2 l (by omega)⟩

theorem exact_rr_nonneg (k : CgData) (j : Nat) : 0 ≤ (k.exact n j).rr := by
  rw [(exact_link k j).2.2.2]
  exact Finset.sum_nonneg fun i _ => mul_self_nonneg _

/-- the true residual of the computed point -/
noncomputable def CgData.res (n : Nat) (k : CgData) {u : ℝ} (R : Rounding u) (j i : Nat) : ℝ :=
  k.b i - sumTo n fun l => k.A i l * ((k.comp n R j).x l).val

/-- the Euclidean norm of the true residual of the computed point is close to that of the exact iterate -/
theorem appr_res (hlo : 0 < lo) (hm : 0 < m) (j : Nat) :
    Appr (cgClass n lo M m j) (fun _ R k => √(sumTo n fun i => k.res n R j i * k.res n R j i)) fun k => √(k.exact n j).rr := by
  have h := cg_close (n := n) (M := M) hlo hm j
  have hb : ∀ i < n, Appr (cgClass n lo M m j) (fun _ _ k => k.b i) fun k => k.b i := fun i hi =>
    Appr.self M fun _ _ _ hk => hk.2.1 i hi
  have h1 : ∀ i < n, Appr (cgClass n lo M m j) (fun _ R k => k.res n R j i) fun k => (k.exact n j).r i := by
    intro i hi
    have h2 := (hb i hi).sub (Appr.sumEx (f := fun _ R k l => k.A i l * ((k.comp n R j).x l).val)
      (g := fun k l => k.A i l * (k.exact n j).x l) fun l hl => (appr_A hi hl).mul (h.x l hl))
    have e : (fun k : CgData => k.b i - sumTo n fun l => k.A i l * (k.exact n j).x l) = fun k => (k.exact n j).r i := by
      funext k
      exact (exact_residual k j ⟨i, hi⟩).symm
    rw [← e]
    exact h2
  have h3 := Appr.sumEx (f := fun _ R (k : CgData) i => k.res n R j i * k.res n R j i) (g := fun (k : CgData) i => (k.exact n j).r i * (k.exact n j).r i)
    fun i hi => (h1 i hi).mul (h1 i hi)
  have e : (fun k : CgData => sumTo n fun i => (k.exact n j).r i * (k.exact n j).r i) = fun k => (k.exact n j).rr := by
    funext k
    rw [(exact_link k j).2.2.2, (exact_link k j).2.1, sumTo_fin]; rfl
  rw [e] at h3
  exact h3.sqrt fun _ _ k _ => exact_rr_nonneg k j

/-- the computed norm is close to that of the exact iterate -/
theorem appr_norm (hlo : 0 < lo) (hm : 0 < m) (j : Nat) :
    Appr (cgClass n lo M m j) (fun _ R k => (Scalar.sqrt (k.comp n R j).rr).val) fun k => √(k.exact n j).rr :=
  ((cg_close (n := n) (M := M) hlo hm j).rr.sqrt fun _ _ k _ => exact_rr_nonneg k j).rnd

/-- for a small enough unit, at every step up to `n`: the computed curvature is positive while the exact residual is not small, and
both the computed norm and the norm of the true residual are within `ε` of that of the exact iterate -/
theorem cg_units (hlo : 0 < lo) (hm : 0 < m) {ε : ℝ} (hε : 0 < ε) : ∃ u0 > 0, ∀ u ≤ u0, ∀ j ≤ n, ∀ R : Rounding u, ∀ k : CgData,
    (k ∈ cgClass n lo M m (j + 1) u → 0 < ((k.comp n R j).curv n fun i j => (⟨k.A i j⟩ : Fl R)).val) ∧
    (k ∈ cgClass n lo M m j u → |(Scalar.sqrt (k.comp n R j).rr).val - √(k.exact n j).rr| ≤ ε ∧
      |√(sumTo n fun i => k.res n R j i * k.res n R j i) - √(k.exact n j).rr| ≤ ε) := by
  refine small_units n fun j _ => ?_
  have h : CgClose n (cgClass n lo M m (j + 1)) j := by
    have ih := cg_close (n := n) (M := M) hlo hm j
    exact ⟨fun i hi => (ih.x i hi).mono fun _ _ => cgClass_succ, fun i hi => (ih.r i hi).mono fun _ _ => cgClass_succ,
      fun i hi => (ih.p i hi).mono fun _ _ => cgClass_succ, ih.rr.mono fun _ _ => cgClass_succ⟩
  obtain ⟨u1, p1, h1⟩ := (appr_curv h).close (lo * m / 2) (by positivity)
  obtain ⟨u2, p2, h2⟩ := (appr_norm (n := n) (M := M) hlo hm j).close ε hε
  obtain ⟨u3, p3, h3⟩ := (appr_res (n := n) (M := M) hlo hm j).close ε hε
  refine ⟨min u1 (min u2 u3), lt_min p1 (lt_min p2 p3), fun u hu R k => ⟨fun hk => ?_, fun hk => ⟨?_, ?_⟩⟩⟩
  · have a1 := neg_le_of_abs_le (h1 u (hu.trans (min_le_left _ _)) R k hk)
    have a2 := exact_curv hlo hm hk
    have a3 := mul_pos hlo hm
    linarith
  · exact h2 u (hu.trans ((min_le_right _ _).trans (min_le_left _ _))) R k hk
  · exact h3 u (hu.trans ((min_le_right _ _).trans (min_le_right _ _))) R k hk

end Ellalgo
