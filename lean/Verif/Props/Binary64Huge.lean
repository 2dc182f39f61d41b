import Verif.Props.Binary64Ell
import Verif.Lib.ArrLemmas

/-! C99: gradients that are too large. -/

namespace Ellalgo
open B64

namespace B64

/-- not below zero: a nonnegative finite number or `+∞` -/
def Up (a : B64) : Prop := a = inf false ∨ a.Finite ∧ 0 ≤ a.val

theorem rnd64_nonneg {x : ℝ} (h : 0 ≤ x) : 0 ≤ rnd64 x := by
  have := rnd64_mono h
  rwa [rnd64_zero] at this

theorem up_ofReal {s : Bool} {x : ℝ} (h : 0 ≤ x) : Up (ofReal s x) := by
  rcases ofReal_cases s x with ⟨h1, h2⟩ | ⟨-, -, a, ha, h2⟩ | ⟨h1, h2⟩
  · rw [h2]; exact Or.inr ⟨trivial, le_rfl⟩
  · rw [h2]; exact Or.inr ⟨trivial, by simp only [val, ha]; exact rnd64_nonneg h⟩
  · rw [h2, decide_eq_false (not_lt.2 h)]; exact Or.inl rfl

theorem inf_add_up {a : B64} (h : Up a) : inf false + a = inf false := by
  rcases h with rfl | h
  · rfl
  · cases a <;> first | exact h.1.elim | rfl
theorem up_add_inf {a : B64} (h : Up a) : a + inf false = inf false := by
  rcases h with rfl | h
  · rfl
  · cases a <;> first | exact h.1.elim | rfl

theorem up_add {a b : B64} (ha : Up a) (hb : Up b) : Up (a + b) := by
  rcases ha with rfl | ha
  · exact Or.inl (inf_add_up hb)
  · rcases hb with rfl | hb
    · exact Or.inl (up_add_inf (Or.inr ha))
    · rw [finite_add ha.1 hb.1]; exact up_ofReal (add_nonneg ha.2 hb.2)

theorem sum_up {f : Nat → B64} (n : Nat) (hf : ∀ i < n, Up (f i)) : Up (sumTo n f) := by
  induction n with
  | zero => exact Or.inr ⟨trivial, le_rfl⟩
  | succ n ih => exact up_add (ih fun i hi => hf i (by omega)) (hf n (by omega))

/-- a sum of nonnegative numbers with an infinite term -/
theorem sum_inf {f : Nat → B64} (n : Nat) (hf : ∀ i < n, Up (f i)) {j : Nat} (hj : j < n) (h : f j = inf false) :
    sumTo n f = inf false := by
  induction n with
  | zero => omega
  | succ n ih =>
    rw [sumTo]
    by_cases hjn : j = n
    · rw [← hjn, h]
      exact up_add_inf (sum_up _ fun i hi => hf i (by omega))
    · rw [ih (fun i hi => hf i (by omega)) (by omega)]
      exact inf_add_up (hf n (by omega))

/-- a finite number is what its value is rounded to -/
theorem rnd64_val {a : B64} (h : a.Finite) : rnd64 a.val = a.val ∧ |a.val| < (2 : ℝ) ^ (1024 : ℤ) := by
  cases a with
  | nan => exact h.elim
  | inf s => exact h.elim
  | zero s => exact ⟨rnd64_zero, by simp only [val, abs_zero]; positivity⟩
  | num a => exact ⟨a.rep, a.lt⟩

/-- a row of the identity matrix times a vector gives back the entry -/
theorem eye_row {v : Nat → B64} (i n : Nat) (hv : ∀ j < n, (v j).Finite) :
    (sumTo n fun j => (if i = j then 1 else 0 : B64) * v j).Finite ∧
      (sumTo n fun j => (if i = j then 1 else 0 : B64) * v j).val = if i < n then (v i).val else 0 := by
  induction n with
  | zero => exact ⟨trivial, rfl⟩
  | succ n ih =>
    obtain ⟨h1, h2⟩ := ih fun j hj => hv j (by omega)
    obtain ⟨r1, r2⟩ := rnd64_val (hv n (by omega))
    have hprod : ((if i = n then 1 else 0 : B64) * v n).Finite ∧
        ((if i = n then 1 else 0 : B64) * v n).val = if i = n then (v n).val else 0 := by
      by_cases h : i = n
      · simp only [if_pos h]
        rw [finite_mul (a := 1) (by rw [one_eq]; trivial) (hv n (by omega)), show (1 : B64).val = 1 by rw [one_eq]; rfl, one_mul]
        have := ofReal_val (s := sgn 1 ^^ (v n).sgn) (x := (v n).val) (by rw [r1]; exact r2)
        rwa [r1] at this
      · simp only [if_neg h]
        rw [finite_mul (a := 0) trivial (hv n (by omega)), show (0 : B64).val = 0 from rfl, zero_mul]
        have := ofReal_val (s := sgn 0 ^^ (v n).sgn) (x := 0) (by rw [rnd64_zero, abs_zero]; positivity)
        rwa [rnd64_zero] at this
    rw [sumTo]
    simp only [finite_add h1 hprod.1, h2, hprod.2]
    have key : ((if i < n then (v i).val else 0) + if i = n then (v n).val else 0) = if i < n + 1 then (v i).val else 0 := by
      rcases lt_trichotomy i n with h | h | h
      · rw [if_pos h, if_neg (by omega), if_pos (by omega), add_zero]
      · rw [if_neg (by omega), if_pos h, if_pos (by omega), zero_add, h]
      · rw [if_neg (by omega), if_neg (by omega), if_neg (by omega), add_zero]
    rw [key]
    have hr : rnd64 (if i < n + 1 then (v i).val else 0) = (if i < n + 1 then (v i).val else 0) ∧
        |if i < n + 1 then (v i).val else 0| < (2 : ℝ) ^ (1024 : ℤ) := by
      by_cases h : i < n + 1
      · rw [if_pos h]; exact rnd64_val (hv i h)
      · rw [if_neg h, rnd64_zero, abs_zero]; exact ⟨rfl, by positivity⟩
    have := ofReal_val (s := ((sumTo n fun j => (if i = j then 1 else 0 : B64) * v j).sgn &&
      ((if i = n then 1 else 0 : B64) * v n).sgn)) (x := if i < n + 1 then (v i).val else 0) (by rw [hr.1]; exact hr.2)
    rw [hr.1] at this
    exact this

theorem overflow {s : Bool} {x : ℝ} (h : (2 : ℝ) ^ (1024 : ℤ) ≤ x) : ofReal s x = inf false := by
  have hx : (0 : ℝ) ≤ x := le_trans (by positivity) h
  have h1 := rnd64_mono h
  rw [rnd64_pow (by norm_num)] at h1
  have hp : (0 : ℝ) < (2 : ℝ) ^ (1024 : ℤ) := by positivity
  rcases ofReal_cases s x with ⟨h2, -⟩ | ⟨-, h2, -⟩ | ⟨-, h2⟩
  · rw [h2] at h1; exact absurd h1 (not_le.2 hp)
  · have := le_abs_self (rnd64 x); linarith
  · rw [h2, decide_eq_false (not_lt.2 hx)]

theorem nonFinite_div_inf {a : B64} (h : ¬ a.Finite) (s : Bool) : a / inf s = nan := by
  cases a <;> first | rfl | exact absurd trivial h

theorem inf_add_cases (b : B64) : inf false + b = inf false ∨ inf false + b = nan := by
  cases b with
  | inf s => cases s <;> simp [HAdd.hAdd, Add.add, add]
  | nan => exact Or.inr rfl
  | zero s => exact Or.inl rfl
  | num a => exact Or.inl rfl

end B64

/-- the strategies of a single cut when `tsq` is `+∞` -/
theorem single_inf (h : EllCalc B64) (k : UpdateKind) (beta : B64) :
    ∃ ρ σ δ, CutType.call k (⟨beta⟩ : SingleCut B64) h (.inf false) = (.success, ρ, σ, δ) ∧ ¬ ρ.Finite := by
  have hB := nonFiniteLaws
  have hlt : ∀ b : B64, Scalar.lt (.inf false) b = false := by
    intro b; cases b <;> rfl
  have hsq : (Scalar.sqrt (.inf false) : B64) = .inf false := rfl
  have hinf : ¬ (B64.inf false).Finite := id
  cases k
  · refine ⟨_, (h.helper.calcBiasCut beta (.inf false)).2.1, (h.helper.calcBiasCut beta (.inf false)).2.2, ?_,
      hB.div_left (hB.add_left (a := .inf false) hinf (h.helper.nF * beta)) h.helper.nPlus1⟩
    show (if Scalar.lt (.inf false) (beta * beta) then _ else _) = _
    rw [hlt]
    rfl
  · exact ⟨_, _, _, rfl, hB.div_left hinf _⟩
  · refine ⟨_, (h.helper.calcBiasCutFast beta (.inf false) (.inf false + h.nF * beta)).2.1,
      (h.helper.calcBiasCutFast beta (.inf false) (.inf false + h.nF * beta)).2.2, ?_,
      hB.div_left (hB.add_left (a := .inf false) hinf (h.nF * beta)) h.helper.nPlus1⟩
    show (if Scalar.lt (Scalar.sqrt (.inf false)) beta then _ else _) = _
    rw [hsq, hlt]
    show (if Scalar.lt (.inf false + h.nF * beta) 0 then _ else _) = _
    have : Scalar.lt (B64.inf false + h.nF * beta) 0 = false := by
      rcases inf_add_cases (h.nF * beta) with h | h <;> rw [h] <;> rfl
    rw [this]
    rfl

/-- **C99** (gradients that are too large)  Take the ball `Ell::new_with_scalar` builds from a finite positive factor, in any
dimension, and a finite gradient with an entry of absolute value at least `2^512`.  Every kind of update with a single cut, at any
offset, is reported as `Success`, and every coordinate of the new centre is a NaN. -/
theorem C99_huge_gradient {n : Nat} (hn : 0 < n) (k : UpdateKind) (κ : B64) (hκ : κ.Finite) (hpos : 0 < κ.val) (xc : Arr B64)
    (hx : xc.IsVecShape n) (g : Arr B64) (hg : g.IsVecShape n) (hfin : ∀ v ∈ g.data, v.Finite)
    (hbig : ∃ v ∈ g.data, (2 : ℝ) ^ (512 : ℤ) ≤ |v.val|) (beta : B64) :
    ∃ e e', Ell.newWithScalar κ xc = .ok e ∧ Ell.space.update k e (g, (⟨beta⟩ : SingleCut B64)) = .ok (.success, e') ∧
      e'.xc.IsVecShape n ∧ ∀ v ∈ e'.xc.data, v = .nan := by
  obtain ⟨mq, h1, h2⟩ := eye_spec (α := B64) n
  have hlen : xc.len = n := hx.isVec.len'
  refine ⟨Ell.newWithMatrix κ mq xc, ?_⟩
  have hv := hg.isVec.forall_mem.1 hfin
  have hgt : ∀ i < n, (Ell.gt n (fun i j => if i = j then (1 : B64) else 0) g.vec i).Finite ∧
      (Ell.gt n (fun i j => if i = j then (1 : B64) else 0) g.vec i).val = (g.vec i).val := by
    intro i hi
    have := eye_row i n hv
    rw [if_pos hi] at this
    exact this
  have hprod : ∀ i < n, ∃ s, g.vec i * Ell.gt n (fun i j => if i = j then (1 : B64) else 0) g.vec i =
      ofReal s ((g.vec i).val * (g.vec i).val) := by
    intro i hi
    have := finite_mul (hv i hi) (hgt i hi).1
    rw [(hgt i hi).2] at this
    exact ⟨_, this⟩
  obtain ⟨j, hj, hjb⟩ : ∃ j < n, (2 : ℝ) ^ (512 : ℤ) ≤ |(g.vec j).val| := by
    by_contra hc
    push_neg at hc
    obtain ⟨v, hv1, hv2⟩ := hbig
    exact absurd hv2 (not_le.2 ((hg.isVec.forall_mem (P := fun v => |v.val| < (2 : ℝ) ^ (512 : ℤ))).2 hc v hv1))
  have hom : Ell.om n (fun i j => if i = j then (1 : B64) else 0) g.vec = .inf false := by
    refine sum_inf n (fun i hi => ?_) hj ?_
    · obtain ⟨s, hs⟩ := hprod i hi
      rw [hs]
      exact up_ofReal (mul_self_nonneg _)
    · obtain ⟨s, hs⟩ := hprod j hj
      simp only [hs]
      refine overflow ?_
      rw [← abs_mul_abs_self, show (1024 : ℤ) = 512 + 512 by norm_num, zpow_add₀ (by norm_num)]
      exact mul_le_mul hjb hjb (by positivity) (abs_nonneg _)
  have hts : κ * .inf false = .inf false := by
    cases κ with
    | nan => exact hκ.elim
    | inf s => exact hκ.elim
    | zero s => exact absurd hpos (lt_irrefl _)
    | num a =>
      show inf ((num a).sgn ^^ false) = _
      have : (num a).sgn = false := decide_eq_false (not_lt.2 (le_of_lt hpos))
      rw [this]
      rfl
  obtain ⟨ρ, σ, δ, h3, h4⟩ := single_inf (Ell.newWithMatrix κ mq xc).helper k beta
  have hs : CutType.call k (⟨beta⟩ : SingleCut B64) (Ell.newWithMatrix κ mq xc).helper
      ((Ell.newWithMatrix κ mq xc).kappa * Ell.om n (fun i j => if i = j then (1 : B64) else 0) g.vec) = (.success, ρ, σ, δ) := by
    rw [hom]
    show CutType.call k _ _ (κ * .inf false) = _
    rw [hts]
    exact h3
  rcases Ell.updateCore_spec (e := Ell.newWithMatrix κ mq xc) h2 hx.isVec hg.isVec hn _ hs with
    ⟨h5, -⟩ | ⟨-, e', h5, -, h6, -⟩
  · exact absurd rfl h5
  · refine ⟨e', ?_, ?_, h6.shape, h6.forall_mem.2 fun i hi => ?_⟩
    · unfold Ell.newWithScalar
      rw [hlen, h1]
      rfl
    · rw [Ell.update_eq]
      exact h5
    · rw [hom, nonFinite_div_inf h4]
      exact nanLaws.sub_right _ (nanLaws.mul_left rfl _)

end Ellalgo
