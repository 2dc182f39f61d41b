import Verif.Spec.Binary64
import Verif.Spec.Nan
import Verif.Spec.OneDim

/-! Facts about binary64 arithmetic. -/

namespace Ellalgo

namespace B64

theorem ofReal_cases (s : Bool) (x : ℝ) : (rnd64 x = 0 ∧ ofReal s x = zero s) ∨
    (rnd64 x ≠ 0 ∧ |rnd64 x| < (2 : ℝ) ^ (1024 : ℤ) ∧ ∃ a : Num64, a.x = rnd64 x ∧ ofReal s x = num a) ∨
    ((2 : ℝ) ^ (1024 : ℤ) ≤ |rnd64 x| ∧ ofReal s x = inf (decide (x < 0))) := by
  by_cases h : rnd64 x = 0
  · exact Or.inl ⟨h, dif_pos h⟩
  · by_cases h' : |rnd64 x| < (2 : ℝ) ^ (1024 : ℤ)
    · exact Or.inr (Or.inl ⟨h, h', ⟨rnd64 x, h, rnd64_idem x, h'⟩, rfl, (dif_neg h).trans (dif_pos h')⟩)
    · refine Or.inr (Or.inr ⟨not_lt.1 h', ?_⟩)
      refine (dif_neg h).trans ((dif_neg h').trans ?_)
      congr

theorem ofReal_ne_nan (s : Bool) (x : ℝ) : ofReal s x ≠ nan := by
  rcases ofReal_cases s x with ⟨-, h⟩ | ⟨-, -, a, -, h⟩ | ⟨-, h⟩ <;> rw [h] <;> simp

/-- a result within the range -/
theorem ofReal_val {s : Bool} {x : ℝ} (h : |rnd64 x| < (2 : ℝ) ^ (1024 : ℤ)) :
    (ofReal s x).Finite ∧ (ofReal s x).val = rnd64 x := by
  rcases ofReal_cases s x with ⟨h1, h2⟩ | ⟨-, -, a, ha, h2⟩ | ⟨h1, -⟩
  · rw [h2, h1]; exact ⟨trivial, rfl⟩
  · rw [h2]; exact ⟨trivial, ha⟩
  · exact absurd h (not_lt.2 h1)

theorem ofReal_zero {s : Bool} {x : ℝ} (h : rnd64 x = 0) : ofReal s x = zero s := dif_pos h

/-- a number that is represented exactly -/
theorem ofReal_num {s : Bool} {x : ℝ} (h0 : x ≠ 0) (h1 : rnd64 x = x) (h2 : |x| < (2 : ℝ) ^ (1024 : ℤ)) :
    ofReal s x = num ⟨x, h0, h1, h2⟩ := by
  rcases ofReal_cases s x with ⟨h, -⟩ | ⟨-, -, a, ha, h⟩ | ⟨h, -⟩
  · rw [h1] at h; exact absurd h h0
  · rw [h]
    congr 1
    cases a
    simp only at ha
    simp only [Num64.mk.injEq]
    rw [ha, h1]
  · rw [h1] at h; exact absurd h2 (not_lt.2 h)

theorem finite_mul {a b : B64} (ha : a.Finite) (hb : b.Finite) : a * b = ofReal (a.sgn ^^ b.sgn) (a.val * b.val) := by
  cases a <;> cases b <;> first | exact ha.elim | exact hb.elim | rfl
theorem finite_add {a b : B64} (ha : a.Finite) (hb : b.Finite) : a + b = ofReal (a.sgn && b.sgn) (a.val + b.val) := by
  cases a <;> cases b <;> first | exact ha.elim | exact hb.elim | rfl

theorem pow_lt_max {k : ℤ} (hk : k < 1024) {x : ℝ} (h : |x| ≤ (2 : ℝ) ^ k) : |x| < (2 : ℝ) ^ (1024 : ℤ) :=
  lt_of_le_of_lt h (zpow_lt_zpow_right₀ (by norm_num) hk)

theorem Small.mul {s t k : ℤ} (hk : k = s + t) (h1 : -1074 ≤ k) (h2 : k < 1024) {a b : B64} (ha : Small s a) (hb : Small t b) :
    Small k (a * b) := by
  have h : |a.val * b.val| ≤ (2 : ℝ) ^ k := by
    rw [abs_mul, hk, zpow_add₀ (by norm_num)]
    exact mul_le_mul ha.2 hb.2 (abs_nonneg _) (by positivity)
  have h3 := rnd64_abs_le h1 h
  obtain ⟨h4, h5⟩ := ofReal_val (s := a.sgn ^^ b.sgn) (pow_lt_max h2 h3)
  rw [finite_mul ha.1 hb.1]
  exact ⟨h4, by rw [h5]; exact h3⟩

theorem Small.stay {t : ℤ} (h1 : -1022 ≤ t) (h2 : t + 54 < 1024) {a b : B64} (ha : Small (t + 54) a) (hb : Small t b) :
    Small (t + 54) (a + b) := by
  have h3 := rnd64_stay h1 ha.2 hb.2
  obtain ⟨h4, h5⟩ := ofReal_val (s := a.sgn && b.sgn) (pow_lt_max h2 h3)
  rw [finite_add ha.1 hb.1]
  exact ⟨h4, by rw [h5]; exact h3⟩

/-- a product below half the least positive number is a zero -/
theorem Small.underflow {s t : ℤ} (h : s + t ≤ -1075) {a b : B64} (ha : Small s a) (hb : Small t b) : ∃ z, a * b = zero z := by
  refine ⟨_, (finite_mul ha.1 hb.1).trans (ofReal_zero (rnd64_small ?_))⟩
  have h1 : |a.val * b.val| ≤ (2 : ℝ) ^ (s + t) := by
    rw [abs_mul, zpow_add₀ (by norm_num)]
    exact mul_le_mul ha.2 hb.2 (abs_nonneg _) (by positivity)
  exact h1.trans (zpow_le_zpow_right₀ (by norm_num) h)

theorem zero_small (t : ℤ) (s : Bool) : Small t (zero s) := ⟨trivial, by simp only [val, abs_zero]; positivity⟩

/-- a sum of any number of small numbers stays small -/
theorem sum_small {t : ℤ} (h1 : -1022 ≤ t) (h2 : t + 54 < 1024) {f : Nat → B64} (n : Nat) (hf : ∀ i < n, Small t (f i)) :
    Small (t + 54) (sumTo n f) := by
  induction n with
  | zero => exact zero_small _ _
  | succ n ih => exact Small.stay h1 h2 (ih fun i hi => hf i (by omega)) (hf n (by omega))

theorem zero_add_zero (s : Bool) : (zero false : B64) + zero s = zero false := by
  rw [finite_add (a := zero false) (b := zero s) trivial trivial]
  refine (ofReal_zero ?_).trans rfl
  simp only [val, add_zero]
  exact rnd64_zero

/-- a sum of zeros is zero -/
theorem sum_zero {f : Nat → B64} (n : Nat) (hf : ∀ i < n, ∃ s, f i = zero s) : sumTo n f = zero false := by
  induction n with
  | zero => rfl
  | succ n ih =>
    obtain ⟨s, hs⟩ := hf n (by omega)
    rw [sumTo, ih fun i hi => hf i (by omega), hs]
    exact zero_add_zero s

/-- the laws of NaN -/
theorem nanLaws : NanLaws (fun a : B64 => a = nan) where
  add_left := by rintro _ rfl b; cases b <;> rfl
  add_right := by rintro a _ rfl; cases a <;> rfl
  sub_left := by rintro _ rfl b; cases b <;> rfl
  sub_right := by rintro a _ rfl; cases a <;> rfl
  mul_left := by rintro _ rfl b; cases b <;> rfl
  mul_right := by rintro a _ rfl; cases a <;> rfl
  div_left := by rintro _ rfl b; cases b <;> rfl
  div_right := by rintro a _ rfl; cases a <;> rfl
  neg := by rintro _ rfl; rfl
  sqrt := by rintro _ rfl; rfl
  exp := by rintro _ rfl; rfl
  ln := by rintro _ rfl; rfl
  abs := by rintro _ rfl; rfl
  round := by rintro _ rfl; rfl
  lt_left := by rintro _ rfl b; cases b <;> rfl
  lt_right := by rintro a _ rfl; cases a <;> rfl
  le_left := by rintro _ rfl b; cases b <;> rfl
  le_right := by rintro a _ rfl; cases a <;> rfl
  beq_left := by rintro _ rfl b; cases b <;> rfl
  ltInf := by rintro _ rfl; rfl
  gtNegInf := by rintro _ rfl; rfl

/-- the number one -/
theorem one_lt_max : |(1 : ℝ)| < (2 : ℝ) ^ (1024 : ℤ) := by
  rw [abs_one]; exact one_lt_zpow₀ (by norm_num) (by norm_num)

theorem one_eq : (1 : B64) = num ⟨1, one_ne_zero, rnd64_one, one_lt_max⟩ := ofReal_num _ _ _
theorem nat_one : (nat 1 : B64) = 1 := by
  show ofReal false ((1 : ℕ) : ℝ) = ofReal false 1
  rw [Nat.cast_one]

theorem one_mul_one : (1 : B64) * 1 = 1 := by
  have h : (1 : B64).Finite ∧ (1 : B64).val = 1 ∧ (1 : B64).sgn = false := by
    rw [one_eq]; exact ⟨trivial, rfl, decide_eq_false (not_lt.2 zero_le_one)⟩
  rw [finite_mul h.1 h.1, h.2.1, h.2.2, mul_one]
  rfl

theorem one_sub_one : (1 : B64) - 1 = zero false := by
  have h : (1 : B64).Finite ∧ (1 : B64).val = 1 ∧ (1 : B64).sgn = false := by
    rw [one_eq]; exact ⟨trivial, rfl, decide_eq_false (not_lt.2 zero_le_one)⟩
  have h' : (neg 1 : B64).Finite ∧ (neg 1 : B64).val = -1 := by
    rw [one_eq]; exact ⟨trivial, rfl⟩
  show (1 : B64) + neg 1 = zero false
  rw [finite_add h.1 h'.1, h.2.1, h.2.2, h'.2]
  refine (ofReal_zero ?_).trans rfl
  rw [add_neg_cancel]
  exact rnd64_zero

/-- the laws of infinities and NaN -/
theorem nonFiniteLaws : NonFiniteLaws (fun a : B64 => ¬ a.Finite) where
  add_left {a} h b := by cases a <;> cases b <;> first | exact absurd trivial h | exact id | (show ¬ (add (inf _) (inf _)).Finite; simp only [add]; split <;> exact id)
  add_right a {b} h := by cases a <;> cases b <;> first | exact absurd trivial h | exact id | (show ¬ (add (inf _) (inf _)).Finite; simp only [add]; split <;> exact id)
  sub_left {a} h b := by cases a <;> cases b <;> first | exact absurd trivial h | exact id | (show ¬ (add (inf _) (inf _)).Finite; simp only [add]; split <;> exact id)
  sub_right a {b} h := by cases a <;> cases b <;> first | exact absurd trivial h | exact id | (show ¬ (add (inf _) (inf _)).Finite; simp only [add]; split <;> exact id)
  mul_left {a} h b := by cases a <;> cases b <;> first | exact absurd trivial h | exact id
  mul_right a {b} h := by cases a <;> cases b <;> first | exact absurd trivial h | exact id
  div_left {a} h b := by cases a <;> cases b <;> first | exact absurd trivial h | exact id
  sqrt {a} h := by cases a with
    | nan => exact id
    | inf s => cases s <;> exact id
    | zero s => exact absurd trivial h
    | num x => exact absurd trivial h
  div_zero a {b} h := by
    cases b with
    | nan => cases h
    | inf s => cases h
    | zero s => cases a <;> exact id
    | num x =>
      have : x.x = 0 := of_decide_eq_true h
      exact absurd this x.ne
  one_sq := by
    rw [nat_one, one_mul_one, one_sub_one]
    exact decide_eq_true rfl

end B64
end Ellalgo
