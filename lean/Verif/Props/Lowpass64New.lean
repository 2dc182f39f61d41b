import Verif.Props.Lowpass64Runs
import Verif.Props.RoundedLowpassRuns

/-! # C130: the constructor of the low-pass oracle in IEEE `f64` -/

namespace Ellalgo
open Matrix
variable {n : Nat}

section generic
variable {α : Type} [Scalar α]

theorem linspace_entries (a b : α) {m : Nat} (hm : 2 ≤ m) :
    ∃ v, Arr.linspace a b m = .ok v ∧ IsVec v m (fun i => a + (b - a) / nat (m - 1) * nat i) := by
  obtain ⟨v, h1, h2⟩ := forRange_spec (σ := Arr α)
    (fun k z => IsVec z m (fun j => if j < k then a + (b - a) / nat (m - 1) * nat j else 0))
    (f := fun i v => v.setIdx i (a + (b - a) / nat (m - 1) * nat i)) (s := Arr.new m) (lo := 0) (hi := m) (by omega)
    ((isVec_new m).congr fun i _ => by simp)
    (by
      intro j z hj1 hj2 hz
      obtain ⟨z', p, q⟩ := hz.setIdx hj2 (a + (b - a) / nat (m - 1) * nat j)
      refine ⟨z', p, q.congr fun i hi => ?_⟩
      by_cases hij : i = j
      · subst hij
        simp [upd1]
      · have : (i < j + 1) ↔ i < j := by omega
        simp [upd1, hij, this])
  refine ⟨v, ?_, h2.congr fun i hi => by simp [hi]⟩
  have e0 : (m == 0) = false := by simp; omega
  have e1 : (m == 1) = false := by simp; omega
  rw [Arr.linspace, e0, e1]
  exact h1

theorem lowpassRow_entries (hn : 0 < n) (om : α) :
    ∃ row, lowpassRow n om = .ok row ∧ IsVec row n (fun j => if j = 0 then 1 else nat 2 * Scalar.cos (om * nat j)) := by
  obtain ⟨r0, hr0, hr0'⟩ := (isVec_new (α := α) n).setIdx hn 1
  obtain ⟨row, h1, h2⟩ := forRange_spec (σ := Arr α)
    (fun k z => IsVec z n (fun j => if j = 0 then 1 else if j < k then nat 2 * Scalar.cos (om * nat j) else 0))
    (f := fun j row => row.setIdx j (nat 2 * Scalar.cos (om * nat j))) (s := r0) (lo := 1) (hi := n) (by omega)
    (by
      refine hr0'.congr fun i hi => ?_
      by_cases hi0 : i = 0
      · subst hi0; simp [upd1]
      · have : ¬ i < 1 := by omega
        simp [upd1, hi0])
    (by
      intro j z hj1 hj2 hz
      obtain ⟨z', a, b⟩ := hz.setIdx hj2 (nat 2 * Scalar.cos (om * nat j))
      refine ⟨z', a, b.congr fun i hi => ?_⟩
      by_cases hij : i = j
      · subst hij
        have : i ≠ 0 := by omega
        simp [upd1, this]
      · have : (i < j + 1) ↔ i < j := by omega
        simp [upd1, hij, this])
  refine ⟨row, ?_, h2.congr fun j hj => by simp [hj]⟩
  rw [lowpassRow, hr0]
  exact h1

end generic

/-- zero or between 2⁻³⁰ and 2^k -/
def MidR (k : ℤ) (x : ℝ) : Prop := x = 0 ∨ ((2 : ℝ) ^ (-30 : ℤ) ≤ x ∧ x ≤ (2 : ℝ) ^ k)

theorem MidR.nonneg {k : ℤ} {x : ℝ} (h : MidR k x) : 0 ≤ x := by
  rcases h with h | h
  · exact h.ge
  · exact le_trans (by positivity) h.1

theorem MidR.abs {k : ℤ} {x : ℝ} (h : MidR k x) : |x| ≤ (2 : ℝ) ^ k := by
  rw [abs_of_nonneg h.nonneg]
  rcases h with h | h
  · rw [h]; positivity
  · exact h.2

theorem MidR.under {k : ℤ} {x : ℝ} (h : MidR k x) : NoUnder x := by
  rcases h with h | h
  · exact .inl h
  · exact .inr ((zpow_le_zpow_right₀ (by norm_num) (by norm_num)).trans (h.1.trans (le_abs_self _)))

theorem MidR.over {k : ℤ} (hk : k < 1024) {x : ℝ} (h : MidR k x) : NoOver x := noOver_pow h.abs hk

theorem MidR.rnd {k : ℤ} {x : ℝ} (h : MidR k x) : MidR k (rnd53 x) := by
  rcases h with rfl | ⟨h1, h2⟩
  · exact .inl bin53.zero
  · refine .inr ⟨?_, ?_⟩
    · have := rnd53_mono _ _ h1; rwa [rnd53_pow] at this
    · have := rnd53_mono _ _ h2; rwa [rnd53_pow] at this

theorem MidR.mul_nat {k : ℤ} {x : ℝ} (h : MidR k x) {j : Nat} (hj : (j : ℝ) ≤ (2 : ℝ) ^ (31 : ℤ)) : MidR (k + 31) (x * j) := by
  rcases h with rfl | ⟨h1, h2⟩
  · exact .inl (zero_mul _)
  · rcases Nat.eq_zero_or_pos j with rfl | hp
    · exact .inl (by simp)
    · have hj1 : (1 : ℝ) ≤ j := by exact_mod_cast hp
      have hx : 0 ≤ x := le_trans (by positivity) h1
      refine .inr ⟨h1.trans (le_mul_of_one_le_right hx hj1), ?_⟩
      rw [zpow_add₀ (by norm_num)]
      exact mul_le_mul h2 hj (by positivity) (by positivity)

theorem nat_small {k : Nat} (hk : k ≤ 2 ^ 31) : (k : ℝ) ≤ (2 : ℝ) ^ (31 : ℤ) ∧ (k : ℝ) ≤ (2 : ℝ) ^ (1000 : ℤ) := by
  have h1 : (k : ℝ) ≤ (2 : ℝ) ^ (31 : ℤ) := by exact_mod_cast hk
  exact ⟨h1, h1.trans (zpow_le_zpow_right₀ (by norm_num) (by norm_num))⟩

theorem rnd53_nat {k : Nat} (hk : k ≤ 2 ^ 31) : rnd53 (k : ℝ) = k := by
  have := rnd53_rep (k : ℤ) 0 (by rw [abs_of_nonneg (by positivity)]; exact_mod_cast hk.trans (by norm_num))
  simpa using this

theorem pi_same : Same (Scalar.pi : B64) (Scalar.pi : Fl bin53) ∧ MidR 2 (rnd53 Real.pi) := by
  have h3 := Real.two_le_pi
  have h4 := Real.pi_le_four
  have hm : MidR 2 Real.pi := .inr ⟨le_trans (zpow_le_one_of_nonpos₀ (by norm_num) (by norm_num)) (by linarith), by norm_num; linarith⟩
  refine ⟨?_, hm.rnd⟩
  have hr : rnd64 Real.pi = rnd53 Real.pi := by
    rcases hm.under with h | h
    · linarith
    · exact rnd64_normal h
  have := B64.ofReal_val (s := false) (x := Real.pi) (by rw [hr]; exact hm.over (by norm_num))
  rw [hr] at this
  exact this

/-- one frequency of the table -/
theorem freq_same {m i : Nat} (hm : 2 ≤ m) (hm' : m ≤ 2 ^ 31) (hi : i < m) :
    Same (0 + (Scalar.pi - 0) / nat (m - 1) * nat i : B64) ⟨flFreq bin53 m i⟩ ∧ MidR 33 (flFreq bin53 m i) := by
  obtain ⟨sp, hp⟩ := pi_same
  have hM := nat_small (k := m - 1) (by omega)
  have hI := nat_small (k := i) (by omega)
  have hM0 : (1 : ℝ) ≤ ((m - 1 : Nat) : ℝ) := by exact_mod_cast (show 1 ≤ m - 1 by omega)
  have hp3 : (2 : ℝ) ≤ rnd53 Real.pi := by
    have := rnd53_mono _ _ (show (2 : ℝ) ^ (1 : ℤ) ≤ Real.pi by rw [zpow_one]; exact Real.two_le_pi)
    rw [rnd53_pow, zpow_one] at this
    exact this
  have hq : MidR 2 (rnd53 Real.pi / ((m - 1 : Nat) : ℝ)) := by
    refine .inr ⟨?_, (div_le_self (by linarith) hM0).trans (le_trans (le_abs_self _) hp.abs)⟩
    rw [le_div_iff₀ (by linarith)]
    refine le_trans (mul_le_mul_of_nonneg_left hM.1 (by positivity)) (le_trans (le_of_eq ?_) hp3)
    rw [← zpow_add₀ (by norm_num)]
    norm_num
  have hqi : MidR 33 (flFreq bin53 m i) := (hq.rnd.mul_nat hI.1).rnd
  refine ⟨?_, hqi⟩
  have s1 : Same (Scalar.pi - 0 : B64) (⟨rnd53 Real.pi⟩ : Fl bin53) := by
    have e : (Scalar.pi - 0 : Fl bin53) = ⟨rnd53 Real.pi⟩ := by
      apply Fl.ext
      show rnd53 (rnd53 Real.pi - 0) = _
      rw [sub_zero, rnd53_idem]
    rw [← e]
    refine sp.sub .zero ?_
    show NoOver (rnd53 Real.pi - 0)
    rw [sub_zero]; exact hp.over (by norm_num)
  have sM : Same (nat (m - 1) : B64) (⟨((m - 1 : Nat) : ℝ)⟩ : Fl bin53) := by
    have e : (nat (m - 1) : Fl bin53) = ⟨((m - 1 : Nat) : ℝ)⟩ := Fl.ext (rnd53_nat (by omega))
    rw [← e]; exact .nat _ hM.2
  have sI : Same (nat i : B64) (⟨(i : ℝ)⟩ : Fl bin53) := by
    have e : (nat i : Fl bin53) = ⟨(i : ℝ)⟩ := Fl.ext (rnd53_nat (by omega))
    rw [← e]; exact .nat _ hI.2
  have s2 := s1.div sM ⟨by show ((m - 1 : Nat) : ℝ) ≠ 0; linarith, hq.under, hq.over (by norm_num)⟩
  have s3 := s2.mul sI ⟨(hq.rnd.mul_nat hI.1).under, (hq.rnd.mul_nat hI.1).over (by norm_num)⟩
  have e : (0 + (⟨rnd53 Real.pi⟩ : Fl bin53) / ⟨((m - 1 : Nat) : ℝ)⟩ * ⟨(i : ℝ)⟩ : Fl bin53) = ⟨flFreq bin53 m i⟩ := by
    apply Fl.ext
    show rnd53 (0 + flFreq bin53 m i) = flFreq bin53 m i
    rw [zero_add, flFreq]
    exact rnd53_idem _
  rw [← e]
  refine Same.zero.add s3 ?_
  show NoOver (0 + flFreq bin53 m i)
  rw [zero_add]; exact hqi.over (by norm_num)

theorem rnd64_abs_err {t : ℝ} (h : |t| ≤ 1) : |rnd64 t - t| ≤ (2 : ℝ) ^ (-53 : ℤ) := by
  rcases lt_or_ge |t| ((2 : ℝ) ^ (-1022 : ℤ)) with hs | hs
  · rw [rnd64_sub hs]
    have hp : (0 : ℝ) < (2 : ℝ) ^ (-1074 : ℤ) := by positivity
    have e : (roundEven (t / (2 : ℝ) ^ (-1074 : ℤ)) : ℝ) * (2 : ℝ) ^ (-1074 : ℤ) - t =
        ((roundEven (t / (2 : ℝ) ^ (-1074 : ℤ)) : ℝ) - t / (2 : ℝ) ^ (-1074 : ℤ)) * (2 : ℝ) ^ (-1074 : ℤ) := by
      rw [sub_mul, div_mul_cancel₀ _ hp.ne']
    rw [e, abs_mul, abs_of_pos hp]
    refine (mul_le_mul_of_nonneg_right (roundEven_err _) hp.le).trans ?_
    refine (mul_le_of_le_one_left hp.le (by norm_num)).trans (zpow_le_zpow_right₀ (by norm_num) (by norm_num))
  · rw [rnd64_normal hs]
    exact (rnd53_err t).trans (mul_le_of_le_one_right (by positivity) h)

theorem B64.cos_val {a : B64} (h : a.Finite) : (Scalar.cos a).Finite ∧ (Scalar.cos a).val = rnd64 (Real.cos a.val) := by
  have e : Scalar.cos a = B64.ofReal false (Real.cos a.val) := by
    cases a with
    | nan => exact h.elim
    | inf s => exact h.elim
    | zero s => rfl
    | num s => rfl
  rw [e]
  have hc : |rnd64 (Real.cos a.val)| ≤ (2 : ℝ) ^ (0 : ℤ) := rnd64_abs_le (by norm_num) (by rw [zpow_zero]; exact Real.abs_cos_le_one _)
  exact B64.ofReal_val (B64.pow_lt_max (by norm_num) hc)

/-- doubling is exact -/
theorem B64.two_mul_val {a : B64} (h : a.Finite) (hb : |a.val| ≤ 1) : (nat 2 * a).Finite ∧ (nat 2 * a).val = 2 * a.val := by
  have s2 : Same (nat 2 : B64) (nat 2) := .nat 2 (nat_small (by norm_num)).2
  have v2 : (nat 2 : B64).val = 2 := by
    rw [s2.2]
    show rnd53 ((2 : Nat) : ℝ) = 2
    rw [rnd53_nat (by norm_num)]; norm_num
  have hr := B64.rep_val h
  have h1 := rnd64_int_mul hr 1
  rw [Int.cast_one, one_mul, hr] at h1
  have h2 := rnd64_int_mul hr 2
  have h3 : rnd53 (2 * a.val) = 2 * rnd53 a.val := bin53.double a.val
  push_cast at h2
  rw [h3, ← h1] at h2
  rw [B64.finite_mul s2.1 h, v2]
  have := B64.ofReal_val (s := ((nat 2 : B64).sgn ^^ a.sgn)) (x := 2 * a.val) (by
    rw [h2]
    refine B64.pow_lt_max (k := 1) (by norm_num) ?_
    rw [abs_mul, zpow_one, abs_two]; linarith)
  rwa [h2] at this

/-- one entry of the table -/
theorem entry64 {m i j : Nat} (hm : 2 ≤ m) (hm' : m ≤ 2 ^ 31) (hi : i < m) (hj : j < n) (hn : n ≤ 2 ^ 31) :
    (nat 2 * Scalar.cos ((0 + (Scalar.pi - 0) / nat (m - 1) * nat i) * nat j) : B64).Finite ∧
    |(nat 2 * Scalar.cos ((0 + (Scalar.pi - 0) / nat (m - 1) * nat i) * nat j) : B64).val -
      2 * Real.cos (Real.pi / ((m - 1 : Nat) : ℝ) * i * j)| ≤ lpTableErr ((2 : ℝ) ^ (-53 : ℤ)) n := by
  obtain ⟨s1, hf⟩ := freq_same hm hm' hi
  have hJ := nat_small (k := j) (by omega)
  have sJ : Same (nat j : B64) (⟨(j : ℝ)⟩ : Fl bin53) := by
    have e : (nat j : Fl bin53) = ⟨(j : ℝ)⟩ := Fl.ext (rnd53_nat (by omega))
    rw [← e]; exact .nat _ hJ.2
  have s2 := s1.mul sJ ⟨(hf.mul_nat hJ.1).under, (hf.mul_nat hJ.1).over (by norm_num)⟩
  generalize (0 + (Scalar.pi - 0) / nat (m - 1) * nat i : B64) * nat j = a at s2
  have hv : a.val = rnd53 (flFreq bin53 m i * j) := s2.2
  obtain ⟨c1, c2⟩ := B64.cos_val s2.1
  have hc : |(Scalar.cos a).val| ≤ 1 := by
    rw [c2]
    have := rnd64_abs_le (k := 0) (by norm_num) (show |Real.cos a.val| ≤ (2 : ℝ) ^ (0 : ℤ) by rw [zpow_zero]; exact Real.abs_cos_le_one _)
    rwa [zpow_zero] at this
  obtain ⟨d1, d2⟩ := B64.two_mul_val c1 hc
  refine ⟨d1, ?_⟩
  rw [d2, c2]
  have h0 : (0 : ℝ) ≤ (2 : ℝ) ^ (-53 : ℤ) := by positivity
  set b := Real.pi / ((m - 1 : Nat) : ℝ) * i * j
  have e : ∀ t, |rnd53 t - t| ≤ ((1 + (2 : ℝ) ^ (-53 : ℤ)) ^ 1 - 1) * |t| := fun t => by
    rw [pow_one, add_sub_cancel_left]; exact rnd53_err _
  have h1 : |a.val - b| ≤ ((1 + (2 : ℝ) ^ (-53 : ℤ)) ^ (3 + 1) - 1) * |b| := by
    rw [hv]; exact rel_mul h0 (flFreq_err bin53 m i) (e _)
  have hM : (0 : ℝ) < ((m - 1 : Nat) : ℝ) := by exact_mod_cast (show 0 < m - 1 by omega)
  have hb : |b| ≤ Real.pi * n := by
    have h2 : (i : ℝ) / ((m - 1 : Nat) : ℝ) ≤ 1 := by
      rw [div_le_one hM]
      exact_mod_cast (show i ≤ m - 1 by omega)
    have h3 : (j : ℝ) ≤ n := by exact_mod_cast hj.le
    have h4 : b = Real.pi * (((i : ℝ) / ((m - 1 : Nat) : ℝ)) * j) := by simp only [b]; ring
    have h5 : 0 ≤ ((i : ℝ) / ((m - 1 : Nat) : ℝ)) * j := by positivity
    have hpi := Real.pi_pos
    rw [h4, abs_of_nonneg (by positivity)]
    have h6 : ((i : ℝ) / ((m - 1 : Nat) : ℝ)) * j ≤ 1 * n := mul_le_mul h2 h3 (by positivity) (by norm_num)
    nlinarith
  have h5 := rnd64_abs_err (Real.abs_cos_le_one a.val)
  generalize (2 : ℝ) ^ (-53 : ℤ) = u at h0 h1 h5
  have hp : (0 : ℝ) ≤ (1 + u) ^ 4 - 1 := by
    have : (1 : ℝ) ≤ (1 + u) ^ 4 := one_le_pow₀ (by linarith)
    linarith
  have h2 := mul_le_mul_of_nonneg_left hb hp
  have h3 := Real.abs_cos_sub_cos_le a.val b
  have h6 := abs_add_le (rnd64 (Real.cos a.val) - Real.cos a.val) (Real.cos a.val - Real.cos b)
  rw [sub_add_sub_cancel] at h6
  rw [← mul_sub, abs_mul, abs_two, lpTableErr]
  norm_num at h1
  linarith

/-- the band edge `(w * (15 n - 1)).floor() as i32` -/
theorem edge64 {w : B64} (hw : w.Finite) (h0 : 0 ≤ w.val) (h1 : w.val ≤ 1) {M : Nat} (hM : M < 2 ^ 31) :
    Scalar.floorI32 (w * nat M : B64) = ((⌊rnd53 (w.val * M)⌋₊ : Nat) : Int) ∧ ⌊rnd53 (w.val * M)⌋₊ ≤ M := by
  have sM : Same (nat M : B64) (nat M) := .nat _ (nat_small hM.le).2
  have vM : (nat M : B64).val = M := by rw [sM.2]; exact rnd53_nat hM.le
  have hr : rnd64 (w.val * M) = rnd53 (w.val * M) := by
    have := rnd64_int_mul (B64.rep_val hw) (M : ℤ)
    rw [mul_comm w.val]
    exact_mod_cast this
  have hle : w.val * M ≤ M := mul_le_of_le_one_left (Nat.cast_nonneg _) h1
  have hp0 : 0 ≤ rnd53 (w.val * M) := bin53.nonneg (mul_nonneg h0 (Nat.cast_nonneg _))
  have hpM : rnd53 (w.val * M) ≤ M := by
    have := rnd53_mono _ _ hle
    rwa [rnd53_nat hM.le] at this
  have hfl : ⌊rnd53 (w.val * M)⌋₊ ≤ M := Nat.floor_le_of_le hpM
  refine ⟨?_, hfl⟩
  have hMr : (M : ℝ) ≤ (2 : ℝ) ^ (31 : ℤ) := (nat_small hM.le).1
  obtain ⟨f1, f2⟩ := B64.ofReal_val (s := (w.sgn ^^ (nat M : B64).sgn)) (x := w.val * (nat M : B64).val) (by
    rw [vM, hr]
    exact B64.pow_lt_max (k := 31) (by norm_num) (by rw [abs_of_nonneg hp0]; exact hpM.trans hMr))
  rw [← B64.finite_mul hw sM.1] at f1 f2
  rw [vM, hr] at f2
  have e : Scalar.floorI32 (w * nat M : B64) = max (-2 ^ 31) (min ⌊(w * nat M : B64).val⌋ (2 ^ 31 - 1)) := by
    generalize (w * nat M : B64) = z at f1
    cases z with
    | nan => exact f1.elim
    | inf s => exact f1.elim
    | zero s => rfl
    | num s => rfl
  rw [e, f2, (Int.natCast_floor_eq_floor hp0).symm]
  have : ((⌊rnd53 (w.val * M)⌋₊ : Nat) : Int) ≤ M := by exact_mod_cast hfl
  have hM' : (M : Int) < 2 ^ 31 := by exact_mod_cast hM
  rw [min_eq_left (by omega), max_eq_right (by omega)]

/-- **C130** (constructor)  In IEEE-754 `f64`, for `n ≥ 1` taps with `15 n ≤ 2³¹`, finite band edges `0 ≤ wpass ≤ wstop ≤ 1` and finite passband bounds:
the constructor never panics and sets up the design problem on `15 n` grid points with a finite table that is right up to `lpTableErr`, for
`u = 2⁻⁵³`.  The passband contains every grid point up to `wpass` and none beyond `(1+u) wpass`; the stopband contains no grid point up to `wstop` and
every one beyond `(1+u) wstop`. -/
theorem C130_lowpass_new (hn : 0 < n) (hn' : 15 * n ≤ 2 ^ 31) (wpass wstop lp up sp : B64) (fp : wpass.Finite) (fs : wstop.Finite)
    (fl : lp.Finite) (fu : up.Finite) (h0 : 0 ≤ wpass.val) (h1 : wpass.val ≤ wstop.val) (h2 : wstop.val ≤ 1) :
    ∃ o d, LowpassOracle.new n wpass wstop lp up sp = .ok o ∧ o.For64 d n (lpTableErr ((2 : ℝ) ^ (-53 : ℤ)) n) ∧ d.Ok ∧ o.spSq = sp ∧
      d.m = 15 * n ∧ d.lp = lp.val ∧ d.up = up.val ∧
      (∀ i : Nat, (i : ℝ) ≤ wpass.val * ((15 * n - 1 : Nat) : ℝ) → i < d.pass) ∧
      (∀ i : Nat, i < d.pass → (i : ℝ) ≤ (1 + (2 : ℝ) ^ (-53 : ℤ)) * (wpass.val * ((15 * n - 1 : Nat) : ℝ))) ∧
      (∀ i : Nat, i < 15 * n → (i : ℝ) ≤ wstop.val * ((15 * n - 1 : Nat) : ℝ) → i < d.stop) ∧
      (∀ i : Nat, i < d.stop → (i : ℝ) ≤ (1 + (2 : ℝ) ^ (-53 : ℤ)) * (wstop.val * ((15 * n - 1 : Nat) : ℝ))) := by
  have hm : 2 ≤ 15 * n := by omega
  obtain ⟨om, hom1, hom2⟩ := linspace_entries (0 : B64) Scalar.pi hm
  have hrow := lowpassRow_entries (α := B64) hn
  choose rowf hrow1 hrow2 using hrow
  obtain ⟨fr, hfr⟩ : ∃ fr : Nat → B64, fr = fun i => 0 + (Scalar.pi - 0) / nat (15 * n - 1) * nat i := ⟨_, rfl⟩
  have hspec : ((List.range (15 * n)).mapM fun i => do
      let o ← om.idx i
      lowpassRow n o) = .ok ((List.range (15 * n)).map fun i => rowf (fr i)) := by
    refine mapM_range_ok (15 * n) fun i hi => ?_
    rw [hom2.idx hi, hfr]
    exact hrow1 _
  have hM : (0 : ℝ) ≤ ((15 * n - 1 : Nat) : ℝ) := Nat.cast_nonneg _
  obtain ⟨ep, ep'⟩ := edge64 fp h0 (h1.trans h2) (M := 15 * n - 1) (by omega)
  obtain ⟨et, et'⟩ := edge64 fs (h0.trans h1) h2 (M := 15 * n - 1) (by omega)
  set P := wpass.val * ((15 * n - 1 : Nat) : ℝ) with hP
  set T := wstop.val * ((15 * n - 1 : Nat) : ℝ) with hT
  have hp0 : 0 ≤ P := by positivity
  have hps : P ≤ T := by rw [hP, hT]; gcongr
  have hsm : T ≤ ((15 * n - 1 : Nat) : ℝ) := by rw [hT]; nlinarith
  have hfl := Nat.floor_le_floor (rnd53_mono _ _ hps)
  have hin : ∀ (t : ℝ), 0 ≤ t → ∀ i : Nat, i ≤ 15 * n → (i : ℝ) ≤ t → i < ⌊rnd53 t⌋₊ + 1 := by
    intro t ht i hi hle
    rw [Nat.lt_succ_iff, Nat.le_floor_iff (show 0 ≤ rnd53 t from bin53.nonneg ht)]
    have := rnd53_mono _ _ hle
    rwa [rnd53_nat (hi.trans hn')] at this
  have hout : ∀ (t : ℝ), 0 ≤ t → ∀ i : Nat, i < ⌊rnd53 t⌋₊ + 1 → (i : ℝ) ≤ (1 + (2 : ℝ) ^ (-53 : ℤ)) * t := by
    intro t ht i hi
    rw [Nat.lt_succ_iff, Nat.le_floor_iff (show 0 ≤ rnd53 t from bin53.nonneg ht)] at hi
    have := bin53.abs_le t
    rw [abs_of_nonneg ht] at this
    exact hi.trans ((le_abs_self _).trans this)
  have hterr : 0 ≤ lpTableErr ((2 : ℝ) ^ (-53 : ℤ)) n := by
    have hu : (0 : ℝ) ≤ (2 : ℝ) ^ (-53 : ℤ) := by positivity
    generalize (2 : ℝ) ^ (-53 : ℤ) = u at hu
    have : (1 : ℝ) ≤ (1 + u) ^ 4 := one_le_pow₀ (by linarith)
    have h3 : 0 ≤ (1 + u) ^ 4 - 1 := by linarith
    have := Real.pi_pos
    unfold lpTableErr
    positivity
  refine ⟨⟨true, -1, (List.range (15 * n)).map fun i => rowf (fr i), (⌊rnd53 P⌋₊ : Nat) + 1,
      (⌊rnd53 T⌋₊ : Nat) + 1, lp, up, sp, (⌊rnd53 P⌋₊ : Nat) + 1 - 1, (⌊rnd53 T⌋₊ : Nat) + 1 - 1, none, -1⟩,
    ⟨15 * n, ⌊rnd53 P⌋₊ + 1, ⌊rnd53 T⌋₊ + 1, lp.val, up.val⟩,
    ?_, ⟨hn, ?_, ?_, ?_, ?_, ?_, ⟨fl, rfl⟩, ⟨fu, rfl⟩, ?_, ?_, ?_⟩, ⟨?_, ?_, hm⟩, rfl, rfl, rfl, rfl, ?_, ?_, ?_, ?_⟩
  · rw [LowpassOracle.new]
    simp only [hom1, Res.ok_bind, hspec]
    rw [show decide (0 < 15 * n) = true by simp; omega]
    simp only [Res.assert_true, Res.ok_bind, ep, et]
  · simp
  · intro col hc
    simp only [List.mem_map, List.mem_range] at hc
    obtain ⟨i, hi, rfl⟩ := hc
    have hv := hrow2 (fr i)
    refine ⟨hv.shape, ?_⟩
    intro y hy
    obtain ⟨j, hj, rfl⟩ := List.getElem_of_mem hy
    have hjn : j < n := by rwa [hv.shape.2.2] at hj
    have e := hv.get j hjn
    rw [List.getElem?_eq_getElem hj] at e
    rw [Option.some.inj e]
    by_cases hj0 : j = 0
    · simp only [hj0, if_true]; exact Same.one.1
    · simp only [hj0, if_false, hfr]
      exact (entry64 hm hn' hi hjn (by omega)).1
  · intro i hi j
    have hi : i < 15 * n := hi
    have e : ((List.range (15 * n)).map fun i => rowf (fr i)).getD i (Arr.new 0) = rowf (fr i) := by
      rw [List.getD_eq_getElem?_getD, List.getElem?_eq_getElem (by simpa using hi)]
      simp
    simp only [e]
    rw [Arr.vec64, (hrow2 _).vec j.2]
    by_cases hj : (j : Nat) = 0
    · simp only [hj, if_true]
      have : (1 : B64).val = 1 := Same.one.2
      rw [this, sub_self, abs_zero]
      exact hterr
    · simp only [hj, if_false, hfr]
      exact (entry64 hm hn' hi j.2 (by omega)).2
  · show ((⌊rnd53 P⌋₊ : Nat) : Int) + 1 = ((⌊rnd53 P⌋₊ + 1 : Nat) : Int)
    push_cast; rfl
  · show ((⌊rnd53 T⌋₊ : Nat) : Int) + 1 = ((⌊rnd53 T⌋₊ + 1 : Nat) : Int)
    push_cast; rfl
  · refine ⟨le_rfl, fun _ => ?_⟩
    show (-1 : Int) < ((⌊rnd53 P⌋₊ + 1 : Nat) : Int)
    omega
  · show ((⌊rnd53 P⌋₊ + 1 : Nat) : Int) - 1 ≤ ((⌊rnd53 P⌋₊ : Nat) : Int) + 1 - 1 ∧
      (⌊rnd53 P⌋₊ + 1 < ⌊rnd53 T⌋₊ + 1 → ((⌊rnd53 P⌋₊ : Nat) : Int) + 1 - 1 < ((⌊rnd53 T⌋₊ + 1 : Nat) : Int))
    omega
  · show ((⌊rnd53 T⌋₊ + 1 : Nat) : Int) - 1 ≤ ((⌊rnd53 T⌋₊ : Nat) : Int) + 1 - 1 ∧
      (⌊rnd53 T⌋₊ + 1 < 15 * n → ((⌊rnd53 T⌋₊ : Nat) : Int) + 1 - 1 < ((15 * n : Nat) : Int))
    omega
  · show ⌊rnd53 P⌋₊ + 1 ≤ ⌊rnd53 T⌋₊ + 1
    omega
  · show ⌊rnd53 T⌋₊ + 1 ≤ 15 * n
    omega
  · intro i hi
    have hle : i ≤ 15 * n := by
      have := hi.trans (hps.trans hsm)
      have : i ≤ 15 * n - 1 := by exact_mod_cast this
      omega
    exact hin P hp0 i hle hi
  · exact fun i hi => hout P hp0 i hi
  · exact fun i hi hle => hin T (hp0.trans hps) i hi.le hle
  · exact fun i hi => hout T (hp0.trans hps) i hi

end Ellalgo
