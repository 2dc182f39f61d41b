import Verif.Lib.Same64

/-! Positive numbers between two powers of two: operations stay in range. -/

namespace Ellalgo

/-- between two powers of two -/
def Pw (a b : ℤ) (x : Fl bin53) : Prop := (2 : ℝ) ^ a ≤ x.val ∧ x.val ≤ (2 : ℝ) ^ b

theorem two_le_two {a b : ℤ} (h : a ≤ b) : (2 : ℝ) ^ a ≤ (2 : ℝ) ^ b := zpow_le_zpow_right₀ (by norm_num) h

theorem rnd_band {a b : ℤ} {x : ℝ} (h : (2 : ℝ) ^ a ≤ x ∧ x ≤ (2 : ℝ) ^ b) :
    (2 : ℝ) ^ a ≤ rnd53 x ∧ rnd53 x ≤ (2 : ℝ) ^ b := by
  have h1 := rnd53_mono _ _ h.1
  have h2 := rnd53_mono _ _ h.2
  rw [rnd53_pow] at h1 h2
  exact ⟨h1, h2⟩

theorem band_noOver {a b : ℤ} {x : ℝ} (h : (2 : ℝ) ^ a ≤ x ∧ x ≤ (2 : ℝ) ^ b) (hb : b < 1024) : NoOver x := by
  obtain ⟨h1, h2⟩ := rnd_band h
  have h0 : 0 ≤ rnd53 x := le_trans (by positivity) h1
  unfold NoOver
  rw [abs_of_nonneg h0]
  exact h2.trans_lt (zpow_lt_zpow_right₀ (by norm_num) hb)

theorem band_noUnder {a b : ℤ} {x : ℝ} (h : (2 : ℝ) ^ a ≤ x ∧ x ≤ (2 : ℝ) ^ b) (ha : -1022 ≤ a) : NoUnder x := by
  right
  have h0 : 0 ≤ x := le_trans (by positivity) h.1
  rw [abs_of_nonneg h0]
  exact (two_le_two ha).trans h.1

theorem noOver_zero : NoOver 0 := by
  unfold NoOver
  rw [rnd53_zero, abs_zero]
  positivity

theorem noUnder_zero : NoUnder 0 := .inl rfl

variable {a b c d : ℤ} {x y : Fl bin53}

theorem Pw.pos (h : Pw a b x) : 0 < x.val := lt_of_lt_of_le (by positivity) h.1

theorem Pw.mul_band (h : Pw a b x) (k : Pw c d y) : (2 : ℝ) ^ (a + c) ≤ x.val * y.val ∧ x.val * y.val ≤ (2 : ℝ) ^ (b + d) := by
  rw [zpow_add₀ (by norm_num), zpow_add₀ (by norm_num)]
  exact ⟨mul_le_mul h.1 k.1 (by positivity) h.pos.le, mul_le_mul h.2 k.2 k.pos.le (by positivity)⟩

theorem Pw.mul (h : Pw a b x) (k : Pw c d y) : Pw (a + c) (b + d) (x * y) := rnd_band (h.mul_band k)
theorem Pw.mulOk (h : Pw a b x) (k : Pw c d y) (h1 : -1022 ≤ a + c) (h2 : b + d < 1024) : MulOk x y :=
  ⟨band_noUnder (h.mul_band k) h1, band_noOver (h.mul_band k) h2⟩

theorem Pw.div_band (h : Pw a b x) (k : Pw c d y) : (2 : ℝ) ^ (a - d) ≤ x.val / y.val ∧ x.val / y.val ≤ (2 : ℝ) ^ (b - c) := by
  rw [zpow_sub₀ (by norm_num), zpow_sub₀ (by norm_num)]
  exact ⟨div_le_div₀ h.pos.le h.1 k.pos k.2, div_le_div₀ (by positivity) h.2 (by positivity) k.1⟩

theorem Pw.div (h : Pw a b x) (k : Pw c d y) : Pw (a - d) (b - c) (x / y) := rnd_band (h.div_band k)
theorem Pw.divOk (h : Pw a b x) (k : Pw c d y) (h1 : -1022 ≤ a - d) (h2 : b - c < 1024) : DivOk x y :=
  ⟨k.pos.ne', band_noUnder (h.div_band k) h1, band_noOver (h.div_band k) h2⟩

theorem Pw.add_band (h : Pw a b x) (k : Pw c b y) : (2 : ℝ) ^ a ≤ x.val + y.val ∧ x.val + y.val ≤ (2 : ℝ) ^ (b + 1) := by
  rw [zpow_add_one₀ (by norm_num)]
  exact ⟨by linarith [h.1, k.pos], by linarith [h.2, k.2]⟩

theorem Pw.add (h : Pw a b x) (k : Pw c b y) : Pw a (b + 1) (x + y) := rnd_band (h.add_band k)
theorem Pw.addOk (h : Pw a b x) (k : Pw c b y) (h2 : b + 1 < 1024) : AddOk x y := band_noOver (h.add_band k) h2

theorem Pw.mono {a' b' : ℤ} (h : Pw a b x) (h1 : a' ≤ a) (h2 : b ≤ b') : Pw a' b' x :=
  ⟨(two_le_two h1).trans h.1, h.2.trans (two_le_two h2)⟩

theorem Pw.one : Pw 0 0 1 := ⟨by rw [zpow_zero]; exact le_rfl, by rw [zpow_zero]; exact le_rfl⟩

theorem Pw.nat {k : Nat} (h1 : (2 : ℝ) ^ a ≤ k) (h2 : (k : ℝ) ≤ (2 : ℝ) ^ b) : Pw a b (nat k) := rnd_band ⟨h1, h2⟩

theorem Pw.two : Pw 1 1 (Ellalgo.nat 2) := Pw.nat (by norm_num) (by norm_num)

theorem same_new {n : Nat} (h2 : 2 ≤ n) (h64 : n ≤ 2 ^ 64) : (EllCalc.new n : EllCalc B64).Same (EllCalc.new n) := by
  have c2 : (2 : ℝ) ≤ n := by exact_mod_cast h2
  have c64 : (n : ℝ) ≤ 2 ^ 64 := by exact_mod_cast h64
  have pn : Pw 1 64 (nat n) := Pw.nat (by rw [zpow_one]; exact c2) (by
    rw [show (64 : ℤ) = ((64 : ℕ) : ℤ) from rfl, zpow_natCast]; exact c64)
  have sn : Same (nat n) (nat n) := Same.nat n (by
    refine c64.trans ?_
    rw [show ((2 : ℝ) ^ 64) = (2 : ℝ) ^ (64 : ℤ) from rfl]
    exact two_le_two (by norm_num))
  have p1 : Pw 0 64 (1 : Fl bin53) := Pw.one.mono le_rfl (by norm_num)
  have s1 := sn.add Same.one (pn.addOk p1 (by norm_num))
  have pp := pn.add p1
  have sh := sn.div Same.two (pn.divOk Pw.two (by norm_num) (by norm_num))
  have si := Same.one.div sn (Pw.one.divOk pn (by norm_num) (by norm_num))
  have pq := pn.mul pn
  have sq := sn.mul sn (pn.mulOk pn (by norm_num) (by norm_num))
  have hb : (2 : ℝ) ^ (1 : ℤ) ≤ (nat n * nat n : Fl bin53).val - (1 : Fl bin53).val ∧
      (nat n * nat n : Fl bin53).val - (1 : Fl bin53).val ≤ (2 : ℝ) ^ (128 : ℤ) := by
    have e : (1 : Fl bin53).val = 1 := rfl
    have q1 := pq.1
    have q2 := pq.2
    rw [show (1 + 1 : ℤ) = 2 from rfl] at q1
    rw [show (64 + 64 : ℤ) = 128 from rfl] at q2
    rw [e, zpow_one]
    have q3 : (4 : ℝ) ≤ (nat n * nat n : Fl bin53).val := le_trans (by norm_num) q1
    exact ⟨by linarith, by linarith⟩
  have pm : Pw 1 128 (nat n * nat n - 1 : Fl bin53) := rnd_band hb
  have smm := sq.sub Same.one (band_noOver hb (by norm_num))
  have sc1 := sq.div smm (pq.divOk pm (by norm_num) (by norm_num))
  have p0 := Pw.one.div pp
  have s0 := Same.one.div s1 (Pw.one.divOk pp (by norm_num) (by norm_num))
  have sc2 := Same.two.mul s0 (Pw.two.mulOk p0 (by norm_num) (by norm_num))
  exact ⟨sn, ⟨sn, s1, sh, si, sc1, sc2⟩, rfl⟩

end Ellalgo
