import Verif.Props.RoundedLowpass
import Mathlib.Analysis.SpecialFunctions.Trigonometric.Bounds

/-! Property C88: runs with the low-pass oracle in rounded arithmetic, and its constructor. -/

namespace Ellalgo
open Matrix

variable {u : ℝ} {R : Rounding u} {n : Nat} {d : LpData} {ε : ℝ} {S : Type}

/-- **C88** (runs of `cutting_plane_optim`)  Over any steady search space, whatever rounding does to it: the run ends without
a panic, the bound never gets worse and is unchanged if no filter is returned, and a returned filter meets the specification
with the final bound up to `lpErr`, and attains that bound at some stopband frequency up to `lpErr`. -/
theorem C88_lowpass_optim_run (hd : d.Ok) (hs : d.stop < d.m) (hu : u ≤ 1 / 8) (hε : ε < 1)
    {sp : Space S (Arr (Fl R)) (ParallelCut (Fl R)) (Fl R)} {Q : S → Prop} (hsp : sp.Steady n Q)
    {o : LowpassOracle (Fl R)} (ho : o.FlFor d n ε) {s : S} (hQ : Q s) (γ : Fl R) (opts : Options (Fl R)) :
    ∃ r k γ' o' s', cuttingPlaneOptim LowpassOracle.oracle sp o s γ opts = .ok ((r, k), γ', o', s') ∧ γ'.val ≤ γ.val ∧
      (r = none → γ' = γ) ∧
      ∀ x, r = some x → x.IsVecShape n ∧
        x.flVec n ∈ d.feasibleWith γ'.val (-lpErr u ε n 0 (x.flVec n) (x.flVec n)) ∧
        ∃ k, d.stop ≤ k ∧ k < d.m ∧ |γ'.val - lpResponse (x.flVec n) (d.freq k)| ≤ lpErr u ε n 0 (x.flVec n) (x.flVec n) := by
  obtain ⟨r, k, γ', w', s', h1, h2, h3, h4⟩ := optim_accepted hsp (I := fun o g => o.FlFor d n ε ∧ g.val ≤ γ.val)
    (orc := LowpassOracle.oracle) (w := o) (s := s) (g := γ) (by
      rintro w x g ⟨hw, hg⟩ hx
      obtain ⟨gr, b0, b1, b, g', w', hq, hI, a1, a2, a3, a4, a5⟩ := C88_lowpass_optim hd hs hu hε w hw x hx g
      exact ⟨(gr, ⟨b0, b1⟩), b, g', w', hq, ⟨hI, a3.trans hg⟩, fun hb => (a5 hb).1, a1⟩) opts ⟨ho, le_rfl⟩ hQ
  refine ⟨r, k, γ', w', s', h1, h2.2, h3, ?_⟩
  intro x hx
  obtain ⟨hxs, w1, g1, c, w2, ⟨hw1, -⟩, hq⟩ := h4 x hx
  obtain ⟨gr, b0, b1, b, g', w', hq', hI, a1, a2, a3, a4, a5⟩ := C88_lowpass_optim hd hs hu hε w1 hw1 x hxs g1
  rw [hq] at hq'
  simp only [Res.ok.injEq, Prod.mk.injEq] at hq'
  obtain ⟨⟨-, hb⟩, hg, -⟩ := hq'
  obtain ⟨-, h5, h6, -⟩ := a4 hb.symm
  rw [← hg] at h5 h6
  exact ⟨hxs, h5, h6⟩

/-- **C88** (runs of `cutting_plane_feas`)  Likewise: no panic, and a returned filter meets the specification up to `lpErr`. -/
theorem C88_lowpass_feas_run (hd : d.Ok) (hu : u ≤ 1 / 8) (hε : ε < 1)
    {sp : Space S (Arr (Fl R)) (ParallelCut (Fl R)) (Fl R)} {Q : S → Prop} (hsp : sp.Steady n Q)
    {o : LowpassOracle (Fl R)} (ho : o.FlFor d n ε) {s : S} (hQ : Q s) (opts : Options (Fl R)) :
    ∃ r k o' s', cuttingPlaneFeas LowpassOracle.oracleFeas sp o s opts = .ok ((r, k), o', s') ∧
      ∀ x, r = some x → x.IsVecShape n ∧
        x.flVec n ∈ d.feasibleWith o.spSq.val (-lpErr u ε n 0 (x.flVec n) (x.flVec n)) := by
  obtain ⟨r, k, w', s', h1, h2⟩ := feas_accepted hsp (I := fun w => w.FlFor d n ε ∧ w.spSq = o.spSq)
    (orc := LowpassOracle.oracleFeas) (w := o) (s := s) (by
      rintro w x ⟨hw, hsp⟩ hx
      obtain ⟨r, w', hq, hI, hs', -, hc⟩ := C88_lowpass_feas hd hu hε w hw x hx
      refine ⟨r, w', hq, ⟨hI, hs'.trans hsp⟩, ?_⟩
      rintro ⟨g, ⟨b0, b1⟩⟩ hr
      exact (hc g b0 b1 hr).1) opts ⟨ho, rfl⟩ hQ
  refine ⟨r, k, w', s', h1, ?_⟩
  intro x hx
  obtain ⟨hxs, w1, ⟨hw1, hsp1⟩, hq⟩ := h2 x hx
  obtain ⟨r', w2, hq', -, -, ha, -⟩ := C88_lowpass_feas hd hu hε w1 hw1 x hxs
  rw [hq] at hq'
  simp only [Res.ok.injEq, Prod.mk.injEq] at hq'
  rw [hsp1] at ha
  exact ⟨hxs, ha hq'.1.symm⟩

/-- one frequency, as computed by `linspace` -/
noncomputable def flFreq (R : Rounding u) (m i : Nat) : ℝ := R.rnd (R.rnd (R.rnd Real.pi / ((m - 1 : Nat) : ℝ)) * i)

theorem rel_mul {a b p q : ℝ} (hu : 0 ≤ u) {k l : Nat} (h1 : |a - b| ≤ ((1 + u) ^ k - 1) * |b|)
    (hr : |p - a * q| ≤ ((1 + u) ^ l - 1) * |a * q|) : |p - b * q| ≤ ((1 + u) ^ (k + l) - 1) * |b * q| := by
  have hk : (1 : ℝ) ≤ (1 + u) ^ k := one_le_pow₀ (by linarith)
  have hl : (1 : ℝ) ≤ (1 + u) ^ l := one_le_pow₀ (by linarith)
  have h2 : |a| ≤ (1 + u) ^ k * |b| := by
    have := abs_add_le (a - b) b
    rw [sub_add_cancel] at this
    linarith
  have h3 := abs_add_le (p - a * q) (a * q - b * q)
  rw [sub_add_sub_cancel, ← sub_mul, abs_mul (a - b)] at h3
  have h4 := mul_le_mul_of_nonneg_right h1 (abs_nonneg q)
  have h5 := mul_le_mul_of_nonneg_right h2 (abs_nonneg q)
  rw [abs_mul] at hr ⊢
  have h6 := mul_le_mul_of_nonneg_left h5 (sub_nonneg.2 hl)
  rw [pow_add]
  nlinarith

theorem flFreq_err (R : Rounding u) (m i : Nat) :
    |flFreq R m i - Real.pi / ((m - 1 : Nat) : ℝ) * i| ≤ ((1 + u) ^ 3 - 1) * |Real.pi / ((m - 1 : Nat) : ℝ) * i| := by
  have hu := R.unit_nonneg
  have h1 : |R.rnd Real.pi - Real.pi| ≤ ((1 + u) ^ 1 - 1) * |Real.pi| := by
    rw [pow_one, add_sub_cancel_left]; exact R.err _
  have e : ∀ t, |R.rnd t - t| ≤ ((1 + u) ^ 1 - 1) * |t| := fun t => by
    rw [pow_one, add_sub_cancel_left]; exact R.err _
  have h2 := rel_mul (q := (((m - 1 : Nat) : ℝ))⁻¹) hu h1 (e _)
  have h3 := rel_mul (q := (i : ℝ)) hu h2 (e _)
  simpa only [flFreq, div_eq_mul_inv] using h3

/-- `linspace(0, π, m)` -/
theorem fl_linspace (R : Rounding u) {m : Nat} (hm : 2 ≤ m) (hrep : ∀ k ≤ m, R.Rep (k : ℝ)) :
    ∃ a, Arr.linspace (0 : Fl R) Scalar.pi m = .ok a ∧ IsVec a m (fun i => ⟨flFreq R m i⟩) := by
  have hstep : ∀ i < m, (0 + (Scalar.pi - 0) / nat (m - 1) * nat i : Fl R) = ⟨flFreq R m i⟩ := by
    intro i hi
    apply Fl.ext
    show R.rnd (0 + R.rnd (R.rnd (R.rnd (R.rnd Real.pi - 0) / R.rnd ((m - 1 : Nat) : ℝ)) * R.rnd (i : ℝ))) = flFreq R m i
    rw [hrep (m - 1) (by omega), hrep i hi.le, sub_zero, R.idem, zero_add, R.idem]
    rfl
  obtain ⟨a, h1, h2⟩ := forRange_spec (σ := Arr (Fl R))
    (fun k z => IsVec z m (fun j => if j < k then ⟨flFreq R m j⟩ else 0))
    (f := fun i a => a.setIdx i (0 + (Scalar.pi - 0) / nat (m - 1) * nat i)) (s := Arr.new m) (lo := 0) (hi := m) (by omega)
    ((isVec_new m).congr fun i _ => by simp)
    (by
      intro j z hj1 hj2 hz
      obtain ⟨z', a, b⟩ := hz.setIdx hj2 (0 + (Scalar.pi - 0) / nat (m - 1) * nat j)
      refine ⟨z', a, b.congr fun i hi => ?_⟩
      by_cases hij : i = j
      · subst hij
        simp [upd1, hstep i hj2]
      · have : (i < j + 1) ↔ i < j := by omega
        simp [upd1, hij, this])
  refine ⟨a, ?_, h2.congr fun i hi => by simp [hi]⟩
  have e0 : (m == 0) = false := by simp; omega
  have e1 : (m == 1) = false := by simp; omega
  rw [Arr.linspace, e0, e1]
  exact h1

/-- one row of the table -/
theorem fl_lowpassRow (hn : 0 < n) (R : Rounding u) (hrep : ∀ k ≤ n, R.Rep (k : ℝ)) (om : Fl R) :
    ∃ row, lowpassRow n om = .ok row ∧
      IsVec row n (fun j => if j = 0 then 1 else ⟨2 * R.rnd (Real.cos (R.rnd (om.val * j)))⟩) := by
  have hval : ∀ j < n, (nat 2 * Scalar.cos (om * nat j) : Fl R) = ⟨2 * R.rnd (Real.cos (R.rnd (om.val * j)))⟩ := by
    intro j hj
    apply Fl.ext
    show R.rnd (R.rnd ((2 : Nat) : ℝ) * R.rnd (Real.cos (R.rnd (om.val * R.rnd (j : ℝ))))) = _
    rw [hrep j hj.le, Nat.cast_ofNat, R.two, R.double, R.idem]
  obtain ⟨r0, hr0, hr0'⟩ := (isVec_new (α := Fl R) n).setIdx hn 1
  obtain ⟨row, h1, h2⟩ := forRange_spec (σ := Arr (Fl R))
    (fun k z => IsVec z n (fun j => if j = 0 then 1 else
      if j < k then ⟨2 * R.rnd (Real.cos (R.rnd (om.val * j)))⟩ else 0))
    (f := fun j row => row.setIdx j (nat 2 * Scalar.cos (om * nat j))) (s := r0) (lo := 1) (hi := n) (by omega)
    (by
      refine hr0'.congr fun i hi => ?_
      by_cases hi0 : i = 0
      · subst hi0; simp [upd1]
      · have : ¬ i < 1 := by omega
        simp [upd1, hi0])
    (by
      intro j z hj1 hj2 hz
      obtain ⟨z', a, b⟩ := hz.setIdx hj2 (nat 2 * Scalar.cos (om * nat j))
      refine ⟨z', a, b.congr fun i hi => ?_⟩
      by_cases hij : i = j
      · subst hij
        have : i ≠ 0 := by omega
        rw [hval i hj2]
        simp [upd1, this]
      · have : (i < j + 1) ↔ i < j := by omega
        simp [upd1, hij, this])
  refine ⟨row, ?_, h2.congr fun j hj => by simp [hj]⟩
  rw [lowpassRow, hr0]
  exact h1

/-- error of a table entry -/
theorem lp_entry_err (R : Rounding u) {m i j : Nat} (hi : i < m) (hj : j < n) (hm : 2 ≤ m) :
    |2 * R.rnd (Real.cos (R.rnd (flFreq R m i * j))) - 2 * Real.cos (Real.pi / ((m - 1 : Nat) : ℝ) * i * j)| ≤ lpTableErr u n := by
  have hu := R.unit_nonneg
  set a := R.rnd (flFreq R m i * j)
  set b := Real.pi / ((m - 1 : Nat) : ℝ) * i * j
  have e : ∀ t, |R.rnd t - t| ≤ ((1 + u) ^ 1 - 1) * |t| := fun t => by
    rw [pow_one, add_sub_cancel_left]; exact R.err _
  have h1 : |a - b| ≤ ((1 + u) ^ (3 + 1) - 1) * |b| := rel_mul hu (flFreq_err R m i) (e _)
  have hM : (0 : ℝ) < ((m - 1 : Nat) : ℝ) := by exact_mod_cast (show 0 < m - 1 by omega)
  have hb : |b| ≤ Real.pi * n := by
    have h2 : (i : ℝ) / ((m - 1 : Nat) : ℝ) ≤ 1 := by
      rw [div_le_one hM]
      exact_mod_cast (show i ≤ m - 1 by omega)
    have h3 : (j : ℝ) ≤ n := by exact_mod_cast hj.le
    have h4 : b = Real.pi * (((i : ℝ) / ((m - 1 : Nat) : ℝ)) * j) := by simp only [b]; ring
    have h5 : 0 ≤ ((i : ℝ) / ((m - 1 : Nat) : ℝ)) * j := by positivity
    have hpi := Real.pi_pos
    rw [h4, abs_of_nonneg (by positivity)]
    have h6 : ((i : ℝ) / ((m - 1 : Nat) : ℝ)) * j ≤ 1 * n := mul_le_mul h2 h3 (by positivity) (by norm_num)
    nlinarith
  have hp : (0 : ℝ) ≤ (1 + u) ^ 4 - 1 := by
    have : (1 : ℝ) ≤ (1 + u) ^ 4 := one_le_pow₀ (by linarith)
    linarith
  have h2 := mul_le_mul_of_nonneg_left hb hp
  have h3 := Real.abs_cos_sub_cos_le a b
  have h4 := R.err (Real.cos a)
  have h5 := mul_le_mul_of_nonneg_left (Real.abs_cos_le_one a) hu
  have h6 := abs_add_le (R.rnd (Real.cos a) - Real.cos a) (Real.cos a - Real.cos b)
  rw [sub_add_sub_cancel] at h6
  rw [← mul_sub, abs_mul, abs_two, lpTableErr]
  norm_num at h1
  linarith

/-- the data a constructor call stands for in rounded arithmetic -/
noncomputable def flLpOf (R : Rounding u) (n : Nat) (wpass wstop lp up : ℝ) : LpData :=
  ⟨15 * n, ⌊R.rnd (wpass * ((15 * n - 1 : Nat) : ℝ))⌋₊ + 1, ⌊R.rnd (wstop * ((15 * n - 1 : Nat) : ℝ))⌋₊ + 1, lp, up⟩

/-- **C88** (constructor)  If the natural numbers up to `15 n` are representable and `0 ≤ wpass ≤ wstop ≤ 1`, the constructor
never panics and sets up the design problem on `15 n` grid points with a table that is right up to `lpTableErr u n`.  The
passband contains every grid point up to `wpass` and none beyond `(1+u) wpass`; the stopband contains no grid point up to
`wstop` and every one beyond `(1+u) wstop`. -/
theorem C88_lowpass_new (hn : 0 < n) (hrep : ∀ k ≤ 15 * n, R.Rep (k : ℝ)) (wpass wstop lp up sp : Fl R)
    (h0 : 0 ≤ wpass.val) (h1 : wpass.val ≤ wstop.val) (h2 : wstop.val ≤ 1) :
    ∃ o d, LowpassOracle.new n wpass wstop lp up sp = .ok o ∧ o.FlFor d n (lpTableErr u n) ∧ d.Ok ∧ o.spSq = sp ∧
      d.m = 15 * n ∧ d.lp = lp.val ∧ d.up = up.val ∧
      (∀ i : Nat, (i : ℝ) ≤ wpass.val * ((15 * n - 1 : Nat) : ℝ) → i < d.pass) ∧
      (∀ i : Nat, i < d.pass → (i : ℝ) ≤ (1 + u) * (wpass.val * ((15 * n - 1 : Nat) : ℝ))) ∧
      (∀ i : Nat, i < 15 * n → (i : ℝ) ≤ wstop.val * ((15 * n - 1 : Nat) : ℝ) → i < d.stop) ∧
      (∀ i : Nat, i < d.stop → (i : ℝ) ≤ (1 + u) * (wstop.val * ((15 * n - 1 : Nat) : ℝ))) := by
  have hu := R.unit_nonneg
  have hm : 2 ≤ 15 * n := by omega
  obtain ⟨om, hom1, hom2⟩ := fl_linspace R hm hrep
  have hrow := fl_lowpassRow hn R (fun k hk => hrep k (by omega))
  choose rowf hrow1 hrow2 using hrow
  have hspec : ((List.range (15 * n)).mapM fun i => do
      let o ← om.idx i
      lowpassRow n o) = .ok ((List.range (15 * n)).map fun i => rowf ⟨flFreq R (15 * n) i⟩) := by
    refine mapM_range_ok (15 * n) fun i hi => ?_
    rw [hom2.idx hi]
    exact hrow1 _
  have hM : (0 : ℝ) ≤ ((15 * n - 1 : Nat) : ℝ) := Nat.cast_nonneg _
  set P := wpass.val * ((15 * n - 1 : Nat) : ℝ) with hP
  set T := wstop.val * ((15 * n - 1 : Nat) : ℝ) with hT
  have hp0 : 0 ≤ P := by positivity
  have hps : P ≤ T := by rw [hP, hT]; gcongr
  have hsm : T ≤ ((15 * n - 1 : Nat) : ℝ) := by rw [hT]; nlinarith
  have hp0' : 0 ≤ R.rnd P := R.nonneg hp0
  have hps' : R.rnd P ≤ R.rnd T := R.mono _ _ hps
  have hs0' := hp0'.trans hps'
  have hsm' : R.rnd T ≤ ((15 * n - 1 : Nat) : ℝ) := by
    have := R.mono _ _ hsm
    rwa [hrep (15 * n - 1) (by omega)] at this
  have fl : ∀ t : ℝ, 0 ≤ t → ⌊t⌋ = ((⌊t⌋₊ : Nat) : Int) := fun t ht => (Int.natCast_floor_eq_floor ht).symm
  have hfp : Scalar.floorI32 (wpass * nat (15 * n - 1) : Fl R) = ⌊R.rnd P⌋ := by
    show ⌊R.rnd (wpass.val * R.rnd ((15 * n - 1 : Nat) : ℝ))⌋ = _
    rw [hrep (15 * n - 1) (by omega)]
  have hft : Scalar.floorI32 (wstop * nat (15 * n - 1) : Fl R) = ⌊R.rnd T⌋ := by
    show ⌊R.rnd (wstop.val * R.rnd ((15 * n - 1 : Nat) : ℝ))⌋ = _
    rw [hrep (15 * n - 1) (by omega)]
  have hfl := Nat.floor_le_floor hps'
  have hfm : ⌊R.rnd T⌋₊ ≤ 15 * n - 1 := Nat.floor_le_of_le hsm'
  have hin : ∀ (t : ℝ), 0 ≤ t → ∀ i : Nat, i ≤ 15 * n → (i : ℝ) ≤ t → i < ⌊R.rnd t⌋₊ + 1 := by
    intro t ht i hi hle
    rw [Nat.lt_succ_iff, Nat.le_floor_iff (R.nonneg ht)]
    have := R.mono _ _ hle
    rwa [hrep i hi] at this
  have hout : ∀ (t : ℝ), 0 ≤ t → ∀ i : Nat, i < ⌊R.rnd t⌋₊ + 1 → (i : ℝ) ≤ (1 + u) * t := by
    intro t ht i hi
    rw [Nat.lt_succ_iff, Nat.le_floor_iff (R.nonneg ht)] at hi
    have := R.abs_le t
    rw [abs_of_nonneg ht] at this
    exact hi.trans ((le_abs_self _).trans this)
  refine ⟨⟨true, -1, (List.range (15 * n)).map fun i => rowf ⟨flFreq R (15 * n) i⟩, ⌊R.rnd P⌋ + 1,
      ⌊R.rnd T⌋ + 1, lp, up, sp, ⌊R.rnd P⌋ + 1 - 1, ⌊R.rnd T⌋ + 1 - 1, none, -1⟩,
    flLpOf R n wpass.val wstop.val lp.val up.val,
    ?_, ⟨hn, ?_, ?_, ?_, ?_, ?_, rfl, rfl, ?_, ?_, ?_⟩, ⟨?_, ?_, hm⟩, rfl, rfl, rfl, rfl, ?_, ?_, ?_, ?_⟩
  · rw [LowpassOracle.new]
    simp only [hom1, Res.ok_bind, hspec]
    rw [show decide (0 < 15 * n) = true by simp; omega]
    simp only [Res.assert_true, Res.ok_bind, hfp, hft]
  · simp [flLpOf]
  · intro i hi
    simp only [List.getElem_map, List.getElem_range]
    exact (hrow2 _).shape
  · intro i hi j
    simp only [List.length_map, List.length_range] at hi
    simp only [List.getElem_map, List.getElem_range]
    rw [Arr.flVec, (hrow2 _).vec j.2]
    by_cases hj : (j : Nat) = 0
    · simp only [hj, if_true, Fl.one_val, sub_self, abs_zero, lpTableErr]
      have : (1 : ℝ) ≤ (1 + u) ^ 4 := one_le_pow₀ (by linarith)
      have h3 : 0 ≤ (1 + u) ^ 4 - 1 := by linarith
      have := Real.pi_pos
      positivity
    · simp only [hj, if_false]
      exact lp_entry_err R hi j.2 hm
  · show ⌊R.rnd P⌋ + 1 = ((⌊R.rnd P⌋₊ + 1 : Nat) : Int)
    rw [fl _ hp0']; push_cast; rfl
  · show ⌊R.rnd T⌋ + 1 = ((⌊R.rnd T⌋₊ + 1 : Nat) : Int)
    rw [fl _ hs0']; push_cast; rfl
  · refine ⟨le_rfl, fun _ => ?_⟩
    show (-1 : Int) < ((⌊R.rnd P⌋₊ + 1 : Nat) : Int)
    omega
  · show ((⌊R.rnd P⌋₊ + 1 : Nat) : Int) - 1 ≤ ⌊R.rnd P⌋ + 1 - 1 ∧
      (⌊R.rnd P⌋₊ + 1 < ⌊R.rnd T⌋₊ + 1 → ⌊R.rnd P⌋ + 1 - 1 < ((⌊R.rnd T⌋₊ + 1 : Nat) : Int))
    rw [fl _ hp0']
    omega
  · show ((⌊R.rnd T⌋₊ + 1 : Nat) : Int) - 1 ≤ ⌊R.rnd T⌋ + 1 - 1 ∧
      (⌊R.rnd T⌋₊ + 1 < 15 * n → ⌊R.rnd T⌋ + 1 - 1 < ((15 * n : Nat) : Int))
    rw [fl _ hs0']
    omega
  · show ⌊R.rnd P⌋₊ + 1 ≤ ⌊R.rnd T⌋₊ + 1
    omega
  · show ⌊R.rnd T⌋₊ + 1 ≤ 15 * n
    omega
  · intro i hi
    have hle : i ≤ 15 * n := by
      have := hi.trans (hps.trans hsm)
      have : i ≤ 15 * n - 1 := by exact_mod_cast this
      omega
    exact hin P hp0 i hle hi
  · exact fun i hi => hout P hp0 i hi
  · exact fun i hi hle => hin T (hp0.trans hps) i hi.le hle
  · exact fun i hi => hout T (hp0.trans hps) i hi

end Ellalgo
