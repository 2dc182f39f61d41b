import Verif.Model.SpectralFact
import Verif.Props.LowpassProps

/-! C102: `inverse_spectral_fact` and the low-pass oracle. -/

namespace Ellalgo
open Finset

/-- the squared magnitude `|H(ω)|²` of the frequency response `H(ω) = ∑_k h_k e^{-jωk}` of a filter with impulse response `h` -/
noncomputable def magnitudeSq {n : Nat} (h : Fin n → ℝ) (ω : ℝ) : ℝ :=
  (∑ k : Fin n, h k * Real.cos (ω * k)) ^ 2 + (∑ k : Fin n, h k * Real.sin (ω * k)) ^ 2

/-- the autocorrelation identity for sequences -/
theorem autocorr_spectrum (v : Nat → ℝ) (ω : ℝ) (n : Nat) :
    (∑ t ∈ range n, (if t = 0 then 1 else 2 * Real.cos (ω * t)) * ∑ k ∈ range (n - t), v (t + k) * v k) =
      (∑ k ∈ range n, v k * Real.cos (ω * k)) ^ 2 + (∑ k ∈ range n, v k * Real.sin (ω * k)) ^ 2 := by
  induction n with
  | zero => simp
  | succ n ih =>
    -- the terms with the last sample
    have e1 : ∀ t ∈ range (n + 1), (if t = 0 then 1 else 2 * Real.cos (ω * t)) * ∑ k ∈ range (n + 1 - t), v (t + k) * v k =
        (if t = 0 then 1 else 2 * Real.cos (ω * t)) * ∑ k ∈ range (n - t), v (t + k) * v k +
          (if t = 0 then 1 else 2 * Real.cos (ω * t)) * (v n * v (n - t)) := by
      intro t ht
      have ht : t ≤ n := Nat.lt_succ_iff.1 (mem_range.1 ht)
      rw [show n + 1 - t = (n - t) + 1 by omega, sum_range_succ, mul_add, show t + (n - t) = n by omega]
    rw [sum_congr rfl e1, sum_add_distrib, sum_range_succ _ n]
    simp only [Nat.sub_self, range_zero, sum_empty, mul_zero, add_zero]
    rw [ih, sum_range_succ (fun k => v k * Real.cos (ω * k)), sum_range_succ (fun k => v k * Real.sin (ω * k))]
    have e2 : ∑ t ∈ range (n + 1), (if t = 0 then 1 else 2 * Real.cos (ω * t)) * (v n * v (n - t)) =
        v n * v n + 2 * v n * (Real.cos (ω * n) * ∑ k ∈ range n, v k * Real.cos (ω * k) +
          Real.sin (ω * n) * ∑ k ∈ range n, v k * Real.sin (ω * k)) := by
      rw [sum_range_succ', ← sum_range_reflect (fun t => (if t + 1 = 0 then 1 else 2 * Real.cos (ω * ((t + 1 : ℕ) : ℝ))) * (v n * v (n - (t + 1))))]
      simp only [if_pos, one_mul, Nat.sub_zero]
      rw [add_comm, mul_sum, mul_sum, ← sum_add_distrib, mul_sum]
      congr 1
      refine sum_congr rfl fun k hk => ?_
      have hk := mem_range.1 hk
      rw [if_neg (by omega), show n - (n - 1 - k + 1) = k by omega, show n - 1 - k + 1 = n - k by omega, Nat.cast_sub hk.le, mul_sub,
        Real.cos_sub]
      ring
    rw [e2]
    have := Real.sin_sq_add_cos_sq (ω * n)
    linear_combination (-(v n * v n)) * this

/-- **C102** (values)  Entry `t` of `inverse_spectral_fact(h)` is `∑_k h_{t+k} h_k`. -/
theorem C102_values {n : Nat} (h : Arr ℝ) (hh : h.IsVecShape n) :
    ∃ r, inverseSpectralFact h = .ok r ∧ r.IsVecShape n ∧
      (∀ t : Fin n, r.toVec n t = ∑ k ∈ range (n - t), h.vec (t + k) * h.vec k) ∧
      ∀ ω, lpResponse (r.toVec n) ω = magnitudeSq (h.toVec n) ω := by
  have hv := hh.isVec
  have hl : h.len = n := hh.2.2
  obtain ⟨r, h1, h2⟩ := forRange_spec (σ := Arr ℝ)
    (fun t z => IsVec z n (fun i => if i < t then ∑ k ∈ range (n - i), h.vec (i + k) * h.vec k else 0))
    (f := fun t r => do
      let v ← (Arr.ofList (h.data.drop t)).dot (Arr.ofList (h.data.take (n - t)))
      r.setIdx t v) (s := Arr.new n) (lo := 0) (hi := n) (Nat.zero_le _) (by simpa using isVec_new (α := ℝ) n) (by
      intro t z _ ht hz
      have ha : IsVec (Arr.ofList (h.data.drop t)) (n - t) (fun k => h.vec (t + k)) :=
        ⟨by simp [Arr.ofList, hv.len], rfl, by simp [Arr.ofList, hv.len], fun i hi => by
          simp only [Arr.ofList, List.getElem?_drop]
          exact hv.get _ (by omega)⟩
      have hb : IsVec (Arr.ofList (h.data.take (n - t))) (n - t) h.vec :=
        ⟨by simp [Arr.ofList, hv.len], rfl, by simp [Arr.ofList, hv.len], fun i hi => by
          simp only [Arr.ofList, List.getElem?_take, if_pos hi]
          exact hv.get _ (by omega)⟩
      obtain ⟨z', h3, h4⟩ := hz.setIdx ht (sumTo (n - t) fun k => h.vec (t + k) * h.vec k)
      refine ⟨z', by simp only [dot_spec ha hb, Res.ok_bind, h3], h4.congr fun i hi => ?_⟩
      simp only [upd1]
      by_cases hit : i = t
      · subst hit
        simp [sumTo_real]
      · rw [if_neg hit]
        congr 1
        simp only [eq_iff_iff]
        omega)
  refine ⟨r, by rw [inverseSpectralFact, hl]; exact h1, h2.shape, fun t => by rw [h2.toVec]; simp, fun ω => ?_⟩
  rw [lpResponse, magnitudeSq]
  have e := autocorr_spectrum h.vec ω n
  rw [← Fin.sum_univ_eq_sum_range (fun t => (if t = 0 then 1 else 2 * Real.cos (ω * t)) * ∑ k ∈ range (n - t), h.vec (t + k) * h.vec k),
    ← Fin.sum_univ_eq_sum_range (fun k => h.vec k * Real.cos (ω * k)), ← Fin.sum_univ_eq_sum_range (fun k => h.vec k * Real.sin (ω * k))] at e
  have e3 : ∀ k : Fin n, h.toVec n k = h.vec k := fun k => by rw [hv.toVec]
  simp only [e3]
  rw [← e]
  refine sum_congr rfl fun t _ => ?_
  rw [h2.toVec]
  simp

/-- **C102** (Wiener-Khinchin)  `inverse_spectral_fact` of an impulse response of any length does not panic and returns a vector of that length whose
response, as the low-pass oracle computes it, is the squared magnitude of the filter at every frequency. -/
theorem C102_spectrum {n : Nat} (h : Arr ℝ) (hh : h.IsVecShape n) :
    ∃ r, inverseSpectralFact h = .ok r ∧ r.IsVecShape n ∧ ∀ ω, lpResponse (r.toVec n) ω = magnitudeSq (h.toVec n) ω := by
  obtain ⟨r, h1, h2, -, h3⟩ := C102_values h hh
  exact ⟨r, h1, h2, h3⟩

theorem magnitudeSq_nonneg {n : Nat} (h : Fin n → ℝ) (ω : ℝ) : 0 ≤ magnitudeSq h ω := by
  unfold magnitudeSq; positivity

/-- **C102** (filters and the oracle)  For every impulse response `h` the low-pass oracle, with its hidden counters anywhere, accepts
`inverse_spectral_fact(h)` exactly when the filter `h` meets the specification: `lp ≤ |H(ω)|² ≤ up` on the passband grid and
`|H(ω)|² ≤ σ` on the stopband grid.  The constraints of the oracle that make a spectrum out of a vector (`R ≥ 0`, `x₀ ≥ 0`)
never reject one. -/
theorem C102_filter_accepted {n : Nat} {d : LpData} (hd : d.Ok) {σ : ℝ} (o : LowpassOracle ℝ) (ho : o.For d n σ) (h : Arr ℝ)
    (hh : h.IsVecShape n) :
    ∃ r a o', inverseSpectralFact h = .ok r ∧ LowpassOracle.oracleFeas.assess o r = .ok (a, o') ∧
      (a = none ↔ (∀ i < d.pass, d.lp ≤ magnitudeSq (h.toVec n) (d.freq i) ∧ magnitudeSq (h.toVec n) (d.freq i) ≤ d.up) ∧
        ∀ i, d.stop ≤ i → i < d.m → magnitudeSq (h.toVec n) (d.freq i) ≤ σ) := by
  obtain ⟨r, h1, h2, h3, h4⟩ := C102_values h hh
  obtain ⟨a, o', h5, -, h6⟩ := C45_lowpass_accepts hd o ho r h2
  refine ⟨r, a, o', h1, h5, h6.trans ?_⟩
  simp only [LpData.feasible, Set.mem_setOf_eq, h4]
  constructor
  · rintro ⟨a1, a2, -⟩
    exact ⟨a1, fun i hi hm => (a2 i hi hm).2⟩
  · rintro ⟨a1, a2⟩
    refine ⟨a1, fun i hi hm => ⟨magnitudeSq_nonneg _ _, a2 i hi hm⟩, fun i _ _ => magnitudeSq_nonneg _ _, fun j hj => ?_⟩
    rw [h3]
    refine sum_nonneg fun k _ => ?_
    rw [hj, Nat.zero_add]
    exact mul_self_nonneg _

/-- the impulse response `(1, 1)`: autocorrelation `(2, 1)`, response `2 + 2 cos ω = (1 + cos ω)² + sin² ω` -/
example : ∃ r, inverseSpectralFact (Arr.ofList [(1 : ℝ), 1]) = .ok r ∧ r.data = [2, 1] := by
  refine ⟨⟨[2, 1], 2, 0⟩, ?_, rfl⟩
  simp [inverseSpectralFact, forRange, forN, Arr.ofList, Arr.len, Arr.new, Arr.dot, Arr.is2d, Arr.setIdx, Res.assert, List.replicate]
  norm_num

end Ellalgo
