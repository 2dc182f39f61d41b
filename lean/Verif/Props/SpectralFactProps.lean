import Verif.Model.SpectralFactFft
import Verif.Props.SpectralProps

/-! C119: what `spectral_fact` computes. -/

namespace Ellalgo
open Finset Complex ComplexConjugate

theorem linspace_step {n j : Nat} (hj : j < n - 1) : linspaceAt 1 (n - 1 : ℕ) (n - 1) j = (j + 1 : ℕ) := by
  unfold linspaceAt
  split_ifs with h
  · have : j = 0 := by omega
    subst this; simp
  · have h1 : ((n - 1 : ℕ) : ℝ) - 1 = (n - 1 - 1 : ℕ) := by
      rw [Nat.cast_sub (by omega : 1 ≤ n - 1)]; simp
    have h2 : ((n - 1 - 1 : ℕ) : ℝ) ≠ 0 := by
      have : n - 1 - 1 ≠ 0 := by omega
      exact_mod_cast this
    rw [h1, div_self h2]; push_cast; ring

theorem sfMr_eq {n m : Nat} (hn : 0 < n) {r : Arr ℝ} (i : Nat) :
    sfMr n m r.vec i = lpResponse (r.toVec n) (linspaceAt 0 (2 * Real.pi) m i) := by
  obtain ⟨p, rfl⟩ : ∃ p, n = p + 1 := ⟨n - 1, by omega⟩
  rw [sfMr, lpResponse, Fin.sum_univ_succ]
  refine congrArg₂ (· + ·) ?_ ?_
  · simp; rfl
  · rw [show p + 1 - 1 = p from rfl, ← Fin.sum_univ_eq_sum_range (fun j => 2 * Real.cos (linspaceAt 0 (2 * Real.pi) m i * linspaceAt 1 (p : ℕ) p j) * r.vec (j + 1))]
    refine sum_congr rfl fun j _ => ?_
    have := linspace_step (n := p + 1) (j := j) j.2
    rw [show p + 1 - 1 = p from rfl] at this
    rw [this]
    simp only [Fin.val_succ, Nat.add_eq_zero_iff, one_ne_zero, and_false, if_false]
    rfl

theorem exp_conj_term (m : Nat) (j k : Nat) (hm : 0 < m) (hk : k ≤ m) :
    exp (2 * Real.pi * I * j * (m - k : ℕ) / m) = conj (exp (2 * Real.pi * I * j * k / m)) := by
  rw [← exp_conj]
  have hm' : (m : ℂ) ≠ 0 := by exact_mod_cast hm.ne'
  have e : 2 * (Real.pi : ℂ) * I * j * (m - k : ℕ) / m = conj (2 * Real.pi * I * j * k / m) + j * (2 * Real.pi * I) := by
    rw [Nat.cast_sub hk]
    simp only [map_div₀, map_mul, conj_I, conj_ofReal, map_natCast, map_ofNat]
    field_simp; ring
  rw [e, exp_add, exp_nat_mul_two_pi_mul_I, mul_one]

/-- the transform of a real sequence -/
theorem fft_conj (m : Nat) (hm : 0 < m) (x : Nat → ℝ) (k : Nat) (hk : k ≤ m) :
    fftAt m (fun i => (x i : ℂ)) (m - k) = conj (fftAt m (fun i => (x i : ℂ)) k) := by
  rw [fftAt, fftAt, map_sum]
  refine sum_congr rfl fun j _ => ?_
  rw [map_mul, conj_ofReal, exp_neg, exp_neg, exp_conj_term m j k hm hk, map_inv₀]

/-- the phase is zero -/
theorem sfPhi_zero (p : Nat) (hp : 0 < p) (alpha : Nat → ℝ) (j : Nat) : sfPhi (2 * p) alpha j = 0 := by
  obtain ⟨m, hm⟩ : ∃ m, m = 2 * p := ⟨_, rfl⟩
  obtain ⟨q, hq⟩ : ∃ q, m = q + 1 := ⟨m - 1, by omega⟩
  have hm0 : 0 < m := by omega
  obtain ⟨t, ht⟩ : ∃ t : Nat → ℂ, t = fun k => sfTmp m alpha k * exp (2 * Real.pi * I * j * k / m) := ⟨_, rfl⟩
  have hodd : ∀ k, 0 < k → k < m → (t (m - k)).re = -(t k).re := by
    intro k h0 h1
    have e1 : sfTmp m alpha (m - k) = -conj (sfTmp m alpha k) := by
      have hc := fft_conj m hm0 alpha k h1.le
      unfold sfTmp
      simp only
      rw [if_neg (by omega), if_neg (by omega : ¬ k = 0)]
      by_cases hk : k = m / 2
      · rw [if_pos (by omega), if_pos hk]; simp
      · rw [if_neg (by omega), if_neg hk]
        by_cases hl : m / 2 ≤ k
        · rw [if_neg (by omega), if_pos hl, hc]; simp
        · rw [if_pos (by omega), if_neg hl, hc]
    rw [ht]
    simp only
    rw [e1, exp_conj_term m j k hm0 h1.le, neg_mul, ← map_mul, neg_re, conj_re]
  have hs : ∑ k ∈ range m, (t k).re = 0 := by
    rw [hq, sum_range_succ']
    have h0 : (t 0).re = 0 := by rw [ht]; simp [sfTmp]
    rw [h0, add_zero]
    have h1 := sum_range_reflect (fun k => (t (k + 1)).re) q
    have h2 : ∑ k ∈ range q, (t (q - 1 - k + 1)).re = -∑ k ∈ range q, (t (k + 1)).re := by
      rw [← sum_neg_distrib]
      refine sum_congr rfl fun k hk => ?_
      have hk := mem_range.1 hk
      rw [← hodd (k + 1) (by omega) (by omega)]
      congr 2; omega
    linarith
  rw [← hm, sfPhi, ifftAt]
  have e : (∑ k ∈ range m, sfTmp m alpha k * exp (2 * Real.pi * I * j * k / m)).re = 0 := by
    rw [re_sum, ← hs, ht]
  have e' : ((1 : ℂ) / m) = ((1 / m : ℝ) : ℂ) := by push_cast; rfl
  rw [e', re_ofReal_mul, e, mul_zero]

/-- the frequency of output `k` of `spectral_fact` on an input of length `n` -/
noncomputable def sfFreq (n k : Nat) : ℝ := 2 * Real.pi * (100 * k) / (100 * n - 1)

/-- **C119** (what it computes)  For every non-empty `r` whose spectrum does not vanish at the sampled frequencies, `spectral_fact(r)`
is the vector of the square roots of the absolute values of that spectrum at `n` of these frequencies. -/
theorem C119_values {n : Nat} (hn : 0 < n) (r : Arr ℝ) (hr : r.IsVecShape n)
    (hne : ∀ i < 100 * n, lpResponse (r.toVec n) (2 * Real.pi * i / (100 * n - 1)) ≠ 0) :
    ∃ h, spectralFact r = .ok h ∧ h.IsVecShape n ∧ ∀ k : Fin n, h.toVec n k = √|lpResponse (r.toVec n) (sfFreq n k)| := by
  have hl : r.len = n := hr.2.2
  refine ⟨_, by rw [spectralFact, hl]; simp only [if_neg hn.ne']; rfl, ⟨by simp [Arr.ofList], rfl, by simp [Arr.ofList]⟩, fun k => ?_⟩
  have hf : ∀ i, linspaceAt 0 (2 * Real.pi) (100 * n) i = 2 * Real.pi * i / (100 * n - 1) := by
    intro i
    rw [linspaceAt, if_neg (by omega), Nat.cast_sub (by omega)]
    push_cast; ring
  have hp : ∀ j, sfPhi (100 * n) (sfAlpha n (100 * n) r.vec) j = 0 := fun j => by
    rw [show 100 * n = 2 * (50 * n) by ring]; exact sfPhi_zero _ (by omega) _ j
  have hk := k.2
  have e0 : ∀ (l : List ℝ) (h : (k : Nat) < l.length), (Arr.ofList l).toVec n k = l[(k : Nat)] := by
    intro l h
    simp [Arr.toVec, Arr.vec, Arr.ofList, h]
  rw [e0 _ (by simp), List.getElem_map, List.getElem_range, show (fun i => r.data.getD i 0) = r.vec from rfl, hp]
  simp only [ofReal_zero, mul_zero, add_zero]
  rw [exp_ofReal_re, sfAlpha, sfMr_eq hn, hf]
  have e1 : (2 * Real.pi * ((100 * k : ℕ) : ℝ) / (100 * n - 1)) = sfFreq n k := by rw [sfFreq]; push_cast; ring
  have h1 := hne (100 * k) (by omega)
  rw [e1] at h1 ⊢
  rw [Real.sqrt_eq_rpow, Real.rpow_def_of_pos (abs_pos.2 h1)]
  norm_num [mul_comm]

/-- **C119** (round trip)  For every impulse response `h` whose frequency response does not vanish at the sampled frequencies,
`spectral_fact(inverse_spectral_fact(h))` consists of magnitudes `|H(ω)|` of the response of the filter at `n` frequencies. -/
theorem C119_round_trip {n : Nat} (hn : 0 < n) (h : Arr ℝ) (hh : h.IsVecShape n)
    (hne : ∀ i < 100 * n, magnitudeSq (h.toVec n) (2 * Real.pi * i / (100 * n - 1)) ≠ 0) :
    ∃ r h', inverseSpectralFact h = .ok r ∧ spectralFact r = .ok h' ∧ h'.IsVecShape n ∧
      (∀ k : Fin n, h'.toVec n k = √(magnitudeSq (h.toVec n) (sfFreq n k))) ∧ ∀ z : Fin n, (z : Nat) = 0 → h'.toVec n z = |∑ k, h.toVec n k| := by
  obtain ⟨r, h1, h2, h3⟩ := C102_spectrum h hh
  obtain ⟨h', h4, h5, h6⟩ := C119_values hn r h2 (fun i hi => by rw [h3]; exact hne i hi)
  have e : ∀ k : Fin n, h'.toVec n k = √(magnitudeSq (h.toVec n) (sfFreq n k)) := fun k => by
    rw [h6, h3, abs_of_nonneg (magnitudeSq_nonneg _ _)]
  refine ⟨r, h', h1, h4, h5, e, fun z hz => ?_⟩
  rw [e, hz]
  simp [sfFreq, magnitudeSq, Real.sqrt_sq_eq_abs]

/-- **C119 partial** (inverse)  The claim is that `spectral_fact` undoes `inverse_spectral_fact`; this holds for filters with one
positive tap only. -/
theorem C119_inverse_partial {c : ℝ} (hc : 0 < c) :
    ∃ r, inverseSpectralFact (Arr.ofList [c]) = .ok r ∧ ∃ h', spectralFact r = .ok h' ∧ h'.toVec 1 = ![c] := by
  obtain ⟨r, h', h1, h2, h3, -, h4⟩ := C119_round_trip (n := 1) one_pos (Arr.ofList [c]) ⟨rfl, rfl, rfl⟩ (fun i _ => by
    have e : (Arr.ofList [c]).toVec 1 0 = c := rfl
    simp only [magnitudeSq, Finset.univ_unique, Fin.default_eq_zero, Finset.sum_singleton, e]
    simp [hc.ne'])
  refine ⟨r, h1, h', h2, ?_⟩
  funext z
  have hz : z = 0 := Subsingleton.elim _ _
  subst hz
  rw [h4 0 rfl]
  have e : (Arr.ofList [c]).toVec 1 0 = c := rfl
  simp only [Finset.univ_unique, Fin.default_eq_zero, Finset.sum_singleton, e]
  simp [abs_of_pos hc]

/-- the unit impulse of length `n` -/
def impulse (n : Nat) : Arr ℝ := Arr.ofList ((List.range n).map fun k => if k = 0 then 1 else 0)

theorem impulse_vec (n : Nat) (k : Fin n) : (impulse n).toVec n k = if (k : Nat) = 0 then 1 else 0 := by
  have hk := k.2
  simp [impulse, Arr.toVec, Arr.vec, Arr.ofList]

/-- **C119 refuted** For every length `n ≥ 2` `spectral_fact` does not undo `inverse_spectral_fact`: from the unit impulse, whose response
is 1 everywhere and which is its own minimum-phase factor, one gets the vector of ones. -/
theorem C119_not_inverse {n : Nat} (hn : 2 ≤ n) : ∃ r h', inverseSpectralFact (impulse n) = .ok r ∧ spectralFact r = .ok h' ∧
    (∀ k, h'.toVec n k = 1) ∧ h'.toVec n ≠ (impulse n).toVec n := by
  have hm : ∀ ω, magnitudeSq ((impulse n).toVec n) ω = 1 := by
    intro ω
    obtain ⟨p, rfl⟩ : ∃ p, n = p + 1 := ⟨n - 1, by omega⟩
    rw [magnitudeSq, Fin.sum_univ_succ, Fin.sum_univ_succ]
    simp [impulse_vec]
  obtain ⟨r, h', h1, h2, h3, h4, -⟩ := C119_round_trip (n := n) (by omega) (impulse n)
    ⟨by simp [impulse, Arr.ofList], rfl, by simp [impulse, Arr.ofList]⟩ (fun i _ => by rw [hm]; exact one_ne_zero)
  have h5 : ∀ k, h'.toVec n k = 1 := fun k => by rw [h4, hm, Real.sqrt_one]
  refine ⟨r, h', h1, h2, h5, fun h => ?_⟩
  have := congrFun h ⟨1, by omega⟩
  rw [h5, impulse_vec] at this
  simp at this

/-- **C119** (empty input) -/
theorem C119_empty_panics : spectralFact (Arr.new 0) = .panic := by
  simp [spectralFact, Arr.len, Arr.new]

/-- a non-trivial filter meets the hypotheses: `h = (2, 1)`; the first value returned is 3, not 2 -/
example : ∃ r h', inverseSpectralFact (Arr.ofList [2, 1]) = .ok r ∧ spectralFact r = .ok h' ∧ h'.toVec 2 0 = 3 := by
  obtain ⟨r, h', h1, h2, -, -, h3⟩ := C119_round_trip (n := 2) two_pos (Arr.ofList [2, 1]) ⟨rfl, rfl, rfl⟩ (fun i _ => by
    rw [magnitudeSq]
    generalize 2 * Real.pi * (i : ℝ) / (100 * (2 : ℕ) - 1) = ω
    have e0 : (Arr.ofList [(2 : ℝ), 1]).toVec 2 0 = 2 := rfl
    have e1 : (Arr.ofList [(2 : ℝ), 1]).toVec 2 1 = 1 := rfl
    simp only [Fin.sum_univ_two, e0, e1]
    have := Real.sin_sq_add_cos_sq ω
    have := Real.neg_one_le_cos ω
    simp
    nlinarith)
  refine ⟨r, h', h1, h2, ?_⟩
  rw [h3 0 rfl]
  have e0 : (Arr.ofList [(2 : ℝ), 1]).toVec 2 0 = 2 := rfl
  have e1 : (Arr.ofList [(2 : ℝ), 1]).toVec 2 1 = 1 := rfl
  rw [Fin.sum_univ_two, e0, e1]
  norm_num

end Ellalgo
