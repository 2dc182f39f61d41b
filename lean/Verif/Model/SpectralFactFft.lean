import Verif.Model.Arr
import Mathlib.Analysis.SpecialFunctions.Complex.Circle
import Mathlib.Analysis.SpecialFunctions.Log.Basic

/-! # Model of `spectral_fact` in `/repo/spectral_fact.rs`

The file is not part of the crate and does not compile against `ndarray` as it stands: the methods `fft` and `ifft` are not in the
repository, `from_columns` is given a vector and a matrix, an assignment of a real to a complex element is written without conversion.
The reading taken here is the evident one: real and complex arithmetic is exact, `fft` and `ifft` are the discrete Fourier transform
and its inverse (with the factor `1/m`), `from_columns` puts its arguments side by side. -/

namespace Ellalgo
open Finset Complex

/-- entry `i` of `Array1::linspace(a, b, n)` of `ndarray` (spectral_fact.rs:16-17) -/
noncomputable def linspaceAt (a b : ℝ) (n i : Nat) : ℝ := if n ≤ 1 then a else a + (b - a) / (n - 1 : ℕ) * i

/-- `fft` of a vector of length `m` (spectral_fact.rs:22) -/
noncomputable def fftAt (m : Nat) (x : Nat → ℂ) (k : Nat) : ℂ := ∑ j ∈ range m, x j * exp (-(2 * Real.pi * I * j * k / m))
/-- `ifft` of a vector of length `m` (spectral_fact.rs:27) -/
noncomputable def ifftAt (m : Nat) (x : Nat → ℂ) (j : Nat) : ℂ := (1 / m) * ∑ k ∈ range m, x k * exp (2 * Real.pi * I * j * k / m)

/-- entry `i` of `mr`, `[1, 2 cos(w_i · 1), …, 2 cos(w_i · (n-1))] · r` (spectral_fact.rs:16-19) -/
noncomputable def sfMr (n m : Nat) (r : Nat → ℝ) (i : Nat) : ℝ :=
  1 * r 0 + ∑ j ∈ range (n - 1), 2 * Real.cos (linspaceAt 0 (2 * Real.pi) m i * linspaceAt 1 (n - 1 : ℕ) (n - 1) j) * r (j + 1)

/-- entry `i` of `alpha` (spectral_fact.rs:20) -/
noncomputable def sfAlpha (n m : Nat) (r : Nat → ℝ) (i : Nat) : ℝ := 0.5 * Real.log |sfMr n m r i|

/-- `alphatmp` after the sign change and the two assignments (spectral_fact.rs:23-26) -/
noncomputable def sfTmp (m : Nat) (alpha : Nat → ℝ) (k : Nat) : ℂ :=
  let ind := m / 2
  if k = 0 then 0 else if k = ind then 0
  else if ind ≤ k then -fftAt m (fun i => (alpha i : ℂ)) k else fftAt m (fun i => (alpha i : ℂ)) k

/-- entry `j` of `phi` (spectral_fact.rs:27) -/
noncomputable def sfPhi (m : Nat) (alpha : Nat → ℝ) (j : Nat) : ℝ := (ifftAt m (sfTmp m alpha) j).re

/-- `spectral_fact` (spectral_fact.rs:7-39).  `n - 1` on an empty input underflows. -/
noncomputable def spectralFact (r : Arr ℝ) : Res (Arr ℝ) :=
  let n := r.len
  if n = 0 then .panic
  else
    let multFactor := 100
    let m := multFactor * n
    let alpha := sfAlpha n m fun i => r.data.getD i 0
    let phi := sfPhi m alpha
    .ok (Arr.ofList ((List.range n).map fun k => (exp (alpha (multFactor * k) + I * phi (multFactor * k))).re))

end Ellalgo
