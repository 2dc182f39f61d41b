import Verif.Model.Arr

/-! # Model of `/repo/spectral_fact.rs`

The file lies outside `src` and uses `ndarray`.  `spectral_fact` calls FFT functions that are not in the repository; it is modelled in
`Model/SpectralFactFft.lean`.  `ndarray` slices are lists here. -/

namespace Ellalgo
variable {α : Type} [Scalar α]

/-- `inverse_spectral_fact` (spectral_fact.rs:41-48): `r[t] = h[t..].dot(&h[..n - t])` -/
def inverseSpectralFact (h : Arr α) : Res (Arr α) :=
  let n := h.len
  forRange 0 n (Arr.new n : Arr α) fun t r => do
    let v ← (Arr.ofList (h.data.drop t)).dot (Arr.ofList (h.data.take (n - t)))
    r.setIdx t v

end Ellalgo
