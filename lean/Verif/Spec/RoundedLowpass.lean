import Verif.Spec.Rounded
import Verif.Spec.Lowpass
import Verif.Spec.Power
import Verif.Model.Lowpass

/-! The low-pass design problem with a margin, and what rounding can do to the oracle's evaluation of it. -/

namespace Ellalgo
open Matrix
variable {u : ℝ} {R : Rounding u} {n : Nat}

/-- filters meeting every inequality of the specification with margin `m` (`m = 0`: as written, `m < 0`: laxer) -/
def LpData.feasibleWith (d : LpData) {n : Nat} (σ m : ℝ) : Set (Fin n → ℝ) :=
  {x | (∀ i < d.pass, d.lp + m ≤ lpResponse x (d.freq i) ∧ lpResponse x (d.freq i) + m ≤ d.up) ∧
    (∀ i, d.stop ≤ i → i < d.m → m ≤ lpResponse x (d.freq i) ∧ lpResponse x (d.freq i) + m ≤ σ) ∧
    (∀ i, d.pass ≤ i → i < d.stop → m ≤ lpResponse x (d.freq i)) ∧
    (∀ j : Fin n, (j : Nat) = 0 → m ≤ x j)}

/-- The oracle was built for `d` in rounded arithmetic: its table of cosines is right up to `ε`, its band edges and passband
bounds are those of `d`, and its three hidden counters are anywhere in their ranges. -/
structure LowpassOracle.FlFor (o : LowpassOracle (Fl R)) (d : LpData) (n : Nat) (ε : ℝ) : Prop where
  dim : 0 < n
  len : o.spectrum.length = d.m
  shape : ∀ i (h : i < o.spectrum.length), (o.spectrum[i]).IsVecShape n
  close : ∀ i (h : i < o.spectrum.length) (j : Fin n),
    |(o.spectrum[i]).flVec n j - (if (j : Nat) = 0 then 1 else 2 * Real.cos (d.freq i * j))| ≤ ε
  pass : o.nwpass = d.pass
  stop : o.nwstop = d.stop
  lp : o.lpSq.val = d.lp
  up : o.upSq.val = d.up
  idx1 : -1 ≤ o.idx1 ∧ (0 < d.pass → o.idx1 < d.pass)
  idx2 : (d.pass : Int) - 1 ≤ o.idx2 ∧ (d.pass < d.stop → o.idx2 < d.stop)
  idx3 : (d.stop : Int) - 1 ≤ o.idx3 ∧ (d.stop < d.m → o.idx3 < d.m)

/-- What rounding can do when the specification, with bounds of size `B`, is checked at `x` and the outcome is used for `z`:
`n + 2` roundings of terms of total size `2 ‖x‖₁`, a table that is off by `ε`, and a rounding of the bound. -/
def lpErr (u ε : ℝ) (n : Nat) (B : ℝ) (x z : Fin n → ℝ) : ℝ :=
  ((1 + u) ^ (n + 2) - 1) * (2 + ε) * norm1 x + ε * norm1 z + u * B

/-- the error of a table entry: `cos` of a frequency that went through four roundings, and its own rounding -/
noncomputable def lpTableErr (u : ℝ) (n : Nat) : ℝ := 2 * (Real.pi * n * ((1 + u) ^ 4 - 1) + u)

end Ellalgo
