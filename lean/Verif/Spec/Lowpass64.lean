import Verif.Spec.Profit64
import Verif.Spec.RoundedLowpass

/-! The low-pass oracle in IEEE `f64`: vocabulary. -/

namespace Ellalgo

section generic
variable {α : Type} [Scalar α]

/-- the response of the filter `x` at frequency `k` of the table, as computed in the arithmetic `α` (lowpass_oracle.rs:70) -/
def LowpassOracle.respOf (o : LowpassOracle α) (n : Nat) (x : Arr α) (k : Nat) : α :=
  sumTo n fun j => (o.spectrum.getD k (Arr.new 0)).vec j * x.vec j

/-- no test of the specification fails for the computed responses, with stopband bound `sp` -/
structure LowpassOracle.Passes (o : LowpassOracle α) (n : Nat) (sp : α) (x : Arr α) : Prop where
  pass : ∀ k : Nat, (k : Int) < o.nwpass → Scalar.lt o.upSq (o.respOf n x k) = false ∧ Scalar.lt (o.respOf n x k) o.lpSq = false
  stop : ∀ k : Nat, o.nwstop ≤ k → k < o.spectrum.length → Scalar.lt sp (o.respOf n x k) = false ∧ Scalar.lt (o.respOf n x k) 0 = false
  trans : ∀ k : Nat, o.nwpass ≤ k → (k : Int) < o.nwstop → Scalar.lt (o.respOf n x k) 0 = false
  first : Scalar.lt (x.vec 0) 0 = false

/-- `o'` has the table, the bands and the passband bounds of `o` -/
structure LowpassOracle.SameSpec (o o' : LowpassOracle α) : Prop where
  table : o'.spectrum = o.spectrum
  pass : o'.nwpass = o.nwpass
  stop : o'.nwstop = o.nwstop
  lp : o'.lpSq = o.lpSq
  up : o'.upSq = o.upSq

end generic

/-- A `LowpassOracle` in `f64` for the specification `d`, at any time: its table of cosines is finite and right up to `ε`, its bands and passband
bounds are those of `d`, and its counters are anywhere in their ranges. -/
structure LowpassOracle.For64 (o : LowpassOracle B64) (d : LpData) (n : Nat) (ε : ℝ) : Prop where
  dim : 0 < n
  len : o.spectrum.length = d.m
  shape : ∀ col ∈ o.spectrum, col.IsVecShape n ∧ col.AllFinite
  close : ∀ i < d.m, ∀ j : Fin n,
    |(o.spectrum.getD i (Arr.new 0)).vec64 n j - (if (j : Nat) = 0 then 1 else 2 * Real.cos (d.freq i * j))| ≤ ε
  pass : o.nwpass = d.pass
  stop : o.nwstop = d.stop
  lp : o.lpSq.Equals d.lp
  up : o.upSq.Equals d.up
  idx1 : -1 ≤ o.idx1 ∧ (0 < d.pass → o.idx1 < d.pass)
  idx2 : (d.pass : Int) - 1 ≤ o.idx2 ∧ (d.pass < d.stop → o.idx2 < d.stop)
  idx3 : (d.stop : Int) - 1 ≤ o.idx3 ∧ (d.stop < d.m → o.idx3 < d.m)

/-- a filter `z` of ordinary size for the table of `o`: no term of a response is beyond 2⁹⁰⁰ or below the smallest normal number -/
def LowpassOracle.TameAt (o : LowpassOracle B64) (n : Nat) (z : Fin n → ℝ) : Prop :=
  ∀ col ∈ o.spectrum, ∀ j, NoUnder (col.vec64 n j * z j) ∧ |col.vec64 n j * z j| ≤ (2 : ℝ) ^ (900 : ℤ)

end Ellalgo
