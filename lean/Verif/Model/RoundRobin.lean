import Verif.Model.Arr
import Verif.Model.CuttingPlane

/-! # The round-robin loop shared by several oracles

`for _ in 0..k { self.idx += 1; if self.idx == hi { self.idx = lo; } .. if violated { return Some(..) } }` -/

namespace Ellalgo

/-- The loop of quasicvx.rs:26-51, profit_oracle.rs:37-64, lowpass_oracle.rs:63-81, 85-105 and 107-120,
example1_rr.rs:26-51, example3.rs:30-57, example4.rs:28-55: `k` iterations left, `idx` the hidden counter, `s` the
rest of the oracle's state; the body may return early with a value. -/
def rrLoop {σ β : Type} (lo hi : Int) (body : Int → σ → Res (Option β × σ)) :
    Nat → Int → σ → Res (Option β × Int × σ)
  | 0, idx, s => .ok (none, idx, s)
  | k + 1, idx, s => do
    let idx := idx + 1
    let idx := if idx = hi then lo else idx
    let (r, s) ← body idx s
    match r with
    | some b => .ok (some b, idx, s)
    | none => rrLoop lo hi body k idx s

/-- `v[i as usize]` for an `i32` index: a negative index becomes a huge `usize` and panics
(lowpass_oracle.rs:68, 90, 112, 145) -/
def nthI32 {β : Type} (v : List β) (i : Int) : Res β :=
  if 0 ≤ i then Res.ofOption v[i.toNat]? else .panic

end Ellalgo
