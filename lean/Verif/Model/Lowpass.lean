import Verif.Model.RoundRobin

/-! # Model of `src/oracles/lowpass_oracle.rs` -/

namespace Ellalgo
variable {α : Type} [Scalar α]

/-- `LowpassOracle` (lowpass_oracle.rs:7-20).  `fmax` may be `f64::NEG_INFINITY`, here `none`. -/
structure LowpassOracle (α : Type) where
  moreAlt : Bool
  idx1 : Int
  spectrum : List (Arr α)
  nwpass : Int
  nwstop : Int
  lpSq : α
  upSq : α
  spSq : α
  idx2 : Int
  idx3 : Int
  fmax : Option α
  kmax : Int

/-- row `i` of the spectrum (lowpass_oracle.rs:29-32) -/
def lowpassRow (ndim : Nat) (om : α) : Res (Arr α) := do
  let row ← (Arr.new ndim : Arr α).setIdx 0 1
  forRange 1 ndim row fun j row => row.setIdx j (nat 2 * Scalar.cos (om * nat j))

/-- `LowpassOracle::new` (lowpass_oracle.rs:23-52); `mdim - 1` underflows (panics in the debug profile) when
`ndim = 0` -/
def LowpassOracle.new (ndim : Nat) (wpass wstop lpSq upSq spSq : α) : Res (LowpassOracle α) := do
  let mdim := 15 * ndim
  let omega ← Arr.linspace 0 Scalar.pi mdim
  let spectrum ← (List.range mdim).mapM fun i => do
    let om ← omega.idx i
    lowpassRow ndim om
  Res.assert (decide (0 < mdim))
  let nwpass := Scalar.floorI32 (wpass * nat (mdim - 1)) + 1
  let nwstop := Scalar.floorI32 (wstop * nat (mdim - 1)) + 1
  .ok { moreAlt := true, idx1 := -1, spectrum, nwpass, nwstop, lpSq, upSq, spSq, idx2 := nwpass - 1,
        idx3 := nwstop - 1, fmax := none, kmax := -1 }

/-- `Arr::from(col_k.iter().map(|&a| -a))` (lowpass_oracle.rs:77, 97, 116) -/
def negVec (a : Arr α) : Arr α := Arr.ofList (a.data.map fun v => -v)

/-- one round of the passband loop (lowpass_oracle.rs:68-80) -/
def LowpassOracle.passBody (o : LowpassOracle α) (x : Arr α) (idx : Int) (_ : Unit) :
    Res (Option (Arr α × ParallelCut α) × Unit) := do
  let col ← nthI32 o.spectrum idx
  let val ← col.dot x
  if Scalar.gt val o.upSq then .ok (some (col, ⟨val - o.upSq, some (val - o.lpSq)⟩), ())
  else if Scalar.lt val o.lpSq then .ok (some (negVec col, ⟨-val + o.lpSq, some (-val + o.upSq)⟩), ())
  else .ok (none, ())

/-- `val > self.fmax` where `fmax` may be `NEG_INFINITY` (lowpass_oracle.rs:101) -/
def gtFmax (val : α) : Option α → Bool
  | none => Scalar.gtNegInf val
  | some m => Scalar.gt val m

/-- one round of the stopband loop (lowpass_oracle.rs:90-104); state `(fmax, kmax)` -/
def LowpassOracle.stopBody (o : LowpassOracle α) (x : Arr α) (idx : Int) (st : Option α × Int) :
    Res (Option (Arr α × ParallelCut α) × (Option α × Int)) := do
  let col ← nthI32 o.spectrum idx
  let val ← col.dot x
  if Scalar.gt val o.spSq then .ok (some (col, ⟨val - o.spSq, some val⟩), st)
  else if Scalar.lt val 0 then .ok (some (negVec col, ⟨-val, some (-val + o.spSq)⟩), st)
  else if gtFmax val st.1 then .ok (none, (some val, idx))
  else .ok (none, st)

/-- one round of the transition loop (lowpass_oracle.rs:112-119) -/
def LowpassOracle.transBody (o : LowpassOracle α) (x : Arr α) (idx : Int) (_ : Unit) :
    Res (Option (Arr α × ParallelCut α) × Unit) := do
  let col ← nthI32 o.spectrum idx
  let val ← col.dot x
  if Scalar.lt val 0 then .ok (some (negVec col, ⟨-val, none⟩), ()) else .ok (none, ())

/-- `LowpassOracle::assess_feas` (lowpass_oracle.rs:58-131) -/
def LowpassOracle.assessFeas (o : LowpassOracle α) (x : Arr α) :
    Res (Option (Arr α × ParallelCut α) × LowpassOracle α) := do
  let o := { o with moreAlt := true }
  let mdim : Int := (o.spectrum.length : Int)
  let first ← nthI32 o.spectrum 0
  let ndim := first.len
  let (r, idx1, _) ← rrLoop 0 o.nwpass (o.passBody x) o.nwpass.toNat o.idx1 ()
  let o := { o with idx1 := idx1 }
  match r with
  | some cut => .ok (some cut, o)
  | none => do
    let (r, idx3, st) ← rrLoop o.nwstop mdim (o.stopBody x) (mdim - o.nwstop).toNat o.idx3 (none, -1)
    let o := { o with idx3 := idx3, fmax := st.1, kmax := st.2 }
    match r with
    | some cut => .ok (some cut, o)
    | none => do
      let (r, idx2, _) ← rrLoop o.nwpass o.nwstop (o.transBody x) (o.nwstop - o.nwpass).toNat o.idx2 ()
      let o := { o with idx2 := idx2 }
      match r with
      | some cut => .ok (some cut, o)
      | none => do
        let o := { o with moreAlt := false }
        let x0 ← x.idx 0
        if Scalar.lt x0 0 then do
          let g ← (Arr.new ndim : Arr α).setIdx 0 (-1)
          .ok (some (g, ⟨-x0, none⟩), o)
        else .ok (none, o)

/-- as a feasibility oracle; `update` is the trait's default, which does nothing (cutting_plane.rs:125) -/
def LowpassOracle.oracleFeas : OracleFeas (LowpassOracle α) (Arr α) (ParallelCut α) α :=
  ⟨LowpassOracle.assessFeas, fun o _ => .ok o⟩

/-- `LowpassOracle::assess_optim` (lowpass_oracle.rs:137-150).  After acceptance `kmax` is indexed before `fmax` is
used, so `fmax` is a number there. -/
def LowpassOracle.assess (o : LowpassOracle α) (x : Arr α) (spSq : α) :
    Res (((Arr α × ParallelCut α) × Bool) × α × LowpassOracle α) := do
  let (r, o) ← ({ o with spSq := spSq }).assessFeas x
  match r with
  | some cut => .ok ((cut, false), spSq, o)
  | none => do
    let col ← nthI32 o.spectrum o.kmax
    let fmax ← Res.ofOption o.fmax
    .ok (((col, ⟨0, some fmax⟩), true), fmax, o)

/-- as an optimisation oracle (lowpass_oracle.rs:134-151) -/
def LowpassOracle.oracle : OracleOptim (LowpassOracle α) (Arr α) (ParallelCut α) α := ⟨LowpassOracle.assess⟩

/-- `create_lowpass_case` (lowpass_oracle.rs:153-168) -/
def createLowpassCase (ndim : Nat) : Res (LowpassOracle α) :=
  let delta1 : α := nat 20 * Scalar.log10 (dec 25 3 * Scalar.pi)
  let delta2 : α := nat 20 * Scalar.log10 (dec 125 3 * Scalar.pi)
  let lowPass : α := Scalar.powf (nat 10) (-delta1 / nat 20)
  let upPass : α := Scalar.powf (nat 10) (delta1 / nat 20)
  let stopPass : α := Scalar.powf (nat 10) (delta2 / nat 20)
  LowpassOracle.new ndim (dec 12 2) (dec 20 2) (lowPass * lowPass) (upPass * upPass) (stopPass * stopPass)

end Ellalgo
