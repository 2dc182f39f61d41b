import Verif.Model.Arr

/-! # Model of `src/oracles/ldlt_mgr.rs` -/

namespace Ellalgo

/-- `pub struct LDLTMgr` (ldlt_mgr.rs:3-8).  `storage: Vec<f64>` is kept in an `Arr`, of which only the flat
data is used (all accesses are `storage[r * ndim + c]`). -/
structure LDLTMgr (α : Type) where
  pos : Nat × Nat
  wit : Arr α
  ndim : Nat
  storage : Arr α

namespace LDLTMgr
variable {α : Type} [Scalar α]

/-- `LDLTMgr::new` (ldlt_mgr.rs:11-18) -/
def new (ndim : Nat) : LDLTMgr α := ⟨(0, 0), Arr.new ndim, ndim, Arr.zeros ndim ndim⟩

/-- inner `for j in start..i` of both factorisations (ldlt_mgr.rs:34-47, 67-79), preceded by
`diag = get_elem(i, start)` (33, 66) and followed by `storage[i,i] = diag` (48, 80).  Result: `diag` and the
storage.  `get_elem` may panic. -/
def factorRow (getElem : Nat → Nat → Res α) (n start i : Nat) (st : Arr α) : Res (α × Arr α) := do
  let d0 ← getElem i start
  let (diag, st) ← forRange start i (d0, st) fun j (p : α × Arr α) => do
    let (diag, st) := p
    let st ← st.setIdx (j * n + i) diag
    let djj ← st.idx (j * n + j)
    let val := diag / djj
    let st ← st.setIdx (i * n + j) val
    let stop := j + 1
    let s ← forRange start stop (0 : α) fun k s => do
      let a ← st.idx (i * n + k)
      let b ← st.idx (k * n + stop)
      .ok (s + a * b)
    let e ← getElem i stop
    .ok (e - s, st)
  let st ← st.setIdx (i * n + i) diag
  .ok (diag, st)

/-- outer loop of `factor` (ldlt_mgr.rs:30-53): `k` rows left, next row `i`; result `(pos, storage)` -/
def factorLoop (getElem : Nat → Nat → Res α) (n : Nat) :
    Nat → Nat → Arr α → Res ((Nat × Nat) × Arr α)
  | 0, _, st => .ok ((0, 0), st)
  | k + 1, i, st => do
    let (diag, st) ← factorRow getElem n 0 i st
    if Scalar.le diag 0 then .ok ((0, i + 1), st)
    else factorLoop getElem n k (i + 1) st

/-- `is_spd` (ldlt_mgr.rs:92-94) -/
def isSpd (m : LDLTMgr α) : Bool := m.pos.2 == 0

/-- `factor` (ldlt_mgr.rs:29-55) -/
def factor (m : LDLTMgr α) (getElem : Nat → Nat → Res α) : Res (Bool × LDLTMgr α) := do
  let (pos, st) ← factorLoop getElem m.ndim m.ndim 0 m.storage
  let m' := { m with pos := pos, storage := st }
  .ok (m'.isSpd, m')

/-- `factorize` (ldlt_mgr.rs:22-24) -/
def factorize (m : LDLTMgr α) (mat : Arr α) : Res (Bool × LDLTMgr α) := m.factor fun i j => mat.get i j

/-- outer loop of `factor_with_allow_semidefinite` (ldlt_mgr.rs:63-87) -/
def factorSemiLoop (getElem : Nat → Nat → Res α) (n : Nat) :
    Nat → Nat → Nat → Arr α → Res ((Nat × Nat) × Arr α)
  | 0, _, _, st => .ok ((0, 0), st)
  | k + 1, i, start, st => do
    let (diag, st) ← factorRow getElem n start i st
    if Scalar.lt diag 0 then .ok ((start, i + 1), st)
    else if Scalar.beq diag 0 then factorSemiLoop getElem n k (i + 1) (i + 1) st
    else factorSemiLoop getElem n k (i + 1) start st

/-- `factor_with_allow_semidefinite` (ldlt_mgr.rs:59-89) -/
def factorSemi (m : LDLTMgr α) (getElem : Nat → Nat → Res α) : Res (Bool × LDLTMgr α) := do
  let (pos, st) ← factorSemiLoop getElem m.ndim m.ndim 0 0 m.storage
  let m' := { m with pos := pos, storage := st }
  .ok (m'.isSpd, m')

/-- `witness` (ldlt_mgr.rs:98-111) -/
def witness (m : LDLTMgr α) : Res (α × LDLTMgr α) := do
  Res.assert (!m.isSpd)
  let (start, pos) := m.pos
  let mm := pos - 1
  let wit ← m.wit.setIdx mm 1
  let wit ← forDown (start + 1) (mm + 1) wit fun i wit => do
    let s ← forRange i pos (0 : α) fun k s => do
      let a ← m.storage.idx (k * m.ndim + (i - 1))
      let b ← wit.idx k
      .ok (s + a * b)
    wit.setIdx (i - 1) (-s)
  let d ← m.storage.idx (mm * m.ndim + mm)
  .ok (-d, { m with wit := wit })

/-- `sym_quad` (ldlt_mgr.rs:115-124) -/
def symQuad (m : LDLTMgr α) (mat : Arr α) : Res α :=
  let (start, stop) := m.pos
  forRange start stop (0 : α) fun i result =>
    forRange start stop result fun j result => do
      let wi ← m.wit.idx i
      let mij ← mat.get i j
      let wj ← m.wit.idx j
      .ok (result + wi * mij * wj)

/-- `sqrt` (ldlt_mgr.rs:128-139) -/
def sqrt (m : LDLTMgr α) : Res (Arr α) := do
  Res.assert m.isSpd
  forRange 0 m.ndim (Arr.zeros m.ndim m.ndim) fun i r => do
    let d ← m.storage.idx (i * m.ndim + i)
    let val := Scalar.sqrt d
    let r ← r.set i i val
    forRange (i + 1) m.ndim r fun j r => do
      let l ← m.storage.idx (j * m.ndim + i)
      r.set i j (l * val)

end LDLTMgr
end Ellalgo
