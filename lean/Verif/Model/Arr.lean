import Verif.Model.Scalar

/-! # Model of `src/arr.rs` -/

namespace Ellalgo

/-- `pub struct Arr { data, rows, cols }` (arr.rs:10-16).  A vector has `cols = 0`. -/
structure Arr (α : Type) where
  data : List α
  rows : Nat
  cols : Nat
  deriving Repr

namespace Arr
variable {α : Type} [Scalar α]

/-- `Arr::new` (arr.rs:19-25) -/
def new (n : Nat) : Arr α := ⟨List.replicate n 0, n, 0⟩
/-- `Arr::zeros` (arr.rs:26-32) -/
def zeros (r c : Nat) : Arr α := ⟨List.replicate (r * c) 0, r, c⟩
omit [Scalar α] in
/-- `Arr::full` (arr.rs:33-39) -/
def full (r c : Nat) (v : α) : Arr α := ⟨List.replicate (r * c) v, r, c⟩
omit [Scalar α] in
/-- `Arr::from(Vec<f64>)` (arr.rs:56-63, 206-215) -/
def ofList (v : List α) : Arr α := ⟨v, v.length, 0⟩
/-- `Arr::ones` (arr.rs:64-70) -/
def ones (n : Nat) : Arr α := ⟨List.replicate n 1, n, 0⟩
omit [Scalar α] in
/-- `Arr::from_fn` (arr.rs:71-78), for a pure closure -/
def fromFn (n : Nat) (f : Nat → α) : Arr α := ⟨(List.range n).map f, n, 0⟩
omit [Scalar α] in
/-- `Arr::from_shape_vec` / `Arr::with_data` (arr.rs:85-88, 148-151) -/
def fromShapeVec (rows cols : Nat) (data : List α) : Res (Arr α) := do
  Res.assert (data.length == rows * cols)
  .ok ⟨data, rows, cols⟩

omit [Scalar α] in
/-- `size` / `len` (arr.rs:106-109, 122-125) -/
def len (a : Arr α) : Nat := a.data.length
omit [Scalar α] in
/-- `is_2d` (arr.rs:118-121) -/
def is2d (a : Arr α) : Bool := decide (0 < a.cols)

omit [Scalar α] in
/-- `a[i]` reading (arr.rs:173-179): out of bounds panics -/
def idx (a : Arr α) (i : Nat) : Res α := Res.ofOption a.data[i]?
omit [Scalar α] in
/-- `a[i] = v` (arr.rs:180-185) -/
def setIdx (a : Arr α) (i : Nat) (v : α) : Res (Arr α) :=
  if i < a.data.length then .ok { a with data := a.data.set i v } else .panic

omit [Scalar α] in
/-- `get` / `at` (arr.rs:153-157, 163-166): `debug_assert!(is_2d)` then flat index -/
def get (a : Arr α) (i j : Nat) : Res α := do
  Res.assert a.is2d
  a.idx (i * a.cols + j)
omit [Scalar α] in
/-- `set` (arr.rs:158-162) -/
def set (a : Arr α) (i j : Nat) (v : α) : Res (Arr α) := do
  Res.assert a.is2d
  a.setIdx (i * a.cols + j) v

omit [Scalar α] in
/-- `a[(i, j)]` reading (arr.rs:186-192): unlike `get`, no `is_2d` check -/
def idx2 (a : Arr α) (i j : Nat) : Res α := a.idx (i * a.cols + j)
omit [Scalar α] in
/-- `a[(i, j)] = v` and `*a.at_mut(i, j) = v` (arr.rs:167-170, 193-198): unlike `set`, no `is_2d` check -/
def setIdx2 (a : Arr α) (i j : Nat) (v : α) : Res (Arr α) := a.setIdx (i * a.cols + j) v

/-- `Arr::eye` (arr.rs:40-46) -/
def eye (n : Nat) : Res (Arr α) :=
  forRange 0 n (zeros n n) fun i a => a.set i i 1

/-- `Arr::from_diag` (arr.rs:47-55) -/
def fromDiag (v : Arr α) : Res (Arr α) := do
  Res.assert (!v.is2d)
  let n := v.len
  forRange 0 n (zeros n n) fun i a => do
    let x ← v.idx i
    a.set i i x

omit [Scalar α] in
/-- `row` (arr.rs:95-104): the slice `data[start..start+cols]` panics when out of bounds -/
def row (a : Arr α) (i : Nat) : Res (Arr α) := do
  Res.assert a.is2d
  Res.assert (decide (i < a.rows))
  let start := i * a.cols
  Res.assert (decide (start + a.cols ≤ a.data.length))
  .ok ⟨(a.data.drop start).take a.cols, a.cols, 0⟩

omit [Scalar α] in
/-- element-wise combination after `assert_eq!(size, size)`, keeping the left shape
    (arr.rs:251-348) -/
def zipWith (f : α → α → α) (a b : Arr α) : Res (Arr α) := do
  Res.assert (a.len == b.len)
  .ok { a with data := List.zipWith f a.data b.data }

/-- `&a + &b`, `a += &b` (arr.rs:251-259, 270-277, 298-314) -/
def add (a b : Arr α) : Res (Arr α) := zipWith (· + ·) a b
/-- `&a - &b`, `a -= &b` (arr.rs:260-268, 278-285, 315-331) -/
def sub (a b : Arr α) : Res (Arr α) := zipWith (· - ·) a b
/-- `&a * &b` element-wise (arr.rs:286-296, 332-348) -/
def mul (a b : Arr α) : Res (Arr α) := zipWith (· * ·) a b

omit [Scalar α] in
/-- `map` (arr.rs:493-503), for a pure closure -/
def map (f : α → α) (a : Arr α) : Arr α := { a with data := a.data.map f }
/-- `a += s` (arr.rs:217-224) -/
def addScalar (a : Arr α) (s : α) : Arr α := a.map (· + s)
/-- `a -= s` (arr.rs:225-232) -/
def subScalar (a : Arr α) (s : α) : Arr α := a.map (· - s)
/-- `a *= s`, `&a * s`, `s * &a` (arr.rs:233-240, 350-383) -/
def smul (a : Arr α) (s : α) : Arr α := a.map (· * s)
/-- `a /= s`, `&a / s` (arr.rs:241-249, 385-401): multiplies by `1.0 / s` -/
def divScalar (a : Arr α) (s : α) : Arr α := a.map (· * (1 / s))
/-- `-a` (arr.rs:403-423) -/
def neg (a : Arr α) : Arr α := a.map (- ·)

/-- `dot_mv` (arr.rs:426-442).  The accumulator `out_i` starts at `0.0`. -/
def dotMv (a x : Arr α) : Res (Arr α) := do
  Res.assert a.is2d
  Res.assert (!x.is2d)
  Res.assert (a.cols == x.len)
  let out ← (List.range a.rows).mapM fun i =>
    let rs := i * a.cols
    forRange 0 a.cols (0 : α) fun j acc => do
      let m ← a.idx (rs + j)
      let xj ← x.idx j
      .ok (acc + m * xj)
  .ok ⟨out, a.rows, 0⟩

/-- `dot` (arr.rs:443-451).  `Iterator::sum` is a left fold; its neutral start value is `0`
    (newer toolchains start at `-0.0`, which only matters for the sign of a zero result). -/
def dot (a b : Arr α) : Res α := do
  Res.assert (!a.is2d && !b.is2d)
  Res.assert (a.len == b.len)
  .ok ((List.zipWith (· * ·) a.data b.data).foldl (· + ·) 0)

/-- `outer` (arr.rs:452-468) -/
def outer (a b : Arr α) : Res (Arr α) := do
  Res.assert (!a.is2d && !b.is2d)
  let m := a.len
  let n := b.len
  forRange 0 m (⟨List.replicate (m * n) 0, m, n⟩ : Arr α) fun i d =>
    let rs := i * n
    forRange 0 n d fun j d => do
      let x ← a.idx i
      let y ← b.idx j
      d.setIdx (rs + j) (x * y)

/-- `rank_one_update` (arr.rs:469-485); note the row stride is `rows`, not `cols`. -/
def rankOneUpdate (a : Arr α) (alpha : α) (u : Arr α) : Res (Arr α) := do
  Res.assert a.is2d
  Res.assert (!u.is2d)
  let n := a.rows
  Res.assert (n == u.len)
  forRange 0 n a fun i a => do
    let ui ← u.idx i
    let rs := i * n
    forRange 0 (i + 1) a fun j a => do
      let uj ← u.idx j
      let old ← a.idx (rs + j)
      let a ← a.setIdx (rs + j) (old + alpha * ui * uj)
      if i != j then do
        let v ← a.idx (rs + j)
        a.setIdx (j * n + i) v
      else .ok a

omit [Scalar α] in
/-- `copy_from` (arr.rs:486-489) -/
def copyFrom (a b : Arr α) : Res (Arr α) := do
  Res.assert (a.len == b.len)
  .ok { a with data := b.data }

/-- `sum` (arr.rs:490-492), see the note at `dot` for the start value -/
def sum (a : Arr α) : α := a.data.foldl (· + ·) 0

/-- `linspace` (arr.rs:506-520) -/
def linspace (start stop : α) (n : Nat) : Res (Arr α) :=
  if n == 0 then .ok (new n)
  else if n == 1 then (new n : Arr α).setIdx 0 start
  else
    let step := (stop - start) / nat (n - 1)
    forRange 0 n (new n) fun i a => a.setIdx i (start + step * nat i)

/-- `arange` (arr.rs:522-533) -/
def arange (start stop : α) : Res (Arr α) :=
  let n := if Scalar.gt stop start then Scalar.toUsize (stop - start) else 0
  forRange 0 n (new n) fun i a => a.setIdx i (start + nat i)

/-- `make_same_shape` (arr.rs:535-541) -/
def makeSameShape (a : Arr α) : Arr α :=
  if a.is2d then zeros a.rows a.cols else new a.rows

/-- the common body of `cos`, `ln`, `abs`, `exp`, `sqrt` (arr.rs:543-577) -/
def mapFn (f : α → α) (a : Arr α) : Res (Arr α) :=
  forRange 0 a.len a.makeSameShape fun i o => do
    let x ← a.idx i
    o.setIdx i (f x)

/-- `arr::cos` (arr.rs:543-549) -/
def cos (a : Arr α) : Res (Arr α) := mapFn Scalar.cos a
/-- `arr::ln` (arr.rs:550-556) -/
def ln (a : Arr α) : Res (Arr α) := mapFn Scalar.ln a
/-- `arr::abs` (arr.rs:557-563) -/
def abs (a : Arr α) : Res (Arr α) := mapFn Scalar.abs a
/-- `arr::exp` (arr.rs:564-570) -/
def exp (a : Arr α) : Res (Arr α) := mapFn Scalar.exp a
/-- `arr::sqrt` (arr.rs:571-577) -/
def sqrt (a : Arr α) : Res (Arr α) := mapFn Scalar.sqrt a

end Arr
end Ellalgo
