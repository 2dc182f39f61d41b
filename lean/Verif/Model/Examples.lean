import Verif.Model.RoundRobin

/-! # Models of the example oracles `src/example1.rs`, `example1_rr.rs`, `example3.rs`, `example4.rs` -/

namespace Ellalgo
variable {α : Type} [Scalar α]

/-- `example1::MyOracle::assess_optim` (example1.rs:11-30); the oracle has no state -/
def ex1Assess (o : Unit) (xc : Arr α) (gamma : α) : Res (((Arr α × SingleCut α) × Bool) × α × Unit) := do
  let x ← xc.idx 0
  let y ← xc.idx 1
  let f0 := x + y
  let f1 := f0 - nat 3
  if Scalar.gt f1 0 then .ok (((Arr.ofList [1, 1], ⟨f1⟩), false), gamma, o)
  else
    let f2 := -x + y + 1
    if Scalar.gt f2 0 then .ok (((Arr.ofList [-1, 1], ⟨f2⟩), false), gamma, o)
    else
      let f3 := gamma - f0
      if Scalar.gt f3 0 then .ok (((Arr.ofList [-1, -1], ⟨f3⟩), false), gamma, o)
      else .ok (((Arr.ofList [-1, -1], ⟨0⟩), true), f0, o)

/-- `example1::MyOracle` as a trait object (example1.rs:8-30) -/
def ex1Oracle : OracleOptim Unit (Arr α) (SingleCut α) α := ⟨ex1Assess⟩

/-- `if fj > 0.0 { return Some((grad, SingleCut(fj))) }` (example2_tests.rs:42-44; the same test in the loops of example1_rr.rs and example4.rs) -/
def cutIf (f : α) (g : List α) : Res (Option (Arr α × SingleCut α) × Unit) :=
  if Scalar.gt f 0 then .ok (some (Arr.ofList g, ⟨f⟩), ()) else .ok (none, ())

/-- one round of the loop in example1_rr.rs:31-49 -/
def ex1rrBody (x y f0 gamma : α) (idx : Int) (_ : Unit) : Res (Option (Arr α × SingleCut α) × Unit) :=
  if idx = 0 then cutIf (f0 - nat 3) [1, 1]
  else if idx = 1 then cutIf (-x + y + 1) [-1, 1]
  else if idx = 2 then cutIf (gamma - f0) [-1, -1]
  else .panic

/-- `example1_rr::MyOracle::assess_optim` (example1_rr.rs:20-53); the state is `idx`, initially `-1` -/
def ex1rrAssess (idx : Int) (xc : Arr α) (gamma : α) :
    Res (((Arr α × SingleCut α) × Bool) × α × Int) := do
  let x ← xc.idx 0
  let y ← xc.idx 1
  let f0 := x + y
  let (r, idx, _) ← rrLoop 0 3 (ex1rrBody x y f0 gamma) 3 idx ()
  match r with
  | some cut => .ok ((cut, false), gamma, idx)
  | none => .ok (((Arr.ofList [-1, -1], ⟨0⟩), true), f0, idx)

/-- `example1_rr::MyOracle` as a trait object (example1_rr.rs:16-54) -/
def ex1rrOracle : OracleOptim Int (Arr α) (SingleCut α) α := ⟨ex1rrAssess⟩

/-- `MyOracle3` (example3.rs:6-9) -/
structure Ex3 (α : Type) where
  idx : Int
  target : α

/-- `MyOracle3::default` (example3.rs:11-19): target `-1e100` -/
def Ex3.default : Ex3 α := ⟨-1, -(nat (10 ^ 100))⟩

/-- one round of the loop in example3.rs:35-55 -/
def ex3Body (x y target : α) (idx : Int) (_ : Unit) : Res (Option (Arr α × SingleCut α) × Unit) :=
  if idx = 0 then cutIf (-x - 1) [-1, 0]
  else if idx = 1 then cutIf (-y - nat 2) [0, -1]
  else if idx = 2 then cutIf (x + y - 1) [1, 1]
  else if idx = 3 then cutIf (nat 2 * x - nat 3 * y - target) [nat 2, -(nat 3)]
  else .panic

/-- `MyOracle3::assess_feas` (example3.rs:24-58) -/
def Ex3.assess (o : Ex3 α) (xc : Arr α) : Res (Option (Arr α × SingleCut α) × Ex3 α) := do
  let x ← xc.idx 0
  let y ← xc.idx 1
  let (r, idx, _) ← rrLoop 0 4 (ex3Body x y o.target) 4 o.idx ()
  .ok (r, { o with idx := idx })

/-- `MyOracle3` as a trait object; `update` sets the target (example3.rs:60-62) -/
def Ex3.oracle : OracleFeas (Ex3 α) (Arr α) (SingleCut α) α := ⟨Ex3.assess, fun o g => .ok { o with target := g }⟩

/-- one round of the loop in example4.rs:33-53 -/
def ex4Body (x y f0 gamma : α) (idx : Int) (_ : Unit) : Res (Option (Arr α × SingleCut α) × Unit) :=
  if idx = 0 then cutIf (-x - 1) [-1, 0]
  else if idx = 1 then cutIf (-y - nat 2) [0, -1]
  else if idx = 2 then cutIf (x + y - 1) [1, 1]
  else if idx = 3 then cutIf (gamma - f0) [-(nat 2), nat 3]
  else .panic

/-- `example4::MyOracle::assess_optim` (example4.rs:21-57) -/
def ex4Assess (idx : Int) (xc : Arr α) (gamma : α) : Res (((Arr α × SingleCut α) × Bool) × α × Int) := do
  let x ← xc.idx 0
  let y ← xc.idx 1
  let f0 := nat 2 * x - nat 3 * y
  let (r, idx, _) ← rrLoop 0 4 (ex4Body x y f0 gamma) 4 idx ()
  match r with
  | some cut => .ok ((cut, false), gamma, idx)
  | none => .ok (((Arr.ofList [-(nat 2), nat 3], ⟨0⟩), true), f0, idx)

/-- `example4::MyOracle` as a trait object (example4.rs:17-57) -/
def ex4Oracle : OracleOptim Int (Arr α) (SingleCut α) α := ⟨ex4Assess⟩

end Ellalgo
