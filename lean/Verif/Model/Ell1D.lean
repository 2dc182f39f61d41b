import Verif.Model.CuttingPlane

/-! # Model of `src/ell1d.rs`

The file is not declared in `lib.rs`; it is written for an older `SearchSpace` trait, whose one function `update` returns the status and
`tsq`.  It dereferences `grad: f64` and `beta0: f64` (lines 61-62), which stand for the values. -/

namespace Ellalgo
variable {α : Type} [Scalar α]

/-- `Ell1D` (ell1d.rs:13-17) -/
structure Ell1D (α : Type) where
  r : α
  xc : α

/-- `Ell1D::new` (ell1d.rs:37-41) -/
def Ell1D.new (l u : α) : Ell1D α :=
  let radius := (u - l) / nat 2
  ⟨radius, l + radius⟩

/-- `Ell1D::set_xc` (ell1d.rs:48-50) -/
def Ell1D.setXc (e : Ell1D α) (xc : α) : Ell1D α := { e with xc := xc }

/-- `Ell1D::update_single` (ell1d.rs:60-86): status, `tsq`, new state -/
def Ell1D.updateSingle (e : Ell1D α) (grad beta : α) : (CutStatus × α) × Ell1D α :=
  let temp := e.r * grad
  let tau := if Scalar.lt grad 0 then -temp else temp
  let tsq := tau * tau
  if Scalar.beq beta 0 then
    let r := e.r / nat 2
    ((.success, tsq), ⟨r, e.xc + (if Scalar.gt grad 0 then -r else r)⟩)
  else if Scalar.gt beta tau then ((.noSoln, tsq), e)
  else if Scalar.lt beta (-tau) then ((.noEffect, tsq), e)
  else
    let bound := e.xc - beta / grad
    let upper := if Scalar.gt grad 0 then bound else e.xc + e.r
    let lower := if Scalar.gt grad 0 then e.xc - e.r else bound
    let r := (upper - lower) / nat 2
    ((.success, tsq), ⟨r, lower + r⟩)

/-- `Ell1D` as a search space of today's loops (ell1d.rs:89-130, cutting_plane.rs:154-182): all updates are `update_single`,
and the `tsq` that the older trait returned is kept beside the state, where today's trait wants it -/
def Ell1D.space : Space (Ell1D α × α) α α α where
  xc s := s.1.xc
  tsq s := s.2
  updateBias s c := let u := s.1.updateSingle c.1 c.2; .ok (u.1.1, u.2, u.1.2)
  updateCentral s c := let u := s.1.updateSingle c.1 c.2; .ok (u.1.1, u.2, u.1.2)
  updateQ s c := let u := s.1.updateSingle c.1 c.2; .ok (u.1.1, u.2, u.1.2)
  setXc s x := (s.1.setXc x, s.2)

end Ellalgo
