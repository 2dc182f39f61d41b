import Verif.Spec.Ellipsoid

/-! Two problems that differ by an affine change of coordinates `y = A x + b`. -/

namespace Ellalgo
open Matrix

/-- both computations return related values, or both panic -/
def Res.Rel {β γ : Type} (R : β → γ → Prop) : Res β → Res γ → Prop
  | .ok b, .ok c => R b c
  | .panic, .panic => True
  | _, _ => False

/-- both absent, or both present and related -/
def OptRel {β γ : Type} (R : β → γ → Prop) : Option β → Option γ → Prop
  | some b, some c => R b c
  | none, none => True
  | _, _ => False

/-- multiply the offsets of a cut by `s` -/
def SingleCut.scale (s : ℝ) (c : SingleCut ℝ) : SingleCut ℝ := ⟨s * c.beta⟩
/-- multiply the offsets of a cut by `s` -/
def ParallelCut.scale (s : ℝ) (c : ParallelCut ℝ) : ParallelCut ℝ := ⟨s * c.beta0, c.beta1.map (s * ·)⟩

variable {n : Nat} (A : Matrix (Fin n) (Fin n) ℝ) (b : Fin n → ℝ)

/-- `y = A x + b` -/
def PtAff (x y : Arr ℝ) : Prop :=
  x.IsVecShape n ∧ y.IsVecShape n ∧ y.toVec n = A *ᵥ x.toVec n + b

/-- the same cut in the two coordinate systems: the gradient `g` with respect to `x` is `Aᵀ` times the gradient with respect
to `y`; the offsets are equal -/
def CutAff {T : Type} (c d : Arr ℝ × T) : Prop :=
  c.1.IsVecShape n ∧ d.1.IsVecShape n ∧ c.1.toVec n = Aᵀ *ᵥ d.1.toVec n ∧ c.2 = d.2

/-- the ellipsoid `e2` is the image of `e1` under `x ↦ A x + b` -/
structure EllAff (e1 e2 : Ell ℝ) : Prop where
  sh1 : e1.Shaped n
  sh2 : e2.Shaped n
  symm : (e1.M n).IsSymm
  M : e2.M n = A * e1.M n * Aᵀ
  c : e2.c n = A *ᵥ e1.c n + b
  kappa : e2.kappa = e1.kappa
  helper : e2.helper = e1.helper
  defer : e2.noDeferTrick = e1.noDeferTrick

end Ellalgo
