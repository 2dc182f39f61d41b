import Verif.Spec.Ellipsoid

/-! What a cut means, and which cuts are admissible. -/

namespace Ellalgo
open Matrix

/-- A cut type that can be read as a pair of bounds: `gᵀ(x - xc) + lo ≤ 0` and, if `hi = some b`,
`0 ≤ gᵀ(x - xc) + b`; its three strategies are those of the corresponding `ParallelCut`. -/
class Cut (T : Type) extends CutType T ℝ where
  lo : T → ℝ
  hi : T → Option ℝ
  call_eq : ∀ k c h tsq, CutType.call k c h tsq = CutType.call k (⟨lo c, hi c⟩ : ParallelCut ℝ) h tsq

noncomputable instance : Cut (SingleCut ℝ) where
  lo c := c.beta
  hi _ := none
  call_eq k _ _ _ := by cases k <;> rfl

noncomputable instance : Cut (ParallelCut ℝ) where
  lo c := c.beta0
  hi c := c.beta1
  call_eq _ _ _ _ := rfl

@[simp] theorem Cut.lo_single (b : ℝ) : Cut.lo (⟨b⟩ : SingleCut ℝ) = b := rfl
@[simp] theorem Cut.hi_single (b : ℝ) : Cut.hi (⟨b⟩ : SingleCut ℝ) = none := rfl
@[simp] theorem Cut.lo_parallel (b : ℝ) (b1 : Option ℝ) : Cut.lo (⟨b, b1⟩ : ParallelCut ℝ) = b := rfl
@[simp] theorem Cut.hi_parallel (b : ℝ) (b1 : Option ℝ) : Cut.hi (⟨b, b1⟩ : ParallelCut ℝ) = b1 := rfl

/-- The lower bound an update kind uses: central cuts ignore `beta` and use 0. -/
def UpdateKind.lo (k : UpdateKind) (b : ℝ) : ℝ := if k = .central then 0 else b

/-- the values `t = gᵀ(x - xc)` that satisfy the cut -/
def Cut.Sat {T : Type} [Cut T] (k : UpdateKind) (c : T) (t : ℝ) : Prop :=
  t + k.lo (Cut.lo c) ≤ 0 ∧ ∀ b, Cut.hi c = some b → 0 ≤ t + b

/-- Conditions under which the strategy keeps every point satisfying the cut
(`tsq = τ²`; `n` dimension). Everything outside is listed in DESIGN.md, "Findings". -/
def Cut.Adm {T : Type} [Cut T] (n : Nat) (k : UpdateKind) (c : T) (tsq : ℝ) : Prop :=
  match Cut.hi c with
  | none => AdmSingle n k (Cut.lo c) tsq
  | some b1 =>
    if k = .central then 0 < b1
    else Cut.lo c < b1 ∧ (√tsq ≤ b1 → AdmSingle n k (Cut.lo c) tsq) ∧
      (b1 < √tsq → -√tsq < b1 ∧ (k = .bias → 0 ≤ tsq + n * (Cut.lo c * b1)))
where
  /-- single cuts: central always; bias `-τ/n ≤ β < τ`; q any `β ≠ τ` -/
  AdmSingle (n : Nat) (k : UpdateKind) (β tsq : ℝ) : Prop :=
    match k with
    | .central => True
    | .bias => 0 ≤ √tsq + n * β ∧ β < √tsq
    | .q => β ≠ √tsq

@[simp] theorem UpdateKind.lo_bias (b : ℝ) : UpdateKind.bias.lo b = b := by simp [UpdateKind.lo]
@[simp] theorem UpdateKind.lo_q (b : ℝ) : UpdateKind.q.lo b = b := by simp [UpdateKind.lo]
@[simp] theorem UpdateKind.lo_central (b : ℝ) : UpdateKind.central.lo b = 0 := by simp [UpdateKind.lo]

theorem Cut.adm_single (n : Nat) (k : UpdateKind) (b tsq : ℝ) :
    Cut.Adm n k (⟨b⟩ : SingleCut ℝ) tsq ↔ Adm.AdmSingle n k b tsq := by
  simp [Cut.Adm]

/-- `τ² = κ gᵀ M g` -/
noncomputable def Ell.tsqOf (n : Nat) (e : Ell ℝ) (g : Fin n → ℝ) : ℝ := e.kappa * (g ⬝ᵥ (e.M n *ᵥ g))
/-- `τ = √(κ gᵀ M g)`, the largest value of `gᵀ(x - xc)` over the ellipsoid -/
noncomputable def Ell.tau (n : Nat) (e : Ell ℝ) (g : Fin n → ℝ) : ℝ := √(e.tsqOf n g)

/-- Cuts that leave a full-dimensional ellipsoid: the admissible ones, and all bias cuts whose plane
crosses the interior (`-τ < lo < τ`, the second plane strictly beyond the first). -/
def Cut.NonDegenerate {T : Type} [Cut T] (n : Nat) (k : UpdateKind) (c : T) (tsq : ℝ) : Prop :=
  Cut.Adm n k c tsq ∨
    (k = .bias ∧ -√tsq < Cut.lo c ∧ Cut.lo c < √tsq ∧ ∀ b, Cut.hi c = some b → Cut.lo c < b)

/-- `Ell.Steps n P m e e'`: some sequence of updates leads from `e` to `e'`; each used an `n`-vector
gradient and satisfied `P kind state gradient cut`; exactly `m` of them reported `Success`. -/
inductive Ell.Steps {T : Type} [Cut T] (n : Nat)
    (P : UpdateKind → Ell ℝ → (Fin n → ℝ) → T → Prop) : Nat → Ell ℝ → Ell ℝ → Prop
  | nil (e : Ell ℝ) : Steps n P 0 e e
  | success {m : Nat} {e e1 e2 : Ell ℝ} {k : UpdateKind} {cut : Arr ℝ × T} (h : Steps n P m e e1)
      (hs : cut.1.IsVecShape n) (hP : P k e1 (cut.1.toVec n) cut.2)
      (hu : Ell.space.update k e1 cut = .ok (.success, e2)) : Steps n P (m + 1) e e2
  | rejected {m : Nat} {e e1 e2 : Ell ℝ} {k : UpdateKind} {cut : Arr ℝ × T} {st : CutStatus}
      (h : Steps n P m e e1) (hs : cut.1.IsVecShape n) (hP : P k e1 (cut.1.toVec n) cut.2)
      (hu : Ell.space.update k e1 cut = .ok (st, e2)) (hst : st ≠ .success) : Steps n P m e e2

end Ellalgo
