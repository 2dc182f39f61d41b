import Verif.Lib.Binary64
import Mathlib.Data.EReal.Basic

/-! The order of `f64`, and products with integers. -/

namespace Ellalgo.B64

/-- the place of a number on the extended line -/
noncomputable def place : B64 → EReal
  | nan => 0
  | inf s => if s then ⊥ else ⊤
  | a => (a.val : EReal)

theorem lt_iff (a b : B64) : Scalar.lt a b = true ↔ a ≠ nan ∧ b ≠ nan ∧ a.place < b.place := by
  show B64.lt a b = true ↔ _
  cases a with
  | nan => simp [B64.lt]
  | inf s =>
    cases b with
    | nan => simp [B64.lt]
    | inf t => cases s <;> cases t <;> simp [B64.lt, place]
    | zero t => cases s <;> simp [B64.lt, place, EReal.bot_lt_coe]
    | num t => cases s <;> simp [B64.lt, place, EReal.bot_lt_coe]
  | zero s =>
    cases b with
    | nan => simp [B64.lt]
    | inf t => cases t <;> simp [B64.lt, place, EReal.coe_lt_top]
    | zero t => simp [B64.lt, place]
    | num t => simp [B64.lt, place]
  | num s =>
    cases b with
    | nan => simp [B64.lt]
    | inf t => cases t <;> simp [B64.lt, place, EReal.coe_lt_top]
    | zero t => simp [B64.lt, place]
    | num t => simp [B64.lt, place]

theorem beq_iff (a b : B64) : Scalar.beq a b = true ↔ a ≠ nan ∧ b ≠ nan ∧ a.place = b.place := by
  show B64.beq a b = true ↔ _
  cases a with
  | nan => simp [B64.beq]
  | inf s =>
    cases b with
    | nan => simp [B64.beq]
    | inf t => cases s <;> cases t <;> simp [B64.beq, place]
    | zero t => cases s <;> simp [B64.beq, place]
    | num t => cases s <;> simp [B64.beq, place]
  | zero s =>
    cases b with
    | nan => simp [B64.beq]
    | inf t => cases t <;> simp [B64.beq, place]
    | zero t => simp [B64.beq, place]
    | num t => simp [B64.beq, place]
  | num s =>
    cases b with
    | nan => simp [B64.beq]
    | inf t => cases t <;> simp [B64.beq, place]
    | zero t => simp [B64.beq, place]
    | num t => simp [B64.beq, place]

theorem le_iff (a b : B64) : Scalar.le a b = true ↔ a ≠ nan ∧ b ≠ nan ∧ a.place ≤ b.place := by
  have h : Scalar.le a b = (Scalar.lt a b || Scalar.beq a b) := rfl
  rw [h, Bool.or_eq_true, lt_iff, beq_iff, le_iff_lt_or_eq]
  tauto

theorem ltInf_iff (a : B64) : Scalar.ltInf a = true ↔ a ≠ nan ∧ a.place < ⊤ := by
  cases a with
  | nan => exact ⟨fun h => absurd h Bool.false_ne_true, fun h => absurd rfl h.1⟩
  | inf s => cases s
             · exact ⟨fun h => absurd h Bool.false_ne_true, fun h => by simp [place] at h⟩
             · exact ⟨fun _ => by simp [place], fun _ => rfl⟩
  | zero s => exact ⟨fun _ => ⟨by simp, EReal.coe_lt_top _⟩, fun _ => rfl⟩
  | num s => exact ⟨fun _ => ⟨by simp, EReal.coe_lt_top _⟩, fun _ => rfl⟩

theorem place_finite {a : B64} (h : a.Finite) : a ≠ nan ∧ a.place = (a.val : EReal) := by
  cases a with
  | nan => exact h.elim
  | inf s => exact h.elim
  | zero s => exact ⟨by simp, rfl⟩
  | num s => exact ⟨by simp, rfl⟩

end Ellalgo.B64
