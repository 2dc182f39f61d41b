import Verif.Props.Lmi064
import Verif.Props.Lmi64Examples

/-! Cases that meet the hypotheses of C133 for the homogeneous oracle: `1 x₀ > 0`. -/

namespace Ellalgo.ExLmiQuery64
open Ellalgo Matrix ExLmi64 ExRun64 ExCg64

theorem forSize0 {α : Type} [Scalar α] : (lmi0 : LMI0Oracle α).ForSize 1 1 :=
  ⟨by
    intro f hf
    simp only [lmi0, List.mem_cons, List.not_mem_nil, or_false] at hf
    subst hf
    exact ⟨rfl, rfl, rfl⟩, rfl, ⟨rfl, ⟨rfl, rfl, rfl⟩, ⟨rfl, rfl, rfl⟩⟩⟩

/-- C133: a NaN is accepted -/
example : ∃ o', (lmi0 : LMI0Oracle B64).assess ⟨[.nan], 1, 0⟩ = .ok (none, o') := by
  obtain ⟨r, o', h1, -, -, h3, -⟩ := C133_lmi0_query (forSize0 (α := B64)) (x := ⟨[.nan], 1, 0⟩) ⟨rfl, rfl, rfl⟩
  have hr : r = none := h3.2 (passes_one (by
    show Scalar.le ((0 : B64) + 1 * B64.nan) 0 = false
    have e1 : (1 : B64) * B64.nan = B64.nan := by cases h : (1 : B64) <;> rfl
    have e2 : (0 : B64) + B64.nan = B64.nan := rfl
    rw [e1, e2]
    rfl))
  subst hr
  exact ⟨o', h1⟩

/-- C133: over the reals `x₀ = -2` is cut off with the pivot `-2`, and the gradient is `-1` times the square of the entry of the vector -/
example : ∃ g o' v, (lmi0 : LMI0Oracle ℝ).assess ⟨[-2], 1, 0⟩ = .ok (some (g, 2), o') ∧ g.vec 0 = -quadTo 1 v (fEntry (lmi0 : LMI0Oracle ℝ).matF 0) 1 := by
  obtain ⟨r, o', h1, -, -, h3, h4⟩ := C133_lmi0_query (forSize0 (α := ℝ)) (x := ⟨[-2], 1, 0⟩) ⟨rfl, rfl, rfl⟩
  have hA : (lmi0 : LMI0Oracle ℝ).entryOf 1 ⟨[-2], 1, 0⟩ 0 0 = -2 := by
    show (0 : ℝ) + 1 * -2 = -2
    norm_num
  cases r with
  | none =>
    obtain ⟨S, hS, hp⟩ := h3.1 rfl
    have := hp 0 (by norm_num)
    rw [hS.first 0 (by norm_num), hA] at this
    simp at this
  | some c =>
    obtain ⟨g, b⟩ := c
    obtain ⟨-, p, S, v, h5, h6, h7⟩ := h4 g b rfl
    have hp := h5.row
    obtain rfl : p = 0 := by omega
    have e := h5.table.first 0 (by norm_num)
    rw [hA] at e
    rw [e] at h6
    have h6 : b = 2 := by rw [h6]; norm_num
    subst h6
    exact ⟨g, o', v, h1, h7 0 (by norm_num)⟩

noncomputable def one1 : Arr B64 := ⟨[1], 1, 0⟩

noncomputable def one1' : Arr (Fl bin53) := ⟨[1], 1, 0⟩

theorem lmi0_same : LMI0Oracle.Same64 1 1 lmi0 lmi0 := ⟨⟨.cons ⟨rfl, rfl, .cons .one .nil⟩ .nil, rfl, forSize0.mats⟩, forSize0.mgr, forSize0.mgr⟩

theorem one1_safe : (lmi0 : LMI0Oracle (Fl bin53)).Safe 1 1 one1' := by
  have m11 : MulOk (1 : Fl bin53) 1 := ⟨under (by show (1 : ℝ) * 1 = 0 ∨ 1 / 4 ≤ |(1 : ℝ) * 1|; right; norm_num),
    over (by show |(1 : ℝ) * 1| ≤ 32; norm_num)⟩
  have a01 : AddOk (0 : Fl bin53) 1 := over (by show |(0 : ℝ) + 1| ≤ 32; norm_num)
  refine ⟨?_, ?_⟩
  · intro S p hp hb _
    obtain rfl : p = 0 := by omega
    refine ⟨fun j hj => ?_, fun b hb => ?_⟩
    · obtain rfl : j = 0 := by omega
      refine ⟨fun k hk => ?_, fun k hk => ?_⟩
      · obtain rfl : k = 0 := by omega
        exact m11
      · obtain rfl : k = 0 := by omega
        show AddOk 0 (1 * 1)
        rw [one_mul_one]; exact a01
    · obtain rfl : b = 0 := by omega
      exact ⟨fun k hk => absurd hk (by omega), fun k hk => absurd hk (by omega), fun h => absurd h (by omega), fun h => absurd h (by omega)⟩
  · intro S p v hp hb _ _ hv
    obtain rfl : p = 0 := by omega
    refine ⟨fun i hi => absurd hi (by omega), fun k hk i hi j hj => ?_⟩
    obtain rfl : i = 0 := by omega
    obtain rfl : j = 0 := by omega
    obtain rfl : k = 0 := by omega
    rw [hv.1]
    show MulOk 1 1 ∧ MulOk (1 * 1) 1 ∧ AddOk 0 (1 * 1 * 1)
    rw [one_mul_one, one_mul_one]
    exact ⟨m11, m11, a01⟩

theorem one1_same : one1.Same one1' := ⟨rfl, rfl, .cons .one .nil⟩

theorem one1_passes : LdlPasses ((lmi0 : LMI0Oracle B64).entryOf 1 one1) 1 := by
  obtain ⟨r, o', h1, -, -, h3, -⟩ := C133_lmi0_query (forSize0 (α := B64)) (x := one1) ⟨rfl, rfl, rfl⟩
  obtain ⟨r', o2, h1', -, -, h3', -⟩ := C133_lmi0_query (forSize0 (α := Fl bin53)) (x := one1') ⟨rfl, rfl, rfl⟩
  have hr : r' = none := h3'.2 (passes_one (by
    show Scalar.le ((0 : Fl bin53) + 1 * 1) 0 = false
    rw [one_mul_one]
    refine decide_eq_false ?_
    show ¬ rnd53 (0 + 1) ≤ 0
    rw [zero_add, show rnd53 1 = 1 from bin53.one]
    norm_num))
  have h := C124_lmi0_oracle lmi0_same one1_same ⟨rfl, rfl, rfl⟩ one1_safe
  rw [h1, h1', hr] at h
  refine h3.1 ?_
  have := h.1
  cases r with
  | none => rfl
  | some _ => exact this.elim

/-- C133: acceptance there means `x₀ > 0` up to the stated margin -/
example : (lmi0Mat64 1 1 (lmi0 : LMI0Oracle B64).matF one1 +
    (4 * (1 : Nat) * (1 + 1 + 1 : Nat) * (2 : ℝ) ^ (-53 : ℤ) * 1) • (1 : Matrix (Fin 1) (Fin 1) ℝ)).PosDef := by
  refine C133_lmi0_meaning lmi0_same ?_ (by norm_num) one1_same ⟨rfl, rfl, rfl⟩ one1_safe one1_passes ?_
  · intro f hf
    ext i j
    rw [Subsingleton.elim i j]
    rfl
  · intro i j
    have ei : i = 0 := Subsingleton.elim _ _
    have ej : j = 0 := Subsingleton.elim _ _
    subst ei ej
    unfold lmi0Size64
    rw [Fin.sum_univ_one]
    have e1 : (one1.vec64 1 0) = 1 := Same.one.2
    have e3 : (((lmi0 : LMI0Oracle B64).matF.getD (0 : Fin 1) (Arr.new 0)).mat64 1 0 0) = 1 := Same.one.2
    rw [e1, e3]
    simp

end Ellalgo.ExLmiQuery64
